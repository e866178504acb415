/-
C125: the string functions on arrays of strings.
-/
import Verif.Model.StringCall
import Verif.Props.BinaryLimits
import Verif.Props.CountProps

namespace Dynd

/-! ### Specification -/

/-- two dimensions fit together; `none` is `var` -/
def Meets : Option Nat → Option Nat → Prop
  | some n, some m => n = m ∨ n = 1 ∨ m = 1
  | _, _ => True

/-- the last dimensions, as many as both have, fit together -/
def Aligned (a b : List (Option Nat)) : Prop :=
  List.Forall₂ Meets (a.drop (a.length - b.length)) (b.drop (b.length - a.length))

/-- the type of the elements of the result -/
def strType : StrFn → Ty
  | .concat => .leaf .string
  | .count | .find | .rfind => .prim (.int .w64)
  | .startswith | .endswith | .contains => .prim .bool

/-- What the function says about two strings: the first occurrence, the last occurrence, the number of pieces around
    successive occurrences, … -/
def StrSays : StrFn → List Nat → List Nat → StrOut → Prop
  | .concat, x, y, .str s => s = x ++ y
  | .find, x, y, .num n =>
    (∃ k : Nat, n = k ∧ OccursAt x y k ∧ ∀ j, j < k → ¬ OccursAt x y j) ∨ (n = -1 ∧ ∀ j, ¬ OccursAt x y j)
  | .rfind, x, y, .num n =>
    (∃ k : Nat, n = k ∧ OccursAt x y k ∧ ∀ j, k < j → ¬ OccursAt x y j) ∨ (n = -1 ∧ ∀ j, ¬ OccursAt x y j)
  | .count, x, y, .num n => ∃ ps, Pieces y x ps ∧ n = (ps.length - 1 : Nat)
  | .contains, x, y, .bool b => b = true ↔ ∃ k, OccursAt x y k
  | .startswith, x, y, .bool b => b = true ↔ ∃ s, x = y ++ s
  | .endswith, x, y, .bool b => b = true ↔ ∃ s, x = s ++ y
  | _, _, _, _ => False

/-- The pairs of strings for which the functions work (C17, C20): no empty needle, for `rfind` at least two bytes, for
    `count` as in C18. -/
def StrSafe : StrFn → List Nat → List Nat → Prop
  | .find, _, y | .contains, _, y => y ≠ []
  | .rfind, _, y => 2 ≤ y.length
  | .count, x, y => CountSafe x y
  | _, _, _ => True

/-! ### The elements -/

/-- C125, an element of the result -/
theorem string_element_partial (f : StrFn) (x y : List Nat) (h : StrSafe f x y) : ∃ o, strKernel f x y = .ok o ∧ StrSays f x y o := by
  cases f with
  | concat =>
    refine ⟨.str (x ++ y), ?_, rfl⟩
    simp [strKernel, string_concat_exact, Res.bind_ok]
  | count =>
    obtain ⟨ps, hp, e⟩ := string_count_exact_partial x y h
    refine ⟨.num (ps.length - 1 : Nat), ?_, ps, hp, rfl⟩
    simp only [strKernel, e]; rfl
  | find =>
    rcases string_find_exact x y h with ⟨k, e, h1, h2⟩ | ⟨e, h1⟩
    · exact ⟨.num k, by simp only [strKernel, e]; rfl, .inl ⟨k, rfl, h1, h2⟩⟩
    · exact ⟨.num (-1), by simp only [strKernel, e]; rfl, .inr ⟨rfl, h1⟩⟩
  | rfind =>
    rcases string_rfind_exact_partial x y h with ⟨k, e, h1, h2⟩ | ⟨e, h1⟩
    · exact ⟨.num k, by simp only [strKernel, e]; rfl, .inl ⟨k, rfl, h1, h2⟩⟩
    · exact ⟨.num (-1), by simp only [strKernel, e]; rfl, .inr ⟨rfl, h1⟩⟩
  | startswith =>
    refine ⟨.bool (decide (y <+: x)), by simp only [strKernel, string_startswith_exact]; rfl, ?_⟩
    show decide (y <+: x) = true ↔ _
    rw [decide_eq_true_eq]
    exact ⟨fun ⟨s, h⟩ => ⟨s, h.symm⟩, fun ⟨s, h⟩ => ⟨s, h.symm⟩⟩
  | endswith =>
    refine ⟨.bool (decide (y <:+ x)), by simp only [strKernel, string_endswith_exact]; rfl, ?_⟩
    show decide (y <:+ x) = true ↔ _
    rw [decide_eq_true_eq]
    exact ⟨fun ⟨s, h⟩ => ⟨s, h.symm⟩, fun ⟨s, h⟩ => ⟨s, h.symm⟩⟩
  | contains =>
    obtain ⟨b, e, h1⟩ := string_contains_exact x y h
    exact ⟨.bool b, by simp only [strKernel, e]; rfl, h1⟩

/-! ### The check of the arguments -/

/-- the tag of a dimension -/
def fragTag : Option Nat → Int
  | some n => n
  | none => -1

theorem dimTag_arr (d : Option Nat) (ds : List (Option Nat)) (el : Ty) :
    dimTag (arrTy (d :: ds) el) = some (fragTag d, arrTy ds el) := by
  cases d <;> rfl

theorem taggedDims_arr (el : Ty) (y : List (Option Nat)) : ∀ x : List (Option Nat),
    taggedDims x.length (arrTy (x ++ y) el) = .ok (x.map fragTag, arrTy y el)
  | [] => rfl
  | d :: x => by
    show taggedDims (x.length + 1) (arrTy (d :: (x ++ y)) el) = _
    rw [taggedDims]
    simp only [dimTag_arr, taggedDims_arr el y x, Res.bind_ok, Res.pure_eq]
    rfl

theorem bcastSlot_meets (p q : Option Nat) (s : Option Int) : (∃ s', bcastSlot (fragTag p) (fragTag q) s = some s' ∧
    (s.isSome → s'.isSome) ∧ Meets p q) ∨ (bcastSlot (fragTag p) (fragTag q) s = none ∧ ¬ Meets p q) := by
  cases q with
  | none => exact .inl ⟨s, rfl, fun h => h, by cases p <;> trivial⟩
  | some m =>
    cases p with
    | none =>
      refine .inl ⟨some m, ?_, fun _ => rfl, trivial⟩
      show bcastSlot (-1) m s = _
      unfold bcastSlot
      rw [if_neg (by omega : ¬ (m : Int) = -2), if_neg (by omega : ¬ (m : Int) = -1), if_pos (.inl (by omega))]
    | some n =>
      show (∃ s', bcastSlot n m s = some s' ∧ _ ∧ (n = m ∨ n = 1 ∨ m = 1)) ∨ (bcastSlot n m s = none ∧ ¬ (n = m ∨ n = 1 ∨ m = 1))
      unfold bcastSlot
      rw [if_neg (by omega : ¬ (m : Int) = -2), if_neg (by omega : ¬ (m : Int) = -1)]
      by_cases h1 : (n : Int) < 0 ∨ (n : Int) = 1
      · rw [if_pos h1]
        exact .inl ⟨_, rfl, fun _ => rfl, .inr (.inl (by omega))⟩
      · rw [if_neg h1]
        by_cases h2 : (n : Int) ≠ m ∧ (m : Int) ≠ 1
        · rw [if_pos h2]
          exact .inr ⟨rfl, by omega⟩
        · rw [if_neg h2]
          exact .inl ⟨_, rfl, fun h => h, by omega⟩

theorem bcastTagged_meets (el : Ty) : ∀ (x y : List (Option Nat)) (s : List (Option Int)), x.length = y.length →
    s.length = x.length → (∀ z ∈ s, z.isSome) →
    (∃ s', bcastTagged (arrTy y el) (x.map fragTag) s = .ok (some s') ∧ (∀ z ∈ s', z.isSome) ∧ List.Forall₂ Meets x y) ∨
    (bcastTagged (arrTy y el) (x.map fragTag) s = .ok none ∧ ¬ List.Forall₂ Meets x y)
  | [], [], _, _, _, _ => .inl ⟨[], by simp only [List.map_nil, bcastTagged], by simp, List.Forall₂.nil⟩
  | [], _ :: _, _, h, _, _ => by cases h
  | _ :: _, [], _, h, _, _ => by cases h
  | p :: x, q :: y, [], _, hs, _ => by cases hs
  | p :: x, q :: y, z :: s, hl, hs, hz => by
    have hl' : x.length = y.length := by simpa using hl
    have hs' : s.length = x.length := by simpa using hs
    have e : bcastTagged (arrTy (q :: y) el) ((p :: x).map fragTag) (z :: s) =
        (match bcastSlot (fragTag p) (fragTag q) z with
          | none => .ok none
          | some s' => (bcastTagged (arrTy y el) (x.map fragTag) s).bind fun r => .ok (r.map (s' :: ·))) := by
      rw [List.map_cons, bcastTagged]
      simp only [dimTag_arr]
      rfl
    rw [e]
    rcases bcastSlot_meets p q z with ⟨s', e1, h1, h2⟩ | ⟨e1, h1⟩
    · rw [e1]
      rcases bcastTagged_meets el x y s hl' hs' (fun z h => hz z (List.mem_cons_of_mem _ h)) with ⟨t, e2, h3, h4⟩ | ⟨e2, h3⟩
      · refine .inl ⟨s' :: t, by simp only [e2]; rfl, ?_, .cons h2 h4⟩
        intro w hw
        rcases List.mem_cons.1 hw with rfl | hw
        · exact h1 (hz z List.mem_cons_self)
        · exact h3 w hw
      · exact .inr ⟨by simp only [e2]; rfl, fun h => by cases h with | cons _ h => exact h3 h⟩
    · rw [e1]
      exact .inr ⟨rfl, fun h => by cases h with | cons h _ => exact h1 h⟩

theorem readSlots_some : ∀ s : List (Option Int), (∀ z ∈ s, z.isSome) → ∃ l, readSlots s = .ok l
  | [], _ => ⟨[], rfl⟩
  | none :: s, h => by have := h none List.mem_cons_self; cases this
  | some z :: s, h => by
    obtain ⟨l, e⟩ := readSlots_some s (fun w hw => h w (List.mem_cons_of_mem _ hw))
    exact ⟨z :: l, by simp only [readSlots, e, Res.bind_ok, Res.pure_eq]⟩

theorem growFragment_aligned (junk : Nat → Int) (a b : List (Option Nat)) (el : Ty) (hb : b.length ≠ 0) :
    (∃ s, growFragment junk (a.map fragTag) b.length (arrTy b el) = .ok (some s) ∧ Aligned a b) ∨
    (growFragment junk (a.map fragTag) b.length (arrTy b el) = .ok none ∧ ¬ Aligned a b) := by
  unfold growFragment Aligned
  rw [if_neg hb, List.length_map]
  by_cases h : a.length < b.length
  · rw [if_pos h]
    have e0 : a.length - b.length = 0 := by omega
    have el0 : (b.take (b.length - a.length)).length = b.length - a.length := by rw [List.length_take]; omega
    have e1 := taggedDims_arr el (b.drop (b.length - a.length)) (b.take (b.length - a.length))
    rw [List.take_append_drop, el0] at e1
    rw [e1, e0, List.drop_zero]
    simp only [Res.bind_ok]
    rcases bcastTagged_meets el a (b.drop (b.length - a.length)) ((List.range a.length).map fun i => some (junk i))
      (by rw [List.length_drop]; omega) (by simp) (by simp) with ⟨s, e2, h1, h2⟩ | ⟨e2, h1⟩
    · rw [e2]
      obtain ⟨l, e3⟩ := readSlots_some (((b.take (b.length - a.length)).map fragTag).map some ++ s) (by
        intro z hz
        rcases List.mem_append.1 hz with hz | hz
        · obtain ⟨x, _, rfl⟩ := List.mem_map.1 hz; rfl
        · exact h1 z hz)
      refine .inl ⟨l, ?_, h2⟩
      simp only [Res.bind_ok, e3]; rfl
    · exact .inr ⟨by rw [e2]; rfl, h1⟩
  · rw [if_neg h]
    have e0 : b.length - a.length = 0 := by omega
    rw [e0, List.drop_zero]
    have e1 : (a.map fragTag).drop (a.length - b.length) = (a.drop (a.length - b.length)).map fragTag := List.map_drop.symm
    simp only [e1]
    rcases bcastTagged_meets el (a.drop (a.length - b.length)) b (((a.drop (a.length - b.length)).map fragTag).map some)
      (by rw [List.length_drop]; omega) (by simp) (by intro z hz; obtain ⟨x, _, rfl⟩ := List.mem_map.1 hz; rfl)
      with ⟨s, e2, h1, h2⟩ | ⟨e2, h1⟩
    · rw [e2]
      obtain ⟨l, e3⟩ := readSlots_some (((a.map fragTag).take (a.length - b.length)).map some ++ s) (by
        intro z hz
        rcases List.mem_append.1 hz with hz | hz
        · obtain ⟨x, _, rfl⟩ := List.mem_map.1 hz; rfl
        · exact h1 z hz)
      refine .inl ⟨l, ?_, h2⟩
      simp only [Res.bind_ok, e3]; rfl
    · exact .inr ⟨by rw [e2]; rfl, h1⟩

theorem isString_iff (t : Ty) : isString t = true ↔ t = .leaf .string := by
  constructor
  · intro h
    cases t with
    | leaf l => cases l <;> first | rfl | cases h
    | _ => cases h
  · rintro rfl; rfl

theorem matchDims_first (junk : Nat → Int) {ea : Ty} (h : ea.ndim = 0) (a : List (Option Nat)) :
    matchDims junk none (arrTy a ea) = .ok (isString ea, some (a.map fragTag)) := by
  unfold matchDims
  rw [arr_ndim h]
  cases a with
  | nil => rfl
  | cons d a =>
    rw [if_neg (by simp)]
    have e := taggedDims_arr ea [] (d :: a)
    rw [List.append_nil] at e
    simp only [e, Res.bind_ok, Res.pure_eq, arr_atDim]

theorem matchDims_next (junk : Nat → Int) {eb : Ty} (h : eb.ndim = 0) (a b : List (Option Nat)) :
    ∃ f, matchDims junk (some (a.map fragTag)) (arrTy b eb) = .ok (isString eb, f) ∧ Aligned a b ∨
      matchDims junk (some (a.map fragTag)) (arrTy b eb) = .ok (false, f) ∧ ¬ Aligned a b := by
  unfold matchDims
  rw [arr_ndim h]
  cases b with
  | nil =>
    refine ⟨_, .inl ⟨rfl, ?_⟩⟩
    unfold Aligned
    simp
  | cons q b =>
    rw [if_neg (by simp)]
    rcases growFragment_aligned junk a (q :: b) eb (by simp) with ⟨s, e, h1⟩ | ⟨e, h1⟩
    · refine ⟨some s, .inl ⟨?_, h1⟩⟩
      simp only [e, Res.bind_ok, arr_atDim]; rfl
    · refine ⟨some (a.map fragTag), .inr ⟨?_, h1⟩⟩
      simp only [e, Res.bind_ok]; rfl

/-- The check accepts two arrays exactly if both hold strings and their last dimensions fit together. -/
theorem check_two (junk : Nat → Nat → Int) {ea eb : Ty} (ha : ea.ndim = 0) (hb : eb.ndim = 0) (a b : List (Option Nat)) :
    (checkDims junk 0 none [arrTy a ea, arrTy b eb] = .ok true ∧ ea = .leaf .string ∧ eb = .leaf .string ∧ Aligned a b) ∨
    (checkDims junk 0 none [arrTy a ea, arrTy b eb] = .ok false ∧
      ¬ (ea = .leaf .string ∧ eb = .leaf .string ∧ Aligned a b)) := by
  simp only [checkDims, matchDims_first _ ha, Res.bind_ok]
  cases hs : isString ea with
  | false =>
    refine .inr ⟨rfl, fun h => ?_⟩
    rw [(isString_iff ea).2 h.1] at hs; cases hs
  | true =>
    have hsa := (isString_iff ea).1 hs
    rw [if_pos rfl]
    obtain ⟨f, ⟨e, h⟩ | ⟨e, h⟩⟩ := matchDims_next (junk (0 + 1)) hb a b
    · rw [e]
      cases hs' : isString eb with
      | false =>
        refine .inr ⟨rfl, fun h => ?_⟩
        rw [(isString_iff eb).2 h.2.1] at hs'; cases hs'
      | true => exact .inl ⟨rfl, hsa, (isString_iff eb).1 hs', h⟩
    · rw [e]
      exact .inr ⟨rfl, fun h' => h h'.2.2⟩

/-- arrays that are combined fit together -/
theorem bcast_aligned {a b r : List (Option Nat)} (h : Bcast a b r) : Aligned a b := by
  unfold Aligned
  induction h with
  | nil => exact .nil
  | @both p q t a b r hl hd _ _ _ ih =>
    have e1 : (p :: a).length - (q :: b).length = 0 := by simp; omega
    have e2 : (q :: b).length - (p :: a).length = 0 := by simp; omega
    have e3 : a.length - b.length = 0 := by omega
    have e4 : b.length - a.length = 0 := by omega
    rw [e3, e4] at ih
    rw [e1, e2]
    refine .cons ?_ ih
    cases hd with
    | same n => exact .inl rfl
    | left m => exact .inr (.inl rfl)
    | right n => exact .inr (.inr rfl)
    | _ => trivial
  | @repeatR p a b r hl _ _ _ ih =>
    have e1 : (p :: a).length - b.length = (a.length - b.length) + 1 := by simp; omega
    have e2 : b.length - (p :: a).length = b.length - a.length := by simp; omega
    rw [e1, e2]
    exact ih
  | @repeatL q a b r hl _ _ _ ih =>
    have e1 : (q :: b).length - a.length = (b.length - a.length) + 1 := by simp; omega
    have e2 : a.length - (q :: b).length = a.length - b.length := by simp; omega
    rw [e1, e2]
    exact ih

/-! ### The call -/

/-- asking for `Dims... * R` is asking for anything -/
theorem dims2_ellipsis (f : Ty → Ty → Ty → Res (List ONode × Ty)) (s : String) (el : Ty) (k : Nat) (a b : Ty) :
    resolveDims2 f (k + 1) (.ellipsis s el) a b = resolveDims2 f (k + 1) (.kind .any) a b := by
  simp only [resolveDims2, Ty.variadicDims, elwClass, if_true]
  rfl

/-- C125: a string function on arrays of strings of the dimensions `a` and `b` (`Bcast`), with any strides and offsets:
    the result has the dimensions `r`, and each element is what the function says about the two strings combined there
    (`string_element_partial`); sizes of `var` dimensions that do not fit are reported. -/
theorem string_call_partial (junk : Nat → Nat → Int) (f : StrFn) {a b r : List (Option Nat)} (h : Bcast a b r)
    (src0 src1 : USrc (List Nat)) {sm0 sm1 : List UMeta} (f0 : MetaFits a sm0) (f1 : MetaFits b sm1) {s0 s1 : Int}
    {u v : NestVal (List Nat)} (hu : viewArr src0.cells src0.recs sm0 s0 = some u)
    (hv : viewArr src1.cells src1.recs sm1 s1 = some v) {sz : Nat} (hsz : 0 < sz) (base : Int) (fuel : Nat) (hf : 0 < fuel) :
    match combine (strKernel f) (max a.length b.length) a.length b.length u v with
    | some w => ∃ dm m, binaryRun fuel (resolveStr junk f (arrTy a (.leaf .string)) (arrTy b (.leaf .string))) (strOp f) sz
          src0 sm0 s0 src1 sm1 s1 base = .ok (arrTy r (strType f), dm, m) ∧
        MetaFits r dm ∧ viewArr m.cells m.recs dm base = some w
    | none => binaryRun fuel (resolveStr junk f (arrTy a (.leaf .string)) (arrTy b (.leaf .string))) (strOp f) sz
          src0 sm0 s0 src1 sm1 s1 base = .throw .broadcast := by
  obtain ⟨ns, hres, hcomb⟩ := bcast_runs h
  obtain ⟨g, rfl⟩ : ∃ g, fuel = g + 1 := ⟨fuel - 1, by omega⟩
  have ht : f.ret = strType f := by cases f <;> rfl
  rw [← ht]
  have zs : (Ty.leaf .string).ndim = 0 := rfl
  have hr : resolveStr junk f (arrTy a (.leaf .string)) (arrTy b (.leaf .string)) = .ok (ns ++ [.lifted], arrTy r f.ret) := by
    have hc : checkDims junk 0 none [arrTy a (.leaf .string), arrTy b (.leaf .string)] = .ok true := by
      rcases check_two junk zs zs a b with ⟨e, _⟩ | ⟨_, h1⟩
      · exact e
      · exact absurd ⟨rfl, rfl, bcast_aligned h⟩ h1
    have h1 := hres (fun _ _ _ => .ok ([.lifted], f.ret)) _ _ [.lifted] f.ret zs zs rfl
    unfold resolveStr
    rw [hc, Res.bind_ok, if_pos rfl]
    unfold resolveElw2
    rw [if_neg (by decide : ¬ (2 : Nat) = 1), if_neg (by decide : ¬ (2 : Nat) = 1), arr_ndim zs, arr_ndim zs,
      if_pos (show (Ty.ellipsis "Dims" f.ret).variadicDims = true from rfl)]
    by_cases h0 : max a.length b.length = 0
    · rw [if_pos h0]
      rw [h0] at h1
      exact h1
    · rw [if_neg h0]
      obtain ⟨k, hk⟩ : ∃ k, max a.length b.length = k + 1 := ⟨max a.length b.length - 1, by omega⟩
      rw [hk] at h1 ⊢
      rw [dims2_ellipsis]
      exact h1
  have hleaf : ∀ dm p0 p1, inst2 (g + 1) [.lifted] dm p0 p1 = .ok ([], .mk .lifted []) := fun _ _ _ => rfl
  obtain ⟨ls, hls, hrun⟩ := hcomb (strKernel f) src0 src1 sz hsz (g + 1) [.lifted] (.mk .lifted []) hleaf sm0 sm1 (some sm0)
    (some sm1) f0 f1 (.inl rfl) (.inl rfl)
  have ho := hrun base s0 s1 { cells := fun _ => none, recs := fun _ => none, next := base + dataSize sz r } u v hu hv
    ⟨Int.le_refl _, fun _ _ _ => rfl, fun _ _ => rfl⟩
  have hd : dimsOf (arrTy r f.ret) = r := arr_dims (by cases f <;> rfl) r
  have hop : (strOp f (.mk .lifted [])) = strKernel f := rfl
  cases ec : combine (strKernel f) (max a.length b.length) a.length b.length u v with
  | none =>
    rw [ec] at ho
    simp only [Outcome] at ho
    simp only [binaryRun, hr, Res.bind_ok, hd, hls, hop, ho, Res.bind_throw]
  | some w =>
    rw [ec] at ho
    obtain ⟨m, em, _, _, _, hview⟩ := ho
    refine ⟨freshMeta sz r, m, ?_, fresh_fits sz r, hview _ _ (fun _ _ => ⟨rfl, rfl⟩)⟩
    simp only [binaryRun, hr, Res.bind_ok, hd, hls, hop, em]
    rfl

/-- C125: anything but two arrays of strings whose last dimensions fit together is refused, whatever uninitialised
    memory holds. -/
theorem string_rejected (junk : Nat → Nat → Int) (f : StrFn) {ea eb : Ty} (ha : ea.ndim = 0) (hb : eb.ndim = 0)
    (a b : List (Option Nat)) (h : ¬ (ea = .leaf .string ∧ eb = .leaf .string ∧ Aligned a b)) :
    resolveStr junk f (arrTy a ea) (arrTy b eb) = .throw .invalidArg := by
  unfold resolveStr
  rcases check_two junk ha hb a b with ⟨_, h1⟩ | ⟨e, _⟩
  · exact absurd h1 h
  · rw [e]; rfl

theorem bcastTagged_length : ∀ (olds : List Int) (slots : List (Option Int)) (t : Ty) (s : List (Option Int)),
    slots.length = olds.length → bcastTagged t olds slots = .ok (some s) → s.length = olds.length
  | [], slots, t, s, _, h => by
    have e : bcastTagged t [] slots = .ok (some []) := by simp only [bcastTagged]
    rw [e] at h; cases h; rfl
  | _ :: _, [], _, _, hl, _ => by cases hl
  | old :: olds, slot :: slots, t, s, hl, h => by
    rw [bcastTagged] at h
    cases hd : dimTag t with
    | none => rw [hd] at h; cases h
    | some x =>
      rw [hd] at h
      simp only at h
      cases hb : bcastSlot old x.1 slot with
      | none => rw [hb] at h; cases h
      | some z =>
        rw [hb] at h
        simp only at h
        rw [Res.bind_eq_ok] at h
        obtain ⟨r, h1, h2⟩ := h
        rw [Res.pure_eq] at h2
        cases r with
        | none => cases h2
        | some r =>
          cases h2
          simp only [List.length_cons, bcastTagged_length olds slots x.2 r (by simpa using hl) h1]

theorem readSlots_length : ∀ (s : List (Option Int)) (l : List Int), readSlots s = .ok l → l.length = s.length
  | [], l, h => by cases h; rfl
  | none :: s, l, h => by cases h
  | some z :: s, l, h => by
    rw [readSlots, Res.bind_eq_ok] at h
    obtain ⟨r, h1, h2⟩ := h
    rw [Res.pure_eq] at h2
    cases h2
    rw [List.length_cons, List.length_cons, readSlots_length s r h1]

/-- a fragment that does not grow -/
theorem growFragment_short (junk : Nat → Int) {tags : List Int} {n : Nat} (h : n ≤ tags.length) (t : Ty) :
    (∀ junk', growFragment junk tags n t = growFragment junk' tags n t) ∧
    ∀ s, growFragment junk tags n t = .ok (some s) → s.length = tags.length := by
  have hn : ¬ tags.length < n := by omega
  refine ⟨fun junk' => by unfold growFragment; rw [if_neg hn, if_neg hn], fun s hs => ?_⟩
  unfold growFragment at hs
  by_cases h0 : n = 0
  · rw [if_pos h0] at hs; cases hs; rfl
  · rw [if_neg h0, if_neg hn] at hs
    simp only at hs
    rw [Res.bind_eq_ok] at hs
    obtain ⟨r, h1, h2⟩ := hs
    cases r with
    | none => cases h2
    | some r =>
      simp only at h2
      rw [Res.bind_eq_ok] at h2
      obtain ⟨l, h3, h4⟩ := h2
      cases h4
      have e1 := bcastTagged_length _ _ t r (by simp) h1
      have e2 := readSlots_length _ _ h3
      rw [e2, List.length_append, e1]
      simp only [List.length_map, List.length_take, List.length_drop]
      omega

/-- C125, any number of arguments: if no argument has more dimensions than the first, the answer of the check does not
    depend on uninitialised memory. -/
theorem check_longest_first_partial {ea : Ty} (ha : ea.ndim = 0) (a : List (Option Nat)) (ts : List Ty)
    (h : ∀ t ∈ ts, t.ndim ≤ a.length) (junk junk' : Nat → Nat → Int) :
    checkDims junk 0 none (arrTy a ea :: ts) = checkDims junk' 0 none (arrTy a ea :: ts) := by
  have key : ∀ (ts : List Ty) (i : Nat) (tags : List Int), (∀ t ∈ ts, t.ndim ≤ tags.length) →
      checkDims junk i (some tags) ts = checkDims junk' i (some tags) ts := by
    intro ts
    induction ts with
    | nil => intro _ _ _; rfl
    | cons t ts ih =>
      intro i tags hl
      have ht := hl t List.mem_cons_self
      have hts : ∀ x ∈ ts, x.ndim ≤ tags.length := fun x hx => hl x (List.mem_cons_of_mem _ hx)
      obtain ⟨g1, g2⟩ := growFragment_short (junk i) ht t
      have e : matchDims (junk i) (some tags) t = matchDims (junk' i) (some tags) t := by
        unfold matchDims
        simp only [g1 (junk' i)]
      have hm : ∀ r, matchDims (junk i) (some tags) t = .ok r → ∃ tags', r.2 = some tags' ∧ tags'.length = tags.length := by
        intro r hr
        unfold matchDims at hr
        by_cases h0 : t.ndim = 0
        · rw [if_pos h0] at hr; cases hr; exact ⟨tags, rfl, rfl⟩
        · rw [if_neg h0] at hr
          simp only at hr
          rw [Res.bind_eq_ok] at hr
          obtain ⟨f, h1, h2⟩ := hr
          cases f with
          | none => cases h2; exact ⟨tags, rfl, rfl⟩
          | some f =>
            simp only at h2
            rw [Res.bind_eq_ok] at h2
            obtain ⟨el, _, h3⟩ := h2
            cases h3
            exact ⟨f, rfl, g2 f h1⟩
      simp only [checkDims]
      rw [← e]
      cases hx : matchDims (junk i) (some tags) t with
      | ok r =>
        obtain ⟨tags', q1, q2⟩ := hm r hx
        simp only [Res.bind_ok, q1]
        rw [ih (i + 1) tags' (by rw [q2]; exact hts)]
      | throw _ => rfl
      | ub => rfl
  simp only [checkDims, matchDims_first _ ha, Res.bind_ok]
  rw [key ts (0 + 1) (a.map fragTag) (by rw [List.length_map]; exact h)]

/-- `string_replace(2 * 3 * string, 3 * string, string)` -/
example : ∀ t ∈ [arrTy [some 3] (.leaf .string), .leaf .string], t.ndim ≤ [some 2, some 3].length := by
  intro t ht
  simp only [List.mem_cons, List.not_mem_nil, or_false] at ht
  rcases ht with rfl | rfl <;> decide

/-- C125, violated: `string_replace(n * string, k * n * string, n * string)`, arguments that fit together: whether the
    call is accepted depends on uninitialised memory. -/
theorem string_replace_violated (n k : Nat) (hn : n ≠ 1) :
    let args := [arrTy [some n] (.leaf .string), arrTy [some k, some n] (.leaf .string), arrTy [some n] (.leaf .string)]
    (∃ junk, checkDims junk 0 none args = .ok true) ∧ (∃ junk, checkDims junk 0 none args = .ok false) := by
  have key : ∀ junk : Nat → Nat → Int, checkDims junk 0 none
      [arrTy [some n] (.leaf .string), arrTy [some k, some n] (.leaf .string), arrTy [some n] (.leaf .string)] =
      .ok (decide (junk 1 0 < 0 ∨ junk 1 0 = 1 ∨ junk 1 0 = n)) := by
    intro junk
    have n1 : ¬ (n : Int) = -2 := by omega
    have n2 : ¬ (n : Int) = -1 := by omega
    have n3 : ¬ ((n : Int) < 0 ∨ (n : Int) = 1) := by omega
    have s1 : bcastSlot n n (some (junk 1 0)) = some (some (junk 1 0)) := by
      unfold bcastSlot
      rw [if_neg n1, if_neg n2, if_neg n3, if_neg (by omega : ¬ ((n : Int) ≠ n ∧ (n : Int) ≠ 1))]
    have m1 : matchDims (junk 0) none (arrTy [some n] (.leaf .string)) = .ok (true, some [(n : Int)]) := rfl
    have g2 : growFragment (junk 1) [(n : Int)] 2 (arrTy [some k, some n] (.leaf .string)) = .ok (some [(k : Int), junk 1 0]) := by
      simp only [growFragment, arrTy, taggedDims, dimTag, Res.bind_ok, Res.pure_eq, List.length_cons, List.length_nil,
        bcastTagged, List.range, List.range.loop, List.map, s1]
      rfl
    have m2 : matchDims (junk 1) (some [(n : Int)]) (arrTy [some k, some n] (.leaf .string)) =
        .ok (true, some [(k : Int), junk 1 0]) := by
      simp only [matchDims, arr_ndim (show (Ty.leaf .string).ndim = 0 from rfl), List.length_cons, List.length_nil]
      rw [if_neg (by decide), g2]
      rfl
    have m3 : ∃ fr, matchDims (junk 2) (some [(k : Int), junk 1 0]) (arrTy [some n] (.leaf .string)) =
        .ok (decide (junk 1 0 < 0 ∨ junk 1 0 = 1 ∨ junk 1 0 = n), fr) := by
      have g3 : growFragment (junk 2) [(k : Int), junk 1 0] 1 (arrTy [some n] (.leaf .string)) =
          (match bcastSlot (junk 1 0) n (some (junk 1 0)) with
            | none => .ok none
            | some s => (readSlots (some (k : Int) :: [s])).bind fun l => .ok (some l)) := by
        simp only [growFragment, arrTy, dimTag, List.length_cons, List.length_nil, bcastTagged, List.map, List.drop,
          List.take]
        cases bcastSlot (junk 1 0) n (some (junk 1 0)) <;> rfl
      have e3 : bcastSlot (junk 1 0) n (some (junk 1 0)) = (if junk 1 0 < 0 ∨ junk 1 0 = 1 then some (some (n : Int))
          else if junk 1 0 = n then some (some (junk 1 0)) else none) := by
        unfold bcastSlot
        rw [if_neg n1, if_neg n2]
        by_cases h1 : junk 1 0 < 0 ∨ junk 1 0 = 1
        · rw [if_pos h1, if_pos h1]
        · rw [if_neg h1, if_neg h1]
          by_cases h2 : junk 1 0 = n
          · rw [if_pos h2, if_neg (fun h => h.1 h2)]
          · rw [if_neg h2, if_pos ⟨h2, by omega⟩]
      simp only [matchDims, arr_ndim (show (Ty.leaf .string).ndim = 0 from rfl), List.length_cons, List.length_nil]
      rw [if_neg (by decide), g3, e3]
      by_cases h1 : junk 1 0 < 0 ∨ junk 1 0 = 1
      · rw [if_pos h1, decide_eq_true (by omega)]
        exact ⟨_, rfl⟩
      · rw [if_neg h1]
        by_cases h2 : junk 1 0 = n
        · rw [if_pos h2, decide_eq_true (by omega)]
          exact ⟨_, rfl⟩
        · rw [if_neg h2, decide_eq_false (by omega)]
          exact ⟨_, rfl⟩
    obtain ⟨fr, m3⟩ := m3
    simp only [checkDims, m1, m2, Res.bind_ok, if_true, Nat.zero_add, Nat.reduceAdd, m3]
    cases decide (junk 1 0 < 0 ∨ junk 1 0 = 1 ∨ junk 1 0 = n) <;> rfl
  refine ⟨⟨fun _ _ => 1, ?_⟩, ⟨fun _ _ => n + 2, ?_⟩⟩
  · rw [key, decide_eq_true (.inr (.inl rfl))]
  · rw [key, decide_eq_false (by omega)]

/-- C125, violated: a ragged array of strings and one string, whatever they hold. -/
theorem string_var_scalar_violated (junk : Nat → Nat → Int) (f : StrFn) (fuel : Nat) (src0 src1 : USrc (List Nat))
    {sm0 : List UMeta} (s0 s1 base : Int) (sz : Nat) :
    Aligned [none] [] ∧
    binaryRun fuel (resolveStr junk f (arrTy [none] (.leaf .string)) (.leaf .string)) (strOp f) sz src0 sm0 s0 src1 [] s1
      base = .ub := by
  refine ⟨.nil, ?_⟩
  have hc : checkDims junk 0 none [arrTy [none] (.leaf .string), .leaf .string] = .ok true := rfl
  have := dims2_core (f := fun _ _ _ => .ok ([.lifted], f.ret)) (k := 0) (a := .varDim (.leaf .string))
      (b := .leaf .string) (ea := .leaf .string) (eb := .leaf .string) (c := .fv) (ba := false) (bb := true)
      (sa := -1) (sb := 1) (s := 1) (by simp [elwClass, isVarId, varOrOne, anyVariadic, otherDim, Ty.ndim])
      (by simp [argInfo, dimSizeOf, Ty.ndim]) (by simp [argInfo, Ty.ndim]) (by simp [resSize]) (by simp [sizeClash]) rfl
  have hr : resolveStr junk f (arrTy [none] (.leaf .string)) (.leaf .string) =
      resolveDims2 (fun _ _ _ => .ok ([.lifted], f.ret)) (0 + 1) (.ellipsis "Dims" f.ret) (.varDim (.leaf .string)) (.leaf .string) := by
    unfold resolveStr
    rw [hc]; rfl
  rw [hr, dims2_ellipsis, this]
  cases f <;> simp [StrFn.ret, binaryRun, dimsOf, freshMeta, inst2, Res.bind_ok, Res.bind_ub, withRet, isVarId]

/-! ### Examples -/

/-- the hypotheses are met: `string_find(["abab", "xyz"], "b")` is `[1, -1]` -/
example :
    let src0 : USrc (List Nat) := { cells := fun a => if a = 0 then some [97, 98, 97, 98] else if a = 16 then some [120, 121, 122] else none,
                                    recs := fun _ => none }
    let src1 : USrc (List Nat) := { cells := fun a => if a = 0 then some [98] else none, recs := fun _ => none }
    let u : NestVal (List Nat) := .list [.elem [97, 98, 97, 98], .elem [120, 121, 122]]
    MetaFits [some 2] [.fixed 2 16] ∧ MetaFits [] [] ∧ Bcast [some 2] [] [some 2] ∧
    viewArr src0.cells src0.recs [.fixed 2 16] 0 = some u ∧ viewArr src1.cells src1.recs [] 0 = some (.elem [98]) ∧
    combine (strKernel .find) 1 1 0 u (.elem [98]) = some (.list [.elem (.ok (.num 1)), .elem (.ok (.num (-1)))]) ∧
    StrSafe .find [97, 98, 97, 98] [98] ∧ StrSafe .rfind [97, 98, 97, 98] [97, 98] ∧ StrSafe .count [97, 98] [98] := by
  refine ⟨.fixed _ _ .nil, .nil, ?_, rfl, rfl, rfl, by simp [StrSafe], by simp [StrSafe], .inl ⟨rfl, .inl (by simp)⟩⟩
  exact .repeatR _ (by simp) ⟨by simp, by simp⟩ (by simp) .nil

/-- refused: a number; a row of 2 and a row of 3 -/
example : ¬ (Ty.prim (.int .w32) = .leaf .string ∧ Ty.leaf .string = .leaf .string ∧ Aligned [some 2] []) ∧
    ¬ Aligned [some 2] [some 3] := by
  refine ⟨fun h => (by cases h.1), fun h => ?_⟩
  cases h with
  | cons h _ => unfold Meets at h; omega

end Dynd
