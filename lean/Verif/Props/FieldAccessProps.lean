/-
C127: fields by name.
-/
import Verif.Model.FieldAccess
import Verif.Props.RaggedIdxProps
import Verif.Props.StructProps

namespace Dynd

/-! ### Specification -/

/-- A step into a value: to an element of a dimension, through a pointer, to a field of a struct. -/
inductive FStep where
  | elem (j : Int)
  | follow
  | field (k : Nat)
  deriving DecidableEq, Repr

/-- Where a list of steps leads: the type of what is there, its address and the block that holds it.  Where the arrmeta
    names no block it is `emb`. -/
def locate (mem : QMem) (emb : Nat) : List FStep → FTy → FMeta → Int → Nat → Option (FTy × Int × Nat)
  | [], t, _, a, b => some (t, a, b)
  | .elem j :: ss, .fixed n e, .fixed _ s m, a, b =>
    if 0 ≤ j ∧ j < n then locate mem emb ss e m (a + j * s) b else none
  | .elem j :: ss, .var e, .var blk s o m, a, _ =>
    if 0 ≤ j ∧ j < mem.size a then locate mem emb ss e m (mem.ptr a + o + j * s) (blk.getD emb) else none
  | .follow :: ss, .ptr e, .ptr blk o m, a, _ => locate mem emb ss e m (mem.ptr a + o) (blk.getD emb)
  | .field k :: ss, .record fs, .record offs ms, a, b =>
    match fs[k]?, offs[k]?, ms[k]? with
    | some f, some o, some m => locate mem emb ss f.2 m (a + o) b
    | _, _, _ => none
  | _, _, _, _, _ => none

/-- Where a list of steps leads from an array. -/
def FArr.locate (mem : QMem) (a : FArr) (ss : List FStep) : Option (FTy × Int × Nat) :=
  Dynd.locate mem a.self ss a.ty a.mt a.data (a.owner.getD a.self)

/-- `N * ... * var * ... * t`: a fixed dimension for `some n`, a `var` dimension for `none`. -/
def dimsOver : List (Option Nat) → FTy → FTy
  | [], t => t
  | some n :: ds, t => .fixed n (dimsOver ds t)
  | none :: ds, t => .var (dimsOver ds t)

/-- The arrmeta `m` is that of the dimensions `ds` around the arrmeta `i`; the sizes are below 2^63 - 1. -/
inductive MetaOver : List (Option Nat) → FMeta → FMeta → Prop
  | nil (m : FMeta) : MetaOver [] m m
  | fixed {ds : List (Option Nat)} {i m : FMeta} (n : Nat) (s : Int) (hn : (n : Int) < i64Max) (h : MetaOver ds i m) :
      MetaOver (some n :: ds) i (.fixed n s m)
  | var {ds : List (Option Nat)} {i m : FMeta} (b : Option Nat) (s o : Int) (h : MetaOver ds i m) :
      MetaOver (none :: ds) i (.var b s o m)

/-- `name` is the name of field `k` and of none before it -/
def FirstField (fs : List (String × FTy)) (name : String) (k : Nat) : Prop :=
  (∃ f, fs[k]? = some (name, f)) ∧ ∀ j < k, ∀ f, fs[j]? ≠ some (name, f)

/-! ### Lemmas -/

theorem fillMetas_get (emb : Nat) : ∀ (ms : List FMeta) (k : Nat), (fillMetas emb ms)[k]? = ms[k]?.map (FMeta.fill emb)
  | [], k => by simp [fillMetas]
  | m :: ms, 0 => by simp [fillMetas]
  | m :: ms, k + 1 => by simp [fillMetas, fillMetas_get emb ms k]

/-- Copied arrmeta names the block the original left out. -/
theorem locate_fill (mem : QMem) (emb emb' : Nat) : ∀ (ss : List FStep) (t : FTy) (m : FMeta) (a : Int) (b : Nat),
    locate mem emb' ss t (m.fill emb) a b = locate mem emb ss t m a b
  | [], _, _, _, _ => by simp only [locate]
  | s :: ss, t, m, a, b => by
    have ih := locate_fill mem emb emb' ss
    cases s <;> cases t <;> cases m <;> simp only [FMeta.fill, locate, ih, Option.getD_some]
    rename_i k fs offs ms
    rw [fillMetas_get]
    cases fs[k]? <;> cases offs[k]? <;> cases ms[k]? <;> simp [ih]

theorem lin_whole {n : Nat} (hn : (n : Int) < i64Max) : applySingleLinearIndex IRange.full n = .ok ⟨false, 0, 1, n⟩ := by
  have hMin : i64Min = -9223372036854775808 := rfl
  have hMax : i64Max = 9223372036854775807 := rfl
  rw [hMax] at hn
  unfold applySingleLinearIndex
  rw [if_neg (show ¬ IRange.full.step = 0 from by decide), if_pos (show IRange.full.step > 0 from by decide),
    if_neg (show ¬ IRange.full.start ≥ 0 from by decide),
    if_neg (show ¬ IRange.full.start ≥ -(n : Int) from by simp only [IRange.full, hMin]; omega),
    if_pos (show IRange.full.finish ≥ 0 from by decide),
    if_neg (show ¬ IRange.full.finish ≤ (n : Int) from by simp only [IRange.full, hMax]; omega)]
  simp only [Res.bind_ok, linPos, IRange.full]
  split_ifs <;> first | omega | (simp; omega) | simp

theorem lin_single {n k : Nat} (h : k < n) : applySingleLinearIndex (IRange.single k) n = .ok ⟨true, k, 1, 1⟩ := by
  unfold applySingleLinearIndex
  rw [if_pos (show (IRange.single (k : Int)).step = 0 from rfl),
    if_pos (show (IRange.single (k : Int)).start ≥ 0 from by simp only [IRange.single]; omega),
    if_pos (show (IRange.single (k : Int)).start < (n : Int) from by simp only [IRange.single]; omega)]
  rfl

theorem full_step : ¬ IRange.full.step = 0 := by decide
theorem full_nop : IRange.full.isNop = true := by decide

/-- the type of the result -/
theorem idx_type {fs : List (String × FTy)} {k : Nat} {x : String × FTy} (hk : fs[k]? = some x) :
    ∀ (ds : List (Option Nat)) (i m : FMeta) (lead : Bool), MetaOver ds i m →
      fIdxTy (List.replicate ds.length IRange.full ++ [IRange.single k]) (dimsOver ds (.record fs)) lead =
        .ok (dimsOver ds x.2) := by
  intro ds i m lead h
  induction h generalizing lead with
  | nil m =>
    have hl : k < fs.length := by
      rcases List.getElem?_eq_some_iff.1 hk with ⟨h, _⟩; exact h
    simp only [List.length_nil, List.replicate, List.nil_append, dimsOver, fIdxTy, lin_single hl, Res.bind_ok, if_true,
      Int.toNat_natCast, hk]
  | fixed n s hn h ih =>
    simp only [List.length_cons, List.replicate_succ, List.cons_append, dimsOver, fIdxTy, lin_whole hn, Res.bind_ok,
      Bool.false_eq_true, if_false, ih, Res.pure_eq]
  | var b s o h ih =>
    simp only [List.length_cons, List.replicate_succ, List.cons_append, dimsOver, fIdxTy, full_step, full_nop, if_true,
      if_false, ih, Res.bind_ok, Res.pure_eq]

/-- the arrmeta of the result, after at least one dimension or not in the lead -/
theorem idx_meta (mem : QMem) (hsz : ∀ a, 0 ≤ mem.size a ∧ mem.size a < i64Max) (emb : Nat) {fs : List (String × FTy)}
    {offs : List Int} {ms : List FMeta} {k : Nat} {x : String × FTy} {o : Int} {mk : FMeta} (hk : fs[k]? = some x)
    (ho : offs[k]? = some o) (hm : ms[k]? = some mk) :
    ∀ (ds : List (Option Nat)) (m : FMeta) (lead : Bool) (d : Int) (ref : Nat), MetaOver ds (.record offs ms) m →
      ∃ c : FOut, fIdxMeta mem emb (List.replicate ds.length IRange.full ++ [IRange.single k]) (dimsOver ds (.record fs)) m
          lead d ref = .ok c ∧ c.ref = ref ∧ (ds ≠ [] ∨ lead = false → c.data = d) ∧
        ∀ (emb' : Nat) (js : List Int) (ss : List FStep) (a : Int) (b : Nat), js.length = ds.length →
          Dynd.locate mem emb' (js.map .elem ++ ss) (dimsOver ds x.2) c.out (a + (c.data - d) + c.off) b =
            Dynd.locate mem emb (js.map .elem ++ .field k :: ss) (dimsOver ds (.record fs)) m a b := by
  intro ds m lead d ref h
  have hl : k < fs.length := by
    rcases List.getElem?_eq_some_iff.1 hk with ⟨h, _⟩; exact h
  generalize hi : FMeta.record offs ms = i at h
  induction h generalizing lead with
  | nil m =>
    subst hi
    cases lead with
    | true =>
      refine ⟨⟨0, mk.fill emb, d + o, ref⟩, ?_, rfl, by simp, ?_⟩
      · simp only [List.length_nil, List.replicate, List.nil_append, dimsOver, fIdxMeta, lin_single hl, Res.bind_ok, if_true,
          Int.toNat_natCast, hk, ho, hm]
      · intro emb' js ss a b hj
        have : js = [] := List.length_eq_zero_iff.1 hj
        subst this
        simp only [List.map_nil, List.nil_append, dimsOver, locate, hk, ho, hm, locate_fill]
        congr 1; omega
    | false =>
      refine ⟨⟨o + 0, mk.fill emb, d, ref⟩, ?_, rfl, by simp, ?_⟩
      · simp only [List.length_nil, List.replicate, List.nil_append, dimsOver, fIdxMeta, lin_single hl, Res.bind_ok, if_true,
          Int.toNat_natCast, hk, ho, hm, Bool.false_eq_true, if_false, Res.pure_eq]
      · intro emb' js ss a b hj
        have : js = [] := List.length_eq_zero_iff.1 hj
        subst this
        simp only [List.map_nil, List.nil_append, dimsOver, locate, hk, ho, hm, locate_fill]
        congr 1; omega
  | fixed n s hn h ih =>
    obtain ⟨c, e, e1, e2, e3⟩ := ih false hi
    have e2 := e2 (.inr rfl)
    refine ⟨⟨s * 0 + c.off, .fixed n (s * 1) c.out, d, ref⟩, ?_, rfl, fun _ => rfl, ?_⟩
    · simp only [List.length_cons, List.replicate_succ, List.cons_append, dimsOver, fIdxMeta, lin_whole hn, Res.bind_ok,
        Bool.false_eq_true, if_false, e, Res.pure_eq]
    · intro emb' js ss a b hj
      cases js with
      | nil => simp at hj
      | cons j js =>
        simp only [List.map_cons, List.cons_append, dimsOver, locate]
        split_ifs
        · rw [← e3 emb' js ss (a + j * s) b (by simpa using hj)]
          congr 1
          rw [e2]; simp only [Int.mul_one, Int.mul_zero]; omega
        · rfl
  | var blk s o' h ih =>
    obtain ⟨c, e, e1, e2, e3⟩ := ih false hi
    have e2 := e2 (.inr rfl)
    refine ⟨⟨0, .var (some (blk.getD emb)) s (o' + c.off) c.out, d, ref⟩, ?_, rfl, fun _ => rfl, ?_⟩
    · cases lead with
      | true =>
        obtain ⟨l, el, hr⟩ := lin_full (hsz d).1 (hsz d).2
        simp only [List.length_cons, List.replicate_succ, List.cons_append, dimsOver, fIdxMeta, if_true, el, Res.bind_ok, hr,
          Bool.false_eq_true, if_false, full_nop, e, Res.pure_eq]
      | false =>
        simp only [List.length_cons, List.replicate_succ, List.cons_append, dimsOver, fIdxMeta, Bool.false_eq_true,
          if_false, full_step, full_nop, if_true, e, Res.bind_ok, Res.pure_eq]
    · intro emb' js ss a b hj
      cases js with
      | nil => simp at hj
      | cons j js =>
        have ha : a + (d - d) + 0 = a := by omega
        simp only [List.map_cons, List.cons_append, dimsOver, locate, ha, Option.getD_some]
        split_ifs
        · rw [← e3 emb' js ss (mem.ptr a + o' + j * s) (blk.getD emb) (by simpa using hj)]
          congr 1
          rw [e2]; omega
        · rfl

theorem ndims_over (ds : List (Option Nat)) (fs : List (String × FTy)) : (dimsOver ds (.record fs)).ndims = ds.length := by
  induction ds with
  | nil => rfl
  | cons d ds ih => cases d <;> simp [dimsOver, FTy.ndims, ih]

theorem typeAt_over (t : FTy) : ∀ ds : List (Option Nat), (dimsOver ds t).typeAt ds.length = t
  | [] => by cases t <;> rfl
  | some n :: ds => by simp only [dimsOver, List.length_cons, FTy.typeAt]; exact typeAt_over t ds
  | none :: ds => by simp only [dimsOver, List.length_cons, FTy.typeAt]; exact typeAt_over t ds

theorem dtype_over (ds : List (Option Nat)) (fs : List (String × FTy)) : (dimsOver ds (.record fs)).dtype = .record fs := by
  rw [FTy.dtype, ndims_over, typeAt_over]

theorem indexable_over (ds : List (Option Nat)) (fs : List (String × FTy)) : (dimsOver ds (.record fs)).indexable = true := by
  cases ds with
  | nil => rfl
  | cons d ds => cases d <;> rfl

theorem first_index {fs : List (String × FTy)} {name : String} {k : Nat} (h : FirstField fs name k) :
    getFieldIndex (fs.map Prod.fst) name = k := by
  obtain ⟨⟨f, h1⟩, h2⟩ := h
  refine ((field_index_exact _ _).1 k).2 ⟨by simp [h1], fun j hj e => ?_⟩
  rw [List.getElem?_map] at e
  cases e' : fs[j]? with
  | none => rw [e'] at e; simp at e
  | some y =>
    rw [e'] at e
    simp only [Option.map_some, Option.some.injEq] at e
    exact h2 j hj y.2 (by rw [e', ← e])

theorem no_field {fs : List (String × FTy)} {name : String} (h : ∀ f ∈ fs, f.1 ≠ name) :
    getFieldIndex (fs.map Prod.fst) name = -1 := by
  refine (field_index_exact _ _).2.2 (fun hm => ?_)
  obtain ⟨f, hf, e⟩ := List.mem_map.1 hm
  exact h f hf e

/-- a text without a NUL is what its C string stands for -/
theorem cText_self {s : String} (h : '\x00' ∉ s.toList) : cText s = s := by
  have : ∀ l : List Char, '\x00' ∉ l → l.takeWhile (fun c => decide (c ≠ '\x00')) = l := by
    intro l
    induction l with
    | nil => intro _; rfl
    | cons c l ih =>
      intro hc
      rw [List.takeWhile_cons, if_pos (by
        simp only [decide_eq_true_eq]; rintro rfl; exact hc (by simp)), ih (fun h => hc (by simp [h]))]
  rw [cText, this _ h]; simp

/-! ### Theorems -/

/-- **C127**.  `a.p(name)` for an array of structs, with any fixed and `var` dimensions around the struct, any arrmeta and
    any types of the fields: a view of the same dimensions whose element at any positions is the field of that name (the
    first, should there be several) of the element of `a` there, at its own address in the block that holds it, and so is
    everything inside it.  Nothing is copied; the access flags are those of `a`. -/
theorem field_by_name (mem : QMem) (hsz : ∀ a, 0 ≤ mem.size a ∧ mem.size a < i64Max) (a : FArr) (ds : List (Option Nat))
    (fs : List (String × FTy)) (offs : List Int) (ms : List FMeta) (ht : a.ty = dimsOver ds (.record fs))
    (hm : MetaOver ds (.record offs ms) a.mt) (ho : offs.length = fs.length) (hms : ms.length = fs.length)
    (name : String) (h0 : '\x00' ∉ name.toList) (k : Nat) (hk : FirstField fs name k) (fresh : Nat) :
    ∃ (r : FArr) (f : FTy), a.p mem name fresh = .ok r ∧ fs[k]? = some (name, f) ∧ r.ty = dimsOver ds f ∧
      r.flags = a.flags ∧ r.self = fresh ∧
      ∀ (js : List Int) (ss : List FStep), js.length = ds.length →
        r.locate mem (js.map .elem ++ ss) = a.locate mem (js.map .elem ++ .field k :: ss) := by
  have hi := first_index hk
  obtain ⟨⟨f, hf⟩, _⟩ := hk
  have hl : k < fs.length := by
    rcases List.getElem?_eq_some_iff.1 hf with ⟨h, _⟩; exact h
  obtain ⟨o, ho'⟩ : ∃ o, offs[k]? = some o := ⟨_, List.getElem?_eq_getElem (by omega)⟩
  obtain ⟨mk, hm'⟩ : ∃ o, ms[k]? = some o := ⟨_, List.getElem?_eq_getElem (by omega)⟩
  obtain ⟨c, e, e1, e2, e3⟩ := idx_meta mem hsz a.self hf ho' hm' ds a.mt true a.data (a.owner.getD a.self) hm
  refine ⟨⟨dimsOver ds f, c.out.fill c.ref, c.data + c.off, some c.ref, fresh, a.flags⟩, f, ?_, hf, rfl, rfl, rfl, ?_⟩
  · have hg : getArrayField mem a k fresh = fAtArray mem a (List.replicate ds.length IRange.full ++ [IRange.single k]) fresh := by
      rw [getArrayField, ht, ndims_over]
      split_ifs with h
      · rw [h]; rfl
      · rfl
    rw [FArr.p, cText_self h0, ndAccess, ht, dtype_over]
    simp only [hi]
    rw [if_neg (by omega), hg, fAtArray, ht, indexable_over, if_pos rfl, idx_type hf ds _ _ true hm, Res.bind_ok, e]
    rfl
  · intro js ss hj
    have := e3 c.ref js ss a.data (a.owner.getD a.self) hj
    simp only [FArr.locate, Option.getD_some, locate_fill, ht, e1] at this ⊢
    rw [← this]
    congr 1; omega

/-- **C127** (other names).  A name that no field has: an exception. -/
theorem field_unknown (mem : QMem) (a : FArr) (ds : List (Option Nat)) (fs : List (String × FTy))
    (ht : a.ty = dimsOver ds (.record fs)) (name : String) (h0 : '\x00' ∉ name.toList) (h : ∀ f ∈ fs, f.1 ≠ name) (fresh : Nat) :
    a.p mem name fresh = .throw .invalidArg := by
  rw [FArr.p, cText_self h0, ndAccess, ht, dtype_over]
  simp only [no_field h]
  rw [if_pos (by decide)]

/-- **C127** (no struct).  Elements that are not structs: an exception. -/
theorem field_of_scalar (mem : QMem) (a : FArr) (ds : List (Option Nat)) (id : Nat) (ht : a.ty = dimsOver ds (.leaf id))
    (name : String) (fresh : Nat) : a.p mem name fresh = .throw .invalidArg := by
  have hn : (dimsOver ds (.leaf id)).ndims = ds.length := by
    clear ht
    induction ds with
    | nil => rfl
    | cons d ds ih => cases d <;> simp [dimsOver, FTy.ndims, ih]
  rw [FArr.p, ndAccess, ht, FTy.dtype, hn, typeAt_over]

/-- **C127** (copies).  `nd::field_access(a, name)` of a struct copies from the place `a.p(name)` is a view of. -/
theorem field_copy_source (a : FArr) (fs : List (String × FTy)) (offs : List Int) (ms : List FMeta)
    (ht : a.ty = .record fs) (hm : a.mt = .record offs ms) (ho : offs.length = fs.length) (hms : ms.length = fs.length)
    (name : String) (k : Nat) (hk : FirstField fs name k) (mem : QMem) :
    ∃ (f : FTy) (m : FMeta) (d : Int), fieldSource a name = .ok (f, m, d) ∧ fs[k]? = some (name, f) ∧
      ∀ ss, Dynd.locate mem a.self ss f m d (a.owner.getD a.self) = a.locate mem (.field k :: ss) := by
  have hi := first_index hk
  obtain ⟨⟨f, hf⟩, _⟩ := hk
  have hl : k < fs.length := by
    rcases List.getElem?_eq_some_iff.1 hf with ⟨h, _⟩; exact h
  obtain ⟨o, ho'⟩ : ∃ o, offs[k]? = some o := ⟨_, List.getElem?_eq_getElem (by omega)⟩
  obtain ⟨mk, hm'⟩ : ∃ o, ms[k]? = some o := ⟨_, List.getElem?_eq_getElem (by omega)⟩
  refine ⟨f, mk, a.data + o, ?_, hf, fun ss => ?_⟩
  · simp only [fieldSource, ht, hm, hi]
    rw [if_neg (by omega)]
    simp only [Int.toNat_natCast, hf, ho', hm']
  · simp only [FArr.locate, ht, hm, locate, hf, ho', hm']

/-- **C127, violated** (`nd::field_access`).  A name that no field has is not rejected: undefined behaviour. -/
theorem field_copy_violated (a : FArr) (fs : List (String × FTy)) (ht : a.ty = .record fs) (name : String)
    (h : ∀ f ∈ fs, f.1 ≠ name) : fieldSource a name = .ub := by
  simp only [fieldSource, ht, no_field h]
  rw [if_pos (by decide)]

/-- **C127, violated** (names with NUL).  `p(std::string)` stops at the first NUL of the name: in `{"a": T, "a\0b": U}` the
    second field can not be reached, asking for it gives the first one. -/
theorem field_nul_violated (mem : QMem) (a : FArr) (name : String) (fresh : Nat) :
    a.p mem (name ++ "\x00" ++ "b") fresh = a.p mem name fresh := by
  have : ∀ (l r : List Char), (l ++ '\x00' :: r).takeWhile (fun c => decide (c ≠ '\x00')) =
      l.takeWhile (fun c => decide (c ≠ '\x00')) := by
    intro l r
    induction l with
    | nil => simp
    | cons c l ih =>
      simp only [List.cons_append, List.takeWhile_cons]
      split_ifs
      · rw [ih]
      · rfl
  simp only [FArr.p, cText]
  have e : (name ++ "\x00" ++ "b").toList = name.toList ++ '\x00' :: ['b'] := by simp
  rw [e, this]

/-- **C127, violated** (pointers).  A pointer to an array of structs, through which indices pass, has no fields. -/
theorem field_pointer_violated (mem : QMem) (a : FArr) (t : FTy) (ht : a.ty = .ptr t) (name : String) (fresh : Nat) :
    a.p mem name fresh = .throw .invalidArg := by
  rw [FArr.p, ndAccess, ht, FTy.dtype, FTy.ndims]
  cases h : t.ndims with
  | zero => simp only [FTy.typeAt]
  | succ n => simp only [FTy.typeAt]

/-- The case: in `2 * var * {id: int32, pos: 2 * float64}` the second coordinate of each `pos`, in two rows of one and two
    elements. -/
example : ∃ r : FArr,
    FArr.p ⟨fun a => if a = 0 then 100 else 200, fun a => if a = 0 then 1 else 2⟩
      ⟨.fixed 2 (.var (.record [("id", .leaf 0), ("pos", .fixed 2 (.leaf 1))])),
        .fixed 2 16 (.var none 24 0 (.record [0, 8] [.leaf, .fixed 2 8 .leaf])), 0, none, 5, 7⟩ "pos" 9 = .ok r ∧
      r.ty = .fixed 2 (.var (.fixed 2 (.leaf 1))) ∧ r.flags = 7 ∧
      r.locate ⟨fun a => if a = 0 then 100 else 200, fun a => if a = 0 then 1 else 2⟩ [.elem 1, .elem 1, .elem 1] =
        some (.leaf 1, 240, 5) ∧
      r.locate ⟨fun a => if a = 0 then 100 else 200, fun a => if a = 0 then 1 else 2⟩ [.elem 0, .elem 1, .elem 1] = none := by
  obtain ⟨r, f, e, hf, ht, hfl, _, hl⟩ := field_by_name
    ⟨fun a => if a = 0 then 100 else 200, fun a => if a = 0 then 1 else 2⟩
    (by intro a; have : i64Max = 9223372036854775807 := rfl; simp only []; split_ifs <;> omega)
    ⟨.fixed 2 (.var (.record [("id", .leaf 0), ("pos", .fixed 2 (.leaf 1))])),
        .fixed 2 16 (.var none 24 0 (.record [0, 8] [.leaf, .fixed 2 8 .leaf])), 0, none, 5, 7⟩
    [some 2, none] [("id", .leaf 0), ("pos", .fixed 2 (.leaf 1))] [0, 8] [.leaf, .fixed 2 8 .leaf] rfl
    (.fixed 2 16 (by decide) (.var none 24 0 (.nil _))) rfl rfl "pos" (by decide) 1
    ⟨⟨_, rfl⟩, fun j hj f => by
      have : j = 0 := by omega
      subst this; simp⟩ 9
  simp only [List.getElem?_cons_succ, List.getElem?_cons_zero, Option.some.injEq, Prod.mk.injEq, true_and] at hf
  subst hf
  refine ⟨r, e, ht, hfl, ?_, ?_⟩
  · exact (hl [1, 1] [.elem 1] rfl).trans (by simp [FArr.locate, locate])
  · exact (hl [0, 1] [.elem 1] rfl).trans (by simp [FArr.locate, locate])

end Dynd
