/-
C129: the theorems about `nd::asarray`.
-/
import Verif.Model.AsArray
import Verif.Props.CopyCall
import Verif.Props.TypeOpsProps
import Verif.Props.RandomProps
import Verif.Props.TakeCall

namespace Dynd

/-! ### Specification -/

/-- A dimension of the requested type: a size, `Fixed`, or `var`. -/
inductive ReqDim where
  | fixed (n : Nat) | anyFixed | var
  deriving DecidableEq, Repr

/-- The requested type. -/
def patTy : List ReqDim → Ty → Ty
  | [], el => el
  | .fixed n :: ds, el => .fixedDim n (patTy ds el)
  | .anyFixed :: ds, el => .fixedDimKind (patTy ds el)
  | .var :: ds, el => .varDim (patTy ds el)

/-- An array's dimension (`none` is `var`) is one that was asked for. -/
def AskedFor : ReqDim → Option Nat → Prop
  | .fixed n, d => d = some n
  | .anyFixed, d => d ≠ none
  | .var, d => d = none

/-- The element of a list of one. -/
def onlyItem {α : Type} : Option (NestVal α) → Option (NestVal α)
  | some (.list [x]) => some x
  | _ => none

/-- The sizes of an array that a reader of its type and its first elements knows: those of fixed dimensions, and that of
    a `var` dimension if there is only one list of it, all dimensions before having one element. -/
def sizesOf {α : Type} : List (Option Nat) → Option (NestVal α) → List (Option Nat)
  | [], _ => []
  | some n :: ds, v => some n :: sizesOf ds (onlyItem v)
  | none :: ds, some v => some v.items.length :: sizesOf ds (onlyItem (some v))
  | none :: ds, none => none :: sizesOf ds (none : Option (NestVal α))

/-- The requested dimensions with the known sizes filled in from the left: every `Fixed` needs a size, a size asked for
    must be the one there is, and there must be a dimension for every size. -/
def fillDims : List ReqDim → List (Option Nat) → Option (List (Option Nat))
  | [], [] => some []
  | [], _ :: _ => none
  | .anyFixed :: _, [] => none
  | .fixed n :: ds, [] => (fillDims ds []).map (some n :: ·)
  | .var :: ds, [] => (fillDims ds []).map (none :: ·)
  | .anyFixed :: _, none :: _ => none
  | .anyFixed :: ds, some n :: ss => (fillDims ds ss).map (some n :: ·)
  | .fixed n :: ds, s :: ss => if s = none ∨ s = some n then (fillDims ds ss).map (some n :: ·) else none
  | .var :: ds, _ :: ss => (fillDims ds ss).map (none :: ·)

/-- The dimensions as they were asked for, if they are all known. -/
def plainDims : List ReqDim → Option (List (Option Nat))
  | [] => some []
  | .fixed n :: ds => (plainDims ds).map (some n :: ·)
  | .var :: ds => (plainDims ds).map (none :: ·)
  | .anyFixed :: _ => none

/-- The dimensions of the new array. -/
def newDims (ds : List ReqDim) (sizes : List (Option Nat)) : Option (List (Option Nat)) :=
  match plainDims ds with
  | some a => some a
  | none => fillDims ds sizes

/-! ### The shape -/

/-- a size as it is reported -/
def sizeInt : Option Nat → Int
  | some n => n
  | none => -1

theorem viewList_len {α : Type} (f : Int → Option (NestVal α)) (s : Int) : ∀ (n : Nat) (a : Int) (xs : List (NestVal α)),
    viewList f s n a = some xs → xs.length = n
  | 0, a, xs, h => by simp [viewList] at h; rw [h]; rfl
  | n + 1, a, xs, h => by
    rw [viewList] at h
    cases h1 : f a with
    | none => rw [h1] at h; simp at h
    | some x =>
      cases h2 : viewList f s n (a + s) with
      | none => rw [h1, h2] at h; simp at h
      | some ys =>
        rw [h1, h2] at h; simp at h
        rw [← h, List.length_cons, viewList_len f s n (a + s) ys h2]

theorem viewList_one {α : Type} (f : Int → Option (NestVal α)) (s a : Int) {xs : List (NestVal α)}
    (h : viewList f s 1 a = some xs) : ∃ x, xs = [x] ∧ f a = some x := by
  rw [viewList] at h
  cases h1 : f a with
  | none => rw [h1] at h; simp at h
  | some x => rw [h1] at h; simp [viewList] at h; exact ⟨x, h.symm, rfl⟩

theorem onlyItem_not {α : Type} {xs : List (NestVal α)} (h : xs.length ≠ 1) : onlyItem (some (.list xs)) = none := by
  match xs, h with
  | [], _ => rfl
  | [_], h => simp at h
  | _ :: _ :: _, _ => rfl

theorem getShape_sizes {α : Type} (src : USrc α) {b : List (Option Nat)} {sm : List UMeta} (h : MetaFits b sm) :
    (getShape src.recs sm none = (sizesOf b (none : Option (NestVal α))).map sizeInt) ∧
    ∀ (s : Int) (u : NestVal α), viewArr src.cells src.recs sm s = some u →
      getShape src.recs sm (some s) = (sizesOf b (some u)).map sizeInt := by
  induction h with
  | nil => exact ⟨rfl, fun _ _ _ => rfl⟩
  | @fixed n st ds ms h ih =>
    constructor
    · simp only [getShape, sizesOf, List.map_cons, onlyItem]
      rw [ite_self, ih.1]; rfl
    · intro s u hu
      rw [viewArr] at hu
      cases hx : viewList (viewArr src.cells src.recs ms) st n s with
      | none => rw [hx] at hu; simp at hu
      | some xs =>
        rw [hx] at hu
        simp only [Option.map_some, Option.some.injEq] at hu
        subst hu
        simp only [getShape, sizesOf, List.map_cons]
        by_cases hn : n = 1
        · subst hn
          obtain ⟨x, rfl, hfx⟩ := viewList_one _ _ _ hx
          rw [if_neg (by simp), ih.2 s x hfx]; rfl
        · rw [if_pos hn, ih.1, onlyItem_not (by rw [viewList_len _ _ _ _ _ hx]; exact hn)]; rfl
  | @var st o ds ms h ih =>
    constructor
    · simp only [getShape, sizesOf, List.map_cons]
      rw [ih.1]; rfl
    · intro s u hu
      rw [viewArr] at hu
      cases hr : src.recs s with
      | none => rw [hr] at hu; simp at hu
      | some r =>
        obtain ⟨bb, n⟩ := r
        rw [hr] at hu
        simp only [Option.bind_some] at hu
        cases hx : viewList (viewArr src.cells src.recs ms) st n (bb + o) with
        | none => rw [hx] at hu; simp at hu
        | some xs =>
          rw [hx] at hu
          simp only [Option.map_some, Option.some.injEq] at hu
          subst hu
          have hl := viewList_len _ _ _ _ _ hx
          simp only [getShape, hr, sizesOf, List.map_cons]
          have hi : (NestVal.list xs).items.length = n := hl
          rw [hi]
          by_cases hn : n = 1
          · subst hn
            obtain ⟨x, rfl, hfx⟩ := viewList_one _ _ _ hx
            rw [if_pos rfl, ih.2 _ x hfx]; rfl
          · rw [if_neg hn, ih.1, onlyItem_not (by rw [hl]; exact hn)]; rfl

/-! ### The match -/

theorem cpat_patTy {el : Ty} (h : CPat el) : ∀ ds, CPat (patTy ds el)
  | [] => h
  | .fixed _ :: ds => cpat_patTy h ds
  | .anyFixed :: ds => cpat_patTy h ds
  | .var :: ds => cpat_patTy h ds

theorem namesOk_patTy {el : Ty} (h : NamesOk el) : ∀ ds, NamesOk (patTy ds el)
  | [] => h
  | .fixed _ :: ds => namesOk_patTy h ds
  | .anyFixed :: ds => namesOk_patTy h ds
  | .var :: ds => namesOk_patTy h ds

mutual
theorem concrete_namesOk {t : Ty} (h : Concrete t) : NamesOk t := by
  cases t <;> simp only [Concrete] at h <;> simp only [NamesOk]
  case fixedDim n el => exact concrete_namesOk h.2
  case varDim el => exact concrete_namesOk h
  case pointer t => exact concrete_namesOk h
  case option t => exact concrete_namesOk h.1
  case tuple ts v => exact concretes_namesOk h.2
  case struct ns ts v => exact ⟨h.2.1, concretes_namesOk h.2.2⟩
  case callable r p k => exact ⟨concrete_namesOk h.1, concrete_namesOk h.2.1, concrete_namesOk h.2.2⟩
theorem concretes_namesOk {ts : List Ty} (h : ConcreteAll ts) : NamesOks ts := by
  cases ts with
  | nil => trivial
  | cons t ts => exact ⟨concrete_namesOk h.1, concretes_namesOk h.2⟩
end

theorem inst_pat {σ : Env} {ed es : Ty} (cd : Concrete ed) (cs : Concrete es) (nd : ¬ IsDim ed) (ns : ¬ IsDim es) :
    ∀ (ds : List ReqDim) (b : List (Option Nat)),
      Inst σ (patTy ds ed) (arrTy b es) ↔ List.Forall₂ AskedFor ds b ∧ ed = es
  | [], [] => by
    constructor
    · intro h; exact ⟨.nil, (inst_concrete cd cs h).symm⟩
    · rintro ⟨_, rfl⟩; exact inst_self σ cd
  | [], d :: b => by
    constructor
    · intro h
      have := inst_concrete cd (concrete_arrTy cs (d :: b)) h
      exact absurd (this ▸ (by cases d <;> trivial : IsDim (arrTy (d :: b) es))) nd
    · rintro ⟨h, _⟩; cases h
  | .fixed n :: ds, [] => by
    constructor
    · intro h
      obtain ⟨e, he, _⟩ := (show ∃ e, es = .fixedDim n e ∧ Inst σ (patTy ds ed) e from h)
      rw [he] at ns; exact absurd trivial ns
    · rintro ⟨h, _⟩; cases h
  | .anyFixed :: ds, [] => by
    constructor
    · intro h
      obtain ⟨m, e, he, _⟩ := (show ∃ n e, es = .fixedDim n e ∧ Inst σ (patTy ds ed) e from h)
      rw [he] at ns; exact absurd trivial ns
    · rintro ⟨h, _⟩; cases h
  | .var :: ds, [] => by
    constructor
    · intro h
      obtain ⟨e, he, _⟩ := (show ∃ e, es = .varDim e ∧ Inst σ (patTy ds ed) e from h)
      rw [he] at ns; exact absurd trivial ns
    · rintro ⟨h, _⟩; cases h
  | .fixed n :: ds, d :: b => by
    have ih := inst_pat (σ := σ) cd cs nd ns ds b
    rw [List.forall₂_cons, and_assoc, ← ih]
    constructor
    · intro h
      obtain ⟨e, he, hi⟩ := (show ∃ e, arrTy (d :: b) es = .fixedDim n e ∧ Inst σ (patTy ds ed) e from h)
      cases d with
      | none => cases he
      | some m =>
        simp only [arrTy, Ty.fixedDim.injEq] at he
        obtain ⟨h1, rfl⟩ := he
        exact ⟨by simp only [AskedFor]; congr 1; exact_mod_cast h1, hi⟩
    · rintro ⟨h, hi⟩
      simp only [AskedFor] at h
      subst h
      exact ⟨_, rfl, hi⟩
  | .anyFixed :: ds, d :: b => by
    have ih := inst_pat (σ := σ) cd cs nd ns ds b
    rw [List.forall₂_cons, and_assoc, ← ih]
    constructor
    · intro h
      obtain ⟨m, e, he, hi⟩ := (show ∃ n e, arrTy (d :: b) es = .fixedDim n e ∧ Inst σ (patTy ds ed) e from h)
      cases d with
      | none => cases he
      | some m =>
        simp only [arrTy, Ty.fixedDim.injEq] at he
        obtain ⟨h1, rfl⟩ := he
        exact ⟨by simp [AskedFor], hi⟩
    · rintro ⟨h, hi⟩
      simp only [AskedFor] at h
      obtain ⟨m, rfl⟩ := Option.ne_none_iff_exists'.1 h
      exact ⟨_, _, rfl, hi⟩
  | .var :: ds, d :: b => by
    have ih := inst_pat (σ := σ) cd cs nd ns ds b
    rw [List.forall₂_cons, and_assoc, ← ih]
    constructor
    · intro h
      obtain ⟨e, he, hi⟩ := (show ∃ e, arrTy (d :: b) es = .varDim e ∧ Inst σ (patTy ds ed) e from h)
      cases d with
      | some m => cases he
      | none =>
        simp only [arrTy, Ty.varDim.injEq] at he
        subst he
        exact ⟨rfl, hi⟩
    · rintro ⟨h, hi⟩
      simp only [AskedFor] at h
      subst h
      exact ⟨_, rfl, hi⟩

theorem match_pat (same : List Nat → Bool) {ed es : Ty} (cd : Concrete ed) (cs : Concrete es) (nd : ¬ IsDim ed)
    (ns : ¬ IsDim es) (ds : List ReqDim) (b : List (Option Nat)) :
    (List.Forall₂ AskedFor ds b ∧ ed = es → ∃ σ, matchFresh same (patTy ds ed) (arrTy b es) = .ok (true, σ)) ∧
    (¬ (List.Forall₂ AskedFor ds b ∧ ed = es) → ∃ σ, matchFresh same (patTy ds ed) (arrTy b es) = .ok (false, σ)) := by
  have hp := cpat_patTy (concrete_cpat cd) ds
  have hc := concrete_arrTy cs b
  constructor
  · intro h
    exact (match_iff_partial same hp hc).2 ⟨Env.empty, (inst_pat cd cs nd ns ds b).2 h⟩
  · intro h
    refine (match_false_iff same hp (namesOk_patTy (concrete_namesOk cd) ds) hc).2 ?_
    rintro ⟨σ, hi⟩
    exact h ((inst_pat cd cs nd ns ds b).1 hi)

/-! ### Filling in -/

theorem pat_symbolic {el : Ty} (cd : Concrete el) : ∀ ds : List ReqDim,
    (plainDims ds = none ∧ (patTy ds el).symbolic = true) ∨
      ∃ a, plainDims ds = some a ∧ (patTy ds el).symbolic = false ∧ patTy ds el = arrTy a el
  | [] => .inr ⟨[], rfl, concrete_symbolic cd, rfl⟩
  | .fixed n :: ds => by
    rcases pat_symbolic cd ds with ⟨h1, h2⟩ | ⟨a, h1, h2, h3⟩
    · exact .inl ⟨by simp [plainDims, h1], by simp [patTy, Ty.symbolic, h2]⟩
    · exact .inr ⟨some n :: a, by simp [plainDims, h1], by simp [patTy, Ty.symbolic, h2], by simp [patTy, arrTy, h3]⟩
  | .anyFixed :: ds => .inl ⟨rfl, by simp [patTy, Ty.symbolic]⟩
  | .var :: ds => by
    rcases pat_symbolic cd ds with ⟨h1, h2⟩ | ⟨a, h1, h2, h3⟩
    · exact .inl ⟨by simp [plainDims, h1], by simp [patTy, Ty.symbolic, h2]⟩
    · exact .inr ⟨none :: a, by simp [plainDims, h1], by simp [patTy, Ty.symbolic, h2], by simp [patTy, arrTy, h3]⟩

/-- the layer (C96) of a requested dimension -/
def ReqDim.layer : ReqDim → Layer
  | .fixed n => .fixed n
  | .anyFixed => .fixedKind
  | .var => .var

theorem patTy_stack (el : Ty) : ∀ ds : List ReqDim, patTy ds el = stack (ds.map ReqDim.layer) el
  | [] => rfl
  | d :: ds => by
    rw [List.map_cons, stack_cons, ← patTy_stack el ds]
    cases d <;> rfl

/-- every size fits its dimension and there are not more sizes than dimensions -/
def AllFit : List ReqDim → List (Option Nat) → Prop
  | _, [] => True
  | [], _ :: _ => False
  | d :: ds, s :: ss => SizeFits d.layer (sizeInt s) ∧ AllFit ds ss

theorem allFit_iff : ∀ (ds : List ReqDim) (ss : List (Option Nat)),
    ((ss.map sizeInt).length ≤ (ds.map ReqDim.layer).length ∧
      ∀ (i : Nat) (d : Layer) (x : Int), (ds.map ReqDim.layer)[i]? = some d → (ss.map sizeInt)[i]? = some x → SizeFits d x) ↔
    AllFit ds ss
  | ds, [] => by cases ds <;> simp [AllFit]
  | [], _ :: _ => by simp [AllFit]
  | d :: ds, s :: ss => by
    have ih := allFit_iff ds ss
    rw [AllFit, ← ih]
    constructor
    · rintro ⟨h1, h2⟩
      exact ⟨h2 0 _ _ rfl rfl, by simpa using h1, fun i d x hd hx => h2 (i + 1) d x (by simpa using hd) (by simpa using hx)⟩
    · rintro ⟨h0, h1, h2⟩
      refine ⟨by simpa using h1, fun i d x hd hx => ?_⟩
      cases i with
      | zero => simp at hd hx; rw [← hd, ← hx]; exact h0
      | succ i => exact h2 i d x (by simpa using hd) (by simpa using hx)

theorem fill_nil {el : Ty} (cd : Concrete el) (ds : List ReqDim) : fillDims ds [] = plainDims ds := by
  induction ds with
  | nil => rfl
  | cons d ds ih => cases d <;> simp [fillDims, plainDims, ih]

/-- what `substitute_shape` gives -/
theorem fill_spec {el : Ty} (cd : Concrete el) : ∀ (ds : List ReqDim) (ss : List (Option Nat)),
    (AllFit ds ss →
      (fillDims ds ss = none ∧ (stack (List.zipWith fillSize (ds.map ReqDim.layer) (ss.map sizeInt) ++
          (ds.map ReqDim.layer).drop (ss.map sizeInt).length) el).symbolic = true) ∨
      ∃ a, fillDims ds ss = some a ∧ stack (List.zipWith fillSize (ds.map ReqDim.layer) (ss.map sizeInt) ++
          (ds.map ReqDim.layer).drop (ss.map sizeInt).length) el = arrTy a el) ∧
    (¬ AllFit ds ss → fillDims ds ss = none)
  | ds, [] => by
    refine ⟨fun _ => ?_, fun h => absurd (by cases ds <;> trivial) h⟩
    rw [fill_nil cd]
    have e : stack (List.zipWith fillSize (ds.map ReqDim.layer) (List.map sizeInt []) ++
        (ds.map ReqDim.layer).drop (List.map sizeInt []).length) el = patTy ds el := by
      rw [patTy_stack]; simp
    rw [e]
    rcases pat_symbolic cd ds with ⟨h1, h2⟩ | ⟨a, h1, _, h3⟩
    · exact .inl ⟨h1, h2⟩
    · exact .inr ⟨a, h1, h3⟩
  | [], s :: ss => ⟨fun h => absurd h (by simp [AllFit]), fun _ => rfl⟩
  | d :: ds, s :: ss => by
    have ih := fill_spec cd ds ss
    have e : stack (List.zipWith fillSize ((d :: ds).map ReqDim.layer) ((s :: ss).map sizeInt) ++
        ((d :: ds).map ReqDim.layer).drop ((s :: ss).map sizeInt).length) el =
        (fillSize d.layer (sizeInt s)).over (stack (List.zipWith fillSize (ds.map ReqDim.layer) (ss.map sizeInt) ++
          (ds.map ReqDim.layer).drop (ss.map sizeInt).length) el) := by
      simp [stack_cons]
    rw [e]
    generalize stack (List.zipWith fillSize (ds.map ReqDim.layer) (ss.map sizeInt) ++
          (ds.map ReqDim.layer).drop (ss.map sizeInt).length) el = T at ih
    by_cases hr : AllFit ds ss
    · have h2 : ∀ L : Layer, L ≠ .opt → L ≠ .fixedKind → T.symbolic = true → (L.over T).symbolic = true := by
        intro L _ _ h
        cases L <;> simp [Layer.over, Ty.symbolic, h]
      cases d with
      | fixed n =>
        cases s with
        | none =>
          refine ⟨fun _ => ?_, fun h => absurd ⟨.inl (by simp [sizeInt]), hr⟩ h⟩
          rcases ih.1 hr with ⟨h1, h3⟩ | ⟨a, h1, h3⟩
          · exact .inl ⟨by simp [fillDims, h1], h2 _ (by simp [ReqDim.layer, fillSize]) (by simp [ReqDim.layer, fillSize]) h3⟩
          · exact .inr ⟨some n :: a, by simp [fillDims, h1], by rw [h3]; rfl⟩
        | some m =>
          by_cases hm : m = n
          · subst hm
            refine ⟨fun _ => ?_, fun h => absurd ⟨.inr rfl, hr⟩ h⟩
            rcases ih.1 hr with ⟨h1, h3⟩ | ⟨a, h1, h3⟩
            · exact .inl ⟨by simp [fillDims, h1], h2 _ (by simp [ReqDim.layer, fillSize]) (by simp [ReqDim.layer, fillSize]) h3⟩
            · exact .inr ⟨some m :: a, by simp [fillDims, h1], by rw [h3]; rfl⟩
          · refine ⟨fun h => ?_, fun _ => by simp [fillDims, hm]⟩
            have h0 : (m : Int) < 0 ∨ (m : Int) = n := h.1
            omega
      | anyFixed =>
        cases s with
        | none =>
          refine ⟨fun h => ?_, fun _ => rfl⟩
          have h0 : (0 : Int) ≤ -1 := h.1
          omega
        | some m =>
          refine ⟨fun _ => ?_, fun h => absurd ⟨(show (0 : Int) ≤ m by omega), hr⟩ h⟩
          rcases ih.1 hr with ⟨h1, h3⟩ | ⟨a, h1, h3⟩
          · exact .inl ⟨by simp [fillDims, h1], h2 _ (by simp [ReqDim.layer, fillSize]) (by simp [ReqDim.layer, fillSize]) h3⟩
          · exact .inr ⟨some m :: a, by simp [fillDims, h1], by rw [h3]; rfl⟩
      | var =>
        refine ⟨fun _ => ?_, fun h => absurd ⟨trivial, hr⟩ h⟩
        rcases ih.1 hr with ⟨h1, h3⟩ | ⟨a, h1, h3⟩
        · exact .inl ⟨by simp [fillDims, h1], h2 _ (by simp [ReqDim.layer, fillSize]) (by simp [ReqDim.layer, fillSize]) h3⟩
        · exact .inr ⟨none :: a, by simp [fillDims, h1], by rw [h3]; rfl⟩
    · refine ⟨fun h => absurd h.2 hr, fun _ => ?_⟩
      have := ih.2 hr
      cases d <;> cases s <;> simp [fillDims, this]

/-- The type of the result. -/
theorem asarray_dst (same : List Nat → Bool) {ed es : Ty} (cd : Concrete ed) (cs : Concrete es) (nd : ¬ IsDim ed)
    (ns : ¬ IsDim es) (ds : List ReqDim) (b : List (Option Nat)) (sizes : List (Option Nat))
    (h0 : sizes ≠ [] ∨ plainDims ds ≠ none) :
    asArrayDst same (patTy ds ed) (arrTy b es) (sizes.map sizeInt) =
      (open Classical in if List.Forall₂ AskedFor ds b ∧ ed = es then .ok none
      else match newDims ds sizes with
        | none => .throw .typeError
        | some a => .ok (some (arrTy a ed))) := by
  classical
  unfold asArrayDst
  by_cases hm : List.Forall₂ AskedFor ds b ∧ ed = es
  · obtain ⟨σ, e⟩ := (match_pat same cd cs nd ns ds b).1 hm
    rw [e, Res.bind_ok, if_pos hm]; rfl
  · obtain ⟨σ, e⟩ := (match_pat same cd cs nd ns ds b).2 hm
    rw [e, Res.bind_ok, if_neg hm]
    simp only [Bool.false_eq_true, if_false]
    rcases pat_symbolic cd ds with ⟨h1, h2⟩ | ⟨a, h1, h2, h3⟩
    · have hs : sizes ≠ [] := h0.resolve_right (fun h => h h1)
      rw [h2, if_neg (by simp), newDims, h1]
      have hsub := substitute_shape_exact (ds.map ReqDim.layer) ed (sizes.map sizeInt)
        (by intro d hd; obtain ⟨x, _, rfl⟩ := List.mem_map.1 hd; cases x <;> simp [ReqDim.layer])
        (by simpa using hs) (not_dim_ndim cd nd)
      rw [allFit_iff, ← patTy_stack] at hsub
      by_cases hf : AllFit ds sizes
      · rw [hsub.1 hf, Res.bind_ok]
        rcases (fill_spec cd ds sizes).1 hf with ⟨g1, g2⟩ | ⟨a, g1, g2⟩
        · rw [g2, g1]; rfl
        · rw [g2, g1, concrete_symbolic (concrete_arrTy cd a)]; rfl
      · rw [hsub.2 hf, Res.bind_throw, (fill_spec cd ds sizes).2 hf]
    · rw [h2, if_pos rfl, newDims, h1, h3]; rfl

/-! ### The call -/

theorem patTy_dims_no {α : Type} {b : List (Option Nat)} (hb : b ≠ []) (u : NestVal α) : sizesOf b (some u) ≠ [] := by
  match b, hb with
  | some _ :: _, _ => simp [sizesOf]
  | none :: _, _ => simp [sizesOf]

/-- C129: an array that is of the requested type is returned itself. -/
theorem asarray_same {α β : Type} (same : List Nat → Bool) (fuel : Nat) (op : KTree → α → Res β) {el : Ty}
    (cd : Concrete el) (nd : ¬ IsDim el) {ds : List ReqDim} {b : List (Option Nat)} (h : List.Forall₂ AskedFor ds b)
    (src : USrc α) (sm : List UMeta) (s : Int) (sz : Nat) (base : Int) :
    asArray same fuel op (patTy ds el) (arrTy b el) src sm s sz base = .ok none := by
  obtain ⟨σ, e⟩ := (match_pat same cd cd nd nd ds b).1 ⟨h, rfl⟩
  unfold asArray asArrayDst
  rw [e]
  rfl

/-- C129: an array that is not of the requested type, and from which no such array can be made: the sizes that are known
    contradict it, or leave a `Fixed` dimension open. -/
theorem asarray_rejected {α β : Type} (same : List Nat → Bool) (fuel : Nat) (op : KTree → α → Res β) {ed es : Ty}
    (cd : Concrete ed) (cs : Concrete es) (nd : ¬ IsDim ed) (ns : ¬ IsDim es) {ds : List ReqDim} {b : List (Option Nat)}
    (hb : b ≠ []) (hm : ¬ (List.Forall₂ AskedFor ds b ∧ ed = es)) {src : USrc α} {sm : List UMeta} (hsm : MetaFits b sm)
    {s : Int} {u : NestVal α} (hu : viewArr src.cells src.recs sm s = some u)
    (hd : newDims ds (sizesOf b (some u)) = none) (sz : Nat) (base : Int) :
    asArray same fuel op (patTy ds ed) (arrTy b es) src sm s sz base = .throw .typeError := by
  classical
  unfold asArray
  rw [(getShape_sizes src hsm).2 s u hu, asarray_dst same cd cs nd ns ds b _ (.inl (patTy_dims_no hb u)), if_neg hm, hd]
  rfl

/-- C129: an array that is not of the requested type, from which one can be made: a new array of the requested
    dimensions (the sizes that were left open are those of the given array), to which the given one is assigned as
    `nd::assign` does (C121). -/
theorem asarray_new_partial (same : List Nat → Bool) {ed es : Ty} (cd : Concrete ed) (cs : Concrete es)
    (nd : ¬ IsDim ed) (ns : ¬ IsDim es) (hf : ¬ HasFields es) (hw : Works false true ed es) {ds : List ReqDim}
    {b : List (Option Nat)} (hm : ¬ (List.Forall₂ AskedFor ds b ∧ ed = es)) (hz : b ≠ [] ∨ plainDims ds ≠ none)
    {p : Option Nat} {a : List (Option Nat)} (hfit : CopyFits (p :: a) b) :
    ∃ F K, Right (callMode (some .default)) K ed es ∧
      ∀ {α β : Type} (op : KTree → α → Res β) (src : USrc α) {sm : List UMeta} (_ : MetaFits b sm) {s : Int} {u : NestVal α}
        (_ : viewArr src.cells src.recs sm s = some u) (_ : newDims ds (sizesOf b (some u)) = some (p :: a)) {sz : Nat}
        (_ : 0 < sz) (base : Int) (fuel : Nat), F ≤ fuel →
      ∃ R : Res (UDst β),
        Gives (freshMeta sz (p :: a)) base ⟨fun _ => none, fun _ => none, base + dataSize sz (p :: a)⟩
          (fillWith (op K) (fun _ => none) (freshMeta sz (p :: a)) b.length base u) R ∧
        asArray same fuel op (patTy ds ed) (arrTy b es) src sm s sz base =
          R.bind fun m => .ok (some (arrTy (p :: a) ed, freshMeta sz (p :: a), m)) := by
  classical
  obtain ⟨tbl, htbl, F, K, hr, hrun⟩ := assign_arrays_partial same (some .default) cd cs nd ns hf hw hfit
  refine ⟨F, K, hr, ?_⟩
  intro α β op src sm hsm s u hu hn sz hsz base fuel hfu
  have hdd : dimsOf (arrTy (p :: a) ed) = p :: a := arr_dims (dims_none nd) _
  refine ⟨_, hrun op src hsm (fresh_fits sz (p :: a)) hu hsz (fresh_ready hsz (p :: a) base) fuel hfu, ?_⟩
  unfold asArray
  rw [(getShape_sizes src hsm).2 s u hu, asarray_dst same cd cs nd ns ds b _
    (hz.imp (fun h => patTy_dims_no h u) id), if_neg hm, hn]
  simp only [Res.bind_ok, htbl, hdd]
  rfl

/-- The value is that of an array of dimensions `ds`. -/
def HasDims {α : Type} : List (Option Nat) → NestVal α → Prop
  | [], .elem _ => True
  | some n :: ds, .list xs => xs.length = n ∧ ∀ x ∈ xs, HasDims ds x
  | none :: ds, .list xs => ∀ x ∈ xs, HasDims ds x
  | _, _ => False

theorem along_map {α β : Type} {f : Int → NestVal α → Res (NestVal β)} {g : α → β} (st : Int) :
    ∀ (xs : List (NestVal α)) (a : Int), (∀ x ∈ xs, ∀ a, f a x = .ok (x.map g)) → alongRes f st a xs = .ok (mapAll g xs)
  | [], a, h => rfl
  | x :: xs, a, h => by
    simp only [alongRes, mapAll]
    rw [h x (by simp) a, Res.bind_ok, along_map st xs (a + st) (fun y hy => h y (by simp [hy])), Res.bind_ok]
    rfl

theorem fill_map {α β : Type} {op : α → Res β} {g : α → β} (hg : ∀ x, op x = .ok (g x)) {sz : Nat} :
    ∀ (ds : List (Option Nat)) (u : NestVal α) (a : Int), HasDims ds u →
      fillWith op (fun _ => none) (freshMeta sz ds) ds.length a u = .ok (u.map g)
  | [], .elem x, a, h => by
    simp only [freshMeta, fillWith, hg, Res.bind_ok, NestVal.map]
    rfl
  | [], .list _, a, h => absurd h (by simp [HasDims])
  | some n :: ds, .elem _, a, h => absurd h (by simp [HasDims])
  | none :: ds, .elem _, a, h => absurd h (by simp [HasDims])
  | some n :: ds, .list xs, a, h => by
    have hl : (freshMeta sz ds).length = ds.length := metaFits_length (fresh_fits sz ds)
    obtain ⟨hn, h⟩ := h
    simp only [freshMeta, fillWith, hl, List.length_cons, NestVal.items, NestVal.map]
    rw [if_neg (by omega : ¬ ds.length + 1 ≤ ds.length), if_pos (.inr hn), stretch_one hn,
      show min (ds.length + 1) ds.length = ds.length by omega,
      along_map _ xs a (fun x hx a => fill_map hg ds x a (h x hx))]
    rfl
  | none :: ds, .list xs, a, h => by
    have hl : (freshMeta sz ds).length = ds.length := metaFits_length (fresh_fits sz ds)
    simp only [freshMeta, fillWith, hl, List.length_cons, NestVal.items, NestVal.map]
    rw [if_neg (by omega : ¬ ds.length + 1 ≤ ds.length), if_neg (by simp),
      show min (ds.length + 1) ds.length = ds.length by omega,
      along_map _ xs 0 (fun x hx a => fill_map hg ds x a (h x hx))]
    rfl

/-- C129, the most common case: no dimension is added and none is repeated, and every conversion of an element is without
    an error.  The new array has the value of the given one, every element converted. -/
theorem asarray_convert_partial (same : List Nat → Bool) {ed es : Ty} (cd : Concrete ed) (cs : Concrete es)
    (nd : ¬ IsDim ed) (ns : ¬ IsDim es) (hf : ¬ HasFields es) (hw : Works false true ed es) {ds : List ReqDim}
    {b : List (Option Nat)} (hm : ¬ (List.Forall₂ AskedFor ds b ∧ ed = es))
    {p : Option Nat} {a : List (Option Nat)} (hfit : CopyFits (p :: a) b) (hl : b.length = (p :: a).length) :
    ∃ F K, Right (callMode (some .default)) K ed es ∧
      ∀ {α β : Type} (op : KTree → α → Res β) (g : α → β) (_ : ∀ x, op K x = .ok (g x)) (src : USrc α) {sm : List UMeta}
        (_ : MetaFits b sm) {s : Int} {u : NestVal α} (_ : viewArr src.cells src.recs sm s = some u)
        (_ : newDims ds (sizesOf b (some u)) = some (p :: a)) (_ : HasDims (p :: a) u) {sz : Nat} (_ : 0 < sz) (base : Int)
        (fuel : Nat), F ≤ fuel →
      ∃ m : UDst β,
        asArray same fuel op (patTy ds ed) (arrTy b es) src sm s sz base =
          .ok (some (arrTy (p :: a) ed, freshMeta sz (p :: a), m)) ∧
        viewArr m.cells m.recs (freshMeta sz (p :: a)) base = some (u.map g) := by
  obtain ⟨F, K, hr, hall⟩ := asarray_new_partial same cd cs nd ns hf hw hm (.inl (by
    intro h; rw [h] at hl; simp at hl)) hfit
  refine ⟨F, K, hr, ?_⟩
  intro α β op g hg src sm hsm s u hu hn hd sz hsz base fuel hfu
  obtain ⟨R, hR, e⟩ := hall op src hsm hu hn hsz base fuel hfu
  rw [hl, fill_map hg (p :: a) u base hd] at hR
  obtain ⟨m, rfl, hst⟩ := hR
  exact ⟨m, e, hst.value _ _ (fun _ _ => rfl) (fun _ _ => rfl)⟩

theorem plain_asked : ∀ {ds : List ReqDim} {a : List (Option Nat)}, plainDims ds = some a → List.Forall₂ AskedFor ds a
  | [], a, h => by simp [plainDims] at h; subst h; exact .nil
  | .fixed n :: ds, a, h => by
    simp only [plainDims, Option.map_eq_some_iff] at h
    obtain ⟨x, hx, rfl⟩ := h
    exact .cons rfl (plain_asked hx)
  | .var :: ds, a, h => by
    simp only [plainDims, Option.map_eq_some_iff] at h
    obtain ⟨x, hx, rfl⟩ := h
    exact .cons rfl (plain_asked hx)
  | .anyFixed :: ds, a, h => by simp [plainDims] at h

theorem fill_asked : ∀ (ds : List ReqDim) (ss : List (Option Nat)) {a : List (Option Nat)}, fillDims ds ss = some a →
    List.Forall₂ AskedFor ds a
  | [], [], a, h => by simp [fillDims] at h; subst h; exact .nil
  | [], _ :: _, a, h => by simp [fillDims] at h
  | .anyFixed :: _, [], a, h => by simp [fillDims] at h
  | .fixed n :: ds, [], a, h => by
    simp only [fillDims, Option.map_eq_some_iff] at h
    obtain ⟨x, hx, rfl⟩ := h
    exact .cons rfl (fill_asked ds _ hx)
  | .var :: ds, [], a, h => by
    simp only [fillDims, Option.map_eq_some_iff] at h
    obtain ⟨x, hx, rfl⟩ := h
    exact .cons rfl (fill_asked ds _ hx)
  | .anyFixed :: ds, none :: ss, a, h => by simp [fillDims] at h
  | .anyFixed :: ds, some n :: ss, a, h => by
    simp only [fillDims, Option.map_eq_some_iff] at h
    obtain ⟨x, hx, rfl⟩ := h
    exact .cons (by simp [AskedFor]) (fill_asked ds _ hx)
  | .fixed n :: ds, s :: ss, a, h => by
    by_cases hs : s = none ∨ s = some n
    · simp only [fillDims, if_pos hs, Option.map_eq_some_iff] at h
      obtain ⟨x, hx, rfl⟩ := h
      exact .cons rfl (fill_asked ds _ hx)
    · simp [fillDims, hs] at h
  | .var :: ds, s :: ss, a, h => by
    simp only [fillDims, Option.map_eq_some_iff] at h
    obtain ⟨x, hx, rfl⟩ := h
    exact .cons rfl (fill_asked ds _ hx)

/-- C129: a new array is of the requested type, so that the call for it returns it itself. -/
theorem asarray_again {α β γ : Type} (same : List Nat → Bool) (fuel fuel' : Nat) (op : KTree → α → Res β)
    (op' : KTree → β → Res γ) {ed es : Ty} (cd : Concrete ed) (cs : Concrete es) (nd : ¬ IsDim ed) (ns : ¬ IsDim es)
    {ds : List ReqDim} {b : List (Option Nat)} (hz : b ≠ [] ∨ plainDims ds ≠ none) {src : USrc α} {sm : List UMeta}
    (hsm : MetaFits b sm) {s : Int} {u : NestVal α} (hu : viewArr src.cells src.recs sm s = some u) (sz : Nat) (base : Int)
    {t : Ty} {tm : List UMeta} {m : UDst β}
    (h : asArray same fuel op (patTy ds ed) (arrTy b es) src sm s sz base = .ok (some (t, tm, m)))
    (src' : USrc β) (s' : Int) (sz' : Nat) (base' : Int) :
    asArray same fuel' op' (patTy ds ed) t src' tm s' sz' base' = .ok none := by
  classical
  unfold asArray at h
  rw [(getShape_sizes src hsm).2 s u hu, asarray_dst same cd cs nd ns ds b _ (hz.imp (fun h => patTy_dims_no h u) id)] at h
  by_cases hm : List.Forall₂ AskedFor ds b ∧ ed = es
  · rw [if_pos hm] at h
    cases h
  · rw [if_neg hm] at h
    cases hd : newDims ds (sizesOf b (some u)) with
    | none => rw [hd] at h; cases h
    | some a =>
      rw [hd] at h
      have hask : List.Forall₂ AskedFor ds a := by
        unfold newDims at hd
        cases hp : plainDims ds with
        | none => rw [hp] at hd; exact fill_asked _ _ hd
        | some x => rw [hp] at hd; cases hd; exact plain_asked hp
      simp only [Res.bind_ok] at h
      cases ht : makeAssign same with
      | ok tbl =>
        rw [ht, Res.bind_ok] at h
        generalize assignRun fuel _ _ _ _ _ _ _ _ = R at h
        cases R with
        | ok m' =>
          rw [Res.bind_ok] at h
          cases h
          exact asarray_same same fuel' op' cd nd hask src' _ s' sz' base'
        | throw e => cases h
        | ub => cases h
      | throw e => rw [ht] at h; cases h
      | ub => rw [ht] at h; cases h

/-- C129 violated: the shape of an array without dimensions is null, and `asarray` of a type with an open dimension reads
    it. -/
theorem asarray_scalar_violated {α β : Type} (same : List Nat → Bool) (fuel : Nat) (op : KTree → α → Res β) {ed es : Ty}
    (cd : Concrete ed) (cs : Concrete es) (nd : ¬ IsDim ed) (ns : ¬ IsDim es) {ds : List ReqDim}
    (h : plainDims ds = none) (src : USrc α) (s : Int) (sz : Nat) (base : Int) :
    asArray same fuel op (patTy ds ed) es src [] s sz base = .ub := by
  have hm : ¬ (List.Forall₂ AskedFor ds [] ∧ ed = es) := by
    rintro ⟨h1, _⟩; cases h1; simp [plainDims] at h
  obtain ⟨σ, e⟩ := (match_pat same cd cs nd ns ds []).2 hm
  rcases pat_symbolic cd ds with ⟨_, h2⟩ | ⟨a, h1, _⟩
  · unfold asArray asArrayDst
    rw [show arrTy [] es = es from rfl] at e
    rw [e, Res.bind_ok]
    rw [patTy_stack] at h2 ⊢
    simp only [Bool.false_eq_true, if_false, h2, getShape]
    obtain ⟨d, ds', rfl⟩ : ∃ d ds', ds = d :: ds' := by
      cases ds with
      | nil => simp [plainDims] at h
      | cons d ds' => exact ⟨d, ds', rfl⟩
    rw [List.map_cons, (substitute_shape_violated (ds'.map ReqDim.layer) d.layer ed (by cases d <;> simp [ReqDim.layer]) 0).1]
    rfl
  · rw [h] at h1; cases h1

/-! ### Symbolic element types -/

/-- C129: an array is returned itself whenever the requested type admits it (C77). -/
theorem asarray_admitted {α β : Type} (same : List Nat → Bool) (fuel : Nat) (op : KTree → α → Res β) {tp t : Ty}
    (hp : CPat tp) (hc : Concrete t) {σ : Env} (h : Inst σ tp t) (src : USrc α) (sm : List UMeta) (s : Int) (sz : Nat)
    (base : Int) : asArray same fuel op tp t src sm s sz base = .ok none := by
  obtain ⟨σ', e⟩ := (match_iff_partial same hp hc).2 ⟨σ, h⟩
  unfold asArray asArrayDst
  rw [e]
  rfl

theorem stack_symbolic {el : Ty} (h : el.symbolic = true) : ∀ ls : List Layer, (stack ls el).symbolic = true
  | [] => h
  | l :: ls => by
    have := stack_symbolic h ls
    rw [stack_cons]
    cases l <;> simp [Layer.over, Ty.symbolic, this]

/-- C129: where the element type is symbolic, nothing is converted: an array that is not admitted is refused. -/
theorem asarray_symbolic_rejected {α β : Type} (same : List Nat → Bool) (fuel : Nat) (op : KTree → α → Res β) {el es : Ty}
    (hp : CPat el) (hn : NamesOk el) (hz : el.ndim = 0) (hs : el.symbolic = true) (cs : Concrete es) {ds : List ReqDim}
    {b : List (Option Nat)} (hb : b ≠ []) (hm : ¬ ∃ σ, Inst σ (patTy ds el) (arrTy b es)) {src : USrc α} {sm : List UMeta}
    (hsm : MetaFits b sm) {s : Int} {u : NestVal α} (hu : viewArr src.cells src.recs sm s = some u) (sz : Nat) (base : Int) :
    asArray same fuel op (patTy ds el) (arrTy b es) src sm s sz base = .throw .typeError := by
  obtain ⟨σ, e⟩ := (match_false_iff same (cpat_patTy hp ds) (namesOk_patTy hn ds) (concrete_arrTy cs b)).2 hm
  unfold asArray asArrayDst
  rw [(getShape_sizes src hsm).2 s u hu, e, Res.bind_ok, patTy_stack]
  have hsub := substitute_shape_exact (ds.map ReqDim.layer) el ((sizesOf b (some u)).map sizeInt)
    (by intro d hd; obtain ⟨x, _, rfl⟩ := List.mem_map.1 hd; cases x <;> simp [ReqDim.layer])
    (by simpa using patTy_dims_no hb u) hz
  rw [allFit_iff] at hsub
  simp only [Bool.false_eq_true, if_false, stack_symbolic hs]
  by_cases hf : AllFit ds (sizesOf b (some u))
  · rw [hsub.1 hf]
    simp only [Res.bind_ok, stack_symbolic hs]
    rfl
  · rw [hsub.2 hf]
    rfl

/-! ### Cases -/

/-- The hypotheses of `asarray_convert_partial`: a `var * int32` array of two elements as `Fixed * float64`. -/
example : newDims [.anyFixed] (sizesOf [none] (some (NestVal.list [.elem (1 : Int), .elem 2]))) = some [some 2] ∧
    CopyFits [some 2] [none] ∧ HasDims [some 2] (NestVal.list [.elem (1 : Int), .elem 2]) ∧
    Works false true (.prim (.flt .f64)) (.prim (.int .w32)) ∧
    ¬ (List.Forall₂ AskedFor [.anyFixed] [none] ∧ Ty.prim (.flt .f64) = .prim (.int .w32)) := by
  refine ⟨by decide, .both _ _ rfl (.fromVar _) (by simp [Below]) .nil, ⟨rfl, ?_⟩,
    .num _ _ _ _ ⟨by simp, by simp, by simp⟩ ⟨by simp, by simp, by simp⟩, by simp⟩
  intro x hx
  simp only [List.mem_cons, List.not_mem_nil, or_false] at hx
  rcases hx with rfl | rfl <;> trivial

/-- Those of `asarray_new_partial`: a list of three as `2 * Fixed`: repeated, if the sizes need not be looked up; the
    sizes are filled in from the left otherwise. -/
example (u : NestVal Int) :
    newDims [.fixed 2, .fixed 3] (sizesOf [some 3] (some u)) = some [some 2, some 3] ∧
    CopyFits [some 2, some 3] [some 3] ∧
    newDims [.fixed 2, .anyFixed] (sizesOf [some 3] (some u)) = none ∧
    newDims [.var, .anyFixed] (sizesOf [some 3, some 4] (some u)) = some [none, some 4] := by
  refine ⟨rfl, .rep _ (by simp) (by simp) (.both _ _ rfl (.same 3) (by simp [Below]) .nil), ?_, ?_⟩ <;>
  simp [newDims, plainDims, sizesOf, fillDims]

/-- Those of `asarray_rejected`: the rows of a ragged array have no known size; another number of dimensions. -/
example (u : NestVal Int) :
    newDims [.anyFixed, .anyFixed] (sizesOf [some 2, none] (some (.list [u, u]))) = none ∧
    newDims [.anyFixed] (sizesOf [some 2, some 3] (some (.list [u, u]))) = none := by
  simp [newDims, plainDims, sizesOf, fillDims, onlyItem]

/-- Those of `asarray_same`. -/
example : List.Forall₂ AskedFor [.anyFixed, .var, .fixed 3] [some 5, none, some 3] :=
  .cons (by simp [AskedFor]) (.cons rfl (.cons rfl .nil))

/-- Those of `asarray_symbolic_rejected`: floats as `Fixed * Int`; and of `asarray_admitted`: integers as such. -/
example : Ty.symbolic (.kind .int) = true ∧ Ty.ndim (.kind .int) = 0 ∧
    ¬ (∃ σ, Inst σ (patTy [.anyFixed] (.kind .int)) (arrTy [some 3] (.prim (.flt .f64)))) ∧
    ∃ σ, Inst σ (patTy [.anyFixed] (.kind .int)) (arrTy [some 3] (.prim (.int .w32))) := by
  refine ⟨rfl, rfl, ?_, Env.empty, 3, _, rfl, (show ∃ w, Ty.prim (.int .w32) = .prim (.int w) from ⟨_, rfl⟩)⟩
  rintro ⟨σ, n, e, h, hi⟩
  cases h
  obtain ⟨w, hw⟩ := (show ∃ w, Ty.prim (.flt .f64) = .prim (.int w) from hi)
  cases hw

end Dynd
