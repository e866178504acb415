/-
C37: type pattern matching and substitution of type variables.
-/
import Verif.Model.TypeMatch
import Mathlib.Tactic.Linarith

namespace Dynd

/-! ### Specification -/

mutual
/-- Concrete types: no kinds, type variables or variadic parts; dimension sizes are not negative; a struct has as
    many names as types; an option is not put around a dimension. -/
def Concrete : Ty → Prop
  | .prim _ | .leaf _ => True
  | .fixedDim n el => 0 ≤ n ∧ Concrete el
  | .varDim el => Concrete el
  | .pointer t => Concrete t
  | .option t => Concrete t ∧ (∀ n el, t ≠ .fixedDim n el) ∧ ∀ el, t ≠ .varDim el
  | .tuple ts v => v = false ∧ ConcreteAll ts
  | .struct ns ts v => v = false ∧ ns.length = ts.length ∧ ConcreteAll ts
  | .callable r p k => Concrete r ∧ Concrete p ∧ Concrete k
  | _ => False
/-- every element is concrete -/
def ConcreteAll : List Ty → Prop
  | [] => True
  | t :: ts => Concrete t ∧ ConcreteAll ts
end

/-- The type is an array dimension. -/
def IsDim : Ty → Prop
  | .fixedDim _ _ | .varDim _ => True
  | _ => False

/-- Which concrete types a kind stands for. -/
def InKind : Kind → Ty → Prop
  | .any, _ => True
  | .scalar, c => ¬ IsDim c
  | .bool, c => c = .prim .bool
  | .int, c => ∃ w, c = .prim (.int w)
  | .uint, c => ∃ w, c = .prim (.uint w)
  | .float, c => ∃ f, c = .prim (.flt f)
  | .complex, c => ∃ f, c = .prim (.cplx f)
  | .bytes, c => ∃ a, c = .leaf (.bytes a)
  | .string, c => c = .leaf .string ∨ ∃ n e, c = .leaf (.fixedString n e)
  | .fixedBytes, c => ∃ n a, c = .leaf (.fixedBytes n a)
  | .fixedString, c => ∃ n e, c = .leaf (.fixedString n e)
  | .categorical, c => ∃ i, c = .leaf (.categorical i)

/-- A concrete dimension. -/
inductive CDim where
  | fixed (n : Int) | var

/-- The dimensions `ds` in front of `t`. -/
def addDims : List CDim → Ty → Ty
  | [], t => t
  | .fixed n :: ds, t => .fixedDim n (addDims ds t)
  | .var :: ds, t => .varDim (addDims ds t)

/-- A dimension broadcasts to a dimension with the given tag (n ≥ 0: size n, -1: var, -2: any size). -/
def FitsDim : CDim → Int → Prop
  | .fixed n, t => 0 ≤ n ∧ (n = t ∨ n = 1)
  | .var, _ => True

/-- The dimensions broadcast to the dimensions with the given tags, aligned at the innermost one. -/
def Covers (ds : List CDim) (tags : List Int) : Prop :=
  ∃ pre suf, tags = pre ++ suf ∧ List.Forall₂ FitsDim ds suf

/-- `c` is `k` copies of the dimension `base` (of a given size, or `Fixed`: of any sizes) in front of `e`. -/
def PowDims (base : Ty) : Nat → Ty → Ty → Prop
  | 0, c, e => c = e
  | k + 1, c, e =>
    ∃ n c', c = .fixedDim n c' ∧ ((∃ b, base = .fixedDim n b) ∨ ∃ b, base = .fixedDimKind b) ∧ PowDims base k c' e

mutual
/-- `c` is an instance of the pattern under the variable assignment `σ`: kinds stand for the types in them, a type
    variable for the (non-dimension) type assigned to it, a dimension variable for the dimension (its kind and
    size) assigned to it, a named ellipsis for dimensions that broadcast to the fragment assigned to it, a power
    for as many copies of its base as the number assigned to its exponent; a variadic tuple or struct for any
    tuple or struct that starts with its fields. -/
def Inst (σ : Env) : Ty → Ty → Prop
  | .prim b, c => c = .prim b
  | .leaf l, c => c = .leaf l
  | .kind k, c => InKind k c
  | .fixedDim n el, c => ∃ e, c = .fixedDim n e ∧ Inst σ el e
  | .fixedDimKind el, c => ∃ n e, c = .fixedDim n e ∧ Inst σ el e
  | .varDim el, c => ∃ e, c = .varDim e ∧ Inst σ el e
  | .dimKind el, c => ∃ e, ((∃ n, c = .fixedDim n e) ∨ c = .varDim e) ∧ Inst σ el e
  | .pointer t, c => ∃ e, c = .pointer e ∧ Inst σ t e
  | .option t, c => ∃ e, c = .option e ∧ Inst σ t e
  | .tuple ts v, c => ∃ cs, c = .tuple cs false ∧
      (cs.length = ts.length ∨ (v = true ∧ ts.length ≤ cs.length)) ∧ InstPrefix σ ts cs
  | .struct ns ts v, c => ∃ ms cs, c = .struct ms cs false ∧
      (cs.length = ts.length ∨ (v = true ∧ ts.length ≤ cs.length)) ∧ ns <+: ms ∧ InstPrefix σ ts cs
  | .callable r p k, c => ∃ r' p' k', c = .callable r' p' k' ∧ Inst σ r r' ∧ Inst σ p p' ∧ Inst σ k k'
  | .typevar s, c => σ s = some c ∧ ¬ IsDim c
  | .typevarDim s el, c => ∃ e, Inst σ el e ∧
      ((∃ n d, c = .fixedDim n e ∧ σ s = some (.fixedDim n d)) ∨ ∃ d, c = .varDim e ∧ σ s = some (.varDim d))
  | .ellipsis s el, c => ∃ ds e, c = addDims ds e ∧ Inst σ el e ∧
      (s ≠ "" → ∃ tags, σ s = some (.dimFragment tags) ∧ Covers ds tags)
  | .powDimsym base x el, c => ∃ (k : Nat) (d e : Ty), σ x = some (.fixedDim k d) ∧ PowDims base k c e ∧ Inst σ el e
  | .dimFragment _, _ => False
/-- The leading elements of the candidates are instances of the patterns. -/
def InstPrefix (σ : Env) : List Ty → List Ty → Prop
  | [], _ => True
  | _ :: _, [] => False
  | t :: ts, c :: cs => Inst σ t c ∧ InstPrefix σ ts cs
end

/-- `σ'` keeps the assignments of `σ`; a dim fragment may have been replaced by one to which the same dimensions
    broadcast. -/
def Extends (σ σ' : Env) : Prop :=
  ∀ s t, σ s = some t → σ' s = some t ∨
    ∃ a b, t = .dimFragment a ∧ σ' s = some (.dimFragment b) ∧ ∀ ds, Covers ds a → Covers ds b

mutual
/-- Patterns of the soundness theorem: anything but `Dim` (see `dim_kind_forgets_bindings`), powers with a base
    other than a fixed size or `Fixed` (see `pow_var_skips_dims`), and bare fragments. -/
def POk : Ty → Prop
  | .prim _ | .leaf _ | .kind _ | .typevar _ => True
  | .fixedDim _ el | .fixedDimKind el | .varDim el | .typevarDim _ el | .ellipsis _ el => POk el
  | .pointer t | .option t => POk t
  | .tuple ts _ | .struct _ ts _ => POks ts
  | .callable r p k => POk r ∧ POk p ∧ POk k
  | .powDimsym base _ el => ((∃ n b, base = .fixedDim n b) ∨ ∃ b, base = .fixedDimKind b) ∧ POk el
  | .dimKind _ | .dimFragment _ => False
/-- every element is a `POk` pattern -/
def POks : List Ty → Prop
  | [] => True
  | t :: ts => POk t ∧ POks ts
end

/-! ### Equality of types -/

mutual
/-- `operator==` of types is structural equality. -/
theorem tyEq_iff : ∀ a b : Ty, tyEq a b = true ↔ a = b := by
  intro a b
  cases a <;> cases b <;> simp [tyEq]
  case fixedDim.fixedDim n a m b => simp [tyEq_iff a b]
  case fixedDimKind.fixedDimKind a b => simp [tyEq_iff a b]
  case varDim.varDim a b => simp [tyEq_iff a b]
  case dimKind.dimKind a b => simp [tyEq_iff a b]
  case pointer.pointer a b => simp [tyEq_iff a b]
  case option.option a b => simp [tyEq_iff a b]
  case tuple.tuple a v b w => simp [tyEqs_iff a b]
  case struct.struct n a v m b w => simp [tyEqs_iff a b]; tauto
  case callable.callable r p k r' p' k' => simp [tyEq_iff r r', tyEq_iff p p', tyEq_iff k k', and_assoc]
  case typevarDim.typevarDim x a y b => simp [tyEq_iff a b]
  case ellipsis.ellipsis x a y b => simp [tyEq_iff a b]
  case powDimsym.powDimsym a x e b y f => simp [tyEq_iff a b, tyEq_iff e f]; tauto
/-- the same for vectors of types -/
theorem tyEqs_iff : ∀ a b : List Ty, tyEqs a b = true ↔ a = b := by
  intro a b
  cases a <;> cases b <;> simp [tyEqs]
  case cons.cons a as b bs => simp [tyEq_iff a b, tyEqs_iff as bs]
end

theorem tyEq_refl (a : Ty) : tyEq a a = true := (tyEq_iff a a).2 rfl

theorem tyEq_eq (a b : Ty) [Decidable (a = b)] : tyEq a b = decide (a = b) := by
  by_cases h : a = b
  · simp [h, tyEq_refl]
  · simp only [h, decide_false]
    cases hh : tyEq a b
    · rfl
    · exact absurd ((tyEq_iff a b).1 hh) h

/-! ### Concrete types -/

theorem concreteAll_iff (ts : List Ty) : ConcreteAll ts ↔ ∀ t ∈ ts, Concrete t := by
  induction ts with
  | nil => simp [ConcreteAll]
  | cons t ts ih => simp [ConcreteAll, ih]

theorem concrete_ndim {c : Ty} (hc : Concrete c) : c.ndim = 0 ↔ ¬ IsDim c := by
  cases c <;> simp [Concrete, Ty.ndim, IsDim] at hc ⊢
  case option t =>
    have := concrete_ndim hc.1
    cases t <;> simp_all [IsDim, Ty.ndim]

theorem concrete_variadic {c : Ty} (hc : Concrete c) : c.variadicDims = false := by
  cases c <;> simp [Concrete, Ty.variadicDims] at hc ⊢
  case fixedDim n el => exact concrete_variadic hc.2
  case varDim el => exact concrete_variadic hc
  case pointer t => exact concrete_variadic hc
  case option t => exact concrete_variadic hc.1

mutual
theorem concrete_symbolic {c : Ty} (hc : Concrete c) : c.symbolic = false := by
  cases c <;> simp [Concrete, Ty.symbolic] at hc ⊢
  case fixedDim n el => exact concrete_symbolic hc.2
  case varDim el => exact concrete_symbolic hc
  case pointer t => exact concrete_symbolic hc
  case option t => exact concrete_symbolic hc.1
  case tuple ts v => exact ⟨hc.1, concreteAll_symbolic hc.2⟩
  case struct ns ts v => exact ⟨hc.1, concreteAll_symbolic hc.2.2⟩
theorem concreteAll_symbolic {ts : List Ty} (hc : ConcreteAll ts) : anySymbolic ts = false := by
  cases ts with
  | nil => rfl
  | cons t ts =>
    simp only [ConcreteAll] at hc
    simp [anySymbolic, concrete_symbolic hc.1, concreteAll_symbolic hc.2]
end

theorem concrete_isScalar {c : Ty} (hc : Concrete c) : c.isScalar = true ↔ ¬ IsDim c := by
  rw [← concrete_ndim hc]
  simp [Ty.isScalar, concrete_variadic hc]

theorem concrete_not_any {c : Ty} (hc : Concrete c) : tyEq c (.kind .any) = false := by
  cases c <;> simp [tyEq, Concrete] at hc ⊢

theorem concrete_isDim {c : Ty} (hd : IsDim c) :
    (∃ n e, c = .fixedDim n e) ∨ ∃ e, c = .varDim e := by
  cases c <;> simp [IsDim] at hd ⊢

theorem matchKind_concrete {k : Kind} {c : Ty} (hc : Concrete c) : matchKind k c = true ↔ InKind k c := by
  cases k
  case any => simp [matchKind, InKind]
  case scalar => simp [matchKind, InKind, concrete_isScalar hc]
  all_goals
    cases c <;> simp [Concrete] at hc <;> simp [matchKind, InKind, Ty.baseIs]
  all_goals rename_i x; cases x <;> simp [matchKind, Ty.baseIs]

mutual
/-- A concrete type is an instance of itself, whatever the assignment. -/
theorem inst_self (σ : Env) {c : Ty} (hc : Concrete c) : Inst σ c c := by
  cases c <;> simp [Concrete, Inst] at hc ⊢
  case fixedDim n el => exact inst_self σ hc.2
  case varDim el => exact inst_self σ hc
  case pointer t => exact inst_self σ hc
  case option t => exact inst_self σ hc.1
  case tuple ts v => exact ⟨hc.1, instPrefix_self σ hc.2⟩
  case struct ns ts v => exact ⟨hc.1, instPrefix_self σ hc.2.2⟩
  case callable r p k => exact ⟨inst_self σ hc.1, inst_self σ hc.2.1, inst_self σ hc.2.2⟩
theorem instPrefix_self (σ : Env) {ts : List Ty} (hc : ConcreteAll ts) : InstPrefix σ ts ts := by
  cases ts with
  | nil => trivial
  | cons t ts => exact ⟨inst_self σ hc.1, instPrefix_self σ hc.2⟩
end

/-! ### Extension of assignments -/

theorem Extends.refl (σ : Env) : Extends σ σ := fun _ _ h => .inl h

theorem Extends.trans {σ τ υ : Env} (h1 : Extends σ τ) (h2 : Extends τ υ) : Extends σ υ := by
  intro s t hs
  rcases h1 s t hs with h | ⟨a, b, rfl, hb, hab⟩
  · exact h2 s t h
  · rcases h2 s _ hb with h | ⟨a', b', he, hb', hab'⟩
    · exact .inr ⟨a, b, rfl, h, hab⟩
    · injection he with he; subst he
      exact .inr ⟨a, b', rfl, hb', fun ds h => hab' ds (hab ds h)⟩

theorem Extends.set {σ : Env} {s : String} (t : Ty) (h : σ s = none) : Extends σ (σ.set s t) := by
  intro x u hx
  refine .inl ?_
  unfold Env.set
  by_cases hxs : x = s
  · subst hxs; rw [h] at hx; cases hx
  · rw [if_neg hxs]; exact hx

theorem Env.set_self (σ : Env) (s : String) (t : Ty) : (σ.set s t) s = some t := by simp [Env.set]

theorem Extends.setFrag {σ : Env} {s : String} {a b : List Int} (h : σ s = some (.dimFragment a))
    (hab : ∀ ds, Covers ds a → Covers ds b) : Extends σ (σ.set s (.dimFragment b)) := by
  intro x u hx
  by_cases hxs : x = s
  · subst hxs
    rw [h] at hx; injection hx with hx; subst hx
    exact .inr ⟨a, b, rfl, Env.set_self _ _ _, hab⟩
  · refine .inl ?_
    unfold Env.set
    rw [if_neg hxs]; exact hx

/-- What is not a dim fragment is kept. -/
theorem Extends.keep {σ τ : Env} (h : Extends σ τ) {s : String} {t : Ty} (hs : σ s = some t)
    (ht : ∀ a, t ≠ .dimFragment a) : τ s = some t := by
  rcases h s t hs with h | ⟨a, b, rfl, -, -⟩
  · exact h
  · exact absurd rfl (ht a)

theorem Extends.frag {σ τ : Env} (h : Extends σ τ) {s : String} {a : List Int}
    (hs : σ s = some (.dimFragment a)) :
    ∃ b, τ s = some (.dimFragment b) ∧ ∀ ds, Covers ds a → Covers ds b := by
  rcases h s _ hs with h | ⟨a', b, he, hb, hab⟩
  · exact ⟨a, h, fun _ h => h⟩
  · injection he with he; subst he
    exact ⟨b, hb, hab⟩

/-- Everything bound is a concrete type, a fragment, or the number of an exponent. -/
def EnvConcrete (σ : Env) : Prop := ∀ s t, σ s = some t → t.symbolic = false ∨ ∃ a, t = .dimFragment a

theorem EnvConcrete.set {σ : Env} (h : EnvConcrete σ) (s : String) {t : Ty}
    (ht : t.symbolic = false ∨ ∃ a, t = .dimFragment a) : EnvConcrete (σ.set s t) := by
  intro x u hx
  unfold Env.set at hx
  by_cases hxs : x = s
  · rw [if_pos hxs] at hx; injection hx with hx; subst hx; exact ht
  · rw [if_neg hxs] at hx; exact h x u hx

theorem envConcrete_empty : EnvConcrete Env.empty := by intro s t h; cases h

theorem concrete_addDims (ds : List CDim) {e : Ty} (h : Concrete (addDims ds e)) : Concrete e := by
  induction ds with
  | nil => exact h
  | cons d ds ih =>
    cases d with
    | fixed n => exact ih h.2
    | var => exact ih h

theorem concrete_powDims {base : Ty} (k : Nat) {c e : Ty} (h : Concrete c) (hp : PowDims base k c e) :
    Concrete e := by
  induction k generalizing c with
  | zero => exact hp ▸ h
  | succ k ih =>
    obtain ⟨n, c', rfl, -, hp⟩ := hp
    exact ih h.2 hp

mutual
theorem inst_mono {σ τ : Env} (h : Extends σ τ) {p c : Ty} (hc : Concrete c) (hi : Inst σ p c) :
    Inst τ p c := by
  cases p <;> simp only [Inst] at hi ⊢
  case prim b => exact hi
  case leaf l => exact hi
  case kind k => exact hi
  case fixedDim n el =>
    obtain ⟨e, rfl, hi⟩ := hi
    exact ⟨e, rfl, inst_mono h hc.2 hi⟩
  case fixedDimKind el =>
    obtain ⟨n, e, rfl, hi⟩ := hi
    exact ⟨n, e, rfl, inst_mono h hc.2 hi⟩
  case varDim el =>
    obtain ⟨e, rfl, hi⟩ := hi
    exact ⟨e, rfl, inst_mono h hc hi⟩
  case dimKind el =>
    obtain ⟨e, hd, hi⟩ := hi
    refine ⟨e, hd, ?_⟩
    rcases hd with ⟨n, rfl⟩ | rfl
    · exact inst_mono h hc.2 hi
    · exact inst_mono h hc hi
  case pointer t =>
    obtain ⟨e, rfl, hi⟩ := hi
    exact ⟨e, rfl, inst_mono h hc hi⟩
  case option t =>
    obtain ⟨e, rfl, hi⟩ := hi
    exact ⟨e, rfl, inst_mono h hc.1 hi⟩
  case tuple ts v =>
    obtain ⟨cs, rfl, hn, hi⟩ := hi
    exact ⟨cs, rfl, hn, instPrefix_mono h hc.2 hi⟩
  case struct ns ts v =>
    obtain ⟨ms, cs, rfl, hn, hp, hi⟩ := hi
    exact ⟨ms, cs, rfl, hn, hp, instPrefix_mono h hc.2.2 hi⟩
  case callable r p k =>
    obtain ⟨r', p', k', rfl, h1, h2, h3⟩ := hi
    exact ⟨r', p', k', rfl, inst_mono h hc.1 h1, inst_mono h hc.2.1 h2,
      inst_mono h hc.2.2 h3⟩
  case typevar s =>
    refine ⟨h.keep hi.1 ?_, hi.2⟩
    rintro a rfl; exact hc
  case typevarDim s el =>
    obtain ⟨e, hi, hd⟩ := hi
    rcases hd with ⟨n, d, rfl, hd⟩ | ⟨d, rfl, hd⟩
    · exact ⟨e, inst_mono h hc.2 hi, .inl ⟨n, d, rfl, h.keep hd (by rintro a ⟨⟩)⟩⟩
    · exact ⟨e, inst_mono h hc hi, .inr ⟨d, rfl, h.keep hd (by rintro a ⟨⟩)⟩⟩
  case ellipsis s el =>
    obtain ⟨ds, e, rfl, hi, hs⟩ := hi
    refine ⟨ds, e, rfl, inst_mono h (concrete_addDims ds hc) hi, fun hne => ?_⟩
    obtain ⟨tags, ht, hcov⟩ := hs hne
    obtain ⟨b, hb, hab⟩ := h.frag ht
    exact ⟨b, hb, hab ds hcov⟩
  case powDimsym base x el =>
    obtain ⟨k, d, e, hx, hp, hi⟩ := hi
    exact ⟨k, d, e, h.keep hx (by rintro a ⟨⟩), hp, inst_mono h (concrete_powDims k hc hp) hi⟩
theorem instPrefix_mono {σ τ : Env} (h : Extends σ τ) {ts cs : List Ty} (hc : ConcreteAll cs)
    (hi : InstPrefix σ ts cs) : InstPrefix τ ts cs := by
  cases ts with
  | nil => trivial
  | cons t ts =>
    cases cs with
    | nil => cases hi
    | cons c cs => exact ⟨inst_mono h hc.1 hi.1, instPrefix_mono h hc.2 hi.2⟩
end

/-! ### Dimensions and fragments -/

/-- the fragment tag of a dimension -/
def tagOf : CDim → Int
  | .fixed n => n
  | .var => -1

/-- the size, if fixed, is not negative -/
def CDim.NonNeg : CDim → Prop
  | .fixed n => 0 ≤ n
  | .var => True

theorem addDims_nonneg (ds : List CDim) {e : Ty} (h : Concrete (addDims ds e)) : ∀ d ∈ ds, d.NonNeg := by
  induction ds with
  | nil => intro d hd; cases hd
  | cons d ds ih =>
    intro d' hd'
    cases d with
    | fixed n =>
      rcases List.mem_cons.1 hd' with rfl | hd'
      · exact h.1
      · exact ih h.2 d' hd'
    | var =>
      rcases List.mem_cons.1 hd' with rfl | hd'
      · trivial
      · exact ih h d' hd'

/-- Splitting off the leading dimensions of a concrete type. -/
theorem split_dims (m : Nat) {c : Ty} (hc : Concrete c) (hm : m ≤ c.ndim) :
    ∃ ds e, c = addDims ds e ∧ ds.length = m ∧ c.atDim m = .ok e ∧ c.ndim = m + e.ndim := by
  induction m generalizing c with
  | zero => exact ⟨[], c, rfl, rfl, by cases c <;> rfl, by simp⟩
  | succ m ih =>
    have hd : IsDim c := by
      by_contra h
      have := (concrete_ndim hc).2 h
      omega
    rcases concrete_isDim hd with ⟨n, e, rfl⟩ | ⟨e, rfl⟩
    · simp only [Ty.ndim] at hm
      obtain ⟨ds, e', rfl, hl, ha, hn⟩ := ih hc.2 (by omega)
      exact ⟨.fixed n :: ds, e', rfl, by simp [hl], by simpa [Ty.atDim] using ha, by simp [Ty.ndim]; omega⟩
    · simp only [Ty.ndim] at hm
      obtain ⟨ds, e', rfl, hl, ha, hn⟩ := ih (c := e) hc (by omega)
      exact ⟨.var :: ds, e', rfl, by simp [hl], by simpa [Ty.atDim] using ha, by simp [Ty.ndim]; omega⟩

theorem taggedDims_add (ds rest : List CDim) (e : Ty) :
    taggedDims ds.length (addDims (ds ++ rest) e) = .ok (ds.map tagOf, addDims rest e) := by
  induction ds with
  | nil => rfl
  | cons d ds ih =>
    cases d with
    | fixed n => simp only [List.cons_append, List.length_cons, addDims, taggedDims, dimTag, ih]; rfl
    | var => simp only [List.cons_append, List.length_cons, addDims, taggedDims, dimTag, ih]; rfl

/-- The broadcast replaces a tag only if it was open (negative) or 1. -/
def TagLe (a b : Int) : Prop := b = a ∨ a < 0 ∨ a = 1

theorem fits_mono {d : CDim} {a b : Int} (h : FitsDim d a) (hab : TagLe a b) : FitsDim d b := by
  cases d with
  | var => trivial
  | fixed n =>
    obtain ⟨h0, h⟩ := h
    refine ⟨h0, ?_⟩
    rcases hab with rfl | hab | rfl
    · exact h
    · omega
    · right; omega

theorem forall₂_fits_mono {ds : List CDim} {a b : List Int} (h : List.Forall₂ FitsDim ds a)
    (hab : List.Forall₂ TagLe a b) : List.Forall₂ FitsDim ds b := by
  induction h generalizing b with
  | nil => cases hab; exact .nil
  | cons h _ ih =>
    cases hab with
    | cons h1 h2 => exact .cons (fits_mono h h1) (ih h2)

theorem forall₂_append_left {α β : Type} {R : α → β → Prop} {a1 a2 : List α} {b : List β}
    (h : List.Forall₂ R (a1 ++ a2) b) : ∃ b1 b2, b = b1 ++ b2 ∧ List.Forall₂ R a1 b1 ∧ List.Forall₂ R a2 b2 := by
  induction a1 generalizing b with
  | nil => exact ⟨[], b, rfl, .nil, h⟩
  | cons x a1 ih =>
    cases h with
    | cons h1 h2 =>
      obtain ⟨b1, b2, rfl, hb1, hb2⟩ := ih h2
      exact ⟨_ :: b1, b2, rfl, .cons h1 hb1, hb2⟩

theorem forall₂_append {α β : Type} {R : α → β → Prop} {a1 a2 : List α} {b1 b2 : List β}
    (h1 : List.Forall₂ R a1 b1) (h2 : List.Forall₂ R a2 b2) : List.Forall₂ R (a1 ++ a2) (b1 ++ b2) := by
  induction h1 with
  | nil => exact h2
  | cons h _ ih => exact .cons h ih

theorem forall₂_tagLe_refl (a : List Int) : List.Forall₂ TagLe a a := by
  induction a with
  | nil => exact .nil
  | cons x a ih => exact .cons (.inl rfl) ih

theorem covers_mono {a b : List Int} (hab : List.Forall₂ TagLe a b) {ds : List CDim} (h : Covers ds a) :
    Covers ds b := by
  obtain ⟨pre, suf, rfl, h⟩ := h
  obtain ⟨b1, b2, rfl, -, hb2⟩ := forall₂_append_left hab
  exact ⟨b1, b2, rfl, forall₂_fits_mono h hb2⟩

theorem covers_prepend (l : List Int) {ds : List CDim} {b : List Int} (h : Covers ds b) : Covers ds (l ++ b) := by
  obtain ⟨pre, suf, rfl, h⟩ := h
  exact ⟨l ++ pre, suf, by simp, h⟩

theorem fits_tagOf {ds : List CDim} (h : ∀ d ∈ ds, d.NonNeg) : List.Forall₂ FitsDim ds (ds.map tagOf) := by
  induction ds with
  | nil => exact .nil
  | cons d ds ih =>
    refine .cons ?_ (ih fun d hd => h d (by simp [hd]))
    have := h d (by simp)
    cases d with
    | var => trivial
    | fixed n => exact ⟨this, .inl rfl⟩

theorem covers_tagOf {ds : List CDim} (h : ∀ d ∈ ds, d.NonNeg) : Covers ds (ds.map tagOf) :=
  ⟨[], _, rfl, fits_tagOf h⟩

theorem bcastSlot_spec {old : Int} {d : CDim} (hd : d.NonNeg) {slot : Option Int} (hs : slot = none ∨ slot = some old)
    {x : Int} (h : bcastSlot old (tagOf d) slot = some (some x)) : TagLe old x ∧ FitsDim d x := by
  cases d with
  | var =>
    change bcastSlot old (-1) slot = _ at h
    unfold bcastSlot at h
    rw [if_neg (by decide), if_pos rfl] at h
    injection h with h
    rcases hs with rfl | rfl
    · cases h
    · injection h with h; subst h; exact ⟨.inl rfl, trivial⟩
  | fixed n =>
    change bcastSlot old n slot = _ at h
    change 0 ≤ n at hd
    unfold bcastSlot at h
    rw [if_neg (show ¬ n = -2 by omega), if_neg (show ¬ n = -1 by omega)] at h
    by_cases h1 : old < 0 ∨ old = 1
    · rw [if_pos h1] at h
      injection h with h; injection h with h; subst h
      exact ⟨.inr h1, hd, .inl rfl⟩
    · rw [if_neg h1] at h
      by_cases h2 : old ≠ n ∧ n ≠ 1
      · rw [if_pos h2] at h; cases h
      · rw [if_neg h2] at h
        injection h with h
        rcases hs with rfl | rfl
        · cases h
        · injection h with h; subst h
          refine ⟨.inl rfl, hd, ?_⟩
          by_cases h3 : n = old
          · exact .inl h3
          · exact .inr (by omega)

theorem map_some_inj {a b : List Int} (h : a.map some = b.map some) : a = b := by
  have := congrArg (List.filterMap id) h
  simpa using this

theorem readSlots_ok {l : List (Option Int)} {r : List Int} (h : readSlots l = .ok r) : l = r.map some := by
  induction l generalizing r with
  | nil => simp [readSlots] at h; subst h; rfl
  | cons x l ih =>
    cases x with
    | none => simp [readSlots] at h
    | some x =>
      rw [readSlots, Res.bind_eq_ok] at h
      obtain ⟨r', h1, h2⟩ := h
      simp only [Res.pure_eq, Res.ok.injEq] at h2
      subst h2
      simp [ih h1]

theorem bcastTagged_spec {ds : List CDim} (hd : ∀ d ∈ ds, d.NonNeg) (e : Ty) {olds : List Int}
    {slots : List (Option Int)} (hl : olds.length = ds.length)
    (hs : slots = List.replicate olds.length none ∨ slots = olds.map some) {xs : List Int}
    (h : bcastTagged (addDims ds e) olds slots = .ok (some (xs.map some))) :
    List.Forall₂ TagLe olds xs ∧ List.Forall₂ FitsDim ds xs := by
  induction ds generalizing olds slots xs with
  | nil =>
    cases olds with
    | cons a b => simp at hl
    | nil =>
      rw [bcastTagged.eq_2 _ _ _ (by simp)] at h
      simp only [Res.ok.injEq, Option.some.injEq] at h
      cases xs with
      | nil => exact ⟨.nil, .nil⟩
      | cons a b => simp at h
  | cons d ds ih =>
    cases olds with
    | nil => simp at hl
    | cons old olds =>
      obtain ⟨slot, slots', rfl, hs1, hs2⟩ : ∃ slot slots', slots = slot :: slots' ∧ (slot = none ∨ slot = some old) ∧
          (slots' = List.replicate olds.length none ∨ slots' = olds.map some) := by
        rcases hs with rfl | rfl
        · exact ⟨none, _, by simp [List.replicate_succ], .inl rfl, .inl rfl⟩
        · exact ⟨some old, _, rfl, .inr rfl, .inr rfl⟩
      have hdt : dimTag (addDims (d :: ds) e) = some (tagOf d, addDims ds e) := by cases d <;> rfl
      rw [bcastTagged, hdt] at h
      simp only at h
      cases hb : bcastSlot old (tagOf d) slot with
      | none => rw [hb] at h; simp at h
      | some s =>
        rw [hb] at h
        simp only at h
        rw [Res.bind_eq_ok] at h
        obtain ⟨r, h1, h2⟩ := h
        simp only [Res.pure_eq, Res.ok.injEq] at h2
        cases r with
        | none => simp at h2
        | some r =>
          simp only [Option.map_some, Option.some.injEq] at h2
          cases xs with
          | nil => simp at h2
          | cons x xs =>
            simp only [List.map_cons, List.cons.injEq] at h2
            obtain ⟨rfl, rfl⟩ := h2
            have h3 := ih (fun d hd' => hd d (by simp [hd'])) (by simpa using hl) hs2 h1
            have h4 := bcastSlot_spec (hd d (by simp)) hs1 hb
            exact ⟨.cons h4.1 h3.1, .cons h4.2 h3.2⟩

/-- Broadcasting a fragment with the dimensions of a type: all the dimensions that fitted before and the new ones
    fit the result. -/
theorem bcastFragment_spec {ds : List CDim} (hd : ∀ d ∈ ds, d.NonNeg) (e : Ty) {tags tags' : List Int}
    (h : bcastFragment tags ds.length (addDims ds e) = .ok (some tags')) :
    (∀ ds', Covers ds' tags → Covers ds' tags') ∧ Covers ds tags' := by
  unfold bcastFragment at h
  by_cases h0 : ds.length = 0
  · rw [if_pos h0] at h
    simp only [Res.ok.injEq, Option.some.injEq] at h
    subst h
    rw [List.length_eq_zero_iff] at h0
    subst h0
    exact ⟨fun _ h => h, ⟨tags, [], by simp, .nil⟩⟩
  rw [if_neg h0] at h
  by_cases hlt : tags.length < ds.length
  · rw [if_pos hlt] at h
    have hsplit : ds = ds.take (ds.length - tags.length) ++ ds.drop (ds.length - tags.length) := by simp
    have hl1 : (ds.take (ds.length - tags.length)).length = ds.length - tags.length := by simp
    have htd : taggedDims (ds.length - tags.length) (addDims ds e)
        = .ok ((ds.take (ds.length - tags.length)).map tagOf, addDims (ds.drop (ds.length - tags.length)) e) := by
      have := taggedDims_add (ds.take (ds.length - tags.length)) (ds.drop (ds.length - tags.length)) e
      rwa [← hsplit, hl1] at this
    generalize hd1 : ds.take (ds.length - tags.length) = ds1 at *
    generalize hd2 : ds.drop (ds.length - tags.length) = ds2 at *
    have hl2 : tags.length = ds2.length := by
      rw [← hd2]; simp; omega
    rw [htd, Res.bind_ok] at h
    simp only at h
    rw [Res.bind_eq_ok] at h
    obtain ⟨r, h1, h2⟩ := h
    cases r with
    | none => simp at h2
    | some slots =>
      simp only at h2
      rw [Res.bind_eq_ok] at h2
      obtain ⟨shape, h3, h4⟩ := h2
      simp only [Res.pure_eq, Res.ok.injEq, Option.some.injEq] at h4
      subst h4
      have h5 := readSlots_ok h3
      obtain ⟨xs, hxs⟩ : ∃ xs : List Int, shape = ds1.map tagOf ++ xs ∧ slots = xs.map some := by
        refine ⟨shape.drop (ds1.map tagOf).length, ?_, ?_⟩
        · have h6 := congrArg (List.take (ds1.map tagOf).length) h5
          rw [List.take_left' (by simp), ← List.map_take] at h6
          have h7 := map_some_inj h6
          conv_lhs => rw [← List.take_append_drop (ds1.map tagOf).length shape, ← h7]
        · have h6 := congrArg (List.drop (ds1.map tagOf).length) h5
          rw [List.drop_left' (by simp), ← List.map_drop] at h6
          exact h6
      obtain ⟨rfl, rfl⟩ := hxs
      have hd' : ∀ d ∈ ds1 ++ ds2, d.NonNeg := by rw [← hsplit]; exact hd
      have h8 := bcastTagged_spec (fun d hd'' => hd' d (by simp [hd''])) e hl2 (.inl rfl) h1
      refine ⟨fun ds' hds' => covers_prepend _ (covers_mono h8.1 hds'), ?_⟩
      rw [hsplit]
      exact ⟨[], _, rfl, forall₂_append (fits_tagOf fun d hd'' => hd' d (by simp [hd''])) h8.2⟩
  · rw [if_neg hlt] at h
    simp only at h
    rw [Res.bind_eq_ok] at h
    obtain ⟨r, h1, h2⟩ := h
    have hl : (tags.drop (tags.length - ds.length)).length = ds.length := by simp; omega
    have hsplit : tags = tags.take (tags.length - ds.length) ++ tags.drop (tags.length - ds.length) := by simp
    generalize tags.drop (tags.length - ds.length) = t2 at *
    generalize tags.take (tags.length - ds.length) = t1 at *
    cases r with
    | none => simp at h2
    | some slots =>
      simp only at h2
      rw [Res.bind_eq_ok] at h2
      obtain ⟨shape, h3, h4⟩ := h2
      simp only [Res.pure_eq, Res.ok.injEq, Option.some.injEq] at h4
      subst h4
      have h5 := readSlots_ok h3
      obtain ⟨xs, hxs⟩ : ∃ xs : List Int, shape = t1 ++ xs ∧ slots = xs.map some := by
        refine ⟨shape.drop t1.length, ?_, ?_⟩
        · have h6 := congrArg (List.take t1.length) h5
          rw [List.take_left' (by simp), ← List.map_take] at h6
          have h7 := map_some_inj h6
          conv_lhs => rw [← List.take_append_drop t1.length shape, ← h7]
        · have h6 := congrArg (List.drop t1.length) h5
          rw [List.drop_left' (by simp), ← List.map_drop] at h6
          exact h6
      obtain ⟨rfl, rfl⟩ := hxs
      have h8 := bcastTagged_spec hd e hl (.inr rfl) h1
      refine ⟨fun ds' hds' => ?_, covers_prepend _ ⟨[], _, rfl, h8.2⟩⟩
      rw [hsplit] at hds'
      exact covers_mono (forall₂_append (forall₂_tagLe_refl t1) h8.1) hds'

/-! ### Soundness -/

theorem shortcut {b : Bool} {p c : Ty} {σ σ' : Env} {x : Res (Bool × Env)}
    (h : (if (b && tyEq p c) = true then Res.ok (true, σ) else x) = .ok (true, σ')) :
    (p = c ∧ σ' = σ) ∨ x = .ok (true, σ') := by
  by_cases hb : (b && tyEq p c) = true
  · rw [if_pos hb] at h
    simp only [Res.ok.injEq, Prod.mk.injEq, true_and] at h
    rw [Bool.and_eq_true] at hb
    exact .inl ⟨(tyEq_iff p c).1 hb.2, h.symm⟩
  · rw [if_neg hb] at h
    exact .inr h

/-- What a successful match gives. -/
def Good (σ σ' : Env) (p c : Ty) : Prop :=
  Extends σ σ' ∧ Inst σ' p c ∧ (EnvConcrete σ → EnvConcrete σ')

theorem Good.same {σ σ' : Env} {p c : Ty} (hc : Concrete c) (h : p = c ∧ σ' = σ) : Good σ σ' p c := by
  obtain ⟨rfl, rfl⟩ := h
  exact ⟨Extends.refl _, inst_self _ hc, id⟩

theorem prefixNames_true {ns ms : List String} (h : prefixNames ns ms = .ok true) : ns <+: ms := by
  induction ns generalizing ms with
  | nil => exact List.nil_prefix
  | cons a ns ih =>
    cases ms with
    | nil => simp [prefixNames] at h
    | cons b ms =>
      simp only [prefixNames] at h
      by_cases hab : a = b
      · rw [if_pos hab] at h
        rw [hab, List.cons_prefix_cons]
        exact ⟨rfl, ih h⟩
      · rw [if_neg hab] at h; cases h

theorem countsMatch_iff {n m : Nat} {v : Bool} :
    countsMatch n v m false = true ↔ (m = n ∨ (v = true ∧ n ≤ m)) := by
  cases v <;> simp [countsMatch] <;> omega

theorem stripFixed_powDims {n : Int} {b : Ty} {k : Nat} {c e : Ty} (h : stripFixed n k c = some e) :
    PowDims (.fixedDim n b) k c e := by
  induction k generalizing c with
  | zero => simpa [stripFixed, PowDims] using h
  | succ k ih =>
    cases c <;> simp only [stripFixed, reduceCtorEq] at h
    rename_i m el
    by_cases hm : m = n
    · rw [if_pos hm] at h
      exact ⟨m, el, rfl, .inl ⟨b, by rw [hm]⟩, ih h⟩
    · rw [if_neg hm] at h; cases h

theorem stripFixedKind_powDims {b : Ty} {k : Nat} {c e : Ty} (hc : Concrete c) (h : stripFixedKind k c = some e) :
    PowDims (.fixedDimKind b) k c e := by
  induction k generalizing c with
  | zero => simpa [stripFixedKind, PowDims] using h
  | succ k ih =>
    cases c <;> simp only [stripFixedKind, reduceCtorEq] at h
    · rename_i m el
      exact ⟨m, el, rfl, .inr ⟨b, rfl⟩, ih hc.2 h⟩
    · cases hc

theorem stripPow_powDims {base : Ty} (hb : (∃ n b, base = .fixedDim n b) ∨ ∃ b, base = .fixedDimKind b) {k : Nat}
    {c e : Ty} (hc : Concrete c) (h : stripPow base k c = some e) : PowDims base k c e := by
  rcases hb with ⟨n, b, rfl⟩ | ⟨b, rfl⟩
  · exact stripFixed_powDims h
  · exact stripFixedKind_powDims hc h

theorem sameDimId_concrete {c t : Ty} (hd : IsDim c) (h : sameDimId c t = true) :
    (∃ n e d, c = .fixedDim n e ∧ t = .fixedDim n d) ∨ ∃ e d, c = .varDim e ∧ t = .varDim d := by
  cases c <;> simp only [IsDim] at hd
  · rename_i n e
    cases t <;> simp [sameDimId] at h
    rename_i m d
    subst h
    exact .inl ⟨n, e, d, rfl, rfl⟩
  · rename_i e
    cases t <;> simp [sameDimId] at h
    rename_i d
    exact .inr ⟨e, d, rfl, rfl⟩

mutual
/-- **Soundness of matching.**  If a pattern matches a concrete type, the type is an instance of the pattern under
    the resulting bindings — so a repeated variable stands for equal types everywhere — and the bindings that were
    there before are kept. -/
theorem match_sound_partial (same : List Nat → Bool) {p : Ty} (hp : POk p) {c : Ty} (hc : Concrete c) {σ σ' : Env}
    (h : matchTy same p c σ = .ok (true, σ')) : Good σ σ' p c := by
  cases p <;> simp only [matchTy] at h
  case prim b =>
    simp only [Res.ok.injEq, Prod.mk.injEq] at h
    exact .same hc ⟨(tyEq_iff _ _).1 h.1, h.2.symm⟩
  case leaf l =>
    simp only [Res.ok.injEq, Prod.mk.injEq] at h
    exact .same hc ⟨(tyEq_iff _ _).1 h.1, h.2.symm⟩
  case kind k =>
    replace h := shortcut h
    rcases h with h | h
    · exact .same hc h
    · simp only [Res.ok.injEq, Prod.mk.injEq] at h
      obtain ⟨h, rfl⟩ := h
      exact ⟨Extends.refl _, (matchKind_concrete hc).1 h, id⟩
  case fixedDim n el =>
    replace h := shortcut h
    rcases h with h | h
    · exact .same hc h
    · cases c <;> simp only [Res.ok.injEq, Prod.mk.injEq, Bool.false_eq_true, false_and] at h
      rename_i m el'
      by_cases hn : n = m
      · rw [if_pos hn] at h
        subst hn
        obtain ⟨h1, h2, h3⟩ := match_sound_partial _ (by simpa [POk] using hp) hc.2 h
        exact ⟨h1, by simp only [Inst]; exact ⟨_, rfl, h2⟩, h3⟩
      · rw [if_neg hn] at h; simp at h
  case fixedDimKind el =>
    replace h := shortcut h
    rcases h with h | h
    · exact .same hc h
    · cases c <;> simp only [Res.ok.injEq, Prod.mk.injEq, Bool.false_eq_true, false_and] at h
      · rename_i m el'
        obtain ⟨h1, h2, h3⟩ := match_sound_partial _ (by simpa [POk] using hp) hc.2 h
        exact ⟨h1, by simp only [Inst]; exact ⟨_, _, rfl, h2⟩, h3⟩
      · cases hc
  case varDim el =>
    replace h := shortcut h
    rcases h with h | h
    · exact .same hc h
    · cases c <;> simp only [Res.ok.injEq, Prod.mk.injEq, Bool.false_eq_true, false_and] at h
      rename_i el'
      obtain ⟨h1, h2, h3⟩ := match_sound_partial _ (by simpa [POk] using hp) (c := el') hc h
      exact ⟨h1, by simp only [Inst]; exact ⟨_, rfl, h2⟩, h3⟩
  case dimKind el => cases hp
  case pointer t =>
    replace h := shortcut h
    rcases h with h | h
    · exact .same hc h
    · cases c <;> simp only [Res.ok.injEq, Prod.mk.injEq, Bool.false_eq_true, false_and] at h
      rename_i el'
      obtain ⟨h1, h2, h3⟩ := match_sound_partial _ (by simpa [POk] using hp) (c := el') hc h
      exact ⟨h1, by simp only [Inst]; exact ⟨_, rfl, h2⟩, h3⟩
  case option t =>
    replace h := shortcut h
    rcases h with h | h
    · exact .same hc h
    · cases c <;> simp only [Res.ok.injEq, Prod.mk.injEq, Bool.false_eq_true, false_and] at h
      rename_i el'
      obtain ⟨h1, h2, h3⟩ := match_sound_partial _ (by simpa [POk] using hp) hc.1 h
      exact ⟨h1, by simp only [Inst]; exact ⟨_, rfl, h2⟩, h3⟩
  case tuple ts v =>
    replace h := shortcut h
    rcases h with h | h
    · exact .same hc h
    · cases c <;> simp only [Res.ok.injEq, Prod.mk.injEq, Bool.false_eq_true, false_and] at h
      rename_i cs w
      obtain ⟨rfl, hc⟩ := hc
      by_cases hn : countsMatch ts.length v cs.length false = true
      · rw [if_pos hn] at h
        obtain ⟨h1, h2, h3⟩ := matchs_sound _ (by simpa [POk] using hp) hc h
        exact ⟨h1, by simp only [Inst]; exact ⟨cs, rfl, countsMatch_iff.1 hn, h2⟩, h3⟩
      · rw [if_neg hn] at h; simp at h
  case struct ns ts v =>
    replace h := shortcut h
    rcases h with h | h
    · exact .same hc h
    · cases c <;> simp only [Res.ok.injEq, Prod.mk.injEq, Bool.false_eq_true, false_and] at h
      rename_i ms cs w
      obtain ⟨rfl, -, hc⟩ := hc
      by_cases hn : countsMatch ts.length v cs.length false = true
      · rw [if_pos hn] at h
        cases hpn : prefixNames ns ms with
        | throw e => rw [hpn] at h; cases h
        | ub => rw [hpn] at h; cases h
        | ok b =>
          cases b with
          | false => rw [hpn] at h; simp at h
          | true =>
            rw [hpn] at h
            simp only at h
            obtain ⟨h1, h2, h3⟩ := matchs_sound _ (by simpa [POk] using hp) hc h
            exact ⟨h1, by simp only [Inst]; exact ⟨ms, cs, rfl, countsMatch_iff.1 hn, prefixNames_true hpn, h2⟩, h3⟩
      · rw [if_neg hn] at h; simp at h
  case callable r p k =>
    replace h := shortcut h
    rcases h with h | h
    · exact .same hc h
    · cases c <;> simp only [Res.ok.injEq, Prod.mk.injEq, Bool.false_eq_true, false_and] at h
      rename_i r' p' k'
      simp only [POk] at hp
      rw [Res.bind_eq_ok] at h
      obtain ⟨⟨a1, a2⟩, ha, h⟩ := h
      cases a1 with
      | false => simp at h
      | true =>
        simp only [if_true] at h
        rw [Res.bind_eq_ok] at h
        obtain ⟨⟨b1, b2⟩, hb, h⟩ := h
        cases b1 with
        | false => simp at h
        | true =>
          simp only [if_true] at h
          obtain ⟨x1, x2, x3⟩ := match_sound_partial _ hp.1 hc.1 ha
          obtain ⟨y1, y2, y3⟩ := match_sound_partial _ hp.2.1 hc.2.1 hb
          obtain ⟨z1, z2, z3⟩ := match_sound_partial _ hp.2.2 hc.2.2 h
          refine ⟨x1.trans (y1.trans z1), ?_, fun hh => z3 (y3 (x3 hh))⟩
          simp only [Inst]
          exact ⟨_, _, _, rfl, inst_mono (y1.trans z1) hc.1 x2, inst_mono z1 hc.2.1 y2, z2⟩
  case typevar s =>
    replace h := shortcut h
    rcases h with h | h
    · exact .same hc h
    · by_cases hd : c.ndim > 0 ∨ tyEq c (.kind .any) = true
      · rw [if_pos hd] at h; simp at h
      · rw [if_neg hd] at h
        have hnd : ¬ IsDim c := (concrete_ndim hc).1 (by
          have : ¬ c.ndim > 0 := fun h => hd (.inl h)
          omega)
        cases hs : σ s with
        | none =>
          rw [hs] at h
          simp only [Res.ok.injEq, Prod.mk.injEq, true_and] at h
          subst h
          exact ⟨Extends.set _ hs, by simp only [Inst]; exact ⟨Env.set_self _ _ _, hnd⟩,
            fun hh => hh.set s (.inl (concrete_symbolic hc))⟩
        | some t =>
          rw [hs] at h
          simp only [Res.ok.injEq, Prod.mk.injEq] at h
          obtain ⟨h, rfl⟩ := h
          rw [tyEq_iff] at h
          subst h
          exact ⟨Extends.refl _, by simp only [Inst]; exact ⟨hs, hnd⟩, id⟩
  case typevarDim s el =>
    replace h := shortcut h
    rcases h with h | h
    · exact .same hc h
    · by_cases hd : c.isScalar = true
      · rw [if_pos hd] at h; simp at h
      · rw [if_neg hd] at h
        have hd : IsDim c := by
          by_contra hnd
          exact hd ((concrete_isScalar hc).2 hnd)
        have hp' : POk el := by simpa [POk] using hp
        have hat : ∃ e, c.atDim 1 = .ok e ∧ Concrete e ∧
            ((∃ n, c = .fixedDim n e) ∨ c = .varDim e) := by
          rcases concrete_isDim hd with ⟨n, e, rfl⟩ | ⟨e, rfl⟩
          · exact ⟨e, by cases e <;> rfl, hc.2, .inl ⟨n, rfl⟩⟩
          · exact ⟨e, by cases e <;> rfl, hc, .inr rfl⟩
        obtain ⟨e, hat, hce, hform⟩ := hat
        cases hs : σ s with
        | none =>
          rw [hs] at h
          simp only at h
          rw [hat, Res.bind_ok] at h
          obtain ⟨h1, h2, h3⟩ := match_sound_partial _ hp' hce h
          have hb : σ' s = some c := h1.keep (Env.set_self _ _ _) (by rintro a rfl; exact hd)
          refine ⟨(Extends.set c hs).trans h1, ?_, fun hh => h3 (hh.set s (.inl (concrete_symbolic hc)))⟩
          simp only [Inst]
          refine ⟨e, h2, ?_⟩
          rcases hform with ⟨n, rfl⟩ | rfl
          · exact .inl ⟨n, e, rfl, hb⟩
          · exact .inr ⟨e, rfl, hb⟩
        | some t =>
          rw [hs] at h
          simp only at h
          by_cases hid : sameDimId c t = true
          · rw [if_pos hid, hat, Res.bind_ok] at h
            obtain ⟨h1, h2, h3⟩ := match_sound_partial _ hp' hce h
            refine ⟨h1, ?_, h3⟩
            simp only [Inst]
            refine ⟨e, h2, ?_⟩
            rcases sameDimId_concrete hd hid with ⟨n, e', d, rfl, rfl⟩ | ⟨e', d, rfl, rfl⟩
            · have hb := h1.keep hs (by rintro a ⟨⟩)
              rcases hform with ⟨n', he⟩ | he
              · injection he with h4 h5; subst h4 h5
                exact .inl ⟨n, d, rfl, hb⟩
              · cases he
            · have hb := h1.keep hs (by rintro a ⟨⟩)
              rcases hform with ⟨n', he⟩ | he
              · cases he
              · injection he with h5; subst h5
                exact .inr ⟨d, rfl, hb⟩
          · rw [if_neg hid] at h; simp at h
  case ellipsis s el =>
    replace h := shortcut h
    rcases h with h | h
    · exact .same hc h
    · rw [if_neg (by simp [concrete_not_any hc])] at h
      have hp' : POk el := by simpa [POk] using hp
      by_cases h0 : c.ndim = 0
      · rw [if_pos h0] at h
        by_cases hse : s = ""
        · rw [if_pos hse] at h
          obtain ⟨h1, h2, h3⟩ := match_sound_partial _ hp' hc h
          exact ⟨h1, by simp only [Inst]; exact ⟨[], c, rfl, h2, fun hh => absurd hse hh⟩, h3⟩
        · rw [if_neg hse] at h
          cases hs : σ s with
          | none =>
            rw [hs] at h
            simp only at h
            obtain ⟨h1, h2, h3⟩ := match_sound_partial _ hp' hc h
            refine ⟨(Extends.set _ hs).trans h1, ?_, fun hh => h3 (hh.set s (.inr ⟨_, rfl⟩))⟩
            simp only [Inst]
            obtain ⟨b, hb, -⟩ := h1.frag (Env.set_self σ s (.dimFragment []))
            exact ⟨[], c, rfl, h2, fun _ => ⟨b, hb, b, [], by simp, .nil⟩⟩
          | some t =>
            rw [hs] at h
            cases t <;> simp only [Res.ok.injEq, Prod.mk.injEq, Bool.false_eq_true, false_and] at h
            rename_i tags
            obtain ⟨h1, h2, h3⟩ := match_sound_partial _ hp' hc h
            refine ⟨h1, ?_, h3⟩
            simp only [Inst]
            obtain ⟨b, hb, -⟩ := h1.frag hs
            exact ⟨[], c, rfl, h2, fun _ => ⟨b, hb, b, [], by simp, .nil⟩⟩
      · rw [if_neg h0] at h
        have hd : IsDim c := by
          by_contra hnd
          exact h0 ((concrete_ndim hc).2 hnd)
        have h' : (if c.ndim ≥ el.ndim then
            if s = "" then do
              let c' ← c.atDim (c.ndim - el.ndim)
              matchTy (fun q => same (0 :: q)) el c' σ
            else
              match σ s with
              | none => do
                let frag ← taggedDims (c.ndim - el.ndim) c
                let c' ← c.atDim (c.ndim - el.ndim)
                matchTy (fun q => same (0 :: q)) el c' (σ.set s (.dimFragment frag.1))
              | some (.dimFragment tags) => do
                let r ← bcastFragment tags (c.ndim - el.ndim) c
                match r with
                | none => pure (false, σ)
                | some tags' => do
                  let c' ← c.atDim (c.ndim - el.ndim)
                  matchTy (fun q => same (0 :: q)) el c' (σ.set s (.dimFragment tags'))
              | some _ => .ok (false, σ)
            else Res.ok (false, σ)) = .ok (true, σ') := by
          rcases concrete_isDim hd with ⟨n, e, rfl⟩ | ⟨e, rfl⟩ <;> exact h
        clear h
        by_cases hge : c.ndim ≥ el.ndim
        · rw [if_pos hge] at h'
          obtain ⟨ds, e, hcd, hl, hat, -⟩ := split_dims (c.ndim - el.ndim) hc (by omega)
          have hce : Concrete e := concrete_addDims ds (hcd ▸ hc)
          have hnn : ∀ d ∈ ds, d.NonNeg := addDims_nonneg ds (hcd ▸ hc)
          rw [hat] at h'
          simp only [Res.bind_ok] at h'
          by_cases hse : s = ""
          · rw [if_pos hse] at h'
            obtain ⟨h1, h2, h3⟩ := match_sound_partial _ hp' hce h'
            exact ⟨h1, by simp only [Inst]; exact ⟨ds, e, hcd, h2, fun hh => absurd hse hh⟩, h3⟩
          · rw [if_neg hse] at h'
            cases hs : σ s with
            | none =>
              rw [hs] at h'
              simp only at h'
              have htd : taggedDims (c.ndim - el.ndim) c = .ok (ds.map tagOf, e) := by
                have := taggedDims_add ds [] e
                rw [List.append_nil, ← hcd, hl] at this
                exact this
              rw [htd, Res.bind_ok] at h'
              obtain ⟨h1, h2, h3⟩ := match_sound_partial _ hp' hce h'
              refine ⟨(Extends.set _ hs).trans h1, ?_, fun hh => h3 (hh.set s (.inr ⟨_, rfl⟩))⟩
              simp only [Inst]
              obtain ⟨b, hb, hab⟩ := h1.frag (Env.set_self σ s (.dimFragment (ds.map tagOf)))
              exact ⟨ds, e, hcd, h2, fun _ => ⟨b, hb, hab ds (covers_tagOf hnn)⟩⟩
            | some t =>
              rw [hs] at h'
              cases t <;> simp only [Res.ok.injEq, Prod.mk.injEq, Bool.false_eq_true, false_and] at h'
              rename_i tags
              rw [Res.bind_eq_ok] at h'
              obtain ⟨r, hr, h'⟩ := h'
              cases r with
              | none => simp at h'
              | some tags' =>
                simp only at h'
                rw [← hl, hcd] at hr
                have hspec := bcastFragment_spec hnn e hr
                obtain ⟨h1, h2, h3⟩ := match_sound_partial _ hp' hce h'
                refine ⟨(Extends.setFrag hs hspec.1).trans h1, ?_, fun hh => h3 (hh.set s (.inr ⟨_, rfl⟩))⟩
                simp only [Inst]
                obtain ⟨b, hb, hab⟩ := h1.frag (Env.set_self σ s (.dimFragment tags'))
                exact ⟨ds, e, hcd, h2, fun _ => ⟨b, hb, hab ds hspec.2⟩⟩
        · rw [if_neg hge] at h'; simp at h'
  case powDimsym base x el =>
    replace h := shortcut h
    rcases h with h | h
    · exact .same hc h
    · simp only [POk] at hp
      obtain ⟨hb, hp'⟩ := hp
      have hbase : ∀ τ, powBase τ base c = (some base, τ) := by
        intro τ
        rcases hb with ⟨n, b, rfl⟩ | ⟨b, rfl⟩ <;> rfl
      by_cases h0 : c.ndim = 0
      · have h' : (if el.ndim = 0 then
            match σ x with
            | none => matchTy (fun q => same (0 :: q)) el c (σ.set x (.fixedDim 0 (.prim .void)))
            | some (.fixedDim n _) => if n ≠ 0 then .ok (false, σ) else matchTy (fun q => same (0 :: q)) el c σ
            | some _ => .ok (false, σ)
          else Res.ok (false, σ)) = .ok (true, σ') := by
          cases c <;> first | (cases hc; done) | (rw [if_pos h0] at h; exact h)
        clear h
        by_cases he0 : el.ndim = 0
        · rw [if_pos he0] at h'
          cases hs : σ x with
          | none =>
            rw [hs] at h'
            simp only at h'
            obtain ⟨h1, h2, h3⟩ := match_sound_partial _ hp' hc h'
            refine ⟨(Extends.set _ hs).trans h1, ?_, fun hh => h3 (hh.set x (.inl rfl))⟩
            simp only [Inst]
            exact ⟨0, _, c, h1.keep (Env.set_self _ _ _) (by rintro a ⟨⟩), rfl, h2⟩
          | some t =>
            rw [hs] at h'
            cases t <;> simp only [Res.ok.injEq, Prod.mk.injEq, Bool.false_eq_true, false_and] at h'
            rename_i n d
            by_cases hn : n = 0
            · subst hn
              rw [if_neg (by simp)] at h'
              obtain ⟨h1, h2, h3⟩ := match_sound_partial _ hp' hc h'
              refine ⟨h1, ?_, h3⟩
              simp only [Inst]
              exact ⟨0, d, c, h1.keep hs (by rintro a ⟨⟩), rfl, h2⟩
            · rw [if_pos hn] at h'; simp at h'
        · rw [if_neg he0] at h'; simp at h'
      · have h' : (match powExponent σ x ((c.ndim : Int) - (el.ndim : Int)) with
            | (none, σ) => Res.ok (false, σ)
            | (some n, σ) =>
              if n = 0 then matchTy (fun q => same (0 :: q)) el c σ
              else if n < 0 then Res.ok (false, σ)
              else
                match powBase σ base c with
                | (none, σ) => Res.ok (false, σ)
                | (some b, σ) =>
                  match stripPow b n.toNat c with
                  | none => Res.ok (false, σ)
                  | some c' => matchTy (fun q => same (0 :: q)) el c' σ) = .ok (true, σ') := by
          cases c <;> first | (cases hc; done) | (rw [if_neg h0] at h; exact h)
        clear h
        -- the exponent is bound, and no earlier binding is lost
        obtain ⟨n, τ, hpe, hext, d, hτ, henv⟩ : ∃ n τ, powExponent σ x ((c.ndim : Int) - (el.ndim : Int)) = (some n, τ) ∧
            Extends σ τ ∧ ∃ d, τ x = some (.fixedDim n d) ∧ (EnvConcrete σ → EnvConcrete τ) := by
          cases hpe : powExponent σ x ((c.ndim : Int) - (el.ndim : Int)) with
          | mk o τ =>
            cases o with
            | none => rw [hpe] at h'; simp at h'
            | some n =>
              unfold powExponent at hpe
              cases hs : σ x with
              | none =>
                rw [hs] at hpe
                simp only [Prod.mk.injEq, Option.some.injEq] at hpe
                obtain ⟨rfl, rfl⟩ := hpe
                exact ⟨_, _, rfl, Extends.set _ hs, _, Env.set_self _ _ _, fun hh => hh.set x (.inl rfl)⟩
              | some t =>
                rw [hs] at hpe
                cases t <;> simp only [Prod.mk.injEq, reduceCtorEq, false_and] at hpe
                rename_i m d
                obtain ⟨hm, rfl⟩ := hpe
                by_cases hmk : m = (c.ndim : Int) - (el.ndim : Int)
                · rw [if_pos hmk] at hm
                  injection hm with hm; subst hm
                  exact ⟨m, σ, rfl, Extends.refl _, d, hs, id⟩
                · rw [if_neg hmk] at hm; cases hm
        rw [hpe] at h'
        simp only at h'
        by_cases hn0 : n = 0
        · rw [if_pos hn0] at h'
          subst hn0
          obtain ⟨h1, h2, h3⟩ := match_sound_partial _ hp' hc h'
          refine ⟨hext.trans h1, ?_, fun hh => h3 (henv hh)⟩
          simp only [Inst]
          exact ⟨0, d, c, h1.keep hτ (by rintro a ⟨⟩), rfl, h2⟩
        · rw [if_neg hn0] at h'
          by_cases hneg : n < 0
          · rw [if_pos hneg] at h'; simp at h'
          · rw [if_neg hneg, hbase] at h'
            simp only at h'
            cases hst : stripPow base n.toNat c with
            | none => rw [hst] at h'; simp at h'
            | some c' =>
              rw [hst] at h'
              simp only at h'
              have hpd := stripPow_powDims hb hc hst
              obtain ⟨h1, h2, h3⟩ := match_sound_partial _ hp' (concrete_powDims _ hc hpd) h'
              refine ⟨hext.trans h1, ?_, fun hh => h3 (henv hh)⟩
              simp only [Inst]
              refine ⟨n.toNat, d, c', ?_, hpd, h2⟩
              rw [Int.toNat_of_nonneg (by omega)]
              exact h1.keep hτ (by rintro a ⟨⟩)
  case dimFragment tags => cases hp
/-- the same for the fields of a tuple or struct -/
theorem matchs_sound (same : List Nat → Bool) {ts : List Ty} (hp : POks ts) {cs : List Ty} (hc : ConcreteAll cs)
    {σ σ' : Env} (h : matchTys same ts cs σ = .ok (true, σ')) :
    Extends σ σ' ∧ InstPrefix σ' ts cs ∧ (EnvConcrete σ → EnvConcrete σ') := by
  cases ts with
  | nil =>
    simp only [matchTys, Res.ok.injEq, Prod.mk.injEq, true_and] at h
    subst h
    exact ⟨Extends.refl _, trivial, id⟩
  | cons t ts =>
    cases cs with
    | nil => simp [matchTys] at h
    | cons c cs =>
      simp only [matchTys] at h
      rw [Res.bind_eq_ok] at h
      obtain ⟨⟨a1, a2⟩, ha, h⟩ := h
      cases a1 with
      | false => simp at h
      | true =>
        simp only [if_true] at h
        obtain ⟨x1, x2, x3⟩ := match_sound_partial _ hp.1 hc.1 ha
        obtain ⟨y1, y2, y3⟩ := matchs_sound _ hp.2 hc.2 h
        exact ⟨x1.trans y1, ⟨inst_mono y1 hc.1 x2, y2⟩, fun hh => y3 (x3 hh)⟩
end

/-! ### Completeness -/

mutual
/-- Patterns of the completeness theorem: no ellipsis, no powers, no `Dim`. -/
def CPat : Ty → Prop
  | .prim _ | .leaf _ | .kind _ | .typevar _ => True
  | .fixedDim _ el | .fixedDimKind el | .varDim el | .typevarDim _ el => CPat el
  | .pointer t | .option t => CPat t
  | .tuple ts _ | .struct _ ts _ => CPats ts
  | .callable r p k => CPat r ∧ CPat p ∧ CPat k
  | .ellipsis _ _ | .powDimsym _ _ _ | .dimKind _ | .dimFragment _ => False
/-- every element is a `CPat` pattern -/
def CPats : List Ty → Prop
  | [] => True
  | t :: ts => CPat t ∧ CPats ts
end

/-- Two dimensions of the same kind and size. -/
def SameHead (a b : Ty) : Prop :=
  (∃ n d e, a = .fixedDim n d ∧ b = .fixedDim n e) ∨ ∃ d e, a = .varDim d ∧ b = .varDim e

/-- The bindings `σ0` agree with the assignment `σ` (on dimension variables: up to the element type). -/
def Agrees (σ0 σ : Env) : Prop := ∀ s t0, σ0 s = some t0 → ∃ t, σ s = some t ∧ (t = t0 ∨ SameHead t t0)

theorem agrees_empty (σ : Env) : Agrees Env.empty σ := by intro s t h; cases h

theorem Agrees.set {σ0 σ : Env} (h : Agrees σ0 σ) {s : String} {t t0 : Ty} (hs : σ s = some t)
    (ht : t = t0 ∨ SameHead t t0) : Agrees (σ0.set s t0) σ := by
  intro x u hx
  unfold Env.set at hx
  by_cases hxs : x = s
  · rw [if_pos hxs] at hx; injection hx with hx; subst hx; subst hxs; exact ⟨t, hs, ht⟩
  · rw [if_neg hxs] at hx; exact h x u hx

theorem prefixNames_of {ns ms : List String} (h : ns <+: ms) : prefixNames ns ms = .ok true := by
  induction ns generalizing ms with
  | nil => cases ms <;> rfl
  | cons a ns ih =>
    cases ms with
    | nil => simp at h
    | cons b ms =>
      rw [List.cons_prefix_cons] at h
      simp only [prefixNames]
      rw [if_pos h.1]
      exact ih h.2

/-- evaluating past the pointer shortcut -/
theorem shortcut_ok {b : Bool} {p c : Ty} {σ0 σ : Env} (ha : Agrees σ0 σ) {x : Res (Bool × Env)}
    (h : ∃ σ', x = .ok (true, σ') ∧ Agrees σ' σ) :
    ∃ σ', (if (b && tyEq p c) = true then Res.ok (true, σ0) else x) = .ok (true, σ') ∧ Agrees σ' σ := by
  by_cases hb : (b && tyEq p c) = true
  · rw [if_pos hb]; exact ⟨σ0, rfl, ha⟩
  · rw [if_neg hb]; exact h

mutual
/-- **Completeness of matching.**  If a concrete type is an instance of a pattern (without ellipsis or powers) under
    some assignment that agrees with the bindings so far, the match succeeds, with bindings that agree with the
    assignment. -/
theorem match_complete (same : List Nat → Bool) {p : Ty} (hp : CPat p) {c : Ty} (hc : Concrete c) {σ0 σ : Env}
    (ha : Agrees σ0 σ) (h : Inst σ p c) : ∃ σ', matchTy same p c σ0 = .ok (true, σ') ∧ Agrees σ' σ := by
  cases p <;> simp only [Inst] at h <;> simp only [matchTy]
  case prim b => subst h; exact ⟨σ0, by rw [tyEq_refl], ha⟩
  case leaf l => subst h; exact ⟨σ0, by rw [tyEq_refl], ha⟩
  case kind k => exact shortcut_ok ha ⟨σ0, by rw [(matchKind_concrete hc).2 h], ha⟩
  case fixedDim n el =>
    obtain ⟨e, rfl, h⟩ := h
    refine shortcut_ok ha ?_
    simp only [if_true]
    exact match_complete _ (by simpa [CPat] using hp) hc.2 ha h
  case fixedDimKind el =>
    obtain ⟨n, e, rfl, h⟩ := h
    exact shortcut_ok ha (match_complete _ (by simpa [CPat] using hp) hc.2 ha h)
  case varDim el =>
    obtain ⟨e, rfl, h⟩ := h
    exact shortcut_ok ha (match_complete _ (by simpa [CPat] using hp) (c := e) hc ha h)
  case dimKind el => cases hp
  case pointer t =>
    obtain ⟨e, rfl, h⟩ := h
    exact shortcut_ok ha (match_complete _ (by simpa [CPat] using hp) (c := e) hc ha h)
  case option t =>
    obtain ⟨e, rfl, h⟩ := h
    exact shortcut_ok ha (match_complete _ (by simpa [CPat] using hp) hc.1 ha h)
  case tuple ts v =>
    obtain ⟨cs, rfl, hn, h⟩ := h
    refine shortcut_ok ha ?_
    simp only [if_pos (countsMatch_iff.2 hn)]
    exact matchs_complete _ (by simpa [CPat] using hp) hc.2 ha h
  case struct ns ts v =>
    obtain ⟨ms, cs, rfl, hn, hpre, h⟩ := h
    refine shortcut_ok ha ?_
    simp only [if_pos (countsMatch_iff.2 hn), prefixNames_of hpre]
    exact matchs_complete _ (by simpa [CPat] using hp) hc.2.2 ha h
  case callable r p k =>
    obtain ⟨r', p', k', rfl, h1, h2, h3⟩ := h
    simp only [CPat] at hp
    refine shortcut_ok ha ?_
    obtain ⟨σ1, e1, a1⟩ := match_complete (fun q => same (0 :: q)) hp.1 hc.1 ha h1
    obtain ⟨σ2, e2, a2⟩ := match_complete (fun q => same (1 :: q)) hp.2.1 hc.2.1 a1 h2
    obtain ⟨σ3, e3, a3⟩ := match_complete (fun q => same (2 :: q)) hp.2.2 hc.2.2 a2 h3
    refine ⟨σ3, ?_, a3⟩
    simp only [e1, e2, e3, Res.bind_ok, if_true]
  case typevar s =>
    obtain ⟨hs, hd⟩ := h
    refine shortcut_ok ha ?_
    rw [if_neg (by
      rw [concrete_not_any hc]
      have := (concrete_ndim hc).2 hd
      simp [this])]
    cases hs0 : σ0 s with
    | none => exact ⟨_, rfl, ha.set hs (.inl rfl)⟩
    | some t0 =>
      simp only
      obtain ⟨t, ht, hh⟩ := ha s t0 hs0
      rw [hs] at ht; injection ht with ht; subst ht
      rcases hh with rfl | ⟨n, d, e, rfl, -⟩ | ⟨d, e, rfl, -⟩
      · exact ⟨σ0, by rw [tyEq_refl], ha⟩
      · exact absurd trivial hd
      · exact absurd trivial hd
  case typevarDim s el =>
    obtain ⟨e, hi, hform⟩ := h
    have hp' : CPat el := by simpa [CPat] using hp
    refine shortcut_ok ha ?_
    obtain ⟨t, hst, hsh, hd, hat, hce⟩ : ∃ t, σ s = some t ∧ SameHead t c ∧ IsDim c ∧ c.atDim 1 = .ok e ∧ Concrete e := by
      rcases hform with ⟨n, d, rfl, hst⟩ | ⟨d, rfl, hst⟩
      · exact ⟨_, hst, .inl ⟨n, d, e, rfl, rfl⟩, trivial, by cases e <;> rfl, hc.2⟩
      · exact ⟨_, hst, .inr ⟨d, e, rfl, rfl⟩, trivial, by cases e <;> rfl, hc⟩
    rw [if_neg (by
      intro hh
      exact ((concrete_isScalar hc).1 hh) hd)]
    cases hs0 : σ0 s with
    | none =>
      simp only [hat, Res.bind_ok]
      exact match_complete _ hp' hce (ha.set hst (.inr hsh)) hi
    | some t0 =>
      simp only
      have hid : sameDimId c t0 = true := by
        obtain ⟨t', ht', hh⟩ := ha s t0 hs0
        rw [hst] at ht'; injection ht' with ht'; subst ht'
        rcases hsh with ⟨n, d, e', rfl, rfl⟩ | ⟨d, e', rfl, rfl⟩
        · rcases hh with rfl | ⟨n', d', e'', h1, rfl⟩ | ⟨d', e'', h1, rfl⟩
          · simp [sameDimId]
          · injection h1 with h1 _; subst h1; simp [sameDimId]
          · cases h1
        · rcases hh with rfl | ⟨n', d', e'', h1, rfl⟩ | ⟨d', e'', h1, rfl⟩
          · simp [sameDimId]
          · cases h1
          · simp [sameDimId]
      rw [if_pos hid, hat, Res.bind_ok]
      exact match_complete _ hp' hce ha hi
  case ellipsis s el => cases hp
  case powDimsym b x el => cases hp
theorem matchs_complete (same : List Nat → Bool) {ts : List Ty} (hp : CPats ts) {cs : List Ty}
    (hc : ConcreteAll cs) {σ0 σ : Env} (ha : Agrees σ0 σ) (h : InstPrefix σ ts cs) :
    ∃ σ', matchTys same ts cs σ0 = .ok (true, σ') ∧ Agrees σ' σ := by
  cases ts with
  | nil => exact ⟨σ0, rfl, ha⟩
  | cons t ts =>
    cases cs with
    | nil => cases h
    | cons c cs =>
      obtain ⟨σ1, e1, a1⟩ := match_complete (fun q => same (0 :: q)) hp.1 hc.1 ha h.1
      obtain ⟨σ2, e2, a2⟩ := matchs_complete (fun q => same (1 :: q)) hp.2 hc.2 a1 h.2
      exact ⟨σ2, by simp only [matchTys, e1, Res.bind_ok, if_true, e2], a2⟩
end

mutual
theorem cpat_pok {p : Ty} (h : CPat p) : POk p := by
  cases p <;> simp only [CPat, POk] at h ⊢
  case tuple ts v => exact cpats_poks h
  case struct ns ts v => exact cpats_poks h
  case callable r p k => exact ⟨cpat_pok h.1, cpat_pok h.2.1, cpat_pok h.2.2⟩
  all_goals exact cpat_pok h
theorem cpats_poks {ts : List Ty} (h : CPats ts) : POks ts := by
  cases ts with
  | nil => trivial
  | cons t ts => exact ⟨cpat_pok h.1, cpats_poks h.2⟩
end

/-- **C37.**  A pattern (without ellipsis, powers and `Dim`) matches a concrete type exactly if the type is an
    instance of the pattern under *some* assignment of its variables. -/
theorem match_iff_partial (same : List Nat → Bool) {p : Ty} (hp : CPat p) {c : Ty} (hc : Concrete c) :
    (∃ σ', matchFresh same p c = .ok (true, σ')) ↔ ∃ σ, Inst σ p c := by
  constructor
  · rintro ⟨σ', h⟩
    exact ⟨σ', (match_sound_partial same (cpat_pok hp) hc h).2.1⟩
  · rintro ⟨σ, h⟩
    obtain ⟨σ', h', -⟩ := match_complete same hp hc (agrees_empty σ) h
    exact ⟨σ', h'⟩

mutual
/-- The struct patterns have as many names as fields (what the constructor requires). -/
def NamesOk : Ty → Prop
  | .prim _ | .leaf _ | .kind _ | .typevar _ | .dimFragment _ => True
  | .fixedDim _ el | .fixedDimKind el | .varDim el | .typevarDim _ el | .ellipsis _ el | .dimKind el => NamesOk el
  | .powDimsym b _ el => NamesOk b ∧ NamesOk el
  | .pointer t | .option t => NamesOk t
  | .tuple ts _ => NamesOks ts
  | .struct ns ts _ => ns.length = ts.length ∧ NamesOks ts
  | .callable r p k => NamesOk r ∧ NamesOk p ∧ NamesOk k
/-- the same for every element -/
def NamesOks : List Ty → Prop
  | [] => True
  | t :: ts => NamesOk t ∧ NamesOks ts
end

theorem prefixNames_total {ns ms : List String} (h : ns.length ≤ ms.length) : ∃ b, prefixNames ns ms = .ok b := by
  induction ns generalizing ms with
  | nil => exact ⟨true, by cases ms <;> rfl⟩
  | cons a ns ih =>
    cases ms with
    | nil => simp at h
    | cons b ms =>
      simp only [prefixNames]
      by_cases hab : a = b
      · rw [if_pos hab]; exact ih (by simpa using h)
      · rw [if_neg hab]; exact ⟨false, rfl⟩

theorem shortcut_total {b : Bool} {p c : Ty} {σ : Env} {x : Res (Bool × Env)} (h : ∃ r, x = .ok r) :
    ∃ r, (if (b && tyEq p c) = true then Res.ok (true, σ) else x) = .ok r := by
  by_cases hb : (b && tyEq p c) = true
  · rw [if_pos hb]; exact ⟨_, rfl⟩
  · rw [if_neg hb]; exact h

mutual
/-- Matching such a pattern against a concrete type never throws and never runs into undefined behaviour. -/
theorem match_total (same : List Nat → Bool) {p : Ty} (hp : CPat p) (hn : NamesOk p) {c : Ty} (hc : Concrete c)
    (σ : Env) : ∃ r, matchTy same p c σ = .ok r := by
  cases p <;> simp only [matchTy] <;> simp only [NamesOk] at hn <;> try simp only [CPat] at hp
  case prim b => exact ⟨_, rfl⟩
  case leaf l => exact ⟨_, rfl⟩
  case kind k => exact shortcut_total ⟨_, rfl⟩
  case fixedDim n el =>
    refine shortcut_total ?_
    cases c <;> try exact ⟨_, rfl⟩
    rename_i m el'
    simp only
    by_cases h : n = m
    · rw [if_pos h]; exact match_total _ hp hn hc.2 σ
    · rw [if_neg h]; exact ⟨_, rfl⟩
  case fixedDimKind el =>
    refine shortcut_total ?_
    cases c <;> try exact ⟨_, rfl⟩
    · exact match_total _ hp hn hc.2 σ
    · cases hc
  case varDim el =>
    refine shortcut_total ?_
    cases c <;> try exact ⟨_, rfl⟩
    rename_i el'
    exact match_total _ hp hn (c := el') hc σ
  case pointer t =>
    refine shortcut_total ?_
    cases c <;> try exact ⟨_, rfl⟩
    rename_i el'
    exact match_total _ hp hn (c := el') hc σ
  case option t =>
    refine shortcut_total ?_
    cases c <;> try exact ⟨_, rfl⟩
    exact match_total _ hp hn hc.1 σ
  case tuple ts v =>
    refine shortcut_total ?_
    cases c <;> try exact ⟨_, rfl⟩
    rename_i cs w
    simp only
    obtain ⟨rfl, hc⟩ := hc
    by_cases h : countsMatch ts.length v cs.length false = true
    · rw [if_pos h]
      refine matchs_total _ hp hn hc ?_ σ
      rcases countsMatch_iff.1 h with h | h <;> omega
    · rw [if_neg h]; exact ⟨_, rfl⟩
  case struct ns ts v =>
    refine shortcut_total ?_
    cases c <;> try exact ⟨_, rfl⟩
    rename_i ms cs w
    simp only
    obtain ⟨rfl, hl, hc⟩ := hc
    by_cases h : countsMatch ts.length v cs.length false = true
    · rw [if_pos h]
      have hle : ts.length ≤ cs.length := by rcases countsMatch_iff.1 h with h | h <;> omega
      obtain ⟨b, hb⟩ := prefixNames_total (ns := ns) (ms := ms) (by omega)
      rw [hb]
      cases b with
      | true => exact matchs_total _ hp hn.2 hc hle σ
      | false => exact ⟨_, rfl⟩
    · rw [if_neg h]; exact ⟨_, rfl⟩
  case callable r p k =>
    refine shortcut_total ?_
    cases c <;> try exact ⟨_, rfl⟩
    rename_i r' p' k'
    obtain ⟨⟨a1, a2⟩, ha⟩ := match_total (fun q => same (0 :: q)) hp.1 hn.1 hc.1 σ
    simp only [ha, Res.bind_ok]
    cases a1 with
    | false => exact ⟨_, rfl⟩
    | true =>
      obtain ⟨⟨b1, b2⟩, hb⟩ := match_total (fun q => same (1 :: q)) hp.2.1 hn.2.1 hc.2.1 a2
      simp only [if_true, hb, Res.bind_ok]
      cases b1 with
      | false => exact ⟨_, rfl⟩
      | true => exact match_total _ hp.2.2 hn.2.2 hc.2.2 b2
  case typevar s =>
    refine shortcut_total ?_
    by_cases hd : c.ndim > 0 ∨ tyEq c (.kind .any) = true
    · rw [if_pos hd]; exact ⟨_, rfl⟩
    · rw [if_neg hd]
      cases σ s <;> exact ⟨_, rfl⟩
  case typevarDim s el =>
    refine shortcut_total ?_
    by_cases hd : c.isScalar = true
    · rw [if_pos hd]; exact ⟨_, rfl⟩
    · rw [if_neg hd]
      have hd : IsDim c := by
        by_contra hnd
        exact hd ((concrete_isScalar hc).2 hnd)
      obtain ⟨e, hat, hce⟩ : ∃ e, c.atDim 1 = .ok e ∧ Concrete e := by
        rcases concrete_isDim hd with ⟨n, e, rfl⟩ | ⟨e, rfl⟩
        · exact ⟨e, by cases e <;> rfl, hc.2⟩
        · exact ⟨e, by cases e <;> rfl, hc⟩
      cases σ s with
      | none =>
        simp only [hat, Res.bind_ok]
        exact match_total _ hp hn hce _
      | some t =>
        simp only
        by_cases hid : sameDimId c t = true
        · rw [if_pos hid, hat, Res.bind_ok]; exact match_total _ hp hn hce _
        · rw [if_neg hid]; exact ⟨_, rfl⟩
theorem matchs_total (same : List Nat → Bool) {ts : List Ty} (hp : CPats ts) (hn : NamesOks ts) {cs : List Ty}
    (hc : ConcreteAll cs) (hl : ts.length ≤ cs.length) (σ : Env) : ∃ r, matchTys same ts cs σ = .ok r := by
  cases ts with
  | nil => exact ⟨_, rfl⟩
  | cons t ts =>
    cases cs with
    | nil => simp at hl
    | cons c cs =>
      obtain ⟨⟨a1, a2⟩, ha⟩ := match_total (fun q => same (0 :: q)) hp.1 hn.1 hc.1 σ
      simp only [matchTys, ha, Res.bind_ok]
      cases a1 with
      | false => exact ⟨_, rfl⟩
      | true =>
        simp only [if_true]
        exact matchs_total _ hp.2 hn.2 hc.2 (by simpa using hl) a2
end

/-- The answer is "no" exactly for the types that are not instances. -/
theorem match_false_iff (same : List Nat → Bool) {p : Ty} (hp : CPat p) (hn : NamesOk p) {c : Ty} (hc : Concrete c) :
    (∃ σ', matchFresh same p c = .ok (false, σ')) ↔ ¬ ∃ σ, Inst σ p c := by
  rw [← match_iff_partial same hp hc]
  obtain ⟨⟨b, σ'⟩, h⟩ := match_total same hp hn hc Env.empty
  unfold matchFresh
  rw [h]
  cases b <;> simp

/-- The answer does not depend on which type objects happen to be shared (pointer identity). -/
theorem match_same_irrelevant (s1 s2 : List Nat → Bool) {p : Ty} (hp : CPat p) {c : Ty} (hc : Concrete c) :
    (∃ σ', matchFresh s1 p c = .ok (true, σ')) ↔ ∃ σ', matchFresh s2 p c = .ok (true, σ') := by
  rw [match_iff_partial s1 hp hc, match_iff_partial s2 hp hc]

/-! ### Concrete patterns -/

mutual
theorem concrete_cpat {p : Ty} (h : Concrete p) : CPat p := by
  cases p <;> simp only [Concrete, CPat] at h ⊢
  case fixedDim n el => exact concrete_cpat h.2
  case varDim el => exact concrete_cpat h
  case pointer t => exact concrete_cpat h
  case option t => exact concrete_cpat h.1
  case tuple ts v => exact concretes_cpats h.2
  case struct ns ts v => exact concretes_cpats h.2.2
  case callable r p k => exact ⟨concrete_cpat h.1, concrete_cpat h.2.1, concrete_cpat h.2.2⟩
theorem concretes_cpats {ts : List Ty} (h : ConcreteAll ts) : CPats ts := by
  cases ts with
  | nil => trivial
  | cons t ts => exact ⟨concrete_cpat h.1, concretes_cpats h.2⟩
end

mutual
/-- The only instance of a concrete type is the type itself. -/
theorem inst_concrete {σ : Env} {p c : Ty} (hp : Concrete p) (hc : Concrete c) (h : Inst σ p c) : c = p := by
  cases p <;> simp only [Concrete] at hp <;> simp only [Inst] at h
  case prim b => exact h
  case leaf l => exact h
  case fixedDim n el => obtain ⟨e, rfl, h⟩ := h; rw [inst_concrete hp.2 hc.2 h]
  case varDim el => obtain ⟨e, rfl, h⟩ := h; rw [inst_concrete hp (c := e) hc h]
  case pointer t => obtain ⟨e, rfl, h⟩ := h; rw [inst_concrete hp (c := e) hc h]
  case option t => obtain ⟨e, rfl, h⟩ := h; rw [inst_concrete hp.1 hc.1 h]
  case tuple ts v =>
    obtain ⟨cs, rfl, hn, h⟩ := h
    obtain ⟨rfl, hp⟩ := hp
    rw [instPrefix_concrete hp hc.2 (by simpa using hn) h]
  case struct ns ts v =>
    obtain ⟨ms, cs, rfl, hn, hpre, h⟩ := h
    obtain ⟨rfl, hl, hp⟩ := hp
    have hlen : cs.length = ts.length := by simpa using hn
    rw [instPrefix_concrete hp hc.2.2 hlen h]
    have : ns = ms := hpre.eq_of_length (by rw [hl, hc.2.1, hlen])
    rw [this]
  case callable r p k =>
    obtain ⟨r', p', k', rfl, h1, h2, h3⟩ := h
    rw [inst_concrete hp.1 hc.1 h1, inst_concrete hp.2.1 hc.2.1 h2, inst_concrete hp.2.2 hc.2.2 h3]
theorem instPrefix_concrete {σ : Env} {ts cs : List Ty} (hp : ConcreteAll ts) (hc : ConcreteAll cs)
    (hl : cs.length = ts.length) (h : InstPrefix σ ts cs) : cs = ts := by
  cases ts with
  | nil => simpa using hl
  | cons t ts =>
    cases cs with
    | nil => simp at hl
    | cons c cs => rw [inst_concrete hp.1 hc.1 h.1, instPrefix_concrete hp.2 hc.2 (by simpa using hl) h.2]
end

/-- **C37.**  A concrete type matches a concrete type exactly if they are equal. -/
theorem match_concrete_iff (same : List Nat → Bool) {p c : Ty} (hp : Concrete p) (hc : Concrete c) :
    (∃ σ', matchFresh same p c = .ok (true, σ')) ↔ p = c := by
  rw [match_iff_partial same (concrete_cpat hp) hc]
  constructor
  · rintro ⟨σ, h⟩; exact (inst_concrete hp hc h).symm
  · rintro rfl; exact ⟨Env.empty, inst_self _ hp⟩

end Dynd
