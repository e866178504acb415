/-
C119: the overload tables of the functions of one argument and the overload chosen for an operand.
-/
import Verif.Model.UnaryOps
import Verif.Props.AssignFnProps

namespace Dynd

/-- what the patterns of the tables match -/
def uPat : Ty → Ty → Bool
  | .prim b, c => tyEq (.prim b) c
  | .option (.fixedDimKind _), .option (.fixedDim _ _) => true
  | .option (.fixedDimKind _), .option (.fixedDimKind _) => true
  | .option (.fixedDimKind _), _ => false
  | .option t, .option c => tyEq t c
  | .fixedDimKind _, .fixedDim _ _ => true
  | .fixedDimKind _, .fixedDimKind _ => true
  | .varDim _, .varDim _ => true
  | _, _ => false

/-- the patterns of the tables -/
inductive UPat : Ty → Prop
  | prim (b : BTy) : UPat (.prim b)
  | optPrim (b : BTy) : UPat (.option (.prim b))
  | optLeaf (l : LeafTy) : UPat (.option (.leaf l))
  | optFixed : UPat (.option (.fixedDimKind (.kind .any)))
  | fixed : UPat (.fixedDimKind (.kind .any))
  | var : UPat (.varDim (.kind .any))

theorem tyMatch_u (same : List Nat → Bool) {p : Ty} (hp : UPat p) (c : Ty) : tyMatch same p c = uPat p c := by
  unfold tyMatch matchFresh
  cases hp with
  | prim b => simp [matchTy, uPat]
  | optPrim b =>
    unfold matchTy
    by_cases h : (same [] && tyEq (.option (.prim b)) c) = true
    · simp only [if_pos h]
      simp only [Bool.and_eq_true] at h
      have := (tyEq_iff _ _).1 h.2
      subst this
      simp [uPat, tyEq]
    · simp only [if_neg h]; clear h
      cases c <;> first | rfl | simp [matchTy, uPat]
  | optLeaf l =>
    unfold matchTy
    by_cases h : (same [] && tyEq (.option (.leaf l)) c) = true
    · simp only [if_pos h]
      simp only [Bool.and_eq_true] at h
      have := (tyEq_iff _ _).1 h.2
      subst this
      simp [uPat, tyEq]
    · simp only [if_neg h]; clear h
      cases c <;> first | rfl | simp [matchTy, uPat]
  | optFixed =>
    unfold matchTy
    by_cases h : (same [] && tyEq (.option (.fixedDimKind (.kind .any))) c) = true
    · simp only [if_pos h]
      simp only [Bool.and_eq_true] at h
      have := (tyEq_iff _ _).1 h.2
      subst this; rfl
    · simp only [if_neg h]; clear h
      cases c <;> try rfl
      rename_i t
      simp only []
      unfold matchTy
      by_cases h : (same [0] && tyEq (.fixedDimKind (.kind .any)) t) = true
      · simp only [if_pos h]
        simp only [Bool.and_eq_true] at h
        have := (tyEq_iff _ _).1 h.2
        subst this; rfl
      · simp only [if_neg h]; clear h
        cases t <;> try rfl
        all_goals
          rename_i t
          obtain ⟨τ, h⟩ := tyMatch_any (fun q => same (0 :: 0 :: q)) t Env.empty
          simp only [h]; rfl
  | fixed =>
    unfold matchTy
    by_cases h : (same [] && tyEq (.fixedDimKind (.kind .any)) c) = true
    · simp only [if_pos h]
      simp only [Bool.and_eq_true] at h
      have := (tyEq_iff _ _).1 h.2
      subst this; rfl
    · simp only [if_neg h]; clear h
      cases c <;> try rfl
      all_goals
        rename_i t
        obtain ⟨τ, h⟩ := tyMatch_any (fun q => same (0 :: q)) t Env.empty
        simp only [h]; rfl
  | var =>
    unfold matchTy
    by_cases h : (same [] && tyEq (.varDim (.kind .any)) c) = true
    · simp only [if_pos h]
      simp only [Bool.and_eq_true] at h
      have := (tyEq_iff _ _).1 h.2
      subst this; rfl
    · simp only [if_neg h]; clear h
      cases c <;> try rfl
      rename_i t
      obtain ⟨τ, h⟩ := tyMatch_any (fun q => same (0 :: q)) t Env.empty
      simp only [h]; rfl

/-- the overloads whose pattern is one of those -/
def UEntry.Builtin (e : UEntry) : Prop := ∃ p, e.sig = [p] ∧ UPat p

theorem uPat_symm {p q : Ty} (hp : UPat p) (hq : UPat q) (h : uPat p q = true) : uPat q p = true := by
  cases hp <;> cases hq <;> simp_all [uPat, tyEq]

theorem u_edge (same : List Nat → Bool) {u v : UEntry} (hu : u.Builtin) (hv : v.Builtin) :
    edge (tyMatch same) u.sig v.sig = false := by
  obtain ⟨p, hp, hp'⟩ := hu
  obtain ⟨q, hq, hq'⟩ := hv
  rw [hp, hq]
  simp only [edge, supercedes, Bool.and_true, tyMatch_u same hp', tyMatch_u same hq']
  by_cases h : uPat q p = true
  · rw [if_pos h, if_pos (uPat_symm hq' hp' h)]
  · rw [if_neg h]

theorem u_ambiguous (same : List Nat → Bool) {u v : UEntry} (hu : u.Builtin) (hv : v.Builtin) :
    ambiguous (tyMatch same) u.sig v.sig = false := by
  obtain ⟨p, hp, _⟩ := hu
  obtain ⟨q, hq, _⟩ := hv
  rw [hp, hq]
  simp only [ambiguous, consistent, supercedes, Bool.and_true]
  cases tyMatch same p q <;> cases tyMatch same q p <;> rfl

theorem uInsert_ok (same : List Nat → Bool) (l fs : List UEntry) (h0 : l ++ fs ≠ []) (hb : ∀ e ∈ l ++ fs, e.Builtin) :
    uInsert same (l.map some) fs = .ok ((l ++ fs).reverse.map some) := by
  unfold uInsert
  rw [if_pos (by simp), filterMap_some, flat_dispAssign h0 (fun u hu v hv => u_ambiguous same (hb u hu) (hb v hv))
    (fun u hu v hv => u_edge same (hb u hu) (hb v hv))]

/-- elwise for a fixed dimension; `r` its return type -/
def elwF (r : Ty) : UEntry := .elw (.fixedDimKind (.kind .any)) r
/-- elwise for a `var` dimension -/
def elwV (r : Ty) : UEntry := .elw (.varDim (.kind .any)) r

/-- the overloads of both tables: the scalar ones and the two elwise ones -/
def uTable (ss : List UEntry) (rf rv : Ty) : List UEntry := elwV rv :: (ss.reverse ++ [elwF rf])

theorem table_ok (same : List Nat → Bool) {ss : List UEntry} (h0 : ss ≠ []) (hb : ∀ e ∈ ss, e.Builtin) (rf rv : Ty) :
    uInserts same [ss, [elwF rf], [elwV rv]] [] = .ok ((uTable ss rf rv).map some) := by
  have bF : (elwF rf).Builtin := ⟨_, rfl, .fixed⟩
  have bV : (elwV rv).Builtin := ⟨_, rfl, .var⟩
  simp only [uInserts]
  have e1 : uInsert same [] ss = .ok (ss.reverse.map some) := by
    have := uInsert_ok same [] ss (by simpa using h0) (by simpa using hb)
    simpa using this
  rw [e1, Res.bind_ok, uInsert_ok same ss.reverse [elwF rf] (by simp) (by
    intro e he
    simp only [List.mem_append, List.mem_reverse, List.mem_singleton] at he
    rcases he with he | rfl
    · exact hb e he
    · exact bF), Res.bind_ok, uInsert_ok same _ [elwV rv] (by simp) (by
    intro e he
    simp only [List.mem_append, List.mem_reverse, List.mem_singleton] at he
    rcases he with (he | rfl) | rfl
    · exact hb e he
    · exact bF
    · exact bV), Res.bind_ok]
  congr 2
  simp [uTable]

/-- C119: the table of an operator of one argument is built without an error, for every sharing of type objects. -/
theorem unary_table (same : List Nat → Bool) {ts : List BTy} (h0 : ts ≠ []) :
    makeUnaryFn same ts = .ok ((uTable (ts.map .num) (.kind .any) (.kind .any)).map some) :=
  table_ok same (by simpa using h0) (by
    intro e he
    obtain ⟨t, _, rfl⟩ := List.mem_map.1 he
    exact ⟨_, rfl, .prim t⟩) _ _

/-- the scalar overloads of `is_na` -/
def naEntries : List UEntry := naTypes.map .opt ++ [.optFixed]

theorem na_builtin : ∀ e ∈ naEntries, e.Builtin := by
  intro e he
  simp only [naEntries, naTypes, List.map_cons, List.map_nil, List.cons_append, List.nil_append, List.mem_cons,
    List.not_mem_nil, or_false] at he
  rcases he with rfl | rfl | rfl | rfl | rfl | rfl | rfl | rfl | rfl | rfl | rfl | rfl | rfl | rfl | rfl
  all_goals first | exact ⟨_, rfl, .optPrim _⟩ | exact ⟨_, rfl, .optLeaf _⟩ | exact ⟨_, rfl, .optFixed⟩

/-- C119: the table of `is_na` is built without an error. -/
theorem is_na_table (same : List Nat → Bool) :
    makeIsNa same = .ok ((uTable naEntries (.fixedDimKind (.kind .any)) (.varDim (.kind .any))).map some) :=
  table_ok same (by simp [naEntries]) na_builtin _ _

theorem sup_u (same : List Nat → Bool) {e : UEntry} {p : Ty} (hs : e.sig = [p]) (hp : UPat p) (c : Ty) :
    supercedes (tyMatch same) [c] e.sig = uPat p c := by
  rw [hs]; simp [supercedes, tyMatch_u same hp]

/-- scalar overloads do not take arrays -/
def UEntry.Scalar (e : UEntry) : Prop := ∃ p, e.sig = [p] ∧ UPat p ∧ p ≠ .fixedDimKind (.kind .any) ∧ p ≠ .varDim (.kind .any)

theorem scalar_not_dim {e : UEntry} {p c : Ty} (_ : e.sig = [p]) (hp : UPat p) (h1 : p ≠ .fixedDimKind (.kind .any))
    (h2 : p ≠ .varDim (.kind .any)) (hc : IsDim c) : uPat p c = false := by
  rcases concrete_isDim hc with ⟨n, el, rfl⟩ | ⟨el, rfl⟩ <;> cases hp <;> simp_all [uPat, tyEq]

theorem choose_var (same : List Nat → Bool) (ss : List UEntry) (rf rv el : Ty) :
    dispCall (tyMatch same) UEntry.sig [.varDim el] ((uTable ss rf rv).map some) = .ok (elwV rv) := by
  simp only [uTable, List.map_cons, dispCall]
  rw [sup_u same (e := elwV rv) rfl .var, if_pos (by rfl)]

theorem choose_fixed (same : List Nat → Bool) {ss : List UEntry} (hs : ∀ e ∈ ss, e.Scalar) (rf rv : Ty) (n : Int) (el : Ty) :
    dispCall (tyMatch same) UEntry.sig [.fixedDim n el] ((uTable ss rf rv).map some) = .ok (elwF rf) := by
  simp only [uTable, List.map_cons, dispCall]
  rw [sup_u same (e := elwV rv) rfl .var, if_neg (by simp [uPat]), dispCall_skip]
  · simp only [List.map_cons, dispCall]
    rw [sup_u same (e := elwF rf) rfl .fixed, if_pos (by rfl)]
  · intro e he
    obtain ⟨p, h, hp, h1, h2⟩ := hs e (by simpa using he)
    rw [sup_u same h hp]
    exact scalar_not_dim h hp h1 h2 trivial

/-- an operand that is no array and matches none of the scalar overloads -/
theorem choose_none (same : List Nat → Bool) {ss : List UEntry} (hs : ∀ e ∈ ss, e.Scalar) (rf rv : Ty) {c : Ty}
    (hc : Concrete c) (hd : ¬ IsDim c) (h : ∀ e ∈ ss, ∀ p, e.sig = [p] → uPat p c = false) :
    dispCall (tyMatch same) UEntry.sig [c] ((uTable ss rf rv).map some) = .throw .outOfRange := by
  have hv : uPat (.varDim (.kind .any)) c = false := by cases c <;> simp_all [uPat, IsDim]
  have hf : uPat (.fixedDimKind (.kind .any)) c = false := by cases c <;> simp_all [uPat, IsDim, Concrete]
  simp only [uTable, List.map_cons, dispCall]
  rw [sup_u same (e := elwV rv) rfl .var, hv, if_neg (by simp), dispCall_skip]
  · simp only [List.map_cons, dispCall]
    rw [sup_u same (e := elwF rf) rfl .fixed, hf, if_neg (by simp)]; rfl
  · intro e he
    obtain ⟨p, h', hp, _, _⟩ := hs e (by simpa using he)
    rw [sup_u same h' hp]
    exact h e (by simpa using he) p h'

/-- an operand that is no array and matches a scalar overload -/
theorem choose_scalar (same : List Nat → Bool) {ss : List UEntry} (hs : ∀ e ∈ ss, e.Scalar) (rf rv : Ty) {c : Ty}
    (hd : ¬ IsDim c) (h : ∃ e ∈ ss, ∃ p, e.sig = [p] ∧ uPat p c = true) :
    ∃ e ∈ ss, (∃ p, e.sig = [p] ∧ uPat p c = true) ∧
      dispCall (tyMatch same) UEntry.sig [c] ((uTable ss rf rv).map some) = .ok e := by
  have hv : uPat (.varDim (.kind .any)) c = false := by cases c <;> simp_all [uPat, IsDim]
  simp only [uTable, List.map_cons, dispCall]
  rw [sup_u same (e := elwV rv) rfl .var, hv, if_neg (by simp)]
  obtain ⟨e, he, p, h1, h2⟩ := h
  obtain ⟨x, hx, hx', hx''⟩ := dispCall_some (m := tyMatch same) (sig := UEntry.sig) (args := [c]) ss.reverse [elwF rf]
    ⟨e, by simpa using he, by
      obtain ⟨p', h', hp', _, _⟩ := hs e he
      rw [h1] at h'; cases h'
      rw [sup_u same h1 hp']; exact h2⟩
  refine ⟨x, by simpa using hx, ?_, hx''⟩
  obtain ⟨p', h', hp', _, _⟩ := hs x (by simpa using hx)
  exact ⟨p', h', by rw [← sup_u same h' hp']; exact hx'⟩

theorem num_scalar (ts : List BTy) : ∀ e ∈ ts.map UEntry.num, e.Scalar := by
  intro e he
  obtain ⟨t, _, rfl⟩ := List.mem_map.1 he
  exact ⟨_, rfl, .prim t, by simp, by simp⟩

theorem na_scalar : ∀ e ∈ naEntries, e.Scalar := by
  intro e he
  obtain ⟨p, h, hp⟩ := na_builtin e he
  refine ⟨p, h, hp, ?_⟩
  simp only [naEntries, naTypes, List.map_cons, List.map_nil, List.cons_append, List.nil_append, List.mem_cons,
    List.not_mem_nil, or_false] at he
  rcases he with rfl | rfl | rfl | rfl | rfl | rfl | rfl | rfl | rfl | rfl | rfl | rfl | rfl | rfl | rfl <;>
    (simp only [UEntry.sig, List.cons.injEq, and_true] at h; subst h; simp)

end Dynd
