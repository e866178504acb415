/-
C118: two-argument operators: the overload chosen for a pair of types, the type of the result, the kernels built.
-/
import Verif.Props.OperatorTable

namespace Dynd

/-! ### Which overload is meant for a pair of concrete types -/

/-- The pairs of concrete types an overload of an operator is meant for. -/
def OHandles : OEntry → Ty → Ty → Prop
  | .num x y, a, b => a = .prim x ∧ b = .prim y
  | .na0, a, _ => ∃ t, a = .option t
  | .na1, _, b => ∃ t, b = .option t
  | .na01, a, b => (∃ t, a = .option t) ∧ ∃ t, b = .option t
  | .elwDS, a, b => IsDim a ∧ ¬ IsDim b
  | .elwSD, a, b => ¬ IsDim a ∧ IsDim b
  | .elwDD, a, b => IsDim a ∧ IsDim b
  | .elwSS, a, b => ¬ IsDim a ∧ ¬ IsDim b
  | .elwDO, a, b => IsDim a ∧ ∃ t, b = .option t ∧ ¬ IsDim t
  | .elwOD, a, b => (∃ t, a = .option t ∧ ¬ IsDim t) ∧ IsDim b
  | .strStr, a, b => a = .leaf .string ∧ b = .leaf .string
  | .tupTup, a, b => (∃ ts v, a = .tuple ts v) ∧ ∃ ts v, b = .tuple ts v
  | .structStruct, a, b => (∃ ns ts v, a = .struct ns ts v) ∧ ∃ ns ts v, b = .struct ns ts v
  | .typeType, a, b => a = .leaf .typeT ∧ b = .leaf .typeT
  | .bytesBytes, a, b => a = .leaf (.bytes 1) ∧ b = .leaf (.bytes 1)
  | .user _ _, _, _ => False

/-- what the patterns mean for a concrete type -/
def opIs : OP → Ty → Prop
  | .pc p, c => pcIs p c
  | .optS, c => ∃ t, c = .option t ∧ ¬ IsDim t

theorem opIs_iff (same : List Nat → Bool) (p : OP) {c : Ty} (hc : Concrete c) : tyMatch same p.ty c = true ↔ opIs p c := by
  cases p with
  | pc p => rw [show (OP.pc p).ty = p.ty from rfl, tyMatch_pat same (pc_tablePat p)]; exact patMatch_is hc _
  | optS =>
    rw [show OP.optS.ty = .option (.kind .scalar) from rfl, tyMatch_optS]
    simp only [opIs]
    cases c with
    | option t =>
      simp only [Ty.option.injEq, exists_eq_left']
      exact concrete_isScalar hc.1
    | _ => simp

theorem oHandles_ops {e : OEntry} (h : e.builtin = true) (a b : Ty) :
    OHandles e a b ↔ opIs e.ops.1 a ∧ opIs e.ops.2 b := by
  cases e <;> first | exact Bool.noConfusion h | exact Iff.rfl | simp [OHandles, opIs, pcIs, OEntry.ops]

theorem oHandles_iff (same : List Nat → Bool) {e : OEntry} (he : e.builtin = true) {a b : Ty} (ha : Concrete a)
    (hb : Concrete b) : supercedes (tyMatch same) [a, b] e.sig = true ↔ OHandles e a b := by
  rw [oHandles_ops he, osig_ops he]
  simp only [supercedes, Bool.and_eq_true, opIs_iff same _ ha, opIs_iff same _ hb, and_true]

theorem oHandles_false (same : List Nat → Bool) {e : OEntry} (he : e.builtin = true) {a b : Ty} (ha : Concrete a)
    (hb : Concrete b) (h : ¬ OHandles e a b) : supercedes (tyMatch same) [a, b] e.sig = false := by
  cases hc : supercedes (tyMatch same) [a, b] e.sig with
  | false => rfl
  | true => exact absurd ((oHandles_iff same he ha hb).1 hc) h

/-- The first overload meant for the pair is chosen. -/
theorem choice_first (same : List Nat → Bool) {l r : List OEntry} {e : OEntry} {a b : Ty} (ha : Concrete a) (hb : Concrete b)
    (hl : ∀ x ∈ l, x.builtin = true ∧ ¬ OHandles x a b) (he : e.builtin = true) (hh : OHandles e a b) :
    dispCall (tyMatch same) OEntry.sig [a, b] ((l ++ e :: r).map some) = .ok e := by
  rw [dispCall_skip l (e :: r) (fun x hx => oHandles_false same (hl x hx).1 ha hb (hl x hx).2)]
  rw [List.map_cons, dispCall, if_pos ((oHandles_iff same he ha hb).2 hh)]

/-! ### What the tables have in common -/

theorem isDim_prim (x : BTy) : IsDim (.prim x) = False := rfl
theorem isDim_leaf (x : LeafTy) : IsDim (.leaf x) = False := rfl
theorem isDim_option (x : Ty) : IsDim (.option x) = False := rfl
theorem isDim_tuple (ts : List Ty) (v : Bool) : IsDim (.tuple ts v) = False := rfl
theorem isDim_struct (ns : List String) (ts : List Ty) (v : Bool) : IsDim (.struct ns ts v) = False := rfl

theorem dim_ne {a : Ty} (h : IsDim a) : (∀ x, a ≠ .prim x) ∧ (∀ x, a ≠ .leaf x) ∧ (∀ x, a ≠ .option x) ∧
    (∀ ts v, a ≠ .tuple ts v) ∧ ∀ ns ts v, a ≠ .struct ns ts v := by
  cases a <;> first | exact h.elim | simp

/-- is it one of the elementwise overloads? -/
def OEntry.isElw : OEntry → Bool
  | .elwDS | .elwSD | .elwDD | .elwDO | .elwOD => true
  | _ => false

/-- The table of an operator does what its overloads say: `nums` are the pairs of built-in types it is defined for,
    `strs`: it is defined for strings, `recs`: it is defined for tuples, structs, types and byte strings. -/
structure Chooses (same : List Nat → Bool) (tbl : List (Option OEntry)) (nums : BTy → BTy → Prop) (strs recs : Prop) :
    Prop where
  num : ∀ x y, nums x y → dispCall (tyMatch same) OEntry.sig [.prim x, .prim y] tbl = .ok (.num x y)
  na0 : ∀ a b, Concrete (.option a) → Concrete b → ¬ IsDim b → (∀ t, b ≠ .option t) →
    dispCall (tyMatch same) OEntry.sig [.option a, b] tbl = .ok .na0
  na1 : ∀ a b, Concrete a → Concrete (.option b) → ¬ IsDim a → (∀ t, a ≠ .option t) →
    dispCall (tyMatch same) OEntry.sig [a, .option b] tbl = .ok .na1
  na01 : ∀ a b, Concrete (.option a) → Concrete (.option b) →
    dispCall (tyMatch same) OEntry.sig [.option a, .option b] tbl = .ok .na01
  elw : ∀ a b, Concrete a → Concrete b → IsDim a ∨ IsDim b →
    ∃ e, e.isElw = true ∧ dispCall (tyMatch same) OEntry.sig [a, b] tbl = .ok e
  str : strs → dispCall (tyMatch same) OEntry.sig [.leaf .string, .leaf .string] tbl = .ok .strStr
  typ : recs → dispCall (tyMatch same) OEntry.sig [.leaf .typeT, .leaf .typeT] tbl = .ok .typeType
  byt : recs → dispCall (tyMatch same) OEntry.sig [.leaf (.bytes 1), .leaf (.bytes 1)] tbl = .ok .bytesBytes
  tup : recs → ∀ as bs, Concrete (.tuple as false) → Concrete (.tuple bs false) →
    dispCall (tyMatch same) OEntry.sig [.tuple as false, .tuple bs false] tbl = .ok .tupTup
  stru : recs → ∀ na as nb bs, Concrete (.struct na as false) → Concrete (.struct nb bs false) →
    dispCall (tyMatch same) OEntry.sig [.struct na as false, .struct nb bs false] tbl = .ok .structStruct

theorem arithTable_cons (ps : List (BTy × BTy)) : arithTable ps =
    .elwDD :: .elwSD :: .elwDS :: .na01 :: .na1 :: .na0 :: (numEntries ps ++ [OEntry.elwSS]) := by
  simp [arithTable]

theorem arith_chooses (same : List Nat → Bool) (ps : List (BTy × BTy)) :
    Chooses same ((arithTable ps).map some) (fun x y => (x, y) ∈ ps) False False where
  num := by
    intro x y h
    have hm : OEntry.num x y ∈ numEntries ps := mem_numEntries.2 ⟨x, y, h, rfl⟩
    obtain ⟨u, v, huv⟩ := List.append_of_mem hm
    have hc : Concrete (.prim x) := trivial
    have hc' : Concrete (.prim y) := trivial
    have hd : ∀ z, ¬ IsDim (.prim z) := fun z h => h
    -- the first entry for this pair among the built-in ones is an equal one
    have e1 : (arithTable ps).map some = ([OEntry.elwDD, .elwSD, .elwDS, .na01, .na1, .na0] ++ (numEntries ps ++ [OEntry.elwSS])).map some := by
      rw [arithTable, List.append_assoc]
    rw [e1, dispCall_skip]
    · obtain ⟨z, hz, hz', ez⟩ := dispCall_some (m := tyMatch same) (sig := OEntry.sig) (args := [.prim x, .prim y])
        (numEntries ps) [.elwSS] ⟨_, hm, (oHandles_iff same rfl hc hc').2 ⟨rfl, rfl⟩⟩
      rw [ez]
      obtain ⟨p, q, _, rfl⟩ := mem_numEntries.1 hz
      obtain ⟨h1, h2⟩ := (oHandles_iff same rfl hc hc').1 hz'
      cases h1; cases h2; rfl
    · intro e he
      simp only [List.mem_cons, List.not_mem_nil, or_false] at he
      refine oHandles_false same ?_ hc hc' ?_ <;> rcases he with rfl | rfl | rfl | rfl | rfl | rfl <;>
        first | rfl | simp [OHandles, isDim_prim, isDim_leaf, isDim_option, isDim_tuple, isDim_struct]
  na0 := by
    intro a b ha hb hd ho
    rw [arithTable_cons]
    refine choice_first same (e := .na0) (l := [.elwDD, .elwSD, .elwDS, .na01, .na1]) (r := numEntries ps ++ [.elwSS]) ha hb ?_ rfl ⟨_, rfl⟩
    intro e he
    simp only [List.mem_cons, List.not_mem_nil, or_false] at he
    rcases he with rfl | rfl | rfl | rfl | rfl <;> simp [OHandles, isDim_prim, isDim_leaf, isDim_option, isDim_tuple, isDim_struct, OEntry.builtin, hd, ho]
  na1 := by
    intro a b ha hb hd ho
    rw [arithTable_cons]
    refine choice_first same (e := .na1) (l := [.elwDD, .elwSD, .elwDS, .na01]) (r := .na0 :: (numEntries ps ++ [OEntry.elwSS])) ha hb ?_ rfl ⟨_, rfl⟩
    intro e he
    simp only [List.mem_cons, List.not_mem_nil, or_false] at he
    rcases he with rfl | rfl | rfl | rfl <;> simp [OHandles, isDim_prim, isDim_leaf, isDim_option, isDim_tuple, isDim_struct, OEntry.builtin, hd, ho]
  na01 := by
    intro a b ha hb
    rw [arithTable_cons]
    refine choice_first same (e := .na01) (l := [.elwDD, .elwSD, .elwDS]) (r := .na1 :: .na0 :: (numEntries ps ++ [OEntry.elwSS])) ha hb ?_ rfl
      ⟨⟨_, rfl⟩, _, rfl⟩
    intro e he
    simp only [List.mem_cons, List.not_mem_nil, or_false] at he
    rcases he with rfl | rfl | rfl <;> simp [OHandles, isDim_prim, isDim_leaf, isDim_option, isDim_tuple, isDim_struct, OEntry.builtin]
  elw := by
    intro a b ha hb hd
    rw [arithTable_cons]
    by_cases h1 : IsDim a
    · by_cases h2 : IsDim b
      · refine ⟨.elwDD, rfl, choice_first same (e := .elwDD) (l := [])
          (r := .elwSD :: .elwDS :: .na01 :: .na1 :: .na0 :: (numEntries ps ++ [OEntry.elwSS])) ha hb (by simp) rfl ⟨h1, h2⟩⟩
      · refine ⟨.elwDS, rfl, choice_first same (e := .elwDS) (l := [.elwDD, .elwSD])
          (r := .na01 :: .na1 :: .na0 :: (numEntries ps ++ [OEntry.elwSS])) ha hb ?_ rfl ⟨h1, h2⟩⟩
        intro e he
        simp only [List.mem_cons, List.not_mem_nil, or_false] at he
        rcases he with rfl | rfl <;> simp [OHandles, OEntry.builtin, h1, h2]
    · have h2 : IsDim b := hd.resolve_left h1
      refine ⟨.elwSD, rfl, choice_first same (e := .elwSD) (l := [.elwDD])
        (r := .elwDS :: .na01 :: .na1 :: .na0 :: (numEntries ps ++ [OEntry.elwSS])) ha hb ?_ rfl ⟨h1, h2⟩⟩
      intro e he
      simp only [List.mem_cons, List.not_mem_nil, or_false] at he
      subst he; simp [OHandles, OEntry.builtin, h1]
  str := False.elim
  typ := False.elim
  byt := False.elim
  tup := False.elim
  stru := False.elim

/-! ### The comparison tables -/

/-- The numbers that can be compared: all built-in real types but the 128-bit ones and `float16`. -/
def CmpNum : BTy → Prop
  | .bool => True
  | .int w | .uint w => w ≠ .w128
  | .flt f => f = .f32 ∨ f = .f64
  | _ => False

/-- The pairs of built-in types a comparison is defined for; `eq`: equality, also of complex numbers. -/
def CmpPair (eq : Prop) (x y : BTy) : Prop := (CmpNum x ∧ CmpNum y) ∨ (eq ∧ ∃ c, x = .cplx c ∧ y = .cplx c)

/-- the overloads of a comparison -/
def InCmp (eq : Prop) : OEntry → Prop
  | .num x y => CmpPair eq x y
  | .na0 | .na1 | .na01 | .elwDS | .elwSD | .elwDD | .elwDO | .elwOD | .strStr => True
  | .tupTup | .structStruct | .typeType | .bytesBytes => eq
  | .elwSS | .user _ _ => False

theorem mem_cmpTypes {x : BTy} : x ∈ cmpTypes ↔ CmpNum x := by
  simp only [cmpTypes, List.mem_cons, List.not_mem_nil, or_false]
  cases x with
  | void => simp [CmpNum]
  | bool => simp [CmpNum]
  | int w => cases w <;> simp [CmpNum]
  | uint w => cases w <;> simp [CmpNum]
  | flt f => cases f <;> simp [CmpNum]
  | cplx c => simp [CmpNum]

theorem mem_cmpPairs {e : OEntry} : e ∈ cmpPairs ↔ ∃ x y, CmpNum x ∧ CmpNum y ∧ e = .num x y := by
  simp only [cmpPairs, List.mem_flatMap, List.mem_map, mem_cmpTypes]
  constructor
  · rintro ⟨x, hx, y, hy, rfl⟩; exact ⟨x, y, hx, hy, rfl⟩
  · rintro ⟨x, y, hx, hy, rfl⟩; exact ⟨x, hx, y, hy, rfl⟩

theorem less_flat : cmpInserts.flatten = cmpPairs ++ [.elwDS, .elwSD, .elwDD, .na0, .na1, .na01, .elwDO, .elwOD, .strStr] := by
  simp [cmpInserts]

theorem eq_flat : eqInserts.flatten = cmpPairs ++ [.elwDS, .elwSD, .elwDD, .na0, .na1, .na01, .elwDO, .elwOD, .strStr,
    .num (.cplx .c32) (.cplx .c32), .num (.cplx .c64) (.cplx .c64), .tupTup, .structStruct, .typeType, .bytesBytes] := by
  simp [eqInserts, cmpInserts]

theorem mem_less (e : OEntry) : e ∈ cmpInserts.flatten ↔ InCmp False e := by
  rw [less_flat, List.mem_append, mem_cmpPairs]
  cases e <;> simp [InCmp, CmpPair]

theorem mem_eq (e : OEntry) : e ∈ eqInserts.flatten ↔ InCmp True e := by
  rw [eq_flat, List.mem_append, mem_cmpPairs]
  cases e with
  | num x y =>
    simp only [InCmp, CmpPair, List.mem_cons, OEntry.num.injEq, List.not_mem_nil, or_false, reduceCtorEq, false_or, true_and]
    constructor
    · rintro (⟨a, b, h1, h2, rfl, rfl⟩ | ⟨rfl, rfl⟩ | ⟨rfl, rfl⟩)
      · exact .inl ⟨h1, h2⟩
      · exact .inr ⟨_, rfl, rfl⟩
      · exact .inr ⟨_, rfl, rfl⟩
    · rintro (⟨h1, h2⟩ | ⟨c, rfl, rfl⟩)
      · exact .inl ⟨x, y, h1, h2, rfl, rfl⟩
      · cases c <;> simp
  | _ => simp [InCmp]

theorem inCmp_builtin {eq : Prop} {e : OEntry} (h : InCmp eq e) : e.builtin = true := by
  cases e <;> first | rfl | exact h.elim

/-- The overload more specific than all the others meant for the pair is chosen. -/
theorem choice_best (same : List Nat → Bool) {eq : Prop} {fs : List OEntry} {ch : List (Option OEntry)}
    (hr : DispReach (tyMatch same) OEntry.sig fs ch) (hm : ∀ e, e ∈ fs ↔ InCmp eq e) {a b : Ty} (ha : Concrete a)
    (hb : Concrete b) (e : OEntry) (he : InCmp eq e) (hh : OHandles e a b)
    (hu : ∀ g, InCmp eq g → OHandles g a b → g = e ∨ arithEdge e g = true ∨ (e = .elwDO ∧ (g = .na1 ∨ g = .elwDS)) ∨
      (e = .elwOD ∧ (g = .na0 ∨ g = .elwSD))) :
    dispCall (tyMatch same) OEntry.sig [a, b] ch = .ok e := by
  rcases dispatch_most_specificE hr [a, b] with ⟨f, ef, hf, hs, hbest⟩ | ⟨_, hn⟩
  · have hfc := (hm f).1 hf
    have hfh := (oHandles_iff same (inCmp_builtin hfc) ha hb).1 hs
    have hno := hbest e ((hm e).2 he) ((oHandles_iff same (inCmp_builtin he) ha hb).2 hh)
    rw [oedge_eq same (inCmp_builtin he) (inCmp_builtin hfc)] at hno
    rcases hu f hfc hfh with h | h | ⟨rfl, rfl | rfl⟩ | ⟨rfl, rfl | rfl⟩
    · rw [ef, h]
    · exfalso
      cases e <;> first | (cases f <;> first | exact Bool.noConfusion h | exact he.elim | exact hfc.elim | exact Bool.noConfusion hno)
    · exact Bool.noConfusion hno
    · exact Bool.noConfusion hno
    · exact Bool.noConfusion hno
    · exact Bool.noConfusion hno
  · have := hn e ((hm e).2 he)
    rw [(oHandles_iff same (inCmp_builtin he) ha hb).2 hh] at this
    cases this

theorem cmp_chooses (same : List Nat → Bool) {eq : Prop} {fs : List OEntry} {ch : List (Option OEntry)}
    (hr : DispReach (tyMatch same) OEntry.sig fs ch) (hm : ∀ e, e ∈ fs ↔ InCmp eq e) :
    Chooses same ch (CmpPair eq) True eq where
  num := by
    intro x y h
    have hx : Concrete (.prim x) := trivial
    have hy : Concrete (.prim y) := trivial
    refine choice_best same hr hm hx hy (.num x y) h ⟨rfl, rfl⟩ ?_
    intro g hg hh
    cases g <;> first | exact hg.elim | (exfalso; simp [OHandles, isDim_prim, isDim_leaf, isDim_option, isDim_tuple, isDim_struct] at hh; done) | skip
    obtain ⟨h1, h2⟩ := hh; cases h1; cases h2; exact .inl rfl
  na0 := by
    intro a b ha hb hd ho
    refine choice_best same hr hm ha hb .na0 trivial ⟨_, rfl⟩ ?_
    intro g hg hh
    cases g <;> first | exact .inl rfl | exact hg.elim | (exfalso; simp [OHandles, isDim_prim, isDim_leaf, isDim_option, isDim_tuple, isDim_struct, hd, ho] at hh) 
  na1 := by
    intro a b ha hb hd ho
    refine choice_best same hr hm ha hb .na1 trivial ⟨_, rfl⟩ ?_
    intro g hg hh
    cases g <;> first | exact .inl rfl | exact hg.elim | (exfalso; simp [OHandles, isDim_prim, isDim_leaf, isDim_option, isDim_tuple, isDim_struct, hd, ho] at hh) 
  na01 := by
    intro a b ha hb
    refine choice_best same hr hm ha hb .na01 trivial ⟨⟨_, rfl⟩, _, rfl⟩ ?_
    intro g hg hh
    cases g <;> first | exact .inl rfl | exact .inr (.inl rfl) | exact hg.elim | (exfalso; simp [OHandles, isDim_prim, isDim_leaf, isDim_option, isDim_tuple, isDim_struct] at hh) 
  elw := by
    intro a b ha hb hd
    by_cases h1 : IsDim a
    · obtain ⟨a1, a2, a3, a4, a5⟩ := dim_ne h1
      by_cases h2 : IsDim b
      · obtain ⟨b1, b2, b3, b4, b5⟩ := dim_ne h2
        refine ⟨.elwDD, rfl, choice_best same hr hm ha hb .elwDD trivial ⟨h1, h2⟩ ?_⟩
        intro g hg hh
        cases g <;> first | exact .inl rfl | exact hg.elim | (exfalso; simp [OHandles, h1, h2, a1, a2, a3, a4, a5, b1, b2, b3, b4, b5] at hh; done)
      · by_cases h3 : ∃ t, b = .option t
        · obtain ⟨t, rfl⟩ := h3
          have ht : ¬ IsDim t := by
            intro h
            cases t <;> first | exact h | exact hb.2.1 _ _ rfl | exact hb.2.2 _ rfl
          refine ⟨.elwDO, rfl, choice_best same hr hm ha hb .elwDO trivial ⟨h1, t, rfl, ht⟩ ?_⟩
          intro g hg hh
          cases g <;> first | exact .inl rfl | exact .inr (.inr (.inl ⟨rfl, .inl rfl⟩)) |
            exact .inr (.inr (.inl ⟨rfl, .inr rfl⟩)) | exact hg.elim |
            (exfalso; simp [OHandles, isDim_prim, isDim_leaf, isDim_option, isDim_tuple, isDim_struct, h1, a1, a2, a3, a4, a5] at hh; done)
        · have b3 : ∀ t, b ≠ .option t := fun t h => h3 ⟨t, h⟩
          refine ⟨.elwDS, rfl, choice_best same hr hm ha hb .elwDS trivial ⟨h1, h2⟩ ?_⟩
          intro g hg hh
          cases g <;> first | exact .inl rfl | exact hg.elim | (exfalso; simp [OHandles, h1, h2, a1, a2, a3, a4, a5, b3] at hh; done)
    · have h2 : IsDim b := hd.resolve_left h1
      obtain ⟨b1, b2, b3, b4, b5⟩ := dim_ne h2
      by_cases h3 : ∃ t, a = .option t
      · obtain ⟨t, rfl⟩ := h3
        have ht : ¬ IsDim t := by
          intro h
          cases t <;> first | exact h | exact ha.2.1 _ _ rfl | exact ha.2.2 _ rfl
        refine ⟨.elwOD, rfl, choice_best same hr hm ha hb .elwOD trivial ⟨⟨t, rfl, ht⟩, h2⟩ ?_⟩
        intro g hg hh
        cases g <;> first | exact .inl rfl | exact .inr (.inr (.inr ⟨rfl, .inl rfl⟩)) |
          exact .inr (.inr (.inr ⟨rfl, .inr rfl⟩)) | exact hg.elim |
          (exfalso; simp [OHandles, isDim_prim, isDim_leaf, isDim_option, isDim_tuple, isDim_struct, h2, b1, b2, b3, b4, b5] at hh; done)
      · have a3 : ∀ t, a ≠ .option t := fun t h => h3 ⟨t, h⟩
        refine ⟨.elwSD, rfl, choice_best same hr hm ha hb .elwSD trivial ⟨h1, h2⟩ ?_⟩
        intro g hg hh
        cases g <;> first | exact .inl rfl | exact hg.elim | (exfalso; simp [OHandles, h1, h2, a3, b1, b2, b3, b4, b5] at hh; done)
  str := by
    intro _
    have hx : Concrete (.leaf .string) := trivial
    refine choice_best same hr hm hx hx .strStr trivial ⟨rfl, rfl⟩ ?_
    intro g hg hh
    cases g <;> first | exact .inl rfl | exact hg.elim | (exfalso; simp [OHandles, isDim_prim, isDim_leaf, isDim_option, isDim_tuple, isDim_struct] at hh)
  typ := by
    intro h
    have hx : Concrete (.leaf .typeT) := trivial
    refine choice_best same hr hm hx hx .typeType h ⟨rfl, rfl⟩ ?_
    intro g hg hh
    cases g <;> first | exact .inl rfl | exact hg.elim | (exfalso; simp [OHandles, isDim_prim, isDim_leaf, isDim_option, isDim_tuple, isDim_struct] at hh)
  byt := by
    intro h
    have hx : Concrete (.leaf (.bytes 1)) := trivial
    refine choice_best same hr hm hx hx .bytesBytes h ⟨rfl, rfl⟩ ?_
    intro g hg hh
    cases g <;> first | exact .inl rfl | exact hg.elim | (exfalso; simp [OHandles, isDim_prim, isDim_leaf, isDim_option, isDim_tuple, isDim_struct] at hh)
  tup := by
    intro h as bs ha hb
    refine choice_best same hr hm ha hb .tupTup h ⟨⟨_, _, rfl⟩, _, _, rfl⟩ ?_
    intro g hg hh
    cases g <;> first | exact .inl rfl | exact hg.elim | (exfalso; simp [OHandles, isDim_prim, isDim_leaf, isDim_option, isDim_tuple, isDim_struct] at hh)
  stru := by
    intro h na as nb bs ha hb
    refine choice_best same hr hm ha hb .structStruct h ⟨⟨_, _, _, rfl⟩, _, _, _, rfl⟩ ?_
    intro g hg hh
    cases g <;> first | exact .inl rfl | exact hg.elim | (exfalso; simp [OHandles, isDim_prim, isDim_leaf, isDim_option, isDim_tuple, isDim_struct] at hh)

theorem naResolved_of {l : List OEntry} (h : OEntry.na01 ∈ l ∨ OEntry.na0 ∉ l) : naResolved l := by
  intro h0 _
  rcases h with h | h
  · exact h
  · exact absurd h0 h

theorem cmp_insOk : insOk cmpInserts [] := by
  have h : ∀ l : List OEntry, OEntry.na0 ∉ cmpPairs ++ l ↔ OEntry.na0 ∉ l := by
    intro l; simp [mem_cmpPairs]
  have hb : ∀ l : List OEntry, (∀ e ∈ cmpPairs ++ l, e.builtin = true) ↔ ∀ e ∈ l, e.builtin = true := by
    intro l
    constructor
    · intro h e he; exact h e (by simp [he])
    · intro h e he
      rcases List.mem_append.1 he with he | he
      · obtain ⟨_, _, _, _, rfl⟩ := mem_cmpPairs.1 he; rfl
      · exact h e he
  have hne : cmpPairs ≠ [] := by
    intro e
    have : OEntry.num .bool .bool ∈ cmpPairs := mem_cmpPairs.2 ⟨.bool, .bool, trivial, trivial, rfl⟩
    rw [e] at this; simp at this
  refine ⟨by simpa using hne, ?_, naResolved_of (.inr ?_), ?_⟩
  · have := (hb []).2 (by simp); simpa using this
  · have := (h []).2 (by simp); simpa using this
  simp only [insOk, List.nil_append, List.append_assoc, hb]
  refine ⟨by simp [hne], by simp [OEntry.builtin], naResolved_of (.inr ((h _).2 (by simp))), ?_⟩
  refine ⟨by simp [hne], by simp [OEntry.builtin], naResolved_of (.inl (by simp)), ?_⟩
  refine ⟨by simp [hne], by simp [OEntry.builtin], naResolved_of (.inl (by simp)), ?_⟩
  refine ⟨by simp [hne], by simp [OEntry.builtin], naResolved_of (.inl (by simp)), ?_⟩
  exact ⟨by simp [hne], by simp [OEntry.builtin], naResolved_of (.inl (by simp)), trivial⟩

theorem insOk_append : ∀ (a b : List (List OEntry)) (l : List OEntry), insOk a l → insOk b (l ++ a.flatten) →
    insOk (a ++ b) l
  | [], b, l, _, h => by simpa using h
  | fs :: a, b, l, h, h' => by
    obtain ⟨h1, h2, h3, h4⟩ := h
    exact ⟨h1, h2, h3, insOk_append a b (l ++ fs) h4 (by simpa using h')⟩

/-- once `na01` is there nothing can go wrong -/
theorem insOk_after : ∀ (b : List (List OEntry)) (l : List OEntry), OEntry.na01 ∈ l → (∀ e ∈ l, e.builtin = true) →
    (∀ fs ∈ b, ∀ e ∈ fs, e.builtin = true) → insOk b l
  | [], _, _, _, _ => trivial
  | fs :: b, l, h, hl, hb => by
    have hl' : ∀ e ∈ l ++ fs, e.builtin = true := by
      intro e he
      rcases List.mem_append.1 he with he | he
      · exact hl e he
      · exact hb fs (by simp) e he
    have hm : OEntry.na01 ∈ l ++ fs := by simp [h]
    exact ⟨fun e => by rw [e] at hm; simp at hm, hl', naResolved_of (.inl hm),
      insOk_after b (l ++ fs) hm hl' (fun gs hg => hb gs (by simp [hg]))⟩

theorem eq_insOk : insOk eqInserts [] := by
  unfold eqInserts
  refine insOk_append _ _ _ cmp_insOk (insOk_after _ _ ?_ ?_ ?_)
  · rw [List.nil_append, mem_less]; trivial
  · intro e he
    rw [List.nil_append, mem_less] at he
    exact inCmp_builtin he
  · intro fs hfs e he
    simp only [List.mem_cons, List.not_mem_nil, or_false] at hfs
    rcases hfs with rfl | rfl | rfl | rfl | rfl | rfl <;> (simp at he; subst he; rfl)

/-- The tables of the comparisons are built without an error. -/
theorem less_table (same : List Nat → Bool) : ∃ tbl : List OEntry, makeLess same = .ok (tbl.map some) ∧
    (∀ e, e ∈ tbl ↔ InCmp False e) ∧ Chooses same (tbl.map some) (CmpPair False) True False := by
  obtain ⟨l', fs, e, hp, hr⟩ := opInserts_ok same cmpInserts [] [] (.refl _) (by simp [cmpInserts]) cmp_insOk
  have hm : ∀ e, e ∈ fs ↔ InCmp False e := fun e => by rw [hp.mem_iff, List.nil_append, mem_less]
  refine ⟨l', e, ?_, cmp_chooses same hr hm⟩
  obtain ⟨gs, hgs, hp', _⟩ := dispatcher_orderedE hr
  have : l' = gs := by
    have := congrArg (List.filterMap id) hgs
    rwa [filterMap_some, filterMap_some] at this
  subst this
  exact fun e => by rw [hp'.mem_iff, hm]

theorem eq_table (same : List Nat → Bool) : ∃ tbl : List OEntry, makeEqual same = .ok (tbl.map some) ∧
    (∀ e, e ∈ tbl ↔ InCmp True e) ∧ Chooses same (tbl.map some) (CmpPair True) True True := by
  obtain ⟨l', fs, e, hp, hr⟩ := opInserts_ok same eqInserts [] [] (.refl _) (by simp [eqInserts, cmpInserts]) eq_insOk
  have hm : ∀ e, e ∈ fs ↔ InCmp True e := fun e => by rw [hp.mem_iff, List.nil_append, mem_eq]
  refine ⟨l', e, ?_, cmp_chooses same hr hm⟩
  obtain ⟨gs, hgs, hp', _⟩ := dispatcher_orderedE hr
  have : l' = gs := by
    have := congrArg (List.filterMap id) hgs
    rwa [filterMap_some, filterMap_some] at this
  subst this
  exact fun e => by rw [hp'.mem_iff, hm]

end Dynd
