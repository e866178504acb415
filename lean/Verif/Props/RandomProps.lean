/-
C126: random arrays: what a call of `nd::random::uniform` with a destination does.
-/
import Verif.Props.RandomRun
import Verif.Props.StringCalls

namespace Dynd

/-! ### Specification -/

/-- the types random numbers are drawn of -/
def RandTy (T : BTy) : Prop :=
  T = .int .w32 ∨ T = .int .w64 ∨ T = .uint .w32 ∨ T = .uint .w64 ∨ T = .flt .f32 ∨ T = .flt .f64 ∨ T = .cplx .c32 ∨
    T = .cplx .c64

/-- the lower bound when none is given: 0 -/
def lowFor {F G : Type} (r : Rng F G) : BTy → RVal F
  | .flt _ => .real r.zero
  | .cplx _ => .cplx r.zero r.zero
  | _ => .int 0

/-- the upper bound when none is given: the largest integer of the type, 1, 1 + i -/
def highFor {F G : Type} (r : Rng F G) : BTy → RVal F
  | .int .w32 => .int 2147483647
  | .int .w64 => .int 9223372036854775807
  | .uint .w32 => .int 4294967295
  | .uint .w64 => .int 18446744073709551615
  | .flt _ => .real r.one
  | .cplx _ => .cplx r.one r.one
  | _ => .int 0

/-- the given bound, as an array of the type `el` -/
def ofTy {F : Type} (el : Ty) (x : Option (RVal F)) : Option (Ty × RVal F) := x.map fun v => (el, v)

/-! ### The tables -/

theorem uniform_table (same : List Nat → Bool) :
    makeUniform same = .ok ((randTypes.reverse.map .num).map some) := by
  have e := uInsert_ok same [] (randTypes.map .num) (by simp [randTypes]) (by
    intro e he
    obtain ⟨t, _, rfl⟩ := List.mem_map.1 (by simpa using he)
    exact ⟨_, rfl, .prim t⟩)
  simp only [makeUniform, uInserts]
  rw [show (List.map some ([] : List UEntry)) = [] from rfl] at e
  rw [e, Res.bind_ok]
  simp [randTypes]

theorem pick_num (same : List Nat → Bool) (T : BTy) : ∀ l : List BTy, T ∈ l →
    dispCall (tyMatch same) UEntry.sig [.prim T] ((l.map .num).map some) = .ok (.num T)
  | [], h => by cases h
  | b :: l, h => by
    simp only [List.map_cons, dispCall]
    rw [sup_u same (e := .num b) rfl (.prim b)]
    by_cases hb : b = T
    · subst hb
      rw [if_pos (by simp [uPat, tyEq_refl])]
    · have : uPat (.prim b) (.prim T) = false := by
        cases e : uPat (.prim b) (.prim T) with
        | false => rfl
        | true =>
          have := (tyEq_iff _ _).1 (show tyEq (.prim b) (.prim T) = true from e)
          cases this
          exact absurd rfl hb
      rw [this, if_neg (by simp)]
      exact pick_num same T l (by
        rcases List.mem_cons.1 h with h | h
        · exact absurd h.symm hb
        · exact h)

theorem pick_none (same : List Nat → Bool) (c : Ty) : ∀ l : List BTy, (∀ T ∈ l, c ≠ .prim T) →
    dispCall (tyMatch same) UEntry.sig [c] ((l.map .num).map some) = .throw .outOfRange
  | [], _ => rfl
  | b :: l, h => by
    simp only [List.map_cons, dispCall]
    rw [sup_u same (e := .num b) rfl (.prim b)]
    have : uPat (.prim b) c = false := by
      cases e : uPat (.prim b) c with
      | false => rfl
      | true =>
        have := (tyEq_iff _ _).1 (show tyEq (.prim b) c = true from by cases c <;> exact e)
        exact absurd this.symm (h b (by simp))
    rw [this, if_neg (by simp)]
    exact pick_none same c l (fun T hT => h T (by simp [hT]))

theorem randTy_iff (T : BTy) : RandTy T ↔ T ∈ randTypes.reverse := by
  simp only [RandTy, randTypes, List.mem_reverse, List.mem_cons, List.not_mem_nil, or_false]

/-- a missing value of a type -/
theorem na_ok {F : Type} (same : List Nat → Bool) {T : BTy} (h : RandTy T) (h' : T ≠ .uint .w64) :
    makeNa (F := F) same (.option (.prim T)) = .ok (.na (.option (.prim T))) := by
  have hm : ∃ e ∈ naEntries, ∃ p, e.sig = [p] ∧ uPat p (.option (.prim T)) = true := by
    refine ⟨.opt (.prim T), ?_, .option (.prim T), rfl, by simp [uPat, tyEq_refl]⟩
    rcases h with rfl | rfl | rfl | rfl | rfl | rfl | rfl | rfl <;> first | exact absurd rfl h' | simp [naEntries, naTypes]
  obtain ⟨e, _, _, h3⟩ := choose_scalar same na_scalar (.fixedDimKind (.kind .any)) (.varDim (.kind .any))
    (c := .option (.prim T)) (fun h => h) hm
  simp only [makeNa, is_na_table, Res.bind_ok, h3]; rfl

theorem na_uint64 {F : Type} (same : List Nat → Bool) :
    makeNa (F := F) same (.option (.prim (.uint .w64))) = .throw .outOfRange := by
  have h := choose_none same na_scalar (.fixedDimKind (.kind .any)) (.varDim (.kind .any))
    (c := .option (.prim (.uint .w64))) ⟨trivial, by simp, by simp⟩ (fun h => h) (by
      intro e he p hp
      simp only [naEntries, naTypes, List.map_cons, List.map_nil, List.cons_append, List.nil_append, List.mem_cons,
        List.not_mem_nil, or_false] at he
      rcases he with rfl | rfl | rfl | rfl | rfl | rfl | rfl | rfl | rfl | rfl | rfl | rfl | rfl | rfl | rfl <;>
      · simp only [UEntry.sig, List.cons.injEq, and_true] at hp
        subst hp; rfl)
  simp only [makeNa, is_na_table, Res.bind_ok, h]; rfl

/-- a missing value of any concrete scalar type: made or out of range -/
theorem na_either {F : Type} (same : List Nat → Bool) {el : Ty} (hc : Concrete el) (hd : ¬ IsDim el) :
    makeNa (F := F) same (.option el) = .ok (.na (.option el)) ∨ makeNa (F := F) same (.option el) = .throw .outOfRange := by
  by_cases hm : ∃ e ∈ naEntries, ∃ p, e.sig = [p] ∧ uPat p (.option el) = true
  · obtain ⟨e, _, _, h3⟩ := choose_scalar same na_scalar (.fixedDimKind (.kind .any)) (.varDim (.kind .any))
      (c := .option el) (fun h => h) hm
    left
    simp only [makeNa, is_na_table, Res.bind_ok, h3]; rfl
  · right
    have h := choose_none same na_scalar (.fixedDimKind (.kind .any)) (.varDim (.kind .any)) (c := .option el)
      ⟨hc, fun n t e => hd (by rw [e]; trivial), fun t e => hd (by rw [e]; trivial)⟩ (fun h => h) (by
        intro e he p hp
        cases e' : uPat p (.option el) with
        | false => rfl
        | true => exact absurd ⟨e, he, p, hp, e'⟩ hm)
    simp only [makeNa, is_na_table, Res.bind_ok, h]; rfl

/-! ### Binding -/

theorem match_R (same : List Nat → Bool) {el : Ty} (hc : Concrete el) (hd : ¬ IsDim el) (σ : Env) :
    matchTy same (.typevar "R") el σ =
      match σ "R" with | none => .ok (true, σ.set "R" el) | some t => .ok (tyEq el t, σ) := by
  have h1 : tyEq (.typevar "R") el = false := by
    cases e : tyEq (.typevar "R") el with
    | false => rfl
    | true => have := (tyEq_iff _ _).1 e; subst this; exact hc.elim
  have h2 : tyEq el (.kind .any) = false := by
    cases e : tyEq el (.kind .any) with
    | false => rfl
    | true => have := (tyEq_iff _ _).1 e; subst this; exact hc.elim
  conv => lhs; unfold matchTy
  rw [h1, Bool.and_false, if_neg (by simp), if_neg (by rw [h2, not_dim_ndim hc hd]; simp)]
  cases σ "R" <;> rfl

/-- an array is not matched -/
theorem match_R_dim (same : List Nat → Bool) {t : Ty} (hc : Concrete t) (hd : IsDim t) (σ : Env) :
    matchTy same (.typevar "R") t σ = .ok (false, σ) := by
  have h1 : tyEq (.typevar "R") t = false := by
    cases e : tyEq (.typevar "R") t with
    | false => rfl
    | true => have := (tyEq_iff _ _).1 e; subst this; exact hc.elim
  have h3 : t.ndim > 0 := by
    rcases concrete_isDim hd with ⟨n, el, rfl⟩ | ⟨el, rfl⟩ <;> simp [Ty.ndim]
  conv => lhs; unfold matchTy
  rw [h1, Bool.and_false, if_neg (by simp), if_pos (.inl h3)]

theorem arr_not {c : Ty} (h : Concrete c) {p : Ty} (hp : ¬ Concrete p) : tyEq c p = false ∧ tyEq p c = false := by
  constructor
  · cases e : tyEq c p with
    | false => rfl
    | true => have := (tyEq_iff _ _).1 e; subst this; exact absurd h hp
  · cases e : tyEq p c with
    | false => rfl
    | true => have := (tyEq_iff _ _).1 e; subst this; exact absurd h hp

theorem match_ret (same : List Nat → Bool) {el : Ty} (hc : Concrete el) (hd : ¬ IsDim el) (ds : List (Option Nat)) (σ : Env)
    (hσ : σ "Dims" = none) :
    matchTy same (.ellipsis "Dims" (.typevar "R")) (arrTy ds el) σ =
      matchTy (fun q => same (0 :: q)) (.typevar "R") el (σ.set "Dims" (.dimFragment (ds.map fragTag))) := by
  have hca := concrete_arrTy hc ds
  conv => lhs; unfold matchTy
  rw [(arr_not hca (p := .ellipsis "Dims" (.typevar "R")) (fun h => h)).2, Bool.and_false, if_neg (by simp),
    (arr_not hca (p := .kind .any) (fun h => h)).1, if_neg (by simp), arr_ndim (not_dim_ndim hc hd)]
  cases ds with
  | nil => rw [if_pos (show ([] : List (Option Nat)).length = 0 from rfl), if_neg (by decide), hσ]; rfl
  | cons d ds =>
    rw [if_neg (by simp)]
    have e := taggedDims_arr el [] (d :: ds)
    rw [List.append_nil] at e
    have ea := arr_atDim (el := el) (d :: ds)
    have hm : (d :: ds).length - (Ty.typevar "R").ndim = (d :: ds).length := rfl
    cases d with
    | none =>
      simp only [arrTy] at e ea ⊢
      rw [if_pos (by simp [Ty.ndim]), if_neg (by decide), hσ, hm]
      simp only [e, ea, Res.bind_ok]
    | some n =>
      simp only [arrTy] at e ea ⊢
      rw [if_pos (by simp [Ty.ndim]), if_neg (by decide), hσ, hm]
      simp only [e, ea, Res.bind_ok]

theorem subst_opt {el : Ty} (hc : Concrete el) (hd : ¬ IsDim el) (σ : Env) (h : σ "R" = some el) :
    substTy false σ (.option (.typevar "R")) = .ok (.option el) := by
  conv => lhs; unfold substTy
  rw [if_pos (by simp [Ty.symbolic])]
  conv => lhs; unfold substTy
  rw [h]
  simp only []
  rw [if_neg (by rw [not_dim_ndim hc hd]; simp), if_pos (by simp)]; rfl

theorem naOf_eq {F : Type} (same : List Nat → Bool) {el : Ty} (hc : Concrete el) (hd : ¬ IsDim el) (σ : Env)
    (h : σ "R" = some el) : naOf (F := F) same (.option (.typevar "R")) σ = makeNa same (.option el) := by
  simp only [naOf, subst_opt hc hd σ h, Res.bind_ok]
  rw [if_neg]
  simp [Ty.symbolic, concrete_symbolic hc]

/-- the keyword for the destination -/
inductive Last {F : Type} (t : Ty) : List (String × Option (RArg F)) → Prop
  | tp : Last t [("dst_tp", some (.tp t))]
  | dst : Last t [("dst", some (.dst t))]

/-- the array for a bound -/
def argOf {F : Type} (el : Ty) : Option (RVal F) → RArg F
  | some v => .val el v
  | none => .na (.option el)

theorem env_R (σ : Env) (t : Ty) : (σ.set "R" t) "R" = some t := by simp [Env.set]
theorem env_Dims_R (σ : Env) (t : Ty) : (σ.set "Dims" t) "R" = σ "R" := by simp [Env.set]
theorem env_R_Dims (σ : Env) (t : Ty) : (σ.set "R" t) "Dims" = σ "Dims" := by simp [Env.set]

/-- the loop over the last keyword -/
theorem bind_last {F : Type} (same : List Nat → Bool) {t : Ty} (hs : t.symbolic = false)
    {last : List (String × Option (RArg F))} (hl : Last t last) (slots : List (Option (RArg F))) (σ : Env) :
    bindKwds (randOps F same) randSig last slots none σ = .ok (slots, some (.dst t), σ) := by
  cases hl with
  | tp =>
    simp only [bindKwds, randSig, kwdIndex]
    simp only [show ("a" = "dst_tp") = False from by decide, show ("b" = "dst_tp") = False from by decide, if_false,
      Option.map_none, if_true, randOps, emptyArg, hs, Bool.false_eq_true, Res.bind_ok]
  | dst =>
    simp only [bindKwds, randSig, kwdIndex]
    simp only [show ("a" = "dst") = False from by decide, show ("b" = "dst") = False from by decide, if_false,
      Option.map_none, if_true, show ("dst" = "dst_tp") = False from by decide]

/-- one of the two bounds, when given -/
theorem bind_one {F : Type} (same : List Nat → Bool) {el : Ty} (hc : Concrete el) (hd : ¬ IsDim el) (v : RVal F)
    (rest : List (String × Option (RArg F))) (σ : Env) (sa sb : Option (RArg F)) (dst : Option (RArg F)) :
    (sa = none → bindKwds (randOps F same) randSig (("a", some (.val el v)) :: rest) [sa, sb] dst σ =
      match σ "R" with
      | none => bindKwds (randOps F same) randSig rest [some (.val el v), sb] dst (σ.set "R" el)
      | some t => if tyEq el t then bindKwds (randOps F same) randSig rest [some (.val el v), sb] dst σ
          else .throw .invalidArg) ∧
    (sb = none → bindKwds (randOps F same) randSig (("b", some (.val el v)) :: rest) [sa, sb] dst σ =
      match σ "R" with
      | none => bindKwds (randOps F same) randSig rest [sa, some (.val el v)] dst (σ.set "R" el)
      | some t => if tyEq el t then bindKwds (randOps F same) randSig rest [sa, some (.val el v)] dst σ
          else .throw .invalidArg) := by
  constructor <;>
  · rintro rfl
    rw [bindKwds]
    simp only [randSig, kwdIndex, if_true, show ("a" = "b") = False from by decide, if_false, Option.map_some,
      Nat.zero_add, List.getElem?_cons_zero, List.getElem?_cons_succ, randOps, optValue, Option.getD_some, id_eq,
      RArg.typeOf]
    rw [match_R same hc hd σ]
    cases h : σ "R" with
    | none => rfl
    | some t => rfl

theorem fill_two {F : Type} (same : List Nat → Bool) (σ : Env) (n : Nat) (x y : Option (RArg F)) :
    fillLeftOut (randOps F same) randSig σ (optionKwdIndices (randOps F same) randSig.kwds 0) [x, y] n =
      (match x with
        | some x => (.ok (some x, n) : Res (Option (RArg F) × Nat))
        | none => naOf same (.option (.typevar "R")) σ >>= fun u => .ok (some u, n + 1)) >>= fun p =>
      (match y with
        | some y => (.ok (some y, p.2) : Res (Option (RArg F) × Nat))
        | none => naOf same (.option (.typevar "R")) σ >>= fun u => .ok (some u, p.2 + 1)) >>= fun q =>
      .ok ([p.1, q.1], q.2) := by
  have e : optionKwdIndices (randOps F same) randSig.kwds 0 = [0, 1] := rfl
  rw [e]
  cases x <;> cases y <;>
    simp only [fillLeftOut, randSig, List.getElem?_cons_zero, List.getElem?_cons_succ, Res.bind_ok, randOps,
      List.set_cons_zero, List.set_cons_succ]
  · cases naOf same (.option (.typevar "R")) σ with
    | ok a => simp only [Res.bind_ok]
    | throw e => rfl
    | ub => rfl
  · cases naOf same (.option (.typevar "R")) σ <;> rfl
  · cases naOf same (.option (.typevar "R")) σ <;> rfl

/-- the steps of the binding -/
theorem rand_bind {F : Type} (same : List Nat → Bool) (kws : List (String × Option (RArg F))) :
    bindCall (randOps F same) randSig [] kws =
      (bindKwds (randOps F same) randSig kws [none, none] none Env.empty >>= fun p =>
          checkDst (randOps F same) randSig p.2.1 p.2.2 >>= fun vars =>
          fillLeftOut (randOps F same) randSig vars (optionKwdIndices (randOps F same) randSig.kwds 0) p.1 kws.length >>= fun q =>
          if q.2 < randSig.kwds.length then .throw .invalidArg else
          .ok (⟨[], q.1, q.2, p.2.1, (match p.2.1 with | none => randSig.ret | some d => (randOps F same).typeOf d), vars⟩ :
            CallOut Ty (RArg F) Env)) := by
    unfold bindCall
    simp only [randSig, List.length_nil, Nat.lt_irrefl, and_false, if_false, Bool.false_eq_true, checkArgs, Res.bind_ok,
      List.drop_nil, putExtras, Nat.zero_add, List.take_nil, Nat.sub_self, Nat.not_lt_zero, gt_iff_lt]
    have en : (randOps F same).noVars = Env.empty := rfl
    have el' : List.replicate [((Ty.typevar "R").option, "a"), ((Ty.typevar "R").option, "b")].length (none : Option (RArg F)) = [none, none] := rfl
    rw [en, el']
    congr 1; funext p; congr 1; funext vars; congr 1; funext q
    cases p.2.1 <;> rfl

/-- A call with a destination whose elements have the type of the bounds given: missing bounds are replaced by missing
    values. -/
theorem bind_call {F : Type} (same : List Nat → Bool) {el : Ty} (hc : Concrete el) (hd : ¬ IsDim el)
    (ds : List (Option Nat)) (a b : Option (RVal F)) {last : List (String × Option (RArg F))} (hl : Last (arrTy ds el) last) :
    ∃ (n : Nat) (σ : Env), 2 ≤ n ∧ bindCall (randOps F same) randSig [] (randKws (ofTy el a) (ofTy el b) last) =
      (if a.isSome ∧ b.isSome then .ok ⟨[], [some (argOf el a), some (argOf el b)], n, some (.dst (arrTy ds el)), arrTy ds el, σ⟩
       else makeNa (F := F) same (.option el) >>= fun u => .ok ⟨[], [some (match a with | some v => .val el v | none => u),
        some (match b with | some v => .val el v | none => u)], n, some (.dst (arrTy ds el)), arrTy ds el, σ⟩) := by
  have hs : (arrTy ds el).symbolic = false := concrete_symbolic (concrete_arrTy hc ds)
  have hll : last.length = 1 := by cases hl <;> rfl
  -- the last steps, with `R` bound
  have fin : ∀ (σ : Env) (x y : Option (RVal F)) (k : Nat), σ "Dims" = none → (σ "R" = none ∨ σ "R" = some el) →
      k = (if x.isSome then 1 else 0) + (if y.isSome then 1 else 0) + 1 →
      ∃ (n : Nat) (σ' : Env), 2 ≤ n ∧
        ((bindKwds (randOps F same) randSig last [x.map (RArg.val el), y.map (RArg.val el)] none σ >>= fun p =>
          checkDst (randOps F same) randSig p.2.1 p.2.2 >>= fun vars =>
          fillLeftOut (randOps F same) randSig vars (optionKwdIndices (randOps F same) randSig.kwds 0) p.1 k >>= fun q =>
          if q.2 < randSig.kwds.length then .throw .invalidArg else
          .ok (⟨[], q.1, q.2, p.2.1, (match p.2.1 with | none => randSig.ret | some d => (randOps F same).typeOf d), vars⟩ :
            CallOut Ty (RArg F) Env)) =
        (if x.isSome ∧ y.isSome then .ok ⟨[], [some (argOf el x), some (argOf el y)], n, some (.dst (arrTy ds el)), arrTy ds el, σ'⟩
         else makeNa (F := F) same (.option el) >>= fun u => .ok ⟨[], [some (match x with | some v => .val el v | none => u),
          some (match y with | some v => .val el v | none => u)], n, some (.dst (arrTy ds el)), arrTy ds el, σ'⟩)) := by
    intro σ x y k h1 h2 hk
    rw [bind_last same hs hl, Res.bind_ok]
    have hck : ∃ σ', checkDst (randOps F same) randSig (some (.dst (arrTy ds el))) σ = .ok σ' ∧ σ' "R" = some el := by
      simp only [checkDst, randSig]
      have hm : (randOps F same).matchTy = matchTy same := rfl
      have ht : (randOps F same).typeOf (.dst (arrTy ds el)) = arrTy ds el := rfl
      rw [hm, ht, match_ret same hc hd ds σ h1, match_R _ hc hd, env_Dims_R]
      rcases h2 with h2 | h2
      · rw [h2]
        exact ⟨Env.set (Env.set σ "Dims" (.dimFragment (ds.map fragTag))) "R" el, rfl, env_R _ _⟩
      · rw [h2]
        simp only [tyEq_refl, Res.bind_ok, if_true]
        exact ⟨_, rfl, by rw [env_Dims_R]; exact h2⟩
    obtain ⟨σ', e1, e2⟩ := hck
    rw [e1, Res.bind_ok, fill_two, naOf_eq same hc hd σ' e2]
    refine ⟨3, σ', by omega, ?_⟩
    have hlen : randSig.kwds.length = 2 := rfl
    have hdt : (randOps F same).typeOf (.dst (arrTy ds el)) = arrTy ds el := rfl
    cases x <;> cases y <;>
      simp only [Option.isSome_none, Option.isSome_some, Bool.false_eq_true, if_false, if_true] at hk <;> subst hk <;>
      simp only [Option.map_none, Option.map_some, Option.isSome_none, Option.isSome_some, Bool.false_eq_true, and_true,
        and_false, if_false, if_true, Res.bind_ok, and_self, hlen, argOf, hdt]
    · cases makeNa (F := F) same (.option el) <;> simp [Res.bind_ok, Res.bind_throw] <;> rfl
    · cases makeNa (F := F) same (.option el) <;> simp [Res.bind_ok, Res.bind_throw] <;> rfl
    · cases makeNa (F := F) same (.option el) <;> simp [Res.bind_ok, Res.bind_throw] <;> rfl
    · simp
  rw [rand_bind]
  have b1 := fun rest σ sa sb dst v => (bind_one (F := F) same hc hd v rest σ sa sb dst).1
  have b2 := fun rest σ sa sb dst v => (bind_one (F := F) same hc hd v rest σ sa sb dst).2
  have hR : (Env.empty.set "R" el) "R" = some el := env_R _ _
  have hD : (Env.empty.set "R" el) "Dims" = none := by rw [env_R_Dims]; rfl
  have hE : Env.empty "R" = none := rfl
  cases a with
  | none =>
    cases b with
    | none =>
      have := fin Env.empty none none 1 rfl (.inl rfl) rfl
      simp only [ofTy, randKws, Option.map_none, List.nil_append, hll]
      exact this
    | some y =>
      have := fin (Env.empty.set "R" el) none (some y) 2 hD (.inr hR) rfl
      simp only [ofTy, randKws, Option.map_none, Option.map_some, List.nil_append, List.singleton_append, List.length_cons, hll]
      rw [b2 _ _ _ _ _ _ rfl, hE]
      exact this
  | some x =>
    cases b with
    | none =>
      have := fin (Env.empty.set "R" el) (some x) none 2 hD (.inr hR) rfl
      simp only [ofTy, randKws, Option.map_none, Option.map_some, List.nil_append, List.singleton_append, List.length_cons, hll]
      rw [b1 _ _ _ _ _ _ rfl, hE]
      exact this
    | some y =>
      have := fin (Env.empty.set "R" el) (some x) (some y) 3 hD (.inr hR) rfl
      simp only [ofTy, randKws, Option.map_some, List.singleton_append, List.length_cons, hll]
      rw [b1 _ _ _ _ _ _ rfl, hE]
      simp only []
      rw [b2 _ _ _ _ _ _ rfl, hR]
      simp only [tyEq_refl, if_true]
      exact this

/-! ### Resolution -/

/-- the class for each dimension -/
def classOf : Option Nat → ElwClass
  | some _ => .ff
  | none => .vf

/-- the classes for the dimensions -/
def classes0 (ds : List (Option Nat)) : List ElwClass := ds.map classOf

theorem resolve_dims0 {X : Type} (f : Ty → Res X) {el : Ty} (hc : Concrete el) : ∀ ds : List (Option Nat), ds ≠ [] →
    resolveDims0 f ds.length (arrTy ds el) = f el >>= fun x => .ok (classes0 ds, x)
  | [], h => absurd rfl h
  | d :: ds, _ => by
    have hv : (arrTy ds el).variadicDims = false := concrete_variadic (concrete_arrTy hc ds)
    have hcl : elwClass0 (arrTy (d :: ds) el) = classOf d := by
      cases d <;> simp [classOf, arrTy, elwClass0, Ty.variadicDims, hv, isFixedId, isVarId]
    have hsz : ∃ n u, dimSizeOf (arrTy (d :: ds) el) = some (n, arrTy ds el, u) := by
      cases d <;> exact ⟨_, _, rfl⟩
    obtain ⟨n, u, hsz⟩ := hsz
    simp only [List.length_cons, resolveDims0, hsz, hcl]
    cases ds with
    | nil =>
      rw [if_pos (show ([] : List (Option Nat)).length = 0 from rfl)]
      simp only [arrTy]
      cases f el <;> rfl
    | cons e ds =>
      rw [if_neg (by simp), resolve_dims0 f hc (e :: ds) (by simp)]
      cases f el <;> rfl

theorem resolve_elw0 {X : Type} (f : Ty → Res X) (cret : Ty) {el : Ty} (hc : Concrete el) (hd : ¬ IsDim el)
    (ds : List (Option Nat)) :
    resolveElw0 f cret (arrTy ds el) = f el >>= fun x => .ok (classes0 ds, x) := by
  have hv : (arrTy ds el).variadicDims = false := concrete_variadic (concrete_arrTy hc ds)
  simp only [resolveElw0, hv, Bool.false_eq_true, if_false, arr_ndim (not_dim_ndim hc hd)]
  cases ds with
  | nil => rw [if_pos (show ([] : List (Option Nat)).length = 0 from rfl)]; simp only [arrTy]; cases f el <;> rfl
  | cons d ds => rw [if_neg (by simp)]; exact resolve_dims0 f hc (d :: ds) (by simp)

theorem inst_levels {ds : List (Option Nat)} {dm : List UMeta} (h : MetaFits ds dm) :
    inst0 (classes0 ds) dm = .ok (levels0 dm) := by
  induction h with
  | nil => rfl
  | fixed n s h ih => simp only [classes0, List.map_cons, classOf, inst0, levels0] at ih ⊢; rw [ih]; rfl
  | var s o h ih => simp only [classes0, List.map_cons, classOf, inst0, levels0] at ih ⊢; rw [ih]; rfl

theorem default_low {F G : Type} (r : Rng F G) (T : BTy) : defaultLow r T = lowFor r T := by
  cases T <;> rfl

theorem default_high {F G : Type} (r : Rng F G) {T : BTy} (h : RandTy T) : defaultHigh r T = highFor r T := by
  rcases h with rfl | rfl | rfl | rfl | rfl | rfl | rfl | rfl <;>
    simp [defaultHigh, highFor, intMax, Wd.size]

theorem concrete_T (T : BTy) : Concrete (.prim T) := trivial
theorem notDim_T (T : BTy) : ¬ IsDim (.prim T) := fun h => h

/-- the choice and the bounds -/
theorem resolve_uniform {F G : Type} (r : Rng F G) (same : List Nat → Bool) {T : BTy} (h : RandTy T) (a b : Option (RVal F)) :
    resolveUniform r same [some (argOf (.prim T) a), some (argOf (.prim T) b)] (.prim T) =
      .ok (T, a.getD (lowFor r T), b.getD (highFor r T)) := by
  simp only [resolveUniform, uniform_table, Res.bind_ok, pick_num same T _ ((randTy_iff T).1 h), List.getElem?_cons_zero,
    List.getElem?_cons_succ, Option.join_some]
  have e : ∀ (x : Option (RVal F)) (d : RVal F), boundOf d (some (argOf (.prim T) x)) = .ok (x.getD d) := by
    intro x d; cases x <;> rfl
  rw [e, Res.bind_ok, e, Res.bind_ok, default_low, default_high r h]; rfl

/-- A supported type: the call is resolved. -/
theorem rand_resolve {F G : Type} (r : Rng F G) (same : List Nat → Bool) {T : BTy} (h : RandTy T) (a b : Option (RVal F))
    (hna : T = .uint .w64 → a.isSome ∧ b.isSome) (ds : List (Option Nat)) {last : List (String × Option (RArg F))}
    (hl : Last (arrTy ds (.prim T)) last) :
    randResolve r same (randKws (ofTy (.prim T) a) (ofTy (.prim T) b) last) =
      .ok (arrTy ds (.prim T), classes0 ds, T, a.getD (lowFor r T), b.getD (highFor r T)) := by
  obtain ⟨n, σ, _, e⟩ := bind_call same (concrete_T T) (notDim_T T) ds a b hl
  have e' : bindCall (randOps F same) randSig [] (randKws (ofTy (.prim T) a) (ofTy (.prim T) b) last) =
      .ok ⟨[], [some (argOf (.prim T) a), some (argOf (.prim T) b)], n, some (.dst (arrTy ds (.prim T))), arrTy ds (.prim T), σ⟩ := by
    rw [e]
    by_cases hb : a.isSome ∧ b.isSome
    · rw [if_pos hb]
    · rw [if_neg hb, na_ok same h (fun ht => hb (hna ht)), Res.bind_ok]
      cases a <;> cases b <;> rfl
  simp only [randResolve, e', Res.bind_ok, resolve_elw0 _ _ (concrete_T T) (notDim_T T), resolve_uniform r same h]
  rfl

/-! ### Theorems -/

/-- **C126** (a destination type).  `nd::random::uniform({}, {{"a", a}, {"b", b}, {"dst_tp", tp}})` and `nd::rand(tp)`,
    for an array type of any dimensions with one of the eight types as element: the result is an array of that type,
    every element is drawn with the bounds given, or 0 and the largest integer, 1, 1 + i, and lies between them; the
    elements are successive draws in row-major order.  Partial: a `var` dimension gets one element; for `uint64` both
    bounds have to be given; the bounds have to be ones the C++ library permits, which is not checked. -/
theorem random_new_partial {F G : Type} (r : Rng F G) {le : F → F → Prop} (hr : Lawful r le) (same : List Nat → Bool)
    {T : BTy} (h : RandTy T) (a b : Option (RVal F)) (hna : T = .uint .w64 → a.isSome ∧ b.isSome)
    (hab : AllowedArg r T (a.getD (lowFor r T)) (b.getD (highFor r T))) (ds : List (Option Nat)) (sz : Nat) (hsz : 0 < sz)
    (base : Int) (g : G) :
    ∃ (m : UDst (RVal F)) (g' : G) (v : NestVal (RVal F)),
      randNew r same sz (ofTy (.prim T) a) (ofTy (.prim T) b) (arrTy ds (.prim T)) base g =
        .ok (arrTy ds (.prim T), freshMeta sz ds, m, g') ∧
      viewArr m.cells m.recs (freshMeta sz ds) base = some v ∧ ShapedAs ds v ∧
      Draws r T (a.getD (lowFor r T)) (b.getD (highFor r T)) v.scalars g g' ∧
      ∀ x ∈ v.scalars, Between le (a.getD (lowFor r T)) (b.getD (highFor r T)) x := by
  have e := rand_resolve r same h a b hna ds (last := [("dst_tp", some (.tp (arrTy ds (.prim T))))]) .tp
  have hd : dimsOf (arrTy ds (.prim T)) = ds := arr_dims rfl ds
  obtain ⟨v, m', g', e1, ⟨_, _, _, hv⟩, hs, hdr⟩ := run_new (r := r) hab sz hsz ds base
    { cells := fun _ => none, recs := fun _ => none, next := base + dataSize sz ds } g
    ⟨Int.le_refl _, fun _ _ _ => rfl, fun _ _ => rfl⟩
  refine ⟨m', g', v, ?_, hv _ _ (fun _ _ => ⟨rfl, rfl⟩), hs, hdr, draws_between hr hdr hab⟩
  simp only [randNew, e, Res.bind_ok, hd, randRun, inst_levels (fresh_fits sz ds), (distOk_iff r T _ _).2 hab, if_true, e1]
  rfl

/-- **C126** (an existing destination).  `nd::random::uniform({}, {{"a", a}, {"b", b}, {"dst", x}})` for an array `x` of
    any nesting of dimensions, with any strides: one draw for each element of `x`, in row-major order, written to it;
    nothing else is changed.  `p` is the nested list of the addresses of the elements.  Partial: as above. -/
theorem random_into_partial {F G : Type} (r : Rng F G) {le : F → F → Prop} (hr : Lawful r le) (same : List Nat → Bool)
    {T : BTy} (h : RandTy T) (a b : Option (RVal F)) (hna : T = .uint .w64 → a.isSome ∧ b.isSome)
    (hab : AllowedArg r T (a.getD (lowFor r T)) (b.getD (highFor r T))) {ds : List (Option Nat)} {dm : List UMeta}
    (hf : MetaFits ds dm) (d : Int) (m : UDst (RVal F)) (g : G) {p : NestVal Int}
    (hp : viewArr (fun a => some a) m.recs dm d = some p) :
    ∃ (vs : List (RVal F)) (cells : Int → Option (RVal F)) (g' : G),
      randInto r same (ofTy (.prim T) a) (ofTy (.prim T) b) (arrTy ds (.prim T)) dm d (m, g) = .ok ({ m with cells := cells }, g') ∧
      vs.length = p.scalars.length ∧ Draws r T (a.getD (lowFor r T)) (b.getD (highFor r T)) vs g g' ∧
      (∀ x ∈ vs, Between le (a.getD (lowFor r T)) (b.getD (highFor r T)) x) ∧
      (p.scalars.Nodup → ∀ (i : Nat) (at_ : Int), p.scalars[i]? = some at_ → cells at_ = vs[i]?) ∧
      ∀ at_, at_ ∉ p.scalars → cells at_ = m.cells at_ := by
  have e := rand_resolve r same h a b hna ds (last := [("dst", some (.dst (arrTy ds (.prim T))))]) .dst
  obtain ⟨vs, g', hl, hdr, e1⟩ := run_old (r := r) hab m.recs dm d p m g rfl hp
  refine ⟨vs, writeEach m.cells p.scalars vs, g', ?_, hl, hdr, draws_between hr hdr hab,
    fun hn => writeAll_at p.scalars vs m.cells hl.symm hn, writeAll_other p.scalars vs m.cells⟩
  simp only [randInto, e, Res.bind_ok, randRun, inst_levels hf, (distOk_iff r T _ _).2 hab, if_true, e1]

/-- **C126** (other types).  An array type whose elements are of another type: the call fails, whether bounds of that
    type are given or not, and nothing is drawn. -/
theorem random_rejected {F G : Type} (r : Rng F G) (same : List Nat → Bool) {el : Ty} (hc : Concrete el) (hd : ¬ IsDim el)
    (h : ∀ T, RandTy T → el ≠ .prim T) (a b : Option (RVal F)) (ds : List (Option Nat))
    {last : List (String × Option (RArg F))} (hl : Last (arrTy ds el) last) :
    randResolve r same (randKws (ofTy el a) (ofTy el b) last) = .throw .outOfRange := by
  obtain ⟨n, σ, _, e⟩ := bind_call same hc hd ds a b hl
  have hu : ∀ kwds, resolveUniform r same kwds el = .throw .outOfRange := by
    intro kwds
    simp only [resolveUniform, uniform_table, Res.bind_ok,
      pick_none same el _ (fun T hT => h T ((randTy_iff T).2 hT)), Res.bind_throw]
  by_cases hb : a.isSome ∧ b.isSome
  · simp only [randResolve, e, if_pos hb, Res.bind_ok, resolve_elw0 _ _ hc hd, hu, Res.bind_throw]
  · rcases na_either (F := F) same hc hd with h1 | h1
    · simp only [randResolve, e, if_neg hb, h1, Res.bind_ok, resolve_elw0 _ _ hc hd, hu, Res.bind_throw]
    · simp only [randResolve, e, if_neg hb, h1, Res.bind_throw]

/-- **C126** (symbolic types).  A type with unknown dimensions or elements: the call fails and nothing is drawn. -/
theorem random_symbolic {F G : Type} (r : Rng F G) (same : List Nat → Bool) (sz : Nat) {t : Ty} (ht : t.symbolic = true)
    (base : Int) (g : G) : ndRand r same sz t base g = .throw .typeError := by
  have hb : bindKwds (randOps F same) randSig [("dst_tp", some (.tp t))] [none, none] none Env.empty = .throw .typeError := by
    simp only [bindKwds, randSig, kwdIndex]
    simp only [show ("a" = "dst_tp") = False from by decide, show ("b" = "dst_tp") = False from by decide, if_false,
      Option.map_none, if_true, randOps, emptyArg, ht, Res.bind_throw]
  simp only [ndRand, randNew, randResolve, randKws, List.nil_append, rand_bind, hb, Res.bind_throw]

/-- **C126** (a row that is not there yet, seen through a view that starts inside it): an error, nothing is drawn. -/
theorem random_offset {F G : Type} (r : Rng F G) (same : List Nat → Bool) {T : BTy} (h : RandTy T) (a b : Option (RVal F))
    (hna : T = .uint .w64 → a.isSome ∧ b.isSome)
    (hab : AllowedArg r T (a.getD (lowFor r T)) (b.getD (highFor r T))) {ds : List (Option Nat)} {dm : List UMeta}
    (hf : MetaFits ds dm) (s o : Int) (ho : o ≠ 0) (d : Int) (m : UDst (RVal F)) (hm : m.recs d = none) (g : G) :
    randInto r same (ofTy (.prim T) a) (ofTy (.prim T) b) (arrTy (none :: ds) (.prim T)) (.var s o :: dm) d (m, g) =
      .throw .runtime := by
  have e := rand_resolve r same h a b hna (none :: ds) (last := [("dst", some (.dst (arrTy (none :: ds) (.prim T))))]) .dst
  simp only [randInto, e, Res.bind_ok, randRun, inst_levels (MetaFits.var s o hf), (distOk_iff r T _ _).2 hab, if_true,
    levels0, run0, hm]
  rw [if_pos ho]

/-- **C126** (bounds of another type).  A lower bound, or with no lower bound an upper bound, whose type is not that of
    the elements, and an upper bound of another type than the lower one: the call fails. -/
theorem random_bound_types {F G : Type} (r : Rng F G) (same : List Nat → Bool) {el X Y : Ty} (hc : Concrete el)
    (hd : ¬ IsDim el) (hX : Concrete X) (hY : Concrete Y) (x y : RVal F) (ds : List (Option Nat))
    {last : List (String × Option (RArg F))} (hl : Last (arrTy ds el) last) :
    (X ≠ el → randResolve r same (randKws (some (X, x)) none last) = .throw .invalidArg) ∧
    (Y ≠ el → randResolve r same (randKws none (some (Y, y)) last) = .throw .invalidArg) ∧
    (X ≠ el ∨ Y ≠ el → randResolve r same (randKws (some (X, x)) (some (Y, y)) last) = .throw .invalidArg) := by
  have hll : last.length = 1 := by cases hl <;> rfl
  have hs : (arrTy ds el).symbolic = false := concrete_symbolic (concrete_arrTy hc ds)
  have hE : Env.empty "R" = none := rfl
  -- an array
  have k1 : ∀ (rest : List (String × Option (RArg F))) (σ : Env) (sb : Option (RArg F)), IsDim X →
      bindKwds (randOps F same) randSig (("a", some (.val X x)) :: rest) [none, sb] none σ = .throw .invalidArg := by
    intro rest σ sb hi
    rw [bindKwds]
    simp only [randSig, kwdIndex, if_true, List.getElem?_cons_zero, randOps, optValue, Option.getD_some, id_eq, RArg.typeOf]
    rw [match_R_dim same hX hi]; rfl
  have k2 : ∀ (rest : List (String × Option (RArg F))) (σ : Env) (sa : Option (RArg F)), IsDim Y →
      bindKwds (randOps F same) randSig (("b", some (.val Y y)) :: rest) [sa, none] none σ = .throw .invalidArg := by
    intro rest σ sa hi
    rw [bindKwds]
    simp only [randSig, kwdIndex, if_true, show ("a" = "b") = False from by decide, if_false, Option.map_some,
      Nat.zero_add, List.getElem?_cons_zero, List.getElem?_cons_succ, randOps, optValue, Option.getD_some, id_eq,
      RArg.typeOf]
    rw [match_R_dim same hY hi]; rfl
  -- the destination of another type
  have k3 : ∀ (t : Ty) (slots : List (Option (RArg F))), t ≠ el → ∀ k : Nat,
      (bindKwds (randOps F same) randSig last slots none (Env.empty.set "R" t) >>= fun p =>
        checkDst (randOps F same) randSig p.2.1 p.2.2 >>= fun vars =>
        fillLeftOut (randOps F same) randSig vars (optionKwdIndices (randOps F same) randSig.kwds 0) p.1 k >>= fun q =>
        if q.2 < randSig.kwds.length then .throw .invalidArg else
        .ok (⟨[], q.1, q.2, p.2.1, (match p.2.1 with | none => randSig.ret | some d => (randOps F same).typeOf d), vars⟩ :
          CallOut Ty (RArg F) Env)) = .throw .invalidArg := by
    intro t slots ht k
    rw [bind_last same hs hl, Res.bind_ok]
    have hm : (randOps F same).matchTy = matchTy same := rfl
    have hty : (randOps F same).typeOf (.dst (arrTy ds el)) = arrTy ds el := rfl
    have hne : tyEq el t = false := by
      cases e : tyEq el t with
      | false => rfl
      | true => exact absurd ((tyEq_iff _ _).1 e).symm ht
    have : checkDst (randOps F same) randSig (some (.dst (arrTy ds el))) (Env.empty.set "R" t) = .throw .invalidArg := by
      simp only [checkDst, randSig]
      rw [hm, hty, match_ret same hc hd ds _ (by rw [env_R_Dims]; rfl), match_R _ hc hd, env_Dims_R, env_R]
      simp only [hne, Res.bind_ok, Bool.false_eq_true, if_false]
    rw [this]; rfl
  have b1 := fun (hi : ¬ IsDim X) rest σ sa sb dst => (bind_one (F := F) same hX hi x rest σ sa sb dst).1
  have b2 := fun (hi : ¬ IsDim Y) rest σ sa sb dst => (bind_one (F := F) same hY hi y rest σ sa sb dst).2
  refine ⟨fun hne => ?_, fun hne => ?_, fun hne => ?_⟩
  · simp only [randResolve, rand_bind]
    simp only [randKws, List.nil_append, List.singleton_append]
    by_cases hi : IsDim X
    · rw [k1 _ _ _ hi]; rfl
    · rw [b1 hi _ _ _ _ _ rfl, hE]
      simp only []
      rw [k3 X _ hne]; rfl
  · simp only [randResolve, rand_bind]
    simp only [randKws, List.nil_append, List.singleton_append]
    by_cases hi : IsDim Y
    · rw [k2 _ _ _ hi]; rfl
    · rw [b2 hi _ _ _ _ _ rfl, hE]
      simp only []
      rw [k3 Y _ hne]; rfl
  · simp only [randResolve, rand_bind]
    simp only [randKws, List.singleton_append]
    by_cases hi : IsDim X
    · rw [k1 _ _ _ hi]; rfl
    · rw [b1 hi _ _ _ _ _ rfl, hE]
      simp only []
      by_cases hj : IsDim Y
      · rw [k2 _ _ _ hj]; rfl
      · rw [b2 hj _ _ _ _ _ rfl, env_R]
        simp only []
        by_cases hxy : Y = X
        · subst hxy
          rw [tyEq_refl, if_pos rfl, k3 Y _ (by rcases hne with h | h <;> exact h)]; rfl
        · have : tyEq Y X = false := by
            cases e : tyEq Y X with
            | false => rfl
            | true => exact absurd ((tyEq_iff _ _).1 e) hxy
          rw [this, if_neg (by simp)]; rfl

/-- **C126, violated** (`uint64`).  `nd::rand` of an array of `uint64`, and `uniform` with only one of the bounds, fail,
    although there is an overload for `uint64` with default bounds: there is no missing value of type `uint64`. -/
theorem random_uint64_violated {F G : Type} (r : Rng F G) (same : List Nat → Bool) (a b : Option (RVal F))
    (h : ¬ (a.isSome ∧ b.isSome)) (ds : List (Option Nat)) (sz : Nat) (base : Int) (g : G) :
    randNew r same sz (ofTy (.prim (.uint .w64)) a) (ofTy (.prim (.uint .w64)) b) (arrTy ds (.prim (.uint .w64))) base g =
      .throw .outOfRange := by
  obtain ⟨n, σ, _, e⟩ := bind_call same (concrete_T _) (notDim_T _) ds a b
    (last := [("dst_tp", some (.tp (arrTy ds (.prim (.uint .w64)))))]) .tp
  simp only [randNew, randResolve, e, if_neg h, na_uint64, Res.bind_throw]

/-- **C126, violated** (bounds).  Bounds the C++ library does not permit are not checked: undefined behaviour.  This
    happens already with one bound, when it is on the wrong side of the default for the other. -/
theorem random_bounds_violated {F G : Type} (r : Rng F G) (same : List Nat → Bool) {T : BTy} (h : RandTy T)
    (a b : Option (RVal F)) (hna : T = .uint .w64 → a.isSome ∧ b.isSome)
    (hab : ¬ AllowedArg r T (a.getD (lowFor r T)) (b.getD (highFor r T))) (ds : List (Option Nat)) (sz : Nat) (base : Int) (g : G) :
    randNew r same sz (ofTy (.prim T) a) (ofTy (.prim T) b) (arrTy ds (.prim T)) base g = .ub := by
  have e := rand_resolve r same h a b hna ds (last := [("dst_tp", some (.tp (arrTy ds (.prim T))))]) .tp
  have hd : dimsOf (arrTy ds (.prim T)) = ds := arr_dims rfl ds
  have hno : distOk r T (a.getD (lowFor r T)) (b.getD (highFor r T)) = false := by
    cases e : distOk r T (a.getD (lowFor r T)) (b.getD (highFor r T)) with
    | false => rfl
    | true => exact absurd ((distOk_iff r T _ _).1 e) hab
  simp only [randNew, e, Res.bind_ok, hd, randRun, inst_levels (fresh_fits sz ds), hno, Bool.false_eq_true, if_false]
  rfl

/-- The case: `uniform({}, {{"b", -1}, {"dst_tp", "3 * int32"}})`. -/
example {F G : Type} (r : Rng F G) (same : List Nat → Bool) (g : G) :
    randNew r same 4 none (some (.prim (.int .w32), .int (-1))) (.fixedDim 3 (.prim (.int .w32))) 0 g = .ub :=
  random_bounds_violated r same (T := .int .w32) (.inl rfl) none (some (.int (-1))) (by simp)
    (by simp [AllowedArg, lowFor]) [some 3] 4 0 g

/-- **C126, violated** (the bounds alone).  Two bounds of the same type and no destination: the type of the result,
    `Dims... * R` with `R` bound, is not used, and the call fails. -/
theorem random_type_violated {F G : Type} (r : Rng F G) (same : List Nat → Bool) (T : BTy) (x y : RVal F) :
    randNoDst r same (some (.prim T, x)) (some (.prim T, y)) = .throw .outOfRange := by
  have b1 := fun rest σ sa sb dst => (bind_one (F := F) same (concrete_T T) (notDim_T T) x rest σ sa sb dst).1
  have b2 := fun rest σ sa sb dst => (bind_one (F := F) same (concrete_T T) (notDim_T T) y rest σ sa sb dst).2
  simp only [randNoDst, randResolve, rand_bind]
  simp only [randKws, List.append_nil, List.singleton_append, List.length_cons, List.length_nil]
  rw [b1 _ _ _ _ _ rfl, show Env.empty "R" = none from rfl]
  simp only []
  rw [b2 _ _ _ _ _ rfl, env_R]
  simp only [tyEq_refl, if_true, bindKwds, Res.bind_ok, checkDst]
  rw [fill_two]
  simp only [Res.bind_ok]
  rw [if_neg (by simp [randSig]), Res.bind_ok]
  have hv : randSig.ret.variadicDims = true := rfl
  simp only [resolveElw0, hv, if_true, resolveUniform, uniform_table, Res.bind_ok]
  rw [pick_none same (.typevar "R") _ (by intro T _ h; cases h)]; rfl

/-- The case: `nd::rand("2 * var * float64")` draws two numbers, one for each row. -/
example {F G : Type} (r : Rng F G) {le : F → F → Prop} (hr : Lawful r le) (same : List Nat → Bool) (g : G)
    (h : r.realOk .f64 r.zero r.one = true) :
    ∃ (m : UDst (RVal F)) (x y : F) (g₁ g₂ : G),
      ndRand r same 8 (.fixedDim 2 (.varDim (.prim (.flt .f64)))) 0 g =
        .ok (.fixedDim 2 (.varDim (.prim (.flt .f64))), [.fixed 2 16, .var 8 0], m, g₂) ∧
      r.real .f64 r.zero r.one g = (x, g₁) ∧ r.real .f64 r.zero r.one g₁ = (y, g₂) ∧ le r.zero x ∧ le y r.one := by
  have hT : RandTy (.flt .f64) := by simp [RandTy]
  obtain ⟨m, g', v, e, _, hs, hd, hb⟩ := random_new_partial r hr same hT none none (by simp) h [some 2, none] 8
    (by omega) 0 g
  have e2 : ∃ p q : RVal F, v.scalars = [p, q] := by
    cases v with
    | elem x => exact hs.elim
    | list xs =>
      obtain ⟨hl, hx⟩ := hs
      match xs, hl with
      | [u, w], _ =>
        have one : ∀ z : NestVal (RVal F), ShapedAs [none] z → ∃ p, z.scalars = [p] := by
          intro z hz
          cases z with
          | elem x => exact hz.elim
          | list zs =>
            obtain ⟨hl, hx⟩ := hz
            match zs, hl with
            | [.elem p], _ => exact ⟨p, rfl⟩
            | [.list q], _ => exact False.elim (hx (.list q) (by simp))
        obtain ⟨p, hp⟩ := one u (hx u (by simp))
        obtain ⟨q, hq⟩ := one w (hx w (by simp))
        exact ⟨p, q, by simp [NestVal.scalars, scalarsAll, hp, hq]⟩
  obtain ⟨p, q, e2⟩ := e2
  rw [e2] at hd hb
  simp only [Option.getD_none, lowFor, highFor] at hd hb
  cases hd with
  | real w a b l g1 g2 hd =>
    cases hd with
    | real w a b l g1 g2 hd =>
      cases hd
      refine ⟨m, _, _, _, _, e, rfl, rfl, ?_, ?_⟩
      · exact (hb (.real _) (by simp)).1
      · exact (hb (.real _) (by simp)).2

end Dynd
