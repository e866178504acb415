/-
C118: a call of a two-argument operator: the kernels built and the type of the result.
-/
import Verif.Props.OperatorProps

namespace Dynd

/-! ### What a call has to do -/

/-- The dimension of the result for two dimensions of these sizes (`none`: `var`), and the kernel that runs along
    it: sizes are equal or one of them is 1; with a `var` dimension the result has the size of the other one, unless
    that is 1 or `var` as well. -/
inductive DimsOp : Option Int → Option Int → ElwClass → (Ty → Ty) → Prop
  | same (n : Int) : DimsOp (some n) (some n) .ff (.fixedDim n)
  | left (m : Int) : DimsOp (some 1) (some m) .ff (.fixedDim m)
  | right (n : Int) : DimsOp (some n) (some 1) .ff (.fixedDim n)
  | varVar : DimsOp none none .vf .varDim
  | varOne : DimsOp none (some 1) .vf .varDim
  | oneVar : DimsOp (some 1) none .vf .varDim
  | varFixed (m : Int) : m ≠ 1 → DimsOp none (some m) .fv (.fixedDim m)
  | fixedVar (n : Int) : n ≠ 1 → DimsOp (some n) none .fv (.fixedDim n)

/-- `EqK k a b`: the kernels `k` compare two values of the types `a` and `b` that are no arrays and cannot be
    missing: strings, types, bytes, tuples and structs (field by field; the structs have the same field names). -/
inductive EqK (nums : BTy → BTy → Prop) (strs recs : Prop) : OTree → Ty → Ty → Prop
  | num (x y : BTy) : recs → nums x y → EqK nums strs recs (.mk (.kern x y) []) (.prim x) (.prim y)
  | str : strs → EqK nums strs recs (.mk .eqStr []) (.leaf .string) (.leaf .string)
  | typ : recs → EqK nums strs recs (.mk .eqType []) (.leaf .typeT) (.leaf .typeT)
  | byt : recs → EqK nums strs recs (.mk .eqBytes []) (.leaf (.bytes 1)) (.leaf (.bytes 1))
  | tup (as bs : List Ty) (ks : List OTree) : recs → as.length = bs.length → as.length = ks.length → as.length ≤ 8 →
      (∀ (i : Nat) a b k, as[i]? = some a → bs[i]? = some b → ks[i]? = some k → EqK nums strs recs k a b) →
      EqK nums strs recs (.mk (.eqTuple as.length) ks) (.tuple as false) (.tuple bs false)
  | stru (ns : List String) (as bs : List Ty) (ks : List OTree) : recs → as.length = bs.length → as.length = ks.length →
      as.length ≤ 8 →
      (∀ (i : Nat) a b k, as[i]? = some a → bs[i]? = some b → ks[i]? = some k → EqK nums strs recs k a b) →
      EqK nums strs recs (.mk (.eqStruct as.length) ks) (.struct ns as false) (.struct ns bs false)

/-- `OpOK k r a b`: the kernels `k` apply the operator to values of the types `a` and `b`, and `r` is the type of
    the result.  A missing operand makes the result missing: the operand that can be missing is tested with the test
    for its type, and the result is set to the missing value of its type.  Arrays are combined dimension by dimension,
    the one with fewer dimensions being repeated. -/
inductive OpOK (ret : BTy → BTy → BTy) (nums : BTy → BTy → Prop) (strs recs : Prop) : OTree → Ty → Ty → Ty → Prop
  | num (x y : BTy) : nums x y → OpOK ret nums strs recs (.mk (.kern x y) []) (.prim (ret x y)) (.prim x) (.prim y)
  | cmp (k : OTree) (a b : Ty) : EqK nums strs recs k a b → (∀ x, a ≠ .prim x) →
      OpOK ret nums strs recs k (.prim .bool) a b
  | na0 (k : OTree) (r a b : Ty) : OpOK ret nums strs recs k r a b → ¬ IsDim b → (∀ t, b ≠ .option t) → HasNa a → HasNa r →
      OpOK ret nums strs recs (.mk (.forwardNa true false) [k, .mk (.isNa a) [], .mk (.assignNa r) []]) (.option r) (.option a) b
  | na1 (k : OTree) (r a b : Ty) : OpOK ret nums strs recs k r a b → ¬ IsDim a → (∀ t, a ≠ .option t) → HasNa b → HasNa r →
      OpOK ret nums strs recs (.mk (.forwardNa false true) [k, .mk (.isNa b) [], .mk (.assignNa r) []]) (.option r) a (.option b)
  | na01 (k : OTree) (r a b : Ty) : OpOK ret nums strs recs k r a b → HasNa a → HasNa b → HasNa r →
      OpOK ret nums strs recs (.mk (.forwardNa true true) [k, .mk (.isNa a) [], .mk (.isNa b) [], .mk (.assignNa r) []])
        (.option r) (.option a) (.option b)
  | dims (k : OTree) (r a b ea eb : Ty) (na nb : Option Int) (c : ElwClass) (g : Ty → Ty) :
      DimOf a na ea → DimOf b nb eb → ea.ndim = eb.ndim → DimsOp na nb c g → OpOK ret nums strs recs k r ea eb →
      OpOK ret nums strs recs (.mk (.elw c (na == some 1) (nb == some 1) na.isNone nb.isNone) [k]) (g r) a b
  | repeatR (k : OTree) (r ea b : Ty) (n : Int) : b.ndim ≤ ea.ndim → (∀ el, b ≠ .varDim el) →
      OpOK ret nums strs recs k r ea b →
      OpOK ret nums strs recs (.mk (.elw .ff (n == 1) true false false) [k]) (.fixedDim n r) (.fixedDim n ea) b
  | repeatL (k : OTree) (r a eb : Ty) (n : Int) : a.ndim ≤ eb.ndim → (∀ el, a ≠ .varDim el) →
      OpOK ret nums strs recs k r a eb →
      OpOK ret nums strs recs (.mk (.elw .ff true (n == 1) false false) [k]) (.fixedDim n r) a (.fixedDim n eb)

/-! ### The kernels of values that are no arrays -/

theorem instO_node {n : ONode} {g : Nat} {ns rest : List ONode} {ks : List OTree}
    (h : instOKids (instO g) n.arity (ns ++ rest) = .ok (ks, rest)) :
    instO (g + 1) (n :: ns ++ rest) = .ok (.mk n ks, rest) := by
  show instO (g + 1) (n :: (ns ++ rest)) = _
  rw [instO, h, Res.bind_ok, Res.pure_eq]

theorem instO_leaf {n : ONode} (h : n.arity = 0) (g : Nat) (rest : List ONode) :
    instO (g + 1) (n :: rest) = .ok (.mk n [], rest) := by
  have := instO_node (n := n) (g := g) (ns := []) (rest := rest) (ks := []) (by rw [h]; rfl)
  simpa using this

theorem kidsO_cons {g c : Nat} {ns rest rest' : List ONode} {k : OTree} {ks : List OTree}
    (h1 : instO g (ns ++ rest) = .ok (k, rest)) (h2 : instOKids (instO g) c rest = .ok (ks, rest')) :
    instOKids (instO g) (c + 1) (ns ++ rest) = .ok (k :: ks, rest') := by
  rw [instOKids, h1, Res.bind_ok, h2, Res.bind_ok, Res.pure_eq]

/-- From some recursion depth on, resolving gives `ns` and result type `r`, and `ns` becomes the kernels `k`. -/
def OBuilds (f : Nat → Res (List ONode × Ty)) (k : OTree) (r : Ty) : Prop :=
  ∃ ns F, (∀ fuel, F ≤ fuel → f fuel = .ok (ns, r)) ∧
    ∀ fuel, F ≤ fuel → ∀ rest, instO fuel (ns ++ rest) = .ok (k, rest)

theorem oFields {same : List Nat → Bool} {ret : BTy → BTy → BTy} {tbl : List (Option OEntry)} :
    ∀ (as bs : List Ty) (ks : List OTree), as.length = bs.length → as.length = ks.length →
    (∀ (i : Nat) a b k, as[i]? = some a → bs[i]? = some b → ks[i]? = some k →
      OBuilds (fun fuel => resolveOp same ret tbl fuel 1 (.prim .bool) a b) k (.prim .bool)) →
    ∃ ns F, (∀ fuel, F ≤ fuel → resolveFields2 (resolveOp same ret tbl fuel 1 (.prim .bool)) as bs = .ok ns) ∧
      ∀ fuel, F ≤ fuel → ∀ rest, instOKids (instO fuel) as.length (ns ++ rest) = .ok (ks, rest)
  | [], [], [], _, _, _ => ⟨[], 0, fun _ _ => rfl, fun _ _ _ => rfl⟩
  | a :: as, b :: bs, k :: ks, h1, h2, h => by
    obtain ⟨ns, F, e1, e2⟩ := h 0 a b k rfl rfl rfl
    obtain ⟨ns', F', e1', e2'⟩ := oFields as bs ks (by simpa using h1) (by simpa using h2)
      (fun i a b k h1 h2 h3 => h (i + 1) a b k h1 h2 h3)
    refine ⟨ns ++ ns', max F F', ?_, ?_⟩
    · intro fuel hf
      have e1 : resolveOp same ret tbl fuel 1 (.prim .bool) a b = _ := e1 fuel (by omega)
      rw [resolveFields2, e1, Res.bind_ok, e1' fuel (by omega), Res.bind_ok, Res.pure_eq]
    · intro fuel hf rest
      rw [List.append_assoc]
      exact kidsO_cons (e2 fuel (by omega) _) (e2' fuel (by omega) _)
  | [], [], _ :: _, _, h, _ => by simp at h
  | [], _ :: _, _, h, _, _ => by simp at h
  | _ :: _, [], _, h, _, _ => by simp at h
  | _ :: _, _ :: _, [], _, h, _ => by simp at h

/-- the destination types with which a comparison of values is resolved -/
def BoolDst (d : Ty) : Prop := d = .kind .any ∨ d = .prim .bool

theorem eqK_builds {same : List Nat → Bool} {ret : BTy → BTy → BTy} {tbl : List (Option OEntry)}
    {nums : BTy → BTy → Prop} {strs recs : Prop} (C : Chooses same tbl nums strs recs)
    (hret : recs → ∀ x y, nums x y → ret x y = .bool) {k : OTree} {a b : Ty} (h : EqK nums strs recs k a b)
    (ha : Concrete a) (hb : Concrete b) {nsrc : Nat} {d : Ty} (hd : BoolDst d) :
    OBuilds (fun fuel => resolveOp same ret tbl fuel nsrc d a b) k (.prim .bool) := by
  have leaf : ∀ {a b : Ty} {e : OEntry} {n : ONode} {nsrc : Nat} (d : Ty), BoolDst d →
      dispCall (tyMatch same) OEntry.sig [a, b] tbl = .ok e →
      (∀ fuel, resolveOp same ret tbl (fuel + 1) nsrc d a b = .ok ([n], .prim .bool)) → n.arity = 0 →
      OBuilds (fun fuel => resolveOp same ret tbl fuel nsrc d a b) (.mk n []) (.prim .bool) := by
    intro a b e n nsrc d _ _ hr h0
    refine ⟨[n], 1, ?_, ?_⟩
    · intro fuel hf
      obtain ⟨f, rfl⟩ : ∃ f, fuel = f + 1 := ⟨fuel - 1, by omega⟩
      exact hr f
    · intro fuel hf rest
      obtain ⟨f, rfl⟩ : ∃ f, fuel = f + 1 := ⟨fuel - 1, by omega⟩
      exact instO_leaf h0 f rest
  induction h generalizing d nsrc with
  | num x y hr h =>
    refine leaf d hd (C.num x y h) (fun fuel => ?_) rfl
    rw [resolveOp, C.num x y h, Res.bind_ok]
    rcases hd with rfl | rfl
    · simp [Ty.symbolic, OEntry.ret, hret hr x y h]
    · simp [Ty.symbolic]
  | str h =>
    refine leaf d hd (C.str h) (fun fuel => ?_) rfl
    rw [resolveOp, C.str h, Res.bind_ok]
    rcases hd with rfl | rfl <;> simp [Ty.symbolic, OEntry.ret]
  | typ h =>
    refine leaf d hd (C.typ h) (fun fuel => ?_) rfl
    rw [resolveOp, C.typ h, Res.bind_ok]
    rcases hd with rfl | rfl <;> simp [Ty.symbolic, OEntry.ret]
  | byt h =>
    refine leaf d hd (C.byt h) (fun fuel => ?_) rfl
    rw [resolveOp, C.byt h, Res.bind_ok]
    rcases hd with rfl | rfl <;> simp [Ty.symbolic, OEntry.ret]
  | tup as bs ks hr h1 h2 h8 hf ih =>
    obtain ⟨ns, F, e1, e2⟩ := oFields (same := same) (ret := ret) (tbl := tbl) as bs ks h1 h2
      (fun i a b k i1 i2 i3 => ih i a b k i1 i2 i3 (concreteAll_get ha.2 i1) (concreteAll_get hb.2 i2) (.inr rfl))
    refine ⟨.eqTuple as.length :: ns, F + 1, ?_, ?_⟩
    · intro fuel hfu
      obtain ⟨f, rfl⟩ : ∃ f, fuel = f + 1 := ⟨fuel - 1, by omega⟩
      have hdd : (if d.symbolic = true then Ty.prim .bool else d) = .prim .bool := by
        rcases hd with rfl | rfl <;> simp [Ty.symbolic]
      simp only [resolveOp]
      rw [C.tup hr as bs ha hb, Res.bind_ok]
      simp only [OEntry.ret, hdd]
      rw [if_neg (by omega), e1 f (by omega), Res.bind_ok, Res.pure_eq]
    · intro fuel hfu rest
      obtain ⟨f, rfl⟩ : ∃ f, fuel = f + 1 := ⟨fuel - 1, by omega⟩
      exact instO_node (e2 f (by omega) rest)
  | stru names as bs ks hr h1 h2 h8 hf ih =>
    obtain ⟨ns, F, e1, e2⟩ := oFields (same := same) (ret := ret) (tbl := tbl) as bs ks h1 h2
      (fun i a b k i1 i2 i3 => ih i a b k i1 i2 i3 (concreteAll_get ha.2.2 i1) (concreteAll_get hb.2.2 i2) (.inr rfl))
    refine ⟨.eqStruct as.length :: ns, F + 1, ?_, ?_⟩
    · intro fuel hfu
      obtain ⟨f, rfl⟩ : ∃ f, fuel = f + 1 := ⟨fuel - 1, by omega⟩
      have hdd : (if d.symbolic = true then Ty.prim .bool else d) = .prim .bool := by
        rcases hd with rfl | rfl <;> simp [Ty.symbolic]
      simp only [resolveOp]
      rw [C.stru hr names as names bs ha hb, Res.bind_ok]
      simp only [OEntry.ret, hdd]
      rw [if_neg (by omega), e1 f (by omega), Res.bind_ok, Res.pure_eq]
    · intro fuel hfu rest
      obtain ⟨f, rfl⟩ : ∃ f, fuel = f + 1 := ⟨fuel - 1, by omega⟩
      exact instO_node (e2 f (by omega) rest)

theorem eqK_notDim {nums : BTy → BTy → Prop} {strs recs : Prop} {k : OTree} {a b : Ty} (h : EqK nums strs recs k a b) :
    ¬ IsDim a ∧ ¬ IsDim b := by
  cases h <;> exact ⟨fun h => h, fun h => h⟩

theorem hasNa_not_dim {t : Ty} (h : HasNa t) : ¬ IsDim t := by
  intro hd
  have := hasNa_any h
  cases t <;> first | exact hd.elim | (simp [naTypes, tyEq] at this)

/-! ### Calls -/

theorem anyVariadic : (Ty.kind .any).variadicDims = true := rfl

/-- One dimension. -/
theorem dims2_core {f : Ty → Ty → Ty → Res (List ONode × Ty)} {k : Nat} {a b ea eb : Ty} {c : ElwClass} {ba bb : Bool}
    {sa sb s : Int} {ns : List ONode} {r : Ty} (hc : elwClass (.kind .any) a b = .ok c)
    (ia : argInfo (k + 1) a = .ok (ba, sa, ea)) (ib : argInfo (k + 1) b = .ok (bb, sb, eb))
    (hs : resSize (ba, sa, ea) (bb, sb, eb) = s)
    (hcl : (sizeClash s (ba, sa, ea) || sizeClash s (bb, sb, eb)) = false)
    (h : resolveDims2 f k (.kind .any) ea eb = .ok (ns, r)) :
    resolveDims2 f (k + 1) (.kind .any) a b = .ok (.elw c ba bb (isVarId a) (isVarId b) :: ns, withRet c s r) := by
  rw [resolveDims2, hc, Res.bind_ok, ia, Res.bind_ok, ib, Res.bind_ok, if_pos anyVariadic, Res.bind_ok]
  simp only [hs, hcl, Bool.false_eq_true, if_false]
  rw [h, Res.bind_ok, Res.pure_eq]

/-- One dimension of two arrays of the same number of dimensions. -/
theorem dims2_step {f : Ty → Ty → Ty → Res (List ONode × Ty)} {a b ea eb : Ty} {na nb : Option Int} {c : ElwClass}
    {g : Ty → Ty} {ns : List ONode} {r : Ty} (ha : DimOf a na ea) (hb : DimOf b nb eb) (hn : ea.ndim = eb.ndim)
    (hp : ∀ n, na = some n → 0 ≤ n) (hq : ∀ n, nb = some n → 0 ≤ n)
    (hc : DimsOp na nb c g) (h : resolveDims2 f (max ea.ndim eb.ndim) (.kind .any) ea eb = .ok (ns, r)) :
    resolveDims2 f (max a.ndim b.ndim) (.kind .any) a b =
      .ok (.elw c (na == some 1) (nb == some 1) na.isNone nb.isNone :: ns, g r) := by
  have e : max a.ndim b.ndim = max ea.ndim eb.ndim + 1 := by rw [dimOf_ndim ha, dimOf_ndim hb]; omega
  have hk : ∀ {t et : Ty} {n : Option Int}, DimOf t n et → et.ndim = ea.ndim →
      argInfo (max ea.ndim eb.ndim + 1) t = .ok (n == some 1, n.getD (-1), et) := by
    intro t et n ht hnd
    unfold argInfo
    rw [if_neg (by rw [dimOf_ndim ht]; omega)]
    cases ht with
    | fixed n el => simp [dimSizeOf]
    | var el => simp [dimSizeOf]
  have va : na.isNone = isVarId a := by cases ha <;> rfl
  have vb : nb.isNone = isVarId b := by cases hb <;> rfl
  rw [e, va, vb]
  have key : ∀ s, elwClass (.kind .any) a b = .ok c →
      resSize (na == some 1, na.getD (-1), ea) (nb == some 1, nb.getD (-1), eb) = s →
      (sizeClash s (na == some 1, na.getD (-1), ea) || sizeClash s (nb == some 1, nb.getD (-1), eb)) = false →
      withRet c s r = g r → _ := fun s h1 h2 h3 h4 =>
    (dims2_core h1 (hk ha rfl) (hk hb hn.symm) h2 h3 h).trans (by rw [h4])
  have nm : ∀ n : Int, 0 ≤ n → n ≠ -1 := fun n h => by omega
  cases hc with
  | same n =>
    cases ha; cases hb
    have h0 := nm n (hp n rfl)
    refine key n (by simp [elwClass, isVarId, anyVariadic]) ?_ (by simp [sizeClash]) rfl
    by_cases h1 : n = 1
    · subst h1; rfl
    · simp [resSize, h1, h0]
  | left m =>
    cases ha; cases hb
    have h0 := nm m (hq m rfl)
    refine key m (by simp [elwClass, isVarId, anyVariadic]) ?_ (by simp [sizeClash]) rfl
    by_cases h1 : m = 1
    · subst h1; rfl
    · simp [resSize, h1, h0]
  | right n =>
    cases ha; cases hb
    have h0 := nm n (hp n rfl)
    refine key n (by simp [elwClass, isVarId, anyVariadic]) ?_ (by simp [sizeClash]) rfl
    by_cases h1 : n = 1
    · subst h1; rfl
    · simp [resSize, h1, h0]
  | varVar =>
    cases ha; cases hb
    exact key 1 (by simp [elwClass, isVarId, varOrOne, anyVariadic]) (by simp [resSize]) (by simp [sizeClash]) rfl
  | varOne =>
    cases ha; cases hb
    exact key 1 (by simp [elwClass, isVarId, varOrOne, anyVariadic]) (by simp [resSize]) (by simp [sizeClash]) rfl
  | oneVar =>
    cases ha; cases hb
    exact key 1 (by simp [elwClass, isVarId, varOrOne, anyVariadic]) (by simp [resSize]) (by simp [sizeClash]) rfl
  | varFixed m hm =>
    cases ha; cases hb
    have h0 := nm m (hq m rfl)
    exact key m (by simp [elwClass, isVarId, varOrOne, anyVariadic, hm, otherDim]) (by simp [resSize, hm, h0])
      (by simp [sizeClash]) (by simp [withRet, hm])
  | fixedVar n hm =>
    cases ha; cases hb
    have h0 := nm n (hp n rfl)
    exact key n (by simp [elwClass, isVarId, varOrOne, anyVariadic, hm, otherDim]) (by simp [resSize, hm, h0])
      (by simp [sizeClash]) (by simp [withRet, hm])

theorem isVarId_false {b : Ty} (h : ∀ el, b ≠ .varDim el) : isVarId b = false := by
  cases b <;> first | rfl | exact absurd rfl (h _)

theorem repeatR_step {f : Ty → Ty → Ty → Res (List ONode × Ty)} {ea b : Ty} {n : Int} {ns : List ONode} {r : Ty}
    (h0 : 0 ≤ n) (hn : b.ndim ≤ ea.ndim) (hv : ∀ el, b ≠ .varDim el)
    (h : resolveDims2 f (max ea.ndim b.ndim) (.kind .any) ea b = .ok (ns, r)) :
    resolveDims2 f (max (Ty.fixedDim n ea).ndim b.ndim) (.kind .any) (.fixedDim n ea) b =
      .ok (.elw .ff (n == 1) true false false :: ns, .fixedDim n r) := by
  have ed : (Ty.fixedDim n ea).ndim = ea.ndim + 1 := rfl
  have e : max (Ty.fixedDim n ea).ndim b.ndim = max ea.ndim b.ndim + 1 := by rw [ed]; omega
  rw [e]
  have hc1 : elwClass (Ty.kind .any) (.fixedDim n ea) b = .ok .ff := by
    simp [elwClass, isVarId_false hv, anyVariadic, show isVarId (.fixedDim n ea) = false from rfl]
  have i1 : argInfo (max ea.ndim b.ndim + 1) (.fixedDim n ea) = .ok (n == 1, n, ea) := by
    unfold argInfo
    rw [if_neg (by rw [ed]; omega)]
    rfl
  have i2 : argInfo (max ea.ndim b.ndim + 1) b = .ok (true, 1, b) := by
    unfold argInfo
    rw [if_pos (by omega)]
  have hrs : resSize (n == 1, n, ea) (true, 1, b) = n := by
    by_cases h1 : n = 1
    · subst h1; rfl
    · have hm : n ≠ -1 := by omega
      simp [resSize, h1, hm]
  refine (dims2_core hc1 i1 i2 hrs (by simp [sizeClash]) h).trans ?_
  rw [isVarId_false hv]; rfl

theorem repeatL_step {f : Ty → Ty → Ty → Res (List ONode × Ty)} {a eb : Ty} {n : Int} {ns : List ONode} {r : Ty}
    (h0 : 0 ≤ n) (hn : a.ndim ≤ eb.ndim) (hv : ∀ el, a ≠ .varDim el)
    (h : resolveDims2 f (max a.ndim eb.ndim) (.kind .any) a eb = .ok (ns, r)) :
    resolveDims2 f (max a.ndim (Ty.fixedDim n eb).ndim) (.kind .any) a (.fixedDim n eb) =
      .ok (.elw .ff true (n == 1) false false :: ns, .fixedDim n r) := by
  have ed : (Ty.fixedDim n eb).ndim = eb.ndim + 1 := rfl
  have e : max a.ndim (Ty.fixedDim n eb).ndim = max a.ndim eb.ndim + 1 := by rw [ed]; omega
  rw [e]
  have hc1 : elwClass (Ty.kind .any) a (.fixedDim n eb) = .ok .ff := by
    simp [elwClass, isVarId_false hv, anyVariadic, show isVarId (.fixedDim n eb) = false from rfl]
  have i1 : argInfo (max a.ndim eb.ndim + 1) (.fixedDim n eb) = .ok (n == 1, n, eb) := by
    unfold argInfo
    rw [if_neg (by rw [ed]; omega)]
    rfl
  have i2 : argInfo (max a.ndim eb.ndim + 1) a = .ok (true, 1, a) := by
    unfold argInfo
    rw [if_pos (by omega)]
  have hrs : resSize (true, 1, a) (n == 1, n, eb) = n := by
    by_cases h1 : n = 1
    · subst h1; rfl
    · have hm : n ≠ -1 := by omega
      simp [resSize, h1, hm]
  refine (dims2_core hc1 i2 i1 hrs (by simp [sizeClash]) h).trans ?_
  rw [isVarId_false hv]; rfl

theorem dimOf_nonneg {a ea : Ty} {na : Option Int} (h : DimOf a na ea) (ha : Concrete a) : ∀ n, na = some n → 0 ≤ n := by
  intro n e
  cases h with
  | fixed m el => cases e; exact ha.1
  | var el => cases e

theorem opOK_builds {same : List Nat → Bool} {ret : BTy → BTy → BTy} {tbl : List (Option OEntry)}
    {nums : BTy → BTy → Prop} {strs recs : Prop} (C : Chooses same tbl nums strs recs)
    (hret : recs → ∀ x y, nums x y → ret x y = .bool) {k : OTree} {r a b : Ty} (h : OpOK ret nums strs recs k r a b)
    (ha : Concrete a) (hb : Concrete b) :
    OBuilds (fun fuel => resolveDims2 (resolveOp same ret tbl fuel 2) (max a.ndim b.ndim) (.kind .any) a b) k r := by
  have scal : ∀ {a b : Ty} {k : OTree} {r : Ty}, a.ndim = 0 → b.ndim = 0 →
      OBuilds (fun fuel => resolveOp same ret tbl fuel 2 (.kind .any) a b) k r →
      OBuilds (fun fuel => resolveDims2 (resolveOp same ret tbl fuel 2) (max a.ndim b.ndim) (.kind .any) a b) k r := by
    intro a b k r h1 h2 h
    rw [h1, h2]; exact h
  have unscal : ∀ {a b : Ty} {k : OTree} {r : Ty}, a.ndim = 0 → b.ndim = 0 →
      OBuilds (fun fuel => resolveDims2 (resolveOp same ret tbl fuel 2) (max a.ndim b.ndim) (.kind .any) a b) k r →
      OBuilds (fun fuel => resolveOp same ret tbl fuel 2 (.kind .any) a b) k r := by
    intro a b k r h1 h2 h
    rw [h1, h2] at h; exact h
  have nd0 : ∀ {t : Ty}, Concrete t → ¬ IsDim t → t.ndim = 0 := fun ht hn => not_dim_ndim ht hn
  have optT : ∀ {t : Ty}, Concrete (.option t) → Concrete t := fun ht => ht.1
  have optD : ∀ {t : Ty}, ¬ IsDim (.option t) := fun h => h
  have anyS : (Ty.kind .any).symbolic = true := by simp [Ty.symbolic]
  have oaS : (Ty.option (.kind .any)).symbolic = true := by simp [Ty.symbolic]
  induction h with
  | num x y h =>
    refine scal rfl rfl ⟨[.kern x y], 1, ?_, ?_⟩
    · intro fuel hf
      obtain ⟨f, rfl⟩ : ∃ f, fuel = f + 1 := ⟨fuel - 1, by omega⟩
      simp only [resolveOp]
      rw [C.num x y h, Res.bind_ok]
      simp [anyS, OEntry.ret]
    · intro fuel hf rest
      obtain ⟨f, rfl⟩ : ∃ f, fuel = f + 1 := ⟨fuel - 1, by omega⟩
      exact instO_leaf rfl f rest
  | cmp k a b h _ =>
    obtain ⟨h1, h2⟩ := eqK_notDim h
    exact scal (nd0 ha h1) (nd0 hb h2) (eqK_builds C hret h ha hb (.inl rfl))
  | na0 k r a b h hd ho hna hnr ih =>
    obtain ⟨ns, F, e1, e2⟩ := unscal (nd0 (optT ha) (hasNa_not_dim hna)) (nd0 hb hd) (ih (optT ha) hb)
    refine scal (nd0 ha optD) (nd0 hb hd) ⟨.forwardNa true false :: (ns ++ [.isNa a, .assignNa r]), F + 2, ?_, ?_⟩
    · intro fuel hf
      obtain ⟨f, rfl⟩ : ∃ f, fuel = f + 1 := ⟨fuel - 1, by omega⟩
      have e1 : resolveOp same ret tbl f 2 (.kind .any) a b = _ := e1 f (by omega)
      simp only [resolveOp]
      rw [C.na0 a b ha hb hd ho, Res.bind_ok]
      simp only [OEntry.ret, anyS, oaS, if_true]
      rw [e1, Res.bind_ok, isNa_ok hna, Res.bind_ok, assignNa_ok hnr, Res.bind_ok, Res.pure_eq]
    · intro fuel hf rest
      obtain ⟨f, rfl⟩ : ∃ f, fuel = f + 2 := ⟨fuel - 2, by omega⟩
      refine instO_node ?_
      show instOKids (instO (f + 1)) 3 _ = _
      rw [List.append_assoc]
      refine kidsO_cons (e2 (f + 1) (by omega) _) ?_
      refine kidsO_cons (ns := [.isNa a]) (rest := .assignNa r :: rest) (instO_leaf rfl f _) ?_
      exact kidsO_cons (ns := [.assignNa r]) (rest := rest) (instO_leaf rfl f _) rfl
  | na1 k r a b h hd ho hnb hnr ih =>
    obtain ⟨ns, F, e1, e2⟩ := unscal (nd0 ha hd) (nd0 (optT hb) (hasNa_not_dim hnb)) (ih ha (optT hb))
    refine scal (nd0 ha hd) (nd0 hb optD) ⟨.forwardNa false true :: (ns ++ [.isNa b, .assignNa r]), F + 2, ?_, ?_⟩
    · intro fuel hf
      obtain ⟨f, rfl⟩ : ∃ f, fuel = f + 1 := ⟨fuel - 1, by omega⟩
      have e1 : resolveOp same ret tbl f 2 (.kind .any) a b = _ := e1 f (by omega)
      simp only [resolveOp]
      rw [C.na1 a b ha hb hd ho, Res.bind_ok]
      simp only [OEntry.ret, anyS, oaS, if_true]
      rw [e1, Res.bind_ok, isNa_ok hnb, Res.bind_ok, assignNa_ok hnr, Res.bind_ok, Res.pure_eq]
    · intro fuel hf rest
      obtain ⟨f, rfl⟩ : ∃ f, fuel = f + 2 := ⟨fuel - 2, by omega⟩
      refine instO_node ?_
      show instOKids (instO (f + 1)) 3 _ = _
      rw [List.append_assoc]
      refine kidsO_cons (e2 (f + 1) (by omega) _) ?_
      refine kidsO_cons (ns := [.isNa b]) (rest := .assignNa r :: rest) (instO_leaf rfl f _) ?_
      exact kidsO_cons (ns := [.assignNa r]) (rest := rest) (instO_leaf rfl f _) rfl
  | na01 k r a b h hna hnb hnr ih =>
    obtain ⟨ns, F, e1, e2⟩ := unscal (nd0 (optT ha) (hasNa_not_dim hna)) (nd0 (optT hb) (hasNa_not_dim hnb)) (ih (optT ha) (optT hb))
    refine scal (nd0 ha optD) (nd0 hb optD) ⟨.forwardNa true true :: (ns ++ [.isNa a, .isNa b, .assignNa r]), F + 2, ?_, ?_⟩
    · intro fuel hf
      obtain ⟨f, rfl⟩ : ∃ f, fuel = f + 1 := ⟨fuel - 1, by omega⟩
      have e1 : resolveOp same ret tbl f 2 (.kind .any) a b = _ := e1 f (by omega)
      simp only [resolveOp]
      rw [C.na01 a b ha hb, Res.bind_ok]
      simp only [OEntry.ret, anyS, oaS, if_true]
      rw [e1, Res.bind_ok, isNa_ok hna, Res.bind_ok, isNa_ok hnb, Res.bind_ok, assignNa_ok hnr, Res.bind_ok, Res.pure_eq]
    · intro fuel hf rest
      obtain ⟨f, rfl⟩ : ∃ f, fuel = f + 2 := ⟨fuel - 2, by omega⟩
      refine instO_node ?_
      show instOKids (instO (f + 1)) 4 _ = _
      rw [List.append_assoc]
      refine kidsO_cons (e2 (f + 1) (by omega) _) ?_
      refine kidsO_cons (ns := [.isNa a]) (rest := .isNa b :: .assignNa r :: rest) (instO_leaf rfl f _) ?_
      refine kidsO_cons (ns := [.isNa b]) (rest := .assignNa r :: rest) (instO_leaf rfl f _) ?_
      exact kidsO_cons (ns := [.assignNa r]) (rest := rest) (instO_leaf rfl f _) rfl
  | dims k r a b ea eb na nb c g da db hn hc h ih =>
    obtain ⟨ns, F, e1, e2⟩ := ih (dimOf_concrete da ha) (dimOf_concrete db hb)
    refine ⟨_ :: ns, F + 1, fun fuel hf => dims2_step da db hn (dimOf_nonneg da ha) (dimOf_nonneg db hb) hc (e1 fuel (by omega)), ?_⟩
    intro fuel hf rest
    obtain ⟨f, rfl⟩ : ∃ f, fuel = f + 1 := ⟨fuel - 1, by omega⟩
    exact instO_node (kidsO_cons (e2 f (by omega) rest) rfl)
  | repeatR k r ea b n hn hv h ih =>
    obtain ⟨ns, F, e1, e2⟩ := ih ha.2 hb
    refine ⟨_ :: ns, F + 1, fun fuel hf => repeatR_step ha.1 hn hv (e1 fuel (by omega)), ?_⟩
    intro fuel hf rest
    obtain ⟨f, rfl⟩ : ∃ f, fuel = f + 1 := ⟨fuel - 1, by omega⟩
    exact instO_node (kidsO_cons (e2 f (by omega) rest) rfl)
  | repeatL k r a eb n hn hv h ih =>
    obtain ⟨ns, F, e1, e2⟩ := ih ha hb.2
    refine ⟨_ :: ns, F + 1, fun fuel hf => repeatL_step hb.1 hn hv (e1 fuel (by omega)), ?_⟩
    intro fuel hf rest
    obtain ⟨f, rfl⟩ : ∃ f, fuel = f + 1 := ⟨fuel - 1, by omega⟩
    exact instO_node (kidsO_cons (e2 f (by omega) rest) rfl)

theorem resolveOp_elw {same : List Nat → Bool} {ret : BTy → BTy → BTy} {tbl : List (Option OEntry)} {f : Nat} {a b : Ty}
    {e : OEntry} (he : e.isElw = true) (hd : dispCall (tyMatch same) OEntry.sig [a, b] tbl = .ok e)
    (h0 : max a.ndim b.ndim ≠ 0) :
    resolveOp same ret tbl (f + 1) 2 (.kind .any) a b =
      resolveDims2 (resolveOp same ret tbl f 2) (max a.ndim b.ndim) (.kind .any) a b := by
  have anyS : (Ty.kind .any).symbolic = true := by simp [Ty.symbolic]
  simp only [resolveOp]
  rw [hd, Res.bind_ok]
  have : resolveElw2 (resolveOp same ret tbl f 2) 2 (.kind .any) a b =
      resolveDims2 (resolveOp same ret tbl f 2) (max a.ndim b.ndim) (.kind .any) a b := by
    unfold resolveElw2
    simp only []
    rw [if_neg (by omega : ¬ (2 : Nat) = 1), if_pos anyVariadic, if_neg h0, if_neg (by omega : ¬ (2 : Nat) = 1)]
  cases e <;> first | exact Bool.noConfusion he | (simp only [OEntry.ret, anyS, if_true]; exact this)

/-- A call of an operator whose table chooses as it should. -/
theorem op_call {same : List Nat → Bool} {ret : BTy → BTy → BTy} {tbl : List (Option OEntry)}
    {nums : BTy → BTy → Prop} {strs recs : Prop} (C : Chooses same tbl nums strs recs)
    (hret : recs → ∀ x y, nums x y → ret x y = .bool) {k : OTree} {r a b : Ty} (h : OpOK ret nums strs recs k r a b)
    (ha : Concrete a) (hb : Concrete b) : ∃ F, ∀ fuel, F ≤ fuel → opCall same ret tbl fuel a b = .ok (k, r) := by
  obtain ⟨ns, F, e1, e2⟩ := opOK_builds C hret h ha hb
  have fin : ∀ fuel, F ≤ fuel → resolveOp same ret tbl fuel 2 (.kind .any) a b = .ok (ns, r) →
      opCall same ret tbl fuel a b = .ok (k, r) := by
    intro fuel hf e
    unfold opCall
    rw [e, Res.bind_ok]
    have := e2 fuel hf []
    rw [List.append_nil] at this
    rw [this, Res.bind_ok, Res.pure_eq]
  by_cases hd : IsDim a ∨ IsDim b
  · obtain ⟨e, he, hc⟩ := C.elw a b ha hb hd
    refine ⟨F + 1, fun fuel hf => fin fuel (by omega) ?_⟩
    obtain ⟨f, rfl⟩ : ∃ f, fuel = f + 1 := ⟨fuel - 1, by omega⟩
    rw [resolveOp_elw he hc]
    · exact e1 f (by omega)
    · rcases hd with hd | hd
      · have : a.ndim ≠ 0 := fun h => (concrete_ndim ha).1 h hd
        omega
      · have : b.ndim ≠ 0 := fun h => (concrete_ndim hb).1 h hd
        omega
  · simp only [not_or] at hd
    refine ⟨F, fun fuel hf => fin fuel hf ?_⟩
    have := e1 fuel hf
    simp only [not_dim_ndim ha hd.1, not_dim_ndim hb hd.2] at this
    exact this

/-- Arithmetic and bitwise operators, defined for the pairs of built-in types `ps` with the result type `ret`. -/
theorem arith_call_partial (same : List Nat → Bool) (ret : BTy → BTy → BTy) {ps : List (BTy × BTy)} (h0 : ps ≠ []) :
    ∃ tbl, makeArith same ps = .ok tbl ∧ ∀ {k : OTree} {r a b : Ty},
      OpOK ret (fun x y => (x, y) ∈ ps) False False k r a b → Concrete a → Concrete b →
      ∃ F, ∀ fuel, F ≤ fuel → opCall same ret tbl fuel a b = .ok (k, r) :=
  ⟨_, arith_table same h0, fun h ha hb => op_call (arith_chooses same ps) (fun h => h.elim) h ha hb⟩

/-- `<`, `<=`, `>=`, `>`. -/
theorem less_call_partial (same : List Nat → Bool) :
    ∃ tbl, makeLess same = .ok tbl ∧ ∀ {k : OTree} {r a b : Ty},
      OpOK (fun _ _ => .bool) (CmpPair False) True False k r a b → Concrete a → Concrete b →
      ∃ F, ∀ fuel, F ≤ fuel → opCall same (fun _ _ => .bool) tbl fuel a b = .ok (k, r) := by
  obtain ⟨tbl, e, _, C⟩ := less_table same
  exact ⟨_, e, fun h ha hb => op_call C (fun h => h.elim) h ha hb⟩

/-- `==`, `!=`. -/
theorem eq_call_partial (same : List Nat → Bool) :
    ∃ tbl, makeEqual same = .ok tbl ∧ ∀ {k : OTree} {r a b : Ty},
      OpOK (fun _ _ => .bool) (CmpPair True) True True k r a b → Concrete a → Concrete b →
      ∃ F, ∀ fuel, F ≤ fuel → opCall same (fun _ _ => .bool) tbl fuel a b = .ok (k, r) := by
  obtain ⟨tbl, e, _, C⟩ := eq_table same
  exact ⟨_, e, fun h ha hb => op_call C (fun _ _ _ _ => rfl) h ha hb⟩

end Dynd
