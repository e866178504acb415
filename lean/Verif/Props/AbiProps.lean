/-
The C interface to types (C109): what constructors build, what can be read back, and what reference counting does.
-/
import Verif.Model.Abi

namespace Dynd

/-! ### Specification -/

/-- A type as a tree; a builtin type is told apart by its object. -/
inductive ATree where
  | prim (obj size align : Nat)
  | dense (t : ATree)
  | sparse (t : ATree)
  | tuple (ts : List ATree)

/-- The types a type is made from. -/
def ATree.params : ATree → List ATree
  | .prim _ _ _ => []
  | .dense t => [t]
  | .sparse t => [t]
  | .tuple ts => ts

mutual
/-- The alignments of the builtin types inside. -/
def ATree.leafAligns : ATree → List Nat
  | .prim _ _ a => [a]
  | .dense t => t.leafAligns
  | .sparse t => t.leafAligns
  | .tuple ts => leafAlignsAll ts
/-- of all -/
def leafAlignsAll : List ATree → List Nat
  | [] => []
  | t :: ts => t.leafAligns ++ leafAlignsAll ts
end

/-- The block `b` of memory describes the type `t`. -/
inductive AbiRep (m : AbiMem) : Nat → ATree → Prop
  | prim (b s a : Nat) : abiRead m b 4 = .ok (.vtable .primitive) → abiRead m b 5 = .ok (.ctor .primitive) →
      abiRead m b 6 = .ok (.num s) → abiRead m b 7 = .ok (.num a) → AbiRep m b (.prim b s a)
  | dense (b p : Nat) (t : ATree) : abiRead m b 4 = .ok (.vtable .dense) → abiRead m b 5 = .ok (.ctor .dense) →
      abiRead m b 6 = .ok (.ptr p 0) → AbiRep m p t → AbiRep m b (.dense t)
  | sparse (b p : Nat) (t : ATree) : abiRead m b 4 = .ok (.vtable .sparse) → abiRead m b 5 = .ok (.ctor .sparse) →
      abiRead m b 6 = .ok (.ptr p 0) → AbiRep m p t → AbiRep m b (.sparse t)
  | tuple (b : Nat) (ps : List Nat) (ts : List ATree) : abiRead m b 4 = .ok (.vtable .tuple) → abiRead m b 5 = .ok (.ctor .tuple) →
      abiRead m b 6 = .ok (.num ps.length) → ps.length = ts.length →
      (∀ (i p : Nat), ps[i]? = some p → abiRead m b (7 + i) = .ok (.ptr p 0)) →
      (∀ (i p : Nat) (t : ATree), ps[i]? = some p → ts[i]? = some t → AbiRep m p t) → AbiRep m b (.tuple ts)

/-- The types made so far, with the number of references to each. -/
abbrev ASpec := List (ATree × Nat)

/-- The type a constructor makes. -/
def specMake : AbiKind → List ATree → Option ATree
  | .dense, [t] => some (.dense t)
  | .sparse, [t] => some (.sparse t)
  | .tuple, ts => some (.tuple ts)
  | _, _ => none

/-- One call, by the documentation; `none` is a call outside of it (dropping the last reference is treated apart). -/
def specStep (s : ASpec) : AbiOp → Option ASpec
  | .make k ps => do
    let ts ← ps.mapM fun i => (s[i]?).map Prod.fst
    let t ← specMake k ts
    pure (s ++ [(t, 1)])
  | .incref i => do
    let x ← s[i]?
    pure (s.set i (x.1, x.2 + 1))
  | .decref i => do
    let x ← s[i]?
    if 2 ≤ x.2 then pure (s.set i (x.1, x.2 - 1)) else none

/-- A history. -/
def specRun (s : ASpec) : List AbiOp → Option ASpec
  | [] => some s
  | op :: ops => do
    let s ← specStep s op
    specRun s ops

/-- the builtin types -/
def specInit : ASpec := abiBuiltins.zipIdx.map fun x => (.prim x.2 x.1.1 x.1.2, 1)

/-! ### Memory -/

theorem abiRead_old {m : AbiMem} {b : Nat} (blk : AbiBlock) (h : b < m.length) (off : Nat) : abiRead (m ++ [blk]) b off = abiRead m b off := by
  rw [abiRead, abiRead, List.getElem?_append_left h]

theorem abiRead_lt {m : AbiMem} {b off : Nat} {w : AbiWord} (h : abiRead m b off = .ok w) : b < m.length := by
  rw [abiRead] at h
  cases hb : m[b]? with
  | none => rw [hb] at h; cases h
  | some blk => exact (List.getElem?_eq_some_iff.1 hb).1

theorem abiRead_new (m : AbiMem) (ws : List AbiWord) (hp : Bool) (off : Nat) :
    abiRead (m ++ [⟨ws, hp, false⟩]) m.length off = match ws[off]? with | none => .ub | some w => .ok w := by
  rw [abiRead, List.getElem?_append_right (Nat.le_refl _), Nat.sub_self]
  rfl

theorem abiWrite_new (m : AbiMem) (ws : List AbiWord) (hp : Bool) (off : Nat) (w : AbiWord) (h : off < ws.length) :
    abiWrite (m ++ [⟨ws, hp, false⟩]) m.length off w = .ok (m ++ [⟨ws.set off w, hp, false⟩]) := by
  rw [abiWrite, List.getElem?_append_right (Nat.le_refl _), Nat.sub_self]
  simp [h]

theorem abiWrite_read {m m' : AbiMem} {b off : Nat} {w : AbiWord} (h : abiWrite m b off w = .ok m') (b' off' : Nat) :
    abiRead m' b' off' = if b' = b ∧ off' = off then .ok w else abiRead m b' off' := by
  rw [abiWrite] at h
  cases hb : m[b]? with
  | none => rw [hb] at h; cases h
  | some blk =>
    rw [hb] at h
    simp only [] at h
    split at h
    · cases h
    · rename_i hf
      split at h
      · rename_i hl
        cases h
        have hbl := (List.getElem?_eq_some_iff.1 hb).1
        simp only [abiRead]
        by_cases hbb : b' = b
        · subst hbb
          rw [List.getElem?_set_self hbl, hb]
          simp only [hf, true_and]
          by_cases ho : off' = off
          · subst ho; simp [hl]
          · rw [if_neg ho, List.getElem?_set_ne (Ne.symm ho)]
        · rw [List.getElem?_set_ne (Ne.symm hbb), if_neg (fun h => hbb h.1)]
      · cases h

theorem abiWrite_ok {m : AbiMem} {b off : Nat} {w0 : AbiWord} (h : abiRead m b off = .ok w0) (w : AbiWord) :
    ∃ m', abiWrite m b off w = .ok m' := by
  rw [abiRead] at h
  rw [abiWrite]
  cases hb : m[b]? with
  | none => rw [hb] at h; cases h
  | some blk =>
    rw [hb] at h
    simp only [] at h ⊢
    split at h
    · cases h
    · rename_i hf
      rw [if_neg hf]
      cases ho : blk.words[off]? with
      | none => rw [ho] at h; cases h
      | some w1 => rw [if_pos (List.getElem?_eq_some_iff.1 ho).1]; exact ⟨_, rfl⟩

/-- Everything but the reference count of existing types is kept. -/
def AbiKeeps (m m' : AbiMem) : Prop := ∀ b off w, 1 ≤ off → abiRead m b off = .ok w → abiRead m' b off = .ok w

theorem AbiRep.keeps {m m' : AbiMem} (hk : AbiKeeps m m') {b : Nat} {t : ATree} (h : AbiRep m b t) : AbiRep m' b t := by
  induction h with
  | prim b s a h1 h2 h3 h4 => exact .prim b s a (hk _ _ _ (by omega) h1) (hk _ _ _ (by omega) h2) (hk _ _ _ (by omega) h3) (hk _ _ _ (by omega) h4)
  | dense b p t h1 h2 h3 _ ih => exact .dense b p t (hk _ _ _ (by omega) h1) (hk _ _ _ (by omega) h2) (hk _ _ _ (by omega) h3) ih
  | sparse b p t h1 h2 h3 _ ih => exact .sparse b p t (hk _ _ _ (by omega) h1) (hk _ _ _ (by omega) h2) (hk _ _ _ (by omega) h3) ih
  | tuple b ps ts h1 h2 h3 h4 h5 _ ih =>
    exact .tuple b ps ts (hk _ _ _ (by omega) h1) (hk _ _ _ (by omega) h2) (hk _ _ _ (by omega) h3) h4
      (fun i p hp => hk _ _ _ (by omega) (h5 i p hp)) ih

theorem AbiRep.lt {m : AbiMem} {b : Nat} {t : ATree} (h : AbiRep m b t) : b < m.length := by
  cases h with
  | prim b s a h1 => exact abiRead_lt h1
  | dense b p t h1 => exact abiRead_lt h1
  | sparse b p t h1 => exact abiRead_lt h1
  | tuple b ps ts h1 => exact abiRead_lt h1

theorem keeps_append (m : AbiMem) (blk : AbiBlock) : AbiKeeps m (m ++ [blk]) := by
  intro b off w _ h
  rw [abiRead_old blk (abiRead_lt h)]; exact h

theorem keeps_write0 {m m' : AbiMem} {b : Nat} {w : AbiWord} (h : abiWrite m b 0 w = .ok m') : AbiKeeps m m' := by
  intro b' off w' ho hr
  rw [abiWrite_read h, if_neg (by omega)]; exact hr

/-! ### Constructors -/

theorem mallocBuffer_new (m : AbiMem) (n : Nat) :
    mallocBuffer true m (7 + n) = .ok (m ++ [⟨[.fn .mallocd, .ptr m.length 0, .num (8 * (7 + n)), .undef, .undef, .undef, .undef]
      ++ List.replicate n .undef, true, false⟩], m.length) := by
  have hr : List.replicate (7 + n) AbiWord.undef = [.undef, .undef, .undef, .undef, .undef, .undef, .undef] ++ List.replicate n .undef := by
    rw [← List.replicate_append_replicate]; rfl
  simp only [mallocBuffer, if_true, hr]
  rw [abiWrite_new _ _ _ _ _ (by simp), Res.bind_ok, abiWrite_new _ _ _ _ _ (by simp), Res.bind_ok, abiWrite_new _ _ _ _ _ (by simp)]
  rfl

theorem makeUnary_new (k : AbiKind) (m : AbiMem) (p : Nat) (ps : List Nat) :
    makeUnary k true m (p :: ps) = .ok (m ++ [⟨[.num 1, .ptr m.length 0, .num 56, .undef, .vtable k, .ctor k, .ptr p 0], true, false⟩], m.length) := by
  have h := mallocBuffer_new m 0
  simp only [Nat.add_zero, List.replicate_zero, List.append_nil] at h
  simp only [makeUnary]
  rw [h, Res.bind_ok]
  simp only []
  rw [abiWrite_new _ _ _ _ _ (by simp), Res.bind_ok, abiWrite_new _ _ _ _ _ (by simp), Res.bind_ok, abiWrite_new _ _ _ _ _ (by simp),
    Res.bind_ok, abiWrite_new _ _ _ _ _ (by simp)]
  rfl

theorem copyParams_new (m : AbiMem) (ps : List Nat) : ∀ (pre : List AbiWord),
    copyParams (m ++ [⟨pre ++ List.replicate ps.length .undef, true, false⟩]) m.length pre.length ps =
      .ok (m ++ [⟨pre ++ ps.map (fun p => .ptr p 0), true, false⟩]) := by
  induction ps with
  | nil => intro pre; simp [copyParams]
  | cons p ps ih =>
    intro pre
    rw [copyParams, abiWrite_new _ _ _ _ _ (by simp), Res.bind_ok]
    have e : (pre ++ List.replicate (p :: ps).length AbiWord.undef).set pre.length (.ptr p 0)
        = (pre ++ [.ptr p 0]) ++ List.replicate ps.length .undef := by
      rw [List.length_cons, List.replicate_succ, List.set_append_right _ _ (Nat.le_refl _), Nat.sub_self]
      simp
    rw [e]
    have := ih (pre ++ [.ptr p 0])
    rw [List.length_append] at this
    simp only [List.length_cons, List.length_nil, Nat.zero_add] at this
    rw [this]
    simp

theorem makeTuple_new (m : AbiMem) (ps : List Nat) :
    makeTuple true m ps = .ok (m ++ [⟨[.num 1, .ptr m.length 0, .num (8 * (7 + ps.length)), .undef, .vtable .tuple, .ctor .tuple, .num ps.length]
      ++ ps.map (fun p => .ptr p 0), true, false⟩], m.length) := by
  simp only [makeTuple]
  rw [mallocBuffer_new, Res.bind_ok]
  simp only []
  rw [abiWrite_new _ _ _ _ _ (by simp), Res.bind_ok, abiWrite_new _ _ _ _ _ (by simp), Res.bind_ok, abiWrite_new _ _ _ _ _ (by simp),
    Res.bind_ok, abiWrite_new _ _ _ _ _ (by simp), Res.bind_ok]
  have h := copyParams_new m ps [.num 1, .ptr m.length 0, .num (8 * (7 + ps.length)), .undef, .vtable .tuple, .ctor .tuple, .num ps.length]
  simp only [List.length_cons, List.length_nil, Nat.zero_add, Nat.reduceAdd] at h
  refine Eq.trans (congrArg (fun r => Res.bind r _) (Eq.trans ?_ h)) rfl
  simp [List.set]

/-- C109: each constructor makes, from types that memory describes, a new type with exactly these parameters, with one
    reference, and leaves all other memory as it was. -/
theorem abi_make_exact (k : AbiKind) (m : AbiMem) (ps : List Nat) (ts : List ATree) (t : ATree) (hl : ps.length = ts.length)
    (hr : ∀ (i p : Nat) (t : ATree), ps[i]? = some p → ts[i]? = some t → AbiRep m p t) (hs : specMake k ts = some t) :
    ∃ m', abiMake k true m ps = .ok (m', m.length) ∧ AbiRep m' m.length t ∧ abiRead m' m.length 0 = .ok (.num 1) ∧
      abiRead m' m.length 1 = .ok (.ptr m.length 0) ∧ ∀ b off, b < m.length → abiRead m' b off = abiRead m b off := by
  have hun : ∀ (k : AbiKind) (t' : ATree) (p : Nat), ps = [p] → AbiRep m p t' →
      ∃ m', makeUnary k true m ps = .ok (m', m.length) ∧ AbiKeeps m m' ∧ abiRead m' m.length 4 = .ok (.vtable k) ∧
        abiRead m' m.length 5 = .ok (.ctor k) ∧ abiRead m' m.length 6 = .ok (.ptr p 0) ∧ abiRead m' m.length 0 = .ok (.num 1) ∧
        abiRead m' m.length 1 = .ok (.ptr m.length 0) ∧ ∀ b off, b < m.length → abiRead m' b off = abiRead m b off := by
    rintro k t' p rfl hp
    refine ⟨_, makeUnary_new k m p [], keeps_append _ _, ?_, ?_, ?_, ?_, ?_, fun b off hb => abiRead_old _ hb off⟩ <;>
      rw [abiRead_new] <;> rfl
  cases k with
  | primitive => simp [specMake] at hs
  | dense =>
    match ts, hs with
    | [t'], hs =>
      cases hs
      obtain ⟨p, rfl⟩ := List.length_eq_one_iff.1 hl
      have hp := hr 0 p t' rfl rfl
      obtain ⟨m', h1, hk, h2, h3, h4, h5, h6, h7⟩ := hun .dense t' p rfl hp
      exact ⟨m', h1, .dense _ p t' h2 h3 h4 (hp.keeps hk), h5, h6, h7⟩
  | sparse =>
    match ts, hs with
    | [t'], hs =>
      cases hs
      obtain ⟨p, rfl⟩ := List.length_eq_one_iff.1 hl
      have hp := hr 0 p t' rfl rfl
      obtain ⟨m', h1, hk, h2, h3, h4, h5, h6, h7⟩ := hun .sparse t' p rfl hp
      exact ⟨m', h1, .sparse _ p t' h2 h3 h4 (hp.keeps hk), h5, h6, h7⟩
  | tuple =>
    cases hs
    refine ⟨_, makeTuple_new m ps, ?_, ?_, ?_, fun b off hb => abiRead_old _ hb off⟩
    · refine .tuple _ ps ts ?_ ?_ ?_ hl ?_ (fun i p t' hp ht => (hr i p t' hp ht).keeps (keeps_append _ _))
      · rw [abiRead_new]; rfl
      · rw [abiRead_new]; rfl
      · rw [abiRead_new]; rfl
      · intro i p hp
        rw [abiRead_new, List.getElem?_append_right (by simp)]
        simp [hp]
    · rw [abiRead_new]; rfl
    · rw [abiRead_new]; rfl

/-! ### Reading types -/

theorem readPtrs_ok (m : AbiMem) (b : Nat) (ps : List Nat) : ∀ off, (∀ (i p : Nat), ps[i]? = some p → abiRead m b (off + i) = .ok (.ptr p 0)) →
    readPtrs m b off ps.length = .ok ps := by
  induction ps with
  | nil => intro off _; rfl
  | cons p ps ih =>
    intro off h
    rw [List.length_cons, readPtrs, show abiRead m b off = .ok (.ptr p 0) from h 0 p rfl, Res.bind_ok]
    simp only []
    rw [ih (off + 1) (fun i q hq => by rw [Nat.add_assoc, Nat.add_comm 1 i]; exact h (i + 1) q hq)]
    rfl

/-- C109: the parameters read back from a type are those it was made from, in order. -/
theorem abi_parameters_exact (m : AbiMem) (b : Nat) (t : ATree) (h : AbiRep m b t) :
    ∃ ps, abiParameters m b = .ok ps ∧ ps.length = t.params.length ∧
      ∀ (i p : Nat) (t' : ATree), ps[i]? = some p → t.params[i]? = some t' → AbiRep m p t' := by
  have hone : ∀ (p : Nat) (t' : ATree), abiRead m b 6 = .ok (.ptr p 0) → AbiRep m p t' → readPtrs m b 6 1 = .ok [p] ∧
      ∀ (i q : Nat) (u : ATree), [p][i]? = some q → [t'][i]? = some u → AbiRep m q u := by
    intro p t' hr hp
    refine ⟨?_, ?_⟩
    · simp only [readPtrs, hr, Res.bind_ok]; rfl
    · intro i q u hq hu
      cases i with
      | zero => simp only [List.getElem?_cons_zero, Option.some.injEq] at hq hu; subst hq; subst hu; exact hp
      | succ i => simp at hq
  cases h with
  | prim _ s a h1 h2 h3 h4 =>
    exact ⟨[], by rw [abiParameters, h1]; rfl, rfl, by intro i p t' hp; simp at hp⟩
  | dense _ p t h1 h2 h3 hp =>
    obtain ⟨e1, e2⟩ := hone p t h3 hp
    exact ⟨[p], by rw [abiParameters, h1]; exact e1, rfl, e2⟩
  | sparse _ p t h1 h2 h3 hp =>
    obtain ⟨e1, e2⟩ := hone p t h3 hp
    exact ⟨[p], by rw [abiParameters, h1]; exact e1, rfl, e2⟩
  | tuple _ ps ts h1 h2 h3 h4 h5 h6 =>
    refine ⟨ps, ?_, h4, h6⟩
    rw [abiParameters, h1, Res.bind_ok]
    simp only []
    rw [h3, Res.bind_ok]
    exact readPtrs_ok m b ps 7 h5

theorem maxAlignLoop_ok (al : Nat → Res Nat) (ps : List Nat) (as : List Nat) (hl : ps.length = as.length)
    (h : ∀ (i p a : Nat), ps[i]? = some p → as[i]? = some a → al p = .ok a) : ∀ acc, maxAlignLoop al acc ps = .ok (as.foldl max acc) := by
  induction ps generalizing as with
  | nil =>
    intro acc
    cases as with
    | nil => rfl
    | cons a as => simp at hl
  | cons p ps ih =>
    intro acc
    cases as with
    | nil => simp at hl
    | cons a as =>
      rw [maxAlignLoop, h 0 p a rfl rfl, Res.bind_ok, ih as (by simpa using hl) (fun i q b hq hb => h (i + 1) q b hq hb), List.foldl_cons]
      congr 2
      split <;> omega

mutual
/-- the alignment as the function computes it -/
def ATree.align : ATree → Nat
  | .prim _ _ a => a
  | .dense t => t.align
  | .sparse t => t.align
  | .tuple ts => (alignAll ts).foldl max 1
/-- of all -/
def alignAll : List ATree → List Nat
  | [] => []
  | t :: ts => t.align :: alignAll ts
end

theorem alignAll_map (ts : List ATree) : alignAll ts = ts.map ATree.align := by
  induction ts with
  | nil => rfl
  | cons t ts ih => rw [alignAll, ih]; rfl

theorem leafAlignsAll_flat (ts : List ATree) : leafAlignsAll ts = ts.flatMap ATree.leafAligns := by
  induction ts with
  | nil => rfl
  | cons t ts ih => rw [leafAlignsAll, ih]; rfl

/-- enough stack for each of finitely many calls is enough for all -/
theorem fuel_all {P : Nat → Nat → Prop} (n : Nat) (h : ∀ i, i < n → ∃ N, ∀ f, N ≤ f → P i f) : ∃ N, ∀ f, N ≤ f → ∀ i, i < n → P i f := by
  induction n with
  | zero => exact ⟨0, fun f _ i hi => absurd hi (by omega)⟩
  | succ n ih =>
    obtain ⟨N1, h1⟩ := ih fun i hi => h i (by omega)
    obtain ⟨N2, h2⟩ := h n (by omega)
    refine ⟨max N1 N2, fun f hf i hi => ?_⟩
    by_cases he : i = n
    · subst he; exact h2 f (by omega)
    · exact h1 f (by omega) i (by omega)

theorem abiAlignment_align {m : AbiMem} {b : Nat} {t : ATree} (h : AbiRep m b t) : ∃ N, ∀ f, N ≤ f → abiAlignment m f b = .ok t.align := by
  induction h with
  | prim b s a h1 h2 h3 h4 =>
    refine ⟨1, fun f hf => ?_⟩
    obtain ⟨g, rfl⟩ : ∃ g, f = g + 1 := ⟨f - 1, by omega⟩
    rw [abiAlignment, h1, Res.bind_ok]
    simp only []
    rw [h4]; rfl
  | dense b p t h1 h2 h3 _ ih =>
    obtain ⟨N, hN⟩ := ih
    refine ⟨N + 1, fun f hf => ?_⟩
    obtain ⟨g, rfl⟩ : ∃ g, f = g + 1 := ⟨f - 1, by omega⟩
    rw [abiAlignment, h1, Res.bind_ok]
    simp only []
    rw [h3, Res.bind_ok]
    simp only []
    rw [hN g (by omega), ATree.align]
  | sparse b p t h1 h2 h3 _ ih =>
    obtain ⟨N, hN⟩ := ih
    refine ⟨N + 1, fun f hf => ?_⟩
    obtain ⟨g, rfl⟩ : ∃ g, f = g + 1 := ⟨f - 1, by omega⟩
    rw [abiAlignment, h1, Res.bind_ok]
    simp only []
    rw [h3, Res.bind_ok]
    simp only []
    rw [hN g (by omega), ATree.align]
  | tuple b ps ts h1 h2 h3 h4 h5 h6 ih =>
    obtain ⟨N, hN⟩ := fuel_all (P := fun i f => ∀ p t, ps[i]? = some p → ts[i]? = some t → abiAlignment m f p = .ok t.align) ps.length
      (fun i hi => by
        obtain ⟨N, hN⟩ := ih i ps[i] ts[i] (List.getElem?_eq_getElem hi) (List.getElem?_eq_getElem (by omega))
        refine ⟨N, fun f hf p t hp ht => ?_⟩
        rw [List.getElem?_eq_getElem hi] at hp
        rw [List.getElem?_eq_getElem (by omega)] at ht
        cases hp; cases ht
        exact hN f hf)
    refine ⟨N + 1, fun f hf => ?_⟩
    obtain ⟨g, rfl⟩ : ∃ g, f = g + 1 := ⟨f - 1, by omega⟩
    have hpar : abiParameters m b = .ok ps := by
      rw [abiParameters, h1, Res.bind_ok]
      simp only []
      rw [h3, Res.bind_ok]
      exact readPtrs_ok m b ps 7 h5
    rw [abiAlignment, h1, Res.bind_ok]
    simp only []
    rw [hpar, Res.bind_ok, maxAlignLoop_ok (abiAlignment m g) ps (alignAll ts) (by rw [alignAll_map, List.length_map]; exact h4), ATree.align]
    intro i p a hp ha
    have hi := (List.getElem?_eq_some_iff.1 hp).1
    rw [alignAll_map, List.getElem?_map] at ha
    obtain ⟨t, ht, rfl⟩ := Option.map_eq_some_iff.1 ha
    exact hN g (by omega) i hi p t hp ht

theorem foldl_max_spec (as : List Nat) : ∀ acc, acc ≤ as.foldl max acc ∧ (∀ a ∈ as, a ≤ as.foldl max acc) ∧
    (as.foldl max acc = acc ∨ as.foldl max acc ∈ as) := by
  induction as with
  | nil => intro acc; simp
  | cons a as ih =>
    intro acc
    obtain ⟨h1, h2, h3⟩ := ih (max acc a)
    rw [List.foldl_cons]
    refine ⟨by omega, ?_, ?_⟩
    · intro x hx
      rcases List.mem_cons.1 hx with rfl | hx
      · omega
      · exact h2 x hx
    · rcases h3 with h3 | h3
      · rw [h3]
        by_cases ha : a ≤ acc
        · left; omega
        · right
          have : max acc a = a := by omega
          rw [this]; simp
      · right; simp [h3]

theorem align_spec : ∀ (t : ATree), (∀ a ∈ t.leafAligns, 1 ≤ a) →
    (∀ a ∈ t.leafAligns, a ≤ t.align) ∧ (t.align = 1 ∨ t.align ∈ t.leafAligns) ∧ 1 ≤ t.align
  | .prim o s a, h => by simp [ATree.leafAligns, ATree.align] at h ⊢; exact h
  | .dense t, h => by simpa [ATree.leafAligns, ATree.align] using align_spec t (by simpa [ATree.leafAligns] using h)
  | .sparse t, h => by simpa [ATree.leafAligns, ATree.align] using align_spec t (by simpa [ATree.leafAligns] using h)
  | .tuple ts, h => by
    simp only [ATree.leafAligns, leafAlignsAll_flat] at h ⊢
    rw [ATree.align, alignAll_map]
    obtain ⟨h1, h2, h3⟩ := foldl_max_spec (ts.map ATree.align) 1
    have ih : ∀ t ∈ ts, (∀ a ∈ t.leafAligns, a ≤ t.align) ∧ (t.align = 1 ∨ t.align ∈ t.leafAligns) ∧ 1 ≤ t.align :=
      fun t ht => align_spec t fun a ha => h a (List.mem_flatMap.2 ⟨t, ht, ha⟩)
    refine ⟨?_, ?_, h1⟩
    · intro a ha
      obtain ⟨t, ht, hat⟩ := List.mem_flatMap.1 ha
      exact Nat.le_trans ((ih t ht).1 a hat) (h2 _ (List.mem_map.2 ⟨t, ht, rfl⟩))
    · rcases h3 with h3 | h3
      · exact Or.inl h3
      · obtain ⟨t, ht, he⟩ := List.mem_map.1 h3
        rcases (ih t ht).2.1 with h4 | h4
        · left; rw [← he]; exact h4
        · right; rw [← he]; exact List.mem_flatMap.2 ⟨t, ht, h4⟩

/-- C109: the alignment of a type is the largest alignment of the builtin types inside it, and 1 if there are none. -/
theorem abi_alignment_exact (m : AbiMem) (b : Nat) (t : ATree) (h : AbiRep m b t) (hp : ∀ a ∈ t.leafAligns, 1 ≤ a) :
    ∃ N r, (∀ f, N ≤ f → abiAlignment m f b = .ok r) ∧ 1 ≤ r ∧ (∀ a ∈ t.leafAligns, a ≤ r) ∧ (r = 1 ∨ r ∈ t.leafAligns) := by
  obtain ⟨N, hN⟩ := abiAlignment_align h
  obtain ⟨h1, h2, h3⟩ := align_spec t hp
  exact ⟨N, t.align, hN, h3, h1, h2⟩

/-! ### Histories -/

theorem abi_mapM_some {α β : Type} (f : α → Option β) : ∀ (xs : List α) (ys : List β), xs.mapM f = some ys →
    xs.length = ys.length ∧ ∀ (i : Nat) (x : α) (y : β), xs[i]? = some x → ys[i]? = some y → f x = some y := by
  intro xs
  induction xs with
  | nil => intro ys h; simp at h; subst h; simp
  | cons x xs ih =>
    intro ys h
    rw [List.mapM_cons] at h
    simp only [Option.bind_eq_bind, Option.bind_eq_some_iff, Option.pure_def, Option.some.injEq] at h
    obtain ⟨y, hy, ys', hys, rfl⟩ := h
    obtain ⟨hl, hi⟩ := ih ys' hys
    refine ⟨by simp [hl], ?_⟩
    intro i a b ha hb
    cases i with
    | zero => simp at ha hb; subst ha; subst hb; exact hy
    | succ i => exact hi i a b (by simpa using ha) (by simpa using hb)

theorem abi_mapM_of {α β : Type} (f : α → Option β) : ∀ (xs : List α), (∀ x ∈ xs, ∃ y, f x = some y) → ∃ ys, xs.mapM f = some ys := by
  intro xs
  induction xs with
  | nil => intro _; exact ⟨[], by simp⟩
  | cons x xs ih =>
    intro h
    obtain ⟨y, hy⟩ := h x (by simp)
    obtain ⟨ys, hys⟩ := ih fun a ha => h a (by simp [ha])
    exact ⟨y :: ys, by rw [List.mapM_cons, hy, hys]; rfl⟩

/-- The function in the `release` field of a type. -/
def ATree.releaseWord (b : Nat) : ATree → AbiWord
  | .prim _ _ _ => .fn .never
  | _ => .ptr b 0

/-- Memory, and the types handed out, are as the specification has them: each describes its type, with its number of
    references, and no two are the same object. -/
structure AbiAgrees (s : AbiMem × List Nat) (S : ASpec) : Prop where
  len : s.2.length = S.length
  apart : s.2.Nodup
  rep : ∀ (i b : Nat) (t : ATree) (n : Nat), s.2[i]? = some b → S[i]? = some (t, n) →
    AbiRep s.1 b t ∧ abiRead s.1 b 0 = .ok (.num n) ∧ abiRead s.1 b 1 = .ok (t.releaseWord b)

theorem AbiAgrees.lt {s : AbiMem × List Nat} {S : ASpec} (h : AbiAgrees s S) {b : Nat} (hb : b ∈ s.2) : b < s.1.length := by
  obtain ⟨i, hi, he⟩ := List.getElem_of_mem hb
  have h1 : s.2[i]? = some b := by rw [List.getElem?_eq_getElem hi, he]
  have hi' : i < S.length := by rw [← h.len]; exact hi
  exact (h.rep i b S[i].1 S[i].2 h1 (List.getElem?_eq_getElem hi')).1.lt

theorem specMake_release {k : AbiKind} {ts : List ATree} {t : ATree} (h : specMake k ts = some t) (b : Nat) : t.releaseWord b = .ptr b 0 := by
  unfold specMake at h
  split at h <;> cases h <;> rfl

/-- the write of a count -/
theorem AbiAgrees.count {s : AbiMem × List Nat} {S : ASpec} (h : AbiAgrees s S) {i b : Nat} {t : ATree} {n : Nat} (n' : Nat)
    (hb : s.2[i]? = some b) (ht : S[i]? = some (t, n)) : ∃ m', abiWrite s.1 b 0 (.num n') = .ok m' ∧ AbiAgrees (m', s.2) (S.set i (t, n')) := by
  obtain ⟨m', hm⟩ := abiWrite_ok (h.rep i b t n hb ht).2.1 (.num n')
  refine ⟨m', hm, ⟨by simp [h.len], h.apart, ?_⟩⟩
  intro j c u k hc hu
  have hil := (List.getElem?_eq_some_iff.1 hb).1
  have hjl := (List.getElem?_eq_some_iff.1 hc).1
  by_cases hij : j = i
  · subst hij
    simp only [hb, Option.some.injEq] at hc
    subst hc
    rw [List.getElem?_set_self (by rw [← h.len]; exact hil)] at hu
    cases hu
    obtain ⟨r1, r2, r3⟩ := h.rep j b _ _ hb ht
    refine ⟨r1.keeps (keeps_write0 hm), ?_, ?_⟩
    · rw [abiWrite_read hm]; simp
    · rw [abiWrite_read hm]; simp [r3]
  · rw [List.getElem?_set_ne (Ne.symm hij)] at hu
    obtain ⟨r1, r2, r3⟩ := h.rep j c u k hc hu
    have hne : c ≠ b := by
      intro he
      have h1 := (List.getElem?_eq_some_iff.1 hc).2
      have h2 := (List.getElem?_eq_some_iff.1 hb).2
      exact hij ((List.getElem_inj h.apart).1 (by rw [h1, h2, he]))
    refine ⟨r1.keeps (keeps_write0 hm), ?_, ?_⟩
    · rw [abiWrite_read hm, if_neg (fun e => hne e.1)]; exact r2
    · rw [abiWrite_read hm, if_neg (fun e => hne e.1)]; exact r3

theorem abiStep_agrees {s : AbiMem × List Nat} {S S' : ASpec} (h : AbiAgrees s S) (op : AbiOp) (hs : specStep S op = some S') :
    ∃ s', abiStep s op = .ok s' ∧ AbiAgrees s' S' := by
  cases op with
  | make k ps =>
    simp only [specStep, Option.bind_eq_bind, Option.bind_eq_some_iff, Option.pure_def, Option.some.injEq] at hs
    obtain ⟨ts, hts, t, ht, rfl⟩ := hs
    obtain ⟨hl, hg⟩ := abi_mapM_some _ ps ts hts
    have hin : ∀ i ∈ ps, ∃ b, s.2[i]? = some b := by
      intro i hi
      obtain ⟨j, hj, he⟩ := List.getElem_of_mem hi
      have := hg j i ts[j] (by rw [List.getElem?_eq_getElem hj, he]) (List.getElem?_eq_getElem (by omega))
      obtain ⟨x, hx, _⟩ := Option.map_eq_some_iff.1 this
      have hlt := (List.getElem?_eq_some_iff.1 hx).1
      exact ⟨_, List.getElem?_eq_getElem (by rw [h.len]; exact hlt)⟩
    obtain ⟨bs, hbs⟩ := abi_mapM_of (fun i => s.2[i]?) ps hin
    obtain ⟨hl2, hg2⟩ := abi_mapM_some _ ps bs hbs
    obtain ⟨m', e1, e2, e3, e4, e5⟩ := abi_make_exact k s.1 bs ts t (by omega) (by
      intro j p u hp hu
      have hj : j < ps.length := by rw [hl2]; exact (List.getElem?_eq_some_iff.1 hp).1
      have a1 := hg2 j ps[j] p (List.getElem?_eq_getElem hj) hp
      have a2 := hg j ps[j] u (List.getElem?_eq_getElem hj) hu
      obtain ⟨x, hx, rfl⟩ := Option.map_eq_some_iff.1 a2
      exact (h.rep _ p x.1 x.2 a1 hx).1) ht
    refine ⟨(m', s.2 ++ [s.1.length]), ?_, ?_⟩
    · rw [abiStep]; simp only [hbs]; rw [e1]; rfl
    · refine ⟨by simp [h.len], ?_, ?_⟩
      · refine List.nodup_append.2 ⟨h.apart, by simp, ?_⟩
        intro a ha b hb
        have := h.lt ha
        simp at hb
        omega
      · intro i b u n hb hu
        simp only at hb ⊢
        by_cases hi : i < s.2.length
        · rw [List.getElem?_append_left hi] at hb
          rw [List.getElem?_append_left (by rw [← h.len]; exact hi)] at hu
          obtain ⟨r1, r2, r3⟩ := h.rep i b u n hb hu
          have hlt := r1.lt
          refine ⟨r1.keeps ?_, by rw [e5 b 0 hlt]; exact r2, by rw [e5 b 1 hlt]; exact r3⟩
          intro c off w _ hr
          rw [e5 c off (abiRead_lt hr)]; exact hr
        · have hil : i = s.2.length := by
            have := (List.getElem?_eq_some_iff.1 hb).1
            simp at this; omega
          subst hil
          rw [List.getElem?_append_right (Nat.le_refl _), Nat.sub_self] at hb
          rw [List.getElem?_append_right (by rw [h.len]; exact Nat.le_refl _), h.len, Nat.sub_self] at hu
          simp only [List.getElem?_cons_zero, Option.some.injEq, Prod.mk.injEq] at hb hu
          obtain ⟨rfl, rfl⟩ := hu
          subst hb
          exact ⟨e2, e3, by rw [specMake_release ht]; exact e4⟩
  | incref i =>
    simp only [specStep, Option.bind_eq_bind, Option.bind_eq_some_iff, Option.pure_def, Option.some.injEq] at hs
    obtain ⟨⟨t, n⟩, hx, rfl⟩ := hs
    have hil : i < s.2.length := by rw [h.len]; exact (List.getElem?_eq_some_iff.1 hx).1
    have hb := List.getElem?_eq_getElem hil
    obtain ⟨m', hm, hA⟩ := h.count (n + 1) hb hx
    refine ⟨(m', s.2), ?_, hA⟩
    rw [abiStep]; simp only [hb]
    rw [abiIncref, (h.rep i _ t n hb hx).2.1, Res.bind_ok]
    simp only []
    rw [hm]; rfl
  | decref i =>
    simp only [specStep, Option.bind_eq_bind, Option.bind_eq_some_iff, Option.pure_def] at hs
    obtain ⟨⟨t, n⟩, hx, hs⟩ := hs
    simp only [] at hs
    split at hs
    · rename_i hn
      cases hs
      have hil : i < s.2.length := by rw [h.len]; exact (List.getElem?_eq_some_iff.1 hx).1
      have hb := List.getElem?_eq_getElem hil
      obtain ⟨m', hm, hA⟩ := h.count (n - 1) hb hx
      refine ⟨(m', s.2), ?_, hA⟩
      rw [abiStep]; simp only [hb]
      rw [abiDecref, (h.rep i _ t n hb hx).2.1, Res.bind_ok]
      simp only []
      rw [if_neg (by omega), hm, Res.bind_ok, if_neg (by omega)]; rfl
    · cases hs

theorem abi_init_agrees : AbiAgrees abiInit specInit := by
  refine ⟨by decide, by decide, ?_⟩
  intro i b t n hb ht
  have hi := (List.getElem?_eq_some_iff.1 hb).1
  have hi' : i < 12 := by simpa [abiInit, abiBuiltins] using hi
  have : i = 0 ∨ i = 1 ∨ i = 2 ∨ i = 3 ∨ i = 4 ∨ i = 5 ∨ i = 6 ∨ i = 7 ∨ i = 8 ∨ i = 9 ∨ i = 10 ∨ i = 11 := by omega
  rcases this with rfl | rfl | rfl | rfl | rfl | rfl | rfl | rfl | rfl | rfl | rfl | rfl <;>
    (cases hb; cases ht; exact ⟨.prim _ _ _ rfl rfl rfl rfl, rfl, rfl⟩)

theorem abiRun_agrees (ops : List AbiOp) : ∀ {s : AbiMem × List Nat} {S S' : ASpec}, AbiAgrees s S → specRun S ops = some S' →
    ∃ s', abiRun s ops = .ok s' ∧ AbiAgrees s' S' := by
  induction ops with
  | nil => intro s S S' h hs; cases hs; exact ⟨s, rfl, h⟩
  | cons op ops ih =>
    intro s S S' h hs
    simp only [specRun, Option.bind_eq_bind, Option.bind_eq_some_iff] at hs
    obtain ⟨S1, h1, h2⟩ := hs
    obtain ⟨s1, e1, hA⟩ := abiStep_agrees h op h1
    obtain ⟨s2, e2, hB⟩ := ih hA h2
    exact ⟨s2, by rw [abiRun, e1, Res.bind_ok]; exact e2, hB⟩

/-- C109: whatever types are made and whatever references are taken and dropped, as long as no last reference is dropped,
    every call succeeds, the types stay what they were made as, at different addresses, and each has as many references as
    were taken and not dropped. -/
theorem abi_history_exact (ops : List AbiOp) (S : ASpec) (h : specRun specInit ops = some S) :
    ∃ m hs, abiRun abiInit ops = .ok (m, hs) ∧ hs.length = S.length ∧ hs.Nodup ∧
      ∀ (i b : Nat) (t : ATree) (n : Nat), hs[i]? = some b → S[i]? = some (t, n) → AbiRep m b t ∧ abiRead m b 0 = .ok (.num n) := by
  obtain ⟨⟨m, hs⟩, e, hA⟩ := abiRun_agrees ops abi_init_agrees h
  exact ⟨m, hs, e, hA.len, hA.apart, fun i b t n hb ht => ⟨(hA.rep i b t n hb ht).1, (hA.rep i b t n hb ht).2.1⟩⟩

theorem specMake_leaves {k : AbiKind} {ts : List ATree} {t : ATree} (h : specMake k ts = some t) {a : Nat} (ha : a ∈ t.leafAligns) :
    ∃ u ∈ ts, a ∈ u.leafAligns := by
  unfold specMake at h
  split at h <;> cases h
  · rename_i u; exact ⟨u, by simp, by simpa [ATree.leafAligns] using ha⟩
  · rename_i u; exact ⟨u, by simp, by simpa [ATree.leafAligns] using ha⟩
  · rw [ATree.leafAligns, leafAlignsAll_flat] at ha
    exact List.mem_flatMap.1 ha

theorem specStep_leaves {S S' : ASpec} {op : AbiOp} (h : specStep S op = some S') (hS : ∀ x ∈ S, ∀ a ∈ x.1.leafAligns, a ∈ [1, 2, 4, 8]) :
    ∀ x ∈ S', ∀ a ∈ x.1.leafAligns, a ∈ [1, 2, 4, 8] := by
  have hset : ∀ (i n : Nat) (y : ATree × Nat), S[i]? = some y → ∀ x ∈ S.set i (y.1, n), ∀ a ∈ x.1.leafAligns, a ∈ [1, 2, 4, 8] := by
    intro i n y hy x hx
    rcases List.mem_or_eq_of_mem_set hx with hx | rfl
    · exact hS x hx
    · exact hS y (List.mem_of_getElem? hy)
  cases op with
  | make k ps =>
    simp only [specStep, Option.bind_eq_bind, Option.bind_eq_some_iff, Option.pure_def, Option.some.injEq] at h
    obtain ⟨ts, hts, t, ht, rfl⟩ := h
    intro x hx a ha
    rcases List.mem_append.1 hx with hx | hx
    · exact hS x hx a ha
    · simp only [List.mem_singleton] at hx
      subst hx
      obtain ⟨u, hu, hau⟩ := specMake_leaves ht ha
      obtain ⟨hl, hg⟩ := abi_mapM_some _ ps ts hts
      obtain ⟨j, hj, he⟩ := List.getElem_of_mem hu
      have := hg j ps[j] u (List.getElem?_eq_getElem (by omega)) (by rw [List.getElem?_eq_getElem hj, he])
      obtain ⟨y, hy, rfl⟩ := Option.map_eq_some_iff.1 this
      exact hS y (List.mem_of_getElem? hy) a hau
  | incref i =>
    simp only [specStep, Option.bind_eq_bind, Option.bind_eq_some_iff, Option.pure_def, Option.some.injEq] at h
    obtain ⟨y, hy, rfl⟩ := h
    exact hset i _ y hy
  | decref i =>
    simp only [specStep, Option.bind_eq_bind, Option.bind_eq_some_iff, Option.pure_def] at h
    obtain ⟨y, hy, h⟩ := h
    split at h
    · cases h; exact hset i _ y hy
    · cases h

/-- C109: the alignment of every type a program can make is defined, and data aligned to it has every builtin type inside
    aligned: each one's alignment divides it. -/
theorem abi_alignment_divides (ops : List AbiOp) (S : ASpec) (h : specRun specInit ops = some S) :
    ∃ m hs, abiRun abiInit ops = .ok (m, hs) ∧ ∀ (i b : Nat) (t : ATree) (n : Nat), hs[i]? = some b → S[i]? = some (t, n) →
      ∃ N r, (∀ f, N ≤ f → abiAlignment m f b = .ok r) ∧ r ∈ [1, 2, 4, 8] ∧ (∀ a ∈ t.leafAligns, a ∣ r) ∧ (r = 1 ∨ r ∈ t.leafAligns) := by
  obtain ⟨⟨m, hs⟩, e, hA⟩ := abiRun_agrees ops abi_init_agrees h
  have hlv : ∀ (ops : List AbiOp) (S0 S : ASpec), specRun S0 ops = some S → (∀ x ∈ S0, ∀ a ∈ x.1.leafAligns, a ∈ [1, 2, 4, 8]) →
      ∀ x ∈ S, ∀ a ∈ x.1.leafAligns, a ∈ [1, 2, 4, 8] := by
    intro ops
    induction ops with
    | nil => intro S0 S h h0; cases h; exact h0
    | cons op ops ih =>
      intro S0 S h h0
      simp only [specRun, Option.bind_eq_bind, Option.bind_eq_some_iff] at h
      obtain ⟨S1, h1, h2⟩ := h
      exact ih S1 S h2 (specStep_leaves h1 h0)
  refine ⟨m, hs, e, fun i b t n hb ht => ?_⟩
  have hl := hlv ops specInit S h (by
    intro x hx
    simp only [specInit, abiBuiltins, List.zipIdx_cons, List.zipIdx_nil, List.map_cons, List.map_nil, List.mem_cons, List.not_mem_nil, or_false] at hx
    rcases hx with rfl | rfl | rfl | rfl | rfl | rfl | rfl | rfl | rfl | rfl | rfl | rfl <;> simp [ATree.leafAligns]) _ (List.mem_of_getElem? ht)
  have hpos : ∀ a ∈ t.leafAligns, 1 ≤ a := by
    intro a ha
    have := hl a ha
    simp at this; omega
  obtain ⟨N, r, h1, h2, h3, h4⟩ := abi_alignment_exact m b t (hA.rep i b t n hb ht).1 hpos
  have hr : r ∈ [1, 2, 4, 8] := by
    rcases h4 with h4 | h4
    · simp [h4]
    · exact hl r h4
  refine ⟨N, r, h1, hr, ?_, h4⟩
  intro a ha
  have h5 := h3 a ha
  have h6 := hl a ha
  simp only [List.mem_cons, List.not_mem_nil, or_false] at hr h6
  rcases hr with rfl | rfl | rfl | rfl <;> rcases h6 with rfl | rfl | rfl | rfl <;> first | omega | decide

/-! ### Dropping the last reference -/

/-- C109 (violated): whatever happened before, dropping the last reference of a type made by a constructor calls, as the
    function that releases it, the address of the type itself: undefined behaviour, never a release. -/
theorem abi_last_reference_constructed (ops : List AbiOp) (S : ASpec) (h : specRun specInit ops = some S) (i : Nat) (t : ATree)
    (hi : S[i]? = some (t, 1)) (ht : ∀ o s a, t ≠ .prim o s a) : abiRun abiInit (ops ++ [.decref i]) = .ub := by
  obtain ⟨⟨m, hs⟩, e, hA⟩ := abiRun_agrees ops abi_init_agrees h
  have happ : ∀ (ops : List AbiOp) (op : AbiOp) (s s' : AbiMem × List Nat), abiRun s ops = .ok s' →
      abiRun s (ops ++ [op]) = abiRun s' [op] := by
    intro ops
    induction ops with
    | nil => intro op s s' h; cases h; rfl
    | cons o ops ih =>
      intro op s s' h
      rw [abiRun] at h
      obtain ⟨s1, e1, e2⟩ := Res.bind_eq_ok.1 h
      rw [List.cons_append, abiRun, e1, Res.bind_ok]
      exact ih op s1 s' e2
  rw [happ ops (.decref i) _ _ e, abiRun, abiStep]
  have hil : i < hs.length := by have := (List.getElem?_eq_some_iff.1 hi).1; rw [← hA.len] at this; exact this
  have hb : hs[i]? = some hs[i] := List.getElem?_eq_getElem hil
  obtain ⟨r1, r2, r3⟩ := hA.rep i _ t 1 hb hi
  simp only [] at r2 r3 ⊢
  obtain ⟨m', hm⟩ := abiWrite_ok r2 (.num (1 - 1))
  simp only [hb]
  rw [abiDecref, r2, Res.bind_ok]
  simp only []
  rw [if_neg (by omega), hm, Res.bind_ok, if_pos trivial, abiWrite_read hm, if_neg (by simp), r3, Res.bind_ok]
  cases t with
  | prim o s a => exact absurd rfl (ht o s a)
  | dense t => rfl
  | sparse t => rfl
  | tuple ts => rfl

/-- C109: dropping the last reference of a builtin type stops at an assertion. -/
theorem abi_last_reference_builtin (ops : List AbiOp) (S : ASpec) (h : specRun specInit ops = some S) (i o s a : Nat)
    (hi : S[i]? = some (.prim o s a, 1)) : abiRun abiInit (ops ++ [.decref i]) = .throw .runtime := by
  obtain ⟨⟨m, hs⟩, e, hA⟩ := abiRun_agrees ops abi_init_agrees h
  have happ : ∀ (ops : List AbiOp) (op : AbiOp) (s s' : AbiMem × List Nat), abiRun s ops = .ok s' →
      abiRun s (ops ++ [op]) = abiRun s' [op] := by
    intro ops
    induction ops with
    | nil => intro op s s' h; cases h; rfl
    | cons o ops ih =>
      intro op s s' h
      rw [abiRun] at h
      obtain ⟨s1, e1, e2⟩ := Res.bind_eq_ok.1 h
      rw [List.cons_append, abiRun, e1, Res.bind_ok]
      exact ih op s1 s' e2
  rw [happ ops (.decref i) _ _ e, abiRun, abiStep]
  have hil : i < hs.length := by have := (List.getElem?_eq_some_iff.1 hi).1; rw [← hA.len] at this; exact this
  have hb : hs[i]? = some hs[i] := List.getElem?_eq_getElem hil
  obtain ⟨r1, r2, r3⟩ := hA.rep i _ _ 1 hb hi
  simp only [] at r2 r3 ⊢
  obtain ⟨m', hm⟩ := abiWrite_ok r2 (.num (1 - 1))
  simp only [hb]
  rw [abiDecref, r2, Res.bind_ok]
  simp only []
  rw [if_neg (by omega), hm, Res.bind_ok, if_pos trivial, abiWrite_read hm, if_neg (by simp), r3, Res.bind_ok]
  rfl

/-- C109 (violated): a type that is part of another can have its last reference dropped: being part of another is no reference. -/
theorem abi_part_not_referenced (k : AbiKind) (ops : List AbiOp) (S S' : ASpec) (i n : Nat) (t : ATree) (ps : List Nat)
    (_ : specRun specInit ops = some S) (hi : S[i]? = some (t, n)) (hm : specStep S (.make k ps) = some S') : S'[i]? = some (t, n) := by
  simp only [specStep, Option.bind_eq_bind, Option.bind_eq_some_iff, Option.pure_def, Option.some.injEq] at hm
  obtain ⟨ts, _, u, _, rfl⟩ := hm
  rw [List.getElem?_append_left (List.getElem?_eq_some_iff.1 hi).1]; exact hi

/-! ### Misuse -/

/-- C109 (violated): without memory the constructors write through a null pointer. -/
theorem abi_no_memory (k : AbiKind) (m : AbiMem) (ps : List Nat) : abiMake k false m ps = .ub := by
  cases k <;> rfl

/-- C109 (violated): a dense or sparse type made of several types keeps the first and drops the others. -/
theorem abi_unary_drops (k : AbiKind) (hk : k = .dense ∨ k = .sparse) (m : AbiMem) (p : Nat) (ps : List Nat) :
    abiMake k true m (p :: ps) = abiMake k true m [p] := by
  rcases hk with rfl | rfl <;> (rw [abiMake, abiMake, makeUnary_new, makeUnary_new])

/-- C109 (violated): a dense or sparse type made of nothing reads past the list it was given. -/
theorem abi_unary_nothing (k : AbiKind) (hk : k = .dense ∨ k = .sparse) (m : AbiMem) : abiMake k true m [] = .ub := by
  have h : ∀ k, makeUnary k true m [] = .ub := by
    intro k
    have h := mallocBuffer_new m 0
    simp only [Nat.add_zero, List.replicate_zero, List.append_nil] at h
    simp only [makeUnary]
    rw [h, Res.bind_ok]
    simp only []
    rw [abiWrite_new _ _ _ _ _ (by simp), Res.bind_ok, abiWrite_new _ _ _ _ _ (by simp), Res.bind_ok, abiWrite_new _ _ _ _ _ (by simp),
      Res.bind_ok]
  rcases hk with rfl | rfl <;> exact h _

/-! ### Equality -/

theorem AbiRep.unique {m : AbiMem} {b : Nat} {t : ATree} (h : AbiRep m b t) : ∀ {u : ATree}, AbiRep m b u → t = u := by
  induction h with
  | prim b s a h1 h2 h3 h4 =>
    intro u hu
    cases hu with
    | prim _ s' a' g1 g2 g3 g4 => rw [h3] at g3; rw [h4] at g4; cases g3; cases g4; rfl
    | dense _ p t g1 => rw [h1] at g1; cases g1
    | sparse _ p t g1 => rw [h1] at g1; cases g1
    | tuple _ ps ts g1 => rw [h1] at g1; cases g1
  | dense b p t h1 h2 h3 _ ih =>
    intro u hu
    cases hu with
    | prim _ s' a' g1 => rw [h1] at g1; cases g1
    | dense _ p t g1 g2 g3 g4 => rw [h3] at g3; cases g3; rw [ih g4]
    | sparse _ p t g1 => rw [h1] at g1; cases g1
    | tuple _ ps ts g1 => rw [h1] at g1; cases g1
  | sparse b p t h1 h2 h3 _ ih =>
    intro u hu
    cases hu with
    | prim _ s' a' g1 => rw [h1] at g1; cases g1
    | dense _ p t g1 => rw [h1] at g1; cases g1
    | sparse _ p t g1 g2 g3 g4 => rw [h3] at g3; cases g3; rw [ih g4]
    | tuple _ ps ts g1 => rw [h1] at g1; cases g1
  | tuple b ps ts h1 h2 h3 h4 h5 _ ih =>
    intro u hu
    cases hu with
    | prim _ s' a' g1 => rw [h1] at g1; cases g1
    | dense _ p t g1 => rw [h1] at g1; cases g1
    | sparse _ p t g1 => rw [h1] at g1; cases g1
    | tuple _ qs us g1 g2 g3 g4 g5 g6 =>
      rw [h3] at g3
      simp only [Res.ok.injEq, AbiWord.num.injEq] at g3
      congr 1
      apply List.ext_getElem (by omega)
      intro i hi1 hi2
      have hp := List.getElem?_eq_getElem (l := ps) (i := i) (by omega)
      have hq := List.getElem?_eq_getElem (l := qs) (i := i) (by omega)
      have e1 := h5 i _ hp
      have e2 := g5 i _ hq
      rw [e1] at e2
      simp only [Res.ok.injEq, AbiWord.ptr.injEq, and_true] at e2
      refine ih i _ _ hp (List.getElem?_eq_getElem hi1) ?_
      exact g6 i _ _ (by rw [hq, e2]) (List.getElem?_eq_getElem hi2)

theorem abiEqualAll_spec (m : AbiMem) (f : Nat) : ∀ (ps qs : List Nat) (ts us : List ATree), ps.length = ts.length → qs.length = us.length →
    (∀ (i p q : Nat) (t u : ATree), ps[i]? = some p → qs[i]? = some q → ts[i]? = some t → us[i]? = some u →
      ∃ e, abiEqual m f p q = .ok e ∧ (e = true ↔ t = u)) → ∃ e, abiEqualAll (abiEqual m f) ps qs = .ok e ∧ (e = true ↔ ts = us) := by
  intro ps
  induction ps with
  | nil =>
    intro qs ts us h1 h2 _
    have : ts = [] := List.length_eq_zero_iff.1 h1.symm
    subst this
    cases qs with
    | nil => exact ⟨true, by rw [abiEqualAll], by simp [List.length_eq_zero_iff.1 h2.symm]⟩
    | cons q qs =>
      refine ⟨false, by simp [abiEqualAll], ?_⟩
      cases us with
      | nil => simp at h2
      | cons => simp
  | cons p ps ih =>
    intro qs ts us h1 h2 h
    cases ts with
    | nil => simp at h1
    | cons t ts =>
      cases qs with
      | nil =>
        refine ⟨false, by simp [abiEqualAll], ?_⟩
        have : us = [] := List.length_eq_zero_iff.1 h2.symm
        subst this; simp
      | cons q qs =>
        cases us with
        | nil => simp at h2
        | cons u us =>
          obtain ⟨e, he, hiff⟩ := h 0 p q t u rfl rfl rfl rfl
          obtain ⟨e2, he2, hiff2⟩ := ih qs ts us (by simpa using h1) (by simpa using h2) fun i p q t u a b c d => h (i + 1) p q t u a b c d
          rw [abiEqualAll, he, Res.bind_ok]
          cases e with
          | true =>
            refine ⟨e2, by simpa using he2, ?_⟩
            rw [hiff2, List.cons.injEq, hiff.1 rfl]; simp
          | false =>
            refine ⟨false, rfl, ?_⟩
            constructor
            · intro h; cases h
            · intro h; rw [List.cons.injEq] at h; exact absurd (hiff.2 h.1) (by simp)

theorem AbiRep.ctor {m : AbiMem} {b : Nat} {t : ATree} (h : AbiRep m b t) :
    abiRead m b 5 = .ok (.ctor (match t with | .prim _ _ _ => .primitive | .dense _ => .dense | .sparse _ => .sparse | .tuple _ => .tuple)) := by
  cases h <;> assumption

/-- C109: the equality test of types tells types apart exactly: two types are reported equal if and only if they are built
    the same way from the same builtin types. -/
theorem abi_equal_exact (m : AbiMem) (l : Nat) (t : ATree) (hl : AbiRep m l t) : ∀ (r : Nat) (u : ATree), AbiRep m r u →
    ∃ N, ∀ f, N ≤ f → ∃ e, abiEqual m f l r = .ok e ∧ (e = true ↔ t = u) := by
  induction hl with
  | prim b s a h1 h2 h3 h4 =>
    intro r u hu
    refine ⟨1, fun f hf => ?_⟩
    obtain ⟨g, rfl⟩ : ∃ g, f = g + 1 := ⟨f - 1, by omega⟩
    refine ⟨decide (b = r), by rw [abiEqual, h2, Res.bind_ok], ?_⟩
    rw [decide_eq_true_iff]
    constructor
    · rintro rfl; exact (AbiRep.prim b s a h1 h2 h3 h4).unique hu
    · rintro rfl; cases hu; rfl
  | dense b p t h1 h2 h3 hp ih =>
    intro r u hu
    have hpar : abiParameters m b = .ok [p] := by rw [abiParameters, h1, Res.bind_ok]; simp only [readPtrs]; rw [h3]; rfl
    cases hu with
    | dense _ q u' g1 g2 g3 g4 =>
      obtain ⟨N, hN⟩ := ih q u' g4
      refine ⟨N + 1, fun f hf => ?_⟩
      obtain ⟨g, rfl⟩ : ∃ g, f = g + 1 := ⟨f - 1, by omega⟩
      have hpar2 : abiParameters m r = .ok [q] := by rw [abiParameters, g1, Res.bind_ok]; simp only [readPtrs]; rw [g3]; rfl
      obtain ⟨e, he, hiff⟩ := hN g (by omega)
      refine ⟨e, ?_, by rw [hiff]; simp⟩
      rw [abiEqual, h2, Res.bind_ok]
      simp only []
      rw [g2, Res.bind_ok]
      simp only [if_true]
      rw [hpar, Res.bind_ok, hpar2, Res.bind_ok]
      exact he
    | prim _ s a g1 g2 =>
      refine ⟨1, fun f hf => ⟨false, ?_, by simp⟩⟩
      obtain ⟨g, rfl⟩ : ∃ g, f = g + 1 := ⟨f - 1, by omega⟩
      rw [abiEqual, h2, Res.bind_ok]
      simp only []
      rw [g2, Res.bind_ok]; rfl
    | sparse _ q u' g1 g2 =>
      refine ⟨1, fun f hf => ⟨false, ?_, by simp⟩⟩
      obtain ⟨g, rfl⟩ : ∃ g, f = g + 1 := ⟨f - 1, by omega⟩
      rw [abiEqual, h2, Res.bind_ok]
      simp only []
      rw [g2, Res.bind_ok]; rfl
    | tuple _ qs us g1 g2 =>
      refine ⟨1, fun f hf => ⟨false, ?_, by simp⟩⟩
      obtain ⟨g, rfl⟩ : ∃ g, f = g + 1 := ⟨f - 1, by omega⟩
      rw [abiEqual, h2, Res.bind_ok]
      simp only []
      rw [g2, Res.bind_ok]; rfl
  | sparse b p t h1 h2 h3 hp ih =>
    intro r u hu
    have hpar : abiParameters m b = .ok [p] := by rw [abiParameters, h1, Res.bind_ok]; simp only [readPtrs]; rw [h3]; rfl
    cases hu with
    | sparse _ q u' g1 g2 g3 g4 =>
      obtain ⟨N, hN⟩ := ih q u' g4
      refine ⟨N + 1, fun f hf => ?_⟩
      obtain ⟨g, rfl⟩ : ∃ g, f = g + 1 := ⟨f - 1, by omega⟩
      have hpar2 : abiParameters m r = .ok [q] := by rw [abiParameters, g1, Res.bind_ok]; simp only [readPtrs]; rw [g3]; rfl
      obtain ⟨e, he, hiff⟩ := hN g (by omega)
      refine ⟨e, ?_, by rw [hiff]; simp⟩
      rw [abiEqual, h2, Res.bind_ok]
      simp only []
      rw [g2, Res.bind_ok]
      simp only [if_true]
      rw [hpar, Res.bind_ok, hpar2, Res.bind_ok]
      exact he
    | prim _ s a g1 g2 =>
      refine ⟨1, fun f hf => ⟨false, ?_, by simp⟩⟩
      obtain ⟨g, rfl⟩ : ∃ g, f = g + 1 := ⟨f - 1, by omega⟩
      rw [abiEqual, h2, Res.bind_ok]
      simp only []
      rw [g2, Res.bind_ok]; rfl
    | dense _ q u' g1 g2 =>
      refine ⟨1, fun f hf => ⟨false, ?_, by simp⟩⟩
      obtain ⟨g, rfl⟩ : ∃ g, f = g + 1 := ⟨f - 1, by omega⟩
      rw [abiEqual, h2, Res.bind_ok]
      simp only []
      rw [g2, Res.bind_ok]; rfl
    | tuple _ qs us g1 g2 =>
      refine ⟨1, fun f hf => ⟨false, ?_, by simp⟩⟩
      obtain ⟨g, rfl⟩ : ∃ g, f = g + 1 := ⟨f - 1, by omega⟩
      rw [abiEqual, h2, Res.bind_ok]
      simp only []
      rw [g2, Res.bind_ok]; rfl
  | tuple b ps ts h1 h2 h3 h4 h5 h6 ih =>
    intro r u hu
    have hno : ∀ k, k ≠ AbiKind.tuple → abiRead m r 5 = .ok (.ctor k) → ∀ f, 1 ≤ f → abiEqual m f b r = .ok false := by
      intro k hk hr f hf
      obtain ⟨g, rfl⟩ : ∃ g, f = g + 1 := ⟨f - 1, by omega⟩
      rw [abiEqual, h2, Res.bind_ok]
      simp only []
      rw [hr, Res.bind_ok]
      cases k <;> first | rfl | exact absurd rfl hk
    cases hu with
    | prim _ s a g1 g2 => exact ⟨1, fun f hf => ⟨false, hno _ (by simp) g2 f hf, by simp⟩⟩
    | dense _ q u' g1 g2 => exact ⟨1, fun f hf => ⟨false, hno _ (by simp) g2 f hf, by simp⟩⟩
    | sparse _ q u' g1 g2 => exact ⟨1, fun f hf => ⟨false, hno _ (by simp) g2 f hf, by simp⟩⟩
    | tuple _ qs us g1 g2 g3 g4 g5 g6 =>
      have hpar : abiParameters m b = .ok ps := by
        rw [abiParameters, h1, Res.bind_ok]
        simp only []
        rw [h3, Res.bind_ok]
        exact readPtrs_ok m b ps 7 h5
      have hpar2 : abiParameters m r = .ok qs := by
        rw [abiParameters, g1, Res.bind_ok]
        simp only []
        rw [g3, Res.bind_ok]
        exact readPtrs_ok m r qs 7 g5
      obtain ⟨N, hN⟩ := fuel_all (P := fun i f => ∀ p q t u, ps[i]? = some p → qs[i]? = some q → ts[i]? = some t → us[i]? = some u →
          ∃ e, abiEqual m f p q = .ok e ∧ (e = true ↔ t = u)) ps.length
        (fun i hi => by
          by_cases hq : i < qs.length
          · obtain ⟨N, hN⟩ := ih i ps[i] ts[i] (List.getElem?_eq_getElem hi) (List.getElem?_eq_getElem (by omega)) qs[i] us[i]
              (g6 i _ _ (List.getElem?_eq_getElem hq) (List.getElem?_eq_getElem (by omega)))
            refine ⟨N, fun f hf p q t u hp hq' ht hu => ?_⟩
            rw [List.getElem?_eq_getElem hi] at hp
            rw [List.getElem?_eq_getElem hq] at hq'
            rw [List.getElem?_eq_getElem (by omega)] at ht hu
            cases hp; cases hq'; cases ht; cases hu
            exact hN f hf
          · refine ⟨0, fun f _ p q t u _ hq' => ?_⟩
            exact absurd (List.getElem?_eq_some_iff.1 hq').1 hq)
      refine ⟨N + 1, fun f hf => ?_⟩
      obtain ⟨g, rfl⟩ : ∃ g, f = g + 1 := ⟨f - 1, by omega⟩
      obtain ⟨e, he, hiff⟩ := abiEqualAll_spec m g ps qs ts us h4 g4 (fun i p q t u a b c d =>
        hN g (by omega) i (List.getElem?_eq_some_iff.1 a).1 p q t u a b c d)
      refine ⟨e, ?_, by rw [hiff]; simp⟩
      rw [abiEqual, h2, Res.bind_ok]
      simp only []
      rw [g2, Res.bind_ok]
      simp only []
      rw [hpar, Res.bind_ok, hpar2, Res.bind_ok]
      exact he

/-! ### Examples -/

/-- dense(tuple(size_t, sparse(tuple()))), with one reference more and one less, made twice -/
def abiExample : List AbiOp :=
  [.make .tuple [], .make .sparse [12], .make .tuple [11, 13], .make .dense [14], .incref 14, .incref 14, .decref 14,
    .make .tuple [], .make .sparse [16], .make .tuple [11, 17], .make .dense [18]]

/-- what it makes -/
def abiExampleTree : ATree := .dense (.tuple [.prim 11 8 8, .sparse (.tuple [])])

example : ∃ S, specRun specInit abiExample = some S ∧ S[15]? = some (abiExampleTree, 1) ∧ S[19]? = some (abiExampleTree, 1) ∧
    S[14]? = some (.tuple [.prim 11 8 8, .sparse (.tuple [])], 2) := ⟨_, rfl, rfl, rfl, rfl⟩

example : ∃ m hs, abiRun abiInit abiExample = .ok (m, hs) ∧ hs[15]? = some 15 ∧ hs[19]? = some 19 ∧ abiAlignment m 9 15 = .ok 8 ∧
    abiEqual m 9 15 19 = .ok true ∧ abiEqual m 9 14 19 = .ok false := ⟨_, _, rfl, rfl, rfl, by decide +kernel, by decide +kernel, by decide +kernel⟩

/-- one more call: the type made first is dropped while it is in use -/
example : abiRun abiInit (abiExample ++ [.decref 12]) = .ub :=
  abi_last_reference_constructed abiExample _ rfl 12 (.tuple []) rfl (by simp)

end Dynd
