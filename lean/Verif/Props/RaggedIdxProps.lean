/-
Indexing arrays with variable-size dimensions and pointers (C110).
-/
import Verif.Model.RaggedIdx
import Verif.Props.IndexProps

namespace Dynd

/-! ### Specification -/

/-- The element of an array at a full list of positions: its address, and the block that holds it.  The arrmeta names a
    block for each level, or leaves it out when it is `emb`. -/
def elemOf (mem : QMem) (emb : Nat) : List QDim → List QMeta → Int → Nat → List Int → Option (Int × Nat)
  | [], [], a, b, [] => some (a, b)
  | .fixed n :: e, .fixed _ s :: ms, a, b, j :: js =>
    if 0 ≤ j ∧ j < n then elemOf mem emb e ms (a + j * s) b js else none
  | .var :: e, .var b s o :: ms, a, _, j :: js =>
    if 0 ≤ j ∧ j < mem.size a then elemOf mem emb e ms (mem.ptr a + o + j * s) (b.getD emb) js else none
  | .ptr :: e, .ptr b o :: ms, a, _, js => elemOf mem emb e ms (mem.ptr a + o) (b.getD emb) js
  | _, _, _, _, _ => none

/-- The element of an array (its own block is `self`, and `owner` holds its data if given). -/
def QArr.elem (mem : QMem) (a : QArr) (js : List Int) : Option (Int × Nat) :=
  elemOf mem a.self a.dims a.metas a.data (a.owner.getD a.self) js

/-- One index `r`, on a dimension of `n` elements, as in Python: which element is meant, given the positions `js` in the
    result, and the positions that remain. -/
def srcIndex (n : Int) (r : IRange) (js : List Int) : Option (Int × List Int) :=
  if r.step = 0 then
    if -n ≤ r.start ∧ r.start < n then some (pyWrap n r.start, js) else none
  else match js with
    | [] => none
    | j :: js =>
      let i := pyStart n r.startOpt r.step + j * r.step
      if 0 ≤ j ∧ (if r.step > 0 then i < pyStop n r.finishOpt r.step else pyStop n r.finishOpt r.step < i) then some (i, js)
      else none

/-- The element that positions `js` of `a(idx...)` stand for, by Python's rules at each dimension. -/
def pickOf (mem : QMem) (emb : Nat) : List QDim → List QMeta → Int → Nat → List IRange → List Int → Option (Int × Nat)
  | [], [], a, b, [], [] => some (a, b)
  | .fixed n :: e, .fixed _ s :: ms, a, b, [], j :: js =>
    if 0 ≤ j ∧ j < n then pickOf mem emb e ms (a + j * s) b [] js else none
  | .fixed n :: e, .fixed _ s :: ms, a, b, r :: rs, js =>
    match srcIndex n r js with
    | some (i, js) => pickOf mem emb e ms (a + i * s) b rs js
    | none => none
  | .var :: e, .var b s o :: ms, a, _, [], j :: js =>
    if 0 ≤ j ∧ j < mem.size a then pickOf mem emb e ms (mem.ptr a + o + j * s) (b.getD emb) [] js else none
  | .var :: e, .var b s o :: ms, a, _, r :: rs, js =>
    match srcIndex (mem.size a) r js with
    | some (i, js) => pickOf mem emb e ms (mem.ptr a + o + i * s) (b.getD emb) rs js
    | none => none
  | .ptr :: e, .ptr b o :: ms, a, _, idx, js => pickOf mem emb e ms (mem.ptr a + o) (b.getD emb) idx js
  | _, _, _, _, _, _ => none

/-- The element that positions `js` of `a(idx...)` stand for. -/
def QArr.pick (mem : QMem) (a : QArr) (idx : List IRange) (js : List Int) : Option (Int × Nat) :=
  pickOf mem a.self a.dims a.metas a.data (a.owner.getD a.self) idx js

/-- The arrmeta has the shape of the type; pointers name the block they point into. -/
def QWF : List QDim → List QMeta → Prop
  | [], [] => True
  | .fixed n :: e, .fixed _ _ :: ms => 0 ≤ n ∧ n ≤ i64Max ∧ QWF e ms
  | .var :: e, .var _ _ _ :: ms => QWF e ms
  | .ptr :: e, .ptr b _ :: ms => b ≠ none ∧ QWF e ms
  | _, _ => False

/-- No integer index falls on a variable-size dimension after a kept dimension or a pointer (`lead`: only integers so far). -/
def RowsWhole : Bool → List QDim → List IRange → Prop
  | _, _, [] => True
  | _, [], _ => True
  | lead, .fixed _ :: e, r :: rs => RowsWhole (lead && decide (r.step = 0)) e rs
  | lead, .var :: e, r :: rs => (r.step = 0 → lead = true) ∧ RowsWhole (lead && decide (r.step = 0)) e rs
  | _, .ptr :: e, r :: rs => RowsWhole false e (r :: rs)

/-- The indices that are to be accepted: not more than there are dimensions, integers in range, ranges that C02 accepts,
    and on variable-size dimensions only the full range. -/
def QAccepts (mem : QMem) : Bool → List QDim → List QMeta → Int → List IRange → Prop
  | _, _, _, _, [] => True
  | lead, .fixed n :: e, .fixed _ s :: ms, a, r :: rs =>
    if r.step = 0 then -n ≤ r.start ∧ r.start < n ∧ QAccepts mem lead e ms (a + pyWrap n r.start * s) rs
    else ¬ SliceRejected r n ∧ QAccepts mem false e ms a rs
  | lead, .var :: e, .var _ s o :: ms, a, r :: rs =>
    if r.step = 0 then lead = true ∧ -(mem.size a) ≤ r.start ∧ r.start < mem.size a ∧
      QAccepts mem true e ms (mem.ptr a + o + pyWrap (mem.size a) r.start * s) rs
    else r = IRange.full ∧ QAccepts mem false e ms a rs
  | _, .ptr :: e, .ptr _ _ :: ms, a, r :: rs => QAccepts mem false e ms a (r :: rs)
  | _, _, _, _, _ => False

/-- Steps that leave room for the computation of a size (C02). -/
def StepsOk (dims : List QDim) (idx : List IRange) : Prop :=
  ∀ r ∈ idx, ∀ n, QDim.fixed n ∈ dims → r.step ≤ i64Max - n ∧ -(i64Max - n) ≤ r.step

/-! ### Slices position by position -/

/-- position `j` of a slice -/
theorem slice_nth {r : IRange} {n : Int} {l : Lin} (hn : 0 ≤ n) (hstep : r.step ≠ 0) (hn2 : n ≤ i64Max)
    (h : applySingleLinearIndex r n = .ok l) (j : Int) :
    ((0 ≤ j ∧ j < l.size) ↔ (0 ≤ j ∧ (if r.step > 0 then pyStart n r.startOpt r.step + j * r.step < pyStop n r.finishOpt r.step
      else pyStop n r.finishOpt r.step < pyStart n r.startOpt r.step + j * r.step))) ∧
    (0 ≤ j ∧ j < l.size → l.start + j * l.stride = pyStart n r.startOpt r.step + j * r.step) := by
  obtain ⟨_, hs0, hst, hden, _⟩ := slice_selects_exactly hn hstep hn2 h
  by_cases hsz : 0 < l.size
  · have hst := hst hsz
    have hd0 : l.Denotes l.start := ⟨0, by omega, hsz, by omega⟩
    obtain ⟨⟨j0, hj0, e0⟩, hc⟩ := (hden _).1 hd0
    have hP : PySelected n r.startOpt r.finishOpt r.step (pyStart n r.startOpt r.step) := by
      refine ⟨⟨0, by omega, by omega⟩, ?_⟩
      by_cases hk : r.step > 0
      · rw [if_pos hk] at hc ⊢
        have := Int.mul_nonneg hj0 (Int.le_of_lt hk)
        omega
      · rw [if_neg hk] at hc ⊢
        have := Int.mul_nonneg hj0 (show 0 ≤ -r.step by omega)
        rw [Int.mul_neg] at this
        omega
    obtain ⟨j1, hj1, _, e1⟩ := (hden _).2 hP
    rw [hst] at e1
    have hsum : (j0 + j1) * r.step = 0 := by rw [Int.add_mul]; omega
    have hz : j0 + j1 = 0 := by
      rcases Int.mul_eq_zero.1 hsum with h | h
      · exact h
      · exact absurd h hstep
    have hj00 : j0 = 0 := by omega
    subst hj00
    have hsP : l.start = pyStart n r.startOpt r.step := by omega
    have hback : 0 ≤ j ∧ (if r.step > 0 then pyStart n r.startOpt r.step + j * r.step < pyStop n r.finishOpt r.step
      else pyStop n r.finishOpt r.step < pyStart n r.startOpt r.step + j * r.step) → 0 ≤ j ∧ j < l.size := by
      rintro ⟨h0, h1⟩
      obtain ⟨j', h2, h3, h4⟩ := (hden (pyStart n r.startOpt r.step + j * r.step)).2 ⟨⟨j, h0, rfl⟩, h1⟩
      rw [hst, hsP] at h4
      have : (j - j') * r.step = 0 := by rw [Int.sub_mul]; omega
      rcases Int.mul_eq_zero.1 this with h | h
      · exact ⟨h0, by omega⟩
      · exact absurd h hstep
    refine ⟨⟨?_, hback⟩, ?_⟩
    · rintro ⟨h0, h1⟩
      have := (hden (l.start + j * l.stride)).1 ⟨j, h0, h1, rfl⟩
      rw [hst, hsP] at this
      exact ⟨h0, this.2⟩
    · rintro _
      rw [hst, hsP]
  · refine ⟨⟨fun h => absurd h.2 (by omega), ?_⟩, fun h => absurd h.2 (by omega)⟩
    rintro ⟨h0, h1⟩
    obtain ⟨j', h2, h3, h4⟩ := (hden (pyStart n r.startOpt r.step + j * r.step)).2 ⟨⟨j, h0, rfl⟩, h1⟩
    omega

theorem slice_size_le {r : IRange} {n : Int} {l : Lin} (hn : 0 ≤ n) (hstep : r.step ≠ 0) (hn2 : n ≤ i64Max)
    (h : applySingleLinearIndex r n = .ok l) : 0 ≤ l.size ∧ l.size ≤ n := by
  obtain ⟨_, hs0, hst, hden, hin⟩ := slice_selects_exactly hn hstep hn2 h
  refine ⟨hs0, ?_⟩
  by_cases hsz : 0 < l.size
  · have hst := hst hsz
    have h1 := hin l.start ⟨0, by omega, hsz, by omega⟩
    have h2 := hin (l.start + (l.size - 1) * l.stride) ⟨l.size - 1, by omega, by omega, rfl⟩
    rw [hst] at h2
    by_cases hk : r.step > 0
    · have : l.size - 1 ≤ (l.size - 1) * r.step := by
        have := Int.mul_le_mul_of_nonneg_left (show 1 ≤ r.step by omega) (show 0 ≤ l.size - 1 by omega)
        omega
      omega
    · have : l.size - 1 ≤ (l.size - 1) * (-r.step) := by
        have := Int.mul_le_mul_of_nonneg_left (show 1 ≤ -r.step by omega) (show 0 ≤ l.size - 1 by omega)
        omega
      rw [Int.mul_neg] at this
      omega
  · omega

theorem slice_throw_only {r : IRange} {n : Int} {x : Exc} (hs : r.step ≠ 0) (h : applySingleLinearIndex r n = .throw x) :
    x = .irangeOutOfBounds := by
  have hpos : ∀ a b x, linPos a b r.step ≠ .throw x := by
    intro a b x; unfold linPos i64; simp only
    repeat' (first | split | rw [Res.bind_ok] | rw [Res.bind_ub])
    all_goals simp
  have hneg : ∀ a b x, linNeg a b r.step ≠ .throw x := by
    intro a b x; unfold linNeg i64; simp only
    repeat' (first | split | rw [Res.bind_ok] | rw [Res.bind_ub])
    all_goals simp
  unfold applySingleLinearIndex at h
  rw [if_neg hs] at h
  split at h
  · repeat' split at h
    all_goals simp only [Res.bind_ok, Res.bind_throw, hpos, Res.throw.injEq] at h
    all_goals exact h.symm
  · repeat' split at h
    all_goals simp only [Res.bind_ok, Res.bind_throw, hneg, Res.throw.injEq] at h
    all_goals exact h.symm

theorem srcIndex_slice {r : IRange} {n : Int} {l : Lin} (hn : 0 ≤ n) (hstep : r.step ≠ 0) (hn2 : n ≤ i64Max)
    (h : applySingleLinearIndex r n = .ok l) (js : List Int) :
    srcIndex n r js = match js with
      | [] => none
      | j :: js => if 0 ≤ j ∧ j < l.size then some (l.start + j * l.stride, js) else none := by
  cases js with
  | nil => simp [srcIndex, hstep]
  | cons j js =>
    unfold srcIndex
    rw [if_neg hstep]
    obtain ⟨h1, h2⟩ := slice_nth hn hstep hn2 h j
    simp only []
    by_cases hc : 0 ≤ j ∧ j < l.size
    · rw [if_pos hc, if_pos (h1.1 hc), h2 hc]
    · rw [if_neg hc, if_neg (fun h => hc (h1.2 h))]

theorem srcIndex_full (n j : Int) (js : List Int) (hn : 0 ≤ n) :
    srcIndex n IRange.full (j :: js) = if 0 ≤ j ∧ j < n then some (j, js) else none := by
  have e1 : (IRange.full).startOpt = none := rfl
  have e2 : (IRange.full).finishOpt = none := rfl
  have e3 : (IRange.full).step = 1 := rfl
  unfold srcIndex
  rw [e1, e2, e3]
  simp [pyStart, pyStop]

theorem isNop_iff (r : IRange) : r.isNop = true ↔ r = IRange.full := by
  obtain ⟨a, b, c⟩ := r
  simp [IRange.isNop, IRange.full, and_assoc]

/-! ### The element functions -/

theorem pickOf_nil (mem : QMem) (emb : Nat) : ∀ (dims : List QDim) (metas : List QMeta) (a : Int) (b : Nat) (js : List Int),
    pickOf mem emb dims metas a b [] js = elemOf mem emb dims metas a b js := by
  intro dims
  induction dims with
  | nil =>
    intro metas a b js
    cases metas <;> cases js <;> simp [pickOf, elemOf]
  | cons d e ih =>
    intro metas a b js
    cases metas with
    | nil => cases d <;> cases js <;> simp [pickOf, elemOf]
    | cons m ms =>
      cases d <;> cases m <;> cases js <;> simp [pickOf, elemOf, ih]

/-- every level names its block -/
def QNamed (ms : List QMeta) : Prop := ∀ m ∈ ms, (∀ s o, m ≠ .var none s o) ∧ ∀ o, m ≠ .ptr none o

theorem elemOf_named (mem : QMem) (emb emb' : Nat) : ∀ (dims : List QDim) (metas : List QMeta) (a : Int) (b : Nat) (js : List Int),
    QNamed metas → elemOf mem emb' dims metas a b js = elemOf mem emb dims metas a b js := by
  intro dims
  induction dims with
  | nil => intro metas a b js _; cases metas <;> cases js <;> simp [elemOf]
  | cons d e ih =>
    intro metas a b js hN
    cases metas with
    | nil => cases d <;> cases js <;> simp [elemOf]
    | cons m ms =>
      have hN' : QNamed ms := fun x hx => hN x (by simp [hx])
      have hm := hN m (by simp)
      cases d with
      | fixed n => cases m <;> cases js <;> simp [elemOf, ih _ _ _ _ hN']
      | var =>
        cases m with
        | var b s o =>
          cases b with
          | none => exact absurd rfl (hm.1 s o)
          | some b => cases js <;> simp [elemOf, ih _ _ _ _ hN']
        | _ => cases js <;> simp [elemOf]
      | ptr =>
        cases m with
        | ptr b o =>
          cases b with
          | none => exact absurd rfl (hm.2 o)
          | some b => simp [elemOf, ih _ _ _ _ hN']
        | _ => simp [elemOf]

theorem elemOf_fill (mem : QMem) (emb : Nat) : ∀ (dims : List QDim) (metas : List QMeta) (a : Int) (b : Nat) (js : List Int),
    elemOf mem emb dims (metas.map (QMeta.fill emb)) a b js = elemOf mem emb dims metas a b js := by
  intro dims
  induction dims with
  | nil => intro metas a b js; cases metas <;> cases js <;> simp [elemOf]
  | cons d e ih =>
    intro metas a b js
    cases metas with
    | nil => cases d <;> cases js <;> simp [elemOf]
    | cons m ms => cases d <;> cases m <;> cases js <;> simp [elemOf, QMeta.fill, ih]

theorem named_fill (emb : Nat) (ms : List QMeta) : QNamed (ms.map (QMeta.fill emb)) := by
  intro m hm
  obtain ⟨x, _, rfl⟩ := List.mem_map.1 hm
  cases x <;> simp [QMeta.fill]

theorem fill_named (x : Nat) (ms : List QMeta) (h : QNamed ms) : ms.map (QMeta.fill x) = ms := by
  induction ms with
  | nil => rfl
  | cons m ms ih =>
    rw [List.map_cons, ih fun y hy => h y (by simp [hy])]
    have hm := h m (by simp)
    cases m with
    | fixed n s => rfl
    | var b s o =>
      cases b with
      | none => exact absurd rfl (hm.1 s o)
      | some b => rfl
    | ptr b o =>
      cases b with
      | none => exact absurd rfl (hm.2 o)
      | some b => rfl

theorem QWF_fill (emb : Nat) : ∀ (dims : List QDim) (ms : List QMeta), QWF dims ms → QWF dims (ms.map (QMeta.fill emb)) := by
  intro dims
  induction dims with
  | nil => intro ms h; cases ms <;> simp_all [QWF]
  | cons d e ih =>
    intro ms h
    cases ms with
    | nil => cases d <;> simp [QWF] at h
    | cons m ms =>
      cases d <;> cases m <;> simp [QWF, QMeta.fill] at h ⊢
      · exact ⟨h.1, h.2.1, ih ms h.2.2⟩
      · exact ih ms h
      · exact ih ms h.2

/-! ### The two walks -/

theorem QAccepts_nil (mem : QMem) (lead : Bool) (dims : List QDim) (metas : List QMeta) (a : Int) : QAccepts mem lead dims metas a [] := by
  cases dims <;> simp [QAccepts]

theorem QAccepts_addr (mem : QMem) : ∀ (e : List QDim) (ms : List QMeta) (rs : List IRange) (x y : Int),
    QAccepts mem false e ms x rs → QAccepts mem false e ms y rs := by
  intro e
  induction e with
  | nil => intro ms rs x y h; cases rs <;> simp [QAccepts] at h ⊢
  | cons q e ihe =>
    intro ms rs x y h
    cases rs with
    | nil => exact QAccepts_nil _ _ _ _ _
    | cons r rs =>
      cases ms with
      | nil => cases q <;> simp [QAccepts] at h
      | cons m ms =>
        cases q <;> cases m <;> simp only [QAccepts] at h ⊢
        · split at h
          · rename_i hh; rw [if_pos hh]; exact ⟨h.1, h.2.1, ihe _ _ _ _ h.2.2⟩
          · rename_i hh; rw [if_neg hh]; exact ⟨h.1, ihe _ _ _ _ h.2⟩
        · split at h
          · simp at h
          · rename_i hh; rw [if_neg hh]; exact ⟨h.1, ihe _ _ _ _ h.2⟩
        · exact ihe _ _ _ _ h

theorem qIdxTy_nil (dims : List QDim) (lead : Bool) : qIdxTy dims [] lead = .ok dims := by
  cases dims <;> simp [qIdxTy]

theorem lin_full {n : Int} (hn : 0 ≤ n) (hn1' : n < i64Max) : ∃ l, applySingleLinearIndex IRange.full n = .ok l ∧ l.remove = false := by
  have hs : (IRange.full).step ≠ 0 := by decide
  have hn1 : n ≤ i64Max := by omega
  cases hl : applySingleLinearIndex IRange.full n with
  | ok l => exact ⟨l, rfl, (slice_selects_exactly hn hs hn1 hl).1⟩
  | ub =>
    exfalso
    have hMax : i64Max = 9223372036854775807 := rfl
    have e3 : (IRange.full).step = 1 := rfl
    exact slice_no_overflow hn (by rw [e3]; omega) (by rw [e3]; omega) hl
  | throw x =>
    have hx := slice_throw_only hs hl
    subst hx
    have := (slice_throws_iff hn hn1 hs).1 hl
    have hMin : i64Min = -9223372036854775808 := rfl
    have hMax : i64Max = 9223372036854775807 := rfl
    simp only [SliceRejected, IRange.full] at this
    simp only [show (1 : Int) > 0 by decide, if_true] at this
    omega

theorem StepsOk.tail {d : QDim} {e : List QDim} {r : IRange} {rs : List IRange} (h : StepsOk (d :: e) (r :: rs)) : StepsOk e rs :=
  fun r' hr n hn => h r' (by simp [hr]) n (by simp [hn])

theorem StepsOk.sub {d : QDim} {e : List QDim} {idx : List IRange} (h : StepsOk (d :: e) idx) : StepsOk e idx :=
  fun r' hr n hn => h r' hr n (by simp [hn])

/-- What the two walks do together. -/
theorem qIdx_main (mem : QMem) (hsz : ∀ a, 0 ≤ mem.size a ∧ mem.size a < i64Max) (emb : Nat) :
    ∀ (dims : List QDim) (metas : List QMeta) (idx : List IRange) (lt ld : Bool) (d : Int) (ref : Nat),
    QWF dims metas → RowsWhole ld dims idx → StepsOk dims idx → (ld = true → lt = true) →
    (QAccepts mem ld dims metas d idx → ∃ rt o, qIdxTy dims idx lt = .ok rt ∧
      qIdxMeta mem emb dims metas idx rt ld d ref = .ok o ∧ QWF rt o.metas ∧ QNamed o.metas ∧
      (ld = false → o.data = d ∧ o.ref = ref) ∧
      ∀ a b js, (ld = true → a = d ∧ b = ref) →
        elemOf mem emb rt o.metas ((if ld = true then o.data else a) + o.off) (if ld = true then o.ref else b) js
          = pickOf mem emb dims metas a b idx js) ∧
    (¬ QAccepts mem ld dims metas d idx → (∃ x, qIdxTy dims idx lt = .throw x) ∨
      ∃ rt x, qIdxTy dims idx lt = .ok rt ∧ qIdxMeta mem emb dims metas idx rt ld d ref = .throw x) := by
  intro dims
  induction dims with
  | nil =>
    intro metas idx lt ld d ref hwf _ _ hlt
    cases metas with
    | cons m ms => simp [QWF] at hwf
    | nil =>
      cases idx with
      | nil =>
        refine ⟨fun _ => ⟨[], ⟨0, [], d, ref⟩, by simp [qIdxTy], by simp [qIdxMeta], by simp [QWF], by simp [QNamed], fun _ => ⟨rfl, rfl⟩, ?_⟩,
          fun h => absurd (QAccepts_nil _ _ _ _ _) h⟩
        intro a b js hab
        have : (if ld = true then d else a) + 0 = a ∧ (if ld = true then ref else b) = b := by
          cases ld with
          | true => simp [hab rfl]
          | false => simp
        simp only [this.1, this.2]
        cases js <;> simp [elemOf, pickOf]
      | cons r rs =>
        refine ⟨fun h => by simp [QAccepts] at h, fun _ => Or.inl ⟨_, by rw [qIdxTy]⟩⟩
  | cons dm e ih =>
    intro metas idx lt ld d ref hwf hrow hst hlt
    cases metas with
    | nil => cases dm <;> simp [QWF] at hwf
    | cons m ms =>
      have hsel : ∀ (a : Int) (b : Nat), (ld = true → a = d ∧ b = ref) → (if ld = true then d else a) = a ∧ (if ld = true then ref else b) = b := by
        intro a b hab
        cases ld with
        | true => simp [hab rfl]
        | false => simp
      cases dm with
      | fixed n =>
        cases m with
        | var b s o => simp [QWF] at hwf
        | ptr b o => simp [QWF] at hwf
        | fixed n' s =>
          obtain ⟨hn0, hn1, hwf'⟩ := hwf
          cases idx with
          | nil =>
            refine ⟨fun _ => ⟨.fixed n :: e, ⟨0, (QMeta.fixed n' s :: ms).map (QMeta.fill emb), d, ref⟩, by simp [qIdxTy], by simp [qIdxMeta],
              QWF_fill emb _ _ ⟨hn0, hn1, hwf'⟩, named_fill _ _, fun _ => ⟨rfl, rfl⟩, ?_⟩, fun h => absurd (QAccepts_nil _ _ _ _ _) h⟩
            intro a b js hab
            rw [elemOf_fill, pickOf_nil, (hsel a b hab).1, (hsel a b hab).2, Int.add_zero]
          | cons r rs =>
            have hst' := hst.tail
            by_cases hs : r.step = 0
            · -- an integer
              obtain ⟨i0, f0, k0⟩ := r
              simp only at hs
              subst hs
              obtain ⟨hin, hout⟩ := slice_single_exact i0 f0 n
              rw [RowsWhole] at hrow
              simp only [decide_true, Bool.and_true] at hrow
              by_cases hr : -n ≤ i0 ∧ i0 < n
              · obtain ⟨hl, hw0, hw1⟩ := hin hr
                obtain ⟨ih1, ih2⟩ := ih ms rs lt ld (d + pyWrap n i0 * s) ref hwf' hrow hst' hlt
                have hty : qIdxTy (.fixed n :: e) (⟨i0, f0, 0⟩ :: rs) lt = qIdxTy e rs lt := by
                  rw [qIdxTy, hl]; rfl
                have hpk : ∀ a b js, pickOf mem emb (.fixed n :: e) (.fixed n' s :: ms) a b (⟨i0, f0, 0⟩ :: rs) js
                    = pickOf mem emb e ms (a + pyWrap n i0 * s) b rs js := by
                  intro a b js
                  have : srcIndex n ⟨i0, f0, 0⟩ js = some (pyWrap n i0, js) := by
                    unfold srcIndex; rw [if_pos rfl, if_pos hr]
                  rw [pickOf, this]
                have hacc : QAccepts mem ld (.fixed n :: e) (.fixed n' s :: ms) d (⟨i0, f0, 0⟩ :: rs)
                    ↔ QAccepts mem ld e ms (d + pyWrap n i0 * s) rs := by
                  rw [QAccepts]; simp [hr]
                rw [hacc, hty]
                have hmul : s * pyWrap n i0 = pyWrap n i0 * s := Int.mul_comm _ _
                by_cases he : e = []
                · subst he
                  cases rs with
                  | cons r2 rs2 =>
                    refine ⟨fun h => by simp [QAccepts] at h, fun _ => Or.inl ⟨_, by rw [qIdxTy]⟩⟩
                  | nil =>
                    have hms : ms = [] := by cases ms <;> simp_all [QWF]
                    subst hms
                    refine ⟨fun _ => ⟨[], ⟨s * pyWrap n i0, [], d, ref⟩, by simp [qIdxTy], ?_, by simp [QWF], by simp [QNamed],
                      fun _ => ⟨rfl, rfl⟩, ?_⟩, fun h => absurd (QAccepts_nil _ _ _ _ _) h⟩
                    · simp only [qIdxMeta]
                      rw [hl, Res.bind_ok]; rfl
                    · intro a b js hab
                      rw [hpk, (hsel a b hab).1, (hsel a b hab).2, hmul, pickOf_nil]
                · -- more below
                  have hmeta : ∀ rt, qIdxMeta mem emb (.fixed n :: e) (.fixed n' s :: ms) (⟨i0, f0, 0⟩ :: rs) rt ld d ref =
                      if ld = true then qIdxMeta mem emb e ms rs rt true (d + pyWrap n i0 * s) ref
                      else (qIdxMeta mem emb e ms rs rt false d ref).bind fun c => .ok ⟨pyWrap n i0 * s + c.off, c.metas, d, ref⟩ := by
                    intro rt
                    simp only [qIdxMeta]
                    rw [hl, Res.bind_ok]
                    simp only [if_true, if_neg he, hmul]
                    rfl
                  cases ld with
                  | true =>
                    refine ⟨fun h => ?_, fun h => ?_⟩
                    · obtain ⟨rt, o, e1, e2, e3, e4, e5, e6⟩ := ih1 h
                      refine ⟨rt, o, e1, by rw [hmeta]; simpa using e2, e3, e4, by simp, ?_⟩
                      intro a b js hab
                      obtain ⟨rfl, rfl⟩ := hab rfl
                      rw [hpk]
                      exact e6 _ _ js fun _ => ⟨rfl, rfl⟩
                    · rcases ih2 h with h2 | ⟨rt, x, h2, h3⟩
                      · exact Or.inl h2
                      · exact Or.inr ⟨rt, x, h2, by rw [hmeta]; simpa using h3⟩
                  | false =>
                    obtain ⟨ih1, ih2⟩ := ih ms rs lt false d ref hwf' hrow hst' hlt
                    have hd := QAccepts_addr mem e ms rs
                    refine ⟨fun h => ?_, fun h => ?_⟩
                    · obtain ⟨rt, o, e1, e2, e3, e4, e5, e6⟩ := ih1 (hd _ _ h)
                      refine ⟨rt, ⟨pyWrap n i0 * s + o.off, o.metas, d, ref⟩, e1, by rw [hmeta, if_neg (by simp), e2]; rfl, e3, e4, fun _ => ⟨rfl, rfl⟩, ?_⟩
                      intro a b js _
                      have := e6 (a + pyWrap n i0 * s) b js (by simp)
                      simp only [Bool.false_eq_true, if_false] at this ⊢
                      rw [hpk, ← this, Int.add_assoc]
                    · rcases ih2 (fun h' => h (hd _ _ h')) with h2 | ⟨rt, x, h2, h3⟩
                      · exact Or.inl h2
                      · exact Or.inr ⟨rt, x, h2, by rw [hmeta, if_neg (by simp), h3]; rfl⟩
              · refine ⟨fun h => ?_, fun _ => Or.inl ⟨.indexOutOfBounds, ?_⟩⟩
                · rw [QAccepts] at h
                  simp only [if_true] at h
                  exact absurd ⟨h.1, h.2.1⟩ hr
                · rw [qIdxTy, hout hr hn0]; rfl
            · -- a range
              rw [RowsWhole] at hrow
              simp only [hs, decide_false, Bool.and_false] at hrow
              have hnu := slice_no_overflow (r := r) hn0 (hst r (by simp) n (by simp)).1 (hst r (by simp) n (by simp)).2
              by_cases hrej : SliceRejected r n
              · have hth := (slice_throws_iff hn0 hn1 hs).2 hrej
                refine ⟨fun h => ?_, fun _ => Or.inl ⟨_, by rw [qIdxTy, hth]; rfl⟩⟩
                rw [QAccepts, if_neg hs] at h
                exact absurd hrej h.1
              · cases hl : applySingleLinearIndex r n with
                | ub => exact absurd hl hnu
                | throw x =>
                  refine ⟨fun h => ?_, fun _ => Or.inl ⟨x, by rw [qIdxTy, hl]; rfl⟩⟩
                  exfalso
                  have : x = .irangeOutOfBounds := slice_throw_only hs hl
                  subst this
                  exact hrej ((slice_throws_iff hn0 hn1 hs).1 hl)
                | ok l =>
                  obtain ⟨hrem, _⟩ := slice_selects_exactly hn0 hs hn1 hl
                  have hsz' := slice_size_le hn0 hs hn1 hl
                  have hacc : QAccepts mem ld (.fixed n :: e) (.fixed n' s :: ms) d (r :: rs) ↔ QAccepts mem false e ms d rs := by
                    rw [QAccepts, if_neg hs]; simp [hrej]
                  rw [hacc]
                  obtain ⟨ih1, ih2⟩ := ih ms rs false false d ref hwf' hrow hst' (by simp)
                  have hty : qIdxTy (.fixed n :: e) (r :: rs) lt = (qIdxTy e rs false).bind fun e' => .ok (.fixed l.size :: e') := by
                    rw [qIdxTy, hl, Res.bind_ok, hrem]; rfl
                  have hmeta : ∀ re, qIdxMeta mem emb (.fixed n :: e) (.fixed n' s :: ms) (r :: rs) (.fixed l.size :: re) ld d ref =
                      (qIdxMeta mem emb e ms rs re false d ref).bind fun c => .ok ⟨s * l.start + c.off, .fixed l.size (s * l.stride) :: c.metas, d, ref⟩ := by
                    intro re
                    simp only [qIdxMeta]
                    rw [hl, Res.bind_ok, hrem]; rfl
                  refine ⟨fun h => ?_, fun h => ?_⟩
                  · obtain ⟨rt, o, e1, e2, e3, e4, e5, e6⟩ := ih1 h
                    refine ⟨.fixed l.size :: rt, ⟨s * l.start + o.off, .fixed l.size (s * l.stride) :: o.metas, d, ref⟩, by rw [hty, e1]; rfl,
                      by rw [hmeta, e2]; rfl, ⟨hsz'.1, by omega, e3⟩, ?_, fun _ => ⟨rfl, rfl⟩, ?_⟩
                    · intro m hm
                      rcases List.mem_cons.1 hm with rfl | hm
                      · simp
                      · exact e4 m hm
                    · intro a b js hab
                      simp only
                      rw [(hsel a b hab).1, (hsel a b hab).2]
                      have hsrc := srcIndex_slice hn0 hs hn1 hl js
                      cases js with
                      | nil => simp only [elemOf]; simp [pickOf, hsrc]
                      | cons j js =>
                        simp only [elemOf]
                        rw [pickOf, hsrc]
                        simp only []
                        by_cases hj : 0 ≤ j ∧ j < l.size
                        · rw [if_pos hj, if_pos hj]
                          have := e6 (a + (l.start + j * l.stride) * s) b js (by simp)
                          simp only [Bool.false_eq_true, if_false] at this
                          refine Eq.trans ?_ this
                          congr 1
                          rw [Int.add_mul, Int.mul_assoc, Int.mul_comm s l.stride, Int.mul_comm s l.start]
                          omega
                        · rw [if_neg hj, if_neg hj]
                  · rcases ih2 h with ⟨x, h2⟩ | ⟨rt, x, h2, h3⟩
                    · exact Or.inl ⟨x, by rw [hty, h2]; rfl⟩
                    · exact Or.inr ⟨.fixed l.size :: rt, x, by rw [hty, h2]; rfl, by rw [hmeta, h3]; rfl⟩
      | var =>
        cases m with
        | fixed n' s => simp [QWF] at hwf
        | ptr b o => simp [QWF] at hwf
        | var blk s o =>
          have hwf' : QWF e ms := hwf
          cases idx with
          | nil =>
            refine ⟨fun _ => ⟨.var :: e, ⟨0, (QMeta.var blk s o :: ms).map (QMeta.fill emb), d, ref⟩, by simp [qIdxTy], by simp [qIdxMeta],
              QWF_fill emb _ _ hwf', named_fill _ _, fun _ => ⟨rfl, rfl⟩, ?_⟩, fun h => absurd (QAccepts_nil _ _ _ _ _) h⟩
            intro a b js hab
            rw [elemOf_fill, pickOf_nil, (hsel a b hab).1, (hsel a b hab).2, Int.add_zero]
          | cons r rs =>
            have hst' := hst.tail
            rw [RowsWhole] at hrow
            obtain ⟨hlead, hrow⟩ := hrow
            by_cases hs : r.step = 0
            · -- an integer
              have hld : ld = true := hlead hs
              subst hld
              have hltt := hlt rfl
              subst hltt
              obtain ⟨i0, f0, k0⟩ := r
              simp only at hs
              subst hs
              simp only [decide_true, Bool.and_true] at hrow
              obtain ⟨hin, hout⟩ := slice_single_exact i0 f0 (mem.size d)
              have hty : qIdxTy (.var :: e) (⟨i0, f0, 0⟩ :: rs) true = qIdxTy e rs true := by
                rw [qIdxTy]; rfl
              have hmeta : ∀ rt, qIdxMeta mem emb (.var :: e) (.var blk s o :: ms) (⟨i0, f0, 0⟩ :: rs) rt true d ref =
                  (applySingleLinearIndex ⟨i0, f0, 0⟩ (mem.size d)).bind fun l => if l.remove = true then
                    qIdxMeta mem emb e ms rs rt true (mem.ptr d + o + l.start * s) (blk.getD emb)
                    else if IRange.isNop ⟨i0, f0, 0⟩ = true then match rt with
                      | .var :: re => (qIdxMeta mem emb e ms rs re false d ref).bind fun c =>
                          .ok ⟨0, .var (some (blk.getD emb)) s (o + c.off) :: c.metas, d, ref⟩
                      | _ => .ub
                    else .throw .runtime := by
                intro rt
                simp only [qIdxMeta]
                rfl
              rw [hty]
              by_cases hr : -(mem.size d) ≤ i0 ∧ i0 < mem.size d
              · obtain ⟨hl, hw0, hw1⟩ := hin hr
                obtain ⟨ih1, ih2⟩ := ih ms rs true true (mem.ptr d + o + pyWrap (mem.size d) i0 * s) (blk.getD emb) hwf' hrow hst' (fun h => h)
                have hacc : QAccepts mem true (.var :: e) (.var blk s o :: ms) d (⟨i0, f0, 0⟩ :: rs)
                    ↔ QAccepts mem true e ms (mem.ptr d + o + pyWrap (mem.size d) i0 * s) rs := by
                  rw [QAccepts]; simp [hr]
                have hmeta' : ∀ rt, qIdxMeta mem emb (.var :: e) (.var blk s o :: ms) (⟨i0, f0, 0⟩ :: rs) rt true d ref =
                    qIdxMeta mem emb e ms rs rt true (mem.ptr d + o + pyWrap (mem.size d) i0 * s) (blk.getD emb) := by
                  intro rt; rw [hmeta, hl]; rfl
                rw [hacc]
                refine ⟨fun h => ?_, fun h => ?_⟩
                · obtain ⟨rt, q, e1, e2, e3, e4, e5, e6⟩ := ih1 h
                  refine ⟨rt, q, e1, by rw [hmeta']; exact e2, e3, e4, by simp, ?_⟩
                  intro a b js hab
                  obtain ⟨rfl, rfl⟩ := hab rfl
                  have hsrc : srcIndex (mem.size a) ⟨i0, f0, 0⟩ js = some (pyWrap (mem.size a) i0, js) := by
                    unfold srcIndex; rw [if_pos rfl, if_pos hr]
                  rw [pickOf, hsrc]
                  exact e6 _ _ js fun _ => ⟨rfl, rfl⟩
                · rcases ih2 h with h2 | ⟨rt, x, h2, h3⟩
                  · exact Or.inl h2
                  · exact Or.inr ⟨rt, x, h2, by rw [hmeta']; exact h3⟩
              · refine ⟨fun h => ?_, fun _ => ?_⟩
                · rw [QAccepts] at h
                  simp only [if_true, true_and] at h
                  exact absurd ⟨h.1, h.2.1⟩ hr
                · obtain ⟨ih1, ih2⟩ := ih ms rs true true d ref hwf' hrow hst' (fun h => h)
                  have hth : ∀ rt, qIdxMeta mem emb (.var :: e) (.var blk s o :: ms) (⟨i0, f0, 0⟩ :: rs) rt true d ref = .throw .indexOutOfBounds := by
                    intro rt; rw [hmeta, hout hr (hsz d).1]; rfl
                  by_cases hacc : QAccepts mem true e ms d rs
                  · obtain ⟨rt, q, e1, _⟩ := ih1 hacc
                    exact Or.inr ⟨rt, _, e1, hth rt⟩
                  · rcases ih2 hacc with h2 | ⟨rt, x, h2, _⟩
                    · exact Or.inl h2
                    · exact Or.inr ⟨rt, _, h2, hth rt⟩
            · -- a range
              simp only [hs, decide_false, Bool.and_false] at hrow
              by_cases hf : r = IRange.full
              · subst hf
                obtain ⟨l, hl, hrem⟩ := lin_full (hsz d).1 (hsz d).2
                have hnop : IRange.full.isNop = true := by decide
                have hacc : QAccepts mem ld (.var :: e) (.var blk s o :: ms) d (IRange.full :: rs) ↔ QAccepts mem false e ms d rs := by
                  rw [QAccepts, if_neg hs]; simp
                rw [hacc]
                obtain ⟨ih1, ih2⟩ := ih ms rs false false d ref hwf' hrow hst' (by simp)
                have hty : qIdxTy (.var :: e) (IRange.full :: rs) lt = (qIdxTy e rs false).bind fun e' => .ok (.var :: e') := by
                  rw [qIdxTy, if_neg hs, hnop]; rfl
                have hmeta : ∀ re, qIdxMeta mem emb (.var :: e) (.var blk s o :: ms) (IRange.full :: rs) (.var :: re) ld d ref =
                    (qIdxMeta mem emb e ms rs re false d ref).bind fun c => .ok ⟨0, .var (some (blk.getD emb)) s (o + c.off) :: c.metas, d, ref⟩ := by
                  intro re
                  simp only [qIdxMeta]
                  cases ld with
                  | true => rw [if_pos rfl, hl, Res.bind_ok, hrem, hnop]; rfl
                  | false => rw [if_neg (by simp), if_neg hs, hnop]; rfl
                refine ⟨fun h => ?_, fun h => ?_⟩
                · obtain ⟨rt, q, e1, e2, e3, e4, e5, e6⟩ := ih1 h
                  refine ⟨.var :: rt, ⟨0, .var (some (blk.getD emb)) s (o + q.off) :: q.metas, d, ref⟩, by rw [hty, e1]; rfl,
                    by rw [hmeta, e2]; rfl, e3, ?_, fun _ => ⟨rfl, rfl⟩, ?_⟩
                  · intro m hm
                    rcases List.mem_cons.1 hm with rfl | hm
                    · simp
                    · exact e4 m hm
                  · intro a b js hab
                    simp only
                    rw [(hsel a b hab).1, (hsel a b hab).2, Int.add_zero]
                    cases js with
                    | nil => simp [elemOf, pickOf, srcIndex, hs]
                    | cons j js =>
                      simp only [elemOf, Option.getD_some]
                      rw [pickOf, srcIndex_full _ _ _ (hsz a).1]
                      by_cases hj : 0 ≤ j ∧ j < mem.size a
                      · rw [if_pos hj, if_pos hj]
                        have := e6 (mem.ptr a + o + j * s) (blk.getD emb) js (by simp)
                        simp only [Bool.false_eq_true, if_false] at this
                        refine Eq.trans ?_ this
                        congr 1
                        omega
                      · rw [if_neg hj, if_neg hj]
                · rcases ih2 h with ⟨x, h2⟩ | ⟨rt, x, h2, h3⟩
                  · exact Or.inl ⟨x, by rw [hty, h2]; rfl⟩
                  · exact Or.inr ⟨.var :: rt, x, by rw [hty, h2]; rfl, by rw [hmeta, h3]; rfl⟩
              · refine ⟨fun h => ?_, fun _ => Or.inl ⟨.runtime, ?_⟩⟩
                · rw [QAccepts, if_neg hs] at h
                  exact absurd h.1 hf
                · rw [qIdxTy, if_neg hs, if_neg (fun h => hf ((isNop_iff r).1 h))]
      | ptr =>
        cases m with
        | fixed n' s => simp [QWF] at hwf
        | var b s o => simp [QWF] at hwf
        | ptr blk o =>
          obtain ⟨hb, hwf'⟩ := hwf
          have hrow' : RowsWhole false e idx := by
            cases idx with
            | nil => cases e <;> simp [RowsWhole]
            | cons r rs => exact hrow
          obtain ⟨ih1, ih2⟩ := ih ms idx lt false d ref hwf' hrow' hst.sub (by simp)
          have hacc : QAccepts mem ld (.ptr :: e) (.ptr blk o :: ms) d idx ↔ QAccepts mem false e ms d idx := by
            cases idx with
            | nil => exact ⟨fun _ => QAccepts_nil _ _ _ _ _, fun _ => QAccepts_nil _ _ _ _ _⟩
            | cons r rs => rw [QAccepts]
          have hty : qIdxTy (.ptr :: e) idx lt = (qIdxTy e idx lt).bind fun e' => .ok (.ptr :: e') := by
            cases idx with
            | nil => rw [qIdxTy_nil, qIdxTy_nil]; rfl
            | cons r rs => rw [qIdxTy]; rfl
          have hmeta : ∀ re, qIdxMeta mem emb (.ptr :: e) (.ptr blk o :: ms) idx (.ptr :: re) ld d ref =
              (qIdxMeta mem emb e ms idx re false d ref).bind fun c => .ok ⟨0, .ptr blk (o + c.off) :: c.metas, d, ref⟩ := by
            intro re
            simp only [qIdxMeta]; rfl
          rw [hacc]
          refine ⟨fun h => ?_, fun h => ?_⟩
          · obtain ⟨rt, q, e1, e2, e3, e4, e5, e6⟩ := ih1 h
            refine ⟨.ptr :: rt, ⟨0, .ptr blk (o + q.off) :: q.metas, d, ref⟩, by rw [hty, e1]; rfl, by rw [hmeta, e2]; rfl, ⟨hb, e3⟩, ?_,
              fun _ => ⟨rfl, rfl⟩, ?_⟩
            · intro m hm
              rcases List.mem_cons.1 hm with rfl | hm
              · refine ⟨by simp, ?_⟩
                intro o' ho
                cases ho
                exact hb rfl
              · exact e4 m hm
            · intro a b js hab
              simp only
              rw [(hsel a b hab).1, (hsel a b hab).2, Int.add_zero]
              simp only [elemOf]
              rw [pickOf]
              have := e6 (mem.ptr a + o) (blk.getD emb) js (by simp)
              simp only [Bool.false_eq_true, if_false] at this
              refine Eq.trans ?_ this
              congr 1
              omega
          · rcases ih2 h with ⟨x, h2⟩ | ⟨rt, x, h2, h3⟩
            · exact Or.inl ⟨x, by rw [hty, h2]; rfl⟩
            · exact Or.inr ⟨.ptr :: rt, x, by rw [hty, h2]; rfl, by rw [hmeta, h3]; rfl⟩

/-! ### Theorems -/

/-- an array as a program can have it: arrmeta of the shape of the type, pointers with their blocks -/
def QArr.WF (a : QArr) : Prop := QWF a.dims a.metas

theorem qIndexable_false {dims : List QDim} {ms : List QMeta} (hwf : QWF dims ms) (h : qIndexable dims = false) (mem : QMem) (lead : Bool) (a : Int)
    {r : IRange} {rs : List IRange} : ¬ QAccepts mem lead dims ms a (r :: rs) := by
  induction dims generalizing ms lead with
  | nil => cases ms <;> simp [QAccepts]
  | cons d e ih =>
    cases d with
    | fixed n => simp [qIndexable] at h
    | var => simp [qIndexable] at h
    | ptr =>
      rw [qIndexable] at h
      cases ms with
      | nil => simp [QAccepts]
      | cons m ms =>
        cases m with
        | ptr b o => rw [QAccepts]; exact ih hwf.2 h false
        | _ => simp [QAccepts]

/-- C110: indexing with integers and ranges, through dimensions of fixed and variable size and through pointers, gives an
    array whose elements are exactly the elements meant, each held by the same block as before, provided that no integer is
    given for a variable-size dimension after a range; indices that are not acceptable raise. -/
theorem ragged_index_exact_partial (mem : QMem) (hsz : ∀ a, 0 ≤ mem.size a ∧ mem.size a < i64Max) (a : QArr) (idx : List IRange)
    (collapse : Bool) (fresh : Nat) (hwf : a.WF) (hrow : RowsWhole collapse a.dims idx) (hst : StepsOk a.dims idx) :
    (QAccepts mem collapse a.dims a.metas a.data idx → ∃ r, qAtArray mem a idx collapse fresh = .ok r ∧ r.WF ∧
      ∀ js, r.elem mem js = a.pick mem idx js) ∧
    (¬ QAccepts mem collapse a.dims a.metas a.data idx → ∃ x, qAtArray mem a idx collapse fresh = .throw x) := by
  obtain ⟨h1, h2⟩ := qIdx_main mem hsz a.self a.dims a.metas idx collapse collapse a.data (a.owner.getD a.self) hwf hrow hst (fun h => h)
  cases hi : qIndexable a.dims with
  | false =>
    cases idx with
    | nil =>
      refine ⟨fun _ => ⟨a, by rw [qAtArray, hi]; rfl, hwf, fun js => ?_⟩, fun h => absurd (QAccepts_nil _ _ _ _ _) h⟩
      rw [QArr.elem, QArr.pick, pickOf_nil]
    | cons r rs =>
      refine ⟨fun h => absurd h (qIndexable_false hwf hi _ _ _), fun _ => ⟨.tooManyIndices, by rw [qAtArray, hi]; rfl⟩⟩
  | true =>
    refine ⟨fun h => ?_, fun h => ?_⟩
    · obtain ⟨rt, o, e1, e2, e3, e4, e5, e6⟩ := h1 h
      refine ⟨⟨rt, o.metas, o.data + o.off, some o.ref, fresh⟩, ?_, e3, ?_⟩
      · rw [qAtArray, hi, if_pos rfl, e1, Res.bind_ok, e2, Res.bind_ok, fill_named _ _ e4]; rfl
      · intro js
        rw [QArr.elem, QArr.pick]
        simp only [Option.getD_some]
        rw [elemOf_named mem a.self fresh _ _ _ _ _ e4, ← e6 a.data (a.owner.getD a.self) js (fun _ => ⟨rfl, rfl⟩)]
        cases collapse with
        | true => rfl
        | false => simp only [Bool.false_eq_true, if_false]; rw [(e5 rfl).1, (e5 rfl).2]
    · rcases h2 h with ⟨x, h3⟩ | ⟨rt, x, h3, h4⟩
      · exact ⟨x, by rw [qAtArray, hi, if_pos rfl, h3]; rfl⟩
      · exact ⟨x, by rw [qAtArray, hi, if_pos rfl, h3, Res.bind_ok, h4]; rfl⟩

theorem srcIndex_in {n : Int} {r : IRange} {js : List Int} {i : Int} {js' : List Int} (hn : 0 ≤ n) (h : srcIndex n r js = some (i, js')) :
    0 ≤ i ∧ i < n := by
  unfold srcIndex at h
  split at h
  · split at h
    · rename_i hr
      simp only [Option.some.injEq, Prod.mk.injEq] at h
      rw [← h.1, pyWrap]
      split <;> omega
    · cases h
  · rename_i hs
    cases js with
    | nil => simp at h
    | cons j js =>
      simp only at h
      by_cases hk : r.step > 0
      · simp only [if_pos hk] at h
        split at h
        · rename_i hc
          simp only [Option.some.injEq, Prod.mk.injEq] at h
          rw [← h.1]
          have h1 := Int.mul_nonneg hc.1 (Int.le_of_lt hk)
          have h2 : 0 ≤ pyStart n r.startOpt r.step := by
            unfold pyStart; split <;> simp only [hk, if_true] <;> omega
          have h3 : pyStop n r.finishOpt r.step ≤ n := by
            unfold pyStop; split <;> simp only [hk, if_true] <;> omega
          omega
        · cases h
      · simp only [if_neg hk] at h
        split at h
        · rename_i hc
          simp only [Option.some.injEq, Prod.mk.injEq] at h
          rw [← h.1]
          have h1 := Int.mul_nonneg hc.1 (show 0 ≤ -r.step by omega)
          rw [Int.mul_neg] at h1
          have h2 : pyStart n r.startOpt r.step ≤ n - 1 := by
            unfold pyStart; split <;> simp only [hk, if_false] <;> omega
          have h3 : -1 ≤ pyStop n r.finishOpt r.step := by
            unfold pyStop; split <;> simp only [hk, if_false] <;> omega
          omega
        · cases h

theorem pickOf_elem (mem : QMem) (hsz : ∀ a, 0 ≤ mem.size a) (emb : Nat) : ∀ (dims : List QDim) (metas : List QMeta) (a : Int) (b : Nat)
    (idx : List IRange) (js : List Int) (x : Int × Nat), QWF dims metas → pickOf mem emb dims metas a b idx js = some x →
    ∃ is, elemOf mem emb dims metas a b is = some x := by
  intro dims
  induction dims with
  | nil =>
    intro metas a b idx js x hwf h
    cases metas with
    | cons m ms => simp [QWF] at hwf
    | nil =>
      cases idx with
      | cons r rs => simp [pickOf] at h
      | nil => exact ⟨js, by rw [← pickOf_nil]; exact h⟩
  | cons d e ih =>
    intro metas a b idx js x hwf h
    cases metas with
    | nil => cases d <;> simp [QWF] at hwf
    | cons m ms =>
      cases idx with
      | nil => exact ⟨js, by rw [← pickOf_nil]; exact h⟩
      | cons r rs =>
        cases d with
        | fixed n =>
          cases m with
          | fixed n' s =>
            rw [pickOf] at h
            cases hs : srcIndex n r js with
            | none => rw [hs] at h; cases h
            | some p =>
              obtain ⟨i, js'⟩ := p
              rw [hs] at h
              obtain ⟨is, his⟩ := ih ms _ _ _ _ x hwf.2.2 h
              have := srcIndex_in hwf.1 hs
              exact ⟨i :: is, by rw [elemOf, if_pos this]; exact his⟩
          | _ => simp [QWF] at hwf
        | var =>
          cases m with
          | var b' s o =>
            rw [pickOf] at h
            cases hs : srcIndex (mem.size a) r js with
            | none => rw [hs] at h; cases h
            | some p =>
              obtain ⟨i, js'⟩ := p
              rw [hs] at h
              obtain ⟨is, his⟩ := ih ms _ _ _ _ x hwf h
              have := srcIndex_in (hsz a) hs
              exact ⟨i :: is, by rw [elemOf, if_pos this]; exact his⟩
          | _ => simp [QWF] at hwf
        | ptr =>
          cases m with
          | ptr b' o =>
            rw [pickOf] at h
            obtain ⟨is, his⟩ := ih ms _ _ _ _ x hwf.2 h
            exact ⟨is, by rw [elemOf]; exact his⟩
          | _ => simp [QWF] at hwf

/-- C110: the elements of an indexed array are elements of the array that was indexed, held by the same blocks: nothing
    outside of it can be reached. -/
theorem ragged_index_inside_partial (mem : QMem) (hsz : ∀ a, 0 ≤ mem.size a ∧ mem.size a < i64Max) (a : QArr) (idx : List IRange)
    (collapse : Bool) (fresh : Nat) (hwf : a.WF) (hrow : RowsWhole collapse a.dims idx) (hst : StepsOk a.dims idx) (r : QArr)
    (h : qAtArray mem a idx collapse fresh = .ok r) (js : List Int) (x : Int × Nat) (hx : r.elem mem js = some x) :
    ∃ is, a.elem mem is = some x := by
  obtain ⟨h1, h2⟩ := ragged_index_exact_partial mem hsz a idx collapse fresh hwf hrow hst
  by_cases hacc : QAccepts mem collapse a.dims a.metas a.data idx
  · obtain ⟨r', e1, _, e2⟩ := h1 hacc
    rw [e1] at h
    cases h
    rw [e2] at hx
    exact pickOf_elem mem (fun a => (hsz a).1) a.self _ _ _ _ idx js x hwf hx
  · obtain ⟨y, hy⟩ := h2 hacc
    rw [hy] at h; cases h

/-! ### An integer for the rows -/

/-- C110 (violated): a range followed by an integer, on an array of rows of variable size, takes element `k` of every row
    without looking at the size of the row or counting from the end, and ignores where the data of the rows starts. -/
theorem ragged_column_unchecked (mem : QMem) (n n' s1 s o : Int) (blk : Option Nat) (data : Int) (owner : Option Nat) (self fresh : Nat)
    (k : Int) (hn : 0 ≤ n) (hn1 : n < i64Max) : ∃ r, qCall mem ⟨[.fixed n, .var], [.fixed n' s1, .var blk s o], data, owner, self⟩
      [IRange.full, IRange.single k] fresh = .ok r ∧ r.dims = [.fixed n, .ptr] ∧
      ∀ j, 0 ≤ j → j < n → r.elem mem [j] = some (mem.ptr (data + j * s1) + k * s, blk.getD self) := by
  obtain ⟨l, hl, hrem⟩ := lin_full hn hn1
  have hs : (IRange.full).step ≠ 0 := by decide
  have hsize : l.size = n := by
    have h1 := slice_nth hn hs (by omega) hl
    have hsz := slice_size_le hn hs (by omega) hl
    have e1 : (IRange.full).startOpt = none := rfl
    have e2 : (IRange.full).finishOpt = none := rfl
    have e3 : (IRange.full).step = 1 := rfl
    by_cases hc : l.size < n
    · have := (h1 l.size).1.2
      rw [e1, e2, e3] at this
      simp only [pyStart, pyStop] at this
      have := this ⟨hsz.1, by simp; omega⟩
      omega
    · omega
  have hpos : ∀ j, 0 ≤ j → j < n → l.start + j * l.stride = j := by
    intro j h0 h1
    have := (slice_nth hn hs (by omega) hl j).2 ⟨h0, by omega⟩
    rw [this]
    have e1 : (IRange.full).startOpt = none := rfl
    have e3 : (IRange.full).step = 1 := rfl
    rw [e1, e3]; simp [pyStart]
  have hty : qIdxTy [.fixed n, .var] [IRange.full, IRange.single k] true = .ok [.fixed n, .ptr] := by
    rw [qIdxTy, hl, Res.bind_ok, hrem, hsize]; rfl
  have hmeta : qIdxMeta mem self [.fixed n, .var] [.fixed n' s1, .var blk s o] [IRange.full, IRange.single k] [.fixed n, .ptr] true data
      (owner.getD self) = .ok ⟨s1 * l.start + 0, [.fixed n (s1 * l.stride), .ptr (some (blk.getD self)) (k * s + 0)], data, owner.getD self⟩ := by
    simp only [qIdxMeta]
    rw [hl, Res.bind_ok, hrem, hsize]; rfl
  refine ⟨⟨[.fixed n, .ptr], [.fixed n (s1 * l.stride), .ptr (some (blk.getD self)) (k * s + 0)], data + (s1 * l.start + 0),
    some (owner.getD self), fresh⟩, ?_, rfl, ?_⟩
  · rw [qCall, qAtArray, if_pos (show qIndexable [.fixed n, .var] = true from rfl)]
    refine Eq.trans (congrArg (fun r => Res.bind r _) hty) ?_
    show (qIdxMeta mem self [.fixed n, .var] [.fixed n' s1, .var blk s o] [IRange.full, IRange.single k]
      [.fixed n, .ptr] true data (owner.getD self)).bind _ = _
    rw [hmeta]
    rfl
  · intro j h0 h1
    simp only [QArr.elem, elemOf, if_pos (show 0 ≤ j ∧ j < n from ⟨h0, h1⟩), Option.getD_some, Int.add_zero]
    have : data + s1 * l.start + j * (s1 * l.stride) = data + j * s1 := by
      have h := hpos j h0 h1
      have : s1 * (l.start + j * l.stride) = s1 * j := by rw [h]
      rw [Int.mul_add] at this
      have e : j * (s1 * l.stride) = s1 * (j * l.stride) := by rw [← Int.mul_assoc, Int.mul_comm j s1, Int.mul_assoc]
      rw [e, Int.mul_comm j s1]; omega
    rw [this]

/-- C110: for a column that every row has, counted from the start, over rows whose data starts where the arrmeta says
    (offset 0), the result is right. -/
theorem ragged_column_partial (mem : QMem) (n n' s1 s : Int) (blk : Option Nat) (data : Int) (owner : Option Nat) (self fresh : Nat)
    (k : Int) (hn : 0 ≤ n) (hn1 : n < i64Max) (hk : 0 ≤ k) (hrows : ∀ j, 0 ≤ j → j < n → k < mem.size (data + j * s1)) :
    ∃ r, qCall mem ⟨[.fixed n, .var], [.fixed n' s1, .var blk s 0], data, owner, self⟩ [IRange.full, IRange.single k] fresh = .ok r ∧
      ∀ j, 0 ≤ j → j < n →
        r.elem mem [j] = QArr.pick mem ⟨[.fixed n, .var], [.fixed n' s1, .var blk s 0], data, owner, self⟩ [IRange.full, IRange.single k] [j] := by
  obtain ⟨r, h1, _, h3⟩ := ragged_column_unchecked mem n n' s1 s 0 blk data owner self fresh k hn hn1
  refine ⟨r, h1, fun j h0 hj => ?_⟩
  rw [h3 j h0 hj]
  have hr := hrows j h0 hj
  simp only [QArr.pick]
  rw [pickOf, srcIndex_full _ _ _ hn, if_pos ⟨h0, hj⟩]
  have hsrc : srcIndex (mem.size (data + j * s1)) (IRange.single k) [] = some (k, []) := by
    unfold srcIndex
    rw [if_pos (show (IRange.single k).step = 0 from rfl)]
    rw [if_pos ⟨by simp only [IRange.single]; omega, by simpa only [IRange.single] using hr⟩]
    have hw : ∀ m, pyWrap m k = k := fun m => by unfold pyWrap; rw [if_neg (by omega)]
    show some (pyWrap _ k, ([] : List Int)) = _
    rw [hw]
  simp only [pickOf]
  rw [hsrc]
  simp only [Int.add_zero]
  rfl

/-- two rows: one element at address 100, three elements at 200 -/
def exRowMem : QMem := ⟨fun a => if a = 0 then 100 else 200, fun a => if a = 0 then 1 else 3⟩

/-- a `2 * var * int32` array over them -/
def exRowArr : QArr := ⟨[.fixed 2, .var], [.fixed 2 16, .var (some 7) 4 0], 0, none, 5⟩

/-- C110 (violated): column 2 of rows of size 1 and 3 gives an element past the end of the first row, and column -1 gives
    elements before the start of the rows. -/
theorem ragged_column_violated :
    (∃ r, qCall exRowMem exRowArr [IRange.full, IRange.single 2] 9 = .ok r ∧ r.elem exRowMem [0] = some (108, 7) ∧
      exRowArr.pick exRowMem [IRange.full, IRange.single 2] [0] = none ∧ ∀ is, exRowArr.elem exRowMem is ≠ some (108, 7)) ∧
    (∃ r, qCall exRowMem exRowArr [IRange.full, IRange.single (-1)] 9 = .ok r ∧ r.elem exRowMem [1] = some (196, 7) ∧
      exRowArr.pick exRowMem [IRange.full, IRange.single (-1)] [1] = some (208, 7) ∧ ∀ is, exRowArr.elem exRowMem is ≠ some (196, 7)) := by
  have hel : ∀ is x, exRowArr.elem exRowMem is = some x → x.1 = 100 ∨ 200 ≤ x.1 ∧ x.1 ≤ 208 ∧ x.1 % 4 = 0 := by
    intro is x h
    match is, h with
    | [], h => simp [QArr.elem, exRowArr, elemOf] at h
    | [j], h =>
      simp only [QArr.elem, exRowArr, elemOf] at h
      split at h <;> cases h
    | j :: k :: t, h =>
      simp only [QArr.elem, exRowArr, elemOf, Int.zero_add, Int.add_zero] at h
      split at h
      · rename_i hj
        split at h
        · rename_i hk
          cases t with
          | nil =>
            simp only [elemOf, Option.some.injEq] at h
            rw [← h]
            simp only [exRowMem] at hk ⊢
            by_cases hz : j * 16 = 0
            · rw [if_pos hz] at hk ⊢; omega
            · rw [if_neg hz] at hk ⊢; omega
          | cons => simp [elemOf] at h
        · cases h
      · cases h
  refine ⟨⟨_, rfl, rfl, rfl, ?_⟩, ⟨_, rfl, rfl, rfl, ?_⟩⟩
  · intro is h; have := hel is _ h; simp at this
  · intro is h; have := hel is _ h; simp at this

/-- C110 (violated): `a.vals_at(k)` on an array of variable size checks nothing. -/
theorem vals_at_unchecked (mem : QMem) (s o : Int) (blk : Option Nat) (data : Int) (owner : Option Nat) (self fresh : Nat) (k : Int) :
    ∃ r, qValsAt mem ⟨[.var], [.var blk s o], data, owner, self⟩ [IRange.single k] fresh = .ok r ∧
      r.elem mem [] = some (mem.ptr data + k * s, blk.getD self) := by
  refine ⟨⟨[.ptr], [.ptr (some (blk.getD self)) (k * s + 0)], data + 0, some (owner.getD self), fresh⟩, rfl, ?_⟩
  simp [QArr.elem, elemOf]

/-! ### Pointers -/

/-- C110 (violated): an integer index on a pointer to an array of variable size writes arrmeta that the result has no room for. -/
theorem pointer_to_ragged_ub (mem : QMem) (o1 s o : Int) (b1 b2 : Option Nat) (data : Int) (owner : Option Nat) (self fresh : Nat) (k : Int) :
    qCall mem ⟨[.ptr, .var], [.ptr b1 o1, .var b2 s o], data, owner, self⟩ [IRange.single k] fresh = .ub := rfl

/-- C110 (violated): a pointer whose arrmeta names no block (it points into the array itself) is, in an element of a
    variable-size dimension, taken to point into the block of that dimension: the array it points into is not kept. -/
theorem pointer_block_violated :
    ∃ r, qCall exRowMem ⟨[.var, .ptr], [.var (some 7) 8 0, .ptr none 0], 16, none, 5⟩ [IRange.single 0] 9 = .ok r ∧
      r.elem exRowMem [] = some (200, 7) ∧
      QArr.pick exRowMem ⟨[.var, .ptr], [.var (some 7) 8 0, .ptr none 0], 16, none, 5⟩ [IRange.single 0] [] = some (200, 5) :=
  ⟨_, rfl, rfl, rfl⟩

/-! ### Examples -/

/-- a `var * pointer[3 * var * int32]` array -/
def exDeep : QArr := ⟨[.var, .ptr, .fixed 3, .var], [.var none 8 0, .ptr (some 3) 40, .fixed 3 16, .var (some 4) 4 12], 16, some 2, 5⟩

example : exDeep.WF ∧ RowsWhole true exDeep.dims [IRange.single (-1), ⟨2, i64Min, -1⟩] ∧ StepsOk exDeep.dims [IRange.single (-1), ⟨2, i64Min, -1⟩] ∧
    QAccepts exRowMem true exDeep.dims exDeep.metas exDeep.data [IRange.single (-1), ⟨2, i64Min, -1⟩] := by
  refine ⟨⟨by simp, by decide, by decide, trivial⟩, ?_, ?_, ?_⟩
  · simp [exDeep, RowsWhole, IRange.single]
  · intro r hr n hn
    simp only [exDeep, List.mem_cons, QDim.fixed.injEq, reduceCtorEq, List.not_mem_nil, false_or, or_false] at hn
    subst hn
    simp only [List.mem_cons, List.not_mem_nil, or_false] at hr
    rcases hr with rfl | rfl <;> decide
  · refine ⟨by decide, by decide, by decide, ?_, trivial⟩
    unfold SliceRejected
    decide

example : ∃ r, qCall exRowMem exDeep [IRange.single (-1), ⟨2, i64Min, -1⟩] 9 = .ok r ∧ r.dims = [.ptr, .fixed 3, .var] ∧
    r.elem exRowMem [0, 2] = some (200 + 12 + 8, 4) := ⟨_, rfl, rfl, by decide⟩

example : (∀ a, 0 ≤ exRowMem.size a ∧ exRowMem.size a < i64Max) := by
  intro a
  simp only [exRowMem]
  split <;> decide

end Dynd
