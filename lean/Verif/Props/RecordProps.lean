/-
Properties of record assignment and record comparison (C78, C79).
-/
import Verif.Model.Records
import Verif.Props.StructProps
import Mathlib.Tactic.SplitIfs

namespace Dynd

/-! ## Specification -/

/-- A record type as the constructors build it: one name and one arrmeta offset per field. -/
def RecTy.Wf {τ : Type} (t : RecTy τ) : Prop :=
  t.names.length = t.types.length ∧ t.arrOffs.length = t.types.length

/-- The item pairs destination field `i` with source field `j`, each with its own type and data offset, and the
    destination's own arrmeta. -/
def Pairs {τ : Type} (d s : RecTy τ) (dd sd : List Nat) (i j : Nat) (it : Item τ) : Prop :=
  d.types[i]? = some it.dstTy ∧ dd[i]? = some it.dstOff ∧ d.arrOffs[i]? = some it.dstArr ∧
  s.types[j]? = some it.srcTy ∧ sd[j]? = some it.srcOff

/-- Fields `i` and `j` carry the same name. -/
def SameName {τ : Type} (d s : RecTy τ) (i j : Nat) : Prop :=
  ∃ n, d.names[i]? = some n ∧ s.names[j]? = some n

/-- Two byte ranges that do not overlap. -/
def Apart (a n b k : Nat) : Prop := a + n ≤ b ∨ b + k ≤ a

/-- A child kernel fills its destination field, no more and no less. -/
def FieldCk.Sized (c : FieldCk) : Prop := ∀ o s, (c.run o s).1.length = c.dsz

/-! ## Lemmas -/

theorem rdAt_eq_ok {β : Type} {l : List β} {i : Nat} {x : β} : rdAt l i = .ok x ↔ l[i]? = some x := by
  unfold rdAt; split <;> simp_all

theorem rdAt_lt {β : Type} {l : List β} {i : Nat} (h : i < l.length) : ∃ x, rdAt l i = .ok x ∧ l[i]? = some x :=
  ⟨l[i], by simp [rdAt, h], by simp [h]⟩

theorem forN_eq_ok {β : Type} {f : Nat → Res β} {n : Nat} {l : List β} :
    forN f n = .ok l ↔ l.length = n ∧ ∀ i < n, ∃ x, l[i]? = some x ∧ f i = .ok x := by
  induction n generalizing l with
  | zero =>
    simp only [forN, Res.ok.injEq]
    constructor
    · rintro rfl; exact ⟨rfl, by omega⟩
    · rintro ⟨h, -⟩; exact (List.length_eq_zero_iff.1 h).symm
  | succ n ih =>
    simp only [forN, Res.bind_eq_ok, Res.pure_eq, Res.ok.injEq]
    constructor
    · rintro ⟨l0, h0, x, hx, rfl⟩
      obtain ⟨h1, h2⟩ := ih.1 h0
      refine ⟨by simp [h1], fun i hi => ?_⟩
      rcases Nat.lt_or_ge i n with h | h
      · obtain ⟨y, hy, hy2⟩ := h2 i h
        exact ⟨y, by rw [List.getElem?_append_left (by omega)]; exact hy, hy2⟩
      · have : i = n := by omega
        subst this
        exact ⟨x, by rw [List.getElem?_append_right (by omega)]; simp [h1], hx⟩
    · rintro ⟨h1, h2⟩
      obtain ⟨x, hx, hx2⟩ := h2 n (by omega)
      refine ⟨l.take n, ih.2 ⟨by simp [h1], fun i hi => ?_⟩, x, hx2, ?_⟩
      · obtain ⟨y, hy, hy2⟩ := h2 i (by omega)
        exact ⟨y, by rw [List.getElem?_take_of_lt hi]; exact hy, hy2⟩
      · have e : l.take (n + 1) = l := List.take_of_length_le (by omega)
        have h3 := List.take_add_one (l := l) (i := n)
        rw [hx, e] at h3; simpa using h3.symm

theorem forN_ok_of {β : Type} {f : Nat → Res β} {n : Nat} (h : ∀ i < n, ∃ x, f i = .ok x) :
    ∃ l, forN f n = .ok l := by
  induction n with
  | zero => exact ⟨[], rfl⟩
  | succ n ih =>
    obtain ⟨l, hl⟩ := ih (fun i hi => h i (by omega))
    obtain ⟨x, hx⟩ := h n (by omega)
    exact ⟨l ++ [x], by simp [forN, hl, hx]⟩

theorem forN_throw_of {β : Type} {f : Nat → Res β} {n k : Nat} {e : Exc} (hk : k < n) (h : ∀ i < k, ∃ x, f i = .ok x)
    (he : f k = .throw e) : forN f n = .throw e := by
  induction n with
  | zero => omega
  | succ n ih =>
    by_cases hkn : k < n
    · simp [forN, ih hkn]
    · have : k = n := by omega
      subst this
      obtain ⟨l, hl⟩ := forN_ok_of h
      simp [forN, hl, he]

/-- The least index satisfying a predicate. -/
private theorem least {P : Nat → Prop} {n : Nat} (h : ∃ i < n, P i) : ∃ k < n, P k ∧ ∀ j < k, ¬ P j := by
  classical
  obtain ⟨i, hi, hp⟩ := h
  induction i using Nat.strong_induction_on with
  | _ i ih =>
    by_cases hj : ∃ j < i, P j
    · obtain ⟨j, hj1, hj2⟩ := hj; exact ih j hj1 (by omega) hj2
    · exact ⟨i, hi, hp, fun j hj1 hj2 => hj ⟨j, hj1, hj2⟩⟩

theorem some_of_lt {β : Type} {l : List β} {i : Nat} (h : i < l.length) : ∃ x, l[i]? = some x :=
  ⟨l[i], by simp [h]⟩

theorem lt_of_some {β : Type} {l : List β} {i : Nat} {x : β} (h : l[i]? = some x) : i < l.length :=
  (List.getElem?_eq_some_iff.1 h).1

/-! ## C78: assignment plans -/

/-- **C78** (tuples): assignment of a tuple is refused exactly when the field counts differ; with at most eight fields
    the plan pairs every destination field with the source field of the same position, each with its own type, data
    offset and arrmeta. -/
theorem tuple_assign_positional_partial {τ : Type} (d s : RecTy τ) (dd sd : List Nat) (hd : d.Wf) (hs : s.Wf)
    (hdd : dd.length = d.types.length) (hsd : sd.length = s.types.length) :
    (d.types.length ≠ s.types.length → assignTuple d s dd sd = .throw .typeError) ∧
    (d.types.length = s.types.length → d.types.length ≤ 8 →
      ∃ items, assignTuple d s dd sd = .ok items ∧ items.length = d.types.length ∧
        ∀ (i : Nat) it, items[i]? = some it → Pairs d s dd sd i i it ∧ s.arrOffs[i]? = some it.srcArr) := by
  obtain ⟨hd1, hd2⟩ := hd
  obtain ⟨hs1, hs2⟩ := hs
  refine ⟨fun h => by simp [assignTuple, h], fun h h8 => ?_⟩
  have hf : ∀ i < d.types.length, ∃ x : Item τ, (do
      let so ← rdAt s.arrOffs i
      let dO ← rdAt d.arrOffs i
      let a ← rdAt dd i
      let b ← rdAt sd i
      let dt ← rdAt d.types i
      let st ← rdAt s.types i
      pure (⟨a, b, dt, st, dO, so⟩ : Item τ)) = Res.ok x := by
    intro i hi
    obtain ⟨x1, h1, -⟩ := rdAt_lt (l := s.arrOffs) (i := i) (by omega)
    obtain ⟨x2, h2, -⟩ := rdAt_lt (l := d.arrOffs) (i := i) (by omega)
    obtain ⟨x3, h3, -⟩ := rdAt_lt (l := dd) (i := i) (by omega)
    obtain ⟨x4, h4, -⟩ := rdAt_lt (l := sd) (i := i) (by omega)
    obtain ⟨x5, h5, -⟩ := rdAt_lt (l := d.types) (i := i) (by omega)
    obtain ⟨x6, h6, -⟩ := rdAt_lt (l := s.types) (i := i) (by omega)
    exact ⟨_, by rw [h1, h2, h3, h4, h5, h6]; rfl⟩
  obtain ⟨items, hi⟩ := forN_ok_of hf
  refine ⟨items, ?_, (forN_eq_ok.1 hi).1, fun i it hit => ?_⟩
  · unfold assignTuple recCap
    rw [if_neg (by simpa using h), if_neg (by omega)]; exact hi
  · obtain ⟨hl, hx⟩ := forN_eq_ok.1 hi
    obtain ⟨x, e1, e2⟩ := hx i (hl ▸ lt_of_some hit)
    rw [hit] at e1; cases e1
    simp only [Res.bind_eq_ok, rdAt_eq_ok, Res.pure_eq, Res.ok.injEq] at e2
    obtain ⟨a1, h1, a2, h2, a3, h3, a4, h4, a5, h5, a6, h6, rfl⟩ := e2
    exact ⟨⟨h5, h3, h2, h6, h4⟩, h1⟩

/-- C78 is violated for records of more than eight fields: the offsets are copied into `std::array<…, 8>`. -/
theorem tuple_assign_nine_fields_violated {τ : Type} (d s : RecTy τ) (dd sd : List Nat)
    (h : d.types.length = s.types.length) (h8 : 8 < d.types.length) : assignTuple d s dd sd = .ub := by
  unfold assignTuple recCap
  rw [if_neg (by simpa using h), if_pos h8]

theorem matchFields_spec {τ : Type} (d s : RecTy τ) (hd : d.names.length = d.types.length) (hn : s.names.Nodup) :
    ((∃ n ∈ d.names, n ∉ s.names) → matchFields d s = .throw .runtime) ∧
    ((∀ n ∈ d.names, n ∈ s.names) → ∃ perm, matchFields d s = .ok perm ∧ perm.length = d.types.length ∧
      ∀ (i : Nat) k, perm[i]? = some k → SameName d s i k) := by
  have step : ∀ i < d.types.length, ∀ n, d.names[i]? = some n → n ∈ s.names →
      ∃ k : Nat, s.names[k]? = some n ∧ (do
        let n ← rdAt d.names i
        let k := getFieldIndex s.names n
        if k < 0 then .throw .runtime else pure k.toNat : Res Nat) = .ok k := by
    intro i hi n hn1 hm
    obtain ⟨k, hk⟩ := List.getElem?_of_mem hm
    have e := field_index_distinct hn hk
    refine ⟨k, hk, ?_⟩
    rw [rdAt_eq_ok.2 hn1]
    simp only [Res.bind_ok, e]
    rw [if_neg (by omega)]; simp
  constructor
  · rintro ⟨n, h1, h2⟩
    obtain ⟨i, hi⟩ := List.getElem?_of_mem h1
    obtain ⟨k, hk, ⟨n', hn', hm⟩, hlt⟩ := least (n := d.types.length)
      (P := fun i => ∃ n, d.names[i]? = some n ∧ n ∉ s.names) ⟨i, hd ▸ lt_of_some hi, n, hi, h2⟩
    refine forN_throw_of hk (fun j hj => ?_) ?_
    · obtain ⟨nj, hnj⟩ := some_of_lt (l := d.names) (i := j) (by omega)
      have hmj : nj ∈ s.names := by
        by_cases h : nj ∈ s.names
        · exact h
        · exact absurd ⟨nj, hnj, h⟩ (hlt j hj)
      obtain ⟨kk, -, e⟩ := step j (by omega) nj hnj hmj
      exact ⟨kk, e⟩
    · rw [rdAt_eq_ok.2 hn']
      simp only [Res.bind_ok, (field_index_exact s.names n').2.2 hm]
      rfl
  · intro hall
    obtain ⟨perm, hp⟩ := forN_ok_of (n := d.types.length) (f := fun i => (do
        let n ← rdAt d.names i
        let k := getFieldIndex s.names n
        if k < 0 then .throw .runtime else pure k.toNat : Res Nat)) (fun i hi => by
      obtain ⟨n, hn1⟩ := some_of_lt (l := d.names) (i := i) (by omega)
      obtain ⟨k, -, e⟩ := step i hi n hn1 (hall n (List.mem_of_getElem? hn1))
      exact ⟨k, e⟩)
    refine ⟨perm, hp, (forN_eq_ok.1 hp).1, fun i k hk => ?_⟩
    obtain ⟨hl, hx⟩ := forN_eq_ok.1 hp
    have hi : i < d.types.length := hl ▸ lt_of_some hk
    obtain ⟨n, hn1⟩ := some_of_lt (l := d.names) (i := i) (by omega)
    obtain ⟨k', hk', e'⟩ := step i hi n hn1 (hall n (List.mem_of_getElem? hn1))
    obtain ⟨x, e1, e2⟩ := hx i hi
    rw [hk] at e1; cases e1
    rw [e'] at e2; cases e2
    exact ⟨n, hn1, hk'⟩

/-- **C78** (structs): assignment of a struct is refused exactly when the field counts differ or a destination name is
    missing from the source; otherwise, with at most eight fields, the plan pairs every destination field with the
    source field of the *same name*, with both types and data offsets — whatever the order of the fields.  The arrmeta
    handed to the source side of the child is that of source field `jj`, where `jj` is found by looking up the name of
    destination field `j` again: it is the right one only when `jj` has the same arrmeta as `j`. -/
theorem struct_assign_by_name_partial {τ : Type} (d s : RecTy τ) (dd sd : List Nat) (hd : d.Wf) (hs : s.Wf)
    (hdd : dd.length = d.types.length) (hsd : sd.length = s.types.length) (hn : s.names.Nodup) :
    (d.types.length ≠ s.types.length → assignStruct d s dd sd = .throw .runtime) ∧
    (d.types.length = s.types.length → d.types.length ≤ 8 → (∃ n ∈ d.names, n ∉ s.names) →
      assignStruct d s dd sd = .throw .runtime) ∧
    (d.types.length = s.types.length → d.types.length ≤ 8 → (∀ n ∈ d.names, n ∈ s.names) →
      ∃ items, assignStruct d s dd sd = .ok items ∧ items.length = d.types.length ∧
        ∀ (i : Nat) it, items[i]? = some it → ∃ j jj, SameName d s i j ∧ Pairs d s dd sd i j it ∧
          SameName d s j jj ∧ s.arrOffs[jj]? = some it.srcArr) := by
  obtain ⟨hd1, hd2⟩ := hd
  obtain ⟨hs1, hs2⟩ := hs
  refine ⟨fun h => by simp [assignStruct, h], fun h h8 hm => ?_, fun h h8 hm => ?_⟩
  · unfold assignStruct recCap
    rw [if_neg (by simpa using h), if_neg (by omega), (matchFields_spec d s hd1 hn).1 hm]; rfl
  · obtain ⟨perm, hp, hpl, hps⟩ := (matchFields_spec d s hd1 hn).2 hm
    have hpk : ∀ i < d.types.length, ∃ k, perm[i]? = some k ∧ k < d.types.length := by
      intro i hi
      obtain ⟨k, hk⟩ := some_of_lt (l := perm) (i := i) (by omega)
      obtain ⟨n, -, hn2⟩ := hps i k hk
      exact ⟨k, hk, by have := lt_of_some hn2; omega⟩
    obtain ⟨srcTys, hst⟩ := forN_ok_of (n := d.types.length)
      (f := fun i => (do let k ← rdAt perm i; rdAt s.types k)) (fun i hi => by
        obtain ⟨k, hk, hkl⟩ := hpk i hi
        obtain ⟨x, hx, -⟩ := rdAt_lt (l := s.types) (i := k) (by omega)
        exact ⟨x, by rw [rdAt_eq_ok.2 hk]; exact hx⟩)
    obtain ⟨srcArrs, hsa⟩ := forN_ok_of (n := d.types.length)
      (f := fun i => (do let k ← rdAt perm i; rdAt s.arrOffs k)) (fun i hi => by
        obtain ⟨k, hk, hkl⟩ := hpk i hi
        obtain ⟨x, hx, -⟩ := rdAt_lt (l := s.arrOffs) (i := k) (by omega)
        exact ⟨x, by rw [rdAt_eq_ok.2 hk]; exact hx⟩)
    obtain ⟨l1, g1⟩ := forN_eq_ok.1 hst
    obtain ⟨l2, g2⟩ := forN_eq_ok.1 hsa
    obtain ⟨items, hi⟩ := forN_ok_of (n := d.types.length) (f := fun i => (do
      let k ← rdAt perm i
      let b ← rdAt sd k
      let so ← rdAt srcArrs k
      let dO ← rdAt d.arrOffs i
      let a ← rdAt dd i
      let dt ← rdAt d.types i
      let st ← rdAt srcTys i
      pure (⟨a, b, dt, st, dO, so⟩ : Item τ))) (fun i hi => by
        obtain ⟨k, hk, hkl⟩ := hpk i hi
        obtain ⟨x1, h1, -⟩ := rdAt_lt (l := sd) (i := k) (by omega)
        obtain ⟨x2, h2, -⟩ := rdAt_lt (l := srcArrs) (i := k) (by omega)
        obtain ⟨x3, h3, -⟩ := rdAt_lt (l := d.arrOffs) (i := i) (by omega)
        obtain ⟨x4, h4, -⟩ := rdAt_lt (l := dd) (i := i) (by omega)
        obtain ⟨x5, h5, -⟩ := rdAt_lt (l := d.types) (i := i) (by omega)
        obtain ⟨x6, h6, -⟩ := rdAt_lt (l := srcTys) (i := i) (by omega)
        exact ⟨_, by rw [rdAt_eq_ok.2 hk]; simp only [Res.bind_ok]; rw [h1, h2, h3, h4, h5, h6]; rfl⟩)
    refine ⟨items, ?_, (forN_eq_ok.1 hi).1, fun i it hit => ?_⟩
    · unfold assignStruct recCap
      rw [if_neg (by simpa using h), if_neg (by omega), hp]
      simp only [Res.bind_ok]
      rw [hst]; simp only [Res.bind_ok]
      rw [hsa]; exact hi
    · obtain ⟨hl, hx⟩ := forN_eq_ok.1 hi
      have hil : i < d.types.length := hl ▸ lt_of_some hit
      obtain ⟨x, e1, e2⟩ := hx i hil
      rw [hit] at e1; cases e1
      simp only [Res.bind_eq_ok, rdAt_eq_ok, Res.pure_eq, Res.ok.injEq] at e2
      obtain ⟨k, hk, b, hb, so, hso, dO, hdO, a, ha, dt, hdt, st, hstt, rfl⟩ := e2
      obtain ⟨k2, hk2, hkl⟩ := hpk i hil
      rw [hk] at hk2; cases hk2
      obtain ⟨kk, hkk, -⟩ := hpk k hkl
      refine ⟨k, kk, hps i k hk, ⟨hdt, ha, hdO, ?_, hb⟩, hps k kk hkk, ?_⟩
      · obtain ⟨y, y1, y2⟩ := g1 i hil
        rw [hstt] at y1; cases y1
        simp only [Res.bind_eq_ok, rdAt_eq_ok] at y2
        obtain ⟨q, q1, q2⟩ := y2
        rw [hk] at q1; cases q1
        exact q2
      · obtain ⟨y, y1, y2⟩ := g2 k hkl
        rw [hso] at y1; cases y1
        simp only [Res.bind_eq_ok, rdAt_eq_ok] at y2
        obtain ⟨q, q1, q2⟩ := y2
        rw [hkk] at q1; cases q1
        exact q2

/-- C78 when the fields come in the same order: the source arrmeta is right too. -/
theorem struct_assign_same_order {τ : Type} (d s : RecTy τ) (dd sd : List Nat) (hd : d.Wf) (hs : s.Wf)
    (hdd : dd.length = d.types.length) (hsd : sd.length = s.types.length) (hn : s.names.Nodup)
    (he : d.names = s.names) (h8 : d.types.length ≤ 8) :
    ∃ items, assignStruct d s dd sd = .ok items ∧ items.length = d.types.length ∧
      ∀ (i : Nat) it, items[i]? = some it → Pairs d s dd sd i i it ∧ s.arrOffs[i]? = some it.srcArr := by
  have hlen : d.types.length = s.types.length := by rw [← hd.1, ← hs.1, he]
  obtain ⟨items, h1, h2, h3⟩ := (struct_assign_by_name_partial d s dd sd hd hs hdd hsd hn).2.2 hlen h8
    (by rw [he]; exact fun n h => h)
  have uniq : ∀ i j, SameName d s i j → j = i := by
    rintro i j ⟨n, a, b⟩
    rw [he] at a
    have := field_index_distinct hn a
    rw [field_index_distinct hn b] at this; omega
  refine ⟨items, h1, h2, fun i it hit => ?_⟩
  obtain ⟨j, jj, e1, e2, e3, e4⟩ := h3 i it hit
  have := uniq i j e1; subst this
  have := uniq _ jj e3; subst this
  exact ⟨e2, e4⟩

/-- C78 when no source field has arrmeta of its own (all arrmeta offsets coincide): any order of fields is right. -/
theorem struct_assign_no_arrmeta {τ : Type} (d s : RecTy τ) (dd sd : List Nat) (hd : d.Wf) (hs : s.Wf)
    (hdd : dd.length = d.types.length) (hsd : sd.length = s.types.length) (hn : s.names.Nodup) (c : Nat)
    (hc : ∀ o ∈ s.arrOffs, o = c) (hlen : d.types.length = s.types.length) (h8 : d.types.length ≤ 8)
    (hm : ∀ n ∈ d.names, n ∈ s.names) :
    ∃ items, assignStruct d s dd sd = .ok items ∧ items.length = d.types.length ∧
      ∀ (i : Nat) it, items[i]? = some it →
        ∃ j, SameName d s i j ∧ Pairs d s dd sd i j it ∧ s.arrOffs[j]? = some it.srcArr := by
  obtain ⟨items, h1, h2, h3⟩ := (struct_assign_by_name_partial d s dd sd hd hs hdd hsd hn).2.2 hlen h8 hm
  refine ⟨items, h1, h2, fun i it hit => ?_⟩
  obtain ⟨j, jj, e1, e2, e3, e4⟩ := h3 i it hit
  refine ⟨j, e1, e2, ?_⟩
  obtain ⟨o, ho⟩ := some_of_lt (l := s.arrOffs) (i := j) (by rw [hs.2]; exact lt_of_some e2.2.2.2.1)
  rw [ho, hc o (List.mem_of_getElem? ho), hc it.srcArr (List.mem_of_getElem? e4)]

/-- C78 is violated for reordered fields with arrmeta: assigning `{y: …, x: …}` to `{x: …, y: …}` gives the child of
    destination field `x` the arrmeta of the *other* source field. -/
theorem struct_assign_reordered_arrmeta_violated :
    ∃ (d s : RecTy Nat) (dd sd : List Nat) (items : List (Item Nat)), d.Wf ∧ s.Wf ∧ s.names.Nodup ∧
      assignStruct d s dd sd = .ok items ∧
      ∃ it, items[0]? = some it ∧ SameName d s 0 1 ∧ it.srcTy = 20 ∧ s.types[1]? = some 20 ∧
        s.arrOffs[1]? = some 40 ∧ it.srcArr = 16 :=
  ⟨⟨["x", "y"], [1, 2], [16, 16]⟩, ⟨["y", "x"], [10, 20], [16, 40]⟩, [0, 8], [0, 24],
    [⟨0, 24, 1, 20, 16, 16⟩, ⟨8, 0, 2, 10, 16, 40⟩], ⟨rfl, rfl⟩, ⟨rfl, rfl⟩, by decide,
    by simp [assignStruct, matchFields, forN, rdAt, getFieldIndex, getFieldIndexFrom, recCap],
    ⟨0, 24, 1, 20, 16, 16⟩, rfl, ⟨"x", rfl, rfl⟩, rfl, rfl, rfl, rfl⟩

/-- Non-vacuity of the struct plan theorem: two fields in different order. -/
example : assignStruct (τ := Nat) ⟨["x", "y"], [1, 2], [16, 16]⟩ ⟨["y", "x"], [10, 20], [16, 16]⟩ [0, 8] [0, 24] =
    .ok [⟨0, 24, 1, 20, 16, 16⟩, ⟨8, 0, 2, 10, 16, 16⟩] := by
  simp [assignStruct, matchFields, forN, rdAt, getFieldIndex, getFieldIndexFrom, recCap]

/-! ## C78: execution -/

theorem read_congr {m m' : ByteMem} {a n : Nat} (h : ∀ x, a ≤ x → x < a + n → m x = m' x) : m.read a n = m'.read a n := by
  unfold ByteMem.read
  apply List.map_congr_left
  intro i hi
  exact h _ (by omega) (by have := List.mem_range.1 hi; omega)

theorem write_outside {m : ByteMem} {a x : Nat} {bs : List Nat} (h : x < a ∨ a + bs.length ≤ x) :
    m.write a bs x = m x := by
  unfold ByteMem.write
  split
  · rw [List.getElem?_eq_none (by omega)]
  · rfl

theorem read_write {m : ByteMem} {a : Nat} {bs : List Nat} : (m.write a bs).read a bs.length = bs := by
  apply List.ext_getElem
  · simp [ByteMem.read]
  · intro i h1 h2
    simp [ByteMem.read, ByteMem.write, h2]

theorem read_write_apart {m : ByteMem} {a b n : Nat} {bs : List Nat} (h : Apart a bs.length b n) :
    (m.write a bs).read b n = m.read b n := by
  apply read_congr
  intro x h1 h2
  apply write_outside
  rcases h with h | h <;> omega

/-- No call overwrites an earlier or later destination, or a source that is still to be read. -/
def NoClash (js : List Job) : Prop :=
  js.Pairwise (fun x y => Apart x.dst x.ck.dsz y.dst y.ck.dsz ∧ Apart x.dst x.ck.dsz y.src y.ck.ssz)

/-- What a call writes when it sees the memory `m`, and whether it throws. -/
def Job.effect (j : Job) (m : ByteMem) : List Nat × Option Exc :=
  j.ck.run (m.read j.dst j.ck.dsz) (m.read j.src j.ck.ssz)

/-- An address outside the destination of a call. -/
def Job.Outside (j : Job) (x : Nat) : Prop := x < j.dst ∨ j.dst + j.ck.dsz ≤ x

/-- The calls of `pre`, none of which throws: every destination gets what its call produces from the *initial* memory,
    everything else is unchanged, and the calls of `post` still see what they would have seen initially. -/
theorem runJobs_prefix (pre post : List Job) (m : ByteMem) (hs : ∀ j ∈ pre, j.ck.Sized)
    (hc : NoClash (pre ++ post)) (hn : ∀ j ∈ pre, (j.effect m).2 = none) :
    ∃ m', runJobs (pre ++ post) m = runJobs post m' ∧
      (∀ j ∈ pre, m'.read j.dst j.ck.dsz = (j.effect m).1) ∧
      (∀ x, (∀ j ∈ pre, j.Outside x) → m' x = m x) ∧
      (∀ j ∈ post, j.effect m' = j.effect m) := by
  induction pre generalizing m with
  | nil => exact ⟨m, rfl, by simp, by simp, by simp⟩
  | cons j js ih =>
    unfold NoClash at hc
    rw [List.cons_append, List.pairwise_cons] at hc
    obtain ⟨hj, hrest⟩ := hc
    have hsz := hs j (by simp)
    have hlen : (j.effect m).1.length = j.ck.dsz := hsz _ _
    have hpres : ∀ k ∈ js ++ post, Job.effect k (m.write j.dst (j.effect m).1) = Job.effect k m := by
      intro k hk
      obtain ⟨h1, h2⟩ := hj k hk
      unfold Job.effect
      rw [read_write_apart (by rw [hsz]; exact h1), read_write_apart (by rw [hsz]; exact h2)]
    obtain ⟨m', e1, e2, e3, e4⟩ := ih (m.write j.dst (j.effect m).1) (fun k hk => hs k (by simp [hk])) hrest
      (fun k hk => by rw [hpres k (by simp [hk])]; exact hn k (by simp [hk]))
    refine ⟨m', ?_, ?_, ?_, ?_⟩
    · rw [List.cons_append, runJobs]
      have : (j.ck.run (m.read j.dst j.ck.dsz) (m.read j.src j.ck.ssz)).2 = none := hn j (by simp)
      simp only [this]
      exact e1
    · intro k hk
      rcases List.mem_cons.1 hk with rfl | hk
      · rw [read_congr (m' := m.write k.dst (k.effect m).1)]
        · rw [← hlen]; exact read_write
        · intro x h1 h2
          apply e3
          intro i hi
          obtain ⟨a, -⟩ := hj i (by simp [hi])
          unfold Job.Outside
          rcases a with a | a <;> omega
      · rw [e2 k hk, hpres k (by simp [hk])]
    · intro x hx
      rw [e3 x (fun k hk => hx k (by simp [hk]))]
      apply write_outside
      rw [hlen]; exact hx j (by simp)
    · intro k hk
      rw [e4 k hk, hpres k (by simp [hk])]

/-- Running a record assignment whose child kernels do not throw. -/
theorem run_jobs_exact (js : List Job) (m : ByteMem) (hs : ∀ j ∈ js, j.ck.Sized) (hc : NoClash js)
    (hn : ∀ j ∈ js, (j.effect m).2 = none) :
    ∃ m', runJobs js m = (m', none) ∧ (∀ j ∈ js, m'.read j.dst j.ck.dsz = (j.effect m).1) ∧
      (∀ x, (∀ j ∈ js, j.Outside x) → m' x = m x) := by
  obtain ⟨m', h1, h2, h3, -⟩ := runJobs_prefix js [] m hs (by simpa using hc) hn
  exact ⟨m', by simpa [runJobs] using h1, h2, h3⟩

/-- Running a record assignment in which some child kernel throws: the exception is the first one, the fields before
    it are assigned, the fields after it are untouched. -/
theorem run_jobs_throw (pre : List Job) (j : Job) (post : List Job) (m : ByteMem) (e : Exc)
    (hs : ∀ k ∈ pre ++ j :: post, k.ck.Sized) (hc : NoClash (pre ++ j :: post))
    (hn : ∀ k ∈ pre, (k.effect m).2 = none) (he : (j.effect m).2 = some e) :
    ∃ m', runJobs (pre ++ j :: post) m = (m', some e) ∧
      (∀ k ∈ pre, m'.read k.dst k.ck.dsz = (k.effect m).1) ∧
      (∀ k ∈ post, m'.read k.dst k.ck.dsz = m.read k.dst k.ck.dsz) ∧
      (∀ x, (∀ k ∈ pre, k.Outside x) → j.Outside x → m' x = m x) := by
  obtain ⟨m1, h1, h2, h3, h4⟩ := runJobs_prefix pre (j :: post) m (fun k hk => hs k (by simp [hk])) hc hn
  have hj : j.effect m1 = j.effect m := h4 j (by simp)
  have hlen : ∀ k ∈ pre ++ j :: post, ∀ m, (Job.effect k m).1.length = k.ck.dsz := fun k hk m => hs k hk _ _
  have hpw := List.pairwise_append.1 hc
  have hj2 := List.pairwise_cons.1 hpw.2.1
  refine ⟨m1.write j.dst (j.effect m1).1, ?_, ?_, ?_, ?_⟩
  · rw [h1, runJobs]
    have : (j.ck.run (m1.read j.dst j.ck.dsz) (m1.read j.src j.ck.ssz)).2 = some e := by
      have := hj ▸ he; exact this
    simp only [this]; rfl
  · intro k hk
    have := (hpw.2.2 k hk j (by simp)).1
    rw [read_write_apart (by
      rw [hlen j (by simp)]
      rcases this with a | a
      · exact Or.inr a
      · exact Or.inl a)]
    exact h2 k hk
  · intro k hk
    rw [read_write_apart (by rw [hlen j (by simp)]; exact (hj2.1 k hk).1)]
    apply read_congr
    intro x x1 x2
    apply h3
    intro i hi
    have := (hpw.2.2 i hi k (by simp [hk])).1
    unfold Job.Outside
    rcases this with a | a <;> omega
  · intro x hx hxj
    rw [write_outside (by rw [hlen j (by simp)]; exact hxj)]
    exact h3 x hx

/-- Layout of a record type as the data offsets describe it: fields do not overlap and lie within `size` bytes. -/
def FieldsFit {τ : Type} (mk : Item τ → FieldCk) (items : List (Item τ)) (dsize ssize : Nat) : Prop :=
  items.Pairwise (fun a b => Apart a.dstOff (mk a).dsz b.dstOff (mk b).dsz) ∧
  ∀ it ∈ items, it.dstOff + (mk it).dsz ≤ dsize ∧ it.srcOff + (mk it).ssz ≤ ssize

theorem mem_recordJobsStrided {τ : Type} (mk : Item τ → FieldCk) (items : List (Item τ)) (ds ss : Nat) (j : Job) :
    ∀ count dst src, j ∈ recordJobsStrided mk items dst ds src ss count ↔
      ∃ e < count, ∃ it ∈ items, j = ⟨dst + e * ds + it.dstOff, src + e * ss + it.srcOff, mk it⟩ := by
  intro count
  induction count with
  | zero => intro dst src; simp [recordJobsStrided]
  | succ n ih =>
    intro dst src
    simp only [recordJobsStrided, List.mem_append, ih, recordJobs, List.mem_map]
    constructor
    · rintro (⟨it, h1, rfl⟩ | ⟨e, he, it, h1, rfl⟩)
      · exact ⟨0, by omega, it, h1, by simp⟩
      · exact ⟨e + 1, by omega, it, h1, by rw [Nat.add_mul, Nat.add_mul]; simp; omega⟩
    · rintro ⟨e, he, it, h1, rfl⟩
      cases e with
      | zero => left; exact ⟨it, h1, by simp⟩
      | succ e => right; exact ⟨e, by omega, it, h1, by rw [Nat.add_mul, Nat.add_mul]; simp; omega⟩

private theorem mul_step {e f s : Nat} (h : e < f) : e * s + s ≤ f * s := by
  have := Nat.mul_le_mul_right s (show e + 1 ≤ f from h)
  rw [Nat.add_mul] at this; omega

theorem noClash_strided {τ : Type} (mk : Item τ → FieldCk) (items : List (Item τ)) (dsize ssize ds ss : Nat)
    (hf : FieldsFit mk items dsize ssize) (hds : dsize ≤ ds) :
    ∀ count dst src, Apart dst (count * ds) src (count * ss + ssize) →
      NoClash (recordJobsStrided mk items dst ds src ss count) := by
  obtain ⟨hp, hfit⟩ := hf
  intro count
  induction count with
  | zero => intro dst src _; exact List.Pairwise.nil
  | succ n ih =>
    intro dst src ha
    have ha1 : Apart dst ds src (ss + ssize) := by
      rcases ha with a | a
      · left; rw [Nat.add_mul] at a; omega
      · right; rw [Nat.add_mul] at a; omega
    unfold NoClash
    rw [recordJobsStrided, List.pairwise_append]
    refine ⟨?_, ?_, ?_⟩
    · unfold recordJobs
      rw [List.pairwise_map]
      refine List.Pairwise.imp_of_mem ?_ hp
      intro a b ha' hb' hab
      constructor
      · rcases hab with h | h
        · left; simp only; omega
        · right; simp only; omega
      · have h1 := hfit a ha'
        have h2 := hfit b hb'
        rcases ha1 with h | h
        · left; simp only; omega
        · right; simp only; omega
    · apply ih
      rcases ha with a | a
      · left; rw [Nat.add_mul] at a; omega
      · right; rw [Nat.add_mul] at a; omega
    · intro j hj k hk
      unfold recordJobs at hj
      obtain ⟨it, hit, rfl⟩ := List.mem_map.1 hj
      obtain ⟨e, he, it2, hit2, rfl⟩ := (mem_recordJobsStrided mk items ds ss k _ _ _).1 hk
      have h1 := hfit it hit
      have h2 := hfit it2 hit2
      have h3 := mul_step (s := ss) he
      have h4 := mul_step (s := ds) he
      constructor
      · left; simp only; omega
      · rcases ha with a | a
        · left; simp only; rw [Nat.add_mul] at a; omega
        · right; simp only; rw [Nat.add_mul] at a; omega

/-- **C78** (effect): assigning `count` records (`count = 1`: a single record; a source stride of 0: one record
    broadcast) of which no field assignment throws leaves in every field of every destination record exactly what the
    field's assignment makes of the planned source field of the corresponding source record, and changes no byte
    outside the destination fields. -/
theorem record_assign_effect {τ : Type} (mk : Item τ → FieldCk) (items : List (Item τ))
    (dsize ssize dst ds src ss count : Nat) (m : ByteMem) (hsz : ∀ it ∈ items, (mk it).Sized)
    (hf : FieldsFit mk items dsize ssize) (hds : dsize ≤ ds) (ha : Apart dst (count * ds) src (count * ss + ssize))
    (hn : ∀ e < count, ∀ it ∈ items,
      ((mk it).run (m.read (dst + e * ds + it.dstOff) (mk it).dsz) (m.read (src + e * ss + it.srcOff) (mk it).ssz)).2 =
        none) :
    ∃ m', runJobs (recordJobsStrided mk items dst ds src ss count) m = (m', none) ∧
      (∀ e < count, ∀ it ∈ items, m'.read (dst + e * ds + it.dstOff) (mk it).dsz =
        ((mk it).run (m.read (dst + e * ds + it.dstOff) (mk it).dsz)
          (m.read (src + e * ss + it.srcOff) (mk it).ssz)).1) ∧
      (∀ x, (∀ e < count, ∀ it ∈ items, x < dst + e * ds + it.dstOff ∨ dst + e * ds + it.dstOff + (mk it).dsz ≤ x) →
        m' x = m x) := by
  obtain ⟨m', h1, h2, h3⟩ := run_jobs_exact (recordJobsStrided mk items dst ds src ss count) m
    (fun j hj => by
      obtain ⟨e, he, it, hit, rfl⟩ := (mem_recordJobsStrided mk items ds ss j _ _ _).1 hj
      exact hsz it hit)
    (noClash_strided mk items dsize ssize ds ss hf hds count dst src ha)
    (fun j hj => by
      obtain ⟨e, he, it, hit, rfl⟩ := (mem_recordJobsStrided mk items ds ss j _ _ _).1 hj
      exact hn e he it hit)
  refine ⟨m', h1, fun e he it hit => ?_, fun x hx => ?_⟩
  · exact h2 _ ((mem_recordJobsStrided mk items ds ss _ _ _ _).2 ⟨e, he, it, hit, rfl⟩)
  · apply h3
    intro j hj
    obtain ⟨e, he, it, hit, rfl⟩ := (mem_recordJobsStrided mk items ds ss j _ _ _).1 hj
    exact hx e he it hit

/-- A copying child kernel (for the examples). -/
private def copyCk (n : Nat) : FieldCk := ⟨n, n, fun _ s => ((s ++ List.replicate n 0).take n, none)⟩

/-- Non-vacuity: two records of two fields (2 and 1 bytes), fields swapped in the source. -/
example : ∃ (items : List (Item Nat)) (mk : Item Nat → FieldCk) (m : ByteMem),
    items.length = 2 ∧ (∀ it ∈ items, (mk it).Sized) ∧ FieldsFit mk items 4 4 ∧ Apart 0 (2 * 4) 100 (2 * 4 + 4) ∧
    (∀ e < 2, ∀ it ∈ items,
      ((mk it).run (m.read (0 + e * 4 + it.dstOff) (mk it).dsz) (m.read (100 + e * 4 + it.srcOff) (mk it).ssz)).2 =
        none) := by
  refine ⟨[⟨0, 1, 2, 2, 0, 0⟩, ⟨2, 0, 1, 1, 0, 0⟩], fun it => copyCk it.dstTy, fun x => x, rfl, ?_, ?_, ?_, ?_⟩
  · intro it _ o s
    simp [copyCk]
  · refine ⟨?_, ?_⟩
    · simp [copyCk, Apart]
    · simp [copyCk]
  · left; omega
  · intro e _ it _; rfl

/-! ## C79: comparison -/

/-- Field `i` of both records is compared: its own types and data offsets. -/
def Compares {τ : Type} (a b : RecTy τ) (ad bd : List Nat) (i : Nat) (it : CmpItem τ) : Prop :=
  a.types[i]? = some it.ty0 ∧ b.types[i]? = some it.ty1 ∧ ad[i]? = some it.off0 ∧ bd[i]? = some it.off1

theorem compareRecords_single {τ : Type} (a b : RecTy τ) (ad bd : List Nat) (req : Nat) (ha : a.Wf)
    (had : ad.length = a.types.length) (hbd : bd.length = b.types.length) (hlen : a.types.length ≤ b.types.length)
    (h8 : a.types.length ≤ 8) (hreq : req = 0 ∨ req = 1) :
    ∃ self its, compareRecords a b ad bd req = .ok (self, its) ∧ self ≠ .strided ∧ its.length = a.types.length ∧
      ∀ (i : Nat) p, its[i]? = some p → p.1 = .single ∧ Compares a b ad bd i p.2 ∧ a.arrOffs[i]? = some p.2.arr := by
  have hself : ∃ self, initStrided req = .ok self ∧ self ≠ .strided := by
    rcases hreq with rfl | rfl
    · exact ⟨.call, rfl, by decide⟩
    · exact ⟨.single, rfl, by decide⟩
  have hci : initStrided (req ||| reqDataOnly) = .ok .single := by
    rcases hreq with rfl | rfl <;> rfl
  obtain ⟨self, hs1, hs2⟩ := hself
  obtain ⟨its, hi⟩ := forN_ok_of (n := a.types.length) (f := fun i => (do
      let arr ← rdAt a.arrOffs i
      let t0 ← rdAt a.types i
      let t1 ← rdAt b.types i
      let o0 ← rdAt ad i
      let o1 ← rdAt bd i
      let ci ← initStrided (req ||| reqDataOnly)
      pure (ci, (⟨o0, o1, t0, t1, arr⟩ : CmpItem τ)))) (fun i hi => by
    obtain ⟨x1, h1, -⟩ := rdAt_lt (l := a.arrOffs) (i := i) (by have := ha.2; omega)
    obtain ⟨x2, h2, -⟩ := rdAt_lt (l := a.types) (i := i) (by omega)
    obtain ⟨x3, h3, -⟩ := rdAt_lt (l := b.types) (i := i) (by omega)
    obtain ⟨x4, h4, -⟩ := rdAt_lt (l := ad) (i := i) (by omega)
    obtain ⟨x5, h5, -⟩ := rdAt_lt (l := bd) (i := i) (by omega)
    exact ⟨_, by rw [h1, h2, h3, h4, h5, hci]; rfl⟩)
  refine ⟨self, its, ?_, hs2, (forN_eq_ok.1 hi).1, fun i p hp => ?_⟩
  · unfold compareRecords recCap
    rw [if_neg (by omega), hs1]
    simp only [Res.bind_ok]
    rw [hi]; rfl
  · obtain ⟨hl, hx⟩ := forN_eq_ok.1 hi
    obtain ⟨x, e1, e2⟩ := hx i (hl ▸ lt_of_some hp)
    rw [hp] at e1; cases e1
    rw [hci] at e2
    simp only [Res.bind_eq_ok, rdAt_eq_ok, Res.pure_eq, Res.ok.injEq] at e2
    obtain ⟨a1, h1, a2, h2, a3, h3, a4, h4, a5, h5, c, hc, rfl⟩ := e2
    subst hc
    exact ⟨rfl, ⟨h2, h3, h4, h5⟩, h1⟩

theorem compareLoop_spec {τ : Type} (cmp : CmpItem τ → Res Bool) (stop : Bool) :
    ∀ its : List (Installed × CmpItem τ), (∀ p ∈ its, p.1 = .single) → (∀ p ∈ its, ∃ r, cmp p.2 = .ok r) →
      ∃ r, compareLoop cmp stop its = .ok r ∧ (r = stop ↔ ∃ p ∈ its, cmp p.2 = .ok stop) := by
  intro its
  induction its with
  | nil => intro _ _; exact ⟨!stop, rfl, by cases stop <;> simp⟩
  | cons p its ih =>
    intro h1 h2
    obtain ⟨f, it⟩ := p
    have hf : f = .single := h1 (f, it) (by simp)
    obtain ⟨r, hr⟩ := h2 (f, it) (by simp)
    simp only at hr
    obtain ⟨r', e1, e2⟩ := ih (fun p hp => h1 p (by simp [hp])) (fun p hp => h2 p (by simp [hp]))
    simp only [compareLoop, hf, hr, if_true, Res.bind_ok]
    by_cases hrs : r = stop
    · subst hrs
      exact ⟨r, by simp, by simp [hr]⟩
    · refine ⟨r', by rw [if_neg hrs]; exact e1, ?_⟩
      rw [e2]
      constructor
      · rintro ⟨p, hp, hp2⟩; exact ⟨p, by simp [hp], hp2⟩
      · rintro ⟨p, hp, hp2⟩
        rcases List.mem_cons.1 hp with rfl | hp
        · simp only at hp2; rw [hr] at hp2; cases hp2; exact absurd rfl hrs
        · exact ⟨p, hp, hp2⟩

/-- **C79**: comparing two records of the same number of fields (at most eight), one pair at a time, when no field
    comparison throws: `equal` yields true exactly when all fields are equal, position by position, and `not_equal`
    yields true exactly when some field is not equal. -/
theorem record_compare_exact_partial {τ : Type} (a b : RecTy τ) (ad bd : List Nat) (req : Nat) (ha : a.Wf)
    (had : ad.length = a.types.length) (hbd : bd.length = b.types.length) (hlen : a.types.length = b.types.length)
    (h8 : a.types.length ≤ 8) (hreq : req = 0 ∨ req = 1) (count : Nat) :
    ∃ k, compareRecords a b ad bd req = .ok k ∧
      ∃ flds : List (CmpItem τ), flds.length = a.types.length ∧
        (∀ (i : Nat) it, flds[i]? = some it → Compares a b ad bd i it ∧ a.arrOffs[i]? = some it.arr) ∧
        ∀ cmp : CmpItem τ → Res Bool, (∀ it ∈ flds, ∃ r, cmp it = .ok r) →
          (∃ r, compareRun (fun _ => cmp) false k count = .ok [r] ∧ (r = true ↔ ∀ it ∈ flds, cmp it = .ok true)) ∧
          (∃ r, compareRun (fun _ => cmp) true k count = .ok [r] ∧ (r = true ↔ ∃ it ∈ flds, cmp it = .ok true)) := by
  obtain ⟨self, its, h1, h2, h3, h4⟩ := compareRecords_single a b ad bd req ha had hbd (by omega) h8 hreq
  refine ⟨_, h1, its.map (·.2), by simp [h3], fun i it hit => ?_, fun cmp hcmp => ?_⟩
  · rw [List.getElem?_map] at hit
    obtain ⟨p, hp, rfl⟩ := Option.map_eq_some_iff.1 hit
    exact (h4 i p hp).2
  · have hs : ∀ p ∈ its, p.1 = .single := by
      intro p hp
      obtain ⟨i, hi⟩ := List.getElem?_of_mem hp
      exact (h4 i p hi).1
    have hc : ∀ p ∈ its, ∃ r, cmp p.2 = .ok r := fun p hp => hcmp p.2 (List.mem_map.2 ⟨p, hp, rfl⟩)
    obtain ⟨r0, e0, f0⟩ := compareLoop_spec cmp false its hs hc
    obtain ⟨r1, e1, f1⟩ := compareLoop_spec cmp true its hs hc
    refine ⟨⟨r0, by simp [compareRun, h2, forN, e0], ?_⟩, ⟨r1, by simp [compareRun, h2, forN, e1], ?_⟩⟩
    · constructor
      · intro hr it hit
        obtain ⟨p, hp, rfl⟩ := List.mem_map.1 hit
        obtain ⟨r, hr'⟩ := hc p hp
        cases r with
        | true => exact hr'
        | false => rw [f0.2 ⟨p, hp, hr'⟩] at hr; cases hr
      · intro hall
        cases r0 with
        | true => rfl
        | false =>
          obtain ⟨p, hp, hp'⟩ := f0.1 rfl
          rw [hall p.2 (List.mem_map.2 ⟨p, hp, rfl⟩)] at hp'; cases hp'
    · rw [f1]
      constructor
      · rintro ⟨p, hp, hp'⟩; exact ⟨p.2, List.mem_map.2 ⟨p, hp, rfl⟩, hp'⟩
      · rintro ⟨it, hit, h⟩
        obtain ⟨p, hp, rfl⟩ := List.mem_map.1 hit
        exact ⟨p, hp, h⟩

/-- `equal` and `not_equal` of two records are each other's negation when they are on every field. -/
theorem record_equal_not_equal {τ : Type} (its : List (Installed × CmpItem τ)) (eq ne : CmpItem τ → Res Bool)
    (hs : ∀ p ∈ its, p.1 = .single) (h : ∀ p ∈ its, ∃ r, eq p.2 = .ok r ∧ ne p.2 = .ok (!r)) :
    ∃ r, compareLoop eq false its = .ok r ∧ compareLoop ne true its = .ok (!r) := by
  induction its with
  | nil => exact ⟨true, rfl, rfl⟩
  | cons p its ih =>
    obtain ⟨r', e1, e2⟩ := ih (fun p hp => hs p (by simp [hp])) (fun p hp => h p (by simp [hp]))
    obtain ⟨f, it⟩ := p
    have hf : f = .single := hs (f, it) (by simp)
    obtain ⟨r, h1, h2⟩ := h (f, it) (by simp)
    simp only at h1 h2
    simp only [compareLoop, hf, h1, h2, if_true, Res.bind_ok]
    cases r with
    | true => exact ⟨r', by simpa using e1, by simpa using e2⟩
    | false => exact ⟨false, by simp, by simp⟩

/-- C79 is violated in several ways.  Field names are ignored: `{x, y}` and `{y, x}` are compared by position (here the
    plan for the struct `{x: 1, y: 2}` against `{y: 2, x: 1}` pairs `x` with `y`). -/
theorem struct_equal_ignores_names_violated :
    ∃ (a b : RecTy Nat) (self : Installed) (it it' : CmpItem Nat), a.Wf ∧ b.Wf ∧
      compareRecords a b [0, 8] [0, 8] reqSingle = .ok (self, [(.single, it), (.single, it')]) ∧
      a.names[0]? = some "x" ∧ b.names[1]? = some "x" ∧ a.types[0]? = some it.ty0 ∧ b.types[1]? ≠ some it.ty1 :=
  ⟨⟨["x", "y"], [1, 2], [16, 16]⟩, ⟨["y", "x"], [2, 1], [16, 16]⟩, .single, ⟨0, 0, 1, 2, 16⟩, ⟨8, 8, 2, 1, 16⟩,
    ⟨rfl, rfl⟩, ⟨rfl, rfl⟩, by simp [compareRecords, forN, rdAt, recCap, initStrided, reqCall, reqSingle, reqDataOnly],
    rfl, rfl, rfl, by decide⟩

/-- Comparing with a record that has more fields ignores the extra fields: `(1,)` equals `(1, 2)`. -/
theorem record_equal_ignores_extra_violated {τ : Type} (a b : RecTy τ) (ad bd : List Nat) (ha : a.Wf)
    (had : ad.length = a.types.length) (hbd : bd.length = b.types.length) (hlen : a.types.length < b.types.length)
    (h8 : a.types.length ≤ 8) :
    ∃ k, compareRecords a b ad bd reqSingle = .ok k ∧ k.2.length = a.types.length ∧
      ∀ cmp : CmpItem τ → Res Bool, (∀ p ∈ k.2, cmp p.2 = .ok true) → compareRun (fun _ => cmp) false k 1 = .ok [true] := by
  obtain ⟨self, its, h1, h2, h3, h4⟩ := compareRecords_single a b ad bd reqSingle ha had hbd (by omega) h8 (Or.inr rfl)
  refine ⟨_, h1, h3, fun cmp hc => ?_⟩
  obtain ⟨r, e, f⟩ := compareLoop_spec cmp false its (fun p hp => by
    obtain ⟨i, hi⟩ := List.getElem?_of_mem hp
    exact (h4 i p hi).1) (fun p hp => ⟨true, hc p hp⟩)
  cases r with
  | true => simp [compareRun, h2, forN, e]
  | false =>
    obtain ⟨p, hp, h⟩ := f.1 rfl
    rw [hc p hp] at h; cases h

/-- … and in the other direction the second record is read out of bounds: comparison is not even symmetric. -/
theorem record_equal_fewer_fields_violated {τ : Type} (a b : RecTy τ) (ad bd : List Nat) (ha : a.Wf)
    (had : ad.length = a.types.length) (hbd : bd.length = b.types.length) (hlen : b.types.length < a.types.length)
    (h8 : a.types.length ≤ 8) : compareRecords a b ad bd reqSingle = .ub := by
  have hgood : ∀ i < b.types.length, ∃ x, (do
      let arr ← rdAt a.arrOffs i
      let t0 ← rdAt a.types i
      let t1 ← rdAt b.types i
      let o0 ← rdAt ad i
      let o1 ← rdAt bd i
      let ci ← initStrided (reqSingle ||| reqDataOnly)
      pure (ci, (⟨o0, o1, t0, t1, arr⟩ : CmpItem τ))) = Res.ok x := by
    intro i hi
    obtain ⟨x1, h1, -⟩ := rdAt_lt (l := a.arrOffs) (i := i) (by have := ha.2; omega)
    obtain ⟨x2, h2, -⟩ := rdAt_lt (l := a.types) (i := i) (by omega)
    obtain ⟨x3, h3, -⟩ := rdAt_lt (l := b.types) (i := i) (by omega)
    obtain ⟨x4, h4, -⟩ := rdAt_lt (l := ad) (i := i) (by omega)
    obtain ⟨x5, h5, -⟩ := rdAt_lt (l := bd) (i := i) (by omega)
    exact ⟨_, by rw [h1, h2, h3, h4, h5]; rfl⟩
  have hub : ∀ n, b.types.length < n → n ≤ a.types.length → forN (fun i => (do
      let arr ← rdAt a.arrOffs i
      let t0 ← rdAt a.types i
      let t1 ← rdAt b.types i
      let o0 ← rdAt ad i
      let o1 ← rdAt bd i
      let ci ← initStrided (reqSingle ||| reqDataOnly)
      pure (ci, (⟨o0, o1, t0, t1, arr⟩ : CmpItem τ)))) n = Res.ub := by
    intro n
    induction n with
    | zero => intro h; omega
    | succ n ih =>
      intro h1 h2
      by_cases h : b.types.length < n
      · simp only [forN]; rw [ih h (by omega)]; rfl
      · have e : n = b.types.length := by omega
        subst e
        obtain ⟨l, hl⟩ := forN_ok_of hgood
        obtain ⟨x1, g1, -⟩ := rdAt_lt (l := a.arrOffs) (i := b.types.length) (by have := ha.2; omega)
        obtain ⟨x2, g2, -⟩ := rdAt_lt (l := a.types) (i := b.types.length) (by omega)
        have g3 : rdAt b.types b.types.length = .ub := by simp [rdAt]
        simp only [forN]; rw [hl]; simp only [Res.bind_ok]; rw [g1, g2]; simp only [Res.bind_ok]; rw [g3]; rfl
  unfold compareRecords recCap
  rw [if_neg (by omega)]
  have : initStrided reqSingle = .ok .single := rfl
  rw [this]; simp only [Res.bind_ok]
  rw [hub _ hlen (Nat.le_refl _)]; rfl

/-- Comparing *arrays* of records element by element (a strided request) calls the strided function of the field
    kernels as if it were the single one. -/
theorem record_equal_strided_violated {τ : Type} (a b : RecTy τ) (ad bd : List Nat) (k) (count : Nat)
    (cmp : Nat → CmpItem τ → Res Bool) (stop : Bool) (hk : compareRecords a b ad bd reqStrided = .ok k)
    (h0 : 0 < a.types.length) (hc : 0 < count) : compareRun cmp stop k count = .ub := by
  unfold compareRecords at hk
  split at hk
  · cases hk
  · have e : initStrided reqStrided = .ok .strided := rfl
    rw [e] at hk
    simp only [Res.bind_ok] at hk
    obtain ⟨cs, h1, h2⟩ := Res.bind_eq_ok.1 hk
    simp only [Res.pure_eq, Res.ok.injEq] at h2
    subst h2
    obtain ⟨hl, hx⟩ := forN_eq_ok.1 h1
    obtain ⟨p, hp, hp2⟩ := hx 0 h0
    have hci : initStrided (reqStrided ||| reqDataOnly) = .ok .strided := rfl
    rw [hci] at hp2
    simp only [Res.bind_eq_ok, Res.pure_eq, Res.ok.injEq] at hp2
    obtain ⟨_, _, _, _, _, _, _, _, _, _, c, hc', rfl⟩ := hp2
    subst hc'
    have hloop : ∀ e, compareLoop (cmp e) stop cs = .ub := by
      intro e
      cases cs with
      | nil => simp at hp
      | cons q qs => simp at hp; subst hp; simp [compareLoop]
    have hrun : ∀ n, 0 < n → forN (fun e => compareLoop (cmp e) stop cs) n = .ub := by
      intro n
      induction n with
      | zero => intro h; omega
      | succ n ih =>
        intro _
        rcases Nat.eq_zero_or_pos n with rfl | h
        · simp [forN, hloop]
        · simp [forN, ih h]
    simpa [compareRun] using hrun count hc

/-- The hypothesis of the previous theorem is met: such a plan exists for any two records of one field. -/
example : ∃ k, compareRecords (τ := Nat) ⟨["x"], [1], [8]⟩ ⟨["x"], [1], [8]⟩ [0] [0] reqStrided = .ok k :=
  ⟨(.strided, [(.strided, ⟨0, 0, 1, 1, 8⟩)]), by simp [compareRecords, forN, rdAt, recCap, initStrided, reqCall, reqSingle, reqStrided, reqDataOnly]⟩

/-- Both operands of a field comparison are given the arrmeta of the *first* record's field, whatever the second
    record's arrmeta offsets are. -/
theorem record_equal_second_arrmeta_violated :
    ∃ (a b : RecTy Nat) (self : Installed) (it0 it : CmpItem Nat), a.Wf ∧ b.Wf ∧
      compareRecords a b [0, 8] [0, 8] reqSingle = .ok (self, [(.single, it0), (.single, it)]) ∧
      b.arrOffs[1]? = some 40 ∧ it.arr = 16 :=
  ⟨⟨["x", "y"], [1, 2], [16, 16]⟩, ⟨["x", "y"], [7, 2], [16, 40]⟩, .single, ⟨0, 0, 1, 7, 16⟩, ⟨8, 8, 2, 2, 16⟩,
    ⟨rfl, rfl⟩, ⟨rfl, rfl⟩, by simp [compareRecords, forN, rdAt, recCap, initStrided, reqCall, reqSingle, reqDataOnly],
    rfl, rfl⟩

/-- Non-vacuity of `record_compare_exact_partial`. -/
example : ∃ (a b : RecTy Nat), a.Wf ∧ a.types.length = b.types.length ∧ a.types.length ≤ 8 ∧ 2 ≤ a.types.length :=
  ⟨⟨["x", "y"], [1, 2], [16, 16]⟩, ⟨["x", "y"], [1, 2], [16, 16]⟩, ⟨rfl, rfl⟩, rfl, by decide, by decide⟩

end Dynd
