import Verif.Model.Registry
/-
C102: the type registry.
-/
namespace Dynd

/-! ## Specification -/

/-- Position `i` is the first entry with this name. -/
def FirstNamed (r : TReg) (name : String) (i : Nat) : Prop :=
  (∃ x, r[i]? = some x ∧ x.name = name) ∧ ∀ (j : Nat) (x : RegInfo), j < i → r[j]? = some x → x.name ≠ name

/-- Nothing has been registered for the entry. -/
def RegInfo.Blank (x : RegInfo) : Prop := x.single = none ∧ x.ctor = none ∧ x.parser = none

/-! ## Proofs -/

theorem lookupFrom_spec (name : String) : ∀ (r : TReg) (k : Nat),
    (∀ (i : Nat) (x : RegInfo), lookupFrom name k r = some (i, x) ↔ k ≤ i ∧ r[i - k]? = some x ∧ FirstNamed r name (i - k)) ∧
    (lookupFrom name k r = none ↔ ∀ x ∈ r, x.name ≠ name)
  | [], k => by simp [lookupFrom]
  | y :: r, k => by
    have ih := lookupFrom_spec name r (k + 1)
    by_cases hy : y.name = name
    · refine ⟨fun i x => ?_, by simp [lookupFrom, hy]⟩
      simp only [lookupFrom, hy, if_true, Option.some.injEq, Prod.mk.injEq]
      constructor
      · rintro ⟨rfl, rfl⟩
        refine ⟨Nat.le_refl _, by simp, ⟨y, by simp, hy⟩, ?_⟩
        intro j x hj
        omega
      · rintro ⟨hk, hx, -, hmin⟩
        by_cases hki : k = i
        · subst hki; simp at hx; exact ⟨rfl, hx⟩
        · exact absurd hy (hmin 0 y (by omega) (by simp))
    · refine ⟨fun i x => ?_, ?_⟩
      · simp only [lookupFrom, hy, if_false]
        rw [ih.1 i x]
        constructor
        · rintro ⟨hk, hx, ⟨z, hz, hzn⟩, hmin⟩
          have e : i - k = (i - (k + 1)) + 1 := by omega
          refine ⟨by omega, by rw [e, List.getElem?_cons_succ]; exact hx, ⟨z, by rw [e, List.getElem?_cons_succ]; exact hz, hzn⟩, ?_⟩
          intro j w hj hw
          cases j with
          | zero => simp at hw; rw [← hw]; exact hy
          | succ j => rw [List.getElem?_cons_succ] at hw; exact hmin j w (by omega) hw
        · rintro ⟨hk, hx, ⟨z, hz, hzn⟩, hmin⟩
          have hne : i ≠ k := by
            rintro rfl
            simp at hz; exact hy (hz ▸ hzn)
          have e : i - k = (i - (k + 1)) + 1 := by omega
          rw [e, List.getElem?_cons_succ] at hx hz
          refine ⟨by omega, hx, ⟨z, hz, hzn⟩, ?_⟩
          intro j w hj hw
          exact hmin (j + 1) w (by omega) (by rw [List.getElem?_cons_succ]; exact hw)
      · simp [lookupFrom, hy, ih.2]

theorem lookup_some {r : TReg} {name : String} {i : Nat} {x : RegInfo} :
    lookupName r name = some (i, x) ↔ r[i]? = some x ∧ FirstNamed r name i := by
  have := (lookupFrom_spec name r 0).1 i x
  simpa [lookupName] using this

theorem registerId_reg (r : TReg) (id : Nat) (s c p : Option Nat) :
    (registerId r id s c p).2 = r ∨ ∃ x y, r[id]? = some x ∧ y.name = x.name ∧ y.base = x.base ∧ x.Blank ∧ (registerId r id s c p).2 = r.set id y := by
  unfold registerId
  cases hx : r[id]? with
  | none => exact Or.inl rfl
  | some x =>
    simp only
    by_cases hb : x.single ≠ none ∨ x.ctor ≠ none ∨ x.parser ≠ none
    · rw [if_pos hb]; exact Or.inl rfl
    · rw [if_neg hb]
      have hb' : x.Blank := by
        simp only [not_or, Decidable.not_not] at hb
        exact hb
      right
      cases c with
      | some c => exact ⟨x, { x with single := s, ctor := some c, parser := some (p.getD defaultParser) }, rfl, rfl, rfl, hb', rfl⟩
      | none =>
        cases p with
        | some p => exact ⟨x, { x with single := s }, rfl, rfl, rfl, hb', rfl⟩
        | none => exact ⟨x, { x with single := s }, rfl, rfl, rfl, hb', rfl⟩

theorem regStep_keeps (r : TReg) (op : RegOp) (i : Nat) (x : RegInfo) (h : r[i]? = some x) :
    ∃ y, (regStep r op)[i]? = some y ∧ y.name = x.name ∧ y.base = x.base ∧ (¬ x.Blank → y = x) := by
  have hi : i < r.length := by
    obtain ⟨h, _⟩ := List.getElem?_eq_some_iff.1 h; exact h
  cases op with
  | new n b =>
    refine ⟨x, ?_, rfl, rfl, fun _ => rfl⟩
    simp only [regStep, newId]
    rw [List.getElem?_append_left hi]; exact h
  | register id s c p =>
    simp only [regStep]
    rcases registerId_reg r id s c p with hr | ⟨x', y, hx', hn, hb, hbl, hr⟩
    · rw [hr]; exact ⟨x, h, rfl, rfl, fun _ => rfl⟩
    · rw [hr]
      by_cases hid : id = i
      · subst hid
        rw [h] at hx'; cases hx'
        exact ⟨y, by rw [List.getElem?_set_self hi], hn, hb, fun hnb => absurd hbl hnb⟩
      · exact ⟨x, by rw [List.getElem?_set_ne hid]; exact h, rfl, rfl, fun _ => rfl⟩

/-! ## Theorems -/

/-- Whatever is registered later, an id keeps its name and base, and what was registered for it. -/
theorem id_forever (r : TReg) (ops : List RegOp) (i : Nat) (x : RegInfo) (h : r[i]? = some x) :
    ∃ y, (regRun r ops)[i]? = some y ∧ y.name = x.name ∧ y.base = x.base ∧ (¬ x.Blank → y = x) := by
  induction ops generalizing r x with
  | nil => exact ⟨x, h, rfl, rfl, fun _ => rfl⟩
  | cons op ops ih =>
    obtain ⟨y, hy, hn, hb, hk⟩ := regStep_keeps r op i x h
    obtain ⟨z, hz, hn', hb', hk'⟩ := ih (regStep r op) y hy
    refine ⟨z, hz, hn'.trans hn, hb'.trans hb, fun hx => ?_⟩
    have := hk hx
    subst this
    exact hk' hx

/-- `new_id` gives an id nobody had before, with the given name and base and nothing registered. -/
theorem new_id_fresh (r : TReg) (ops : List RegOp) (name : String) (base : Nat) :
    r[(newId r name base).1]? = none ∧
    (∃ x, (newId r name base).2[(newId r name base).1]? = some x ∧ x.name = name ∧ x.base = base ∧ x.Blank) ∧
    ∃ y, (regRun (newId r name base).2 ops)[(newId r name base).1]? = some y ∧ y.name = name ∧ y.base = base := by
  have h : (newId r name base).2[(newId r name base).1]? = some ⟨name, base, none, none, none⟩ := by
    simp [newId]
  refine ⟨by simp [newId], ⟨_, h, rfl, rfl, rfl, rfl, rfl⟩, ?_⟩
  obtain ⟨y, hy, hn, hb, _⟩ := id_forever _ ops _ _ h
  exact ⟨y, hy, hn, hb⟩

/-- Looking up a name gives the first id registered under it, and the same id ever after. -/
theorem lookup_exact (r : TReg) (name : String) :
    (∀ i x, lookupName r name = some (i, x) ↔ r[i]? = some x ∧ FirstNamed r name i) ∧
    (lookupName r name = none ↔ ∀ x ∈ r, x.name ≠ name) ∧
    ∀ (i : Nat) (x : RegInfo) (ops : List RegOp), lookupName r name = some (i, x) → ∃ y, lookupName (regRun r ops) name = some (i, y) := by
  refine ⟨fun i x => lookup_some, (lookupFrom_spec name r 0).2, ?_⟩
  intro i x ops h
  obtain ⟨hx, ⟨x', hx', hn⟩, hmin⟩ := lookup_some.1 h
  rw [hx] at hx'; cases hx'
  obtain ⟨y, hy, hyn, _, _⟩ := id_forever r ops i x hx
  refine ⟨y, lookup_some.2 ⟨hy, ⟨y, hy, hyn.trans hn⟩, ?_⟩⟩
  intro j w hj hw
  have hjl : j < r.length := by
    obtain ⟨h, _⟩ := List.getElem?_eq_some_iff.1 hx; omega
  obtain ⟨w', hw', hwn, _, _⟩ := id_forever r ops j _ (List.getElem?_eq_getElem hjl)
  rw [hw] at hw'; cases hw'
  rw [hwn]
  exact hmin j _ hj (List.getElem?_eq_getElem hjl)

/-- An id made with a name that is already taken is never found by that name. -/
theorem lookup_duplicate_violated (r : TReg) (name : String) (base : Nat) (ops : List RegOp) (x : RegInfo) (hx : x ∈ r) (hn : x.name = name) :
    ∀ y, lookupName (regRun (newId r name base).2 ops) name ≠ some ((newId r name base).1, y) := by
  intro y h
  obtain ⟨i, hi, hxi⟩ := List.getElem_of_mem hx
  have hri : (newId r name base).2[i]? = some x := by
    simp only [newId]; rw [List.getElem?_append_left hi, List.getElem?_eq_getElem hi, hxi]
  obtain ⟨w, hw, hwn, _, _⟩ := id_forever _ ops i x hri
  obtain ⟨_, _, hmin⟩ := lookup_some.1 h
  exact hmin i w (by simpa [newId] using hi) hw (hwn.trans hn)

/-- Registering a constructor: succeeds exactly for an id with nothing registered, if an argument parser comes with a
    constructor; then the entry holds what was given, and no other entry changes. -/
theorem register_exact (r : TReg) (id : Nat) (s c p : Option Nat) :
    ((registerId r id s c p).1 = .ok () ↔ ∃ x, r[id]? = some x ∧ x.Blank ∧ (p ≠ none → c ≠ none)) ∧
    ((registerId r id s c p).1 = .throw .outOfRange ↔ r.length ≤ id) ∧
    (∀ x, r[id]? = some x → (registerId r id s c p).1 = .ok () →
      (registerId r id s c p).2 = r.set id { x with single := s, ctor := c, parser := if c = none then none else some (p.getD defaultParser) }) ∧
    (∀ j, j ≠ id → (registerId r id s c p).2[j]? = r[j]?) := by
  have hother : ∀ j, j ≠ id → (registerId r id s c p).2[j]? = r[j]? := by
    intro j hj
    rcases registerId_reg r id s c p with hr | ⟨x, y, _, _, _, _, hr⟩
    · rw [hr]
    · rw [hr, List.getElem?_set_ne (Ne.symm hj)]
  refine ⟨?_, ?_, ?_, hother⟩
  · unfold registerId
    cases hx : r[id]? with
    | none => simp
    | some x =>
      simp only [RegInfo.Blank]
      by_cases hb : x.single ≠ none ∨ x.ctor ≠ none ∨ x.parser ≠ none
      · rw [if_pos hb]
        simp only [reduceCtorEq, false_iff]
        rintro ⟨y, hy, ⟨h1, h2, h3⟩, _⟩
        cases hy
        simp [h1, h2, h3] at hb
      · rw [if_neg hb]
        simp only [not_or, Decidable.not_not] at hb
        cases c <;> cases p <;> simp [hb]
  · unfold registerId
    cases hx : r[id]? with
    | none => simpa using hx
    | some x =>
      have : id < r.length := by
        obtain ⟨h, _⟩ := List.getElem?_eq_some_iff.1 hx; exact h
      simp only
      by_cases hb : x.single ≠ none ∨ x.ctor ≠ none ∨ x.parser ≠ none
      · rw [if_pos hb]; simp; exact this
      · rw [if_neg hb]
        cases c <;> cases p <;> simp [this]
  · intro x hx hok
    unfold registerId at hok ⊢
    rw [hx] at hok ⊢
    simp only at hok ⊢
    by_cases hb : x.single ≠ none ∨ x.ctor ≠ none ∨ x.parser ≠ none
    · rw [if_pos hb] at hok; cases hok
    · rw [if_neg hb] at hok ⊢
      simp only [not_or, Decidable.not_not] at hb
      obtain ⟨n, b, s', c', p'⟩ := x
      simp only at hb
      obtain ⟨rfl, rfl, rfl⟩ := hb
      cases c <;> cases p <;> simp_all

/-- A registration that raises leaves the registry as it was.  Missing: an argument parser and a type without a constructor. -/
theorem register_raise_partial (r : TReg) (id : Nat) (s c p : Option Nat) (e : Exc) (h : (registerId r id s c p).1 = .throw e)
    (hs : s = none ∨ c ≠ none ∨ p = none) : (registerId r id s c p).2 = r := by
  unfold registerId at h ⊢
  cases hx : r[id]? with
  | none => rfl
  | some x =>
    rw [hx] at h
    simp only at h ⊢
    by_cases hb : x.single ≠ none ∨ x.ctor ≠ none ∨ x.parser ≠ none
    · rw [if_pos hb]
    · rw [if_neg hb] at h ⊢
      simp only [not_or, Decidable.not_not] at hb
      cases c <;> cases p <;> simp at h hs ⊢
      subst hs
      obtain ⟨n, b, s', c', p'⟩ := x
      simp only at hb
      obtain ⟨rfl, rfl, rfl⟩ := hb
      refine List.ext_getElem? fun j => ?_
      have hi : id < r.length := by
        obtain ⟨h, _⟩ := List.getElem?_eq_some_iff.1 hx; exact h
      by_cases hj : id = j
      · subst hj; rw [List.getElem?_set_self hi, hx]
      · rw [List.getElem?_set_ne hj]

/-- Giving a type and an argument parser but no constructor raises, yet the type stays registered: the name then parses,
    and a corrected second registration is refused. -/
theorem register_raise_violated (r : TReg) (id : Nat) (x : RegInfo) (hx : r[id]? = some x) (hb : x.Blank) (t f g : Nat) :
    (registerId r id (some t) none (some f)).1 = .throw .runtime ∧
    (registerId r id (some t) none (some f)).2[id]? = some { x with single := some t } ∧
    (registerId (registerId r id (some t) none (some f)).2 id (some t) (some g) (some f)).1 = .throw .runtime := by
  have hi : id < r.length := by
    obtain ⟨h, _⟩ := List.getElem?_eq_some_iff.1 hx; exact h
  have h1 : registerId r id (some t) none (some f) = (.throw .runtime, r.set id { x with single := some t }) := by
    simp [registerId, hx, hb.1, hb.2.1, hb.2.2]
  rw [h1]
  refine ⟨rfl, by simp [hi], ?_⟩
  simp [registerId, hi]

/-- A name nobody has registered and that is not built in is a type variable if it begins with a capital letter, and raises
    otherwise, whatever follows it. -/
theorem unknown_name (builtin : String → Option Nat) (r : TReg) (upper : Bool) (name : String) (ctx : NameCtx)
    (hb : builtin name = none) (hn : ∀ x ∈ r, x.name ≠ name) :
    useName builtin r upper name ctx = if upper then .ok .typevar else .throw .parse := by
  have h : lookupName r name = none := by
    cases hl : lookupName r name with
    | none => rfl
    | some p =>
      obtain ⟨i, x⟩ := p
      obtain ⟨h1, ⟨y, h2, h3⟩, _⟩ := lookup_some.1 hl
      exact absurd h3 (hn y (List.mem_of_getElem? h2))
  cases ctx <;> simp [useName, h, hb]

example : ∃ r : TReg, r ≠ [] ∧ (∀ x ∈ r, x.name ≠ "kelvin") ∧
    useName (fun _ => none) r false "kelvin" .plain = .throw .parse :=
  ⟨[⟨"uninitialized", 0, none, none, none⟩], by simp, by simp, by
    rw [unknown_name _ _ _ _ _ rfl (by simp)]; rfl⟩

/-- A type made by a program can be written in type descriptions: after `new_id` with a name nobody uses and a registration,
    the name alone gives the type, with brackets it calls the argument parser, and as a dimension the constructor. -/
theorem registered_name_parses (builtin : String → Option Nat) (r : TReg) (hr : r ≠ []) (name : String) (hbi : builtin name = none) (hn : ∀ x ∈ r, x.name ≠ name)
    (base t c : Nat) (p : Option Nat) (upper : Bool) (ops : List RegOp) :
    let id := (newId r name base).1
    let r1 := (newId r name base).2
    let r2 := (registerId r1 id (some t) (some c) p).2
    (registerId r1 id (some t) (some c) p).1 = .ok () ∧
    useName builtin (regRun r2 ops) upper name .plain = .ok (.type t) ∧
    useName builtin (regRun r2 ops) upper name .bracket = .ok (.parseArgs id (p.getD defaultParser)) ∧
    useName builtin (regRun r2 ops) upper name .star = .ok (.dimension id c) := by
  intro id r1 r2
  have hid : id = r.length := rfl
  have h1 : r1[id]? = some ⟨name, base, none, none, none⟩ := by simp [r1, id, newId]
  have hok := ((register_exact r1 id (some t) (some c) p).1).2 ⟨_, h1, ⟨rfl, rfl, rfl⟩, by simp⟩
  have h2 : r2 = r1.set id ⟨name, base, some t, some c, some (p.getD defaultParser)⟩ := by
    simpa using (register_exact r1 id (some t) (some c) p).2.2.1 _ h1 hok
  have hil : id < r1.length := by
    obtain ⟨h, _⟩ := List.getElem?_eq_some_iff.1 h1; exact h
  have h3 : r2[id]? = some ⟨name, base, some t, some c, some (p.getD defaultParser)⟩ := by
    rw [h2, List.getElem?_set_self hil]
  obtain ⟨y, hy, hyn, _, hyk⟩ := id_forever r2 ops id _ h3
  have hy' := hyk (by simp [RegInfo.Blank])
  subst hy'
  have hlook : lookupName (regRun r2 ops) name = some (id, ⟨name, base, some t, some c, some (p.getD defaultParser)⟩) := by
    refine lookup_some.2 ⟨hy, ⟨_, hy, rfl⟩, ?_⟩
    intro j w hj hw
    have hjl : j < r.length := by omega
    have hj2 : r2[j]? = some r[j] := by
      rw [h2, List.getElem?_set_ne (by omega)]
      show (r ++ _)[j]? = _
      rw [List.getElem?_append_left hjl, List.getElem?_eq_getElem hjl]
    obtain ⟨w', hw', hwn, _, _⟩ := id_forever r2 ops j _ hj2
    rw [hw] at hw'; cases hw'
    rw [hwn]
    exact hn _ (List.getElem_mem hjl)
  have hpos : ∃ k, id = k + 1 := by
    cases r with
    | nil => exact absurd rfl hr
    | cons a r => exact ⟨r.length, rfl⟩
  obtain ⟨k, hk⟩ := hpos
  rw [hk] at hlook ⊢
  refine ⟨hk ▸ hok, ?_, ?_, ?_⟩
  · simp [useName, hbi, hlook]
  · simp [useName, hbi, hlook]
  · simp [useName, hlook]

/-- A registry with two types. -/
def exReg : TReg := [⟨"", 0, none, none, none⟩, ⟨"Any", 0, some 1, none, none⟩, ⟨"tuple", 1, none, none, none⟩]

example : lookupName exReg "tuple" = some (2, ⟨"tuple", 1, none, none, none⟩) ∧ (∀ x ∈ exReg, x.name ≠ "date") ∧
    exReg[2]? = some ⟨"tuple", 1, none, none, none⟩ ∧ (⟨"tuple", 1, none, none, none⟩ : RegInfo).Blank := by
  refine ⟨by decide, by decide, by decide, rfl, rfl, rfl⟩

end Dynd
