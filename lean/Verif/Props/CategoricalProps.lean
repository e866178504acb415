import Verif.Model.Categorical
import Verif.Props.KernelProps
import Verif.Props.ShapeProps
/-
C54: categorical types.
-/
namespace Dynd

/-- Neither precedes the other. -/
def Equiv' {α : Type} (less : α → α → Bool) (a b : α) : Prop := less a b = false ∧ less b a = false

/-- No two categories (at different positions) are equivalent. -/
def Distinct {α : Type} (less : α → α → Bool) (cs : List α) : Prop := cs.Pairwise fun a b => ¬ Equiv' less a b

/-- Strictly increasing. -/
def Increasing {α : Type} (less : α → α → Bool) (cs : List α) : Prop := cs.Pairwise fun a b => less a b = true

/-- What a user of a categorical type with categories `cs` relies on: code `v` means the `v`-th category; encoding a
    value gives the code of the category equivalent to it, or raises; codes out of range raise; the storage integer
    can hold all codes. -/
structure CatOK {α : Type} (less : α → α → Bool) (cs : List α) (t : Cat α) : Prop where
  decode : ∀ (v : Nat) (c : α), cs[v]? = some c → catDecode t v = .ok c
  encode : ∀ (v : Nat) (c x : α), cs[v]? = some c → Equiv' less c x → catEncode less t x = .ok v
  unknown : ∀ x : α, (∀ c ∈ cs, ¬ Equiv' less c x) → catEncode less t x = .throw .runtime
  range : ∀ v : Nat, cs.length ≤ v → catDecode t v = .throw .runtime
  fits : cs.length ≤ 256 ^ t.storage

section
variable {α : Type} {less : α → α → Bool} (sw : StrictWeakLess less)
include sw

theorem sw_irrefl (a : α) : less a a = false := by
  cases h : less a a with
  | false => rfl
  | true => have := sw.asymm a a h; rw [h] at this; exact this

theorem sw_trans {a b c : α} (h1 : less a b = true) (h2 : less b c = true) : less a c = true := by
  cases h : less a c with
  | true => rfl
  | false =>
    have := sw.ntrans a c b h (sw.asymm _ _ h2)
    rw [h1] at this; exact this.symm

theorem sw_le_lt {a b c : α} (h1 : less b a = false) (h2 : less b c = true) : less a c = true := by
  cases h : less a c with
  | true => rfl
  | false =>
    have := sw.ntrans b a c h1 h
    rw [h2] at this; exact this.symm

theorem sw_lt_le {a b c : α} (h1 : less a b = true) (h2 : less c b = false) : less a c = true := by
  cases h : less a c with
  | true => rfl
  | false =>
    have := sw.ntrans a c b h h2
    rw [h1] at this; exact this.symm

theorem increasing_distinct {cs : List α} (h : Increasing less cs) : Distinct less cs :=
  h.imp fun h e => by rw [e.1] at h; exact absurd h (by simp)

theorem increasing_sorted {cs : List α} (h : Increasing less cs) : SortedBy less cs :=
  h.imp fun h => sw.asymm _ _ h

theorem setHas_spec : ∀ {u : List α} (x : α), Increasing less u →
    ∃ b, setHas (some less) u x = .ok b ∧ (b = true ↔ ∃ y ∈ u, Equiv' less y x)
  | [], x, _ => ⟨false, rfl, by simp⟩
  | y :: ys, x, h => by
    have hp := List.pairwise_cons.1 h
    simp only [setHas, callLess, Res.bind_ok]
    cases h1 : less y x with
    | true =>
      obtain ⟨b, e, hb⟩ := setHas_spec x hp.2
      refine ⟨b, by simpa using e, hb.trans ?_⟩
      constructor
      · rintro ⟨z, hz, he⟩; exact ⟨z, by simp [hz], he⟩
      · rintro ⟨z, hz, he⟩
        rcases List.mem_cons.1 hz with rfl | hz
        · rw [he.1] at h1; simp at h1
        · exact ⟨z, hz, he⟩
    | false =>
      cases h2 : less x y with
      | true =>
        refine ⟨false, by simp, ?_⟩
        constructor
        · simp
        · rintro ⟨z, hz, he⟩
          rcases List.mem_cons.1 hz with rfl | hz
          · rw [he.2] at h2; simp at h2
          · have := sw_trans sw h2 (hp.1 z hz)
            rw [he.2] at this; simp at this
      | false => exact ⟨true, by simp, by simp only [true_iff]; exact ⟨y, by simp, h1, h2⟩⟩

theorem setIns_spec : ∀ {u : List α} (x : α), Increasing less u → (∀ y ∈ u, ¬ Equiv' less y x) →
    ∃ u', setIns (some less) u x = .ok u' ∧ Increasing less u' ∧ u'.Perm (x :: u)
  | [], x, _, _ => ⟨[x], rfl, by simp [Increasing], List.Perm.refl _⟩
  | y :: ys, x, h, hn => by
    have hp := List.pairwise_cons.1 h
    simp only [setIns, callLess, Res.bind_ok]
    cases h1 : less y x with
    | true =>
      obtain ⟨u', e, hi, hperm⟩ := setIns_spec x hp.2 (fun z hz => hn z (by simp [hz]))
      refine ⟨y :: u', by simp [e], ?_, ?_⟩
      · refine List.pairwise_cons.2 ⟨fun z hz => ?_, hi⟩
        rcases List.mem_cons.1 (hperm.mem_iff.1 hz) with rfl | hz
        · exact h1
        · exact hp.1 z hz
      · exact (hperm.cons y).trans (List.Perm.swap x y ys)
    | false =>
      have h2 : less x y = true := by
        cases h2 : less x y with
        | true => rfl
        | false => exact absurd ⟨h1, h2⟩ (hn y (by simp))
      refine ⟨x :: y :: ys, by simp, ?_, List.Perm.refl _⟩
      refine List.pairwise_cons.2 ⟨fun z hz => ?_, h⟩
      rcases List.mem_cons.1 hz with rfl | hz
      · exact h2
      · exact sw_trans sw h2 (hp.1 z hz)

theorem catUniques_spec : ∀ (cs u : List α), Increasing less u →
    (Distinct less (u ++ cs) → ∃ u', catUniques (some less) u cs = .ok u' ∧ Increasing less u' ∧ u'.Perm (u ++ cs)) ∧
    (¬ Distinct less (u ++ cs) → catUniques (some less) u cs = .throw .runtime)
  | [], u, h => by
    refine ⟨fun _ => ⟨u, rfl, h, by simp⟩, fun hn => absurd ?_ hn⟩
    simpa using increasing_distinct sw h
  | c :: cs, u, h => by
    obtain ⟨b, e, hb⟩ := setHas_spec sw c h
    simp only [catUniques, e, Res.bind_ok]
    cases b with
    | true =>
      obtain ⟨y, hy, he⟩ := hb.1 rfl
      refine ⟨fun hd => ?_, fun _ => by simp⟩
      have := (List.pairwise_append.1 hd).2.2 y hy c (by simp)
      exact absurd he this
    | false =>
      have hno : ∀ y ∈ u, ¬ Equiv' less y c := fun y hy he => by
        have := hb.2 ⟨y, hy, he⟩; simp at this
      obtain ⟨u1, e1, hi1, hp1⟩ := setIns_spec sw c h hno
      obtain ⟨ih1, ih2⟩ := catUniques_spec cs u1 hi1
      have hperm : (u1 ++ cs).Perm (u ++ c :: cs) := by
        refine (hp1.append_right cs).trans ?_
        simpa using (List.perm_middle (a := c) (l₁ := u) (l₂ := cs)).symm
      have hiff : Distinct less (u1 ++ cs) ↔ Distinct less (u ++ c :: cs) :=
        hperm.pairwise_iff (fun h e => h ⟨e.2, e.1⟩)
      simp only [Bool.false_eq_true, if_false, e1, Res.bind_ok]
      refine ⟨fun hd => ?_, fun hd => ih2 (fun h => hd (hiff.1 h))⟩
      obtain ⟨u', e', hi', hp'⟩ := ih1 (hiff.2 hd)
      exact ⟨u', e', hi', hp'.trans hperm⟩

theorem sorterLess_strictWeak (cs : List α) : StrictWeak (sorterLess less cs) := by
  refine ⟨fun a => ?_, fun a b c => ?_, fun a b c => ?_⟩
  · unfold sorterLess
    cases cs[a]? with
    | none => rfl
    | some x => exact sw_irrefl sw x
  · unfold sorterLess
    cases cs[a]? <;> cases cs[b]? <;> cases cs[c]? <;> simp
    exact fun h1 h2 => sw_trans sw h1 h2
  · unfold sorterLess
    cases cs[a]? <;> cases cs[b]? <;> cases cs[c]? <;> simp
    exact fun h1 h2 => sw.ntrans _ _ _ h1 h2

end

theorem invertLoop_spec : ∀ (p : List Nat) (i : Nat) (v : List Nat), p.Nodup → (∀ x ∈ p, x < v.length) →
    ∃ v', invertLoop p i v = .ok v' ∧ v'.length = v.length ∧
      (∀ (k x : Nat), p[k]? = some x → v'[x]? = some (i + k)) ∧ (∀ x : Nat, x ∉ p → v'[x]? = v[x]?)
  | [], i, v, _, _ => ⟨v, rfl, rfl, by simp, by simp⟩
  | q :: ps, i, v, hn, hl => by
    obtain ⟨hq, hn⟩ := List.nodup_cons.1 hn
    have hql := hl q (by simp)
    obtain ⟨v', e, h1, h2, h3⟩ := invertLoop_spec ps (i + 1) (v.set q i) hn (fun x hx => by simpa using hl x (by simp [hx]))
    refine ⟨v', by rw [invertLoop, if_pos hql, e], by simpa using h1, fun k x hk => ?_, fun x hx => ?_⟩
    · cases k with
      | zero =>
        simp at hk
        subst hk
        rw [h3 _ hq]
        simp [hql]
      | succ k =>
        rw [h2 k x (by simpa using hk)]
        congr 1; omega
    · rw [h3 x (fun h => hx (by simp [h])), List.getElem?_set_ne]
      rintro rfl; simp at hx

theorem copyCats_id {α : Type} (l : List α) : copyCats (some id) l = .ok l := by
  induction l with
  | nil => rfl
  | cons c cs ih => simp [copyCats, ih]

/-- The relation on optional categories used to compare positions. -/
def ltO {α : Type} (less : α → α → Bool) : Option α → Option α → Prop
  | some a, some b => less a b = true
  | _, _ => False

theorem distinct_index {α : Type} {less : α → α → Bool} {cs : List α} (hd : Distinct less cs) {i j : Nat} {a b : α}
    (hi : cs[i]? = some a) (hj : cs[j]? = some b) (he : Equiv' less a b) : i = j := by
  obtain ⟨hi', rfl⟩ := List.getElem?_eq_some_iff.1 hi
  obtain ⟨hj', rfl⟩ := List.getElem?_eq_some_iff.1 hj
  rcases Nat.lt_trichotomy i j with h | h | h
  · exact absurd he (List.pairwise_iff_getElem.1 hd i j hi' hj' h)
  · exact h
  · exact absurd ⟨he.2, he.1⟩ (List.pairwise_iff_getElem.1 hd j i hj' hi' h)

theorem catStorage_fits {n : Nat} (h : n ≤ 2 ^ 32) : n ≤ 256 ^ catStorage n := by
  unfold catStorage
  by_cases h1 : n ≤ 256
  · rw [if_pos h1]; simpa using h1
  · rw [if_neg h1]
    by_cases h2 : n ≤ 65536
    · rw [if_pos h2]; simpa using h2
    · rw [if_neg h2]; simpa using h

/-- A pair of inverse index maps consistent with the sorted categories makes a good categorical type. -/
theorem catOK_of {α : Type} {less : α → α → Bool} (sw : StrictWeakLess less) {cs : List α} {t : Cat α}
    (hn : cs.length ≤ 2 ^ 32) (hd : Distinct less cs) (hsort : SortedBy less t.cats) (hlen : t.cats.length = cs.length)
    (hst : t.storage = catStorage cs.length)
    (hmap : ∀ v : Nat, v < cs.length → ∃ i : Nat, t.v2i[v]? = some i ∧ t.i2v[i]? = some v ∧ t.cats[i]? = cs[v]?)
    (hall : ∀ i : Nat, i < cs.length → ∃ v : Nat, t.i2v[i]? = some v ∧ v < cs.length ∧ t.cats[i]? = cs[v]?) :
    CatOK less cs t := by
  have hsome : ∀ v : Nat, v < cs.length → ∃ c, cs[v]? = some c := fun v h => ⟨cs[v], List.getElem?_eq_getElem h⟩
  refine ⟨fun v c hc => ?_, fun v c x hc he => ?_, fun x hx => ?_, fun v hv => ?_, ?_⟩
  · have hv := (List.getElem?_eq_some_iff.1 hc).1
    obtain ⟨i, h1, h2, h3⟩ := hmap v hv
    unfold catDecode
    rw [if_neg (by omega), h1]
    simp only
    rw [h3, hc]
  · have hv := (List.getElem?_eq_some_iff.1 hc).1
    obtain ⟨i, h1, h2, h3⟩ := hmap v hv
    unfold catEncode
    rcases binary_search_exact less t.cats x with ⟨j, e, hj, y, hy, he2⟩ | ⟨e, hno⟩
    · rw [e, Res.bind_ok, if_neg (by omega)]
      obtain ⟨w, hw1, hw2, hw3⟩ := hall j (by omega)
      have hey : Equiv' less y c := ⟨sw.ntrans _ _ _ he2.2 he.2, sw.ntrans _ _ _ he.1 he2.1⟩
      have : w = v := distinct_index hd (hw3.symm.trans hy) hc hey
      subst this
      rw [show ((j : Int)).toNat = j by omega, hw1]
      simp only
      rw [Nat.mod_eq_of_lt (by omega)]
    · exact absurd ⟨c, h3.trans hc, he.2, he.1⟩ (hno sw hsort i)
  · unfold catEncode
    rcases binary_search_exact less t.cats x with ⟨j, e, hj, y, hy, he2⟩ | ⟨e, hno⟩
    · obtain ⟨w, hw1, hw2, hw3⟩ := hall j (by omega)
      exact absurd ⟨he2.2, he2.1⟩ (hx y (List.mem_of_getElem? (hw3.symm.trans hy)))
    · rw [e, Res.bind_ok, if_pos (by omega)]
  · unfold catDecode
    rw [if_pos (by omega)]
  · rw [hst]; exact catStorage_fits hn

/-- C54: categories handed over in increasing order (`presorted`, the path of `factor_categorical`) get their
    positions as codes. -/
theorem categorical_presorted {α : Type} {less : α → α → Bool} (sw : StrictWeakLess less) {cs : List α}
    (hn : cs.length ≤ 2 ^ 32) (hi : Increasing less cs) : CatOK less cs (catPresorted cs) := by
  refine catOK_of sw hn (increasing_distinct sw hi) (increasing_sorted sw hi) rfl rfl (fun v hv => ?_) (fun i h => ?_)
  · exact ⟨v, by simp [catPresorted, hv], by simp [catPresorted, hv], rfl⟩
  · exact ⟨i, by simp [catPresorted, h], h, rfl⟩

/-- C54: given working comparison and copy kernels, the constructor rejects categories with duplicates and otherwise
    makes a type in which code `v` means the `v`-th category given. -/
theorem categorical_new_partial {α : Type} {less : α → α → Bool} (sw : StrictWeakLess less)
    {srt : (Nat → Nat → Bool) → List Nat → List Nat} (hs : SortContract srt) (junk : List Nat) (cs : List α)
    (hn : cs.length ≤ 2 ^ 32) :
    (Distinct less cs → ∃ t, catNew (some less) (some id) srt junk cs = .ok t ∧ CatOK less cs t) ∧
    (¬ Distinct less cs → catNew (some less) (some id) srt junk cs = .throw .runtime) := by
  obtain ⟨hu1, hu2⟩ := catUniques_spec sw cs [] (by simp [Increasing])
  rw [List.nil_append] at hu1 hu2
  constructor
  · intro hd
    obtain ⟨u, eu, hui, hup⟩ := hu1 hd
    obtain ⟨hp, hps⟩ := hs (sorterLess less cs) (List.range cs.length) (sorterLess_strictWeak sw cs)
    generalize hpdef : srt (sorterLess less cs) (List.range cs.length) = p at hp hps
    have hnd : p.Nodup := hp.nodup_iff.2 List.nodup_range
    have hmem : ∀ x, x ∈ p ↔ x < cs.length := fun x => by rw [hp.mem_iff]; simp
    have hplen : p.length = cs.length := by rw [hp.length_eq]; simp
    obtain ⟨v2i, ev, hvl, hv1, -⟩ := invertLoop_spec p 0
      (junk.take cs.length ++ List.replicate (cs.length - junk.length) 0) hnd
      (fun x hx => by have := (hmem x).1 hx; simp; omega)
    have hul : u.length = cs.length := hup.length_eq
    -- the sorted categories are the categories at the sorted indices
    have hcat : u.map some = p.map fun i => cs[i]? := by
      apply List.Perm.eq_of_pairwise (le := ltO less)
      · intro a b _ _ h1 h2
        cases a <;> cases b <;> simp only [ltO] at h1 h2
        have := sw.asymm _ _ h1
        rw [h2] at this; simp at this
      · rw [List.pairwise_map]; exact hui
      · rw [List.pairwise_map]
        rw [List.pairwise_iff_getElem] at hps ⊢
        intro i j hi hj hij
        have hpi : p[i] < cs.length := (hmem _).1 (List.getElem_mem hi)
        have hpj : p[j] < cs.length := (hmem _).1 (List.getElem_mem hj)
        have hle := hps i j hi hj hij
        unfold sorterLess at hle
        rw [List.getElem?_eq_getElem hpi, List.getElem?_eq_getElem hpj] at hle ⊢
        simp only [ltO] at hle ⊢
        cases hlt : less cs[p[i]] cs[p[j]] with
        | true => rfl
        | false =>
          have := distinct_index hd (List.getElem?_eq_getElem hpi) (List.getElem?_eq_getElem hpj) ⟨hlt, hle⟩
          have := (List.Nodup.getElem_inj_iff hnd).1 this
          omega
      · refine (hup.map some).trans ?_
        have hr : cs.map some = (List.range cs.length).map fun i => cs[i]? := by
          apply List.ext_getElem?
          intro k
          rw [List.getElem?_map, List.getElem?_map]
          by_cases hk : k < cs.length
          · rw [List.getElem?_range hk, List.getElem?_eq_getElem hk]; simp [hk]
          · rw [List.getElem?_eq_none (by omega), List.getElem?_eq_none (by simp; omega)]; rfl
        rw [hr]
        exact (hp.map _).symm
    have hget : ∀ i v : Nat, p[i]? = some v → u[i]? = cs[v]? := by
      intro i v hi
      have h1 : (u.map some)[i]? = (p.map fun i => cs[i]?)[i]? := by rw [hcat]
      rw [List.getElem?_map, List.getElem?_map, hi] at h1
      cases hu : u[i]? with
      | none => rw [hu] at h1; simp at h1
      | some a => rw [hu] at h1; simpa using h1
    refine ⟨{ cats := u, i2v := p, v2i := v2i, storage := catStorage cs.length }, ?_, ?_⟩
    · unfold catNew
      rw [eu, Res.bind_ok]
      simp only [sortIndices, hpdef, Res.bind_ok]
      rw [ev, Res.bind_ok, copyCats_id]
      rfl
    · refine catOK_of sw hn hd (increasing_sorted sw hui) hul rfl (fun v hv => ?_) (fun i h => ?_)
      · obtain ⟨i, hi⟩ := List.getElem?_of_mem ((hmem v).2 hv)
        refine ⟨i, ?_, hi, hget i v hi⟩
        have := hv1 i v hi
        simpa using this
      · have hip : i < p.length := by omega
        exact ⟨p[i], List.getElem?_eq_getElem hip, (hmem _).1 (List.getElem_mem hip),
          hget i _ (List.getElem?_eq_getElem hip)⟩
  · intro hd
    unfold catNew
    rw [hu2 hd]
    rfl

/-- The hypotheses are met by integer categories out of order. -/
example : Distinct (fun a b : Int => decide (a < b)) [7, -2, 30] ∧ StrictWeakLess (fun a b : Int => decide (a < b)) ∧
    SortContract stableSort :=
  ⟨by simp [Distinct, Equiv'], strictWeak_int, stableSort_contract⟩

/-- C54 violated: as the code stands the comparison and copy kernels are never built, so constructing a categorical
    type from any non-empty list of categories (and factoring any non-empty array) calls a NULL function. -/
theorem categorical_ctor_violated {α : Type} (srt : (Nat → Nat → Bool) → List Nat → List Nat) (junk : List Nat)
    (c : α) (cs : List α) (hj : junk.length = cs.length + 1) :
    catCtor srt junk (c :: cs) = .ub ∧ factorCategorical none none (c :: cs) = .ub := by
  constructor
  · unfold catCtor catNew
    cases cs with
    | nil =>
      have e1 : catUniques (none : Option (α → α → Bool)) [] [c] = .ok [c] := rfl
      have e2 : sortIndices srt (none : Option (α → α → Bool)) [c] = .ok [0] := rfl
      rw [e1, Res.bind_ok, e2, Res.bind_ok]
      match junk, hj with
      | [j], _ => rfl
    | cons d ds => rfl
  · unfold factorCategorical
    have h1 : factorLoop (none : Option (α → α → Bool)) [] (c :: cs) = factorLoop none [c] cs := rfl
    rw [h1]
    cases cs with
    | nil => rfl
    | cons d ds => rfl

/-- C54: factoring an array, given working kernels: the categories are the distinct values in increasing order. -/
theorem factor_loop_spec {α : Type} {less : α → α → Bool} (sw : StrictWeakLess less) :
    ∀ (vs u : List α), Increasing less u → ∃ u', factorLoop (some less) u vs = .ok u' ∧ Increasing less u' ∧
      (∀ x, x ∈ u' → x ∈ u ∨ x ∈ vs) ∧ (∀ x, x ∈ u ∨ x ∈ vs → ∃ y ∈ u', Equiv' less y x) ∧ u'.length ≤ u.length + vs.length
  | [], u, h => ⟨u, rfl, h, fun x hx => Or.inl hx, fun x hx => ⟨x, by simpa using hx, sw_irrefl sw x, sw_irrefl sw x⟩, by simp⟩
  | v :: vs, u, h => by
    obtain ⟨b, e, hb⟩ := setHas_spec sw v h
    simp only [factorLoop, e, Res.bind_ok]
    cases b with
    | true =>
      obtain ⟨y0, hy0, he0⟩ := hb.1 rfl
      obtain ⟨u', e', hi', hs', hc', hl'⟩ := factor_loop_spec sw vs u h
      refine ⟨u', by simpa using e', hi', fun x hx => ?_, fun x hx => ?_, by simp; omega⟩
      · rcases hs' x hx with h | h
        · exact Or.inl h
        · exact Or.inr (by simp [h])
      · rcases hx with hx | hx
        · exact hc' x (Or.inl hx)
        · rcases List.mem_cons.1 hx with rfl | hx
          · obtain ⟨y, hy, he⟩ := hc' y0 (Or.inl hy0)
            exact ⟨y, hy, sw.ntrans _ _ _ he.1 he0.1, sw.ntrans _ _ _ he0.2 he.2⟩
          · exact hc' x (Or.inr hx)
    | false =>
      have hno : ∀ y ∈ u, ¬ Equiv' less y v := fun y hy he => by
        have := hb.2 ⟨y, hy, he⟩; simp at this
      obtain ⟨u1, e1, hi1, hp1⟩ := setIns_spec sw v h hno
      obtain ⟨u', e', hi', hs', hc', hl'⟩ := factor_loop_spec sw vs u1 hi1
      have hlen := hp1.length_eq
      refine ⟨u', by simp [e1, e'], hi', fun x hx => ?_, fun x hx => ?_, by simp at hlen ⊢; omega⟩
      · rcases hs' x hx with h | h
        · rcases List.mem_cons.1 (hp1.mem_iff.1 h) with rfl | h
          · exact Or.inr (by simp)
          · exact Or.inl h
        · exact Or.inr (by simp [h])
      · apply hc'
        rcases hx with hx | hx
        · exact Or.inl (hp1.mem_iff.2 (by simp [hx]))
        · rcases List.mem_cons.1 hx with rfl | hx
          · exact Or.inl (hp1.mem_iff.2 (by simp))
          · exact Or.inr hx

/-- C54: factoring an array, given working kernels: every category is one of the values, every value has a category,
    and the resulting type encodes and decodes them. -/
theorem factor_categorical_partial {α : Type} {less : α → α → Bool} (sw : StrictWeakLess less) (vs : List α)
    (hn : vs.length ≤ 2 ^ 32) :
    ∃ t u, factorCategorical (some less) (some id) vs = .ok t ∧ CatOK less u t ∧ Increasing less u ∧
      (∀ x ∈ u, x ∈ vs) ∧ (∀ x ∈ vs, ∃ y ∈ u, Equiv' less y x) := by
  obtain ⟨u, e, hi, hs, hc, hl⟩ := factor_loop_spec sw vs [] (by simp [Increasing])
  refine ⟨catPresorted u, u, ?_, categorical_presorted sw (by simp at hl; omega) hi, hi, fun x hx => ?_, fun x hx => hc x (Or.inr hx)⟩
  · unfold factorCategorical
    rw [e, Res.bind_ok, copyCats_id]
    rfl
  · rcases hs x hx with h | h
    · simp at h
    · exact h

end Dynd
