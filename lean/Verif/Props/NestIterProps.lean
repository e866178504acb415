/-
Iterators over nested containers (C108).
-/
import Verif.Model.NestIter

namespace Dynd

/-! ### Specification -/

/-- The indices of the elements of `c[d₀][d₁]...`, the last one running fastest. -/
def allIdx : List Nat → List (List Nat)
  | [] => [[]]
  | d :: ds => (List.range d).flatMap fun i => (allIdx ds).map (i :: ·)

/-- Where `c[i₀][i₁]...` is, counted in elements from the start of `c`. -/
def elemAddr : List Nat → List Nat → Nat
  | _ :: ds, i :: is => i * extent ds + elemAddr ds is
  | _, _ => 0

/-- The values in a container of containers, in order. -/
def NCont.leaves {α : Type} : NCont α → List α
  | .val a => [a]
  | .node cs => leavesAll cs
where leavesAll : List (NCont α) → List α
  | [] => []
  | c :: cs => c.leaves ++ leavesAll cs

/-- The iterator after `k` increments. -/
def vSteps {α : Type} (root : NCont α) : Nat → List VLvl → Res (List VLvl)
  | 0, it => .ok it
  | k + 1, it => do
    let it' ← vSteps root k it
    vNext root it'

/-- `std::vector<std::vector<T>>` with these rows -/
def rows {α : Type} (rs : List (List α)) : NCont α := .node (rs.map fun r => .node (r.map .val))

/-! ### C arrays -/

theorem elemAddr_range (ds : List Nat) : (allIdx ds).map (elemAddr ds) = List.range (extent ds) := by
  induction ds with
  | nil => rfl
  | cons d ds ih =>
    rw [allIdx, extent]
    induction d with
    | zero => simp
    | succ d ihd =>
      have he : elemAddr ((d + 1) :: ds) = elemAddr (d :: ds) := by funext is; cases is <;> rfl
      rw [he, List.range_succ, List.flatMap_append, List.map_append, ihd, Nat.succ_mul, List.range_add]
      congr 1
      rw [List.flatMap_cons, List.flatMap_nil, List.append_nil, List.map_map, ← ih, List.map_map]
      rfl

theorem extent_pos {ds : List Nat} (h : ∀ d ∈ ds, 0 < d) : 0 < extent ds := by
  induction ds with
  | nil => exact Nat.one_pos
  | cons d ds ih => exact Nat.mul_pos (h d (by simp)) (ih fun x hx => h x (by simp [hx]))

/-- The iterator after `k` increments: each level is at the start of the sub-array holding element number `k`. -/
def itAt : List Nat → Nat → Nat → Nat → List ItLvl
  | [], _, _, _ => []
  | [_], a, e, k => [⟨a + k, e⟩]
  | _ :: ds, a, e, k => ⟨a + (k / extent ds) * extent ds, e⟩ :: itAt ds a (a + (k / extent ds + 1) * extent ds) k

theorem itAt_head (ds : List Nat) (h : ds ≠ []) (a e k : Nat) :
    ∃ r, itAt ds a e k = ⟨a + (k / extent ds.tail) * extent ds.tail, e⟩ :: r ∧
      ∀ e', itAt ds a e' k = ⟨a + (k / extent ds.tail) * extent ds.tail, e'⟩ :: r := by
  match ds, h with
  | [d], _ => exact ⟨[], by simp [itAt, extent], by simp [itAt, extent]⟩
  | d :: d' :: ds, _ => exact ⟨_, rfl, fun _ => rfl⟩

theorem cBegin_at (ds : List Nat) (h : ∀ d ∈ ds, 0 < d) (a : Nat) : cBegin ds a = itAt ds a (a + extent ds) 0 := by
  match ds with
  | [] => rfl
  | [d] => simp [cBegin, itAt, extent]
  | d :: d' :: ds =>
    have ih := cBegin_at (d' :: ds) (fun x hx => h x (by simp [hx])) a
    rw [cBegin, itAt, ih]
    · simp [extent]
    · simp
    · simp

theorem cNext_at (ds : List Nat) (h : ∀ d ∈ ds, 0 < d) (a e k : Nat) : cNext ds (itAt ds a e k) = itAt ds a e (k + 1) := by
  match ds with
  | [] => rfl
  | [d] => simp [cNext, itAt, Nat.add_assoc]
  | d :: d' :: ds =>
    have h' : ∀ x ∈ d' :: ds, 0 < x := fun x hx => h x (by simp [hx])
    have ih := cNext_at (d' :: ds) h' a (a + (k / extent (d' :: ds) + 1) * extent (d' :: ds)) k
    have hp : 0 < extent (d' :: ds) := extent_pos h'
    have hp' : 0 < extent ds := extent_pos fun x hx => h' x (by simp [hx])
    have hs : extent (d' :: ds) = d' * extent ds := rfl
    rw [itAt, cNext, ih]
    · obtain ⟨r, hr, hr'⟩ := itAt_head (d' :: ds) (by simp) a (a + (k / extent (d' :: ds) + 1) * extent (d' :: ds)) (k + 1)
      simp only [List.tail_cons] at hr hr'
      have hu : itAt (d :: d' :: ds) a e (k + 1) = ⟨a + ((k + 1) / extent (d' :: ds)) * extent (d' :: ds), e⟩ ::
        itAt (d' :: ds) a (a + ((k + 1) / extent (d' :: ds) + 1) * extent (d' :: ds)) (k + 1) := rfl
      rw [hr, hu, hr' (a + ((k + 1) / extent (d' :: ds) + 1) * extent (d' :: ds))]
      simp only []
      generalize hS : extent (d' :: ds) = s at *
      generalize hT : extent ds = t at *
      have e1 : (k + 1) / t * t + (k + 1) % t = k + 1 := by rw [Nat.mul_comm]; exact Nat.div_add_mod _ _
      have e2 : (k + 1) / s * s + (k + 1) % s = k + 1 := by rw [Nat.mul_comm]; exact Nat.div_add_mod _ _
      have e3 : k / s * s + k % s = k := by rw [Nat.mul_comm]; exact Nat.div_add_mod _ _
      have l3 : k % s < s := Nat.mod_lt _ hp
      have e4 : (k / s + 1) * s = k / s * s + s := Nat.succ_mul _ _
      have e5 : ((k + 1) / s + 1) * s = (k + 1) / s * s + s := Nat.succ_mul _ _
      by_cases hd : (k + 1) % s = 0
      · -- the inner array is finished
        have hq : (k + 1) / s = k / s + 1 := by
          rw [Nat.succ_div, if_pos (Nat.dvd_of_mod_eq_zero hd)]
        have ht : (k + 1) % t = 0 := by
          obtain ⟨c, hc⟩ := Nat.dvd_of_mod_eq_zero hd
          rw [hc, hs, Nat.mul_comm d' t, Nat.mul_assoc]; exact Nat.mul_mod_right _ _
        have hm : (k + 1) / s * s = k / s * s + s := by rw [hq, e4]
        rw [if_pos (by omega)]
        congr 1
        · congr 1; omega
        · congr 1; congr 1 <;> omega
      · have hq : (k + 1) / s = k / s := by
          rw [Nat.succ_div, if_neg (fun hdvd => hd (Nat.mod_eq_zero_of_dvd hdvd)), Nat.add_zero]
        have l4 : (k + 1) % s < s := Nat.mod_lt _ hp
        have hm : (k + 1) / s * s = k / s * s := by rw [hq]
        rw [if_neg (by omega), hq]
    · simp
    · simp

theorem cEnd_cur (ds : List Nat) (a : Nat) (h : ∀ d ∈ ds, 0 < d) (n : Nat) (hn : extent ds ∣ n) (h0 : 0 < n) (e : Nat) :
    cIterEq (itAt ds a e n) (cEnd ds (a + n)) = true ∧ cIterNe (itAt ds a e n) (cEnd ds (a + n)) = false := by
  match ds with
  | [] => exact ⟨rfl, rfl⟩
  | [d] => simp [itAt, cEnd, cIterEq, cIterNe]
  | d :: d' :: ds =>
    have h' : ∀ x ∈ d' :: ds, 0 < x := fun x hx => h x (by simp [hx])
    have hp : 0 < extent (d' :: ds) := extent_pos h'
    have hn' : extent (d' :: ds) ∣ n := Nat.dvd_trans ⟨d, by rw [extent, Nat.mul_comm]⟩ hn
    have hle : extent (d' :: ds) ≤ n := Nat.le_of_dvd h0 hn'
    have e1 : a + n - extent (d' :: ds) + extent (d' :: ds) = a + n := by omega
    have ih := cEnd_cur (d' :: ds) a h' n hn' h0 (a + (n / extent (d' :: ds) + 1) * extent (d' :: ds))
    rw [itAt, cEnd, e1]
    · simp only [cIterEq, cIterNe, ih.1, ih.2, Nat.div_mul_cancel hn']
      simp
    · simp
    · simp

theorem cIterNe_before (ds : List Nat) (h0 : ds ≠ []) (a : Nat) (e k n : Nat) (hk : k < n) :
    cIterNe (itAt ds a e k) (cEnd ds (a + n)) = true ∧ cIterEq (itAt ds a e k) (cEnd ds (a + n)) = false := by
  match ds, h0 with
  | [d], _ => simp [itAt, cEnd, cIterNe, cIterEq]; omega
  | d :: d' :: ds, _ =>
    have : k / extent (d' :: ds) * extent (d' :: ds) ≤ k := Nat.div_mul_le_self _ _
    rw [itAt, cEnd]
    · have hne : a + k / extent (d' :: ds) * extent (d' :: ds) ≠ a + n := by omega
      simp only [cIterNe, cIterEq, hne, ne_eq, not_false_iff, decide_true, decide_false, Bool.true_or, Bool.false_and, and_self]
    · simp
    · simp

theorem cDeref_at (ds : List Nat) (h0 : ds ≠ []) (a e k : Nat) : cDeref (itAt ds a e k) = a + k := by
  match ds, h0 with
  | [d], _ => rfl
  | d :: d' :: ds, _ =>
    have ih := cDeref_at (d' :: ds) (by simp) a (a + (k / extent (d' :: ds) + 1) * extent (d' :: ds)) k
    obtain ⟨r, hr, _⟩ := itAt_head (d' :: ds) (by simp) a (a + (k / extent (d' :: ds) + 1) * extent (d' :: ds)) k
    rw [itAt]
    · rw [hr] at ih ⊢
      rw [cDeref]
      · exact ih
      · simp
    · simp

theorem cWalk_at (ds : List Nat) (h0 : ds ≠ []) (h : ∀ d ∈ ds, 0 < d) (a : Nat) : ∀ (m k f : Nat), k + m = extent ds → m < f →
    cWalk ds (cEnd ds (a + extent ds)) f (itAt ds a (a + extent ds) k) = .ok ((List.range' k m).map (a + ·)) := by
  intro m
  induction m with
  | zero =>
    intro k f hk hf
    obtain ⟨g, rfl⟩ : ∃ g, f = g + 1 := ⟨f - 1, by omega⟩
    have hk : k = extent ds := by omega
    subst hk
    rw [cWalk, (cEnd_cur ds a h _ (Nat.dvd_refl _) (extent_pos h) _).2]
    simp
  | succ m ih =>
    intro k f hk hf
    obtain ⟨g, rfl⟩ : ∃ g, f = g + 1 := ⟨f - 1, by omega⟩
    rw [cWalk, (cIterNe_before ds h0 a _ k _ (by omega)).1, if_pos rfl]
    simp only [cPostInc]
    rw [cNext_at ds h, ih (k + 1) g (by omega) (by omega), cDeref_at ds h0]
    rfl

/-- C108: for an array of any number of dimensions with any positive extents, the loop from `begin<N>` to `end<N>` ends
    and visits `c[i₀][i₁]...` for every index exactly once, the last index running fastest. -/
theorem nested_iter_array_exact (ds : List Nat) (h0 : ds ≠ []) (h : ∀ d ∈ ds, 0 < d) (a fuel : Nat) (hf : extent ds < fuel) :
    cWalk ds (cEnd ds (a + extent ds)) fuel (cBegin ds a) = .ok ((allIdx ds).map fun is => a + elemAddr ds is) := by
  rw [cBegin_at ds h, cWalk_at ds h0 h a (extent ds) 0 fuel (by omega) hf, ← List.range_eq_range', ← elemAddr_range, List.map_map]
  rfl

/-- the iterator after `k` increments -/
def cSteps (ds : List Nat) (a : Nat) : Nat → List ItLvl
  | 0 => cBegin ds a
  | k + 1 => cNext ds (cSteps ds a k)

/-- C108: after `k` increments the iterator is at element number `k`, and it equals the end exactly after all of them;
    `==` and `!=` are opposites there. -/
theorem nested_iter_array_end (ds : List Nat) (h0 : ds ≠ []) (h : ∀ d ∈ ds, 0 < d) (a k : Nat) (hk : k ≤ extent ds) :
    cDeref (cSteps ds a k) = a + k ∧ (cIterEq (cSteps ds a k) (cEnd ds (a + extent ds)) = true ↔ k = extent ds) ∧
      (cIterNe (cSteps ds a k) (cEnd ds (a + extent ds)) = true ↔ k ≠ extent ds) := by
  have hs : ∀ k, cSteps ds a k = itAt ds a (a + extent ds) k := by
    intro k
    induction k with
    | zero => exact cBegin_at ds h a
    | succ k ih => rw [cSteps, ih, cNext_at ds h]
  rw [hs, cDeref_at ds h0]
  refine ⟨rfl, ?_⟩
  by_cases he : k = extent ds
  · subst he
    have := cEnd_cur ds a h _ (Nat.dvd_refl _) (extent_pos h) (a + extent ds)
    simp [this.1, this.2]
  · have := cIterNe_before ds h0 a (a + extent ds) k (extent ds) (by omega)
    simp [this.1, this.2, he]

theorem cIterEq_deref : ∀ (x y : List ItLvl), cIterEq x y = true → cDeref x = cDeref y
  | [], [], _ => rfl
  | [], _ :: _, h => by simp [cIterEq] at h
  | _ :: _, [], h => by simp [cIterEq] at h
  | [l], [l'], h => by simpa [cIterEq, cDeref] using h
  | [_], _ :: _ :: _, h => by simp [cIterEq] at h
  | _ :: _ :: _, [_], h => by simp [cIterEq] at h
  | l :: b :: r, l' :: b' :: r', h => by
    rw [cIterEq, Bool.and_eq_true] at h
    simpa [cDeref] using cIterEq_deref (b :: r) (b' :: r') h.2

theorem cIterEq_self (x : List ItLvl) : cIterEq x x = true := by
  induction x with
  | nil => rfl
  | cons l r ih => simp [cIterEq, ih]

theorem cIterNe_not : ∀ (x y : List ItLvl), x.length = y.length → cIterNe x y = !cIterEq x y
  | [], [], _ => rfl
  | [], _ :: _, h => by simp at h
  | _ :: _, [], h => by simp at h
  | l :: r, l' :: r', h => by
    rw [cIterNe, cIterEq, cIterNe_not r r' (by simpa using h)]
    simp

/-- C108: two iterators are equal exactly when they are at the same element, and `!=` is the opposite of `==`. -/
theorem nested_iter_array_eq (ds : List Nat) (h0 : ds ≠ []) (h : ∀ d ∈ ds, 0 < d) (a j k : Nat) :
    (cIterEq (cSteps ds a j) (cSteps ds a k) = true ↔ j = k) ∧ (cIterNe (cSteps ds a j) (cSteps ds a k) = true ↔ j ≠ k) := by
  have hs : ∀ k, cSteps ds a k = itAt ds a (a + extent ds) k := by
    intro k
    induction k with
    | zero => exact cBegin_at ds h a
    | succ k ih => rw [cSteps, ih, cNext_at ds h]
  have hl : ∀ (ds : List Nat) (e k : Nat), (itAt ds a e k).length = ds.length := by
    intro ds
    induction ds with
    | nil => intro e k; rfl
    | cons d ds ih =>
      intro e k
      cases ds with
      | nil => rfl
      | cons d' ds => rw [itAt]; · simp [ih]
                      · simp
  have he : cIterEq (cSteps ds a j) (cSteps ds a k) = true ↔ j = k := by
    constructor
    · intro heq
      have := cIterEq_deref _ _ heq
      rw [hs, hs, cDeref_at ds h0, cDeref_at ds h0] at this
      omega
    · rintro rfl; exact cIterEq_self _
  refine ⟨he, ?_⟩
  rw [cIterNe_not _ _ (by rw [hs, hs, hl, hl]), ne_eq, ← he]
  simp

/-- An index of an array with these extents. -/
inductive InArray : List Nat → List Nat → Prop
  | nil : InArray [] []
  | cons {i d : Nat} {is ds : List Nat} : i < d → InArray is ds → InArray (i :: is) (d :: ds)

/-- every index is visited -/
theorem mem_allIdx (ds is : List Nat) : is ∈ allIdx ds ↔ InArray is ds := by
  induction ds generalizing is with
  | nil =>
    cases is with
    | nil => exact ⟨fun _ => .nil, fun _ => by simp [allIdx]⟩
    | cons i is => exact ⟨fun h => by simp [allIdx] at h, fun h => by cases h⟩
  | cons d ds ih =>
    simp only [allIdx, List.mem_flatMap, List.mem_range, List.mem_map]
    constructor
    · rintro ⟨i, hi, r, hr, rfl⟩
      exact .cons hi ((ih r).1 hr)
    · intro h
      cases h with
      | cons hi hr => exact ⟨_, hi, _, (ih _).2 hr, rfl⟩

/-- and no index twice -/
theorem allIdx_nodup (ds : List Nat) : (allIdx ds).Nodup := by
  have : ((allIdx ds).map (elemAddr ds)).Nodup := by rw [elemAddr_range]; exact List.nodup_range
  exact List.Pairwise.of_map _ (fun a b (hab : elemAddr ds a ≠ elemAddr ds b) e => hab (by rw [e])) this

/-! ### Containers of containers -/

/-- C108: a single level visits every element of any container, also an empty one, in order. -/
theorem nested_iter_flat_exact {α : Type} (xs : List α) (fuel : Nat) (hf : xs.length < fuel) :
    vLoop (.node (xs.map .val)) 1 fuel = .ok xs := by
  have walk : ∀ (m k f : Nat), k + m = xs.length → m < f →
      vWalk (.node (xs.map .val)) [⟨[], xs.length, [], xs.length⟩] f [⟨[], k, [], xs.length⟩] = .ok (xs.drop k) := by
    intro m
    induction m with
    | zero =>
      intro k f hk hf
      obtain ⟨g, rfl⟩ : ∃ g, f = g + 1 := ⟨f - 1, by omega⟩
      have hk : k = xs.length := by omega
      subst hk
      simp [vWalk, vNe]
    | succ m ih =>
      intro k f hk hf
      obtain ⟨g, rfl⟩ : ∃ g, f = g + 1 := ⟨f - 1, by omega⟩
      have hlt : k < xs.length := by omega
      have hd : vDeref (.node (xs.map .val)) [⟨[], k, [], xs.length⟩] = .ok xs[k] := by
        simp [vDeref, NCont.at?, List.getElem?_map, List.getElem?_eq_getElem hlt]
      have hn : vNext (.node (xs.map .val)) [⟨[], k, [], xs.length⟩] = .ok [⟨[], k + 1, [], xs.length⟩] := by
        simp only [vNext]
        rw [if_neg (by simp; omega)]
      have hne : vNe [⟨[], k, [], xs.length⟩] [⟨[], xs.length, [], xs.length⟩] = true := by
        simp [vNe]; omega
      rw [vWalk, if_pos hne, hd, hn]
      simp only [Res.bind_ok]
      rw [ih (k + 1) g (by omega) (by omega), List.drop_eq_getElem_cons hlt]
      rfl
  simp only [vLoop, NCont.size?, vBegin, vEnd, List.length_map, Res.bind_ok]
  have := walk xs.length 0 fuel (by omega) hf
  simpa using this

/-- An increment keeps the outermost level inside the container, when there are at least two levels. -/
theorem vNext_inside {α : Type} (cs : List (NCont α)) (l b : VLvl) (r it' : List VLvl) (hp : l.path = []) (hi : l.idx < cs.length)
    (h : vNext (.node cs) (l :: b :: r) = .ok it') :
    ∃ l' b' r', it' = l' :: b' :: r' ∧ l'.path = [] ∧ l'.idx < cs.length := by
  have hlen : ∀ (its its' : List VLvl), its ≠ [] → vNext (.node cs) its = .ok its' → its' ≠ [] := by
    intro its its' h0 hh
    match its, h0 with
    | [l], _ =>
      simp only [vNext] at hh
      split at hh
      · cases hh
      · cases hh; simp
    | l :: b :: r, _ =>
      rw [vNext] at hh
      · obtain ⟨r2, _, h2⟩ := Res.bind_eq_ok.1 hh
        cases r2 with
        | nil => cases h2; simp
        | cons b2 r2 =>
          simp only at h2
          split at h2
          · obtain ⟨x, _, h3⟩ := Res.bind_eq_ok.1 h2
            cases h3; simp
          · cases h2; simp
      · simp
  rw [vNext] at h
  · obtain ⟨r2, h1, h2⟩ := Res.bind_eq_ok.1 h
    cases r2 with
    | nil => exact absurd rfl (hlen _ _ (by simp) h1)
    | cons b2 r2 =>
      simp only at h2
      split at h2
      · obtain ⟨x, h3, h4⟩ := Res.bind_eq_ok.1 h2
        cases h4
        refine ⟨_, _, _, rfl, hp, ?_⟩
        simp only [derefCont, hp, List.nil_append, NCont.at?] at h3
        by_cases hb : l.idx + 1 < cs.length
        · exact hb
        · rw [List.getElem?_eq_none (by omega)] at h3
          cases h3
      · cases h2
        exact ⟨_, _, _, rfl, hp, hi⟩
  · simp

/-- C108 fails for every container whose elements are separate containers (vectors of vectors and deeper): with two or
    more levels the loop never ends normally, whatever is stored, because the increment that should reach `end<N>` reads
    the container after the last one. -/
theorem nested_iter_vector_violated {α : Type} (root : NCont α) (N : Nat) (hN : 2 ≤ N) (fuel : Nat) (xs : List α) :
    vLoop root N fuel ≠ .ok xs := by
  obtain ⟨M, rfl⟩ : ∃ M, N = M + 2 := ⟨N - 2, by omega⟩
  cases root with
  | val a => simp [vLoop, NCont.size?]
  | node cs =>
    intro hl
    simp only [vLoop, NCont.size?] at hl
    obtain ⟨b, hb, hl2⟩ := Res.bind_eq_ok.1 hl
    obtain ⟨e, he, h⟩ := Res.bind_eq_ok.1 hl2
    have vb : ∃ (l : VLvl) (b' : VLvl) (r : List VLvl), b = l :: b' :: r ∧ l.path = [] ∧ l.idx < cs.length := by
      rw [vBegin] at hb
      · obtain ⟨x, h1, h2⟩ := Res.bind_eq_ok.1 hb
        obtain ⟨r, h3, h4⟩ := Res.bind_eq_ok.1 h2
        cases h4
        have hne : r ≠ [] := by
          cases M with
          | zero =>
            have h3' : Res.ok [(⟨x.1, 0, x.1, x.2⟩ : VLvl)] = Res.ok r := h3
            cases h3'; simp
          | succ M =>
            rw [vBegin] at h3
            · obtain ⟨_, _, h5⟩ := Res.bind_eq_ok.1 h3
              obtain ⟨_, _, h6⟩ := Res.bind_eq_ok.1 h5
              cases h6; simp
            · simp
        obtain ⟨b', r', rfl⟩ := List.exists_cons_of_ne_nil hne
        refine ⟨_, _, _, rfl, rfl, ?_⟩
        simp only [derefCont, List.nil_append, NCont.at?] at h1
        by_cases hlt : 0 < cs.length
        · exact hlt
        · rw [List.getElem?_eq_none (by omega)] at h1
          cases h1
      · simp
    have ve : ∃ (l : VLvl) (r : List VLvl), e = l :: r ∧ l.idx = cs.length := by
      rw [vEnd] at he
      · split at he
        · cases he
        · obtain ⟨x, h1, h2⟩ := Res.bind_eq_ok.1 he
          obtain ⟨r, h3, h4⟩ := Res.bind_eq_ok.1 h2
          cases h4
          exact ⟨_, _, rfl, rfl⟩
      · simp
    obtain ⟨le, re, rfl, hle⟩ := ve
    clear hb he hl hl2
    induction fuel generalizing b xs with
    | zero => simp [vWalk] at h
    | succ f ih =>
      obtain ⟨l, b', r, rfl, hp, hi⟩ := vb
      rw [vWalk] at h
      have hne : vNe (l :: b' :: r) (le :: re) = true := by
        have : l.idx ≠ le.idx := by omega
        simp [vNe, this]
      rw [if_pos hne] at h
      obtain ⟨x, h1, h2⟩ := Res.bind_eq_ok.1 h
      obtain ⟨it', h3, h4⟩ := Res.bind_eq_ok.1 h2
      obtain ⟨ys, h5, h6⟩ := Res.bind_eq_ok.1 h4
      exact ih ys it' (vNext_inside cs l b' r it' hp hi h3) h5

/-- C108: what a user does see with two levels of non-empty rows: every element in order, and undefined behaviour at the
    increment after the last one. -/
theorem nested_iter_rows_partial {α : Type} (rs : List (List α)) (h0 : rs ≠ []) (hr : ∀ r ∈ rs, r ≠ []) :
    ∃ b, vBegin (rows rs) 2 [] rs.length = .ok b ∧
      (∀ k x, rs.flatten[k]? = some x → ∃ it, vSteps (rows rs) k b = .ok it ∧ vDeref (rows rs) it = .ok x) ∧
      vSteps (rows rs) rs.flatten.length b = .ub := by
  have hat : ∀ i, (hi : i < rs.length) → (rows rs).at? [i] = some (.node (rs[i].map .val)) := by
    intro i hi
    simp [rows, NCont.at?, List.getElem?_map, List.getElem?_eq_getElem hi]
  have hval : ∀ i j, (hi : i < rs.length) → (hj : j < rs[i].length) → (rows rs).at? [i, j] = some (.val rs[i][j]) := by
    intro i j hi hj
    simp [rows, NCont.at?, List.getElem?_map, List.getElem?_eq_getElem hi, List.getElem?_eq_getElem hj]
  have hder : ∀ i, (hi : i < rs.length) → derefCont (rows rs) [] i = .ok ([i], rs[i].length) := by
    intro i hi
    simp [derefCont, hat i hi, NCont.size?]
  have hpos : 0 < rs.length := List.length_pos_iff.2 h0
  have hbeg : vBegin (rows rs) 2 [] rs.length = .ok [⟨[], 0, [], rs.length⟩, ⟨[0], 0, [0], rs[0].length⟩] := by
    rw [vBegin]
    · rw [hder 0 hpos]; rfl
    · simp
  have hrow : ∀ i, (hi : i < rs.length) → 0 < rs[i].length := fun i hi => List.length_pos_iff.2 (hr _ (List.getElem_mem hi))
  -- one increment
  have hnext : ∀ i j, (hi : i < rs.length) → (hj : j < rs[i].length) →
      vNext (rows rs) [⟨[], i, [], rs.length⟩, ⟨[i], j, [i], rs[i].length⟩] =
        if j + 1 < rs[i].length then .ok [⟨[], i, [], rs.length⟩, ⟨[i], j + 1, [i], rs[i].length⟩]
        else if h : i + 1 < rs.length then .ok [⟨[], i + 1, [], rs.length⟩, ⟨[i + 1], 0, [i + 1], rs[i + 1].length⟩]
        else .ub := by
    intro i j hi hj
    have hin : vNext (rows rs) [⟨[i], j, [i], rs[i].length⟩] = .ok [⟨[i], j + 1, [i], rs[i].length⟩] := by
      simp only [vNext]; rw [if_neg (by simp; omega)]
    rw [vNext]
    · rw [hin]
      simp only [Res.bind_ok, true_and]
      by_cases hj1 : j + 1 < rs[i].length
      · rw [if_pos hj1, if_neg (by omega)]; rfl
      · rw [if_neg hj1, if_pos (by omega)]
        by_cases hi1 : i + 1 < rs.length
        · rw [dif_pos hi1, hder _ hi1]; rfl
        · rw [dif_neg hi1]
          have : derefCont (rows rs) [] (i + 1) = .ub := by
            simp only [derefCont, rows, List.nil_append, NCont.at?]
            rw [List.getElem?_eq_none (by simp; omega)]
          rw [this]; rfl
    · simp
  have hpre : ∀ i, (hi : i < rs.length) → (rs.take (i + 1)).flatten.length = (rs.take i).flatten.length + rs[i].length := by
    intro i hi
    rw [List.take_succ_eq_append_getElem hi, List.flatten_append, List.length_append, List.flatten_cons, List.flatten_nil,
      List.append_nil]
  have hall : ∀ i, i = rs.length → (rs.take i).flatten = rs.flatten := by rintro i rfl; simp
  -- the state after `k` increments
  have hst : ∀ k, k < rs.flatten.length → ∃ i j, ∃ (hi : i < rs.length), ∃ (_ : j < rs[i].length), k = (rs.take i).flatten.length + j ∧
      vSteps (rows rs) k [⟨[], 0, [], rs.length⟩, ⟨[0], 0, [0], rs[0].length⟩] =
        .ok [⟨[], i, [], rs.length⟩, ⟨[i], j, [i], rs[i].length⟩] := by
    intro k
    induction k with
    | zero => intro _; exact ⟨0, 0, hpos, hrow 0 hpos, by simp, rfl⟩
    | succ k ih =>
      intro hk
      obtain ⟨i, j, hi, hj, he, hs⟩ := ih (by omega)
      have hp := hpre i hi
      by_cases hj1 : j + 1 < rs[i].length
      · refine ⟨i, j + 1, hi, hj1, by omega, ?_⟩
        rw [vSteps, hs, Res.bind_ok, hnext i j hi hj, if_pos hj1]
      · have hi1 : i + 1 < rs.length := by
          by_cases hi1 : i + 1 < rs.length
          · exact hi1
          · have := hall (i + 1) (by omega)
            rw [this] at hp
            omega
        refine ⟨i + 1, 0, hi1, hrow _ hi1, by omega, ?_⟩
        rw [vSteps, hs, Res.bind_ok, hnext i j hi hj, if_neg hj1, dif_pos hi1]
  refine ⟨_, hbeg, ?_, ?_⟩
  · intro k x hx
    have hk : k < rs.flatten.length := by
      rcases List.getElem?_eq_some_iff.1 hx with ⟨h, _⟩; exact h
    obtain ⟨i, j, hi, hj, he, hs⟩ := hst k hk
    refine ⟨_, hs, ?_⟩
    have hsplit : rs.flatten = (rs.take i).flatten ++ (rs[i] ++ (rs.drop (i + 1)).flatten) := by
      rw [← List.flatten_cons, ← List.drop_eq_getElem_cons hi, ← List.flatten_append, List.take_append_drop]
    rw [hsplit, he, List.getElem?_append_right (by omega), Nat.add_sub_cancel_left, List.getElem?_append_left hj,
      List.getElem?_eq_getElem hj] at hx
    simp only [vDeref, List.cons_append, List.nil_append, hval i j hi hj]
    cases hx; rfl
  · have hlen : 0 < rs.flatten.length := by
      have h1 := hpre 0 hpos
      have h2 := hrow 0 hpos
      have h3 : (rs.take 1).flatten.length ≤ rs.flatten.length := by
        conv => rhs; rw [← List.take_append_drop 1 rs]
        simp
      simp only [Nat.zero_add] at h1
      omega
    obtain ⟨i, j, hi, hj, he, hs⟩ := hst (rs.flatten.length - 1) (by omega)
    have hp := hpre i hi
    have hle : (rs.take (i + 1)).flatten.length + (rs.drop (i + 1)).flatten.length = rs.flatten.length := by
      conv => rhs; rw [← List.take_append_drop (i + 1) rs]
      rw [List.flatten_append, List.length_append]
    have hj1 : ¬ j + 1 < rs[i].length := by omega
    have hi1 : ¬ i + 1 < rs.length := by
      intro hi1
      have h2 := hrow _ hi1
      have h3 : (rs.drop (i + 1)).flatten.length = rs[i + 1].length + (rs.drop (i + 2)).flatten.length := by
        rw [List.drop_eq_getElem_cons hi1, List.flatten_cons, List.length_append]
      omega
    obtain ⟨n, hn⟩ : ∃ n, rs.flatten.length = n + 1 := ⟨rs.flatten.length - 1, by omega⟩
    rw [hn, Nat.add_sub_cancel] at hs
    rw [hn, vSteps, hs, Res.bind_ok, hnext i j hi hj, if_neg hj1, dif_neg hi1]

/-! ### Concrete cases -/

/-- `int c[2][3]` at address 100 -/
example : cWalk [2, 3] (cEnd [2, 3] 106) 20 (cBegin [2, 3] 100) = .ok [100, 101, 102, 103, 104, 105] := by decide
example : allIdx [2, 3] = [[0, 0], [0, 1], [0, 2], [1, 0], [1, 1], [1, 2]] := by decide
/-- `int c[2][2][2]` -/
example : cWalk [2, 2, 2] (cEnd [2, 2, 2] 8) 20 (cBegin [2, 2, 2] 0) = .ok [0, 1, 2, 3, 4, 5, 6, 7] := by decide

/-- an empty row in the middle: the iterator stops at no element, and `*it` reads past the end of the empty row -/
theorem nested_iter_empty_row_violated :
    (do let b ← vBegin (rows [[1], [], [2]]) 2 [] 3
        let it ← vSteps (rows [[1], [], [2]]) 1 b
        vDeref (rows [[1], [], [2]]) it) = (.ub : Res Nat) := by decide +kernel

example : (do let b ← vBegin (rows [[1, 2], [3]]) 2 [] 2
              let it ← vSteps (rows [[1, 2], [3]]) 2 b
              vDeref (rows [[1, 2], [3]]) it) = .ok 3 := by decide +kernel
example : vLoop (.node ([1, 2, 3].map .val)) 1 9 = .ok [1, 2, 3] := by decide +kernel

end Dynd
