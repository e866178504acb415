import Verif.Props.SearchProps
/-
C19, C20: counting, replacing, splitting; prefixes, suffixes, concatenation.
-/
namespace Dynd

/-- Specification: cutting `h` at the non-overlapping occurrences of `p` found from left to right gives the pieces `ps`.
    The number of occurrences is one less than the number of pieces; replacing them by `new` gives the pieces joined by
    `new`. -/
inductive Pieces (p : List Nat) : List Nat → List (List Nat) → Prop
  | last (h : List Nat) : (∀ k, ¬ OccursAt h p k) → Pieces p h [h]
  | cut (a b : List Nat) (ps : List (List Nat)) : (∀ k, k < a.length → ¬ OccursAt (a ++ p ++ b) p k) → Pieces p b ps →
      Pieces p (a ++ p ++ b) (a :: ps)

/-- The pieces are uniquely determined. -/
theorem pieces_unique {p h : List Nat} {ps ps' : List (List Nat)} (h1 : Pieces p h ps) (h2 : Pieces p h ps') : ps = ps' := by
  induction h1 generalizing ps' with
  | last h hn =>
    cases h2 with
    | last => rfl
    | cut a b ps hm hp => exact absurd ⟨a, b, rfl, rfl⟩ (hn a.length)
  | cut a b ps hm hp ih =>
    generalize hh : a ++ p ++ b = h at h2
    cases h2 with
    | last _ hn => exact absurd ⟨a, b, hh.symm, rfl⟩ (hn a.length)
    | cut a' b' ps' hm' hp' =>
      have hl : a.length = a'.length := by
        rcases Nat.lt_trichotomy a.length a'.length with hlt | heq | hgt
        · exact absurd ⟨a, b, hh.symm, rfl⟩ (hm' _ hlt)
        · exact heq
        · exact absurd ⟨a', b', hh, rfl⟩ (hm _ hgt)
      rw [List.append_assoc, List.append_assoc] at hh
      obtain ⟨e1, e2⟩ := List.append_inj hh hl
      obtain ⟨_, e3⟩ := List.append_inj e2 rfl
      subst e1; subst e3
      rw [ih hp']

/-- Offsets of the occurrences found from left to right, from offset `s` on. -/
private inductive Greedy (h p : List Nat) : Nat → List Nat → Prop
  | done (s : Nat) : (∀ k, s ≤ k → ¬ Occ h p k) → Greedy h p s []
  | next (s k : Nat) (ms : List Nat) : s ≤ k → Occ h p k → (∀ j, s ≤ j → j < k → ¬ Occ h p j) → Greedy h p (k + p.length) ms →
      Greedy h p s (k :: ms)

private theorem occ_drop (h p : List Nat) (s j : Nat) (hs : s ≤ h.length) : Occ (h.drop s) p j ↔ Occ h p (s + j) := by
  unfold Occ
  simp only [List.length_drop]
  constructor
  · rintro ⟨h1, h2⟩
    refine ⟨by omega, ?_⟩
    intro i hi
    have := h2 i hi
    rw [← this]; simp [List.getD_eq_getElem?_getD, Nat.add_assoc]
  · rintro ⟨h1, h2⟩
    refine ⟨by omega, ?_⟩
    intro i hi
    have := h2 i hi
    rw [← this]; simp [List.getD_eq_getElem?_getD, Nat.add_assoc]

/-- The pieces between given match offsets. -/
private def cuts (h : List Nat) (m : Nat) : Nat → List Nat → List (List Nat)
  | s, [] => [h.drop s]
  | s, k :: ms => (h.drop s).take (k - s) :: cuts h m (k + m) ms

private theorem drop_split {h p : List Nat} {s k : Nat} (hk : s ≤ k) (ho : Occ h p k) :
    h.drop s = (h.drop s).take (k - s) ++ p ++ h.drop (k + p.length) := by
  obtain ⟨a, b, e, rfl⟩ := (occursAt_iff h p k).2 ho
  subst e
  rw [List.append_assoc, List.drop_append_of_le_length hk, List.take_append_of_le_length (by simp), List.take_of_length_le (by simp),
    ← List.append_assoc a p b, ← List.length_append, List.drop_left, List.append_assoc]

private theorem greedy_pieces {h p : List Nat} {s : Nat} {ms : List Nat} (g : Greedy h p s ms) (hs : s ≤ h.length) :
    Pieces p (h.drop s) (cuts h p.length s ms) := by
  induction g with
  | done s hn =>
    apply Pieces.last
    intro k
    rw [occursAt_iff, occ_drop h p s k hs]
    exact hn _ (by omega)
  | next s k ms hk ho hmin _ ih =>
    have hb := ho.1
    have hd := drop_split hk ho
    simp only [cuts]
    have hl : ((h.drop s).take (k - s)).length = k - s := by simp; omega
    have := Pieces.cut (p := p) ((h.drop s).take (k - s)) (h.drop (k + p.length)) (cuts h p.length (k + p.length) ms) ?_ (ih hb)
    · rw [← hd] at this; exact this
    · intro j hj
      rw [← hd, occursAt_iff, occ_drop h p s j hs]
      exact hmin _ (by omega) (by omega)

private theorem cuts_length (h : List Nat) (m s : Nat) (ms : List Nat) : (cuts h m s ms).length = ms.length + 1 := by
  induction ms generalizing s with
  | nil => rfl
  | cons k ms ih => simp [cuts, ih]

/-- Matches that really occur, in order and disjoint, from offset `s` on. -/
private inductive Disj (h p : List Nat) : Nat → List Nat → Prop
  | nil (s : Nat) : Disj h p s []
  | cons (s k : Nat) (ms : List Nat) : s ≤ k → Occ h p k → Disj h p (k + p.length) ms → Disj h p s (k :: ms)

private theorem greedy_disj {h p : List Nat} {s : Nat} {ms : List Nat} (g : Greedy h p s ms) : Disj h p s ms := by
  induction g with
  | done s _ => exact .nil s
  | next s k ms h1 h2 _ _ ih => exact .cons s k ms h1 h2 ih

private theorem cuts_ne_nil (h : List Nat) (m s : Nat) (ms : List Nat) : cuts h m s ms ≠ [] := by
  intro he; have := cuts_length h m s ms; rw [he] at this; simp at this

private theorem intercalate_cuts (h : List Nat) (m : Nat) (new : List Nat) (s k : Nat) (ms : List Nat) :
    List.intercalate new (cuts h m s (k :: ms)) = (h.drop s).take (k - s) ++ new ++ List.intercalate new (cuts h m (k + m) ms) := by
  simp only [cuts]
  rw [List.intercalate_cons_of_ne_nil (cuts_ne_nil _ _ _ _)]

private theorem copyReplace_eq {h p : List Nat} {new : List Nat} {s : Nat} {ms : List Nat} (d : Disj h p s ms) (hs : s ≤ h.length) :
    copyReplace h p.length new ms s = .ok (List.intercalate new (cuts h p.length s ms)) := by
  induction d with
  | nil s => simp [copyReplace, hs, readRange, cuts, List.intercalate_singleton]
  | cons s k ms hk ho _ ih =>
    have hb := ho.1
    simp only [copyReplace]
    rw [if_neg (by omega), readRange, if_pos (by omega), ih hb, intercalate_cuts]
    simp

private theorem splitter_eq {h p : List Nat} {s : Nat} {ms : List Nat} (d : Disj h p s ms) (hs : s ≤ h.length) :
    splitter h p.length ms s = .ok (cuts h p.length s ms) := by
  induction d with
  | nil s => simp [splitter, hs, readRange, cuts]
  | cons s k ms hk ho _ ih =>
    have hb := ho.1
    simp only [splitter]
    rw [if_neg (by omega), readRange, if_pos (by omega), show s + (k - s) + p.length = k + p.length by omega, ih hb]
    rfl

private theorem replaced_length {h p : List Nat} {new : List Nat} {s : Nat} {ms : List Nat} (d : Disj h p s ms) (hs : s ≤ h.length) :
    ((List.intercalate new (cuts h p.length s ms)).length : Int) = (h.length - s : Int) + ((new.length : Int) - p.length) * ms.length := by
  induction d with
  | nil s => simp [cuts, List.intercalate_singleton]; omega
  | cons s k ms hk ho _ ih =>
    have hb := ho.1
    have := ih hb
    rw [intercalate_cuts]
    simp only [List.length_append, List.length_take, List.length_drop, List.length_cons]
    rw [show min (k - s) (h.length - s) = k - s by omega, Int.natCast_add, Int.natCast_add, this, Int.natCast_add ms.length 1, Int.mul_add]
    omega

private theorem inplace_eq {h p : List Nat} {new : List Nat} (hn : new.length = p.length) {s : Nat} {ms : List Nat} (d : Disj h p s ms)
    (hs : s ≤ h.length) (pre : List Nat) (hp : pre.length = s) :
    inplaceReplace new ms (pre ++ h.drop s) = .ok (pre ++ List.intercalate new (cuts h p.length s ms)) := by
  induction d generalizing pre with
  | nil s => simp [inplaceReplace, cuts, List.intercalate_singleton]
  | cons s k ms hk ho _ ih =>
    have hb := ho.1
    simp only [inplaceReplace]
    rw [writeAt, if_pos (by simp; omega)]
    simp only [Res.bind_ok]
    have e1 : (pre ++ h.drop s).take k = pre ++ (h.drop s).take (k - s) := by
      rw [List.take_append, hp, List.take_of_length_le (by omega)]
    have e2 : (pre ++ h.drop s).drop (k + new.length) = h.drop (k + p.length) := by
      rw [List.drop_append, hp, List.drop_of_length_le (by omega), List.nil_append, List.drop_drop]
      congr 1; omega
    rw [e1, e2, ih hb _ (by simp; omega), intercalate_cuts]
    simp

/-! ### What the search reports -/

private theorem scanAll_disj {h p : List Nat} {mask skip : Nat} (t : FwdTable p mask skip) (hm : 2 ≤ p.length) (hh : p.length ≤ h.length)
    (fuel i : Nat) (hf : h.length - p.length + 1 ≤ fuel + i) :
    ∃ ms, scanFwd false h p (h.length - p.length) mask skip fuel i = .ok ms ∧ Disj h p i ms ∧
      (ms = [] → ∀ k, i ≤ k → ¬ Occ h p k) ∧ (∀ k r, ms = k :: r → ∀ j, i ≤ j → j < k → ¬ Occ h p j) := by
  induction fuel generalizing i with
  | zero =>
    refine ⟨[], scanFwd_done _ _ _ _ _ _ (by omega), .nil i, ?_, by simp⟩
    rintro - k hk ⟨h1, _⟩; omega
  | succ fuel ih =>
    by_cases hi : i ≤ h.length - p.length
    · rcases scan_step t hm hh false fuel i hi with ⟨_, hf, _⟩ | ⟨ho, _, nx, h1, h2, h3⟩ | ⟨nx, h1, h2, h3⟩
      · exact absurd hf (by simp)
      · obtain ⟨ms, e, d, _, _⟩ := ih nx (by omega)
        rw [h3, e]
        refine ⟨i :: ms, rfl, ?_, by simp, ?_⟩
        · refine .cons i i ms (Nat.le_refl _) ho ?_
          cases d with
          | nil => exact .nil _
          | cons _ k ms k1 k2 k3 => exact .cons _ k ms (by omega) k2 k3
        · intro k r he j j1 j2
          simp at he
          omega
      · obtain ⟨ms, e, d, n, f⟩ := ih nx (by omega)
        rw [h3]
        refine ⟨ms, e, ?_, ?_, ?_⟩
        · cases d with
          | nil => exact .nil _
          | cons _ k ms k1 k2 k3 => exact .cons _ k ms (by omega) k2 k3
        · intro hms k hk
          by_cases hx : k < nx
          · exact h2 k hk hx
          · exact n hms k (by omega)
        · intro k r he j j1 j2
          by_cases hx : j < nx
          · exact h2 j j1 hx
          · exact f k r he j (by omega) j2
    · refine ⟨[], scanFwd_done _ _ _ _ _ _ hi, .nil i, ?_, by simp⟩
      rintro - k hk ⟨h1, _⟩; omega

private theorem scanAll_greedy {h p : List Nat} {mask skip : Nat} (t : FwdTable p mask skip) (hm : 2 ≤ p.length) (hh : p.length ≤ h.length)
    (hsp : ∀ i j, Occ h p i → Occ h p j → i + p.length ≤ j → i + p.length + skip ≤ j)
    (fuel i : Nat) (hf : h.length - p.length + 1 ≤ fuel + i) :
    ∃ ms, scanFwd false h p (h.length - p.length) mask skip fuel i = .ok ms ∧ Greedy h p i ms := by
  induction fuel generalizing i with
  | zero =>
    refine ⟨[], scanFwd_done _ _ _ _ _ _ (by omega), .done i ?_⟩
    rintro k hk ⟨h1, _⟩; omega
  | succ fuel ih =>
    by_cases hi : i ≤ h.length - p.length
    · have mono : ∀ (a b : Nat) (ms : List Nat), a ≤ b → (∀ k, a ≤ k → k < b → ¬ Occ h p k) → Greedy h p b ms → Greedy h p a ms := by
        intro a b ms hab hno g
        cases g with
        | done _ hn =>
          refine .done a ?_
          intro k hk
          by_cases hx : k < b
          · exact hno k hk hx
          · exact hn k (by omega)
        | next _ k ms k1 k2 k3 k4 =>
          refine .next a k ms (by omega) k2 ?_ k4
          intro j j1 j2
          by_cases hx : j < b
          · exact hno j j1 hx
          · exact k3 j (by omega) j2
      rcases scan_step t hm hh false fuel i hi with ⟨_, hf, _⟩ | ⟨ho, _, nx, h1, h2, h3⟩ | ⟨nx, h1, h2, h3⟩
      · exact absurd hf (by simp)
      · obtain ⟨ms, e, g⟩ := ih nx (by omega)
        rw [h3, e]
        refine ⟨i :: ms, rfl, .next i i ms (Nat.le_refl _) ho (by intro j j1 j2; omega) ?_⟩
        refine mono _ nx ms h1 ?_ g
        rcases h2 with h2 | h2
        · intro k k1 k2 hok
          have := hsp i k ho hok k1
          omega
        · exact h2
      · obtain ⟨ms, e, g⟩ := ih nx (by omega)
        rw [h3]
        exact ⟨ms, e, mono i nx ms (by omega) h2 g⟩
    · refine ⟨[], scanFwd_done _ _ _ _ _ _ hi, .done i ?_⟩
      rintro k hk ⟨h1, _⟩; omega

private theorem search1Short_all (h : List Nat) (c k i : Nat) (hk : k + i = h.length) :
    ∃ ms, search1Short false h c k i = .ok ms ∧ Greedy h [c] i ms := by
  induction k generalizing i with
  | zero =>
    refine ⟨[], rfl, .done i ?_⟩
    intro k hk ho
    have := (occ_single _ _ _).1 ho
    omega
  | succ k ih =>
    obtain ⟨ms, e, g⟩ := ih (i + 1) (by omega)
    simp only [search1Short]
    rw [rd_eq (by omega)]
    simp only [Res.bind_ok, Bool.false_eq_true, if_false]
    by_cases hc : h.getD i 0 = c
    · rw [if_pos hc, e]
      exact ⟨i :: ms, rfl, .next i i ms (Nat.le_refl _) ((occ_single _ _ _).2 ⟨by omega, hc⟩) (by intro j j1 j2; omega) g⟩
    · rw [if_neg hc, e]
      refine ⟨ms, rfl, ?_⟩
      have hno : ¬ Occ h [c] i := fun ho => hc ((occ_single _ _ _).1 ho).2
      cases g with
      | done _ hn =>
        refine .done i ?_
        intro k hk
        by_cases he : k = i
        · subst he; exact hno
        · exact hn k (by omega)
      | next _ k ms k1 k2 k3 k4 =>
        refine .next i k ms (by omega) k2 ?_ k4
        intro j j1 j2
        by_cases he : j = i
        · subst he; exact hno
        · exact k3 j (by omega) j2

/-- Once past a match, the long-haystack loop needs a match in the last byte, otherwise `memchr` leaves the string. -/
private theorem search1Long_all (h : List Nat) (c fuel s : Nat) (hf : h.length ≤ fuel + s) :
    ((s = 0 → ∃ k, Occ h [c] k) → Occ h [c] (h.length - 1) → ∃ ms, search1Long false h c fuel s = .ok ms ∧ Greedy h [c] s ms) ∧
    (0 < s → s < h.length → ¬ Occ h [c] (h.length - 1) → search1Long false h c fuel s = .ub) := by
  induction fuel generalizing s with
  | zero =>
    refine ⟨?_, by intro h1 h2; omega⟩
    intro _ _
    refine ⟨[], by simp only [search1Long]; rw [if_neg (by omega)], .done s ?_⟩
    intro k hk ho
    have := (occ_single _ _ _).1 ho
    omega
  | succ fuel ih =>
    by_cases hs : s < h.length
    · simp only [search1Long, Bool.false_eq_true, if_false]
      rw [if_pos hs]
      rcases memchr_spec h c h.length s with ⟨k, k1, k2, k3, k4, k5⟩ | ⟨k1, k2⟩
      · rw [k3]
        simp only [Res.bind_ok]
        obtain ⟨i1, i2⟩ := ih (k + 1) (by omega)
        have hkl := ((occ_single _ _ _).1 k4).1
        constructor
        · intro _ hl
          obtain ⟨ms, e, g⟩ := i1 (by omega) hl
          rw [e]
          exact ⟨k :: ms, rfl, .next s k ms k1 k4 k5 g⟩
        · intro h1 h2 h3
          have : k ≠ h.length - 1 := by rintro rfl; exact h3 k4
          rw [i2 (by omega) (by omega) h3]; rfl
      · constructor
        · intro _ hl
          have := (occ_single _ _ _).1 hl
          exact absurd hl (k1 _ (by omega) (by omega))
        · intro h1 h2 h3
          rw [k2, if_neg (by omega)]; rfl
    · refine ⟨?_, by intro h1 h2; omega⟩
      intro _ _
      refine ⟨[], by simp only [search1Long]; rw [if_neg hs], .done s ?_⟩
      intro k hk ho
      have := (occ_single _ _ _).1 ho
      omega

/-- The cases in which the search reports all the left-to-right occurrences.  One byte: short haystacks, or no occurrence, or an
    occurrence in the last byte.  Longer needles: the last two bytes of the needle are equal, or any two non-overlapping
    occurrences are at least `2 * m - 2` bytes apart (`m` the needle's length). -/
def CountSafe (h p : List Nat) : Prop :=
  (p.length = 1 ∧ (h.length ≤ 10 ∨ (∀ k, ¬ OccursAt h p k) ∨ OccursAt h p (h.length - 1))) ∨
  (2 ≤ p.length ∧ (p.getD (p.length - 2) 0 = p.getD (p.length - 1) 0 ∨
    ∀ i j, OccursAt h p i → OccursAt h p j → i + p.length ≤ j → i + 2 * p.length - 2 ≤ j))

private theorem search_all (h p : List Nat) (hs : CountSafe h p) : ∃ ms, stringSearch false h p = .ok ms ∧ Greedy h p 0 ms := by
  unfold CountSafe at hs
  simp only [occursAt_iff] at hs
  unfold stringSearch
  by_cases h1 : h.length < p.length
  · rw [if_pos h1]
    refine ⟨[], rfl, .done 0 ?_⟩
    rintro k _ ⟨ho, _⟩; omega
  rw [if_neg h1, if_neg (by omega)]
  by_cases hp1 : p.length = 1
  · rw [if_pos hp1]
    obtain ⟨c, rfl⟩ := List.length_eq_one_iff.1 hp1
    simp only [rd_eq (s := [c]) (i := 0) (by simp), Res.bind_ok, List.getD_cons_zero]
    unfold search1
    by_cases hl : h.length ≤ 10
    · rw [if_pos hl]; exact search1Short_all h c h.length 0 (by omega)
    · rw [if_neg hl]
      rcases hs with ⟨_, hs | hs | hs⟩ | ⟨hs, _⟩
      · omega
      · refine ⟨[], ?_, .done 0 (fun k _ => hs k)⟩
        obtain ⟨f, hf⟩ : ∃ f, h.length = f + 1 := ⟨h.length - 1, by omega⟩
        conv_lhs => rw [hf]
        simp only [search1Long]
        rw [if_pos (by omega)]
        rcases memchr_spec h c h.length 0 with ⟨k, _, _, _, k4, _⟩ | ⟨_, k2⟩
        · exact absurd k4 (hs k)
        · rw [k2, if_pos (by omega)]; rfl
      · exact (search1Long_all h c h.length 0 (by omega)).1 (fun _ => ⟨_, hs⟩) hs
      · simp at hs
  · rw [if_neg hp1]
    rcases hs with ⟨hs, _⟩ | ⟨hm, hs⟩
    · omega
    obtain ⟨mask, skip, e, t⟩ := tableFwd_spec p hm
    rw [e, rd_eq (s := p) (by omega)]
    simp only [Res.bind_ok]
    apply scanAll_greedy (h := h) t hm (by omega) _ _ _ (by omega)
    intro i j hi hj hij
    have hle := t.skip_le
    rcases hs with hs | hs
    · by_cases h0 : skip = 0
      · omega
      · exact absurd hs (by have := t.skip_ok 1 (by omega) (by omega); rwa [show p.length - 1 - 1 = p.length - 2 by omega] at this)
    · have := hs i j hi hj hij
      omega

private theorem search_disj (h p : List Nat) (hm : 2 ≤ p.length) :
    ∃ ms, stringSearch false h p = .ok ms ∧ Disj h p 0 ms ∧ (ms = [] → ∀ k, ¬ Occ h p k) := by
  unfold stringSearch
  by_cases h1 : h.length < p.length
  · rw [if_pos h1]
    refine ⟨[], rfl, .nil 0, ?_⟩
    rintro - k ⟨ho, _⟩; omega
  rw [if_neg h1, if_neg (by omega), if_neg (by omega)]
  obtain ⟨mask, skip, e, t⟩ := tableFwd_spec p hm
  rw [e, rd_eq (s := p) (by omega)]
  simp only [Res.bind_ok]
  obtain ⟨ms, e, d, n, _⟩ := scanAll_disj (h := h) t hm (by omega) (h.length - p.length + 1) 0 (by omega)
  exact ⟨ms, e, d, fun hms k => n hms k (Nat.zero_le _)⟩

private theorem pieces_of_greedy {h p : List Nat} {ms : List Nat} (g : Greedy h p 0 ms) : Pieces p h (cuts h p.length 0 ms) := by
  have := greedy_pieces g (Nat.zero_le _)
  rwa [List.drop_zero] at this

/-- C19 (counting), in the cases `CountSafe`: the count is the number of non-overlapping left-to-right occurrences.  Outside of
    them the claim is false, see `string_count_adjacent_violated` and `string_count_memchr_violated`. -/
theorem string_count_exact_partial (h p : List Nat) (hs : CountSafe h p) :
    ∃ ps, Pieces p h ps ∧ stringCount h p = .ok (ps.length - 1) := by
  obtain ⟨ms, e, g⟩ := search_all h p hs
  refine ⟨_, pieces_of_greedy g, ?_⟩
  unfold stringCount
  rw [e, cuts_length]; rfl

private theorem replace_eq (h p new : List Nat) (hp : p ≠ []) (h11 : ¬ (p.length = 1 ∧ new.length = 1)) (ms : List Nat)
    (e : stringSearch false h p = .ok ms) (d : Disj h p 0 ms) :
    stringReplace h p new = .ok (List.intercalate new (cuts h p.length 0 ms)) := by
  have hp0 : p.length ≠ 0 := fun h => hp (List.length_eq_zero_iff.1 h)
  unfold stringReplace
  by_cases h1 : p.length > h.length
  · rw [if_pos (Or.inr h1)]
    cases d with
    | nil => simp [cuts, List.intercalate_singleton]
    | cons _ k ms k1 k2 k3 => have := k2.1; omega
  · rw [if_neg (by omega)]
    by_cases h2 : p.length = new.length
    · rw [if_pos h2, if_neg (by omega), e]
      simp only [Res.bind_ok]
      have := inplace_eq h2.symm d (Nat.zero_le _) [] rfl
      simpa using this
    · rw [if_neg h2]
      unfold stringCount
      simp only [e, Res.bind_ok, Res.pure_eq]
      rw [copyReplace_eq d (Nat.zero_le _)]
      simp only [Res.bind_ok]
      rw [if_pos]
      rw [replaced_length d (Nat.zero_le _)]; simp

/-- C19 (replacing), in the cases `CountSafe`: the result is the pieces of the text joined by the new string. -/
theorem string_replace_exact_partial (h p new : List Nat) (hp : p ≠ []) (hs : CountSafe h p) (h11 : ¬ (p.length = 1 ∧ new.length = 1)) :
    ∃ ps, Pieces p h ps ∧ stringReplace h p new = .ok (List.intercalate new ps) := by
  obtain ⟨ms, e, g⟩ := search_all h p hs
  exact ⟨_, pieces_of_greedy g, replace_eq h p new hp h11 ms e (greedy_disj g)⟩

/-- Replacing one byte by one byte is exact for every text. -/
theorem string_replace_byte_exact (h : List Nat) (o n : Nat) :
    ∃ ps, Pieces [o] h ps ∧ stringReplace h [o] [n] = .ok (List.intercalate [n] ps) := by
  have key : ∀ h : List Nat, ∃ ps, Pieces [o] h ps ∧ List.intercalate [n] ps = h.map (fun b => if b = o then n else b) := by
    intro h
    induction h with
    | nil =>
      refine ⟨[[]], .last [] ?_, by simp [List.intercalate_singleton]⟩
      rintro k ⟨a, b, e, _⟩
      simp at e
    | cons x h ih =>
      obtain ⟨ps, hp, he⟩ := ih
      by_cases hx : x = o
      · subst hx
        refine ⟨[] :: ps, Pieces.cut [] h ps (by simp) hp, ?_⟩
        have hne : ps ≠ [] := by cases hp <;> simp
        rw [List.intercalate_cons_of_ne_nil hne, he]; simp
      · have hocc : ∀ (t : List Nat) (k : Nat), OccursAt (x :: t) [o] (k + 1) → OccursAt t [o] k := by
          rintro t k ⟨a, b, e, hl⟩
          cases a with
          | nil => simp at hl
          | cons y a =>
            simp only [List.cons_append, List.cons.injEq] at e
            exact ⟨a, b, e.2, by simpa using hl⟩
        have hocc0 : ∀ (t : List Nat), ¬ OccursAt (x :: t) [o] 0 := by
          rintro t ⟨a, b, e, hl⟩
          have := List.length_eq_zero_iff.1 hl
          subst this
          simp only [List.nil_append, List.cons_append, List.cons.injEq] at e
          exact hx e.1
        cases hp with
        | last _ hno =>
          refine ⟨[x :: h], .last _ ?_, ?_⟩
          · intro k hk
            cases k with
            | zero => exact hocc0 _ hk
            | succ k => exact hno k (hocc _ _ hk)
          · simp only [List.intercalate_singleton] at he ⊢
            rw [List.map_cons, ← he]; simp [hx]
        | cut a b ps hm hp =>
          refine ⟨(x :: a) :: ps, Pieces.cut (x :: a) b ps ?_ hp, ?_⟩
          · intro k hk ho
            cases k with
            | zero => exact hocc0 _ ho
            | succ k => exact hm k (by simp at hk; omega) (hocc _ _ ho)
          · have hne : ps ≠ [] := by cases hp <;> simp
            rw [List.intercalate_cons_of_ne_nil hne] at he ⊢
            rw [List.map_cons, ← he]; simp [hx]
  obtain ⟨ps, hp, he⟩ := key h
  refine ⟨ps, hp, ?_⟩
  rw [he]
  unfold stringReplace
  by_cases h1 : [o].length > h.length
  · rw [if_pos (Or.inr h1)]
    have : h = [] := by
      simp only [List.length_singleton] at h1
      exact List.length_eq_zero_iff.1 (by omega)
    subst this; rfl
  · rw [if_neg (by simp at h1 ⊢; omega)]
    simp [rd]

/-- Replacing with a needle of two or more bytes never leaves the strings, whatever the text: some disjoint occurrences are
    replaced (at least one if there is any), everything else is copied. -/
theorem string_replace_sound (h p new : List Nat) (hp : 2 ≤ p.length) :
    ∃ ps, h = List.intercalate p ps ∧ stringReplace h p new = .ok (List.intercalate new ps) ∧
      (ps.length = 1 → ∀ k, ¬ OccursAt h p k) := by
  simp only [occursAt_iff]
  obtain ⟨ms, e, d, n⟩ := search_disj h p hp
  refine ⟨cuts h p.length 0 ms, ?_, replace_eq h p new (by rintro rfl; simp at hp) (by omega) ms e d, ?_⟩
  · have : ∀ s ms, Disj h p s ms → s ≤ h.length → h.drop s = List.intercalate p (cuts h p.length s ms) := by
      intro s ms d hs
      induction d with
      | nil s => simp [cuts, List.intercalate_singleton]
      | cons s k ms hk ho _ ih => rw [intercalate_cuts, ← ih ho.1]; exact drop_split hk ho
    have := this 0 ms d (Nat.zero_le _)
    rwa [List.drop_zero] at this
  · intro hl
    apply n
    rw [cuts_length] at hl
    exact List.length_eq_zero_iff.1 (by omega)

/-- C19 (splitting), in the cases `CountSafe`: `string_split` returns the pieces. -/
theorem string_split_exact_partial (h p : List Nat) (hs : CountSafe h p) :
    ∃ ps, Pieces p h ps ∧ stringSplit h p = .ok ps := by
  obtain ⟨ms, e, g⟩ := search_all h p hs
  refine ⟨_, pieces_of_greedy g, ?_⟩
  unfold stringSplit stringCount
  simp only [e, Res.bind_ok, Res.pure_eq]
  rw [splitter_eq (greedy_disj g) (Nat.zero_le _)]
  simp only [Res.bind_ok, cuts_length, if_true]
  split_ifs with h0
  · have := List.length_eq_zero_iff.1 h0
    subst this; simp [cuts]
  · rfl

/-- The needle "abb" (last two bytes equal) in "abbabb" is counted twice. -/
example : CountSafe [97, 98, 98, 97, 98, 98] [97, 98, 98] ∧ stringCount [97, 98, 98, 97, 98, 98] [97, 98, 98] = .ok 2 :=
  ⟨Or.inr ⟨by decide, Or.inl (by decide)⟩, by decide⟩

/-- A separator byte in a short text. -/
example : CountSafe [97, 44, 98] [44] ∧ stringSplit [97, 44, 98] [44] = .ok [[97], [98]] ∧
    stringReplace [97, 44, 98] [44] [59, 32] = .ok [97, 59, 32, 98] :=
  ⟨Or.inl ⟨rfl, Or.inl (by decide)⟩, by decide, by decide⟩

/-- C19 is false in general: "abc" occurs twice without overlap in "abcabc", the count is 1 and `string_replace` leaves the
    second occurrence. -/
theorem string_count_adjacent_violated :
    Pieces [97, 98, 99] [97, 98, 99, 97, 98, 99] [[], [], []] ∧
    stringCount [97, 98, 99, 97, 98, 99] [97, 98, 99] = .ok 1 ∧
    stringReplace [97, 98, 99, 97, 98, 99] [97, 98, 99] [120] = .ok [120, 97, 98, 99] := by
  refine ⟨?_, by decide, by decide⟩
  refine Pieces.cut [] [97, 98, 99] _ (by simp) (Pieces.cut [] [] _ (by simp) (Pieces.last [] ?_))
  rintro k ⟨a, b, e, _⟩
  simp at e

/-- Counting a byte in any text of more than ten bytes that contains it but does not end with it reads past the end of the text. -/
theorem string_count_memchr_violated (h : List Nat) (c : Nat) (hl : 10 < h.length) (k : Nat) (hk : OccursAt h [c] k)
    (hlast : ¬ OccursAt h [c] (h.length - 1)) : stringCount h [c] = .ub := by
  rw [occursAt_iff] at hk hlast
  unfold stringCount stringSearch
  rw [if_neg (by rw [List.length_singleton]; omega)]
  simp only [List.length_singleton, Nat.one_ne_zero, if_false, if_true, rd_eq (s := [c]) (i := 0) (by simp), Res.bind_ok,
    List.getD_cons_zero, search1]
  rw [if_neg (by omega)]
  obtain ⟨f, hf⟩ : ∃ f, h.length = f + 1 := ⟨h.length - 1, by omega⟩
  have hstep : search1Long false h c h.length 0 = .ub := by
    conv_lhs => rw [hf]
    simp only [search1Long, Bool.false_eq_true, if_false]
    rw [if_pos (by omega)]
    have hk1 := (occ_single _ _ _).1 hk
    rcases memchr_spec h c h.length 0 with ⟨k', _, _, k3, k4, _⟩ | ⟨k1, _⟩
    · rw [k3]
      simp only [Res.bind_ok]
      have := ((occ_single _ _ _).1 k4).1
      have hne : k' ≠ h.length - 1 := by rintro rfl; exact hlast k4
      rw [(search1Long_all h c f (k' + 1) (by omega)).2 (by omega) (by omega) hlast]; rfl
    · exact absurd hk (k1 k (by omega) (by omega))
  rw [hstep]; rfl

example : 10 < [97, 44, 99, 99, 99, 99, 99, 99, 99, 99, 99].length ∧ stringCount [97, 44, 99, 99, 99, 99, 99, 99, 99, 99, 99] [44] = .ub := by
  decide

/-! ### C20 -/

private theorem memcmpEq_eq (a b : List Nat) (ai bi n : Nat) (ha : ai + n ≤ a.length) (hb : bi + n ≤ b.length) :
    memcmpEq a ai b bi n = .ok (decide ((a.drop ai).take n = (b.drop bi).take n)) := by
  induction n generalizing ai bi with
  | zero => simp [memcmpEq]
  | succ n ih =>
    simp only [memcmpEq]
    rw [rd_eq (by omega), rd_eq (by omega)]
    simp only [Res.bind_ok, Res.pure_eq]
    rw [List.drop_eq_getElem_cons (show ai < a.length by omega), List.drop_eq_getElem_cons (show bi < b.length by omega),
      List.getD_eq_getElem _ _ (show ai < a.length by omega), List.getD_eq_getElem _ _ (show bi < b.length by omega), List.take_succ_cons, List.take_succ_cons]
    split_ifs with h
    · rw [ih _ _ (by omega) (by omega)]; simp [h]
    · simp [h]

/-- C20: `string_startswith` is the prefix test. -/
theorem string_startswith_exact (s t : List Nat) : stringStartswith s t = .ok (decide (t <+: s)) := by
  unfold stringStartswith
  split_ifs with h
  · rw [decide_eq_false]
    intro hp; have := hp.length_le; omega
  · rw [memcmpEq_eq _ _ _ _ _ (by omega) (by omega)]
    congr 1
    rw [decide_eq_decide, List.prefix_iff_eq_take]
    simp [eq_comm]

/-- C20: `string_endswith` is the suffix test. -/
theorem string_endswith_exact (s t : List Nat) : stringEndswith s t = .ok (decide (t <:+ s)) := by
  unfold stringEndswith
  split_ifs with h
  · rw [decide_eq_false]
    intro hp; have := hp.length_le; omega
  · rw [memcmpEq_eq _ _ _ _ _ (by omega) (by omega)]
    congr 1
    rw [decide_eq_decide, List.suffix_iff_eq_drop]
    rw [List.take_of_length_le (by simp; omega), List.drop_zero, List.take_of_length_le (Nat.le_refl _)]
    exact eq_comm

private theorem concatLoop_eq (ss : List (List Nat)) (pre pad : List Nat) (hp : pad.length = ss.flatten.length) :
    concatLoop ss pre.length (pre ++ pad) = .ok (pre ++ ss.flatten) := by
  induction ss generalizing pre pad with
  | nil => simp at hp; simp [concatLoop, hp]
  | cons s ss ih =>
    simp only [List.flatten_cons, List.length_append] at hp
    simp only [concatLoop, writeAt]
    rw [if_pos (by simp; omega)]
    simp only [Res.bind_ok, List.take_left]
    have e : (pre ++ pad).drop (pre.length + s.length) = pad.drop s.length := by
      rw [List.drop_append, List.drop_of_length_le (by omega)]; simp
    rw [e]
    have := ih (pre ++ s) (pad.drop s.length) (by rw [List.length_drop]; omega)
    rw [List.length_append] at this
    rw [this]; simp

/-- C20: `string_concat` is concatenation, for any number of operands. -/
theorem string_concat_exact (ss : List (List Nat)) : stringConcat ss = .ok ss.flatten := by
  unfold stringConcat
  have hsum : ∀ (l : List Nat) (a : Nat), l.foldl (· + ·) a = a + l.sum := by
    intro l
    induction l with
    | nil => simp
    | cons x l ih => intro a; simp only [List.foldl_cons, List.sum_cons]; rw [ih]; omega
  have := concatLoop_eq ss [] (List.replicate ((ss.map List.length).foldl (· + ·) 0) 0)
    (by rw [List.length_replicate, hsum, List.length_flatten]; simp)
  simpa using this

example : stringConcat [[97, 98], [], [99]] = .ok [97, 98, 99] := by decide
example : stringEndswith [97, 98, 99] [98, 99] = .ok true ∧ stringStartswith [97, 98, 99] [98] = .ok false := by decide

end Dynd
