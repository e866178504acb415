import Verif.Model.Print
/-
Printing an array shows its elements (C111).
-/
namespace Dynd

/-! ### Specification -/

/-- `k` spaces -/
def blanks (k : Nat) : List Nat := List.replicate k 32

/-- A text with its second and later lines moved `k` columns to the right. -/
def shiftLines (k : Nat) (t : List Nat) : List Nat := t.flatMap fun c => if c = 10 then 10 :: blanks k else [c]

/-- `o` lists the texts `ts` in order, with a comma and a space or line break between each two and blanks in front of
    them; `f` says how a text may have been moved. -/
inductive Listed (f : List Nat → List Nat) : List (List Nat) → List Nat → Prop
  | one (t : List Nat) (k : Nat) : Listed f [t] (blanks k ++ f t)
  | cons (t : List Nat) (k : Nat) (sep : List Nat) (ts : List (List Nat)) (o : List Nat) (hsep : sep = [32] ∨ sep = [10, 32])
      (h : Listed f ts o) : Listed f (t :: ts) (blanks k ++ f t ++ [44] ++ sep ++ o)

/-- How a text may be moved: not at all, or its later lines by one column. -/
def Moved (f : List Nat → List Nat) : Prop := f = id ∨ f = shiftLines 1

/-- `out` shows all of the texts. -/
def ShowsAll (ts : List (List Nat)) (out : List Nat) : Prop :=
  (ts = [] ∧ out = str "[]") ∨ ∃ f o, Moved f ∧ Listed f ts o ∧ out = str "[" ++ o ++ str "]"

/-- `out` shows some of the first and some of the last texts, with an ellipsis for those left out in between. -/
def ShowsEnds (ts : List (List Nat)) (out : List Nat) : Prop :=
  ∃ f p s o1 o2, Moved f ∧ 0 < p ∧ 0 < s ∧ p + s < ts.length ∧ Listed f (ts.take p) o1 ∧ Listed f (ts.drop (ts.length - s)) o2 ∧
    out = str "[" ++ o1 ++ str ",\n ...\n " ++ o2 ++ str "]"

/-- All the texts are shown, but there is no comma in front of the last one. -/
def CommaMissing (ts : List (List Nat)) (out : List Nat) : Prop :=
  ∃ us t o k, ts = us ++ [t] ∧ Listed id us o ∧ out = str "[" ++ (o ++ [32] ++ blanks k ++ t) ++ str "]"

/-- A text that printing an element can give: not empty, no newline at the end. -/
def Proper (t : List Nat) : Prop := t ≠ [] ∧ t.getLast? ≠ some 10

/-- The elements looked at first: the first seven and the last ones (no more than three, and not the eighth). -/
def sampled (ts : List (List Nat)) : List (List Nat) := ts.take 7 ++ ts.drop (max (ts.length - 3) 8)

/-- One of them has several lines or more than 30 characters. -/
def Tall (ts : List (List Nat)) : Prop := ∃ t ∈ sampled ts, 10 ∈ t ∨ 30 < t.length

/-- The number of lines of the texts. -/
def linesOf (ts : List (List Nat)) : Nat := (ts.map fun t => 1 + t.count 10).sum

/-- The length of the longest text. -/
def longest (ts : List (List Nat)) : Nat := ts.foldr (fun t m => max t.length m) 0

/-! ### Indentation -/

theorem takeLine_lt (t : List Nat) : (takeLine t).2.length ≤ t.length ∧ (t ≠ [] → (takeLine t).2.length < t.length) := by
  induction t with
  | nil => simp [takeLine]
  | cons c s ih =>
    rw [takeLine]
    split
    · simp
    · simp only [List.length_cons]; omega

theorem takeLine_shift (k : Nat) (t : List Nat) (h : t.getLast? ≠ some 10) :
    shiftLines k t = (takeLine t).1 ++ (if (takeLine t).2 = [] then [] else blanks k ++ shiftLines k (takeLine t).2) ∧
      (takeLine t).2.getLast? ≠ some 10 := by
  induction t with
  | nil => simp [takeLine, shiftLines]
  | cons c s ih =>
    rw [takeLine]
    by_cases hc : c = 10
    · rw [if_pos hc]
      have hs : s ≠ [] := by
        intro e; subst e; subst hc; simp at h
      have hl : s.getLast? ≠ some 10 := by
        rw [List.getLast?_cons] at h
        cases e : s.getLast? with
        | none => simp
        | some x => rw [e] at h; simpa using h
      refine ⟨?_, hl⟩
      rw [if_neg hs]
      simp [shiftLines, hc, blanks]
    · rw [if_neg hc]
      have hl : s.getLast? ≠ some 10 := by
        rw [List.getLast?_cons] at h
        cases e : s.getLast? with
        | none => simp
        | some x => rw [e] at h; simpa using h
      obtain ⟨e1, e2⟩ := ih hl
      refine ⟨?_, e2⟩
      have : shiftLines k (c :: s) = c :: shiftLines k s := by simp [shiftLines, hc]
      rw [this, e1]; rfl

theorem str_blanks (k : Nat) (s : String) (h : str s = blanks k) : str s = blanks k := h

theorem indentLoop_eq (k : Nat) : ∀ (f : Nat) (first : Bool) (t : List Nat), t.length ≤ f → t ≠ [] → t.getLast? ≠ some 10 →
    indentLoop (blanks k) f first t = (if first then [] else blanks k) ++ shiftLines k t := by
  intro f
  induction f with
  | zero => intro first t h hne _; cases t with
    | nil => exact absurd rfl hne
    | cons => simp at h
  | succ f ih =>
    intro first t h hne hl
    cases t with
    | nil => exact absurd rfl hne
    | cons c s =>
      rw [indentLoop]
      obtain ⟨e1, e2⟩ := takeLine_shift k (c :: s) hl
      have hlt := (takeLine_lt (c :: s)).2 (by simp)
      rw [e1]
      by_cases hr : (takeLine (c :: s)).2 = []
      · rw [if_pos hr, hr]
        cases f <;> simp [indentLoop]
      · rw [if_neg hr, ih false _ (by simp only [List.length_cons] at h hlt; omega) hr e2]
        simp

theorem printIndented_eq (k : Nat) (t : List Nat) (first : Bool) (h : Proper t) :
    printIndented (blanks k) t first = (if first then [] else blanks k) ++ shiftLines k t :=
  indentLoop_eq k _ first t (Nat.le_refl _) h.1 h.2

/-! ### Statistics -/

theorem longest_append (a b : List (List Nat)) : longest (a ++ b) = max (longest a) (longest b) := by
  induction a with
  | nil => simp [longest]
  | cons t a ih => simp only [longest, List.cons_append, List.foldr_cons] at ih ⊢; rw [ih]; omega

theorem linesOf_append (a b : List (List Nat)) : linesOf (a ++ b) = linesOf a + linesOf b := by
  simp [linesOf]

theorem le_longest {ts : List (List Nat)} {t : List Nat} (h : t ∈ ts) : t.length ≤ longest ts := by
  induction ts with
  | nil => cases h
  | cons u ts ih =>
    simp only [longest, List.foldr_cons] at ih ⊢
    rcases List.mem_cons.1 h with rfl | h
    · omega
    · have := ih h; omega

theorem longest_le {ts : List (List Nat)} {m : Nat} (h : ∀ t ∈ ts, t.length ≤ m) : longest ts ≤ m := by
  induction ts with
  | nil => simp [longest]
  | cons u ts ih =>
    simp only [longest, List.foldr_cons] at ih ⊢
    have := ih fun t ht => h t (List.mem_cons_of_mem _ ht)
    have := h u (by simp)
    omega

theorem longest_gt {ts : List (List Nat)} {m : Nat} : longest ts > m ↔ ∃ t ∈ ts, m < t.length := by
  constructor
  · intro h
    apply Classical.byContradiction
    intro hn
    have := longest_le (ts := ts) (m := m) fun t ht => by
      apply Classical.byContradiction
      intro h'; exact hn ⟨t, ht, by omega⟩
    omega
  · rintro ⟨t, ht, h⟩
    have := le_longest ht
    omega

theorem linesOf_gt {ts : List (List Nat)} : linesOf ts > ts.length ↔ ∃ t ∈ ts, 10 ∈ t := by
  induction ts with
  | nil => simp [linesOf]
  | cons u ts ih =>
    have hle : ∀ l : List (List Nat), l.length ≤ linesOf l := by
      intro l
      induction l with
      | nil => simp [linesOf]
      | cons a l ih => simp only [linesOf, List.map_cons, List.sum_cons, List.length_cons] at ih ⊢; omega
    have := hle ts
    have hc : linesOf (u :: ts) = 1 + u.count 10 + linesOf ts := by simp [linesOf]
    rw [hc]
    simp only [List.length_cons, List.mem_cons, exists_eq_or_imp]
    by_cases h : 10 ∈ u
    · have := List.count_pos_iff.2 h
      constructor
      · intro _; exact Or.inl h
      · intro _; omega
    · have : u.count 10 = 0 := List.count_eq_zero.2 h
      constructor
      · intro h'; exact Or.inr (ih.1 (by omega))
      · rintro (h' | h')
        · exact absurd h' h
        · have := ih.2 h'; omega

/-! ### The elements looked at first -/

theorem leadLoop_eq (ts : List (List Nat)) : ∀ (f k : Nat), k + f = 7 → k ≤ ts.length →
    leadLoop ts f k (ts.take k) (linesOf (ts.take k), longest (ts.take k)) =
      (min 7 ts.length, ts.take 7, (linesOf (ts.take 7), longest (ts.take 7))) := by
  intro f
  induction f with
  | zero => intro k hk hl; rw [leadLoop]; simp at hk; subst hk; rw [Nat.min_eq_left hl]
  | succ f ih =>
    intro k hk hl
    rw [leadLoop]
    by_cases hlt : k < ts.length
    · rw [if_pos ⟨by omega, hlt⟩]
      simp only [pushText, summarizeStats]
      have e : ts.take k ++ [ts.getD k []] = ts.take (k + 1) := by
        rw [List.take_succ_eq_append_getElem hlt, List.getD_eq_getElem?_getD, List.getElem?_eq_getElem hlt]; rfl
      rw [e]
      have e2 : (linesOf (ts.take k) + lineCount (ts.getD k []), max (longest (ts.take k)) (ts.getD k []).length) =
          (linesOf (ts.take (k + 1)), longest (ts.take (k + 1))) := by
        rw [← e, linesOf_append, longest_append]
        simp [linesOf, longest, lineCount]
      rw [e2]
      exact ih (k + 1) (by omega) hlt
    · rw [if_neg (by omega)]
      have : k = ts.length := by omega
      subst this
      rw [Nat.min_eq_right (by omega), List.take_of_length_le (Nat.le_refl _), List.take_of_length_le (by omega)]

theorem trailLoop_eq (ts : List (List Nat)) : ∀ (f k : Nat) (l : List (List Nat)) (st : Nat × Nat), ts.length ≤ k + f →
    trailLoop ts f k l st = (l ++ ts.drop k, (st.1 + linesOf (ts.drop k), max st.2 (longest (ts.drop k)))) := by
  intro f
  induction f with
  | zero => intro k l st h; rw [trailLoop, List.drop_of_length_le (by omega)]; simp [linesOf, longest]
  | succ f ih =>
    intro k l st h
    rw [trailLoop]
    by_cases hlt : k < ts.length
    · rw [if_pos hlt]
      simp only [pushText, summarizeStats]
      rw [ih (k + 1) _ _ (by omega)]
      have e : ts.drop k = ts.getD k [] :: ts.drop (k + 1) := by
        rw [List.drop_eq_getElem_cons hlt, List.getD_eq_getElem?_getD, List.getElem?_eq_getElem hlt]; rfl
      rw [e]
      refine Prod.ext (by simp) (Prod.ext ?_ ?_)
      · simp [linesOf, lineCount, Nat.add_assoc]
      · simp only [longest, List.foldr_cons]; omega
    · rw [if_neg hlt, List.drop_of_length_le (by omega)]; simp [linesOf, longest]

/-- what printing decides on -/
theorem summarized_eq (ts : List (List Nat)) :
    summarized ts =
      if linesOf (sampled ts) > (sampled ts).length ∨ longest (sampled ts) > 30 then
        (trimLoop ((sampled ts).length + 2) (ts.take 7) (ts.drop (max (ts.length - 3) 8)) (linesOf (sampled ts))).bind
          fun r => rowsText ts.length r.1 r.2
      else gridText ts (min 7 ts.length : Nat) ((ts.length : Int) - (ts.drop (max (ts.length - 3) 8)).length - 1) (ts.take 7)
        (ts.drop (max (ts.length - 3) 8)) (linesOf (sampled ts), longest (sampled ts)) := by
  have h1 := leadLoop_eq ts 7 0 rfl (Nat.zero_le _)
  have hd : ts.drop (max (ts.length - 3) (min 7 ts.length + 1)) = ts.drop (max (ts.length - 3) 8) := by
    by_cases h : 7 ≤ ts.length
    · rw [Nat.min_eq_left h]
    · rw [List.drop_of_length_le (by omega), List.drop_of_length_le (by omega)]
  have h2 := trailLoop_eq ts 3 (max (ts.length - 3) (min 7 ts.length + 1)) [] (linesOf (ts.take 7), longest (ts.take 7)) (by omega)
  rw [hd, List.nil_append] at h2
  simp only [List.take_zero] at h1
  have h0 : (linesOf [], longest []) = (0, 0) := rfl
  rw [h0] at h1
  simp only [summarized]
  rw [h1]
  simp only
  rw [h2]
  simp only [sampled, linesOf_append, longest_append, List.length_append]
  rfl

theorem tall_iff (ts : List (List Nat)) : (linesOf (sampled ts) > (sampled ts).length ∨ longest (sampled ts) > 30) ↔ Tall ts := by
  rw [linesOf_gt, longest_gt]
  constructor
  · rintro (⟨t, h, h'⟩ | ⟨t, h, h'⟩)
    · exact ⟨t, h, Or.inl h'⟩
    · exact ⟨t, h, Or.inr h'⟩
  · rintro ⟨t, h, h' | h'⟩
    · exact Or.inl ⟨t, h, h'⟩
    · exact Or.inr ⟨t, h, h'⟩

/-! ### One text per row -/

theorem trim_done (f : Nat) (lead trail : List (List Nat)) (rows : Nat) (h : rows ≤ 10 ∨ (trail.length ≤ 1 ∧ lead.length ≤ 1)) :
    trimLoop (f + 1) lead trail rows = .ok (lead, trail) := by
  rw [trimLoop, if_neg (by omega)]

theorem rowTrim_spec : ∀ (f : Nat) (lead trail : List (List Nat)) (rows : Nat), lead ≠ [] → trail ≠ [] → lead.length + trail.length ≤ f →
    ∃ p s, 0 < p ∧ p ≤ lead.length ∧ s < trail.length ∧ trimLoop (f + 1) lead trail rows = .ok (lead.take p, trail.drop s) := by
  intro f
  induction f with
  | zero => intro lead trail rows h1 _ h; cases lead with
    | nil => exact absurd rfl h1
    | cons => simp at h
  | succ f ih =>
    intro lead trail rows h1 h2 hf
    have hl := List.length_pos_iff.2 h1
    have ht := List.length_pos_iff.2 h2
    rw [trimLoop]
    by_cases hc : rows > 10 ∧ (trail.length > 1 ∨ lead.length > 1)
    · rw [if_pos hc]
      -- dropping from the end of `lead`
      have hdl : ∀ (m : Nat), lead.dropLast.take m = lead.take (min m (lead.length - 1)) := by
        intro m; rw [List.dropLast_eq_take, List.take_take]
      by_cases htl : trail.length > 1
      · simp only [if_pos htl]
        have hne : trail.tail ≠ [] := by
          intro e; have := congrArg List.length e; simp at this; omega
        have htt : ∀ m, trail.tail.drop m = trail.drop (m + 1) := by intro m; cases trail <;> simp
        split
        · rename_i hr
          obtain ⟨p, s, p1, p2, p3, p4⟩ := ih lead.dropLast trail.tail (rows - lineCount (trail.headD []) - lineCount (lead.getLastD []))
            (by intro e; have := congrArg List.length e; simp at this; omega) hne (by simp; omega)
          simp only [List.length_dropLast, List.length_tail] at p2 p3
          exact ⟨min p (lead.length - 1), s + 1, by omega, by omega, by omega, by rw [p4, hdl, htt]⟩
        · obtain ⟨p, s, p1, p2, p3, p4⟩ := ih lead trail.tail (rows - lineCount (trail.headD [])) h1 hne (by simp; omega)
          simp only [List.length_tail] at p3
          exact ⟨p, s + 1, by omega, by omega, by omega, by rw [p4, htt]⟩
      · simp only [if_neg htl]
        rw [if_pos ⟨hc.1, by omega⟩, if_neg h2]
        obtain ⟨p, s, p1, p2, p3, p4⟩ := ih lead.dropLast trail (rows - lineCount (lead.getLastD []))
          (by intro e; have := congrArg List.length e; simp at this; omega) h2 (by simp; omega)
        simp only [List.length_dropLast] at p2
        exact ⟨min p (lead.length - 1), s, by omega, by omega, by omega, by rw [p4, hdl]⟩
    · rw [if_neg hc]
      exact ⟨lead.length, 0, by omega, by omega, by omega, by simp⟩

theorem str_space : str " " = blanks 1 := rfl
theorem str_sep : str ",\n" = [44, 10] := rfl

theorem listed_rows (t : List Nat) (ls : List (List Nat)) (h : ∀ u ∈ t :: ls, Proper u) :
    Listed (shiftLines 1) (t :: ls) (shiftLines 1 t ++ ls.flatMap (fun t => str ",\n" ++ printIndented (str " ") t false)) := by
  induction ls generalizing t with
  | nil => simpa [blanks] using Listed.one (f := shiftLines 1) t 0
  | cons u ls ih =>
    have := Listed.cons (f := shiftLines 1) t 0 [10, 32] _ _ (Or.inr rfl) (ih u fun x hx => h x (List.mem_cons_of_mem _ hx))
    have e : printIndented (str " ") u false = [32] ++ shiftLines 1 u := by
      rw [str_space, printIndented_eq 1 u false (h u (by simp))]; rfl
    rw [List.flatMap_cons, e, str_sep] 
    rw [str_sep] at this
    simpa [blanks] using this

theorem rowsText_all (n : Nat) (t : List Nat) (ls : List (List Nat)) (hn : (t :: ls).length = n) (h : ∀ u ∈ t :: ls, Proper u) :
    ∃ out, rowsText n (t :: ls) [] = .ok out ∧ ShowsAll (t :: ls) out := by
  refine ⟨_, rfl, Or.inr ⟨shiftLines 1, _, Or.inr rfl, listed_rows t ls h, ?_⟩⟩
  rw [if_neg (by simpa using hn), str_space, printIndented_eq 1 t true (h t (by simp))]
  simp

theorem rowsText_ends (ts : List (List Nat)) (p b : Nat) (hp : 0 < p) (hb : b < ts.length) (hpb : p < b) (h : ∀ u ∈ ts, Proper u) :
    ∃ out, rowsText ts.length (ts.take p) (ts.drop b) = .ok out ∧ ShowsEnds ts out := by
  cases hl : ts.take p with
  | nil => have := congrArg List.length hl; rw [List.length_take] at this; simp only [List.length_nil] at this; omega
  | cons t ls =>
    cases hd : ts.drop b with
    | nil => have := congrArg List.length hd; simp at this; omega
    | cons u us =>
      have ht : ∀ x ∈ t :: ls, Proper x := fun x hx => h x (List.mem_of_mem_take (by rw [hl]; exact hx))
      have hu : ∀ x ∈ u :: us, Proper x := fun x hx => h x (List.mem_of_mem_drop (by rw [hd]; exact hx))
      have l1 : ls.length + 1 = p := by have := congrArg List.length hl; simp at this; omega
      have l2 : us.length + 1 = ts.length - b := by have := congrArg List.length hd; simp at this; omega
      refine ⟨_, rfl, shiftLines 1, p, ts.length - b, _, _, Or.inr rfl, hp, by omega, by omega,
        by rw [hl]; exact listed_rows t ls ht, by rw [show ts.length - (ts.length - b) = b by omega, hd]; exact listed_rows u us hu, ?_⟩
      have e : printIndented (str " ") u false = [32] ++ shiftLines 1 u := by
        rw [str_space, printIndented_eq 1 u false (hu u (by simp))]; rfl
      have e' : printIndented (str " ") t true = shiftLines 1 t := by
        rw [str_space, printIndented_eq 1 t true (ht t (by simp))]; rfl
      have es : str ",\n ...\n " = str ",\n ...\n" ++ [32] := rfl
      rw [if_pos (by simp; omega), if_pos (by simp only [List.length_cons]; omega)]
      simp only [e, e', es, List.append_assoc]

/-- C111: an array with long or many-line elements is shown with one element per row, all of them or the first and last
    ones with an ellipsis in between.  (False for eight elements, and for two elements of together more than ten lines.) -/
theorem print_rows_partial (ts : List (List Nat)) (htall : Tall ts) (hp : ∀ t ∈ ts, Proper t) (h8 : ts.length ≠ 8)
    (h2 : ¬ (ts.length = 2 ∧ 10 < linesOf ts)) :
    ∃ out, summarized ts = .ok out ∧
      (if ts.length = 1 ∨ (ts.length < 8 ∧ linesOf ts ≤ 10) then ShowsAll ts out else ShowsEnds ts out) := by
  rw [summarized_eq, if_pos ((tall_iff ts).2 htall)]
  have hlen : (sampled ts).length = (ts.take 7).length + (ts.drop (max (ts.length - 3) 8)).length := by simp [sampled]
  have hpos : 0 < ts.length := by
    obtain ⟨t, ht, _⟩ := htall
    rcases List.mem_append.1 ht with h | h
    · exact List.length_pos_of_mem (List.mem_of_mem_take h)
    · exact List.length_pos_of_mem (List.mem_of_mem_drop h)
  by_cases hsmall : ts.length < 8
  · have hd : ts.drop (max (ts.length - 3) 8) = [] := List.drop_of_length_le (by omega)
    have ht : ts.take 7 = ts := List.take_of_length_le (by omega)
    have hs : sampled ts = ts := by rw [sampled, hd, ht, List.append_nil]
    rw [hd, ht, hs]
    cases hts : ts with
    | nil => rw [hts] at hpos; simp at hpos
    | cons t ls =>
      rw [← hts]
      by_cases hall : ts.length = 1 ∨ linesOf ts ≤ 10
      · rw [show ts.length + 2 = (ts.length + 1) + 1 from rfl, trim_done _ _ _ _ (by simp; omega)]
        have hif : ts.length = 1 ∨ (ts.length < 8 ∧ linesOf ts ≤ 10) := by omega
        simp only [if_pos hif]
        rw [hts] at hp ⊢
        exact rowsText_all _ t ls rfl hp
      · have hif : ¬ (ts.length = 1 ∨ (ts.length < 8 ∧ linesOf ts ≤ 10)) := by omega
        simp only [if_neg hif]
        rw [trimLoop, if_pos (by omega)]
        simp only [List.length_nil, Nat.not_lt_zero, if_false, gt_iff_lt]
        rw [if_pos (by omega), if_pos trivial]
        rw [trimLoop, if_pos ⟨by omega, Or.inr (by simp; omega)⟩]
        simp only [List.length_cons, List.length_nil, gt_iff_lt, Nat.lt_irrefl, if_false, Nat.zero_add]
        rw [if_pos ⟨by omega, by simp; omega⟩, if_neg (by simp)]
        have hdl : ts.dropLast.dropLast = ts.take (ts.length - 2) := by
          rw [List.dropLast_eq_take, List.dropLast_eq_take, List.take_take]; simp; congr 1; omega
        obtain ⟨p, s, p1, p2, p3, p4⟩ := rowTrim_spec (ts.length - 1) ts.dropLast.dropLast [ts.getLastD []]
          (linesOf ts - lineCount (ts.dropLast.getLastD []))
          (by intro e; have := congrArg List.length e; simp at this; omega) (by simp) (by simp; omega)
        rw [show ts.length - 1 + 1 = ts.length by omega] at p4
        rw [p4]
        simp only [Res.bind_ok, List.length_cons, List.length_nil] at p3 ⊢
        have : s = 0 := by omega
        subst this
        rw [hdl, List.take_take]
        rw [hdl] at p2
        simp only [List.length_take] at p2
        have hlast : ([ts.getLastD []] : List (List Nat)).drop 0 = ts.drop (ts.length - 1) := by
          have hlt : ts.length - 1 < ts.length := by omega
          rw [List.drop_zero, List.drop_eq_getElem_cons hlt, List.drop_of_length_le (by omega)]
          rw [List.getLastD_eq_getLast?, List.getLast?_eq_getElem?, List.getElem?_eq_getElem hlt]; rfl
        rw [hlast]
        exact rowsText_ends ts _ _ (by omega) (by omega) (by omega) hp
  · have hb : max (ts.length - 3) 8 < ts.length := by omega
    obtain ⟨p, s, p1, p2, p3, p4⟩ := rowTrim_spec ((sampled ts).length + 1) (ts.take 7) (ts.drop (max (ts.length - 3) 8)) (linesOf (sampled ts))
      (List.ne_nil_of_length_pos (by rw [List.length_take]; omega))
      (List.ne_nil_of_length_pos (by rw [List.length_drop]; omega)) (by omega)
    rw [p4]
    have hif : ¬ (ts.length = 1 ∨ (ts.length < 8 ∧ linesOf ts ≤ 10)) := by omega
    simp only [if_neg hif, Res.bind_ok]
    rw [List.take_take, List.drop_drop]
    simp only [List.length_take, List.length_drop] at p2 p3
    exact rowsText_ends ts _ _ (by omega) (by omega) (by omega) hp

/-- the rows are separated by nothing but the blank in front of the second -/
theorem print_two_eq (t u : List Nat) (ht : Proper t) (hu : Proper u) (h : 10 < linesOf [t, u]) :
    summarized [t, u] = .ok (str "[" ++ shiftLines 1 t ++ [32] ++ shiftLines 1 u ++ str "]") := by
  have hs : sampled [t, u] = [t, u] := rfl
  rw [summarized_eq, if_pos (by rw [hs]; left; simp only [List.length_cons, List.length_nil]; omega)]
  rw [hs]
  have e1 : trimLoop ([t, u].length + 2) ([t, u].take 7) ([t, u].drop (max ([t, u].length - 3) 8)) (linesOf [t, u]) = .ok ([t], [u]) := by
    show trimLoop 4 [t, u] [] (linesOf [t, u]) = _
    generalize linesOf [t, u] = r at h
    rw [trimLoop, if_pos ⟨h, by simp⟩]
    simp only [List.length_nil, gt_iff_lt, Nat.not_lt_zero, if_false]
    rw [if_pos ⟨h, by simp⟩, if_pos trivial]
    rw [trim_done _ _ _ _ (by simp [List.getLastD])]
    rfl
  rw [e1]
  have e : printIndented (str " ") u false = [32] ++ shiftLines 1 u := by
    rw [str_space, printIndented_eq 1 u false hu]; rfl
  have e' : printIndented (str " ") t true = shiftLines 1 t := by
    rw [str_space, printIndented_eq 1 t true ht]; rfl
  simp [Res.bind, rowsText, e, e']

/-- C111 violated: the text of an array of eight elements does not depend on the last one when one of the first seven is long
    or has several lines. -/
theorem print_eight_violated (a : List (List Nat)) (t t' : List Nat) (ha : a.length = 7) (htall : ∃ u ∈ a, 10 ∈ u ∨ 30 < u.length) :
    summarized (a ++ [t]) = summarized (a ++ [t']) := by
  have hs : ∀ x : List Nat, sampled (a ++ [x]) = a := by
    intro x
    simp only [sampled]
    rw [List.take_append_of_le_length (by omega), List.take_of_length_le (by omega), List.drop_of_length_le (by simp [ha]), List.append_nil]
  have hT : ∀ x : List Nat, Tall (a ++ [x]) := by
    intro x
    obtain ⟨u, hu, h⟩ := htall
    exact ⟨u, by rw [hs]; exact hu, h⟩
  rw [summarized_eq, summarized_eq, if_pos ((tall_iff _).2 (hT t)), if_pos ((tall_iff _).2 (hT t')), hs, hs]
  have h1 : ∀ x : List Nat, (a ++ [x]).take 7 = a := by
    intro x; rw [List.take_append_of_le_length (by omega), List.take_of_length_le (by omega)]
  have h2 : ∀ x : List Nat, (a ++ [x]).length = 8 := by intro x; simp [ha]
  have h3 : ∀ x : List Nat, (a ++ [x]).drop 8 = [] := by intro x; exact List.drop_of_length_le (by simp [ha])
  simp only [h1, h2]
  simp [h3]

/-! ### The grid -/

theorem listed_append {f : List Nat → List Nat} {us vs : List (List Nat)} {o1 o2 sep : List Nat} (hsep : sep = [32] ∨ sep = [10, 32])
    (h1 : Listed f us o1) (h2 : Listed f vs o2) : Listed f (us ++ vs) (o1 ++ [44] ++ sep ++ o2) := by
  induction h1 with
  | one t k => exact Listed.cons t k sep vs o2 hsep h2
  | cons t k sep' ts o hs _ ih =>
    have := Listed.cons t k sep' _ _ hs ih
    simpa [List.append_assoc] using this

theorem str_comma : str ", " = [44, 32] := rfl

theorem listed_row (w : Nat) (t : List Nat) (ls : List (List Nat)) :
    Listed id (t :: ls) (setw w t ++ ls.flatMap (fun t => str ", " ++ setw w t)) := by
  induction ls generalizing t with
  | nil => simpa [setw, blanks] using Listed.one (f := id) t (w - t.length)
  | cons u ls ih =>
    have := Listed.cons (f := id) t (w - t.length) [32] _ _ (Or.inl rfl) (ih u)
    rw [List.flatMap_cons, str_comma]
    rw [str_comma] at this
    simpa [setw, blanks] using this

/-- all texts listed, or all but the comma in front of the last -/
def GridOut (perRow : Nat) (ts : List (List Nat)) (o : List Nat) : Prop :=
  if ts.length ≤ 1 ∨ (1 < perRow ∧ ts.length % perRow ≠ 1) then Listed id ts o
  else ∃ us t o' k, ts = us ++ [t] ∧ Listed id us o' ∧ o = o' ++ [32] ++ blanks k ++ t

theorem gridRows_nil (P w f : Nat) (op : List Nat) : gridRows P w f op [] = [] := by cases f <;> rfl

theorem gridRows_spec (P w : Nat) : ∀ (f : Nat) (ts : List (List Nat)), ts ≠ [] → ts.length ≤ f →
    ∃ o, GridOut P ts o ∧ ∀ opener, gridRows P w f opener ts = opener ++ o := by
  intro f
  induction f with
  | zero => intro ts h1 h2; exact absurd (List.length_eq_zero_iff.1 (by omega)) h1
  | succ f ih =>
    intro ts h1 h2
    cases ts with
    | nil => exact absurd rfl h1
    | cons t ls =>
      have hrow := listed_row w t (ls.take (P - 1))
      have hsplit : t :: ls = (t :: ls.take (P - 1)) ++ ls.drop (P - 1) := by simp
      have hlen : (ls.drop (P - 1)).length = ls.length - (P - 1) := List.length_drop
      simp only [gridRows]
      cases hr : ls.drop (P - 1) with
      | nil =>
        rw [hr] at hsplit hlen
        refine ⟨setw w t ++ (ls.take (P - 1)).flatMap (fun t => str ", " ++ setw w t), ?_, ?_⟩
        · have hc : (t :: ls).length ≤ 1 ∨ (1 < P ∧ (t :: ls).length % P ≠ 1) := by
            simp only [List.length_nil, List.length_cons] at hlen ⊢
            by_cases h : ls.length = 0
            · omega
            · right
              refine ⟨by omega, ?_⟩
              by_cases h' : ls.length + 1 = P
              · rw [h', Nat.mod_self]; omega
              · rw [Nat.mod_eq_of_lt (by omega)]; omega
          rw [GridOut, if_pos hc, hsplit, List.append_nil]; exact hrow
        · intro op
          rw [gridRows_nil]; simp
      | cons u us =>
        rw [hr] at hsplit hlen
        obtain ⟨o, ho, heq⟩ := ih (u :: us) (by simp) (by simp only [List.length_cons] at h2 hlen ⊢; omega)
        simp only [heq]
        simp only [List.length_cons] at hlen h2
        cases us with
        | nil =>
          simp only [List.length_nil] at hlen
          have ho' : Listed id [u] o := by simpa [GridOut] using ho
          have : ∃ k, o = blanks k ++ u := by
            cases ho' with
            | one _ k => exact ⟨k, rfl⟩
            | cons _ k sep _ o' hs h => cases h
          obtain ⟨k, rfl⟩ := this
          refine ⟨setw w t ++ (ls.take (P - 1)).flatMap (fun t => str ", " ++ setw w t) ++ [32] ++ blanks k ++ u, ?_, ?_⟩
          · have hc : ¬ ((t :: ls).length ≤ 1 ∨ (1 < P ∧ (t :: ls).length % P ≠ 1)) := by
              simp only [List.length_cons]
              rintro (h | ⟨h, h'⟩)
              · omega
              · rw [show ls.length + 1 = 1 + P by omega, Nat.add_mod_right, Nat.mod_eq_of_lt h] at h'; exact h' rfl
            rw [GridOut, if_neg hc]
            exact ⟨_, u, _, k, hsplit, hrow, rfl⟩
          · intro op; simp [str_space, blanks]
        | cons v us =>
          simp only [List.length_cons] at hlen
          have hmod : 1 < P → (t :: ls).length % P = (u :: v :: us).length % P := by
            intro hP
            simp only [List.length_cons]
            rw [show ls.length + 1 = us.length + 1 + 1 + P by omega, Nat.add_mod_right]
          by_cases hc : 1 < P ∧ (u :: v :: us).length % P ≠ 1
          · rw [GridOut, if_pos (Or.inr hc)] at ho
            refine ⟨(setw w t ++ (ls.take (P - 1)).flatMap (fun t => str ", " ++ setw w t)) ++ [44] ++ [10, 32] ++ o, ?_, ?_⟩
            · rw [GridOut, if_pos (Or.inr ⟨hc.1, by rw [hmod hc.1]; exact hc.2⟩), hsplit]
              exact listed_append (Or.inr rfl) hrow ho
            · intro op
              rw [if_pos (by simp)]
              simp [str_sep, str_space, blanks]
          · rw [GridOut, if_neg (fun h => h.elim (by simp) hc)] at ho
            obtain ⟨xs, x, o', k, e, hl, rfl⟩ := ho
            refine ⟨(setw w t ++ (ls.take (P - 1)).flatMap (fun t => str ", " ++ setw w t)) ++ [44] ++ [10, 32] ++ o' ++ [32] ++ blanks k ++ x, ?_, ?_⟩
            · rw [GridOut, if_neg (by
                rintro (h | h)
                · simp only [List.length_cons] at h; omega
                · exact hc ⟨h.1, by rw [← hmod h.1]; exact h.2⟩)]
              exact ⟨(t :: ls.take (P - 1)) ++ xs, x, _, k, by rw [hsplit, e]; simp, listed_append (Or.inr rfl) hrow hl, rfl⟩
            · intro op
              rw [if_pos (by simp)]
              simp [str_sep, str_space, blanks]

/-- before the last step there was room for more -/
def BudgetLeft (ts : List (List Nat)) (a b : Nat) : Prop :=
  ∃ c, c ≤ b + 1 ∧ (max (longest (ts.take (a - 1))) (longest (ts.drop c)) + 2) * (a - 1 + (ts.length - c)) < 750

theorem fillLoop_spec (ts : List (List Nat)) : ∀ (f a b : Nat) (rows : Nat), b ≤ ts.length → a ≤ b → b < a + f →
    ∃ a' b', a ≤ a' ∧ a' ≤ b' ∧ b' ≤ b ∧ (a < b → (max (longest (ts.take a)) (longest (ts.drop b)) + 2) * (a + (ts.length - b)) < 750 → a < a') ∧
      (a + 1 < b → (max (longest (ts.take a)) (longest (ts.drop b)) + 2) * (a + (ts.length - b)) < 750 → b' < b) ∧
      (a' = b' ∨ 750 ≤ (max (longest (ts.take a')) (longest (ts.drop b')) + 2) * (a' + (ts.length - b'))) ∧
      (b - b' ≤ a' - a ∧ (a < a' → BudgetLeft ts a' b')) ∧
      fillLoop ts f (a : Int) ((b : Int) - 1) (ts.take a) (ts.drop b) (rows, max (longest (ts.take a)) (longest (ts.drop b))) =
        .ok (ts.take a', ts.drop b', max (longest (ts.take a')) (longest (ts.drop b'))) := by
  intro f
  induction f with
  | zero => intro a b rows h1 h2 h3; omega
  | succ f ih =>
    intro a b rows h1 h2 h3
    rw [fillLoop]
    have hla : (ts.take a).length = a := by rw [List.length_take]; omega
    have hlb : (ts.drop b).length = ts.length - b := List.length_drop
    simp only [hla, hlb]
    by_cases hc : a < b ∧ (max (longest (ts.take a)) (longest (ts.drop b)) + 2) * (a + (ts.length - b)) < 750
    · rw [if_pos ⟨by omega, hc.2⟩]
      have hlt : a < ts.length := by omega
      have e : ts.take a ++ [ts.getD (a : Int).toNat []] = ts.take (a + 1) := by
        rw [Int.toNat_natCast, List.take_succ_eq_append_getElem hlt, List.getD_eq_getElem?_getD, List.getElem?_eq_getElem hlt]; rfl
      simp only [pushText, summarizeStats, e]
      have el : max (max (longest (ts.take a)) (longest (ts.drop b))) (ts.getD (a : Int).toNat []).length =
          max (longest (ts.take (a + 1))) (longest (ts.drop b)) := by
        rw [← e, longest_append]
        have : longest [ts.getD (a : Int).toNat []] = (ts.getD (a : Int).toNat []).length := by simp [longest]
        rw [this]; omega
      by_cases hc2 : a + 1 < b
      · rw [if_pos (by omega)]
        have hlt2 : b - 1 < ts.length := by omega
        have e2 : ts.getD ((b : Int) - 1).toNat [] :: ts.drop b = ts.drop (b - 1) := by
          rw [show ((b : Int) - 1).toNat = b - 1 by omega, List.drop_eq_getElem_cons hlt2, List.getD_eq_getElem?_getD,
            List.getElem?_eq_getElem hlt2, show b - 1 + 1 = b by omega]; rfl
        have el2 : max (max (max (longest (ts.take a)) (longest (ts.drop b))) (ts.getD (a : Int).toNat []).length)
            (ts.getD ((b : Int) - 1).toNat []).length = max (longest (ts.take (a + 1))) (longest (ts.drop (b - 1))) := by
          rw [el, ← e2]
          have : longest (ts.getD ((b : Int) - 1).toNat [] :: ts.drop b) =
            max (ts.getD ((b : Int) - 1).toNat []).length (longest (ts.drop b)) := by simp [longest]
          rw [this]; omega
        obtain ⟨a', b', p1, p2, p3, _, _, p5, ⟨p7, p8⟩, p6⟩ := ih (a + 1) (b - 1) (rows + lineCount (ts.getD (a : Int).toNat []) + lineCount (ts.getD ((b : Int) - 1).toNat []))
          (by omega) (by omega) (by omega)
        refine ⟨a', b', by omega, p2, by omega, fun _ _ => by omega, fun _ _ => by omega, p5, ⟨by omega, fun _ => ?_⟩, ?_⟩
        · by_cases h : a + 1 < a'
          · exact p8 h
          · have : a' = a + 1 := by omega
            have : b' = b - 1 := by omega
            subst a' b'
            exact ⟨b, by omega, by simpa using hc.2⟩
        rw [← p6, e2, el2]
        congr 1
        omega
      · rw [if_neg (by omega)]
        rw [el]
        obtain ⟨a', b', p1, p2, p3, _, _, p5, ⟨p7, p8⟩, p6⟩ := ih (a + 1) b (rows + lineCount (ts.getD (a : Int).toNat [])) (by omega) (by omega) (by omega)
        refine ⟨a', b', by omega, p2, by omega, fun _ _ => by omega, fun h => by omega, p5, ⟨by omega, fun _ => ?_⟩, by rw [← p6]; congr 1⟩
        by_cases h : a + 1 < a'
        · exact p8 h
        · have : a' = a + 1 := by omega
          have : b' = b := by omega
          subst a' b'
          exact ⟨b, by omega, by simpa using hc.2⟩
    · rw [if_neg (by omega)]
      exact ⟨a, b, by omega, h2, by omega, fun h h' => absurd ⟨h, h'⟩ hc, fun h h' => absurd ⟨by omega, h'⟩ hc, by
        by_cases h : a = b
        · exact Or.inl h
        · right
          apply Classical.byContradiction
          intro h'; exact hc ⟨by omega, by omega⟩, ⟨by omega, fun h => by omega⟩, rfl⟩

theorem take_drop_longest (ts : List (List Nat)) (a : Nat) : max (longest (ts.take a)) (longest (ts.drop a)) = longest ts := by
  rw [← longest_append, List.take_append_drop]

/-- what the grid is made of -/
theorem grid_eq (ts : List (List Nat)) (h : ¬ Tall ts) : ∃ a b w, w = max (longest (ts.take a)) (longest (ts.drop b)) ∧ a ≤ b ∧ b ≤ ts.length ∧
    (7 ≤ ts.length → 7 ≤ a) ∧ (8 < ts.length → b < ts.length) ∧ (a = b ∨ 750 ≤ (w + 2) * (a + (ts.length - b))) ∧
    (13 ≤ ts.length → 8 ≤ a ∧ ts.length - 3 - b ≤ a - 7 ∧ BudgetLeft ts a b) ∧
    summarized ts = (dropPartial ts.length (75 / (w + 2)) (ts.take a) (ts.drop b)).bind fun r =>
      .ok ((if r.1 = [] then str "[" else gridRows (75 / (w + 2)) w r.1.length (str "[") r.1) ++
        (if r.1.length ≠ ts.length then str ",
 ...
" ++ gridRows (75 / (w + 2)) w r.2.length (str " ") r.2 else []) ++ str "]") := by
  have hn := mt (tall_iff ts).1 h
  rw [summarized_eq, if_neg hn]
  have hw : longest (sampled ts) ≤ 30 := by omega
  by_cases hsmall : ts.length ≤ 7
  · have hd : ts.drop (max (ts.length - 3) 8) = [] := List.drop_of_length_le (by omega)
    have ht : ts.take 7 = ts := List.take_of_length_le (by omega)
    obtain ⟨a, b, p1, p2, p3, _, _, p5, _, p6⟩ := fillLoop_spec ts (ts.length + 1) ts.length ts.length (linesOf (sampled ts)) (Nat.le_refl _) (Nat.le_refl _) (by omega)
    refine ⟨a, b, _, rfl, p2, p3, fun _ => by omega, fun _ => by omega, p5, fun _ => by omega, ?_⟩
    have e1 : longest (sampled ts) = max (longest (ts.take ts.length)) (longest (ts.drop ts.length)) := by
      rw [sampled, longest_append, hd, ht]; simp
    have e0 : ts.drop ts.length = [] := List.drop_of_length_le (Nat.le_refl _)
    rw [hd, ht, e1, gridText]
    rw [List.take_of_length_le (Nat.le_refl _), e0] at p6
    have e2 : ((min 7 ts.length : Nat) : Int) = (ts.length : Int) := by omega
    rw [List.take_of_length_le (Nat.le_refl _), e0, e2]
    simp only [List.length_nil, Int.natCast_zero, Int.sub_zero]
    show ((fillLoop ts (ts.length + 1) _ _ _ _ _).bind _) = _
    rw [p6]
    rfl
  · have hd : ts.drop (max (ts.length - 3) 8) = ts.drop (max (ts.length - 3) 8) := rfl
    obtain ⟨a, b, p1, p2, p3, p4a, p4b, p5, ⟨p7, p8⟩, p6⟩ := fillLoop_spec ts (ts.length + 1) 7 (max (ts.length - 3) 8) (linesOf (sampled ts)) (by omega) (by omega) (by omega)
    have e1 : longest (sampled ts) = max (longest (ts.take 7)) (longest (ts.drop (max (ts.length - 3) 8))) := by
      rw [sampled, longest_append]
    have hsm : (max (longest (ts.take 7)) (longest (ts.drop (max (ts.length - 3) 8))) + 2) * (7 + (ts.length - max (ts.length - 3) 8)) < 750 := by
      rw [← e1]
      have h10 : 7 + (ts.length - max (ts.length - 3) 8) ≤ 10 := by omega
      calc _ ≤ 32 * 10 := Nat.mul_le_mul (by omega) h10
        _ < 750 := by omega
    refine ⟨a, b, _, rfl, p2, by omega, fun _ => by omega, fun _ => by omega, p5, fun h13 => ?_, ?_⟩
    · have := p4a (by omega) hsm
      exact ⟨by omega, by omega, p8 this⟩
    · rw [e1, gridText]
      have e2 : ((min 7 ts.length : Nat) : Int) = ((7 : Nat) : Int) := by omega
      have e3 : (ts.length : Int) - ((ts.drop (max (ts.length - 3) 8)).length : Nat) - 1 = ((max (ts.length - 3) 8 : Nat) : Int) - 1 := by
        rw [List.length_drop]; omega
      rw [e2, e3]
      show ((fillLoop ts (ts.length + 1) _ _ _ _ _).bind _) = _
      rw [p6]
      rfl

theorem dropPartial_eq (ts : List (List Nat)) (a b P : Nat) (hab : a < b) (hb : b < ts.length) (h7 : 7 ≤ a) (hP : 0 < P) :
    ∃ a' b', 0 < a' ∧ a' ≤ a ∧ b ≤ b' ∧ b' < ts.length ∧ (1 < P → a' % P ≠ 1) ∧ (1 < P → ts.length - b' ≤ 1 ∨ (ts.length - b') % P ≠ 1) ∧
      dropPartial ts.length P (ts.take a) (ts.drop b) = .ok (ts.take a', ts.drop b') := by
  have hla : (ts.take a).length = a := by rw [List.length_take]; omega
  have hlb : (ts.drop b).length = ts.length - b := List.length_drop
  rw [dropPartial, hla, hlb, if_neg (by omega), if_neg (by omega)]
  have hA : ∃ a', 0 < a' ∧ a' ≤ a ∧ (1 < P → a' % P ≠ 1) ∧
      (if a > P ∧ a % P ≠ 0 then (ts.take a).take (a / P * P) else ts.take a) = ts.take a' := by
    by_cases h : a > P ∧ a % P ≠ 0
    · refine ⟨a / P * P, Nat.mul_pos (Nat.div_pos (by omega) hP) hP, Nat.div_mul_le_self a P, fun h1 => ?_, ?_⟩
      · rw [Nat.mul_mod_left]; omega
      · rw [if_pos h, List.take_take, Nat.min_eq_left (Nat.div_mul_le_self a P)]
    · refine ⟨a, by omega, Nat.le_refl _, fun h1 h2 => ?_, by rw [if_neg h]⟩
      by_cases h3 : a > P
      · exact h ⟨h3, by omega⟩
      · by_cases h4 : a = P
        · rw [h4, Nat.mod_self] at h2; omega
        · rw [Nat.mod_eq_of_lt (by omega)] at h2; omega
  have hB : ∃ b', b ≤ b' ∧ b' < ts.length ∧ (1 < P → ts.length - b' ≤ 1 ∨ (ts.length - b') % P ≠ 1) ∧
      (if ts.length - b > P ∧ (ts.length - b) % P ≠ 0 then (ts.drop b).drop ((ts.length - b) % P) else ts.drop b) = ts.drop b' := by
    by_cases h : ts.length - b > P ∧ (ts.length - b) % P ≠ 0
    · have hlt := Nat.mod_lt (ts.length - b) hP
      have hdm := Nat.div_add_mod (ts.length - b) P
      refine ⟨b + (ts.length - b) % P, by omega, by omega, fun h1 => Or.inr ?_, ?_⟩
      · rw [show ts.length - (b + (ts.length - b) % P) = P * ((ts.length - b) / P) by omega, Nat.mul_mod_right]; omega
      · rw [if_pos h, List.drop_drop]
    · refine ⟨b, Nat.le_refl _, hb, fun h1 => ?_, by rw [if_neg h]⟩
      by_cases h3 : ts.length - b > P
      · right
        have : (ts.length - b) % P = 0 := by
          apply Classical.byContradiction; intro h'; exact h ⟨h3, h'⟩
        omega
      · by_cases h4 : ts.length - b = P
        · right; rw [h4, Nat.mod_self]; omega
        · rw [Nat.mod_eq_of_lt (by omega)]; omega
  obtain ⟨a', q1, q2, q3, q4⟩ := hA
  obtain ⟨b', r1, r2, r3, r4⟩ := hB
  exact ⟨a', b', q1, q2, r1, r2, q3, r3, by rw [q4, r4]⟩

theorem per_row_gt {w : Nat} (h : w ≤ 35) : 1 < 75 / (w + 2) := by
  rw [Nat.lt_iff_add_one_le, Nat.le_div_iff_mul_le (by omega)]; omega

theorem longest_take_le (ts : List (List Nat)) (a : Nat) : longest (ts.take a) ≤ longest ts :=
  longest_le fun _ h => le_longest (List.mem_of_mem_take h)
theorem longest_drop_le (ts : List (List Nat)) (a : Nat) : longest (ts.drop a) ≤ longest ts :=
  longest_le fun _ h => le_longest (List.mem_of_mem_drop h)

/-- the grid when all elements are shown -/
theorem grid_all (ts : List (List Nat)) (w : Nat) :
    ∃ out, (.ok ((if ts = [] then str "[" else gridRows (75 / (w + 2)) w ts.length (str "[") ts) ++
        (if ts.length ≠ ts.length then str ",\n ...\n" ++ gridRows (75 / (w + 2)) w 0 (str " ") [] else []) ++ str "]") : Res (List Nat)) = .ok out ∧
      (if ts.length ≤ 1 ∨ (1 < 75 / (w + 2) ∧ ts.length % (75 / (w + 2)) ≠ 1) then ShowsAll ts out else CommaMissing ts out) := by
  refine ⟨_, rfl, ?_⟩
  rw [if_neg (show ¬ ts.length ≠ ts.length by simp)]
  by_cases hts : ts = []
  · rw [if_pos (by rw [hts]; simp), if_pos hts]
    exact Or.inl ⟨hts, rfl⟩
  · obtain ⟨o, ho, heq⟩ := gridRows_spec (75 / (w + 2)) w ts.length ts hts (Nat.le_refl _)
    rw [if_neg hts, heq]
    simp only [List.append_nil]
    rw [GridOut] at ho
    split
    · rename_i h
      rw [if_pos h] at ho
      exact Or.inr ⟨id, o, Or.inl rfl, ho, rfl⟩
    · rename_i h
      rw [if_neg h] at ho
      obtain ⟨us, t, o', k, e, hl, rfl⟩ := ho
      exact ⟨us, t, o', k, e, hl, rfl⟩

/-- C111: an array of short elements is shown in rows, all of them or the first and last ones; all of them if they take
    less than 750 columns.  (Some are shown without a comma in front of the last element, see below.) -/
theorem print_grid_partial (ts : List (List Nat)) (h : ¬ Tall ts) (h35 : ∀ t ∈ ts, t.length ≤ 35) :
    ∃ out, summarized ts = .ok out ∧
      ((750 ≤ (longest ts + 2) * (ts.length - 1) ∧ ShowsEnds ts out) ∨
        (if ts.length ≤ 1 ∨ ts.length % (75 / (longest ts + 2)) ≠ 1 then ShowsAll ts out else CommaMissing ts out)) := by
  obtain ⟨a, b, w, hw, hab, hb, h7, h8, hstop, _, heq⟩ := grid_eq ts h
  have hw35 : longest ts ≤ 35 := longest_le h35
  have hwl : w ≤ longest ts := by
    rw [hw]; have := longest_take_le ts a; have := longest_drop_le ts b; omega
  rw [heq]
  by_cases hcov : a = b
  · subst hcov
    rw [take_drop_longest] at hw
    subst hw
    have e : dropPartial ts.length (75 / (longest ts + 2)) (ts.take a) (ts.drop a) = .ok (ts, []) := by
      rw [dropPartial, if_pos (by rw [List.length_take, List.length_drop]; omega), List.take_append_drop]
    rw [e]
    simp only [Res.bind]
    obtain ⟨out, e1, e2⟩ := grid_all ts (longest ts)
    refine ⟨out, e1, Or.inr ?_⟩
    simpa only [per_row_gt hw35, true_and] using e2
  · have hst : 750 ≤ (w + 2) * (a + (ts.length - b)) := hstop.resolve_left hcov
    have hlarge : 8 < ts.length := by
      apply Classical.byContradiction
      intro hs
      have : (w + 2) * (a + (ts.length - b)) ≤ 37 * 8 := Nat.mul_le_mul (by omega) (by omega)
      omega
    obtain ⟨a', b', q1, q2, q3, q4, q5, q6, q7⟩ := dropPartial_eq ts a b (75 / (w + 2)) (by omega) (h8 hlarge) (h7 (by omega))
      (by have := per_row_gt (w := w) (by omega); omega)
    rw [q7]
    simp only [Res.bind]
    have hP := per_row_gt (w := w) (by omega)
    have hla : (ts.take a').length = a' := by rw [List.length_take]; omega
    have hlb : (ts.drop b').length = ts.length - b' := List.length_drop
    have hne1 : ts.take a' ≠ [] := List.ne_nil_of_length_pos (by omega)
    have hne2 : ts.drop b' ≠ [] := List.ne_nil_of_length_pos (by omega)
    obtain ⟨o1, g1, e1⟩ := gridRows_spec (75 / (w + 2)) w (ts.take a').length (ts.take a') hne1 (Nat.le_refl _)
    obtain ⟨o2, g2, e2⟩ := gridRows_spec (75 / (w + 2)) w (ts.drop b').length (ts.drop b') hne2 (Nat.le_refl _)
    rw [GridOut, if_pos (by rw [hla]; exact Or.inr ⟨hP, q5 hP⟩)] at g1
    rw [GridOut, if_pos (by rw [hlb]; exact (q6 hP).imp id fun x => ⟨hP, x⟩)] at g2
    refine ⟨_, rfl, Or.inl ⟨?_, ?_⟩⟩
    · exact Nat.le_trans hst (Nat.mul_le_mul (by omega) (by omega))
    · refine ⟨id, a', ts.length - b', o1, o2, Or.inl rfl, q1, by omega, by omega, g1,
        by rw [show ts.length - (ts.length - b') = b' by omega]; exact g2, ?_⟩
      rw [if_neg hne1, if_pos (by omega), e1, e2]
      have es : str ",\n ...\n " = str ",\n ...\n" ++ str " " := rfl
      simp only [es, List.append_assoc]

/-- C111 violated: undefined behaviour (a remainder by zero) when printing an array of at least thirteen elements of which the
    first seven and the last three are short and the eighth has at least 74 characters. -/
theorem print_long_element_violated (ts : List (List Nat)) (h : ¬ Tall ts) (h13 : 13 ≤ ts.length) (t : List Nat) (ht : ts[7]? = some t)
    (hl : 74 ≤ t.length) : summarized ts = .ub := by
  obtain ⟨a, b, w, hw, hab, hb, h7, h8, hstop, hfew, heq⟩ := grid_eq ts h
  obtain ⟨ha, hba, c, hc, hbud⟩ := hfew h13
  have hmem : ∀ k, 8 ≤ k → 74 ≤ longest (ts.take k) := by
    intro k hk
    have : t ∈ ts.take k := List.mem_of_getElem? (i := 7) (by rw [List.getElem?_take, if_pos (by omega)]; exact ht)
    exact Nat.le_trans hl (le_longest this)
  have hne : a ≠ b := by
    intro e
    subst e
    have ha8 : 8 < a := by omega
    have h76 := hmem (a - 1) (by omega)
    have : 76 * 11 ≤ (max (longest (ts.take (a - 1))) (longest (ts.drop c)) + 2) * (a - 1 + (ts.length - c)) :=
      Nat.mul_le_mul (by omega) (by omega)
    omega
  have hP : 75 / (w + 2) = 0 := by
    rw [Nat.div_eq_zero_iff]; right
    have := hmem a ha
    omega
  rw [heq, hP]
  have e : dropPartial ts.length 0 (ts.take a) (ts.drop b) = .ub := by
    rw [dropPartial, List.length_take, List.length_drop, if_neg (by omega), if_pos ⟨rfl, by omega⟩]
  rw [e]
  rfl

/-! ### No undefined behaviour -/

theorem trim_total : ∀ (f : Nat) (lead trail : List (List Nat)) (rows : Nat), lead ≠ [] →
    lead.length + trail.length + (if trail = [] then 1 else 0) ≤ f →
    ∃ r, trimLoop (f + 1) lead trail rows = .ok r ∧ r.1 ≠ [] := by
  intro f
  induction f with
  | zero => intro lead trail rows h1 h; cases lead with
    | nil => exact absurd rfl h1
    | cons => simp at h
  | succ f ih =>
    intro lead trail rows h1 hf
    rw [trimLoop]
    by_cases hc : rows > 10 ∧ (trail.length > 1 ∨ lead.length > 1)
    · rw [if_pos hc]
      by_cases htl : trail.length > 1
      · have hne : trail.tail ≠ [] := by
          intro e; have := congrArg List.length e; simp at this; omega
        have hnt : trail ≠ [] := by intro e; rw [e] at htl; simp at htl
        rw [if_neg hnt] at hf
        simp only [if_pos htl]
        split
        · rename_i hr
          exact ih _ _ _ (by intro e; have := congrArg List.length e; simp at this; omega) (by rw [if_neg hne]; simp; omega)
        · exact ih _ _ _ h1 (by rw [if_neg hne]; simp; omega)
      · simp only [if_neg htl]
        rw [if_pos ⟨hc.1, by omega⟩]
        have hl : lead.length > 1 := by omega
        have hne : lead.dropLast ≠ [] := by intro e; have := congrArg List.length e; simp at this; omega
        by_cases ht : trail = []
        · rw [if_pos ht]
          rw [ht] at hf
          exact ih _ _ _ hne (by simp at hf ⊢; omega)
        · rw [if_neg ht]
          rw [if_neg ht] at hf
          exact ih _ _ _ hne (by rw [if_neg ht]; simp; omega)
    · rw [if_neg hc]; exact ⟨_, rfl, h1⟩

/-- C111: no element of more than 73 characters, or one of those looked at first with several lines or more than 30
    characters: no undefined behaviour. -/
theorem print_defined_partial (ts : List (List Nat)) (h : Tall ts ∨ ∀ t ∈ ts, t.length ≤ 73) : ∃ out, summarized ts = .ok out := by
  by_cases hT : Tall ts
  · rw [summarized_eq, if_pos ((tall_iff ts).2 hT)]
    have hne : ts.take 7 ≠ [] := by
      obtain ⟨t, ht, _⟩ := hT
      have : 0 < ts.length := by
        rcases List.mem_append.1 ht with h | h
        · exact List.length_pos_of_mem (List.mem_of_mem_take h)
        · exact List.length_pos_of_mem (List.mem_of_mem_drop h)
      exact List.ne_nil_of_length_pos (by rw [List.length_take]; omega)
    obtain ⟨r, e, hr⟩ := trim_total ((sampled ts).length + 1) (ts.take 7) (ts.drop (max (ts.length - 3) 8)) (linesOf (sampled ts)) hne
      (by simp only [sampled, List.length_append]; split <;> omega)
    rw [e]
    simp only [Res.bind]
    obtain ⟨l, tr⟩ := r
    cases l with
    | nil => exact absurd rfl hr
    | cons t ls => exact ⟨_, rfl⟩
  · obtain ⟨a, b, w, hw, _, _, _, _, _, _, heq⟩ := grid_eq ts hT
    have h73 := longest_le (h.resolve_left hT)
    have hP : ¬ (75 / (w + 2) = 0) := by
      rw [Nat.div_eq_zero_iff]
      have := longest_take_le ts a
      have := longest_drop_le ts b
      omega
    rw [heq, dropPartial]
    split
    · exact ⟨_, rfl⟩
    · rw [if_neg (by rintro ⟨x, _⟩; exact hP x)]
      exact ⟨_, rfl⟩

/-! ### What can be read back -/

/-- A text without commas, blanks or line breaks. -/
def Word (t : List Nat) : Prop := t ≠ [] ∧ 44 ∉ t ∧ 32 ∉ t ∧ 10 ∉ t

/-- the items with commas in between -/
def joined : List (List Nat) → List Nat
  | [] => []
  | [t] => t
  | t :: ts => t ++ 44 :: joined ts

theorem joined_inj : ∀ (ts us : List (List Nat)), (∀ t ∈ ts, Word t) → (∀ t ∈ us, Word t) → joined ts = joined us → ts = us := by
  have split1 : ∀ (t u x y : List Nat), 44 ∉ t → 44 ∉ u → t ++ 44 :: x = u ++ 44 :: y → t = u ∧ x = y := by
    intro t
    induction t with
    | nil =>
      intro u x y _ hu e
      cases u with
      | nil => simpa using e
      | cons c u => simp at e; exact absurd (by rw [← e.1]; simp) hu
    | cons c t ih =>
      intro u x y ht hu e
      cases u with
      | nil => simp at e; exact absurd (by rw [e.1]; simp) ht
      | cons d u =>
        simp at e
        obtain ⟨h1, h2⟩ := ih u x y (fun h => ht (List.mem_cons_of_mem _ h)) (fun h => hu (List.mem_cons_of_mem _ h)) e.2
        exact ⟨by rw [e.1, h1], h2⟩
  intro ts
  induction ts with
  | nil =>
    intro us _ hu e
    cases us with
    | nil => rfl
    | cons u us =>
      have := (hu u (by simp)).1
      cases us <;> simp [joined] at e <;> exact absurd e this
  | cons t ts ih =>
    intro us ht hu e
    have hw := ht t (by simp)
    cases us with
    | nil =>
      cases ts <;> simp [joined] at e
      exact absurd e hw.1
    | cons u us =>
      have hv := hu u (by simp)
      cases ts with
      | nil =>
        cases us with
        | nil => simp [joined] at e; rw [e]
        | cons v vs =>
          simp only [joined] at e
          exact absurd (by rw [e]; simp) hw.2.1
      | cons t' ts' =>
        cases us with
        | nil =>
          simp only [joined] at e
          exact absurd (by rw [← e]; simp) hv.2.1
        | cons v vs =>
          simp only [joined] at e
          obtain ⟨h1, h2⟩ := split1 _ _ _ _ hw.2.1 hv.2.1 e
          rw [h1, ih (v :: vs) (fun x hx => ht x (List.mem_cons_of_mem _ hx)) (fun x hx => hu x (List.mem_cons_of_mem _ hx)) h2]

/-- the characters other than blanks and line breaks -/
def unspaced (s : List Nat) : List Nat := s.filter fun c => c ≠ 32 ∧ c ≠ 10

theorem unspaced_blanks (k : Nat) : unspaced (blanks k) = [] := by
  simp [unspaced, blanks, List.filter_eq_nil_iff]

theorem unspaced_append (a b : List Nat) : unspaced (a ++ b) = unspaced a ++ unspaced b := List.filter_append ..

theorem unspaced_word {t : List Nat} (h : Word t) : unspaced t = t := by
  rw [unspaced, List.filter_eq_self]
  intro c hc
  have h1 : c ≠ 32 := by rintro rfl; exact h.2.2.1 hc
  have h2 : c ≠ 10 := by rintro rfl; exact h.2.2.2 hc
  simp [h1, h2]

theorem shift_word (k : Nat) {t : List Nat} (h : 10 ∉ t) : shiftLines k t = t := by
  induction t with
  | nil => rfl
  | cons c t ih =>
    have hc : c ≠ 10 := by rintro rfl; exact h (by simp)
    have : shiftLines k (c :: t) = c :: shiftLines k t := by simp [shiftLines, hc]
    rw [this, ih fun h' => h (List.mem_cons_of_mem _ h')]

theorem listed_unspaced {f : List Nat → List Nat} (hf : Moved f) {ts : List (List Nat)} {o : List Nat} (h : Listed f ts o)
    (hw : ∀ t ∈ ts, Word t) : unspaced o = joined ts := by
  have hft : ∀ t, Word t → f t = t := by
    intro t ht
    rcases hf with rfl | rfl
    · rfl
    · exact shift_word 1 ht.2.2.2
  induction h with
  | one t k =>
    have := hw t (by simp)
    rw [unspaced_append, unspaced_blanks, hft t this, unspaced_word this]; rfl
  | cons t k sep ts o hsep h ih =>
    have ht := hw t (by simp)
    have := ih fun x hx => hw x (List.mem_cons_of_mem _ hx)
    have hs : unspaced ([44] ++ sep) = [44] := by rcases hsep with rfl | rfl <;> rfl
    have hne : ts ≠ [] := by cases h <;> simp
    rw [List.append_assoc _ [44] sep, unspaced_append, unspaced_append, unspaced_append, unspaced_blanks, hft t ht, unspaced_word ht, hs, this]
    cases ts with
    | nil => exact absurd rfl hne
    | cons u us => simp [joined]

theorem showsAll_unspaced {ts : List (List Nat)} {out : List Nat} (h : ShowsAll ts out) (hw : ∀ t ∈ ts, Word t) :
    unspaced out = str "[" ++ joined ts ++ str "]" := by
  rcases h with ⟨rfl, rfl⟩ | ⟨f, o, hf, hl, rfl⟩
  · rfl
  · rw [unspaced_append, unspaced_append, listed_unspaced hf hl hw]; rfl

/-- C111: two arrays shown completely with the same text have the same elements (whose texts have no commas, blanks or line
    breaks). -/
theorem shown_unique {ts us : List (List Nat)} {out : List Nat} (h1 : ShowsAll ts out) (h2 : ShowsAll us out)
    (hw1 : ∀ t ∈ ts, Word t) (hw2 : ∀ t ∈ us, Word t) : ts = us := by
  have e := (showsAll_unspaced h1 hw1).symm.trans (showsAll_unspaced h2 hw2)
  exact joined_inj _ _ hw1 hw2 (by simpa using e)

/-! ### The text of the array -/

theorem shift_inj (k : Nat) : ∀ (t u : List Nat), shiftLines k t = shiftLines k u → t = u := by
  intro t
  induction t with
  | nil =>
    intro u h
    cases u with
    | nil => rfl
    | cons c u => simp only [shiftLines, List.flatMap_nil, List.flatMap_cons] at h; split at h <;> simp at h
  | cons c t ih =>
    intro u h
    cases u with
    | nil => simp only [shiftLines, List.flatMap_nil, List.flatMap_cons] at h; split at h <;> simp at h
    | cons d u =>
      have e : ∀ c t, shiftLines k (c :: t) = (if c = 10 then 10 :: blanks k else [c]) ++ shiftLines k t := by intro c t; rfl
      rw [e, e] at h
      by_cases hc : c = 10 <;> by_cases hd : d = 10
      · rw [if_pos hc, if_pos hd] at h
        rw [hc, hd, ih u (List.append_cancel_left h)]
      · rw [if_pos hc, if_neg hd] at h
        simp at h
        exact absurd h.1.symm hd
      · rw [if_neg hc, if_pos hd] at h
        simp at h
        exact absurd h.1 hc
      · rw [if_neg hc, if_neg hd] at h
        simp at h
        rw [h.1, ih u h.2]

theorem append_bracket (a out : List Nat) (h : (.ok (a ++ str "]") : Res (List Nat)) = .ok out) : Proper out := by
  injection h with h
  subst h
  have : str "]" = [93] := rfl
  rw [this]
  exact ⟨by simp, by simp⟩

/-- the text of a dimension -/
theorem summarized_proper (ts : List (List Nat)) (out : List Nat) (h : summarized ts = .ok out) : Proper out := by
  by_cases hT : Tall ts
  · rw [summarized_eq, if_pos ((tall_iff ts).2 hT)] at h
    obtain ⟨⟨l, tr⟩, _, h⟩ := Res.bind_eq_ok.1 h
    cases l with
    | nil => cases h
    | cons t ls => exact append_bracket _ _ h
  · obtain ⟨a, b, w, _, _, _, _, _, _, _, heq⟩ := grid_eq ts hT
    rw [heq] at h
    obtain ⟨r, _, h⟩ := Res.bind_eq_ok.1 h
    exact append_bracket _ _ h

/-- The texts of the scalars are not empty and have no newline at the end; `fixed_bytes` is not empty. -/
inductive GoodVal : PVal → Prop
  | scalar (t : List Nat) (h : Proper t) : GoodVal (.scalar t)
  | bytes (b : List Nat) : GoodVal (.bytes b)
  | fixedBytes (b : List Nat) (h : b ≠ []) : GoodVal (.fixedBytes b)
  | opt (k : OptKind) (m : Bool) (v : PVal) (h : GoodVal v) : GoodVal (.opt k m v)
  | dim (es : List PVal) (h : ∀ e ∈ es, GoodVal e) : GoodVal (.dim es)
  | fields (es : List PVal) (h : ∀ e ∈ es, GoodVal e) : GoodVal (.fields es)
  | pointer (v : PVal) (h : GoodVal v) : GoodVal (.pointer v)

theorem hexDigit_ne (v : Nat) : hexDigit v ≠ 10 := by rw [hexDigit]; split <;> omega

theorem hexBytes_proper (b : List Nat) (h : b ≠ []) : Proper (b.flatMap hexByte) := by
  constructor
  · obtain ⟨x, xs, rfl⟩ := List.exists_cons_of_ne_nil h
    simp [hexByte]
  · intro e
    have : (10 : Nat) ∈ b.flatMap hexByte := List.mem_of_getLast? e
    obtain ⟨x, _, hx⟩ := List.mem_flatMap.1 this
    simp only [hexByte, List.mem_cons, List.not_mem_nil, or_false] at hx
    rcases hx with hx | hx <;> exact hexDigit_ne _ hx.symm

theorem proper_append {a b : List Nat} (h : Proper b) : Proper (a ++ b) := by
  refine ⟨by simp [h.1], ?_⟩
  rw [List.getLast?_append]
  cases e : b.getLast? with
  | none => exact absurd (List.getLast?_eq_none_iff.1 e) h.1
  | some x => simpa using fun h' => h.2 (by rw [e, h'])

theorem hex_proper (b : List Nat) (h : b ≠ []) : Proper (hexSummarized b) := by
  rw [hexSummarized]
  split
  · exact hexBytes_proper b h
  · refine proper_append (hexBytes_proper _ ?_)
    exact List.ne_nil_of_length_pos (by rw [List.length_drop]; have := List.length_pos_iff.2 h; omega)

/-- the text of an element is not empty and does not end in a newline -/
theorem printVal_proper {v : PVal} (hv : GoodVal v) : ∀ t, printVal v = .ok t → Proper t := by
  induction hv with
  | scalar u h => intro t e; rw [printVal] at e; injection e with e; exact e ▸ h
  | bytes b =>
    intro t e
    rw [printVal] at e
    injection e with e
    subst e
    split
    · exact ⟨by decide, by decide⟩
    · rename_i h; exact hex_proper b h
  | fixedBytes b h => intro t e; rw [printVal] at e; injection e with e; exact e ▸ hex_proper b h
  | opt k m v h ih =>
    intro t e
    rw [printVal] at e
    split at e
    · exact ih t e
    · injection e with e; subst e; exact ⟨by decide, by decide⟩
  | dim es h ih =>
    intro t e
    rw [printVal] at e
    obtain ⟨ts, _, e⟩ := Res.bind_eq_ok.1 e
    exact summarized_proper ts t e
  | fields es h ih =>
    intro t e
    rw [printVal] at e
    obtain ⟨ts, _, e⟩ := Res.bind_eq_ok.1 e
    exact append_bracket _ _ e
  | pointer v h ih => intro t e; rw [printVal] at e; exact ih t e

/-- C111: the text of an array is that of its data, with the later lines moved below the first one, and its type. -/
theorem printArray_text {v : PVal} (hv : GoodVal v) (ty t : List Nat) (h : printVal v = .ok t) :
    printArray false v ty = .ok (str "array(" ++ shiftLines 6 t ++ str ",\n      type=\"" ++ ty ++ str "\")") := by
  rw [printArray, h]
  have e : str "      " = blanks 6 := rfl
  have e2 := printIndented_eq 6 t true (printVal_proper hv t h)
  show Res.ok _ = _
  rw [if_neg (by simp), e, e2]
  simp

/-- C111: two arrays of the same type with the same text have data with the same text. -/
theorem printArray_unique {v v' : PVal} (hv : GoodVal v) (hv' : GoodVal v') (ty out : List Nat)
    (h : printArray false v ty = .ok out) (h' : printArray false v' ty = .ok out) : ∃ t, printVal v = .ok t ∧ printVal v' = .ok t := by
  have get : ∀ u, printArray false u ty = .ok out → ∃ t, printVal u = .ok t := by
    intro u hu
    rw [printArray] at hu
    obtain ⟨t, ht, _⟩ := Res.bind_eq_ok.1 hu
    exact ⟨t, ht⟩
  obtain ⟨t, ht⟩ := get v h
  obtain ⟨t', ht'⟩ := get v' h'
  rw [printArray_text hv ty t ht] at h
  rw [printArray_text hv' ty t' ht'] at h'
  have e := h.trans h'.symm
  injection e with e
  have e := List.append_cancel_right (List.append_cancel_right (List.append_cancel_right e))
  have e := shift_inj 6 _ _ (List.append_cancel_left e)
  exact ⟨t, ht, by rw [e]; exact ht'⟩

/-- C111: bytes are printed in hexadecimal, completely if there are no more than forty. -/
theorem print_bytes_unique (a b : List Nat) (ha : a.length ≤ 40) (hb : b.length ≤ 40) (h1 : ∀ x ∈ a, x < 256) (h2 : ∀ x ∈ b, x < 256)
    (h : hexSummarized a = hexSummarized b) : a = b := by
  rw [hexSummarized, hexSummarized, if_pos (by omega), if_pos (by omega)] at h
  clear ha hb
  have dinj : ∀ x y, x < 16 → y < 16 → hexDigit x = hexDigit y → x = y := by
    intro x y hx hy e; simp only [hexDigit] at e; split at e <;> split at e <;> omega
  induction a generalizing b with
  | nil => cases b with
    | nil => rfl
    | cons => simp [hexByte] at h
  | cons x a ih =>
    cases b with
    | nil => simp [hexByte] at h
    | cons y b =>
      simp only [List.flatMap_cons, hexByte, List.cons_append, List.nil_append, List.cons.injEq] at h
      obtain ⟨e1, e2, e3⟩ := h
      have hx := h1 x (by simp)
      have hy := h2 y (by simp)
      have m : ∀ z : Nat, z &&& 0x0f = z % 16 := fun z => Nat.and_two_pow_sub_one_eq_mod z 4
      rw [m, m] at e2
      rw [Nat.shiftRight_eq_div_pow, Nat.shiftRight_eq_div_pow] at e1
      have f1 := dinj _ _ (by omega) (by omega) e1
      have f2 := dinj _ _ (by omega) (by omega) e2
      have : x = y := by omega
      rw [this, ih b (fun z hz => h1 z (List.mem_cons_of_mem _ hz)) (fun z hz => h2 z (List.mem_cons_of_mem _ hz)) e3]

/-- texts of a list of scalars -/
theorem printVals_scalars (ts : List (List Nat)) : printVals (ts.map .scalar) = .ok ts := by
  induction ts with
  | nil => rfl
  | cons t ts ih => rw [List.map_cons, printVals, printVal, ih]; rfl

/-- C111: the text of an array of short words (numbers, ...) determines them: no more than 30 characters each, less than 750
    columns in total, and the last one not alone in its row. -/
theorem print_words_unique_partial (ts us : List (List Nat)) (ty out : List Nat) (hts : ∀ t ∈ ts, Word t ∧ t.length ≤ 30)
    (hus : ∀ t ∈ us, Word t ∧ t.length ≤ 30)
    (b1 : (longest ts + 2) * (ts.length - 1) < 750) (b2 : (longest us + 2) * (us.length - 1) < 750)
    (c1 : ts.length ≤ 1 ∨ ts.length % (75 / (longest ts + 2)) ≠ 1) (c2 : us.length ≤ 1 ∨ us.length % (75 / (longest us + 2)) ≠ 1)
    (h1 : printArray false (.dim (ts.map .scalar)) ty = .ok out) (h2 : printArray false (.dim (us.map .scalar)) ty = .ok out) : ts = us := by
  have good : ∀ xs : List (List Nat), (∀ t ∈ xs, Word t ∧ t.length ≤ 30) → GoodVal (.dim (xs.map .scalar)) := by
    intro xs hx
    refine .dim _ fun e he => ?_
    obtain ⟨t, ht, rfl⟩ := List.mem_map.1 he
    have hw := (hx t ht).1
    exact .scalar t ⟨hw.1, fun e => hw.2.2.2 (List.mem_of_getLast? e)⟩
  obtain ⟨t, p1, p2⟩ := printArray_unique (good ts hts) (good us hus) ty out h1 h2
  have shows : ∀ xs : List (List Nat), (∀ t ∈ xs, Word t ∧ t.length ≤ 30) → (longest xs + 2) * (xs.length - 1) < 750 →
      (xs.length ≤ 1 ∨ xs.length % (75 / (longest xs + 2)) ≠ 1) → printVal (.dim (xs.map .scalar)) = .ok t → ShowsAll xs t := by
    intro xs hx hb hc hp
    rw [printVal, printVals_scalars] at hp
    have hp : summarized xs = .ok t := hp
    have hnt : ¬ Tall xs := by
      rintro ⟨u, hu, h⟩
      have hm : u ∈ xs := by
        rcases List.mem_append.1 hu with h | h
        · exact List.mem_of_mem_take h
        · exact List.mem_of_mem_drop h
      rcases h with h | h
      · exact (hx u hm).1.2.2.2 h
      · have := (hx u hm).2; omega
    obtain ⟨o, e, h⟩ := print_grid_partial xs hnt fun u hu => by have := (hx u hu).2; omega
    rw [hp] at e
    injection e with e
    subst e
    rw [if_pos hc] at h
    rcases h with ⟨h, _⟩ | h
    · omega
    · exact h
  exact shown_unique (shows ts hts b1 c1 p1) (shows us hus b2 c2 p2) (fun u hu => (hts u hu).1) (fun u hu => (hus u hu).1)

/-- C111 violated: optional strings, bytes, unsigned integers other than `uint32`, ... are printed as missing. -/
theorem print_option_violated (k : OptKind) (hk : k ∈ [OptKind.string, .bytes, .uint8, .uint16, .uint64, .uint128, .float16, .char, .type, .tuple, .struct, .dim])
    (v : PVal) : printVal (.opt k false v) = .ok (str "NA") := by
  have : availKnown k = false := by
    simp only [List.mem_cons, List.not_mem_nil, or_false] at hk
    rcases hk with rfl | rfl | rfl | rfl | rfl | rfl | rfl | rfl | rfl | rfl | rfl | rfl <;> rfl
  rw [printVal, this]; rfl

/-! ### Cases -/

/-- the numbers from `a` on -/
def exNumbers (a n : Nat) : List (List Nat) := (List.range n).map fun i => str (toString (a + i))

theorem print_grid_case : ¬ Tall (exNumbers 0 20) ∧ (∀ t ∈ exNumbers 0 20, t.length ≤ 35) ∧
    summarized (exNumbers 0 20) = .ok (str "[ 0,  1,  2,  3,  4,  5,  6,  7,  8,  9, 10, 11, 12, 13, 14, 15, 16, 17,\n 18, 19]") := by
  refine ⟨fun h => ?_, ?_, ?_⟩
  · have := (tall_iff _).2 h
    exact absurd this (by decide +kernel)
  · decide +kernel
  · decide +kernel

/-- C111 violated: the numbers from 0 to 18 are printed as `[0, ..., 17 18]`. -/
theorem print_comma_violated :
    summarized (exNumbers 0 19) = .ok (str "[ 0,  1,  2,  3,  4,  5,  6,  7,  8,  9, 10, 11, 12, 13, 14, 15, 16, 17 18]") := by
  decide +kernel

/-- three rows of a matrix -/
theorem print_rows_case : summarized [str "[1,\n 2]", str "[3]", str "[4]"] = .ok (str "[[1,\n  2],\n [3],\n [4]]") := by decide +kernel

theorem print_two_case : linesOf [str "[1\n2\n3\n4\n5\n6]", str "[1\n2\n3\n4\n5\n6]"] = 12 := by decide +kernel

/-- the eighth of thirteen elements has 74 characters -/
def exLong : List (List Nat) := (exNumbers 0 13).set 7 (List.replicate 74 120)

theorem print_long_case : ¬ Tall exLong ∧ 13 ≤ exLong.length ∧ summarized exLong = .ub := by
  refine ⟨fun h => ?_, by decide +kernel, by decide +kernel⟩
  have := (tall_iff _).2 h
  exact absurd this (by decide +kernel)

/-- seven strings of 31 characters and an eighth -/
theorem print_eight_case : summarized (List.replicate 7 (List.replicate 31 120) ++ [str "last"]) =
    .ok (str "[" ++ (List.replicate 6 (List.replicate 31 120 ++ str ",\n ")).flatten ++ List.replicate 31 120 ++ str ",\n ...\n]") := by
  decide +kernel

theorem print_words_case : (∀ t ∈ exNumbers 95 20, Word t ∧ t.length ≤ 30) ∧ (longest (exNumbers 95 20) + 2) * ((exNumbers 95 20).length - 1) < 750 ∧
    (exNumbers 95 20).length % (75 / (longest (exNumbers 95 20) + 2)) ≠ 1 := by
  refine ⟨?_, by decide +kernel, by decide +kernel⟩
  simp only [Word]
  decide +kernel

end Dynd
