import Verif.Model.Json
import Verif.Props.IntProps
import Verif.Props.EscapeProps
/-
C40: `validate_json` accepts exactly the texts of a JSON-like grammar.
-/
namespace Dynd

/-! ### specification: the JSON grammar (RFC 8259), with its lexical conventions as parameters -/

/-- What the grammar leaves to the lexical level: insignificant whitespace, the bytes that may stand for themselves inside a
    string, and whether `\UXXXXXXXX` escapes exist. -/
structure JsonLex where
  space : Nat → Prop
  raw : Nat → Prop
  bigU : Prop

/-- RFC 8259: whitespace is space, tab, line feed, carriage return; control characters must be escaped; only `\uXXXX`.
    (Bytes from 128 on belong to the UTF-8 encoding of characters.) -/
def rfcLex : JsonLex := ⟨fun c => c = 32 ∨ c = 9 ∨ c = 10 ∨ c = 13, fun c => 32 ≤ c ∧ c ≠ 34 ∧ c ≠ 92, False⟩

/-- The conventions of this library: C `isspace` whitespace (also vertical tab and form feed), any byte other than the quote
    and the backslash in strings, and `\UXXXXXXXX`. -/
def dyndLex : JsonLex := ⟨fun c => c = 32 ∨ (9 ≤ c ∧ c ≤ 13), fun c => c ≠ 34 ∧ c ≠ 92, True⟩

/-- hexadecimal digit -/
def IsHex (c : Nat) : Prop := (48 ≤ c ∧ c ≤ 57) ∨ (65 ≤ c ∧ c ≤ 70) ∨ (97 ≤ c ∧ c ≤ 102)

/-- whitespace -/
def JWs (L : JsonLex) (w : List Nat) : Prop := ∀ c ∈ w, L.space c

/-- The characters between the quotes of a string. -/
inductive JsonChars (L : JsonLex) : List Nat → Prop
  | nil : JsonChars L []
  | raw (c : Nat) (r : List Nat) (h : L.raw c) (hr : JsonChars L r) : JsonChars L (c :: r)
  | short (d : Nat) (r : List Nat) (h : d ∈ [34, 92, 47, 98, 102, 110, 114, 116]) (hr : JsonChars L r) :
      JsonChars L (92 :: d :: r)
  | u (x r : List Nat) (hl : x.length = 4) (h : ∀ d ∈ x, IsHex d) (hr : JsonChars L r) : JsonChars L (92 :: 117 :: (x ++ r))
  | U (x r : List Nat) (hb : L.bigU) (hl : x.length = 8) (h : ∀ d ∈ x, IsHex d) (hr : JsonChars L r) :
      JsonChars L (92 :: 85 :: (x ++ r))

/-- `number = [ minus ] int [ frac ] [ exp ]` -/
def JsonNum (s : List Nat) : Prop :=
  ∃ m i f e, s = m ++ i ++ f ++ e ∧ (m = [] ∨ m = [45]) ∧
    (i = [48] ∨ ∃ d ds, i = d :: ds ∧ (49 ≤ d ∧ d ≤ 57) ∧ Digits ds) ∧
    (f = [] ∨ ∃ ds, f = 46 :: ds ∧ ds ≠ [] ∧ Digits ds) ∧
    (e = [] ∨ ∃ c g ds, e = c :: (g ++ ds) ∧ (c = 101 ∨ c = 69) ∧ (g = [] ∨ g = [43] ∨ g = [45]) ∧ ds ≠ [] ∧ Digits ds)

mutual
/-- A JSON value (no whitespace around it). -/
inductive JsonValue (L : JsonLex) : List Nat → Prop
  | tru : JsonValue L [116, 114, 117, 101]
  | fls : JsonValue L [102, 97, 108, 115, 101]
  | null : JsonValue L [110, 117, 108, 108]
  | num (n : List Nat) (h : JsonNum n) : JsonValue L n
  | str (b : List Nat) (h : JsonChars L b) : JsonValue L (34 :: (b ++ [34]))
  | arr0 (w : List Nat) (hw : JWs L w) : JsonValue L (91 :: (w ++ [93]))
  | arr (es : List Nat) (h : JsonElems L es) : JsonValue L (91 :: (es ++ [93]))
  | obj0 (w : List Nat) (hw : JWs L w) : JsonValue L (123 :: (w ++ [125]))
  | obj (ms : List Nat) (h : JsonMembers L ms) : JsonValue L (123 :: (ms ++ [125]))
/-- Values with whitespace around them, separated by commas. -/
inductive JsonElems (L : JsonLex) : List Nat → Prop
  | one (w v w' : List Nat) (hw : JWs L w) (hv : JsonValue L v) (hw' : JWs L w') : JsonElems L (w ++ (v ++ w'))
  | cons (w v w' es : List Nat) (hw : JWs L w) (hv : JsonValue L v) (hw' : JWs L w') (hes : JsonElems L es) :
      JsonElems L (w ++ (v ++ (w' ++ 44 :: es)))
/-- `"key" : value` pairs separated by commas. -/
inductive JsonMembers (L : JsonLex) : List Nat → Prop
  | one (w k w1 w2 v w' : List Nat) (hw : JWs L w) (hk : JsonChars L k) (hw1 : JWs L w1) (hw2 : JWs L w2)
      (hv : JsonValue L v) (hw' : JWs L w') :
      JsonMembers L (w ++ (34 :: (k ++ 34 :: (w1 ++ 58 :: (w2 ++ (v ++ w'))))))
  | cons (w k w1 w2 v w' ms : List Nat) (hw : JWs L w) (hk : JsonChars L k) (hw1 : JWs L w1) (hw2 : JWs L w2)
      (hv : JsonValue L v) (hw' : JWs L w') (hms : JsonMembers L ms) :
      JsonMembers L (w ++ (34 :: (k ++ 34 :: (w1 ++ 58 :: (w2 ++ (v ++ (w' ++ 44 :: ms)))))))
end

/-- A JSON document. -/
def JsonDoc (L : JsonLex) (s : List Nat) : Prop := ∃ w v w', JWs L w ∧ JsonValue L v ∧ JWs L w' ∧ s = w ++ (v ++ w')

/-! ### lexical lemmas -/

private theorem takeWhile_all {p : Nat → Bool} {s : List Nat} {c : Nat} (h : c ∈ s.takeWhile p) : p c = true :=
  List.all_eq_true.1 List.all_takeWhile c h

theorem dspace_iff {c : Nat} : dyndLex.space c ↔ isSpace c = true := by simp [dyndLex, isSpace]

theorem jWs_append {w : List Nat} (hw : JWs dyndLex w) (s : List Nat) : jWs (w ++ s) = jWs s := by
  induction w with
  | nil => rfl
  | cons c w ih =>
    have h1 : isSpace c = true := dspace_iff.1 (hw c (by simp))
    simp only [jWs, List.cons_append, List.dropWhile_cons, h1, if_true]
    exact ih (fun x hx => hw x (by simp [hx]))

theorem jWs_cons {c : Nat} (h : isSpace c = false) (s : List Nat) : jWs (c :: s) = c :: s := by
  simp [jWs, h]

theorem jWs_split (s : List Nat) : ∃ w, JWs dyndLex w ∧ s = w ++ jWs s := by
  refine ⟨s.takeWhile isSpace, fun c hc => dspace_iff.2 (takeWhile_all hc), ?_⟩
  exact (List.takeWhile_append_dropWhile).symm

theorem jWs_nil {w : List Nat} (hw : JWs dyndLex w) : jWs w = [] := by
  have := jWs_append hw []
  rw [List.append_nil] at this
  rw [this]; rfl

theorem jWs_idem (s : List Nat) : jWs (jWs s) = jWs s := by
  obtain ⟨w, hw, h⟩ := jWs_split s
  conv => rhs; rw [h]
  rw [jWs_append hw]

theorem jWs_head {s r : List Nat} {c : Nat} (h : jWs s = c :: r) : isSpace c = false := by
  unfold jWs at h
  have h2 := List.head?_dropWhile_not isSpace s
  rw [h] at h2
  simpa using h2

/-- token found after whitespace -/
theorem jTok_of {w tok rest : List Nat} (hw : JWs dyndLex w) (ht : ∃ c t, tok = c :: t ∧ isSpace c = false) :
    jTok tok (w ++ (tok ++ rest)) = some rest := by
  obtain ⟨c, t, rfl, hc⟩ := ht
  unfold jTok
  rw [jWs_append hw, List.cons_append, jWs_cons hc]
  simp [List.isPrefixOf]

theorem jTok_sound {tok s r : List Nat} (h : jTok tok s = some r) : ∃ w, JWs dyndLex w ∧ s = w ++ (tok ++ r) := by
  unfold jTok at h
  by_cases hp : tok.isPrefixOf (jWs s) = true
  · rw [if_pos hp] at h
    obtain ⟨w, hw, hs⟩ := jWs_split s
    obtain ⟨t, ht⟩ := List.isPrefixOf_iff_prefix.1 hp
    refine ⟨w, hw, ?_⟩
    simp only [Option.some.injEq] at h
    rw [← ht] at h
    simp only [List.drop_left] at h
    rw [hs, ← ht, h]
  · rw [if_neg hp] at h; cases h

theorem jTok1_none {w s : List Nat} {c d : Nat} (hw : JWs dyndLex w) (hc : isSpace c = false) (hne : d ≠ c) :
    jTok [d] (w ++ c :: s) = none := by
  unfold jTok
  rw [jWs_append hw, jWs_cons hc]
  simp [List.isPrefixOf, hne]

theorem jTok1_none_nil {w : List Nat} {d : Nat} (hw : JWs dyndLex w) : jTok [d] w = none := by
  unfold jTok
  rw [jWs_nil hw]
  simp [List.isPrefixOf]

theorem needTok_of {w tok rest : List Nat} (hw : JWs dyndLex w) (ht : ∃ c t, tok = c :: t ∧ isSpace c = false) :
    needTok tok (w ++ (tok ++ rest)) = .ok rest := by
  unfold needTok; rw [jTok_of hw ht]

theorem needTok_sound {tok s r : List Nat} (h : needTok tok s = .ok r) : ∃ w, JWs dyndLex w ∧ s = w ++ (tok ++ r) := by
  unfold needTok at h
  split at h
  · rename_i x hx
    simp only [Res.ok.injEq] at h; subst h
    exact jTok_sound hx
  · cases h

theorem needTok_noub (tok s : List Nat) : needTok tok s ≠ .ub := by
  unfold needTok; split <;> simp

theorem hexVal_isSome {c : Nat} : (hexVal c).isSome = true ↔ IsHex c := by
  unfold hexVal IsHex
  by_cases h1 : 48 ≤ c ∧ c ≤ 57
  · simp [h1]
  · rw [if_neg h1]
    by_cases h2 : 65 ≤ c ∧ c ≤ 70
    · simp [h2]
    · rw [if_neg h2]
      by_cases h3 : 97 ≤ c ∧ c ≤ 102
      · simp [h3]
      · simp [h1, h2, h3]

/-! ### strings -/

private theorem scan_sound (fuel : Nat) (s i r : List Nat) (e : Bool) (h : scanQuoted fuel s = .ok (i, e, r)) :
    s = i ++ 34 :: r ∧ JsonChars dyndLex i ∧ (e = false → 92 ∉ i) := by
  induction fuel generalizing s i r e with
  | zero => cases s <;> simp [scanQuoted] at h
  | succ fuel ih =>
    match s with
    | [] => simp [scanQuoted] at h
    | c :: s =>
      rw [scanQuoted.eq_def] at h
      simp only at h
      by_cases hc : c = 92
      · rw [if_pos hc] at h
        match s with
        | [] => cases h
        | d :: s =>
          simp only at h
          by_cases hd : d = 34 ∨ d = 92 ∨ d = 47 ∨ d = 98 ∨ d = 102 ∨ d = 110 ∨ d = 114 ∨ d = 116
          · rw [if_pos hd, Res.bind_eq_ok] at h
            obtain ⟨⟨i', e', r'⟩, h1, h2⟩ := h
            simp only [Res.pure_eq, Res.ok.injEq, Prod.mk.injEq] at h2
            obtain ⟨rfl, rfl, rfl⟩ := h2
            obtain ⟨rfl, h4, _⟩ := ih _ _ _ _ h1
            subst hc
            exact ⟨by simp, .short d i' (by simpa using hd) h4, by simp⟩
          · rw [if_neg hd] at h
            by_cases hu : d = 117
            · rw [if_pos hu] at h
              by_cases hl : s.length < 4
              · rw [if_pos hl] at h; cases h
              · rw [if_neg hl] at h
                by_cases ha : (s.take 4).all (fun d => (hexVal d).isSome) = true
                · rw [if_pos ha, Res.bind_eq_ok] at h
                  obtain ⟨⟨i', e', r'⟩, h1, h2⟩ := h
                  simp only [Res.pure_eq, Res.ok.injEq, Prod.mk.injEq] at h2
                  obtain ⟨rfl, rfl, rfl⟩ := h2
                  obtain ⟨h3, h4, _⟩ := ih _ _ _ _ h1
                  subst hc hu
                  refine ⟨?_, ?_, by simp⟩
                  · simp only [List.cons_append, List.append_assoc, List.cons.injEq, true_and]
                    rw [← h3, List.take_append_drop]
                  · refine .u (s.take 4) i' (by simp; omega) ?_ h4
                    intro d hd
                    exact hexVal_isSome.1 (List.all_eq_true.1 ha d hd)
                · rw [if_neg ha] at h; cases h
            · rw [if_neg hu] at h
              by_cases hU : d = 85
              · rw [if_pos hU] at h
                by_cases hl : s.length < 8
                · rw [if_pos hl] at h; cases h
                · rw [if_neg hl] at h
                  by_cases ha : (s.take 8).all (fun d => (hexVal d).isSome) = true
                  · rw [if_pos ha, Res.bind_eq_ok] at h
                    obtain ⟨⟨i', e', r'⟩, h1, h2⟩ := h
                    simp only [Res.pure_eq, Res.ok.injEq, Prod.mk.injEq] at h2
                    obtain ⟨rfl, rfl, rfl⟩ := h2
                    obtain ⟨h3, h4, _⟩ := ih _ _ _ _ h1
                    subst hc hU
                    refine ⟨?_, ?_, by simp⟩
                    · simp only [List.cons_append, List.append_assoc, List.cons.injEq, true_and]
                      rw [← h3, List.take_append_drop]
                    · refine .U (s.take 8) i' trivial (by simp; omega) ?_ h4
                      intro d hd
                      exact hexVal_isSome.1 (List.all_eq_true.1 ha d hd)
                  · rw [if_neg ha] at h; cases h
              · rw [if_neg hU] at h; cases h
      · rw [if_neg hc] at h
        by_cases hq : c = 34
        · rw [if_pos hq] at h
          simp only [Res.ok.injEq, Prod.mk.injEq] at h
          obtain ⟨rfl, rfl, rfl⟩ := h
          subst hq
          exact ⟨rfl, .nil, by simp⟩
        · rw [if_neg hq, Res.bind_eq_ok] at h
          obtain ⟨⟨i', e', r'⟩, h1, h2⟩ := h
          simp only [Res.pure_eq, Res.ok.injEq, Prod.mk.injEq] at h2
          obtain ⟨rfl, rfl, rfl⟩ := h2
          obtain ⟨rfl, h4, h5⟩ := ih _ _ _ _ h1
          refine ⟨by simp, .raw c i' ⟨hq, hc⟩ h4, fun he => ?_⟩
          simp only [List.mem_cons, not_or]
          exact ⟨fun h => hc h.symm, h5 he⟩

private theorem scan_noub (fuel : Nat) (s : List Nat) (hf : s.length ≤ fuel) : scanQuoted fuel s ≠ .ub := by
  induction fuel generalizing s with
  | zero => cases s with
    | nil => simp [scanQuoted]
    | cons c s => simp at hf
  | succ fuel ih =>
    have hb : ∀ (s : List Nat) (f : List Nat × Bool × List Nat → List Nat × Bool × List Nat), s.length ≤ fuel →
        (scanQuoted fuel s >>= fun x => pure (f x)) ≠ (.ub : Res (List Nat × Bool × List Nat)) := by
      intro s f hs hh
      have := ih s hs
      cases hx : scanQuoted fuel s with
      | ok x => rw [hx] at hh; simp at hh
      | throw e => rw [hx] at hh; simp at hh
      | ub => exact this hx
    match s with
    | [] => simp [scanQuoted]
    | c :: s =>
      simp only [List.length_cons] at hf
      rw [scanQuoted.eq_def]
      simp only
      by_cases hc : c = 92
      · rw [if_pos hc]
        match s with
        | [] => simp
        | d :: s =>
          simp only [List.length_cons] at hf
          simp only
          by_cases hd : d = 34 ∨ d = 92 ∨ d = 47 ∨ d = 98 ∨ d = 102 ∨ d = 110 ∨ d = 114 ∨ d = 116
          · rw [if_pos hd]; exact hb s (fun x => (c :: d :: x.1, true, x.2.2)) (by omega)
          · rw [if_neg hd]
            by_cases hu : d = 117
            · rw [if_pos hu]
              by_cases hl : s.length < 4
              · rw [if_pos hl]; simp
              · rw [if_neg hl]
                by_cases ha : (s.take 4).all (fun d => (hexVal d).isSome) = true
                · rw [if_pos ha]; exact hb (s.drop 4) (fun x => (c :: d :: s.take 4 ++ x.1, true, x.2.2)) (by simp; omega)
                · rw [if_neg ha]; simp
            · rw [if_neg hu]
              by_cases hU : d = 85
              · rw [if_pos hU]
                by_cases hl : s.length < 8
                · rw [if_pos hl]; simp
                · rw [if_neg hl]
                  by_cases ha : (s.take 8).all (fun d => (hexVal d).isSome) = true
                  · rw [if_pos ha]; exact hb (s.drop 8) (fun x => (c :: d :: s.take 8 ++ x.1, true, x.2.2)) (by simp; omega)
                  · rw [if_neg ha]; simp
              · rw [if_neg hU]; simp
      · rw [if_neg hc]
        by_cases hq : c = 34
        · rw [if_pos hq]; simp
        · rw [if_neg hq]; exact hb s (fun x => (c :: x.1, x.2.1, x.2.2)) (by omega)

private theorem scan_complete {i : List Nat} (h : JsonChars dyndLex i) (r : List Nat) (fuel : Nat) (hf : i.length < fuel) :
    ∃ e, scanQuoted fuel (i ++ 34 :: r) = .ok (i, e, r) ∧ (e = false → 92 ∉ i) := by
  have key : ∃ e, scanQuoted fuel (i ++ 34 :: r) = .ok (i, e, r) := by
    induction h generalizing fuel with
    | nil =>
      obtain ⟨f, rfl⟩ : ∃ f, fuel = f + 1 := ⟨fuel - 1, by simp at hf; omega⟩
      exact ⟨false, by simp [scanQuoted]⟩
    | raw c i h _ ih =>
      simp only [List.length_cons] at hf
      obtain ⟨f, rfl⟩ : ∃ f, fuel = f + 1 := ⟨fuel - 1, by omega⟩
      obtain ⟨e, h1⟩ := ih f (by omega)
      have h2 : c ≠ 34 ∧ c ≠ 92 := h
      exact ⟨e, by simp [scanQuoted, h2.1, h2.2, h1]⟩
    | short d i h _ ih =>
      simp only [List.length_cons] at hf
      obtain ⟨f, rfl⟩ : ∃ f, fuel = f + 1 := ⟨fuel - 1, by omega⟩
      obtain ⟨e, h1⟩ := ih f (by omega)
      have hd : d = 34 ∨ d = 92 ∨ d = 47 ∨ d = 98 ∨ d = 102 ∨ d = 110 ∨ d = 114 ∨ d = 116 := by simpa using h
      refine ⟨true, ?_⟩
      simp only [List.cons_append, scanQuoted, if_true]
      rw [if_pos hd, h1]; rfl
    | u x i hl h _ ih =>
      simp only [List.length_cons, List.length_append] at hf
      obtain ⟨f, rfl⟩ : ∃ f, fuel = f + 1 := ⟨fuel - 1, by omega⟩
      obtain ⟨e, h1⟩ := ih f (by omega)
      refine ⟨true, ?_⟩
      have ha : x.all (fun d => (hexVal d).isSome) = true := List.all_eq_true.2 (fun d hd => hexVal_isSome.2 (h d hd))
      simp only [List.cons_append, List.append_assoc, scanQuoted, if_true]
      rw [if_neg (by omega), if_neg (by simp; omega), ← hl, List.take_left, if_pos ha, List.drop_left, h1]; rfl
    | U x i _ hl h _ ih =>
      simp only [List.length_cons, List.length_append] at hf
      obtain ⟨f, rfl⟩ : ∃ f, fuel = f + 1 := ⟨fuel - 1, by omega⟩
      obtain ⟨e, h1⟩ := ih f (by omega)
      refine ⟨true, ?_⟩
      have ha : x.all (fun d => (hexVal d).isSome) = true := List.all_eq_true.2 (fun d hd => hexVal_isSome.2 (h d hd))
      simp only [List.cons_append, List.append_assoc, scanQuoted, if_true]
      rw [if_neg (by omega), if_neg (by omega), if_neg (by simp; omega), ← hl, List.take_left, if_pos ha, List.drop_left, h1]; rfl
  obtain ⟨e, he⟩ := key
  exact ⟨e, he, (scan_sound _ _ _ _ _ he).2.2⟩

theorem quoted_sound {s i r : List Nat} {e : Bool} (h : parseDoublequote s = .ok (some (i, e, r))) :
    s = 34 :: (i ++ 34 :: r) ∧ JsonChars dyndLex i ∧ (e = false → 92 ∉ i) := by
  match s with
  | [] => simp [parseDoublequote] at h
  | c :: s =>
    by_cases hc : c = 34
    · subst hc
      simp only [parseDoublequote] at h
      rw [Res.bind_eq_ok] at h
      obtain ⟨x, h1, h2⟩ := h
      simp only [Res.pure_eq, Res.ok.injEq, Option.some.injEq] at h2
      subst h2
      obtain ⟨h3, h4⟩ := scan_sound _ _ _ _ _ h1
      exact ⟨by rw [← h3], h4⟩
    · unfold parseDoublequote at h
      split at h
      · rename_i heq; exact absurd (List.cons.inj heq).1 hc
      · cases h

theorem quoted_none {s : List Nat} (h : parseDoublequote s = .ok none) : ∀ r, s ≠ 34 :: r := by
  intro r hr
  subst hr
  simp only [parseDoublequote] at h
  rw [Res.bind_eq_ok] at h
  obtain ⟨x, _, h2⟩ := h
  simp at h2

theorem quoted_noub (s : List Nat) : parseDoublequote s ≠ .ub := by
  unfold parseDoublequote
  split
  · rename_i s
    have := scan_noub s.length s (Nat.le_refl _)
    cases hx : scanQuoted s.length s with
    | ok x => simp
    | throw e => simp
    | ub => exact absurd hx this
  · simp

theorem quoted_complete {i : List Nat} (h : JsonChars dyndLex i) (r : List Nat) :
    ∃ e, parseDoublequote (34 :: (i ++ 34 :: r)) = .ok (some (i, e, r)) ∧ (e = false → 92 ∉ i) := by
  obtain ⟨e, h1, h2⟩ := scan_complete h r (i ++ 34 :: r).length (by simp)
  exact ⟨e, by simp only [parseDoublequote, h1, Res.bind_ok, Res.pure_eq], h2⟩

theorem quoted_other {c : Nat} {r : List Nat} (h : c ≠ 34) : parseDoublequote (c :: r) = .ok none := by
  unfold parseDoublequote
  split
  · rename_i heq; exact absurd (List.cons.inj heq).1 h
  · rfl

/-! ### numbers -/

private theorem takeWhile_dig {ds rest : List Nat} (hd : Digits ds) (hr : ∀ c r, rest = c :: r → isDig c = false) :
    (ds ++ rest).takeWhile isDig = ds ∧ (ds ++ rest).dropWhile isDig = rest := by
  induction ds with
  | nil =>
    cases rest with
    | nil => simp
    | cons c r => simp [hr c r rfl]
  | cons d ds ih =>
    have h1 : isDig d = true := isDig_iff.2 (hd d (by simp))
    have h2 := ih (fun x hx => hd x (by simp [hx]))
    simp [h1, h2]

private theorem dig_split (s : List Nat) : s = s.takeWhile isDig ++ s.dropWhile isDig ∧ Digits (s.takeWhile isDig) :=
  ⟨List.takeWhile_append_dropWhile.symm, fun _ hc => isDig_iff.1 (takeWhile_all hc)⟩

private theorem digits_cons {d : Nat} {ds : List Nat} (h : isDig d = true) (hd : Digits ds) : Digits (d :: ds) := by
  intro c hc
  rcases List.mem_cons.1 hc with rfl | hc
  · exact isDig_iff.1 h
  · exact hd c hc

theorem jNumber_sound {s n r : List Nat} (h : jNumber s = some (n, r)) : s = n ++ r ∧ JsonNum n := by
  unfold jNumber at h
  simp only [Option.bind_eq_bind, Option.bind_eq_some_iff, Option.pure_def, Option.some.injEq, Prod.mk.injEq, Prod.exists] at h
  obtain ⟨i, s2, hi, f, s3, hf, e, s4, he, rfl, rfl⟩ := h
  have hm : s = (jMinus s).1 ++ (jMinus s).2 ∧ ((jMinus s).1 = [] ∨ (jMinus s).1 = [45]) := by
    unfold jMinus
    match s with
    | [] => simp
    | c :: s =>
      by_cases hc : c = 45
      · subst hc; simp
      · simp [hc]
  have hi2 : (jMinus s).2 = i ++ s2 ∧ (i = [48] ∨ ∃ d ds, i = d :: ds ∧ (49 ≤ d ∧ d ≤ 57) ∧ Digits ds) := by
    revert hi
    cases (jMinus s).2 with
    | nil => simp [jInt]
    | cons c t =>
      intro hi
      unfold jInt at hi
      simp only at hi
      split_ifs at hi with h1 h2
      · simp only [Option.some.injEq, Prod.mk.injEq] at hi
        obtain ⟨rfl, rfl⟩ := hi
        subst h1; simp
      · simp only [Option.some.injEq, Prod.mk.injEq] at hi
        obtain ⟨rfl, rfl⟩ := hi
        refine ⟨by simp, Or.inr ⟨c, _, rfl, h2, (dig_split t).2⟩⟩
  have hf2 : s2 = f ++ s3 ∧ (f = [] ∨ ∃ ds, f = 46 :: ds ∧ ds ≠ [] ∧ Digits ds) := by
    revert hf
    cases s2 with
    | nil => simp +contextual [jFrac]
    | cons c t =>
      intro hf
      unfold jFrac at hf
      simp only at hf
      by_cases hc : c = 46
      · rw [if_pos hc] at hf
        cases t with
        | nil => cases hf
        | cons d t =>
          simp only at hf
          by_cases hd : isDig d = true
          · rw [if_pos hd] at hf
            simp only [Option.some.injEq, Prod.mk.injEq] at hf
            obtain ⟨rfl, rfl⟩ := hf
            subst hc
            exact ⟨by simp, Or.inr ⟨_, rfl, by simp, digits_cons hd (dig_split t).2⟩⟩
          · rw [if_neg hd] at hf; cases hf
      · rw [if_neg hc] at hf
        simp only [Option.some.injEq, Prod.mk.injEq] at hf
        obtain ⟨rfl, rfl⟩ := hf
        simp
  have he2 : s3 = e ++ s4 ∧ (e = [] ∨ ∃ c g ds, e = c :: (g ++ ds) ∧ (c = 101 ∨ c = 69) ∧
      (g = [] ∨ g = [43] ∨ g = [45]) ∧ ds ≠ [] ∧ Digits ds) := by
    revert he
    cases s3 with
    | nil => simp +contextual [jExp]
    | cons c t =>
      intro he
      unfold jExp at he
      simp only at he
      by_cases hc : c = 101 ∨ c = 69
      · rw [if_pos hc] at he
        have hg : ∀ g t', jExpSign t = some (g, t') → t = g ++ t' ∧ (g = [] ∨ g = [43] ∨ g = [45]) := by
          intro g t' hg
          cases t with
          | nil => simp [jExpSign] at hg
          | cons x t =>
            unfold jExpSign at hg
            simp only at hg
            by_cases hx : x = 43 ∨ x = 45
            · rw [if_pos hx] at hg
              by_cases ht : t = []
              · rw [if_pos ht] at hg; cases hg
              · rw [if_neg ht] at hg
                simp only [Option.some.injEq, Prod.mk.injEq] at hg
                obtain ⟨rfl, rfl⟩ := hg
                rcases hx with rfl | rfl <;> simp
            · rw [if_neg hx] at hg
              simp only [Option.some.injEq, Prod.mk.injEq] at hg
              obtain ⟨rfl, rfl⟩ := hg
              simp
        cases hs : jExpSign t with
        | none => rw [hs] at he; cases he
        | some p =>
          obtain ⟨g, t'⟩ := p
          rw [hs] at he
          cases t' with
          | nil => cases he
          | cons d t' =>
            simp only at he
            by_cases hd : isDig d = true
            · rw [if_pos hd] at he
              simp only [Option.some.injEq, Prod.mk.injEq] at he
              obtain ⟨rfl, rfl⟩ := he
              obtain ⟨h1, h2⟩ := hg g _ hs
              refine ⟨by rw [h1]; simp, Or.inr ⟨c, g, d :: t'.takeWhile isDig, by simp, hc, h2, by simp, digits_cons hd (dig_split t').2⟩⟩
            · rw [if_neg hd] at he; cases he
      · rw [if_neg hc] at he
        simp only [Option.some.injEq, Prod.mk.injEq] at he
        obtain ⟨rfl, rfl⟩ := he
        simp
  refine ⟨?_, ⟨_, i, f, e, rfl, hm.2, hi2.2, hf2.2, he2.2⟩⟩
  conv => lhs; rw [hm.1, hi2.1, hf2.1, he2.1]
  simp

/-- What may follow a number: the end, or a byte that cannot continue it. -/
def NumEnd (r : List Nat) : Prop := ∀ c t, r = c :: t → isDig c = false ∧ c ≠ 46 ∧ c ≠ 101 ∧ c ≠ 69

theorem jNumber_complete {n r : List Nat} (hn : JsonNum n) (hr : NumEnd r) : jNumber (n ++ r) = some (n, r) := by
  obtain ⟨m, i, f, e, rfl, hm, hi, hf, he⟩ := hn
  have hexp : jExp (e ++ r) = some (e, r) := by
    rcases he with rfl | ⟨c, g, ds, rfl, hc, hg, hne, hd⟩
    · cases r with
      | nil => rfl
      | cons c t =>
        have := hr c t rfl
        simp [jExp, this]
    · cases ds with
      | nil => exact absurd rfl hne
      | cons d ds =>
        have hd1 : isDig d = true := isDig_iff.2 (hd d (by simp))
        have hd2 : Digits ds := fun x hx => hd x (by simp [hx])
        obtain ⟨t1, t2⟩ := takeWhile_dig hd2 (fun c r' h => (hr c r' h).1)
        have hs : jExpSign (g ++ (d :: ds) ++ r) = some (g, d :: ds ++ r) := by
          have h43 : d ≠ 43 ∧ d ≠ 45 := by
            have := isDig_iff.1 hd1; omega
          rcases hg with rfl | rfl | rfl <;> simp [jExpSign, h43]
        unfold jExp
        simp only [List.cons_append]
        rw [if_pos hc, hs]
        simp only [List.cons_append]
        rw [if_pos hd1, t1, t2]
  have her : ∀ c t, e ++ r = c :: t → isDig c = false ∧ c ≠ 46 := by
    intro c t h
    rcases he with rfl | ⟨c', g, ds, rfl, hc, hg, hne, hd⟩
    · have := hr c t h; exact ⟨this.1, this.2.1⟩
    · simp only [List.cons_append, List.cons.injEq] at h
      obtain ⟨rfl, _⟩ := h
      rcases hc with rfl | rfl <;> decide
  have hfr : jFrac (f ++ (e ++ r)) = some (f, e ++ r) := by
    rcases hf with rfl | ⟨ds, rfl, hne, hd⟩
    · cases hh : e ++ r with
      | nil => simp [jFrac]
      | cons c t => have := her c t hh; simp [jFrac, this]
    · cases ds with
      | nil => exact absurd rfl hne
      | cons d ds =>
        have hd1 : isDig d = true := isDig_iff.2 (hd d (by simp))
        have hd2 : Digits ds := fun x hx => hd x (by simp [hx])
        obtain ⟨t1, t2⟩ := takeWhile_dig (rest := e ++ r) hd2 (fun c r' h => (her c r' h).1)
        unfold jFrac
        simp only [List.cons_append, if_true]
        rw [if_pos hd1, t1, t2]
  have hfer : ∀ c t, f ++ (e ++ r) = c :: t → isDig c = false := by
    intro c t h
    rcases hf with rfl | ⟨ds, rfl, hne, hd⟩
    · exact (her c t h).1
    · simp only [List.cons_append, List.cons.injEq] at h
      obtain ⟨rfl, _⟩ := h
      decide
  have hir : jInt (i ++ (f ++ (e ++ r))) = some (i, f ++ (e ++ r)) := by
    rcases hi with rfl | ⟨d, ds, rfl, hd, hds⟩
    · simp [jInt]
    · obtain ⟨t1, t2⟩ := takeWhile_dig (rest := f ++ (e ++ r)) hds hfer
      unfold jInt
      simp only [List.cons_append]
      rw [if_neg (by omega), if_pos hd, t1, t2]
  have hmr : jMinus (m ++ (i ++ (f ++ (e ++ r)))) = (m, i ++ (f ++ (e ++ r))) := by
    rcases hm with rfl | rfl
    · rcases hi with rfl | ⟨d, ds, rfl, hd, hds⟩
      · simp [jMinus]
      · have : d ≠ 45 := by omega
        simp [jMinus, this]
    · simp [jMinus]
  unfold jNumber
  simp only [List.append_assoc]
  rw [hmr]
  simp only [hir, hfr, hexp, Option.bind_eq_bind, Option.bind_some, Option.pure_def]

/-! ### values -/

/-- The first byte of a value. -/
theorem jsonValue_head {v : List Nat} (h : JsonValue dyndLex v) :
    ∃ c r, v = c :: r ∧ isSpace c = false ∧ c ≠ 44 ∧ c ≠ 93 ∧ c ≠ 125 ∧ c ≠ 58 := by
  cases h with
  | tru => exact ⟨_, _, rfl, by decide⟩
  | fls => exact ⟨_, _, rfl, by decide⟩
  | null => exact ⟨_, _, rfl, by decide⟩
  | str b h => exact ⟨_, _, rfl, by decide⟩
  | arr0 w hw => exact ⟨_, _, rfl, by decide⟩
  | arr es h => exact ⟨_, _, rfl, by decide⟩
  | obj0 w hw => exact ⟨_, _, rfl, by decide⟩
  | obj ms h => exact ⟨_, _, rfl, by decide⟩
  | num n h =>
    obtain ⟨m, i, f, e, rfl, hm, hi, hf, he⟩ := h
    rcases hm with rfl | rfl
    · rcases hi with rfl | ⟨d, ds, rfl, hd, hds⟩
      · exact ⟨_, _, rfl, by decide⟩
      · refine ⟨d, _, rfl, ?_, by omega⟩
        simp [isSpace]; omega
    · exact ⟨_, _, rfl, by decide⟩

theorem jsonNum_head {n : List Nat} (h : JsonNum n) : ∃ c r, n = c :: r ∧ (c = 45 ∨ isDig c = true) := by
  obtain ⟨m, i, f, e, rfl, hm, hi, hf, he⟩ := h
  rcases hm with rfl | rfl
  · rcases hi with rfl | ⟨d, ds, rfl, hd, hds⟩
    · exact ⟨_, _, rfl, by decide⟩
    · exact ⟨d, _, rfl, Or.inr (isDig_iff.2 (by omega))⟩
  · exact ⟨_, _, rfl, by decide⟩

/-- What may follow a value: the end, whitespace, a comma or a closing bracket. -/
def ValEnd (r : List Nat) : Prop := ∀ c t, r = c :: t → isSpace c = true ∨ c = 44 ∨ c = 93 ∨ c = 125

theorem ValEnd.num {r : List Nat} (h : ValEnd r) : NumEnd r := by
  intro c t hc
  rcases h c t hc with h | rfl | rfl | rfl
  · have h2 : c = 32 ∨ (9 ≤ c ∧ c ≤ 13) := dspace_iff.2 h
    refine ⟨?_, by omega, by omega, by omega⟩
    simp [isDig]; omega
  · decide
  · decide
  · decide

theorem valEnd_nil : ValEnd [] := fun c t h => by cases h

theorem valEnd_ws {w r : List Nat} (hw : JWs dyndLex w) (hr : ValEnd r) : ValEnd (w ++ r) := by
  intro c t h
  cases w with
  | nil => exact hr c t h
  | cons x w =>
    simp only [List.cons_append, List.cons.injEq] at h
    obtain ⟨rfl, _⟩ := h
    exact Or.inl (dspace_iff.1 (hw x (by simp)))

theorem valEnd_cons {c : Nat} (r : List Nat) (h : c = 44 ∨ c = 93 ∨ c = 125) : ValEnd (c :: r) := by
  intro x t hx
  simp only [List.cons.injEq] at hx
  obtain ⟨rfl, _⟩ := hx
  exact Or.inr h

private theorem spc {c : Nat} (h : isSpace c = false) {t : List Nat} : ∃ c' t', (c :: t) = c' :: t' ∧ isSpace c' = false :=
  ⟨c, t, rfl, h⟩

mutual
theorem skip_value_complete : {v : List Nat} → JsonValue dyndLex v → ∀ (w r : List Nat) (fuel : Nat), JWs dyndLex w →
    ValEnd r → 2 * v.length ≤ fuel → skipVal fuel (w ++ (v ++ r)) = .ok r
  | _, .tru, w, r, fuel, hw, hr, hf => by
    obtain ⟨f, rfl⟩ : ∃ f, fuel = f + 1 := ⟨fuel - 1, by simp at hf; omega⟩
    rw [skipVal, jWs_append hw]
    exact needTok_of (w := []) (tok := litTrue) (by simp [JWs]) (spc (by decide))
  | _, .fls, w, r, fuel, hw, hr, hf => by
    obtain ⟨f, rfl⟩ : ∃ f, fuel = f + 1 := ⟨fuel - 1, by simp at hf; omega⟩
    rw [skipVal, jWs_append hw]
    exact needTok_of (w := []) (tok := litFalse) (by simp [JWs]) (spc (by decide))
  | _, .null, w, r, fuel, hw, hr, hf => by
    obtain ⟨f, rfl⟩ : ∃ f, fuel = f + 1 := ⟨fuel - 1, by simp at hf; omega⟩
    rw [skipVal, jWs_append hw]
    exact needTok_of (w := []) (tok := litNull) (by simp [JWs]) (spc (by decide))
  | _, .num n h, w, r, fuel, hw, hr, hf => by
    obtain ⟨c, t, rfl, hc⟩ := jsonNum_head h
    obtain ⟨f, rfl⟩ : ∃ f, fuel = f + 1 := ⟨fuel - 1, by simp at hf; omega⟩
    have h1 := jNumber_complete h hr.num
    have hsp : isSpace c = false := by
      rcases hc with rfl | hc
      · decide
      · have := isDig_iff.1 hc; simp [isSpace]; omega
    have hne : c ≠ 123 ∧ c ≠ 91 ∧ c ≠ 34 ∧ c ≠ 116 ∧ c ≠ 102 ∧ c ≠ 110 := by
      rcases hc with rfl | hc
      · decide
      · have := isDig_iff.1 hc; omega
    obtain ⟨n1, n2, n3, n4, n5, n6⟩ := hne
    rw [skipVal, jWs_append hw, List.cons_append, jWs_cons hsp]
    simp only
    rw [if_neg n1, if_neg n2, if_neg n3, if_neg n4, if_neg n5, if_neg n6, if_pos hc]
    rw [List.cons_append] at h1
    rw [h1]
  | _, .str b h, w, r, fuel, hw, hr, hf => by
    obtain ⟨f, rfl⟩ : ∃ f, fuel = f + 1 := ⟨fuel - 1, by simp at hf; omega⟩
    obtain ⟨e, h1, _⟩ := quoted_complete h r
    rw [skipVal, jWs_append hw, List.cons_append, jWs_cons (by decide)]
    simp only [List.append_assoc, List.cons_append, List.nil_append]
    rw [if_neg (by decide), if_neg (by decide), if_pos trivial, h1]
    rfl
  | _, .arr0 w2 h, w, r, fuel, hw, hr, hf => by
    obtain ⟨f, rfl⟩ : ∃ f, fuel = f + 1 := ⟨fuel - 1, by simp at hf; omega⟩
    rw [skipVal, jWs_append hw, List.cons_append, jWs_cons (by decide)]
    simp only [List.append_assoc]
    rw [if_neg (by decide), if_pos trivial, jTok_of h (spc (by decide))]
  | _, .obj0 w2 h, w, r, fuel, hw, hr, hf => by
    obtain ⟨f, rfl⟩ : ∃ f, fuel = f + 1 := ⟨fuel - 1, by simp at hf; omega⟩
    rw [skipVal, jWs_append hw, List.cons_append, jWs_cons (by decide)]
    simp only [List.append_assoc]
    rw [if_pos trivial, jTok_of h (spc (by decide))]
  | _, .arr es h, w, r, fuel, hw, hr, hf => by
    simp only [List.length_cons, List.length_append] at hf
    obtain ⟨f, rfl⟩ : ∃ f, fuel = f + 1 := ⟨fuel - 1, by omega⟩
    have h1 := skip_elems_complete h r f (by simp at hf; omega)
    have h2 : jTok [93] (es ++ 93 :: r) = none := by
      cases h with
      | one w1 v w2 hw1 hv hw2 =>
        obtain ⟨c, t, rfl, hc, _, hn, _⟩ := jsonValue_head hv
        simp only [List.append_assoc, List.cons_append]
        exact jTok1_none hw1 hc (Ne.symm hn)
      | cons w1 v w2 es hw1 hv hw2 _ =>
        obtain ⟨c, t, rfl, hc, _, hn, _⟩ := jsonValue_head hv
        simp only [List.append_assoc, List.cons_append]
        exact jTok1_none hw1 hc (Ne.symm hn)
    rw [skipVal, jWs_append hw, List.cons_append, jWs_cons (by decide)]
    simp only [List.append_assoc, List.cons_append, List.nil_append]
    rw [if_neg (by decide), if_pos trivial, h2]
    exact h1
  | _, .obj ms h, w, r, fuel, hw, hr, hf => by
    simp only [List.length_cons, List.length_append] at hf
    obtain ⟨f, rfl⟩ : ∃ f, fuel = f + 1 := ⟨fuel - 1, by omega⟩
    have h1 := skip_members_complete h r f (by simp at hf; omega)
    have h2 : jTok [125] (ms ++ 125 :: r) = none := by
      cases h with
      | one w1 _ _ _ _ _ hw1 =>
        simp only [List.append_assoc, List.cons_append]
        exact jTok1_none hw1 (by decide) (by decide)
      | cons w1 _ _ _ _ _ _ hw1 =>
        simp only [List.append_assoc, List.cons_append]
        exact jTok1_none hw1 (by decide) (by decide)
    rw [skipVal, jWs_append hw, List.cons_append, jWs_cons (by decide)]
    simp only [List.append_assoc, List.cons_append, List.nil_append]
    rw [if_pos trivial, h2]
    exact h1
theorem skip_elems_complete : {es : List Nat} → JsonElems dyndLex es → ∀ (r : List Nat) (fuel : Nat),
    2 * es.length < fuel → skipElems fuel (es ++ 93 :: r) = .ok r
  | _, .one w v w' hw hv hw', r, fuel, hf => by
    simp only [List.length_append] at hf
    obtain ⟨f, rfl⟩ : ∃ f, fuel = f + 1 := ⟨fuel - 1, by omega⟩
    have h1 := skip_value_complete hv w (w' ++ 93 :: r) f hw (valEnd_ws hw' (valEnd_cons r (by simp))) (by omega)
    rw [skipElems]
    simp only [List.append_assoc]
    rw [h1, Res.bind_ok, jTok1_none hw' (by decide) (by decide)]
    exact needTok_of hw' (spc (by decide))
  | _, .cons w v w' es hw hv hw' hes, r, fuel, hf => by
    simp only [List.length_append, List.length_cons] at hf
    obtain ⟨f, rfl⟩ : ∃ f, fuel = f + 1 := ⟨fuel - 1, by omega⟩
    have h1 := skip_value_complete hv w (w' ++ 44 :: (es ++ 93 :: r)) f hw (valEnd_ws hw' (valEnd_cons _ (by simp))) (by omega)
    have h3 : jTok [44] (w' ++ 44 :: (es ++ 93 :: r)) = some (es ++ 93 :: r) :=
      jTok_of (tok := [44]) hw' (spc (by decide))
    rw [skipElems]
    simp only [List.append_assoc, List.cons_append]
    rw [h1, Res.bind_ok, h3]
    exact skip_elems_complete hes r f (by omega)
theorem skip_members_complete : {ms : List Nat} → JsonMembers dyndLex ms → ∀ (r : List Nat) (fuel : Nat),
    2 * ms.length < fuel → skipMembers fuel (ms ++ 125 :: r) = .ok r
  | _, .one w k w1 w2 v w' hw hk hw1 hw2 hv hw', r, fuel, hf => by
    simp only [List.length_append, List.length_cons] at hf
    obtain ⟨f, rfl⟩ : ∃ f, fuel = f + 1 := ⟨fuel - 1, by omega⟩
    have h1 := skip_value_complete hv w2 (w' ++ 125 :: r) f hw2 (valEnd_ws hw' (valEnd_cons r (by simp))) (by omega)
    rw [skipMembers]
    simp only [List.append_assoc, List.cons_append]
    rw [jWs_append hw, jWs_cons (by decide)]
    obtain ⟨e, h2, _⟩ := quoted_complete hk (w1 ++ 58 :: (w2 ++ (v ++ (w' ++ 125 :: r))))
    have h3 : needTok [58] (w1 ++ 58 :: (w2 ++ (v ++ (w' ++ 125 :: r)))) = .ok (w2 ++ (v ++ (w' ++ 125 :: r))) := needTok_of (tok := [58]) hw1 (spc (by decide))
    simp only [h2, Res.bind_ok, h3, h1, jTok1_none (d := 44) hw' (by decide : isSpace 125 = false) (by decide)]
    exact needTok_of hw' (spc (by decide))
  | _, .cons w k w1 w2 v w' ms hw hk hw1 hw2 hv hw' hms, r, fuel, hf => by
    simp only [List.length_append, List.length_cons] at hf
    obtain ⟨f, rfl⟩ : ∃ f, fuel = f + 1 := ⟨fuel - 1, by omega⟩
    have h1 := skip_value_complete hv w2 (w' ++ 44 :: (ms ++ 125 :: r)) f hw2 (valEnd_ws hw' (valEnd_cons _ (by simp))) (by omega)
    rw [skipMembers]
    simp only [List.append_assoc, List.cons_append]
    rw [jWs_append hw, jWs_cons (by decide)]
    obtain ⟨e, h2, _⟩ := quoted_complete hk (w1 ++ 58 :: (w2 ++ (v ++ (w' ++ 44 :: (ms ++ 125 :: r)))))
    have h3 : needTok [58] (w1 ++ 58 :: (w2 ++ (v ++ (w' ++ 44 :: (ms ++ 125 :: r))))) = .ok (w2 ++ (v ++ (w' ++ 44 :: (ms ++ 125 :: r)))) := needTok_of (tok := [58]) hw1 (spc (by decide))
    have h4 : jTok [44] (w' ++ 44 :: (ms ++ 125 :: r)) = some (ms ++ 125 :: r) :=
      jTok_of (tok := [44]) hw' (spc (by decide))
    simp only [h2, Res.bind_ok, h3, h1, h4]
    exact skip_members_complete hms r f (by omega)
end

/-- everything the skipper accepts is a value -/
private theorem skip_sound (fuel : Nat) :
    (∀ s r, skipVal fuel s = .ok r → ∃ w v, JWs dyndLex w ∧ JsonValue dyndLex v ∧ s = w ++ (v ++ r)) ∧
    (∀ s r, skipElems fuel s = .ok r → ∃ es, JsonElems dyndLex es ∧ s = es ++ 93 :: r) ∧
    (∀ s r, skipMembers fuel s = .ok r → ∃ ms, JsonMembers dyndLex ms ∧ s = ms ++ 125 :: r) := by
  induction fuel with
  | zero =>
    refine ⟨fun s r h => ?_, fun s r h => ?_, fun s r h => ?_⟩
    · simp [skipVal] at h
    · simp [skipElems] at h
    · simp [skipMembers] at h
  | succ fuel ih =>
    obtain ⟨ih1, ih2, ih3⟩ := ih
    refine ⟨fun s r h => ?_, fun s r h => ?_, fun s r h => ?_⟩
    · rw [skipVal] at h
      obtain ⟨w, hw, hs⟩ := jWs_split s
      cases hj : jWs s with
      | nil => rw [hj] at h; cases h
      | cons c t =>
        rw [hj] at h hs
        simp only at h
        have hsp := jWs_head hj
        have hlit : ∀ lit, JsonValue dyndLex lit → (∃ c t, lit = c :: t ∧ isSpace c = false) → needTok lit (c :: t) = .ok r →
            ∃ w v, JWs dyndLex w ∧ JsonValue dyndLex v ∧ s = w ++ (v ++ r) := by
          intro lit hl _ hn
          obtain ⟨w2, hw2, h2⟩ := needTok_sound hn
          have : w2 = [] := by
            cases w2 with
            | nil => rfl
            | cons x w2 =>
              simp only [List.cons_append, List.cons.injEq] at h2
              have := dspace_iff.1 (hw2 x (by simp))
              rw [← h2.1, hsp] at this
              cases this
          subst this
          exact ⟨w, lit, hw, hl, by rw [hs, h2]; rfl⟩
        by_cases h1 : c = 123
        · rw [if_pos h1] at h
          subst h1
          cases ht : jTok [125] t with
          | some r2 =>
            rw [ht] at h
            simp only [Res.ok.injEq] at h
            subst h
            obtain ⟨w2, hw2, h2⟩ := jTok_sound ht
            exact ⟨w, _, hw, .obj0 w2 hw2, by rw [hs, h2]; simp⟩
          | none =>
            rw [ht] at h
            obtain ⟨ms, h2, h3⟩ := ih3 t r h
            exact ⟨w, _, hw, .obj ms h2, by rw [hs, h3]; simp⟩
        · rw [if_neg h1] at h
          by_cases h1 : c = 91
          · rw [if_pos h1] at h
            subst h1
            cases ht : jTok [93] t with
            | some r2 =>
              rw [ht] at h
              simp only [Res.ok.injEq] at h
              subst h
              obtain ⟨w2, hw2, h2⟩ := jTok_sound ht
              exact ⟨w, _, hw, .arr0 w2 hw2, by rw [hs, h2]; simp⟩
            | none =>
              rw [ht] at h
              obtain ⟨ms, h2, h3⟩ := ih2 t r h
              exact ⟨w, _, hw, .arr ms h2, by rw [hs, h3]; simp⟩
          · rw [if_neg h1] at h
            by_cases h1 : c = 34
            · rw [if_pos h1, Res.bind_eq_ok] at h
              obtain ⟨q, hq, h⟩ := h
              cases q with
              | none => cases h
              | some q =>
                obtain ⟨i, e, r2⟩ := q
                simp only [Res.pure_eq, Res.ok.injEq] at h
                subst h
                obtain ⟨h2, h3, _⟩ := quoted_sound hq
                exact ⟨w, _, hw, .str i h3, by rw [hs, h2]; simp⟩
            · rw [if_neg h1] at h
              by_cases h1 : c = 116
              · rw [if_pos h1] at h
                exact hlit _ .tru (spc (by decide)) h
              · rw [if_neg h1] at h
                by_cases h1 : c = 102
                · rw [if_pos h1] at h
                  exact hlit _ .fls (spc (by decide)) h
                · rw [if_neg h1] at h
                  by_cases h1 : c = 110
                  · rw [if_pos h1] at h
                    exact hlit _ .null (spc (by decide)) h
                  · rw [if_neg h1] at h
                    by_cases h1 : c = 45 ∨ isDig c = true
                    · rw [if_pos h1] at h
                      cases hn : jNumber (c :: t) with
                      | none => rw [hn] at h; cases h
                      | some q =>
                        obtain ⟨n, r2⟩ := q
                        rw [hn] at h
                        simp only [Res.ok.injEq] at h
                        subst h
                        obtain ⟨h2, h3⟩ := jNumber_sound hn
                        exact ⟨w, n, hw, .num n h3, by rw [hs, h2]⟩
                    · rw [if_neg h1] at h; cases h
    · rw [skipElems, Res.bind_eq_ok] at h
      obtain ⟨s2, h1, h⟩ := h
      obtain ⟨w, v, hw, hv, rfl⟩ := ih1 s s2 h1
      cases ht : jTok [44] s2 with
      | some s3 =>
        rw [ht] at h
        obtain ⟨w2, hw2, rfl⟩ := jTok_sound ht
        obtain ⟨es, h2, rfl⟩ := ih2 s3 r h
        exact ⟨_, .cons w v w2 es hw hv hw2 h2, by simp⟩
      | none =>
        rw [ht] at h
        obtain ⟨w2, hw2, rfl⟩ := needTok_sound h
        exact ⟨_, .one w v w2 hw hv hw2, by simp⟩
    · rw [skipMembers, Res.bind_eq_ok] at h
      obtain ⟨q, hq, h⟩ := h
      cases q with
      | none => cases h
      | some q =>
        obtain ⟨k, e, s1⟩ := q
        simp only at h
        rw [Res.bind_eq_ok] at h
        obtain ⟨s2, hc, h⟩ := h
        rw [Res.bind_eq_ok] at h
        obtain ⟨s3, h1, h⟩ := h
        obtain ⟨w0, hw0, hs0⟩ := jWs_split s
        obtain ⟨hq1, hk, _⟩ := quoted_sound hq
        obtain ⟨w1, hw1, rfl⟩ := needTok_sound hc
        obtain ⟨w2, v, hw2, hv, rfl⟩ := ih1 s2 s3 h1
        cases ht : jTok [44] s3 with
        | some s4 =>
          rw [ht] at h
          obtain ⟨w', hw', rfl⟩ := jTok_sound ht
          obtain ⟨ms, h2, rfl⟩ := ih3 s4 r h
          exact ⟨_, .cons w0 k w1 w2 v w' ms hw0 hk hw1 hw2 hv hw' h2, by rw [hs0, hq1]; simp⟩
        | none =>
          rw [ht] at h
          obtain ⟨w', hw', rfl⟩ := needTok_sound h
          exact ⟨_, .one w0 k w1 w2 v w' hw0 hk hw1 hw2 hv hw', by rw [hs0, hq1]; simp⟩

private theorem needTok_throws {tok s : List Nat} : (∃ r, needTok tok s = .ok r) ∨ needTok tok s = .throw .parse := by
  unfold needTok
  split
  · exact Or.inl ⟨_, rfl⟩
  · exact Or.inr rfl

theorem scan_exc (fuel : Nat) (s : List Nat) (e : Exc) (h : scanQuoted fuel s = .throw e) : e = .parse := by
  induction fuel generalizing s with
  | zero => cases s <;> simp [scanQuoted] at h; exact h.symm
  | succ fuel ih =>
    have hb : ∀ (s : List Nat) (f : List Nat × Bool × List Nat → List Nat × Bool × List Nat),
        (scanQuoted fuel s >>= fun x => pure (f x)) = (.throw e : Res (List Nat × Bool × List Nat)) → e = .parse := by
      intro s f hh
      cases hx : scanQuoted fuel s with
      | ok x => rw [hx] at hh; simp at hh
      | throw e' =>
        rw [hx] at hh
        simp only [Res.bind_throw, Res.throw.injEq] at hh
        subst hh
        exact ih s hx
      | ub => rw [hx] at hh; simp at hh
    match s with
    | [] => simp [scanQuoted] at h; exact h.symm
    | c :: s =>
      rw [scanQuoted.eq_def] at h
      simp only at h
      by_cases hc : c = 92
      · rw [if_pos hc] at h
        match s with
        | [] => simp at h; exact h.symm
        | d :: s =>
          simp only at h
          split_ifs at h
          · exact hb s (fun x => (c :: d :: x.1, true, x.2.2)) h
          · simp at h; exact h.symm
          · exact hb (s.drop 4) (fun x => (c :: d :: s.take 4 ++ x.1, true, x.2.2)) h
          · simp at h; exact h.symm
          · simp at h; exact h.symm
          · exact hb (s.drop 8) (fun x => (c :: d :: s.take 8 ++ x.1, true, x.2.2)) h
          · simp at h; exact h.symm
          · simp at h; exact h.symm
      · rw [if_neg hc] at h
        by_cases hq : c = 34
        · rw [if_pos hq] at h; cases h
        · rw [if_neg hq] at h
          exact hb s (fun x => (c :: x.1, x.2.1, x.2.2)) h

theorem quoted_exc {s : List Nat} {e : Exc} (h : parseDoublequote s = .throw e) : e = .parse := by
  unfold parseDoublequote at h
  split at h
  · rename_i s
    cases hx : scanQuoted s.length s with
    | ok x => rw [hx] at h; simp at h
    | throw e' =>
      rw [hx] at h
      simp only [Res.bind_throw, Res.throw.injEq] at h
      subst h
      exact scan_exc _ _ _ hx
    | ub => rw [hx] at h; simp at h
  · cases h

theorem skip_shrinks {fuel : Nat} {s r : List Nat} (h : skipVal fuel s = .ok r) : r.length < s.length := by
  obtain ⟨w, v, _, hv, rfl⟩ := (skip_sound fuel).1 s r h
  obtain ⟨c, t, rfl, _⟩ := jsonValue_head hv
  simp; omega

theorem jWs_length (s : List Nat) : (jWs s).length ≤ s.length := by
  obtain ⟨w, _, h⟩ := jWs_split s
  conv => rhs; rw [h]
  simp

theorem jTok_length {tok s r : List Nat} (h : jTok tok s = some r) : r.length + tok.length ≤ s.length := by
  obtain ⟨w, _, rfl⟩ := jTok_sound h
  simp; omega

/-- With enough fuel the skipper returns or raises a parse error. -/
private theorem skip_total (fuel : Nat) :
    (∀ s, 2 * s.length + 2 ≤ fuel → (∃ r, skipVal fuel s = .ok r) ∨ skipVal fuel s = .throw .parse) ∧
    (∀ s, 2 * s.length + 3 ≤ fuel → (∃ r, skipElems fuel s = .ok r) ∨ skipElems fuel s = .throw .parse) ∧
    (∀ s, 2 * s.length + 2 ≤ fuel → (∃ r, skipMembers fuel s = .ok r) ∨ skipMembers fuel s = .throw .parse) := by
  induction fuel with
  | zero => exact ⟨fun s h => by omega, fun s h => by omega, fun s h => by omega⟩
  | succ fuel ih =>
    obtain ⟨ih1, ih2, ih3⟩ := ih
    refine ⟨fun s hf => ?_, fun s hf => ?_, fun s hf => ?_⟩
    · rw [skipVal]
      have hl := jWs_length s
      cases hj : jWs s with
      | nil => exact Or.inr rfl
      | cons c t =>
        rw [hj] at hl
        simp only [List.length_cons] at hl
        simp only
        split_ifs
        · cases ht : jTok [125] t with
          | some r2 => exact Or.inl ⟨_, rfl⟩
          | none => exact ih3 t (by omega)
        · cases ht : jTok [93] t with
          | some r2 => exact Or.inl ⟨_, rfl⟩
          | none => exact ih2 t (by omega)
        · cases hq : parseDoublequote (c :: t) with
          | ok q =>
            cases q with
            | none => exact Or.inr rfl
            | some q => exact Or.inl ⟨_, rfl⟩
          | throw e => rw [quoted_exc hq]; exact Or.inr rfl
          | ub => exact absurd hq (quoted_noub _)
        · exact needTok_throws
        · exact needTok_throws
        · exact needTok_throws
        · cases hn : jNumber (c :: t) with
          | none => exact Or.inr rfl
          | some q => exact Or.inl ⟨_, rfl⟩
        · exact Or.inr rfl
    · rw [skipElems]
      rcases ih1 s (by omega) with ⟨s2, h⟩ | h
      · rw [h, Res.bind_ok]
        have := skip_shrinks h
        cases ht : jTok [44] s2 with
        | some s3 => exact ih2 s3 (by have := jTok_length ht; omega)
        | none => exact needTok_throws
      · rw [h]; exact Or.inr rfl
    · rw [skipMembers]
      cases hq : parseDoublequote (jWs s) with
      | throw e => rw [quoted_exc hq]; exact Or.inr rfl
      | ub => exact absurd hq (quoted_noub _)
      | ok q =>
        cases q with
        | none => exact Or.inr rfl
        | some q =>
          obtain ⟨k, e, s1⟩ := q
          simp only [Res.bind_ok]
          obtain ⟨h1, _, _⟩ := quoted_sound hq
          have hl := jWs_length s
          rw [h1] at hl
          simp only [List.length_cons, List.length_append] at hl
          rcases needTok_throws (tok := [58]) (s := s1) with ⟨s2, h⟩ | h
          · rw [h, Res.bind_ok]
            have hl2 : s2.length + 1 ≤ s1.length := by
              obtain ⟨w, _, rfl⟩ := needTok_sound h
              simp
            rcases ih1 s2 (by omega) with ⟨s3, h⟩ | h
            · rw [h, Res.bind_ok]
              have := skip_shrinks h
              cases ht : jTok [44] s3 with
              | some s4 => exact ih3 s4 (by have := jTok_length ht; omega)
              | none => exact needTok_throws
            · rw [h]; exact Or.inr rfl
          · rw [h]; exact Or.inr rfl

/-- C40: skipping a value succeeds or raises a parse error, on every text. -/
theorem skip_json_total (s : List Nat) : (∃ r, skipJson s = .ok r) ∨ skipJson s = .throw .parse :=
  (skip_total _).1 s (Nat.le_refl _)

theorem skip_json_sound {s r : List Nat} (h : skipJson s = .ok r) :
    ∃ w v, JWs dyndLex w ∧ JsonValue dyndLex v ∧ s = w ++ (v ++ r) := (skip_sound _).1 s r h

theorem skip_json_complete {w v r : List Nat} (hw : JWs dyndLex w) (hv : JsonValue dyndLex v) (hr : ValEnd r) :
    skipJson (w ++ (v ++ r)) = .ok r :=
  skip_value_complete hv w r _ hw hr (by simp; omega)

/-- C40: for every text, `validate_json` accepts exactly when the text is one JSON value surrounded by whitespace (in the
    library's lexical conventions), and otherwise raises a parse error: it never runs past the end of the text. -/
theorem validate_json_exact (s : List Nat) :
    (JsonDoc dyndLex s → validateJson s = .ok ()) ∧ (¬ JsonDoc dyndLex s → validateJson s = .throw .parse) := by
  have hdoc : JsonDoc dyndLex s → validateJson s = .ok () := by
    rintro ⟨w, v, w', hw, hv, hw', rfl⟩
    have hve : ValEnd w' := by
      have := valEnd_ws hw' valEnd_nil
      rwa [List.append_nil] at this
    unfold validateJson
    rw [skip_json_complete hw hv hve, Res.bind_ok, if_pos (jWs_nil hw')]
    rfl
  refine ⟨hdoc, fun hn => ?_⟩
  rcases skip_json_total s with ⟨r, h⟩ | h
  · unfold validateJson
    rw [h, Res.bind_ok]
    by_cases hr : jWs r = []
    · exfalso
      obtain ⟨w, v, hw, hv, rfl⟩ := skip_json_sound h
      obtain ⟨w', hw', h2⟩ := jWs_split r
      rw [hr, List.append_nil] at h2
      subst h2
      exact hn ⟨w, v, r, hw, hv, hw', rfl⟩
    · rw [if_neg hr]
  · unfold validateJson; rw [h]; rfl

private theorem chars_mono {b : List Nat} (h : JsonChars rfcLex b) : JsonChars dyndLex b := by
  induction h with
  | nil => exact .nil
  | raw c r h _ ih => exact .raw c r h.2 ih
  | short d r h _ ih => exact .short d r h ih
  | u x r hl h _ ih => exact .u x r hl h ih
  | U x r hb hl h _ ih => exact hb.elim

private theorem ws_mono {w : List Nat} (h : JWs rfcLex w) : JWs dyndLex w := by
  intro c hc
  have h1 : c = 32 ∨ c = 9 ∨ c = 10 ∨ c = 13 := h c hc
  show c = 32 ∨ (9 ≤ c ∧ c ≤ 13)
  omega

mutual
private theorem value_mono : {v : List Nat} → JsonValue rfcLex v → JsonValue dyndLex v
  | _, .tru => .tru
  | _, .fls => .fls
  | _, .null => .null
  | _, .num n h => .num n h
  | _, .str b h => .str b (chars_mono h)
  | _, .arr0 w h => .arr0 w (ws_mono h)
  | _, .arr es h => .arr es (elems_mono h)
  | _, .obj0 w h => .obj0 w (ws_mono h)
  | _, .obj ms h => .obj ms (members_mono h)
private theorem elems_mono : {v : List Nat} → JsonElems rfcLex v → JsonElems dyndLex v
  | _, .one w v w' hw hv hw' => .one w v w' (ws_mono hw) (value_mono hv) (ws_mono hw')
  | _, .cons w v w' es hw hv hw' hes => .cons w v w' es (ws_mono hw) (value_mono hv) (ws_mono hw') (elems_mono hes)
private theorem members_mono : {v : List Nat} → JsonMembers rfcLex v → JsonMembers dyndLex v
  | _, .one w k w1 w2 v w' hw hk hw1 hw2 hv hw' =>
    .one w k w1 w2 v w' (ws_mono hw) (chars_mono hk) (ws_mono hw1) (ws_mono hw2) (value_mono hv) (ws_mono hw')
  | _, .cons w k w1 w2 v w' ms hw hk hw1 hw2 hv hw' hms =>
    .cons w k w1 w2 v w' ms (ws_mono hw) (chars_mono hk) (ws_mono hw1) (ws_mono hw2) (value_mono hv) (ws_mono hw') (members_mono hms)
end

/-- C40: every standard JSON document is accepted. -/
theorem validate_json_accepts_rfc (s : List Nat) (h : JsonDoc rfcLex s) : validateJson s = .ok () := by
  obtain ⟨w, v, w', hw, hv, hw', rfl⟩ := h
  exact (validate_json_exact _).1 ⟨w, v, w', ws_mono hw, value_mono hv, ws_mono hw', rfl⟩

/-- A document with nesting, escapes and whitespace meets the hypothesis: `{"a\n" : [1.5e+3, null] }`. -/
example : JsonDoc rfcLex ([123] ++ ([34, 97, 92, 110, 34, 32, 58, 32, 91, 49, 46, 53, 101, 43, 51, 44, 32] ++ litNull ++ [93, 32, 125])) := by
  refine ⟨[], _, [], by simp [JWs], .obj _ (.one [] [97, 92, 110] [32] [32]
    (91 :: ((([] ++ ([49, 46, 53, 101, 43, 51] ++ ([] ++ 44 :: ([32] ++ (litNull ++ []))))) ++ [93]))) [32] ?_ ?_ ?_ ?_ ?_ ?_), by simp [JWs], rfl⟩
  · simp [JWs]
  · exact .raw 97 _ (by simp [rfcLex]) (.short 110 [] (by decide) .nil)
  · simp [JWs, rfcLex]
  · simp [JWs, rfcLex]
  · refine .arr _ (.cons [] _ [] _ (by simp [JWs]) (.num _ ⟨[], [49], [46, 53], [101, 43, 51], rfl, Or.inl rfl, ?_, ?_, ?_⟩) (by simp [JWs]) ?_)
    · exact Or.inr ⟨49, [], rfl, by decide, by simp [Digits]⟩
    · exact Or.inr ⟨[53], rfl, by simp, by simp [Digits]⟩
    · exact Or.inr ⟨101, [43], [51], rfl, by simp, by simp, by simp, by simp [Digits]⟩
    · exact .one [32] _ [] (by simp [JWs, rfcLex]) .null (by simp [JWs])
  · simp [JWs, rfcLex]

/-! the bytes of a standard document -/

private theorem hex_ge {c : Nat} (h : IsHex c) : 32 ≤ c := by unfold IsHex at h; omega

private theorem chars_ge {b : List Nat} (h : JsonChars rfcLex b) : ∀ c ∈ b, 32 ≤ c := by
  induction h with
  | nil => simp
  | raw c r h _ ih => intro x hx; rcases List.mem_cons.1 hx with rfl | hx; exacts [h.1, ih x hx]
  | short d r h _ ih =>
    intro x hx
    simp only [List.mem_cons, List.not_mem_nil, or_false] at hx h
    rcases hx with rfl | rfl | hx
    · omega
    · omega
    · exact ih x hx
  | u x r hl h _ ih =>
    intro y hy
    simp only [List.mem_cons, List.mem_append] at hy
    rcases hy with rfl | rfl | hy | hy
    exacts [by omega, by omega, hex_ge (h y hy), ih y hy]
  | U x r hb hl h _ ih => exact hb.elim

private theorem num_ge {n : List Nat} (h : JsonNum n) : ∀ c ∈ n, 32 ≤ c := by
  obtain ⟨m, i, f, e, rfl, hm, hi, hf, he⟩ := h
  have hd : ∀ ds, Digits ds → ∀ c ∈ ds, 32 ≤ c := fun ds h c hc => by have := h c hc; omega
  intro c hc
  simp only [List.mem_append] at hc
  rcases hc with ((hc | hc) | hc) | hc
  · rcases hm with rfl | rfl <;> simp at hc; omega
  · rcases hi with rfl | ⟨d, ds, rfl, h1, h2⟩
    · simp at hc; omega
    · rcases List.mem_cons.1 hc with rfl | hc
      exacts [by omega, hd _ h2 _ hc]
  · rcases hf with rfl | ⟨ds, rfl, _, h2⟩
    · simp at hc
    · rcases List.mem_cons.1 hc with rfl | hc
      exacts [by omega, hd _ h2 _ hc]
  · rcases he with rfl | ⟨c', g, ds, rfl, h0, h1, _, h2⟩
    · simp at hc
    · simp only [List.mem_cons, List.mem_append] at hc
      rcases hc with rfl | hc | hc
      · omega
      · rcases h1 with rfl | rfl | rfl <;> simp at hc <;> omega
      · exact hd _ h2 _ hc

/-- bytes allowed in a standard document -/
private def RfcByte (c : Nat) : Prop := 32 ≤ c ∨ c = 9 ∨ c = 10 ∨ c = 13

private theorem ws_bytes {w : List Nat} (h : JWs rfcLex w) : ∀ c ∈ w, RfcByte c := by
  intro c hc
  have h1 : c = 32 ∨ c = 9 ∨ c = 10 ∨ c = 13 := h c hc
  unfold RfcByte; omega

private theorem all_app {a b : List Nat} {p : Nat → Prop} (ha : ∀ c ∈ a, p c) (hb : ∀ c ∈ b, p c) : ∀ c ∈ a ++ b, p c := by
  intro c hc; rcases List.mem_append.1 hc with h | h; exacts [ha c h, hb c h]

private theorem all_cons {x : Nat} {b : List Nat} {p : Nat → Prop} (ha : p x) (hb : ∀ c ∈ b, p c) : ∀ c ∈ x :: b, p c := by
  intro c hc; rcases List.mem_cons.1 hc with rfl | h; exacts [ha, hb c h]

private theorem all_nil {p : Nat → Prop} : ∀ c ∈ ([] : List Nat), p c := by simp

private theorem chars_bytes {b : List Nat} (h : JsonChars rfcLex b) : ∀ c ∈ b, RfcByte c := fun c hc => Or.inl (chars_ge h c hc)

private theorem rb {c : Nat} (h : 32 ≤ c) : RfcByte c := Or.inl h

mutual
private theorem value_bytes : {v : List Nat} → JsonValue rfcLex v → ∀ c ∈ v, RfcByte c
  | _, .tru => by unfold RfcByte; decide
  | _, .fls => by unfold RfcByte; decide
  | _, .null => by unfold RfcByte; decide
  | _, .num n h => fun c hc => Or.inl (num_ge h c hc)
  | _, .str b h => all_cons (rb (by omega)) (all_app (chars_bytes h) (all_cons (rb (by omega)) all_nil))
  | _, .arr0 w h => all_cons (rb (by omega)) (all_app (ws_bytes h) (all_cons (rb (by omega)) all_nil))
  | _, .arr es h => all_cons (rb (by omega)) (all_app (elems_bytes h) (all_cons (rb (by omega)) all_nil))
  | _, .obj0 w h => all_cons (rb (by omega)) (all_app (ws_bytes h) (all_cons (rb (by omega)) all_nil))
  | _, .obj ms h => all_cons (rb (by omega)) (all_app (members_bytes h) (all_cons (rb (by omega)) all_nil))
private theorem elems_bytes : {v : List Nat} → JsonElems rfcLex v → ∀ c ∈ v, RfcByte c
  | _, .one w v w' hw hv hw' => all_app (ws_bytes hw) (all_app (value_bytes hv) (ws_bytes hw'))
  | _, .cons w v w' es hw hv hw' hes =>
    all_app (ws_bytes hw) (all_app (value_bytes hv) (all_app (ws_bytes hw') (all_cons (rb (by omega)) (elems_bytes hes))))
private theorem members_bytes : {v : List Nat} → JsonMembers rfcLex v → ∀ c ∈ v, RfcByte c
  | _, .one w k w1 w2 v w' hw hk hw1 hw2 hv hw' =>
    all_app (ws_bytes hw) (all_cons (rb (by omega)) (all_app (chars_bytes hk) (all_cons (rb (by omega))
      (all_app (ws_bytes hw1) (all_cons (rb (by omega)) (all_app (ws_bytes hw2) (all_app (value_bytes hv) (ws_bytes hw'))))))))
  | _, .cons w k w1 w2 v w' ms hw hk hw1 hw2 hv hw' hms =>
    all_app (ws_bytes hw) (all_cons (rb (by omega)) (all_app (chars_bytes hk) (all_cons (rb (by omega))
      (all_app (ws_bytes hw1) (all_cons (rb (by omega)) (all_app (ws_bytes hw2) (all_app (value_bytes hv)
        (all_app (ws_bytes hw') (all_cons (rb (by omega)) (members_bytes hms))))))))))
end

/-- C40, violation of the strict reading ("accepts exactly JSON"): texts that are not JSON are accepted: a raw control
    character inside a string, and a vertical tab as whitespace. -/
theorem validate_json_lax_violated :
    (validateJson [34, 1, 34] = .ok () ∧ ¬ JsonDoc rfcLex [34, 1, 34]) ∧
    (validateJson [11, 49] = .ok () ∧ ¬ JsonDoc rfcLex [11, 49]) := by
  have hbytes : ∀ s, JsonDoc rfcLex s → ∀ c ∈ s, RfcByte c := by
    rintro s ⟨w, v, w', hw, hv, hw', rfl⟩
    exact all_app (ws_bytes hw) (all_app (value_bytes hv) (ws_bytes hw'))
  refine ⟨⟨?_, fun h => ?_⟩, ⟨?_, fun h => ?_⟩⟩
  · refine (validate_json_exact _).1 ⟨[], _, [], by simp [JWs], .str [1] (.raw 1 [] (by simp [dyndLex]) .nil), by simp [JWs], rfl⟩
  · have := hbytes _ h 1 (by simp); unfold RfcByte at this; omega
  · refine (validate_json_exact _).1 ⟨[11], [49], [], by simp [JWs, dyndLex], .num _ ⟨[], [49], [], [], rfl, Or.inl rfl,
      Or.inr ⟨49, [], rfl, by decide, by simp [Digits]⟩, Or.inl rfl, Or.inl rfl⟩, by simp [JWs], rfl⟩
  · have := hbytes _ h 11 (by simp); unfold RfcByte at this; omega

end Dynd
