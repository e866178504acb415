import Verif.Props.UtfProps
import Mathlib.Tactic.Tauto
/-
C14, C22: transcoding whole strings, fixed-size strings.
-/
namespace Dynd

theorem encodeAll_cons {e : Enc} {c : Nat} {cs us : List Nat} :
    encodeAll e (c :: cs) = some us ↔ ∃ a b, encode e c = some a ∧ encodeAll e cs = some b ∧ us = a ++ b := by
  simp only [encodeAll]
  constructor
  · intro h
    cases h1 : encode e c with
    | none => simp [h1] at h
    | some a =>
      cases h2 : encodeAll e cs with
      | none => simp [h1, h2] at h
      | some b => simp [h1, h2] at h; exact ⟨a, b, rfl, rfl, h.symm⟩
  · rintro ⟨a, b, h1, h2, rfl⟩
    simp [h1, h2]

theorem encodeAll_bound {e : Enc} {cs us : List Nat} (h : encodeAll e cs = some us) : ∀ u ∈ us, u < unitBound e := by
  induction cs generalizing us with
  | nil => simp [encodeAll] at h; subst h; simp
  | cons c cs ih =>
    obtain ⟨a, b, h1, h2, rfl⟩ := encodeAll_cons.1 h
    intro u hu
    rcases List.mem_append.1 hu with hu | hu
    · exact encode_unit_bound h1 u hu
    · exact ih h2 u hu

/-- A text is determined by its units: every encoding is uniquely decodable. -/
theorem encodeAll_inj {e : Enc} {cs cs' us : List Nat} (h : encodeAll e cs = some us) (h' : encodeAll e cs' = some us) :
    cs = cs' := by
  induction cs generalizing us cs' with
  | nil =>
    simp [encodeAll] at h; subst h
    cases cs' with
    | nil => rfl
    | cons c' cs' =>
      obtain ⟨a, b, h1, h2, h3⟩ := encodeAll_cons.1 h'
      exact absurd (List.append_eq_nil_iff.1 h3.symm).1 (encode_nonempty h1)
  | cons c cs ih =>
    have hb := encodeAll_bound h
    obtain ⟨a, b, h1, h2, rfl⟩ := encodeAll_cons.1 h
    cases cs' with
    | nil =>
      simp [encodeAll] at h'
      exact absurd h'.1 (encode_nonempty h1)
    | cons c' cs' =>
      obtain ⟨a', b', h1', h2', h3⟩ := encodeAll_cons.1 h'
      have d1 := (decode_exact e (a ++ b) hb c b).2 ⟨a, h1, rfl⟩
      have d2 := (decode_exact e (a ++ b) hb c' b').2 ⟨a', h1', h3⟩
      rw [d1] at d2
      simp only [Res.ok.injEq, Prod.mk.injEq] at d2
      obtain ⟨rfl, rfl⟩ := d2
      rw [ih h2 h2']

private theorem utf8Append_scalar {c : Nat} (hs : Scalar c) : ∃ bs, encode .utf8 c = some bs ∧ utf8Append c = .ok bs := by
  have h := encode_exact .utf8 c 6 hs (by omega)
  simp only [appendFn, Bool.not_false, if_true, appendUtf8] at h
  rw [if_pos (by omega)] at h
  cases he : encode .utf8 c with
  | none =>
    simp only [encode, hs, not_true_eq_false, if_false] at he
    split_ifs at he
  | some bs =>
    refine ⟨bs, rfl, ?_⟩
    rw [h, he]
    simp only
    rw [if_pos (by have := encode_utf8_length he; omega)]

private theorem asUtf8Loop_exact (e : Enc) (fuel : Nat) (us : List Nat) (hf : us.length ≤ fuel) (hu : ∀ u ∈ us, u < unitBound e) :
    asUtf8Loop (nextFn e false) fuel us ≠ .ub ∧
    ∀ bs, asUtf8Loop (nextFn e false) fuel us = .ok bs ↔
      ∃ cps, encodeAll e cps = some us ∧ encodeAll .utf8 cps = some bs := by
  induction fuel generalizing us with
  | zero =>
    have : us = [] := List.length_eq_zero_iff.1 (by omega)
    subst this
    refine ⟨by simp [asUtf8Loop], fun bs => ?_⟩
    simp only [asUtf8Loop, Res.ok.injEq]
    constructor
    · rintro rfl; exact ⟨[], rfl, rfl⟩
    · rintro ⟨cps, h1, h2⟩
      have := encodeAll_inj h1 (show encodeAll e [] = some [] from rfl)
      subst this
      simpa [encodeAll] using h2
  | succ fuel ih =>
    match us, hu, hf with
    | [], _, _ =>
      refine ⟨by simp [asUtf8Loop], fun bs => ?_⟩
      simp only [asUtf8Loop, Res.ok.injEq]
      constructor
      · rintro rfl; exact ⟨[], rfl, rfl⟩
      · rintro ⟨cps, h1, h2⟩
        have := encodeAll_inj h1 (show encodeAll e [] = some [] from rfl)
        subst this
        simpa [encodeAll] using h2
    | u :: us, hu, hf =>
      simp only [asUtf8Loop]
      cases hn : nextFn e false (u :: us) with
      | ub => exact absurd hn (decode_in_bounds e _ (by simp))
      | throw x =>
        refine ⟨by simp, fun bs => ?_⟩
        simp only [Res.bind_throw, reduceCtorEq, false_iff]
        rintro ⟨cps, h1, h2⟩
        cases cps with
        | nil => simp [encodeAll] at h1
        | cons c cps =>
          obtain ⟨a, b, g1, g2, g3⟩ := encodeAll_cons.1 h1
          rw [(decode_exact e _ hu c b).2 ⟨a, g1, g3⟩] at hn
          simp at hn
      | ok p =>
        obtain ⟨c, rest⟩ := p
        obtain ⟨a, g1, g2⟩ := (decode_exact e _ hu c rest).1 hn
        have hs := encode_scalar g1
        obtain ⟨w, w1, w2⟩ := utf8Append_scalar hs
        have hlen : (u :: us).length = a.length + rest.length := by rw [g2]; simp
        have hapos := List.length_pos_iff.2 (encode_nonempty g1)
        obtain ⟨ih1, ih2⟩ := ih rest (by simp at hlen hf; omega) (fun x hx => hu x (by rw [g2]; simp [hx]))
        simp only [Res.bind_ok, w2]
        constructor
        · cases hr : asUtf8Loop (nextFn e false) fuel rest with
          | ub => exact absurd hr ih1
          | throw x => simp
          | ok r => simp
        · intro bs
          rw [Res.bind_eq_ok]
          constructor
          · rintro ⟨r, hr, h⟩
            simp only [Res.pure_eq, Res.ok.injEq] at h
            obtain ⟨cps, c1, c2⟩ := (ih2 r).1 hr
            exact ⟨c :: cps, encodeAll_cons.2 ⟨a, rest, g1, c1, g2⟩, encodeAll_cons.2 ⟨w, r, w1, c2, h.symm⟩⟩
          · rintro ⟨cps, h1, h2⟩
            cases cps with
            | nil => simp [encodeAll] at h1
            | cons c' cps =>
              obtain ⟨a', b', k1, k2, k3⟩ := encodeAll_cons.1 h1
              have := (decode_exact e _ hu c' b').2 ⟨a', k1, k3⟩
              rw [hn] at this
              simp only [Res.ok.injEq, Prod.mk.injEq] at this
              obtain ⟨rfl, rfl⟩ := this
              obtain ⟨w', r, l1, l2, rfl⟩ := encodeAll_cons.1 h2
              rw [w1] at l1
              simp only [Option.some.injEq] at l1
              subst l1
              exact ⟨r, (ih2 r).2 ⟨cps, k2, l2⟩, rfl⟩

/-- C14: converting a UCS-2, UTF-16 or UTF-32 string to UTF-8 succeeds exactly when the source is well formed, and
    then the result is the UTF-8 form of the same code points.  It never reads out of bounds and always ends. -/
theorem as_utf8_exact (e : Enc) (he : e = .ucs2 ∨ e = .utf16 ∨ e = .utf32) (us : List Nat) (hu : ∀ u ∈ us, u < unitBound e) :
    stringRangeAsUtf8 e false us ≠ .ub ∧
    ∀ bs, stringRangeAsUtf8 e false us = .ok bs ↔
      ∃ cps, encodeAll e cps = some us ∧ encodeAll .utf8 cps = some bs := by
  have h := asUtf8Loop_exact e us.length us (Nat.le_refl _) hu
  rcases he with rfl | rfl | rfl <;> exact h

example : stringRangeAsUtf8 .utf16 false [0x48, 0xD83D, 0xDE00] = .ok [0x48, 0xF0, 0x9F, 0x98, 0x80] ∧
    stringRangeAsUtf8 .utf16 false [0xDE00] = .throw .decode := by decide

/-- C14, violated: an "ASCII" string holding a byte above 7F is returned unchanged and unchecked, although it is
    neither ASCII nor valid UTF-8. -/
theorem as_utf8_ascii_unchecked_violated :
    ∃ us, stringRangeAsUtf8 .ascii false us = .ok us ∧ (∀ u ∈ us, u < 256) ∧ (∀ cps, encodeAll .ascii cps ≠ some us) ∧
      ∀ cps, encodeAll .utf8 cps ≠ some us := by
  refine ⟨[0xFF], rfl, by decide, ?_, ?_⟩ <;>
  · intro cps h
    cases cps with
    | nil => simp [encodeAll] at h
    | cons c cps =>
      have hb := encodeAll_bound h
      obtain ⟨a, b, h1, h2, h3⟩ := encodeAll_cons.1 h
      have := (decode_exact _ [0xFF] hb c b).2 ⟨a, h1, h3⟩
      first
        | rw [show nextFn .ascii false [0xFF] = .throw .decode by decide] at this; cases this
        | rw [show nextFn .utf8 false [0xFF] = .throw .encode by decide] at this; cases this

/-! ### fixed-size strings -/

private theorem fixedLoop_sound (stop : Bool) (se de : Enc) (fuel : Nat) (src : List Nat) (hu : ∀ u ∈ src, u < unitBound se)
    (room : Nat) (w : List Nat) (left : Option (List Nat))
    (h : fixedLoop stop (nextFn se false) (appendFn de false) fuel src room = .ok (w, left)) :
    ∃ cps pre, (stop = true → 0 ∉ cps) ∧ encodeAll se cps = some pre ∧ encodeAll de cps = some w ∧ w.length ≤ room ∧
      match left with
      | some l => src = pre ++ l ∧ (l = [] ∨ w.length = room)
      | none => stop = true ∧ w.length < room ∧ ∃ z rest, encode se 0 = some z ∧ src = pre ++ (z ++ rest) := by
  induction fuel generalizing src room w left with
  | zero =>
    simp only [fixedLoop] at h
    split_ifs at h with g
    simp only [Res.ok.injEq, Prod.mk.injEq] at h
    obtain ⟨rfl, rfl⟩ := h
    exact ⟨[], [], by simp, rfl, rfl, by simp, by simp; tauto⟩
  | succ fuel ih =>
    simp only [fixedLoop] at h
    split_ifs at h with g
    · simp only [Res.ok.injEq, Prod.mk.injEq] at h
      obtain ⟨rfl, rfl⟩ := h
      exact ⟨[], [], by simp, rfl, rfl, by simp, by simp; tauto⟩
    · rw [Res.bind_eq_ok] at h
      obtain ⟨⟨c, rest⟩, hn, h⟩ := h
      simp only at h
      obtain ⟨a, g1, g2⟩ := (decode_exact se _ hu c rest).1 hn
      have hs := encode_scalar g1
      have hroom : 0 < room := by omega
      split_ifs at h with gz
      · simp only [Res.pure_eq, Res.ok.injEq, Prod.mk.injEq] at h
        obtain ⟨rfl, rfl⟩ := h
        obtain ⟨gz1, rfl⟩ := gz
        exact ⟨[], [], by simp, rfl, rfl, by simp, gz1, by simpa using hroom, a, rest, g1, g2⟩
      · rw [Res.bind_eq_ok] at h
        obtain ⟨bs, hb, h⟩ := h
        rw [encode_exact de c room hs hroom] at hb
        cases he : encode de c with
        | none => simp [he] at hb
        | some bs' =>
          simp only [he] at hb
          split_ifs at hb with hl
          simp only [Res.ok.injEq] at hb
          subst hb
          rw [if_neg (by omega), Res.bind_eq_ok] at h
          obtain ⟨⟨w', left'⟩, hrec, h⟩ := h
          simp only [Res.pure_eq, Res.ok.injEq, Prod.mk.injEq] at h
          obtain ⟨rfl, rfl⟩ := h
          obtain ⟨cps, pre, i1, i2, i3, i4, i5⟩ := ih rest (fun x hx => hu x (by rw [g2]; simp [hx])) _ _ _ hrec
          refine ⟨c :: cps, a ++ pre, ?_, encodeAll_cons.2 ⟨a, pre, g1, i2, rfl⟩, encodeAll_cons.2 ⟨bs', w', he, i3, rfl⟩,
            by simp; omega, ?_⟩
          · intro hst
            simp only [List.mem_cons, not_or]
            exact ⟨fun h0 => gz ⟨hst, h0.symm⟩, i1 hst⟩
          · cases left' with
            | none =>
              simp only at i5 ⊢
              obtain ⟨j1, j2, z, r, j3, j4⟩ := i5
              exact ⟨j1, by simp; omega, z, r, j3, by rw [g2, j4]; simp⟩
            | some l =>
              simp only at i5 ⊢
              refine ⟨by rw [g2, i5.1]; simp, ?_⟩
              rcases i5.2 with i5 | i5
              · exact Or.inl i5
              · right; simp; omega

private theorem fixedLoop_noub (stop : Bool) (se de : Enc) (fuel : Nat) (src : List Nat) (hf : src.length ≤ fuel)
    (hu : ∀ u ∈ src, u < unitBound se) (room : Nat) :
    fixedLoop stop (nextFn se false) (appendFn de false) fuel src room ≠ .ub := by
  induction fuel generalizing src room with
  | zero =>
    have : src = [] := List.length_eq_zero_iff.1 (by omega)
    simp [fixedLoop, this]
  | succ fuel ih =>
    simp only [fixedLoop]
    split_ifs with g
    · simp
    · cases hn : nextFn se false src with
      | ub => exact absurd hn (decode_in_bounds se _ (by tauto))
      | throw x => simp
      | ok p =>
        obtain ⟨c, rest⟩ := p
        simp only [Res.bind_ok]
        obtain ⟨a, g1, g2⟩ := (decode_exact se _ hu c rest).1 hn
        have hs := encode_scalar g1
        split_ifs
        · simp
        · rw [encode_exact de c room hs (by omega)]
          cases he : encode de c with
          | none => simp
          | some bs =>
            simp only
            split_ifs with hl
            · simp only [Res.bind_ok]
              rw [if_neg (by omega)]
              have hapos := List.length_pos_iff.2 (encode_nonempty g1)
              have hlen : src.length = a.length + rest.length := by rw [g2]; simp
              have := ih rest (by omega) (fun x hx => hu x (by rw [g2]; simp [hx])) (room - bs.length)
              cases hr : fixedLoop stop (nextFn se false) (appendFn de false) fuel rest (room - bs.length) with
              | ub => exact absurd hr this
              | throw x => simp
              | ok q => simp
            · simp

private theorem fixedLoop_complete (stop : Bool) (se de : Enc) (cps : List Nat) (fuel : Nat) (pre tail : List Nat)
    (hf : (pre ++ tail).length ≤ fuel) (hu : ∀ u ∈ tail, u < unitBound se) (room : Nat) (w : List Nat)
    (hz : stop = true → 0 ∉ cps) (h1 : encodeAll se cps = some pre) (h2 : encodeAll de cps = some w) (hw : w.length ≤ room)
    (ht : tail = [] ∨ (stop = true ∧ w.length < room ∧ ∃ z rest, encode se 0 = some z ∧ tail = z ++ rest)) :
    fixedLoop stop (nextFn se false) (appendFn de false) fuel (pre ++ tail) room =
      .ok (w, if tail = [] then some [] else none) := by
  induction cps generalizing fuel pre w room with
  | nil =>
    simp only [encodeAll, Option.some.injEq] at h1 h2
    subst h1; subst h2
    rcases ht with rfl | ⟨hst, hlt, z, rest, hz0, rfl⟩
    · cases fuel <;> simp [fixedLoop]
    · have hzne := encode_nonempty hz0
      have hne : z ++ rest ≠ [] := by simp [hzne]
      have hd := (decode_exact se (z ++ rest) hu 0 rest).2 ⟨z, hz0, rfl⟩
      cases fuel with
      | zero =>
        have := List.length_eq_zero_iff.1 (Nat.le_zero.1 hf)
        exact absurd (by simpa using this) hne
      | succ fuel =>
        simp only [fixedLoop, List.nil_append]
        have hr : ¬ (z ++ rest = [] ∨ room = 0) := by
          rintro (h | h)
          · exact hne h
          · simp at hlt; omega
        rw [if_neg hr, hd]
        simp only [Res.bind_ok, hst, and_self, if_true, Res.pure_eq, hne, if_false]
  | cons c cps ih =>
    obtain ⟨a, b, g1, g2, rfl⟩ := encodeAll_cons.1 h1
    obtain ⟨v, w', l1, l2, rfl⟩ := encodeAll_cons.1 h2
    have hane := encode_nonempty g1
    have hvpos := List.length_pos_iff.2 (encode_nonempty l1)
    simp only [List.length_append] at hw hf ht
    have hbound : ∀ u ∈ a ++ (b ++ tail), u < unitBound se := by
      intro u hx
      simp only [List.mem_append] at hx
      rcases hx with hx | hx | hx
      · exact encode_unit_bound g1 u hx
      · exact encodeAll_bound g2 u hx
      · exact hu u hx
    have hd := (decode_exact se (a ++ (b ++ tail)) hbound c (b ++ tail)).2 ⟨a, g1, rfl⟩
    have hapos := List.length_pos_iff.2 hane
    match fuel, hf with
    | 0, hf => omega
    | fuel + 1, hf =>
      simp only [fixedLoop, List.append_assoc]
      have hr : ¬ (a ++ (b ++ tail) = [] ∨ room = 0) := by
        rintro (h | h)
        · simp [hane] at h
        · omega
      rw [if_neg hr, hd]
      simp only [Res.bind_ok]
      have hc0 : ¬ (stop = true ∧ c = 0) := by
        rintro ⟨q1, q2⟩
        exact hz q1 (by simp [q2])
      rw [if_neg hc0, encode_exact de c room (encode_scalar g1) (by omega), l1]
      simp only
      rw [if_pos (by omega)]
      simp only [Res.bind_ok]
      rw [if_neg (by omega), ih fuel b (by simp; omega) (room - v.length) w' (fun q hm => hz q (by simp [hm])) g2 l2 (by omega)]
      · simp
      · rcases ht with ht | ⟨q1, q2, q3⟩
        · exact Or.inl ht
        · exact Or.inr ⟨q1, by omega, q3⟩

/-- C22: checked assignment of a string to `fixed_string[n]` succeeds exactly when the source is well formed, every
    code point exists in the destination encoding and the text fits; the destination then holds the text
    followed by zeros, exactly `n` units.  In every other case it raises; it never writes past `n` units. -/
theorem fixed_string_assign_exact (se de : Enc) (n : Nat) (src : List Nat) (hu : ∀ u ∈ src, u < unitBound se) :
    assignFixed false se de false n src ≠ .ub ∧
    ∀ out, assignFixed false se de false n src = .ok out ↔
      ∃ cps bs, encodeAll se cps = some src ∧ encodeAll de cps = some bs ∧ bs.length ≤ n ∧
        out = bs ++ List.replicate (n - bs.length) 0 := by
  have hnub := fixedLoop_noub false se de src.length src (Nat.le_refl _) hu n
  constructor
  · unfold assignFixed
    cases hl : fixedLoop false (nextFn se false) (appendFn de false) src.length src n with
    | ub => exact absurd hl hnub
    | throw x => simp
    | ok p =>
      obtain ⟨w, left⟩ := p
      cases left with
      | none => simp
      | some l => simp only [Res.bind_ok]; split_ifs <;> simp_all
  · intro out
    constructor
    · intro h
      unfold assignFixed at h
      rw [Res.bind_eq_ok] at h
      obtain ⟨⟨w, left⟩, hl, h⟩ := h
      obtain ⟨cps, pre, i1, i2, i3, i4, i5⟩ := fixedLoop_sound _ _ _ _ _ hu _ _ _ hl
      cases left with
      | none => simp at i5
      | some l =>
        simp only at h i5
        by_cases hle : l = []
        · subst hle
          simp only [ne_eq, not_true_eq_false, if_false, Res.pure_eq, Res.ok.injEq] at h
          exact ⟨cps, w, by rw [i5.1]; simpa using i2, i3, i4, h.symm⟩
        · simp [hle] at h
    · rintro ⟨cps, bs, h1, h2, h3, rfl⟩
      unfold assignFixed
      have := fixedLoop_complete false se de cps src.length src [] (by simp) (by simp) n bs (by simp) h1 h2 h3 (Or.inl rfl)
      simp only [List.append_nil, if_true] at this
      rw [this]
      simp

example : assignFixed false .utf8 .utf16 false 4 [0x48, 0xF0, 0x9F, 0x98, 0x80] = .ok [0x48, 0xD83D, 0xDE00, 0] ∧
    assignFixed false .utf8 .utf16 false 2 [0x48, 0xF0, 0x9F, 0x98, 0x80] = .throw .runtime ∧
    assignFixed false .utf8 .ascii false 4 [0xC3, 0xA9] = .throw .encode := by decide

/-- C22, C14: checked assignment between fixed-size strings, exact outcome.  `cps` is the text of the source, which
    ends at its first NUL or at its end.  Note the asymmetry: a source that is padded needs one spare
    destination unit. -/
theorem fixed_fixed_assign_exact (se de : Enc) (n : Nat) (src : List Nat) (hu : ∀ u ∈ src, u < unitBound se) :
    assignFixed true se de false n src ≠ .ub ∧
    ∀ out, assignFixed true se de false n src = .ok out ↔
      ∃ cps pre bs, 0 ∉ cps ∧ encodeAll se cps = some pre ∧ encodeAll de cps = some bs ∧
        ((src = pre ∧ bs.length ≤ n) ∨ (∃ rest, src = pre ++ 0 :: rest ∧ bs.length < n)) ∧
        out = bs ++ List.replicate (n - bs.length) 0 := by
  have hz0 : encode se 0 = some [0] := by cases se <;> decide
  have hnub := fixedLoop_noub true se de src.length src (Nat.le_refl _) hu n
  constructor
  · unfold assignFixed
    cases hl : fixedLoop true (nextFn se false) (appendFn de false) src.length src n with
    | ub => exact absurd hl hnub
    | throw x => simp
    | ok p =>
      obtain ⟨w, left⟩ := p
      cases left with
      | none => simp
      | some l => simp only [Res.bind_ok]; split_ifs <;> simp_all
  · intro out
    constructor
    · intro h
      unfold assignFixed at h
      rw [Res.bind_eq_ok] at h
      obtain ⟨⟨w, left⟩, hl, h⟩ := h
      obtain ⟨cps, pre, i1, i2, i3, i4, i5⟩ := fixedLoop_sound _ _ _ _ _ hu _ _ _ hl
      cases left with
      | none =>
        simp only [Res.pure_eq, Res.ok.injEq] at h i5
        obtain ⟨_, j2, z, rest, j3, j4⟩ := i5
        rw [hz0] at j3
        simp only [Option.some.injEq] at j3
        subst j3
        exact ⟨cps, pre, w, i1 rfl, i2, i3, Or.inr ⟨rest, by simpa using j4, j2⟩, h.symm⟩
      | some l =>
        simp only at h i5
        by_cases hle : l = []
        · subst hle
          simp only [ne_eq, not_true_eq_false, if_false, Res.pure_eq, Res.ok.injEq] at h
          exact ⟨cps, pre, w, i1 rfl, i2, i3, Or.inl ⟨by simpa using i5.1, i4⟩, h.symm⟩
        · simp [hle] at h
    · rintro ⟨cps, pre, bs, h0, h1, h2, h3, rfl⟩
      unfold assignFixed
      rcases h3 with ⟨rfl, h3⟩ | ⟨rest, rfl, h3⟩
      · have := fixedLoop_complete true se de cps src.length src [] (by simp) (by simp) n bs (fun _ => h0) h1 h2 h3 (Or.inl rfl)
        simp only [List.append_nil, if_true] at this
        rw [this]
        simp
      · have := fixedLoop_complete true se de cps (pre ++ 0 :: rest).length pre (0 :: rest) (by simp)
          (fun u hx => hu u (by simp at hx; simp; tauto)) n bs (fun _ => h0) h1 h2 (by omega)
          (Or.inr ⟨rfl, h3, [0], rest, hz0, by simp⟩)
        simp only [reduceCtorEq, if_false] at this
        rw [this]
        simp

/-- C22, violated: assigning a padded `fixed_string[5]` holding "abc" to a `fixed_string[3]` raises although the
    text fits, while the same text in a `fixed_string[3]` (or a string) is accepted. -/
theorem fixed_fixed_exact_fit_violated :
    assignFixed true .utf8 .utf8 false 3 [97, 98, 99, 0, 0] = .throw .runtime ∧
    assignFixed true .utf8 .utf8 false 3 [97, 98, 99] = .ok [97, 98, 99] ∧
    assignFixed false .utf8 .utf8 false 3 (fixedRange [97, 98, 99, 0, 0]) = .ok [97, 98, 99] := by decide

/-! ### assignment to variable-size strings -/

private theorem growLoop_spec (stop : Bool) (se : Enc) (fuel : Nat) (src : List Nat) (hf : src.length ≤ fuel)
    (hu : ∀ u ∈ src, u < unitBound se) (cap : Nat) (out : List Nat) (hcap : 17 ≤ cap) (hout : out.length ≤ cap) :
    growLoop stop (nextFn se false) (appendFn .utf8 false) fuel src cap out ≠ .ub ∧
    ∀ res, growLoop stop (nextFn se false) (appendFn .utf8 false) fuel src cap out = .ok res ↔
      ∃ cps pre w, (stop = true → 0 ∉ cps) ∧ encodeAll se cps = some pre ∧ encodeAll .utf8 cps = some w ∧ res = out ++ w ∧
        (src = pre ∨ (stop = true ∧ ∃ rest, src = pre ++ 0 :: rest)) := by
  have hz0 : encode se 0 = some [0] := by cases se <;> decide
  have nilcase : ∀ res, (Res.ok out = Res.ok res ↔ ∃ cps pre w, (stop = true → 0 ∉ cps) ∧ encodeAll se cps = some pre ∧
      encodeAll .utf8 cps = some w ∧ res = out ++ w ∧ (([] : List Nat) = pre ∨ (stop = true ∧ ∃ rest, [] = pre ++ 0 :: rest))) := by
    intro res
    simp only [Res.ok.injEq]
    constructor
    · rintro rfl; exact ⟨[], [], [], by simp, rfl, rfl, by simp, Or.inl rfl⟩
    · rintro ⟨cps, pre, w, _, h1, h2, h3, h4⟩
      rcases h4 with rfl | ⟨_, rest, h4⟩
      · have := encodeAll_inj h1 (show encodeAll se [] = some [] from rfl)
        subst this
        simp only [encodeAll, Option.some.injEq] at h2
        subst h2; simp [h3]
      · simp at h4
  induction fuel generalizing src cap out with
  | zero =>
    have : src = [] := List.length_eq_zero_iff.1 (by omega)
    subst this
    exact ⟨by simp [growLoop], by simpa only [growLoop] using nilcase⟩
  | succ fuel ih =>
    match src, hu, hf with
    | [], _, _ => exact ⟨by simp [growLoop], by simpa only [growLoop] using nilcase⟩
    | u :: us, hu, hf =>
      simp only [growLoop]
      cases hn : nextFn se false (u :: us) with
      | ub => exact absurd hn (decode_in_bounds se _ (by simp))
      | throw x =>
        refine ⟨by simp, fun res => ?_⟩
        simp only [Res.bind_throw, reduceCtorEq, false_iff]
        rintro ⟨cps, pre, w, h0, h1, h2, h3, h4⟩
        have key : ∀ c b, (∃ a, encode se c = some a ∧ u :: us = a ++ b) → False := by
          intro c b hh
          rw [(decode_exact se _ hu c b).2 hh] at hn
          simp at hn
        cases cps with
        | nil =>
          simp only [encodeAll, Option.some.injEq] at h1; subst h1
          rcases h4 with h4 | ⟨_, rest, h4⟩
          · simp at h4
          · exact key 0 rest ⟨[0], hz0, by simpa using h4⟩
        | cons c cps =>
          obtain ⟨a, b, g1, g2, rfl⟩ := encodeAll_cons.1 h1
          rcases h4 with h4 | ⟨_, rest, h4⟩
          · exact key c b ⟨a, g1, h4⟩
          · exact key c (b ++ 0 :: rest) ⟨a, g1, by simpa using h4⟩
      | ok p =>
        obtain ⟨c, rest⟩ := p
        obtain ⟨a, g1, g2⟩ := (decode_exact se _ hu c rest).1 hn
        have hs := encode_scalar g1
        have hapos := List.length_pos_iff.2 (encode_nonempty g1)
        have hlen : (u :: us).length = a.length + rest.length := by rw [g2]; simp
        have huniq : ∀ c' b', (∃ a, encode se c' = some a ∧ u :: us = a ++ b') → c' = c ∧ b' = rest := by
          intro c' b' hh
          have := (decode_exact se _ hu c' b').2 hh
          rw [hn] at this
          simp only [Res.ok.injEq, Prod.mk.injEq] at this
          exact ⟨this.1.symm, this.2.symm⟩
        simp only [Res.bind_ok]
        by_cases hc0 : stop = true ∧ c = 0
        · rw [if_pos hc0]
          refine ⟨by simp, fun res => ?_⟩
          obtain ⟨hst, rfl⟩ := hc0
          rw [hz0] at g1
          simp only [Option.some.injEq] at g1
          subst g1
          simp only [Res.pure_eq, Res.ok.injEq]
          constructor
          · rintro rfl
            exact ⟨[], [], [], by simp, rfl, rfl, by simp, Or.inr ⟨hst, rest, by simpa using g2⟩⟩
          · rintro ⟨cps, pre, w, h0, h1, h2, h3, h4⟩
            cases cps with
            | nil =>
              simp only [encodeAll, Option.some.injEq] at h2
              subst h2; simp [h3]
            | cons c' cps =>
              obtain ⟨a', b, k1, k2, rfl⟩ := encodeAll_cons.1 h1
              have : c' = 0 := by
                rcases h4 with h4 | ⟨_, r, h4⟩
                · exact (huniq c' b ⟨a', k1, h4⟩).1
                · exact (huniq c' (b ++ 0 :: r) ⟨a', k1, by simpa using h4⟩).1
              exact absurd (by simp [this]) (h0 hst)
        · rw [if_neg hc0]
          obtain ⟨v, v1, _⟩ := utf8Append_scalar hs
          have hv := encode_utf8_length v1
          generalize hcap' : (if cap - out.length ≥ 8 then cap else 2 * cap) = cap'
          have hroom : 8 ≤ cap' - out.length ∧ cap ≤ cap' := by
            rw [← hcap']; split_ifs <;> omega
          rw [encode_exact .utf8 c _ hs (by omega), v1]
          simp only
          rw [if_pos (by omega)]
          simp only [Res.bind_ok]
          rw [if_neg (by omega)]
          obtain ⟨ih1, ih2⟩ := ih rest (by simp at hlen hf; omega) (fun x hx => hu x (by rw [g2]; simp [hx])) cap' (out ++ v)
            (by omega) (by simp; omega) (by
              intro res
              simp only [Res.ok.injEq]
              constructor
              · rintro rfl; exact ⟨[], [], [], by simp, rfl, rfl, by simp, Or.inl rfl⟩
              · rintro ⟨cps, pre, w, _, h1, h2, h3, h4⟩
                rcases h4 with rfl | ⟨_, rest, h4⟩
                · have := encodeAll_inj h1 (show encodeAll se [] = some [] from rfl)
                  subst this
                  simp only [encodeAll, Option.some.injEq] at h2
                  subst h2; simp [h3]
                · simp at h4)
          refine ⟨ih1, fun res => ?_⟩
          rw [ih2]
          constructor
          · rintro ⟨cps, pre, w, h0, h1, h2, h3, h4⟩
            refine ⟨c :: cps, a ++ pre, v ++ w, ?_, encodeAll_cons.2 ⟨a, pre, g1, h1, rfl⟩,
              encodeAll_cons.2 ⟨v, w, v1, h2, rfl⟩, by simp [h3], ?_⟩
            · intro hst
              simp only [List.mem_cons, not_or]
              exact ⟨fun q => hc0 ⟨hst, q.symm⟩, h0 hst⟩
            · rcases h4 with rfl | ⟨q1, r, rfl⟩
              · exact Or.inl g2
              · exact Or.inr ⟨q1, r, by simp [g2]⟩
          · rintro ⟨cps, pre, w, h0, h1, h2, h3, h4⟩
            cases cps with
            | nil =>
              simp only [encodeAll, Option.some.injEq] at h1; subst h1
              rcases h4 with h4 | ⟨hst, r, h4⟩
              · simp at h4
              · have := (huniq 0 r ⟨[0], hz0, by simpa using h4⟩).1
                exact absurd ⟨hst, this.symm⟩ hc0
            | cons c' cps =>
              obtain ⟨a', b, k1, k2, rfl⟩ := encodeAll_cons.1 h1
              obtain ⟨v', w', l1, l2, rfl⟩ := encodeAll_cons.1 h2
              rcases h4 with h4 | ⟨hst, r, h4⟩
              · obtain ⟨rfl, rfl⟩ := huniq c' b ⟨a', k1, h4⟩
                rw [v1] at l1
                simp only [Option.some.injEq] at l1
                subst l1
                exact ⟨cps, b, w', fun q hm => h0 q (by simp [hm]), k2, l2, by simp [h3], Or.inl rfl⟩
              · obtain ⟨rfl, hr⟩ := huniq c' (b ++ 0 :: r) ⟨a', k1, by simpa using h4⟩
                rw [v1] at l1
                simp only [Option.some.injEq] at l1
                subst l1
                exact ⟨cps, b, w', fun q hm => h0 q (by simp [hm]), k2, l2, by simp [h3], Or.inr ⟨hst, r, hr.symm⟩⟩

/-- C14: checked assignment of UTF-8 text to a string (`set_from_utf8_string`) stores exactly that text if it is well
    formed and raises otherwise; the growing buffer is never overrun. -/
theorem string_set_exact (src : List Nat) (hu : ∀ u ∈ src, u < 256) :
    assignString false .utf8 false src ≠ .ub ∧
    ∀ out, assignString false .utf8 false src = .ok out ↔ (out = src ∧ ∃ cps, encodeAll .utf8 cps = some src) := by
  obtain ⟨h1, h2⟩ := growLoop_spec false .utf8 src.length src (Nat.le_refl _) hu ((src.length + 16) * 1124 / 1024) []
    (by omega) (by simp)
  refine ⟨h1, fun out => ?_⟩
  unfold assignString
  rw [h2]
  constructor
  · rintro ⟨cps, pre, w, _, g1, g2, g3, g4⟩
    rw [g1] at g2
    simp only [Option.some.injEq] at g2
    subst g2
    rcases g4 with rfl | ⟨g4, _⟩
    · exact ⟨by simpa using g3, cps, g1⟩
    · simp at g4
  · rintro ⟨rfl, cps, h⟩
    exact ⟨cps, out, out, by simp, h, h, by simp, Or.inl rfl⟩

/-- C14: checked assignment of a `fixed_string` in any encoding to a string stores the UTF-8 form of its text (up to
    the first NUL); it raises exactly if that text is malformed. -/
theorem string_from_fixed_exact (se : Enc) (src : List Nat) (hu : ∀ u ∈ src, u < unitBound se) :
    assignString true se false src ≠ .ub ∧
    ∀ out, assignString true se false src = .ok out ↔
      ∃ cps pre, 0 ∉ cps ∧ encodeAll se cps = some pre ∧ encodeAll .utf8 cps = some out ∧
        (src = pre ∨ ∃ rest, src = pre ++ 0 :: rest) := by
  obtain ⟨h1, h2⟩ := growLoop_spec true se src.length src (Nat.le_refl _) hu ((src.length + 16) * 1124 / 1024) []
    (by omega) (by simp)
  refine ⟨h1, fun out => ?_⟩
  unfold assignString
  rw [h2]
  constructor
  · rintro ⟨cps, pre, w, g0, g1, g2, g3, g4⟩
    simp only [List.nil_append] at g3
    subst g3
    exact ⟨cps, pre, g0 rfl, g1, g2, by simpa using g4⟩
  · rintro ⟨cps, pre, g0, g1, g2, g4⟩
    exact ⟨cps, pre, out, fun _ => g0, g1, g2, by simp, by simpa using g4⟩

example : assignString true .utf16 false [0xE9, 0x4E2D, 0, 0xD800] = .ok [0xC3, 0xA9, 0xE4, 0xB8, 0xAD] := by decide

private theorem zero_units {e : Enc} {cs us : List Nat} (h : encodeAll e cs = some us) : (0 ∈ us ↔ 0 ∈ cs) := by
  induction cs generalizing us with
  | nil => simp [encodeAll] at h; subst h; simp
  | cons c cs ih =>
    obtain ⟨a, b, h1, h2, rfl⟩ := encodeAll_cons.1 h
    have hs := encode_scalar h1
    have ha : 0 ∈ a ↔ c = 0 := by
      simp only [encode, hs, not_true_eq_false, if_false] at h1
      cases e <;> simp only at h1 <;> (try split_ifs at h1) <;> simp only [Option.some.injEq] at h1 <;> subst h1 <;>
        simp <;> omega
    simp only [List.mem_append, List.mem_cons, ih h2, ha]
    tauto

/-- C14, C22: a NUL-free string assigned to a fixed_string and back is unchanged, in every encoding. -/
theorem fixed_string_roundtrip (de : Enc) (n : Nat) (src out : List Nat) (hu : ∀ u ∈ src, u < 256) (h0 : 0 ∉ src)
    (h : assignFixed false .utf8 de false n src = .ok out) :
    out.length = n ∧ assignString true de false out = .ok src := by
  obtain ⟨cps, bs, h1, h2, h3, rfl⟩ := ((fixed_string_assign_exact .utf8 de n src hu).2 out).1 h
  have hz : 0 ∉ cps := fun hm => h0 ((zero_units h1).2 hm)
  refine ⟨by simp; omega, ?_⟩
  have hb : ∀ u ∈ bs ++ List.replicate (n - bs.length) 0, u < unitBound de := by
    intro u hx
    rcases List.mem_append.1 hx with hx | hx
    · exact encodeAll_bound h2 u hx
    · rw [List.mem_replicate] at hx
      rw [hx.2]; cases de <;> decide
  rw [(string_from_fixed_exact de _ hb).2]
  refine ⟨cps, bs, hz, h2, h1, ?_⟩
  by_cases hn : n - bs.length = 0
  · left; simp [hn]
  · right
    refine ⟨List.replicate (n - bs.length - 1) 0, ?_⟩
    have : n - bs.length = (n - bs.length - 1) + 1 := by omega
    conv_lhs => rw [this]
    rw [List.replicate_succ]

/-- C22, violated with embedded NULs: "a\0b" is accepted by a fixed_string but reads back as "a". -/
theorem fixed_string_nul_violated :
    assignFixed false .utf8 .utf8 false 4 [97, 0, 98] = .ok [97, 0, 98, 0] ∧ fixedRange [97, 0, 98, 0] = [97] ∧
    assignString true .utf8 false [97, 0, 98, 0] = .ok [97] := by decide

end Dynd
