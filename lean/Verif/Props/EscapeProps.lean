import Verif.Model.Escape
import Verif.Props.TranscodeProps
/-
C16: escaped printing can be read back.
-/
namespace Dynd

private theorem and0f (x : Nat) : x &&& 0x0f = x % 16 := Nat.and_two_pow_sub_one_eq_mod x 4
private theorem andff (x : Nat) : x &&& 0xff = x % 256 := Nat.and_two_pow_sub_one_eq_mod x 8

theorem hexVal_hexDigit (v : Nat) (h : v < 16) : hexVal (hexDigit v) = some v := by
  unfold hexVal hexDigit
  split_ifs <;> first | omega | (congr 1; omega)

theorem hex16_eq (v : Nat) : hex16 v =
    [hexDigit (v / 4096 % 16), hexDigit (v / 256 % 16), hexDigit (v / 16 % 16), hexDigit (v % 16)] := by
  simp only [hex16, hexByte, and0f, andff, Nat.shiftRight_eq_div_pow, List.cons_append, List.nil_append]
  have e1 : v / 2 ^ 8 % 256 / 2 ^ 4 = v / 4096 % 16 := by omega
  have e2 : v / 2 ^ 8 % 256 % 16 = v / 256 % 16 := by omega
  have e3 : v % 256 / 2 ^ 4 = v / 16 % 16 := by omega
  have e4 : v % 256 % 16 = v % 16 := by omega
  rw [e1, e2, e3, e4]

private theorem hex32_eq (v : Nat) : hex32 v =
    [hexDigit (v / 268435456 % 16), hexDigit (v / 16777216 % 16), hexDigit (v / 1048576 % 16), hexDigit (v / 65536 % 16),
     hexDigit (v / 4096 % 16), hexDigit (v / 256 % 16), hexDigit (v / 16 % 16), hexDigit (v % 16)] := by
  simp only [hex32, hexByte, and0f, andff, Nat.shiftRight_eq_div_pow, List.cons_append, List.nil_append]
  have e1 : v / 2 ^ 24 % 256 / 2 ^ 4 = v / 268435456 % 16 := by omega
  have e2 : v / 2 ^ 24 % 256 % 16 = v / 16777216 % 16 := by omega
  have e3 : v / 2 ^ 16 % 256 / 2 ^ 4 = v / 1048576 % 16 := by omega
  have e4 : v / 2 ^ 16 % 256 % 16 = v / 65536 % 16 := by omega
  have e5 : v / 2 ^ 8 % 256 / 2 ^ 4 = v / 4096 % 16 := by omega
  have e6 : v / 2 ^ 8 % 256 % 16 = v / 256 % 16 := by omega
  have e7 : v % 256 / 2 ^ 4 = v / 16 % 16 := by omega
  have e8 : v % 256 % 16 = v % 16 := by omega
  rw [e1, e2, e3, e4, e5, e6, e7, e8]

theorem hexFold_hex16 (v : Nat) (h : v < 65536) : hexFold 0 (hex16 v) = v := by
  rw [hex16_eq]
  simp only [hexFold, hexVal_hexDigit _ (Nat.mod_lt _ (by omega : 0 < 16))]
  omega

private theorem hexFold_hex32 (v : Nat) (h : v < 4294967296) : hexFold 0 (hex32 v) = v := by
  rw [hex32_eq]
  simp only [hexFold, hexVal_hexDigit _ (Nat.mod_lt _ (by omega : 0 < 16))]
  omega

theorem hex16_ok (v : Nat) : (hex16 v).length = 4 ∧ (hex16 v).all (fun d => (hexVal d).isSome) = true := by
  rw [hex16_eq]
  simp [hexVal_hexDigit _ (Nat.mod_lt _ (by omega : 0 < 16))]

private theorem hex32_ok (v : Nat) : (hex32 v).length = 8 ∧ (hex32 v).all (fun d => (hexVal d).isSome) = true := by
  rw [hex32_eq]
  simp [hexVal_hexDigit _ (Nat.mod_lt _ (by omega : 0 < 16))]

theorem utf8_append_eq {c : Nat} {w : List Nat} (h : encode .utf8 c = some w) : utf8Append c = .ok w := by
  have hh := encode_exact .utf8 c 6 (encode_scalar h) (by omega)
  simp only [appendFn, Bool.not_false, if_true, appendUtf8] at hh
  rw [if_pos (by omega), h] at hh
  simp only at hh
  rw [if_pos (by have := encode_utf8_length h; omega)] at hh
  exact hh

theorem encode_ascii {c : Nat} (h : c < 128) : encode .utf8 c = some [c] := by
  have : Scalar c := by unfold Scalar; omega
  simp [encode, this, h]

/-- Shape of one printed code point (double-quoted form): a plain character, a short escape, `\\uXXXX` or `\\UXXXXXXXX`. -/
private inductive Printed : Nat → List Nat → Prop
  | plain (c : Nat) (h0 : 32 ≤ c) (h : c < 127) (h1 : c ≠ 92) (h2 : c ≠ 34) : Printed c [c]
  | same (c : Nat) (h : c = 34 ∨ c = 92) : Printed c [92, c]
  | short (c d : Nat) (h : (c, d) ∈ [(8, 98), (12, 102), (10, 110), (13, 114), (9, 116)]) : Printed c [92, d]
  | u (c : Nat) (h : c < 65536) : Printed c (92 :: 117 :: hex16 c)
  | U (c : Nat) (h : c < 4294967296) : Printed c (92 :: 85 :: hex32 c)

private theorem printed (c : Nat) (hs : Scalar c) : Printed c (printEscapedCp c false) := by
  unfold Scalar at hs
  unfold printEscapedCp
  simp only [Bool.false_eq_true, if_false]
  split_ifs with h1 h2 h3 h4 h5 h6 h7 h8 h9 h10 h11
  · subst h2; exact .short 8 98 (by decide)
  · subst h3; exact .short 12 102 (by decide)
  · subst h4; exact .short 10 110 (by decide)
  · subst h5; exact .short 13 114 (by decide)
  · subst h6; exact .short 9 116 (by decide)
  · subst h7; exact .same 92 (by decide)
  · subst h8; exact .plain 39 (by decide) (by decide) (by decide) (by decide)
  · subst h9; exact .same 34 (by decide)
  · rw [Nat.mod_eq_of_lt (by omega)]; exact .u c (by omega)
  · exact .plain c (by omega) (by omega) h7 h9
  · rw [Nat.mod_eq_of_lt (by omega)]; exact .u c (by omega)
  · exact .U c (by omega)

private theorem unescape_printed {c : Nat} {p w : List Nat} (hp : Printed c p) (hw : encode .utf8 c = some w) (fuel : Nat) (s : List Nat) :
    unescapeLoop (fuel + 1) (p ++ s) = (do let r ← unescapeLoop fuel s; pure (w ++ r)) := by
  cases hp with
  | plain h0 h h1 h2 =>
    rw [encode_ascii (by omega)] at hw
    simp only [Option.some.injEq] at hw; subst hw
    simp [unescapeLoop, h1]
  | same h =>
    rw [encode_ascii (by omega)] at hw
    simp only [Option.some.injEq] at hw; subst hw
    simp only [List.cons_append, List.nil_append, unescapeLoop, if_true]
    rw [if_pos (by omega)]
  | short d h =>
    simp only [List.mem_cons, Prod.mk.injEq, List.not_mem_nil, or_false] at h
    rcases h with ⟨rfl, rfl⟩ | ⟨rfl, rfl⟩ | ⟨rfl, rfl⟩ | ⟨rfl, rfl⟩ | ⟨rfl, rfl⟩ <;>
    · rw [encode_ascii (by omega)] at hw
      simp only [Option.some.injEq] at hw; subst hw
      simp [unescapeLoop]
  | u h =>
    have hl := (hex16_ok c).1
    simp only [List.cons_append, unescapeLoop, if_true]
    simp only [List.length_append, hl, List.take_append_of_le_length (Nat.le_of_eq hl.symm)]
    rw [List.take_of_length_le (Nat.le_of_eq hl), hexFold_hex16 c h, utf8_append_eq hw, List.drop_append_of_le_length (Nat.le_of_eq hl.symm),
      List.drop_of_length_le (Nat.le_of_eq hl)]
    simp
    omega
  | U h =>
    have hl := (hex32_ok c).1
    simp only [List.cons_append, unescapeLoop, if_true]
    simp only [List.length_append, hl, List.take_append_of_le_length (Nat.le_of_eq hl.symm)]
    rw [List.take_of_length_le (Nat.le_of_eq hl), hexFold_hex32 c h, utf8_append_eq hw, List.drop_append_of_le_length (Nat.le_of_eq hl.symm),
      List.drop_of_length_le (Nat.le_of_eq hl)]
    simp
    omega

private theorem scan_printed {c : Nat} {p : List Nat} (hp : Printed c p) (fuel : Nat) (s : List Nat) :
    scanQuoted (fuel + 1) (p ++ s) = (do let x ← scanQuoted fuel s; pure (p ++ x.1, (if p = [c] then x.2.1 else true), x.2.2)) := by
  cases hp with
  | plain h0 h h1 h2 => simp [scanQuoted, h1, h2]
  | same h => rcases h with rfl | rfl <;> simp [scanQuoted]
  | short d h =>
    simp only [List.mem_cons, Prod.mk.injEq, List.not_mem_nil, or_false] at h
    rcases h with ⟨rfl, rfl⟩ | ⟨rfl, rfl⟩ | ⟨rfl, rfl⟩ | ⟨rfl, rfl⟩ | ⟨rfl, rfl⟩ <;> simp [scanQuoted]
  | u h =>
    have hl := (hex16_ok c).1
    have ha := (hex16_ok c).2
    simp only [List.cons_append, scanQuoted, if_true]
    rw [if_neg (by omega)]
    simp only [List.length_append, hl, List.take_append_of_le_length (Nat.le_of_eq hl.symm)]
    rw [if_neg (by omega), List.take_of_length_le (Nat.le_of_eq hl), ha, List.drop_append_of_le_length (Nat.le_of_eq hl.symm),
      List.drop_of_length_le (Nat.le_of_eq hl)]
    simp
  | U h =>
    have hl := (hex32_ok c).1
    have ha := (hex32_ok c).2
    simp only [List.cons_append, scanQuoted, if_true]
    rw [if_neg (by omega), if_neg (by omega)]
    simp only [List.length_append, hl, List.take_append_of_le_length (Nat.le_of_eq hl.symm)]
    rw [if_neg (by omega), List.take_of_length_le (Nat.le_of_eq hl), ha, List.drop_append_of_le_length (Nat.le_of_eq hl.symm),
      List.drop_of_length_le (Nat.le_of_eq hl)]
    simp

private theorem printed_ne_nil {c : Nat} {p : List Nat} (hp : Printed c p) : p ≠ [] := by
  cases hp <;> simp

private theorem printed_length (cps : List Nat) (hs : ∀ c ∈ cps, Scalar c) :
    cps.length ≤ (cps.flatMap (fun c => printEscapedCp c false)).length := by
  induction cps with
  | nil => simp
  | cons c cs ih =>
    have h1 := ih (fun x hx => hs x (List.mem_cons_of_mem _ hx))
    have h2 := List.length_pos_iff.2 (printed_ne_nil (printed c (hs c (List.mem_cons_self))))
    simp only [List.flatMap_cons, List.length_append, List.length_cons]
    omega

theorem encodeAll_scalar {e : Enc} {cs us : List Nat} (h : encodeAll e cs = some us) : ∀ c ∈ cs, Scalar c := by
  induction cs generalizing us with
  | nil => simp
  | cons c cs ih =>
    obtain ⟨a, b, h1, h2, rfl⟩ := encodeAll_cons.1 h
    intro x hx
    rcases List.mem_cons.1 hx with rfl | hx
    · exact encode_scalar h1
    · exact ih h2 x hx

private theorem print_loop (sq : Bool) (cps us : List Nat) (fuel : Nat) (h : encodeAll .utf8 cps = some us) (hf : cps.length ≤ fuel) :
    printEscapedLoop sq fuel us = .ok (cps.flatMap (fun c => printEscapedCp c sq)) := by
  induction cps generalizing us fuel with
  | nil => simp [encodeAll] at h; subst h; cases fuel <;> simp [printEscapedLoop]
  | cons c cs ih =>
    have hb := encodeAll_bound h
    obtain ⟨a, b, h1, h2, rfl⟩ := encodeAll_cons.1 h
    have hd := (decode_exact .utf8 (a ++ b) hb c b).2 ⟨a, h1, rfl⟩
    simp only [nextFn, Bool.not_false, if_true] at hd
    simp only [List.length_cons] at hf
    obtain ⟨f, rfl⟩ : ∃ f, fuel = f + 1 := ⟨fuel - 1, by omega⟩
    cases hab : a ++ b with
    | nil => exact absurd (List.append_eq_nil_iff.1 hab).1 (encode_nonempty h1)
    | cons x xs =>
      simp only [printEscapedLoop]
      rw [← hab, hd]
      simp [ih b f h2 (by omega)]

theorem encodeAll_length {cs us : List Nat} (h : encodeAll .utf8 cs = some us) : cs.length ≤ us.length := by
  induction cs generalizing us with
  | nil => simp
  | cons c cs ih =>
    obtain ⟨a, b, h1, h2, rfl⟩ := encodeAll_cons.1 h
    have := ih h2
    have := encode_utf8_length h1
    simp; omega

private theorem scan_loop (cps rest : List Nat) (hs : ∀ c ∈ cps, Scalar c) (fuel : Nat) (hf : cps.length < fuel) :
    scanQuoted fuel (cps.flatMap (fun c => printEscapedCp c false) ++ 34 :: rest) =
      .ok (cps.flatMap (fun c => printEscapedCp c false), !decide (∀ c ∈ cps, printEscapedCp c false = [c]), rest) := by
  induction cps generalizing fuel with
  | nil =>
    obtain ⟨f, rfl⟩ : ∃ f, fuel = f + 1 := ⟨fuel - 1, by simp at hf; omega⟩
    simp [scanQuoted]
  | cons c cs ih =>
    simp only [List.length_cons] at hf
    obtain ⟨f, rfl⟩ : ∃ f, fuel = f + 1 := ⟨fuel - 1, by omega⟩
    have hp := printed c (hs c List.mem_cons_self)
    rw [List.flatMap_cons, List.append_assoc, scan_printed hp, ih (fun x hx => hs x (List.mem_cons_of_mem _ hx)) f (by omega)]
    by_cases h : printEscapedCp c false = [c]
    · simp [h]
    · simp [h]

private theorem unescape_loop (cps us : List Nat) (h : encodeAll .utf8 cps = some us) (fuel : Nat) (hf : cps.length ≤ fuel) :
    unescapeLoop fuel (cps.flatMap (fun c => printEscapedCp c false)) = .ok us := by
  induction cps generalizing us fuel with
  | nil => simp [encodeAll] at h; subst h; cases fuel <;> simp [unescapeLoop]
  | cons c cs ih =>
    obtain ⟨a, b, h1, h2, rfl⟩ := encodeAll_cons.1 h
    simp only [List.length_cons] at hf
    obtain ⟨f, rfl⟩ : ∃ f, fuel = f + 1 := ⟨fuel - 1, by omega⟩
    rw [List.flatMap_cons, unescape_printed (printed c (encode_scalar h1)) h1, ih b h2 f (by omega)]
    simp

private theorem plain_eq (cps us : List Nat) (h : encodeAll .utf8 cps = some us)
    (hp : ∀ c ∈ cps, printEscapedCp c false = [c]) : cps.flatMap (fun c => printEscapedCp c false) = us := by
  induction cps generalizing us with
  | nil => simp [encodeAll] at h; subst h; simp
  | cons c cs ih =>
    obtain ⟨a, b, h1, h2, rfl⟩ := encodeAll_cons.1 h
    have hc := hp c List.mem_cons_self
    have hlt : c < 128 := by
      by_contra hge
      unfold printEscapedCp at hc
      rw [if_neg (by omega)] at hc
      split_ifs at hc <;> simp at hc
    rw [encode_ascii hlt] at h1
    simp only [Option.some.injEq] at h1; subst h1
    rw [List.flatMap_cons, hc, ih b h2 (fun x hx => hp x (List.mem_cons_of_mem _ hx))]

private theorem printed_ascii {c : Nat} {p : List Nat} (hp : Printed c p) : ∀ b ∈ p, 0x20 ≤ b ∧ b < 0x7f := by
  have hex : ∀ v, v < 16 → 0x20 ≤ hexDigit v ∧ hexDigit v < 0x7f := by decide
  have hm : ∀ v, 0x20 ≤ hexDigit (v % 16) ∧ hexDigit (v % 16) < 0x7f := fun v => hex _ (Nat.mod_lt _ (by omega))
  cases hp with
  | plain h0 h h1 h2 => intro b hb; rw [List.mem_singleton] at hb; omega
  | same h => intro b hb; simp at hb; omega
  | short d h =>
    simp only [List.mem_cons, Prod.mk.injEq, List.not_mem_nil, or_false] at h
    intro b hb; simp at hb; omega
  | u h => rw [hex16_eq]; simp [hm]
  | U h => rw [hex32_eq]; simp [hm]

/-- C16: for every well-formed UTF-8 text (any code points, any length), printing it as a double-quoted literal succeeds,
    the literal is pure ASCII, and reading that literal back (whatever text follows it) yields exactly the original
    bytes and leaves exactly the following text unread. -/
theorem escaped_print_read_roundtrip (cps src rest : List Nat) (h : encodeAll .utf8 cps = some src) :
    ∃ lit, printEscapedUtf8 src false = .ok lit ∧ (∀ b ∈ lit, 0x20 ≤ b ∧ b < 0x7f) ∧
      readDoublequote (lit ++ rest) = .ok (some (src, rest)) := by
  have hs := encodeAll_scalar h
  refine ⟨_, by simp only [printEscapedUtf8, print_loop false cps src _ h (encodeAll_length h), Res.bind_ok, Res.pure_eq]; rfl, ?_, ?_⟩
  · intro b hb
    simp only [Bool.false_eq_true, if_false, List.mem_append, List.mem_singleton, List.mem_flatMap] at hb
    rcases hb with (rfl | ⟨c, hc, hb⟩) | rfl
    · omega
    · exact printed_ascii (printed c (hs c hc)) b hb
    · omega
  · simp only [Bool.false_eq_true, if_false, List.cons_append, List.nil_append, List.append_assoc, readDoublequote, parseDoublequote]
    have hl := printed_length cps hs
    rw [scan_loop cps rest hs _ (by simp only [List.length_append, List.length_cons]; omega)]
    by_cases hp : ∀ c ∈ cps, printEscapedCp c false = [c]
    · rw [decide_eq_true hp, plain_eq cps src h hp]; rfl
    · simp only [Res.bind_ok, Res.pure_eq, hp, decide_false, Bool.not_false, if_true, unescape]
      rw [unescape_loop cps src h _ hl]
      rfl

private inductive PrintedQ (q : Nat) : Nat → List Nat → Prop
  | plain (c : Nat) (h : c < 127) (h1 : c ≠ 92) (h2 : c ≠ q) : PrintedQ q c [c]
  | same (c : Nat) (h : c = 34 ∨ c = 39 ∨ c = 92) : PrintedQ q c [92, c]
  | short (c d : Nat) (h : (c, d) ∈ [(8, 98), (12, 102), (10, 110), (13, 114), (9, 116)]) : PrintedQ q c [92, d]
  | u (c : Nat) (h : c < 65536) : PrintedQ q c (92 :: 117 :: hex16 c)

private theorem printedQ (sq : Bool) (c : Nat) (hb : c < 0x10000) :
    PrintedQ (if sq then 39 else 34) c (printEscapedCp c sq) := by
  unfold printEscapedCp
  cases sq
  · simp only [Bool.false_eq_true, if_false]
    split_ifs with h1 h2 h3 h4 h5 h6 h7 h8 h9 h10
    · subst h2; exact .short 8 98 (by decide)
    · subst h3; exact .short 12 102 (by decide)
    · subst h4; exact .short 10 110 (by decide)
    · subst h5; exact .short 13 114 (by decide)
    · subst h6; exact .short 9 116 (by decide)
    · subst h7; exact .same 92 (by decide)
    · subst h8; exact .plain 39 (by decide) (by decide) (by decide)
    · subst h9; exact .same 34 (by decide)
    · rw [Nat.mod_eq_of_lt (by omega)]; exact .u c (by omega)
    · exact .plain c (by omega) h7 (by omega)
    · rw [Nat.mod_eq_of_lt (by omega)]; exact .u c (by omega)
  · simp only [if_true]
    split_ifs with h1 h2 h3 h4 h5 h6 h7 h8 h9 h10
    · subst h2; exact .short 8 98 (by decide)
    · subst h3; exact .short 12 102 (by decide)
    · subst h4; exact .short 10 110 (by decide)
    · subst h5; exact .short 13 114 (by decide)
    · subst h6; exact .short 9 116 (by decide)
    · subst h7; exact .same 92 (by decide)
    · subst h8; exact .same 39 (by decide)
    · subst h9; exact .plain 34 (by decide) (by decide) (by decide)
    · rw [Nat.mod_eq_of_lt (by omega)]; exact .u c (by omega)
    · exact .plain c (by omega) h7 (by omega)
    · rw [Nat.mod_eq_of_lt (by omega)]; exact .u c (by omega)

private theorem ds_printed {q c : Nat} {p w : List Nat} (hp : PrintedQ q c p) (hw : encode .utf8 c = some w) (fuel : Nat) (s : List Nat) :
    dsQuotedLoop q (fuel + 1) (p ++ s) = (do let x ← dsQuotedLoop q fuel s; pure (w ++ x.1, x.2)) := by
  cases hp with
  | plain h h1 h2 =>
    rw [encode_ascii (by omega)] at hw
    simp only [Option.some.injEq] at hw; subst hw
    simp [dsQuotedLoop, h1, h2]
  | same h =>
    rw [encode_ascii (by omega)] at hw
    simp only [Option.some.injEq] at hw; subst hw
    simp only [List.cons_append, List.nil_append, dsQuotedLoop, if_true]
    rw [if_pos (by omega)]
  | short d h =>
    simp only [List.mem_cons, Prod.mk.injEq, List.not_mem_nil, or_false] at h
    rcases h with ⟨rfl, rfl⟩ | ⟨rfl, rfl⟩ | ⟨rfl, rfl⟩ | ⟨rfl, rfl⟩ | ⟨rfl, rfl⟩ <;>
    · rw [encode_ascii (by omega)] at hw
      simp only [Option.some.injEq] at hw; subst hw
      simp [dsQuotedLoop]
  | u h =>
    have hl := (hex16_ok c).1
    have ha := (hex16_ok c).2
    simp only [List.cons_append, dsQuotedLoop, if_true]
    simp only [List.length_append, hl, List.take_append_of_le_length (Nat.le_of_eq hl.symm)]
    rw [List.take_of_length_le (Nat.le_of_eq hl), ha, hexFold_hex16 c h, utf8_append_eq hw, List.drop_append_of_le_length (Nat.le_of_eq hl.symm),
      List.drop_of_length_le (Nat.le_of_eq hl)]
    simp
    omega

private theorem ds_loop (sq : Bool) (cps us rest : List Nat) (h : encodeAll .utf8 cps = some us) (hb : ∀ c ∈ cps, c < 0x10000)
    (fuel : Nat) (hf : cps.length < fuel) :
    dsQuotedLoop (if sq then 39 else 34) fuel (cps.flatMap (fun c => printEscapedCp c sq) ++ (if sq then 39 else 34) :: rest) = .ok (us, rest) := by
  induction cps generalizing us fuel with
  | nil =>
    simp [encodeAll] at h; subst h
    obtain ⟨f, rfl⟩ : ∃ f, fuel = f + 1 := ⟨fuel - 1, by simp at hf; omega⟩
    cases sq <;> simp [dsQuotedLoop]
  | cons c cs ih =>
    obtain ⟨a, b, h1, h2, rfl⟩ := encodeAll_cons.1 h
    simp only [List.length_cons] at hf
    obtain ⟨f, rfl⟩ : ∃ f, fuel = f + 1 := ⟨fuel - 1, by omega⟩
    rw [List.flatMap_cons, List.append_assoc, ds_printed (printedQ sq c (hb c List.mem_cons_self)) h1,
      ih b h2 (fun x hx => hb x (List.mem_cons_of_mem _ hx)) f (by omega)]
    simp

private theorem printedQ_length (sq : Bool) (cps : List Nat) (hs : ∀ c ∈ cps, c < 0x10000) :
    cps.length ≤ (cps.flatMap (fun c => printEscapedCp c sq)).length := by
  induction cps with
  | nil => simp
  | cons c cs ih =>
    have h1 := ih (fun x hx => hs x (List.mem_cons_of_mem _ hx))
    have h2 : printEscapedCp c sq ≠ [] := by
      have hp := printedQ sq c (hs c (List.mem_cons_self))
      generalize printEscapedCp c sq = p at hp
      cases hp <;> simp
    have h2 := List.length_pos_iff.2 h2
    simp only [List.flatMap_cons, List.length_append, List.length_cons]
    omega

/-- C16, second reader: names printed inside a type description (either quote style) are read back by the type
    description parser, for every text of the basic multilingual plane.  Missing: code points from 0x10000 up, for which
    the claim is false, see `escaped_datashape_supplementary_violated`. -/
theorem escaped_datashape_roundtrip_partial (sq : Bool) (cps src rest : List Nat) (h : encodeAll .utf8 cps = some src)
    (hb : ∀ c ∈ cps, c < 0x10000) :
    ∃ lit, printEscapedUtf8 src sq = .ok lit ∧ dsQuoted (lit ++ rest) = .ok (some (src, rest)) := by
  refine ⟨_, by simp only [printEscapedUtf8, print_loop sq cps src _ h (encodeAll_length h), Res.bind_ok, Res.pure_eq]; rfl, ?_⟩
  have hl := printedQ_length sq cps hb
  have := ds_loop sq cps src rest h hb ((cps.flatMap (fun c => printEscapedCp c sq) ++ (if sq then 39 else 34) :: rest).length)
    (by simp only [List.length_append, List.length_cons]; omega)
  cases sq
  · simp only [Bool.false_eq_true, if_false] at this
    simp only [Bool.false_eq_true, if_false, List.cons_append, List.nil_append, List.append_assoc, dsQuoted]
    rw [this]; rfl
  · simp only [if_true] at this
    simp only [if_true, List.cons_append, List.nil_append, List.append_assoc, dsQuoted]
    rw [this]; rfl

/-- Every text containing a supplementary-plane character after a basic-plane prefix is printed to a literal that the type
    description parser rejects. -/
theorem escaped_datashape_supplementary_violated (sq : Bool) (c : Nat) (hs : Scalar c) (hc : 0x10000 ≤ c) (rest : List Nat) :
    ∃ src lit, encode .utf8 c = some src ∧ printEscapedUtf8 src sq = .ok lit ∧ dsQuoted (lit ++ rest) = .throw .parse := by
  have he : encodeAll .utf8 [c] = encode .utf8 c := by
    cases h : encode .utf8 c <;> simp [encodeAll, h]
  cases h : encode .utf8 c with
  | none =>
    simp only [encode, hs, not_true_eq_false, if_false] at h
    split_ifs at h
  | some src =>
    rw [h] at he
    refine ⟨src, _, rfl, by simp only [printEscapedUtf8, print_loop sq [c] src _ he (encodeAll_length he), Res.bind_ok, Res.pure_eq]; rfl, ?_⟩
    have hp : printEscapedCp c sq = 92 :: 85 :: hex32 c := by
      unfold printEscapedCp
      rw [if_neg (by omega), if_neg (by omega)]; rfl
    cases sq <;> simp [dsQuoted, hp, dsQuotedLoop]

/-- A text mixing plain characters, a quote, a newline, an accented letter and a supplementary-plane character. -/
example : ∃ src, encodeAll .utf8 [97, 34, 10, 0xe9, 0x1f600] = some src ∧
    printEscapedUtf8 src false = .ok ([34, 97, 92, 34, 92, 110, 92, 117] ++ [48, 48, 101, 57] ++ [92, 85] ++ [48, 48, 48, 49, 102, 54, 48, 48] ++ [34]) := by
  refine ⟨_, rfl, ?_⟩
  decide

end Dynd
