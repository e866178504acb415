import Verif.Model.JsonScalar
import Verif.Props.JsonRound
import Verif.Props.JsonTotal
import Mathlib.Tactic.Tauto
/-
C103: reading one scalar from JSON text with `nd::json::parse`.
-/
namespace Dynd

/-! ### specification -/

/-- capital letters made small -/
def lowerWord (w : List Nat) : List Nat := w.map fun c => if 65 ≤ c ∧ c ≤ 90 then c + 32 else c

/-- The words for the two truth values: 1 y t true on yes / 0 n f false no off, in any capitalisation. -/
def TruthWord (w : List Nat) (b : Bool) : Prop :=
  if b then lowerWord w ∈ [[49], [121], [116], [116, 114, 117, 101], [111, 110], [121, 101, 115]]
  else lowerWord w ∈ [[48], [110], [102], [102, 97, 108, 115, 101], [110, 111], [111, 102, 102]]

/-- null in any capitalisation, NA, None, or nothing. -/
def MissingWord (w : List Nat) : Prop :=
  lowerWord w = [110, 117, 108, 108] ∨ w = [78, 65] ∨ w = [78, 111, 110, 101] ∨ w = []

/-- The stored missing value of the option types this parser supports. -/
inductive MissingValue : JTy → JVal → Prop
  | bool : MissingValue .bool (.bool 2)
  | signed (t : IntTy) (h : t.signed = true) : MissingValue (.int t) (.int t.min)
  | uint32 : MissingValue (.int ⟨32, false⟩) (.int 4294967295)
  | string : MissingValue .string (.str [])

/-- `x` is a text of the value `v` of scalar type `t`. -/
inductive ScalarText : JTy → List Nat → JVal → Prop
  | tru (x : List Nat) (h : x = [116, 114, 117, 101] ∨ x = [49]) : ScalarText .bool x (.bool 1)
  | fls (x : List Nat) (h : x = [102, 97, 108, 115, 101] ∨ x = [48]) : ScalarText .bool x (.bool 0)
  | word (k w : List Nat) (b : Bool) (hk : StrText k w) (h : TruthWord w b) :
      ScalarText .bool (34 :: (k ++ [34])) (.bool (if b then 1 else 0))
  | signed (t : IntTy) (x : List Nat) (y : Int) (hs : t.signed = true) (hj : JsonNum x) (h : SIntText x y) (hy : t.Has y) :
      ScalarText (.int t) x (.int y)
  | unsigned (t : IntTy) (x : List Nat) (n : Nat) (hs : t.signed = false) (hj : JsonNum x) (h : UIntText x n)
      (hy : t.Has n) : ScalarText (.int t) x (.int n)
  | string (k bs : List Nat) (h : StrText k bs) : ScalarText .string (34 :: (k ++ [34])) (.str bs)
  | missing (t : JTy) (x : List Nat) (v : JVal) (h : MissingWord x) (hv : MissingValue t v) : ScalarText (.option t) x v
  | present (t : JTy) (x : List Nat) (v : JVal) (h : ScalarText t x v) (hs : t = .bool ∨ (∃ i, t = .int i) ∨ t = .string) :
      ScalarText (.option t) x v

/-- The scalar types: `bool`, the integers of 8 to 64 bits, `string`. -/
inductive PlainScalar : JTy → Prop
  | bool : PlainScalar .bool
  | int (t : IntTy) (h1 : 8 ≤ t.bits) (h2 : t.bits ≤ 64) : PlainScalar (.int t)
  | string : PlainScalar .string

/-- The types this parser supports: scalars, and optional scalars other than `?uint8`, `?uint16` and `?uint64`. -/
inductive Parsable : JTy → Prop
  | plain (t : JTy) (h : PlainScalar t) : Parsable t
  | option (t : JTy) (h : PlainScalar t) (v : JVal) (hv : MissingValue t v) : Parsable (.option t)

/-! ### lemmas -/

private theorem ciEq_iff {c l : Nat} (h1 : 97 ≤ l) (h2 : l ≤ 122) :
    ciEq c l = true ↔ (if 65 ≤ c ∧ c ≤ 90 then c + 32 else c) = l := by
  simp only [ciEq, Bool.or_eq_true, decide_eq_true_eq]
  split <;> omega

private theorem lower_one {c l : Nat} : (if 65 ≤ c ∧ c ≤ 90 then c + 32 else c) = l ↔
    (c = l ∧ ¬ (65 ≤ c ∧ c ≤ 90)) ∨ (c + 32 = l ∧ 65 ≤ c ∧ c ≤ 90) := by
  split <;> omega

/-- `parse<bool>` knows exactly the truth words. -/
theorem parseBool_exact (w : List Nat) (b : Bool) : parseBool w = .ok b ↔ TruthWord w b := by
  unfold parseBool
  match w with
  | [] => cases b <;> simp [TruthWord, lowerWord]
  | [c] =>
    simp only
    by_cases h1 : c = 48 ∨ c = 110 ∨ c = 78 ∨ c = 102 ∨ c = 70
    · rw [if_pos h1]
      rcases h1 with rfl | rfl | rfl | rfl | rfl <;> cases b <;> simp [TruthWord, lowerWord]
    · rw [if_neg h1]
      by_cases h2 : c = 49 ∨ c = 121 ∨ c = 89 ∨ c = 116 ∨ c = 84
      · rw [if_pos h2]
        rcases h2 with rfl | rfl | rfl | rfl | rfl <;> cases b <;> simp [TruthWord, lowerWord]
      · rw [if_neg h2]
        cases b <;> simp only [TruthWord, lowerWord, List.map_cons, List.map_nil, List.mem_cons, List.cons.injEq,
          List.not_mem_nil, reduceCtorEq, and_true, and_false, or_false, if_true, Bool.false_eq_true, if_false, lower_one] <;>
          constructor <;> intro h <;> first | omega | cases h
  | [a, d] =>
    cases b <;>
    simp only [TruthWord, lowerWord, List.map_cons, List.map_nil, List.mem_cons, List.cons.injEq,
      List.not_mem_nil, reduceCtorEq, and_true, and_false, or_false, false_or, if_true, Bool.false_eq_true, if_false,
      Bool.and_eq_true, ciEq_iff (show 97 ≤ 110 by decide) (by decide), ciEq_iff (show 97 ≤ 111 by decide) (by decide)] <;>
    split_ifs <;> simp_all
  | [a, d, e] =>
    cases b <;>
    simp only [TruthWord, lowerWord, List.map_cons, List.map_nil, List.mem_cons, List.cons.injEq,
      List.not_mem_nil, reduceCtorEq, and_true, and_false, or_false, false_or, if_true, Bool.false_eq_true, if_false,
      Bool.and_eq_true, ciEq_iff (show 97 ≤ 121 by decide) (by decide), ciEq_iff (show 97 ≤ 111 by decide) (by decide),
      ciEq_iff (show 97 ≤ 102 by decide) (by decide), ciEq_iff (show 97 ≤ 101 by decide) (by decide),
      ciEq_iff (show 97 ≤ 115 by decide) (by decide)] <;>
    split_ifs <;> simp_all
  | [a, d, e, f] =>
    cases b <;>
    simp only [TruthWord, lowerWord, List.map_cons, List.map_nil, List.mem_cons, List.cons.injEq,
      List.not_mem_nil, reduceCtorEq, and_true, and_false, or_false, false_or, if_true, Bool.false_eq_true, if_false,
      Bool.and_eq_true, ciEq_iff (show 97 ≤ 116 by decide) (by decide), ciEq_iff (show 97 ≤ 114 by decide) (by decide),
      ciEq_iff (show 97 ≤ 117 by decide) (by decide), ciEq_iff (show 97 ≤ 101 by decide) (by decide)] <;>
    split_ifs <;> simp_all
  | [a, d, e, f, g] =>
    cases b <;>
    simp only [TruthWord, lowerWord, List.map_cons, List.map_nil, List.mem_cons, List.cons.injEq,
      List.not_mem_nil, reduceCtorEq, and_true, and_false, or_false, false_or, if_true, Bool.false_eq_true, if_false,
      Bool.and_eq_true, ciEq_iff (show 97 ≤ 102 by decide) (by decide), ciEq_iff (show 97 ≤ 97 by decide) (by decide),
      ciEq_iff (show 97 ≤ 108 by decide) (by decide), ciEq_iff (show 97 ≤ 115 by decide) (by decide),
      ciEq_iff (show 97 ≤ 101 by decide) (by decide)] <;>
    split_ifs <;> simp_all
  | a :: d :: e :: f :: g :: i :: r =>
    cases b <;> simp [TruthWord, lowerWord]

theorem parseBool_noub (w : List Nat) : parseBool w ≠ .ub := by
  unfold parseBool
  split <;> (try split_ifs) <;> simp


theorem utf8Append_noub (c : Nat) : utf8Append c ≠ .ub := by
  unfold utf8Append
  split_ifs <;> simp

theorem unescapeLoop_noub (f : Nat) : ∀ s : List Nat, s.length ≤ f → unescapeLoop f s ≠ .ub := by
  induction f with
  | zero =>
    intro s hf
    have : s = [] := List.length_eq_zero_iff.1 (by omega)
    subst this
    simp [unescapeLoop]
  | succ f ih =>
    intro s hf
    have key : ∀ (r : List Nat) (a : List Nat), r.length ≤ f →
        (do let r ← unescapeLoop f r; pure (a ++ r) : Res (List Nat)) ≠ .ub := by
      intro r a hr
      have := ih r hr
      cases hx : unescapeLoop f r with
      | ok x => simp
      | throw e => simp
      | ub => exact absurd hx this
    have key2 : ∀ (r x : List Nat), r.length ≤ f →
        (do let a ← utf8Append (hexFold 0 x); let r ← unescapeLoop f r; pure (a ++ r) : Res (List Nat)) ≠ .ub := by
      intro r x hr
      have := utf8Append_noub (hexFold 0 x)
      cases hx : utf8Append (hexFold 0 x) with
      | ok a => exact key r a hr
      | throw e => simp
      | ub => exact absurd hx this
    match s with
    | [] => simp [unescapeLoop]
    | c :: s =>
      simp only [List.length_cons] at hf
      rw [unescapeLoop.eq_def]
      simp only
      split
      · match s with
        | [] => simp
        | d :: s =>
          simp only [List.length_cons] at hf
          simp only
          split_ifs
          · exact key s [d] (by omega)
          · exact key s [8] (by omega)
          · exact key s [12] (by omega)
          · exact key s [10] (by omega)
          · exact key s [13] (by omega)
          · exact key s [9] (by omega)
          · simp
          · exact key2 _ _ (by simp; omega)
          · simp
          · exact key2 _ _ (by simp; omega)
          · exact key s [63] (by omega)
      · exact key s [c] (by omega)

theorem unescape_noub (s : List Nat) : unescape s ≠ .ub := unescapeLoop_noub _ s (Nat.le_refl _)

/-- Text without a backslash is its own unescaped form. -/
theorem unescape_plain (s : List Nat) (h : 92 ∉ s) : unescape s = .ok s := by
  unfold unescape
  induction s with
  | nil => rfl
  | cons c s ih =>
    have hc : c ≠ 92 := fun e => h (by simp [e])
    rw [List.length_cons, unescapeLoop.eq_def]
    simp only [if_neg hc, ih (fun m => h (by simp [m])), Res.bind_ok, Res.pure_eq]

theorem hexNum_lt (x : List Nat) (h : ∀ d ∈ x, IsHex d) : hexNum x < 16 ^ x.length := by
  induction x with
  | nil => simp [hexNum]
  | cons d x ih =>
    have h1 := ih (fun e he => h e (by simp [he]))
    have h2 : hexDigVal d < 16 := by
      have := h d (by simp)
      unfold IsHex at this
      unfold hexDigVal
      split_ifs <;> omega
    have h3 : hexNum (d :: x) = hexDigVal d * 16 ^ x.length + hexNum x := by
      have := hexNum_foldl x (16 * 0 + hexDigVal d)
      simpa [hexNum] using this
    rw [h3, List.length_cons, pow_succ]
    nlinarith [Nat.one_le_pow x.length 16 (by omega)]

theorem hexFold_eq (x : List Nat) (h : ∀ d ∈ x, IsHex d) (hl : x.length ≤ 8) : hexFold 0 x = hexNum x := by
  have h1 := hexNum_lt x h
  have h2 : 16 ^ x.length ≤ 16 ^ 8 := Nat.pow_le_pow_right (by omega) hl
  have := hexFold_num x h 0 (by omega)
  simpa using this

theorem utf8Append_ascii {c : Nat} {a : List Nat} (h : utf8Append c = .ok a) (ha : ∀ b ∈ a, b < 128) : c < 128 ∧ a = [c] := by
  by_cases hc : c < 128
  · rw [utf8_append_eq (encode_ascii hc)] at h
    simp only [Res.ok.injEq] at h
    exact ⟨hc, h.symm⟩
  · exfalso
    have hv : Scalar c := by
      unfold utf8Append at h
      split at h
      · cases h
      · rename_i hv
        simp only [Bool.not_eq_true, Bool.not_eq_false'] at hv
        unfold isCodePointValid isSurrogate at hv
        simp only [Bool.and_eq_true, decide_eq_true_eq, Bool.not_eq_true'] at hv
        unfold Scalar
        simp at hv
        omega
    have : ∃ b t, encode .utf8 c = some (b :: t) ∧ 128 ≤ b := by
      unfold encode
      rw [if_neg (Decidable.not_not.2 hv)]
      simp only
      rw [if_neg hc]
      split_ifs
      · exact ⟨_, _, rfl, by omega⟩
      · exact ⟨_, _, rfl, by omega⟩
      · exact ⟨_, _, rfl, by omega⟩
    obtain ⟨b, t, h1, h2⟩ := this
    rw [utf8_append_eq h1] at h
    simp only [Res.ok.injEq] at h
    have := ha b (by rw [← h]; simp)
    omega

/-- If unescaping gives ASCII text, that is what the text means. -/
theorem unescape_ascii {k : List Nat} (h : JsonChars dyndLex k) : ∀ (fuel : Nat) (w : List Nat), k.length ≤ fuel →
    unescapeLoop fuel k = .ok w → (∀ c ∈ w, c < 128) → StrText k w := by
  have enc1 : ∀ {c : Nat} {cs us : List Nat}, c < 128 → encodeAll .utf8 cs = some us →
      encodeAll .utf8 (c :: cs) = some (c :: us) := by
    intro c cs us hc hu
    exact encodeAll_cons.2 ⟨[c], us, encode_ascii hc, hu, rfl⟩
  induction h with
  | nil =>
    intro fuel w _ hu _
    have : w = [] := by cases fuel <;> simp [unescapeLoop] at hu <;> exact hu
    subst this
    exact ⟨[], .nil, rfl⟩
  | raw c r hc hr ih =>
    intro fuel w hf hu hw
    simp only [List.length_cons] at hf
    obtain ⟨f, rfl⟩ : ∃ f, fuel = f + 1 := ⟨fuel - 1, by omega⟩
    have hc' : c ≠ 34 ∧ c ≠ 92 := hc
    rw [unescapeLoop.eq_def] at hu
    simp only [if_neg hc'.2] at hu
    rw [Res.bind_eq_ok] at hu
    obtain ⟨us, h1, h2⟩ := hu
    simp only [Res.pure_eq, Res.ok.injEq] at h2
    subst h2
    obtain ⟨cs, g1, g2⟩ := ih f us (by omega) h1 (fun d hd => hw d (by simp [hd]))
    have hlt := hw c (by simp)
    exact ⟨c :: cs, .raw c [c] r cs (encode_ascii hlt) hc'.1 hc'.2 g1, enc1 hlt g2⟩
  | short d r hd hr ih =>
    intro fuel w hf hu hw
    simp only [List.length_cons] at hf
    obtain ⟨f, rfl⟩ : ∃ f, fuel = f + 1 := ⟨fuel - 1, by omega⟩
    have step : ∀ c, (d, c) ∈ [(34, 34), (92, 92), (47, 47), (98, 8), (102, 12), (110, 10), (114, 13), (116, 9)] →
        unescapeLoop (f + 1) (92 :: d :: r) = (do let u ← unescapeLoop f r; pure (c :: u)) →
        StrText (92 :: d :: r) w := by
      intro c hm he
      rw [he, Res.bind_eq_ok] at hu
      obtain ⟨us, h1, h2⟩ := hu
      simp only [Res.pure_eq, Res.ok.injEq] at h2
      subst h2
      obtain ⟨cs, g1, g2⟩ := ih f us (by omega) h1 (fun d hd => hw d (by simp [hd]))
      exact ⟨c :: cs, .short d c r cs hm g1, enc1 (hw c (by simp)) g2⟩
    simp only [List.mem_cons, List.not_mem_nil, or_false] at hd
    rcases hd with rfl | rfl | rfl | rfl | rfl | rfl | rfl | rfl
    · exact step 34 (by decide) (by rw [unescapeLoop.eq_def]; simp)
    · exact step 92 (by decide) (by rw [unescapeLoop.eq_def]; simp)
    · exact step 47 (by decide) (by rw [unescapeLoop.eq_def]; simp)
    · exact step 8 (by decide) (by rw [unescapeLoop.eq_def]; simp)
    · exact step 12 (by decide) (by rw [unescapeLoop.eq_def]; simp)
    · exact step 10 (by decide) (by rw [unescapeLoop.eq_def]; simp)
    · exact step 13 (by decide) (by rw [unescapeLoop.eq_def]; simp)
    · exact step 9 (by decide) (by rw [unescapeLoop.eq_def]; simp)
  | u x r hl h hr ih =>
    intro fuel w hf hu hw
    simp only [List.length_cons, List.length_append] at hf
    obtain ⟨f, rfl⟩ : ∃ f, fuel = f + 1 := ⟨fuel - 1, by omega⟩
    have e1 : (x ++ r).take 4 = x := by rw [← hl]; simp
    have e2 : (x ++ r).drop 4 = r := by rw [← hl]; simp
    have e3 : ¬ (x ++ r).length < 4 := by simp; omega
    rw [unescapeLoop.eq_def] at hu
    simp only [if_pos rfl, e1, e2, e3, if_false, hexFold_eq x h (by omega)] at hu
    simp at hu
    rw [Res.bind_eq_ok] at hu
    obtain ⟨a, h1, h2⟩ := hu
    rw [Res.bind_eq_ok] at h2
    obtain ⟨us, h3, h4⟩ := h2
    simp only [Res.ok.injEq] at h4
    subst h4
    obtain ⟨ha, rfl⟩ := utf8Append_ascii h1 (fun b hb => hw b (by simp [hb]))
    obtain ⟨cs, g1, g2⟩ := ih f us (by omega) h3 (fun d hd => hw d (by simp [hd]))
    exact ⟨hexNum x :: cs, .u x r cs hl h (by unfold Scalar; omega) g1, enc1 ha g2⟩
  | U x r hb hl h hr ih =>
    intro fuel w hf hu hw
    simp only [List.length_cons, List.length_append] at hf
    obtain ⟨f, rfl⟩ : ∃ f, fuel = f + 1 := ⟨fuel - 1, by omega⟩
    have e1 : (x ++ r).take 8 = x := by rw [← hl]; simp
    have e2 : (x ++ r).drop 8 = r := by rw [← hl]; simp
    have e3 : ¬ (x ++ r).length < 8 := by simp; omega
    rw [unescapeLoop.eq_def] at hu
    simp only [if_pos rfl, e1, e2, e3, if_false, hexFold_eq x h (by omega)] at hu
    simp at hu
    rw [Res.bind_eq_ok] at hu
    obtain ⟨a, h1, h2⟩ := hu
    rw [Res.bind_eq_ok] at h2
    obtain ⟨us, h3, h4⟩ := h2
    simp only [Res.ok.injEq] at h4
    subst h4
    obtain ⟨ha, rfl⟩ := utf8Append_ascii h1 (fun b hb => hw b (by simp [hb]))
    obtain ⟨cs, g1, g2⟩ := ih f us (by omega) h3 (fun d hd => hw d (by simp [hd]))
    exact ⟨hexNum x :: cs, .U x r cs hl h (by unfold Scalar; omega) g1, enc1 ha g2⟩

private theorem encode_len {c : Nat} {w : List Nat} (h : encode .utf8 c = some w) : w.length ≤ 4 ∧ (c < 65536 → w.length ≤ 3) := by
  unfold encode at h
  split at h
  · cases h
  · simp only at h
    split_ifs at h <;> cases h <;> simp <;> omega

/-- An escape is longer than the character it stands for. -/
theorem escaped_longer {k cs : List Nat} (h : StrMeans k cs) : ∀ bs, encodeAll .utf8 cs = some bs →
    bs.length ≤ k.length ∧ (92 ∈ k → bs.length < k.length) := by
  induction h with
  | nil => intro bs hb; simp [encodeAll] at hb; subst hb; simp
  | raw c w r cs hw h1 h2 hr ih =>
    intro bs hb
    obtain ⟨a, b, g1, g2, rfl⟩ := encodeAll_cons.1 hb
    rw [hw] at g1; simp only [Option.some.injEq] at g1; subst g1
    obtain ⟨i1, i2⟩ := ih b g2
    refine ⟨by simp; omega, fun hm => ?_⟩
    rw [List.mem_append] at hm
    rcases hm with hm | hm
    · have := encode_raw hw h1 h2 92 hm
      exact absurd rfl this.2
    · have := i2 hm; simp; omega
  | short d c r cs h hr ih =>
    intro bs hb
    obtain ⟨a, b, g1, g2, rfl⟩ := encodeAll_cons.1 hb
    obtain ⟨i1, i2⟩ := ih b g2
    have hc : c < 128 := by
      simp only [List.mem_cons, List.not_mem_nil, or_false, Prod.mk.injEq] at h; omega
    rw [encode_ascii hc] at g1
    simp only [Option.some.injEq] at g1; subst g1
    exact ⟨by simp; omega, fun _ => by simp; omega⟩
  | u x r cs hl h hs hr ih =>
    intro bs hb
    obtain ⟨a, b, g1, g2, rfl⟩ := encodeAll_cons.1 hb
    obtain ⟨i1, i2⟩ := ih b g2
    have := encode_len g1
    exact ⟨by simp; omega, fun _ => by simp; omega⟩
  | U x r cs hl h hs hr ih =>
    intro bs hb
    obtain ⟨a, b, g1, g2, rfl⟩ := encodeAll_cons.1 hb
    obtain ⟨i1, i2⟩ := ih b g2
    have := encode_len g1
    exact ⟨by simp; omega, fun _ => by simp; omega⟩

/-! ### the theorems -/

private theorem tok_head {c d : Nat} {t r : List Nat} (hc : isSpace c = false) (h : c ≠ d) : jTok (d :: t) (c :: r) = none := by
  unfold jTok
  rw [jWs_cons hc]
  simp [List.isPrefixOf, Ne.symm h]

private theorem tok_here {c : Nat} {t r : List Nat} (hc : isSpace c = false) : jTok (c :: t) (c :: t ++ r) = some r := by
  have := jTok_of (w := []) (tok := c :: t) (rest := r) (by intro x hx; cases hx) ⟨c, t, rfl, hc⟩
  simpa using this

/-- whitespace after a text ends a number -/
private theorem ws_numEnd {w : List Nat} (hw : JWs dyndLex w) : NumEnd w := by
  have := valEnd_ws (r := []) hw valEnd_nil
  simpa using this.num

private theorem num_of_quote (r : List Nat) : jNumber (34 :: r) = none := by
  simp [jNumber, jMinus, jInt]

private theorem int_complete {t : IntTy} (h8 : 8 ≤ t.bits) {x : List Nat} {v : JVal} (h : ScalarText (.int t) x v) :
    JsonNum x ∧ ∃ y, v = .int y ∧ parseInt t x = .ok y := by
  obtain ⟨bits, sg⟩ := t
  cases h with
  | signed _ _ y hs hj h hy =>
    simp only at hs; subst hs
    refine ⟨hj, y, rfl, ?_⟩
    simp only [parseInt, if_true]
    exact parse_signed_exact h8 h hy
  | unsigned _ _ n hs hj h hy =>
    simp only at hs; subst hs
    refine ⟨hj, n, rfl, ?_⟩
    have : n < 2 ^ bits := by
      have := (IntTy.has_unsigned.1 hy).2
      exact_mod_cast this
    simp [parseInt, parse_unsigned_exact h this]

/-- A scalar text is read, and exactly it, when whitespace follows. -/
private theorem scalar_complete {t : JTy} (ht : PlainScalar t) {x : List Nat} {v : JVal} (h : ScalarText t x v)
    (hq : t = .string → 92 ∉ x) {w' : List Nat} (hw' : JWs dyndLex w') : scalarK t (x ++ w') = .ok (v, w') := by
  cases ht with
  | bool =>
    simp only [scalarK]
    unfold boolK
    cases h with
    | tru _ h =>
      rcases h with rfl | rfl
      · rw [show litTrue = 116 :: [114, 117, 101] from rfl, show [116, 114, 117, 101] ++ w' = 116 :: [114, 117, 101] ++ w' from rfl,
          tok_here (by decide)]
      · have hn : JsonNum [49] := ⟨[], [49], [], [], rfl, by simp, Or.inr ⟨49, [], rfl, by omega, by decide⟩, by simp, by simp⟩
        rw [show litTrue = 116 :: [114, 117, 101] from rfl, show litFalse = 102 :: [97, 108, 115, 101] from rfl]
        rw [List.singleton_append, tok_head (by decide) (by decide), tok_head (by decide) (by decide)]
        have := jNumber_complete hn (ws_numEnd hw')
        rw [List.singleton_append] at this
        simp only [this]
        rfl
    | fls _ h =>
      rcases h with rfl | rfl
      · rw [show litTrue = 116 :: [114, 117, 101] from rfl, show litFalse = 102 :: [97, 108, 115, 101] from rfl,
          show [102, 97, 108, 115, 101] ++ w' = 102 :: ([97, 108, 115, 101] ++ w') from rfl, tok_head (by decide) (by decide),
          ← List.cons_append, tok_here (by decide)]
      · have hn : JsonNum [48] := ⟨[], [48], [], [], rfl, by simp, Or.inl rfl, by simp, by simp⟩
        rw [show litTrue = 116 :: [114, 117, 101] from rfl, show litFalse = 102 :: [97, 108, 115, 101] from rfl]
        rw [List.singleton_append, tok_head (by decide) (by decide), tok_head (by decide) (by decide)]
        have := jNumber_complete hn (ws_numEnd hw')
        rw [List.singleton_append] at this
        simp only [this]
        rfl
    | word k w b hk h =>
      rw [show litTrue = 116 :: [114, 117, 101] from rfl, show litFalse = 102 :: [97, 108, 115, 101] from rfl]
      rw [List.cons_append, List.append_assoc, List.singleton_append, tok_head (by decide) (by decide),
        tok_head (by decide) (by decide), num_of_quote]
      obtain ⟨e, h1, h2⟩ := quoted_text hk w'
      simp only [h1, Res.bind_ok]
      rw [if_bind h2, (parseBool_exact w b).2 h]
      simp only [Res.bind_ok, Res.pure_eq, boolByte]
  | int t h8 h64 =>
    simp only [scalarK, if_pos h64]
    obtain ⟨hj, y, rfl, hp⟩ := int_complete h8 h
    unfold intK
    simp only [jNumber_complete hj (ws_numEnd hw'), hp, Res.bind_ok, Res.pure_eq]
  | string =>
    simp only [scalarK]
    cases h with
    | string k bs h =>
      unfold strK
      rw [List.cons_append, jWs_cons (by decide), List.append_assoc, List.singleton_append]
      obtain ⟨e, h1, h2⟩ := quoted_text h w'
      have hk : 92 ∉ k := fun m => hq rfl (by simp [m])
      have hu := unescape_plain k hk
      have hbs : bs = k := by
        cases e with
        | true => simp only [if_true] at h2; rw [hu] at h2; simpa using h2.symm
        | false => simpa using h2.symm
      subst hbs
      simp only [h1, Res.bind_ok, hu, Res.pure_eq]

/-- What an accepted scalar text is: as specified, except that an integer text may have a value outside the type (then the
    result is congruent to it), and a string is the text between the quotes. -/
inductive Accepted : JTy → List Nat → JVal → Prop
  | text (t : JTy) (x : List Nat) (v : JVal) (h : ScalarText t x v) : Accepted t x v
  | wrapped (t : IntTy) (x : List Nat) (y z : Int) (hj : JsonNum x) (h : SIntText x y) (hy : ¬ t.Has y) (hz : t.Has z)
      (hm : (2 : Int) ^ t.bits ∣ y - z) : Accepted (.int t) x (.int z)
  | rawString (k : List Nat) (h : JsonChars dyndLex k) : Accepted .string (34 :: (k ++ [34])) (.str k)
  | optional (t : JTy) (x : List Nat) (v : JVal) (h : Accepted t x v) : Accepted (.option t) x v

private theorem int_sound {t : IntTy} (h8 : 8 ≤ t.bits) {x : List Nat} {z : Int} (hj : JsonNum x) (h : parseInt t x = .ok z) :
    Accepted (.int t) x (.int z) := by
  obtain ⟨bits, sg⟩ := t
  cases sg with
  | true =>
    simp only [parseInt, if_true] at h
    obtain ⟨hz, y, hy, hd⟩ := (parse_signed_sound h8 x).2 z h
    by_cases hr : (IntTy.mk bits true).Has y
    · have := parse_signed_exact h8 hy hr
      rw [this] at h
      simp only [Res.ok.injEq] at h
      subst h
      exact .text _ _ _ (.signed _ _ _ rfl hj hy hr)
    · exact .wrapped _ _ y z hj hy hr hz (by exact_mod_cast hd)
  | false =>
    simp only [parseInt, Bool.false_eq_true, if_false] at h
    cases hp : parseU bits x with
    | ok n =>
      rw [hp] at h
      have hz : (n : Int) = z := by simpa using h
      subst hz
      obtain ⟨y, hy, hn⟩ := parse_unsigned_sound hp
      have hlt := parseU_lt hp
      have has : ∀ m : Nat, m < 2 ^ bits → (IntTy.mk bits false).Has (m : Int) := by
        intro m hm
        refine ⟨by simp [IntTy.min], ?_⟩
        have : (m : Int) < 2 ^ bits := by exact_mod_cast hm
        simp [IntTy.max]
        omega
      by_cases hr : y < 2 ^ bits
      · rw [Nat.mod_eq_of_lt hr] at hn
        subst hn
        exact .text _ _ _ (.unsigned _ _ _ rfl hj hy (has _ hr))
      · refine .wrapped _ _ y n hj (.pos _ _ hy) ?_ (has n hlt) ?_
        · intro h2
          exact hr (by exact_mod_cast (IntTy.has_unsigned.1 h2).2)
        · rw [hn]
          refine ⟨((y / 2 ^ bits : Nat) : Int), ?_⟩
          have := congrArg (Nat.cast (R := Int)) (Nat.div_add_mod y (2 ^ bits))
          push_cast at this ⊢
          omega
    | throw e => rw [hp] at h; cases h
    | ub => rw [hp] at h; cases h

private theorem bool_word_ascii {w : List Nat} {b : Bool} (h : TruthWord w b) : ∀ c ∈ w, c < 128 := by
  intro c hc
  have h1 : (if 65 ≤ c ∧ c ≤ 90 then c + 32 else c) ∈ lowerWord w := List.mem_map.2 ⟨c, hc, rfl⟩
  have h2 : ∀ l, l ∈ [[49], [121], [116], [116, 114, 117, 101], [111, 110], [121, 101, 115],
      [48], [110], [102], [102, 97, 108, 115, 101], [110, 111], [111, 102, 102]] → ∀ d ∈ l, d < 128 := by decide
  have h3 := h2 (lowerWord w) (by
    unfold TruthWord at h
    cases b <;> simp at h ⊢ <;> tauto) _ h1
  split at h3 <;> omega

private theorem scalar_sound {t : JTy} (ht : PlainScalar t) {s r : List Nat} {v : JVal} (hs : jWs s = s)
    (h : scalarK t s = .ok (v, r)) : ∃ x, s = x ++ r ∧ Accepted t x v := by
  have tok : ∀ {k r : List Nat}, k ≠ [] → jTok k s = some r → s = k ++ r := by
    intro k r hk hh
    unfold jTok at hh
    rw [hs] at hh
    split at hh
    · rename_i hp
      obtain ⟨q, hq⟩ := List.isPrefixOf_iff_prefix.1 hp
      simp only [Option.some.injEq] at hh
      rw [← hq] at hh ⊢
      simp at hh
      rw [hh]
    · cases hh
  cases ht with
  | bool =>
    simp only [scalarK] at h
    unfold boolK at h
    split at h
    · rename_i r' h1
      simp only [Res.ok.injEq, Prod.mk.injEq] at h
      obtain ⟨rfl, rfl⟩ := h
      exact ⟨_, tok (by decide) h1, .text _ _ _ (.tru _ (Or.inl rfl))⟩
    · split at h
      · rename_i r' h1
        simp only [Res.ok.injEq, Prod.mk.injEq] at h
        obtain ⟨rfl, rfl⟩ := h
        exact ⟨_, tok (by decide) h1, .text _ _ _ (.fls _ (Or.inl rfl))⟩
      · split at h
        · rename_i n r' h1
          obtain ⟨h2, hj⟩ := jNumber_sound h1
          by_cases e1 : n = [48]
          · rw [if_pos e1] at h
            simp only [Res.ok.injEq, Prod.mk.injEq] at h
            obtain ⟨rfl, rfl⟩ := h
            exact ⟨n, h2, .text _ _ _ (.fls _ (Or.inr e1))⟩
          · rw [if_neg e1] at h
            by_cases e2 : n = [49]
            · rw [if_pos e2] at h
              simp only [Res.ok.injEq, Prod.mk.injEq] at h
              obtain ⟨rfl, rfl⟩ := h
              exact ⟨n, h2, .text _ _ _ (.tru _ (Or.inr e2))⟩
            · rw [if_neg e2] at h; cases h
        · rw [Res.bind_eq_ok] at h
          obtain ⟨o, h1, h2⟩ := h
          match o, h2 with
          | none, h2 => cases h2
          | some (i, e, r'), h2 =>
            obtain ⟨g1, g2, g3⟩ := quoted_sound h1
            have key : ∃ w b, (if e then unescape i else (pure i : Res (List Nat))) = .ok w ∧ parseBool w = .ok b ∧
                v = .bool (boolByte b) ∧ r = r' := by
              cases e with
              | true =>
                simp only [if_true] at h2 ⊢
                rw [Res.bind_eq_ok] at h2
                obtain ⟨w, u1, u2⟩ := h2
                rw [Res.bind_eq_ok] at u2
                obtain ⟨b, u3, u4⟩ := u2
                simp only [Res.pure_eq, Res.ok.injEq, Prod.mk.injEq] at u4
                exact ⟨w, b, u1, u3, u4.1.symm, u4.2.symm⟩
              | false =>
                simp only [Bool.false_eq_true, if_false, Res.pure_eq, Res.bind_ok] at h2 ⊢
                rw [Res.bind_eq_ok] at h2
                obtain ⟨b, u3, u4⟩ := h2
                simp only [Res.ok.injEq, Prod.mk.injEq] at u4
                exact ⟨i, b, rfl, u3, u4.1.symm, u4.2.symm⟩
            obtain ⟨w, b, u1, u2, rfl, rfl⟩ := key
            have hw := (parseBool_exact w b).1 u2
            have hu : unescape i = .ok w := by
              cases e with
              | true => simpa using u1
              | false =>
                have : i = w := by simpa using u1
                subst this
                exact unescape_plain _ (g3 rfl)
            have hst := unescape_ascii g2 _ w (Nat.le_refl _) hu (bool_word_ascii hw)
            refine ⟨34 :: (i ++ [34]), by rw [g1]; simp, .text _ _ _ (.word i w b hst hw)⟩
  | int t h8 h64 =>
    simp only [scalarK, if_pos h64] at h
    unfold intK at h
    split at h
    · cases h
    · rename_i n r' h1
      rw [Res.bind_eq_ok] at h
      obtain ⟨y, h2, h3⟩ := h
      simp only [Res.pure_eq, Res.ok.injEq, Prod.mk.injEq] at h3
      obtain ⟨rfl, rfl⟩ := h3
      obtain ⟨h4, hj⟩ := jNumber_sound h1
      exact ⟨n, h4, int_sound h8 hj h2⟩
  | string =>
    simp only [scalarK] at h
    unfold strK at h
    rw [hs, Res.bind_eq_ok] at h
    obtain ⟨o, h1, h2⟩ := h
    match o, h2 with
    | none, h2 => cases h2
    | some (i, e, r'), h2 =>
      simp only at h2
      rw [Res.bind_eq_ok] at h2
      obtain ⟨u, h3, h4⟩ := h2
      simp only [Res.pure_eq, Res.ok.injEq, Prod.mk.injEq] at h4
      obtain ⟨rfl, rfl⟩ := h4
      obtain ⟨g1, g2, g3⟩ := quoted_sound h1
      exact ⟨34 :: (i ++ [34]), by rw [g1]; simp, .rawString i g2⟩

private theorem scalar_noub {t : JTy} (ht : PlainScalar t) (s : List Nat) : scalarK t s ≠ .ub := by
  cases ht with
  | bool =>
    simp only [scalarK]
    unfold boolK
    split
    · simp
    · split
      · simp
      · split
        · split_ifs <;> simp
        · have h1 := quoted_noub s
          cases hq : parseDoublequote s with
          | ub => exact absurd hq h1
          | throw e => simp
          | ok o =>
            rw [Res.bind_ok]
            match o with
            | none => simp
            | some (i, e, r) =>
              have h2 := unescape_noub i
              have h3 : ∀ w : List Nat, (do let b ← parseBool w; pure (JVal.bool (boolByte b), r) : Res (JVal × List Nat)) ≠ .ub := by
                intro w
                have := parseBool_noub w
                cases hb : parseBool w with
                | ub => exact absurd hb this
                | throw e => simp
                | ok b => simp
              cases e with
              | true =>
                simp only [if_true]
                cases hu : unescape i with
                | ub => exact absurd hu h2
                | throw e => simp
                | ok w => exact h3 w
              | false =>
                simp only [Bool.false_eq_true, if_false, Res.pure_eq, Res.bind_ok]
                exact h3 i
  | int t h8 h64 =>
    simp only [scalarK, if_pos h64]
    unfold intK
    split
    · simp
    · rename_i n r h1
      have : parseInt t n ≠ .ub := by
        obtain ⟨bits, sg⟩ := t
        cases sg with
        | true => simp only [parseInt, if_true]; exact (parse_signed_sound h8 n).1
        | false =>
          simp only [parseInt, Bool.false_eq_true, if_false]
          rcases parse_unsigned_total bits n with ⟨v, _, h | ⟨_, e, h⟩⟩ | ⟨_, e, h⟩ <;> rw [h] <;> intro hh <;> cases hh
      cases hp : parseInt t n with
      | ub => exact absurd hp this
      | throw e => simp
      | ok b => simp
  | string =>
    simp only [scalarK]
    unfold strK
    have h1 := quoted_noub (jWs s)
    cases hq : parseDoublequote (jWs s) with
    | ub => exact absurd hq h1
    | throw e => simp
    | ok o =>
      rw [Res.bind_ok]
      match o with
      | none => simp
      | some (i, e, r) =>
        have h2 := unescape_noub i
        cases hu : unescape i with
        | ub => exact absurd hu h2
        | throw e => simp [hu]
        | ok w => simp [hu]

private theorem missing_some {t : JTy} (ht : PlainScalar t) {v : JVal} : MissingValue t v ↔ naK t = some v := by
  constructor
  · intro h
    cases h with
    | bool => rfl
    | signed t hs => cases ht with | int _ h8 h64 => simp [naK, hs]; omega
    | uint32 => rfl
    | string => rfl
  · intro h
    cases ht with
    | bool => simp [naK] at h; subst h; exact .bool
    | int t h8 h64 =>
      obtain ⟨bits, sg⟩ := t
      simp only at h8 h64
      simp only [naK, show ¬ 64 < bits by omega, if_false] at h
      cases sg with
      | true => simp at h; subst h; exact .signed _ rfl
      | false =>
        simp only [Bool.false_eq_true, if_false] at h
        split at h
        · rename_i hb; subst hb
          simp only [Option.some.injEq] at h
          subst h
          exact .uint32
        · cases h
    | string => simp [naK] at h; subst h; exact .string

private theorem na_ws {x w' : List Nat} (h : MissingWord x) (hne : x ≠ []) : parseNaK (x ++ w') = some w' := by
  rcases h with h | rfl | rfl | rfl
  · match x, h with
    | [a, b, c, d], h =>
      simp only [lowerWord, List.map_cons, List.map_nil, List.cons.injEq, and_true, lower_one] at h
      obtain ⟨h1, h2, h3, h4⟩ := h
      simp only [List.cons_append, List.nil_append, parseNaK]
      rw [if_pos ⟨by omega, by omega, by omega, by omega⟩]
      rfl
    | [], h => simp [lowerWord] at h
    | [_], h => simp [lowerWord] at h
    | [_, _], h => simp [lowerWord] at h
    | [_, _, _], h => simp [lowerWord] at h
    | _ :: _ :: _ :: _ :: _ :: _, h => simp [lowerWord] at h
  · match w' with
    | [] => rfl
    | [_] => rfl
    | c :: d :: r => simp [parseNaK]
  · simp [parseNaK]
  · exact absurd rfl hne

private theorem na_sound {s r : List Nat} (h : parseNaK s = some r) : ∃ x, s = x ++ r ∧ MissingWord x := by
  unfold parseNaK at h
  split at h
  · simp only [Option.some.injEq] at h; subst h; exact ⟨[], rfl, by simp [MissingWord]⟩
  · rename_i a b
    split at h
    · rename_i hab
      simp only [Option.some.injEq] at h; subst h
      obtain ⟨rfl, rfl⟩ := hab
      exact ⟨[78, 65], rfl, by simp [MissingWord]⟩
    · cases h
  · rename_i a b c
    split at h
    · rename_i hab
      simp only [Option.some.injEq] at h; subst h
      obtain ⟨rfl, rfl⟩ := hab
      exact ⟨[78, 65], rfl, by simp [MissingWord]⟩
    · cases h
  · rename_i a b c d q
    split at h
    · rename_i hw
      simp only [Option.some.injEq] at h; subst h
      refine ⟨[a, b, c, d], rfl, Or.inl ?_⟩
      simp only [lowerWord, List.map_cons, List.map_nil, List.cons.injEq, and_true, lower_one]
      omega
    · split at h
      · rename_i hw
        simp only [Option.some.injEq] at h; subst h
        obtain ⟨rfl, rfl, rfl, rfl⟩ := hw
        exact ⟨_, rfl, Or.inr (Or.inr (Or.inl rfl))⟩
      · split at h
        · rename_i hw
          simp only [Option.some.injEq] at h; subst h
          obtain ⟨rfl, rfl⟩ := hw
          exact ⟨[78, 65], rfl, Or.inr (Or.inl rfl)⟩
        · cases h
  · cases h

private theorem scalar_head {t : JTy} (ht : PlainScalar t) {x : List Nat} {v : JVal} (h : ScalarText t x v) :
    ∃ c r, x = c :: r ∧ isSpace c = false ∧ c ≠ 78 ∧ c ≠ 110 := by
  have num : ∀ {x}, JsonNum x → ∃ c r, x = c :: r ∧ isSpace c = false ∧ c ≠ 78 ∧ c ≠ 110 := by
    intro x hj
    obtain ⟨c, r, rfl, hc⟩ := jsonNum_head hj
    refine ⟨c, r, rfl, jsonNum_noSpace hj c (by simp), ?_⟩
    rcases hc with rfl | hc
    · decide
    · have := isDig_iff.1 hc; omega
  cases h with
  | tru _ h => rcases h with rfl | rfl <;> exact ⟨_, _, rfl, by decide⟩
  | fls _ h => rcases h with rfl | rfl <;> exact ⟨_, _, rfl, by decide⟩
  | word k w b hk h => exact ⟨_, _, rfl, by decide⟩
  | signed _ _ _ _ hj _ _ => exact num hj
  | unsigned _ _ _ _ hj _ _ => exact num hj
  | string k bs h => exact ⟨_, _, rfl, by decide⟩
  | missing t _ _ _ _ => cases ht
  | present t _ _ _ _ => cases ht

private theorem na_none {c : Nat} {r : List Nat} (h1 : c ≠ 78) (h2 : c ≠ 110) : parseNaK (c :: r) = none := by
  unfold parseNaK
  split
  · rename_i heq; cases heq
  · rename_i heq
    obtain ⟨rfl, _⟩ := List.cons.inj heq
    rw [if_neg (fun h => h1 h.1)]
  · rename_i heq
    obtain ⟨rfl, _⟩ := List.cons.inj heq
    rw [if_neg (fun h => h1 h.1)]
  · rename_i heq
    obtain ⟨rfl, _⟩ := List.cons.inj heq
    rw [if_neg (by rintro ⟨h | h, _⟩ <;> contradiction), if_neg (fun h => h1 h.1), if_neg (fun h => h1 h.1)]
  · rfl

private theorem ws_word {x : List Nat} (h : MissingWord x) (hne : x ≠ []) (w' : List Nat) : jWs (x ++ w') = x ++ w' := by
  rcases h with h | rfl | rfl | rfl
  · match x, h with
    | c :: x, h =>
      simp only [lowerWord, List.map_cons, List.cons.injEq, lower_one] at h
      rw [List.cons_append, jWs_cons]
      rcases h.1 with h | h
      · simp [isSpace]; omega
      · simp [isSpace]; omega
    | [], h => simp [lowerWord] at h
  · rw [List.cons_append, jWs_cons (by decide)]
  · rw [List.cons_append, jWs_cons (by decide)]
  · exact absurd rfl hne

/-- **C103 (what is proved of it).** A text of a value of the type, with any whitespace around it, is read as that value.
    Missing for the full property: strings written with escapes, which are stored with them (`json_scalar_escape_violated`). -/
theorem json_scalar_exact_partial {t : JTy} (ht : Parsable t) {x : List Nat} {v : JVal} (h : ScalarText t x v)
    (hq : (t = .string ∨ t = .option .string) → 92 ∉ x) {w w' : List Nat} (hw : JWs dyndLex w) (hw' : JWs dyndLex w') :
    jsonParse t (w ++ (x ++ w')) = .ok v := by
  unfold jsonParse
  rw [jWs_append hw]
  cases ht with
  | plain t ht =>
    obtain ⟨c, r, rfl, hc, _⟩ := scalar_head ht h
    have h1 := scalar_complete ht h (fun e => hq (Or.inl e)) hw'
    have h2 : dynParse t (jWs (c :: r ++ w')) = .ok (v, w') := by
      rw [List.cons_append, jWs_cons hc, ← List.cons_append]
      cases ht <;> exact h1
    rw [h2]
    simp only [Res.bind_ok, jWs_nil hw', if_true, Res.pure_eq]
  | option t ht v0 hv0 =>
    have h0 := (missing_some ht).1 hv0
    have key : dynParse (.option t) (jWs (x ++ w')) = .ok (v, w') ∨ (dynParse (.option t) (jWs (x ++ w')) = .ok (v, [])) := by
      cases h with
      | missing _ _ _ h hv =>
        have h1 := (missing_some ht).1 hv
        by_cases hne : x = []
        · subst hne
          right
          rw [List.nil_append, jWs_nil hw']
          simp [dynParse, h1, parseNaK]
        · left
          rw [ws_word h hne]
          simp [dynParse, h1, na_ws h hne]
      | present _ _ _ h hs =>
        left
        obtain ⟨c, r, rfl, hc, h1, h2⟩ := scalar_head ht h
        have h3 := scalar_complete ht h (fun e => hq (Or.inr (by rw [e]))) hw'
        rw [List.cons_append, jWs_cons hc]
        simp only [dynParse, h0, na_none h1 h2]
        exact h3
    rcases key with h2 | h2 <;> rw [h2]
    · simp only [Res.bind_ok, jWs_nil hw', if_true, Res.pure_eq]
    · simp only [Res.bind_ok, show jWs [] = [] from rfl, if_true, Res.pure_eq]

/-- **C103, soundness.** Whatever is accepted is a text of the type with whitespace around it, and nothing else; the value is
    the one it stands for, except that integers outside the type may wrap around and strings keep their escapes. -/
theorem json_scalar_sound_partial {t : JTy} (ht : Parsable t) {s : List Nat} {v : JVal} (h : jsonParse t s = .ok v) :
    ∃ w x w', JWs dyndLex w ∧ JWs dyndLex w' ∧ s = w ++ (x ++ w') ∧ Accepted t x v := by
  unfold jsonParse at h
  rw [Res.bind_eq_ok] at h
  obtain ⟨⟨v', r⟩, h1, h2⟩ := h
  simp only at h2
  have hr : jWs r = [] ∧ v' = v := by
    split at h2
    · rename_i hr
      exact ⟨hr, by simpa using h2⟩
    · cases h2
  obtain ⟨hr, rfl⟩ := hr
  obtain ⟨w, hw, hs⟩ := jWs_split s
  have hwr : JWs dyndLex r := by
    obtain ⟨q, hq, hq2⟩ := jWs_split r
    rw [hr, List.append_nil] at hq2
    rw [hq2]; exact hq
  have key : ∃ x, jWs s = x ++ r ∧ Accepted t x v' := by
    cases ht with
    | plain t ht =>
      have h3 : scalarK t (jWs s) = .ok (v', r) := by cases ht <;> exact h1
      exact scalar_sound ht (jWs_idem s) h3
    | option t ht v0 hv0 =>
      have h0 := (missing_some ht).1 hv0
      simp only [dynParse, h0] at h1
      split at h1
      · rename_i r' h3
        simp only [Res.ok.injEq, Prod.mk.injEq] at h1
        obtain ⟨rfl, rfl⟩ := h1
        obtain ⟨x, h4, h5⟩ := na_sound h3
        exact ⟨x, h4, .text _ _ _ (.missing _ _ _ h5 hv0)⟩
      · obtain ⟨x, h4, h5⟩ := scalar_sound ht (jWs_idem s) h1
        exact ⟨x, h4, .optional _ _ _ h5⟩
  obtain ⟨x, h4, h5⟩ := key
  exact ⟨w, x, r, hw, hwr, by rw [← h4]; exact hs, h5⟩

/-- No text makes the parser of a supported type do anything undefined: every call returns or raises. -/
theorem json_scalar_total {t : JTy} (ht : Parsable t) (s : List Nat) : jsonParse t s ≠ .ub := by
  unfold jsonParse
  have key : dynParse t (jWs s) ≠ .ub := by
    cases ht with
    | plain t ht =>
      have := scalar_noub ht (jWs s)
      cases ht <;> exact this
    | option t ht v0 hv0 =>
      simp only [dynParse, (missing_some ht).1 hv0]
      split
      · simp
      · exact scalar_noub ht _
  cases hd : dynParse t (jWs s) with
  | ub => exact absurd hd key
  | throw e => simp
  | ok p =>
    rw [Res.bind_ok]
    simp only
    split <;> simp

/-- `?uint8`, `?uint16` and `?uint64` are never read. -/
theorem json_option_unsigned (b : Nat) (hb : b = 8 ∨ b = 16 ∨ b = 64) (s : List Nat) :
    (jsonParse (.option (.int ⟨b, false⟩)) s).Throws := by
  refine ⟨.outOfRange, ?_⟩
  rcases hb with rfl | rfl | rfl <;> rfl

/-- **C103 is violated** by every string written with an escape: it is stored with the escape. -/
theorem json_scalar_escape_violated {k bs : List Nat} (h : StrText k bs) (hk : 92 ∈ k) :
    ScalarText .string (34 :: (k ++ [34])) (.str bs) ∧ jsonParse .string (34 :: (k ++ [34])) = .ok (.str k) ∧ k ≠ bs := by
  refine ⟨.string k bs h, ?_, ?_⟩
  · obtain ⟨e, h1, h2⟩ := quoted_text h []
    have hu : ∃ u, unescape k = .ok u := by
      cases e with
      | true => exact ⟨bs, by simpa using h2⟩
      | false =>
        have := (quoted_sound h1).2.2 rfl
        exact absurd hk this
    obtain ⟨u, hu⟩ := hu
    unfold jsonParse
    rw [jWs_cons (by decide)]
    simp only [dynParse, scalarK]
    unfold strK
    rw [jWs_cons (by decide), h1]
    simp only [Res.bind_ok, hu, Res.pure_eq, show jWs [] = [] from rfl, if_true]
  · obtain ⟨cs, h1, h2⟩ := h
    have := (escaped_longer h1 bs h2).2 hk
    intro e
    rw [e] at this
    omega

/-- **C103 is violated** for every unsigned type: some number too large for it is read as another number. -/
theorem json_scalar_overflow_violated (b : Nat) (h1 : 8 ≤ b) (h2 : b ≤ 64) :
    ∃ x n, JsonNum x ∧ UIntText x n ∧ ¬ (IntTy.mk b false).Has n ∧
      jsonParse (.int ⟨b, false⟩) x = .ok (.int (2 ^ b - 1)) := by
  have p : (2:Nat) ^ 8 ≤ 2 ^ b := Nat.pow_le_pow_right (by omega) h1
  obtain ⟨d1, d2, d3⟩ := decDigits_spec (2 * 2 ^ b - 1)
  have hx : printInt ((2 * 2 ^ b - 1 : Nat) : Int) = decDigits (2 * 2 ^ b - 1) := by
    unfold printInt
    rw [if_neg (by omega), Int.natAbs_natCast]
  have hj := printInt_json ((2 * 2 ^ b - 1 : Nat) : Int)
  rw [hx] at hj
  refine ⟨decDigits (2 * 2 ^ b - 1), 2 * 2 ^ b - 1, hj, ?_, ?_, ?_⟩
  · have := UIntText.plain _ d1 d2
    rw [d3] at this
    exact this
  · intro hh
    have := (IntTy.has_unsigned.1 hh).2
    generalize 2 ^ b = q at *
    omega
  · have hn : jNumber (decDigits (2 * 2 ^ b - 1)) = some (decDigits (2 * 2 ^ b - 1), []) := by
      have := jNumber_complete hj (r := []) (by intro c t h; cases h)
      simpa using this
    have hws : jWs (decDigits (2 * 2 ^ b - 1)) = decDigits (2 * 2 ^ b - 1) := by
      obtain ⟨c, r, hc, _⟩ := jsonNum_head hj
      have := jsonNum_noSpace hj c (by rw [hc]; simp)
      rw [hc, jWs_cons this]
    unfold jsonParse
    rw [hws]
    simp only [dynParse, scalarK, if_pos h2, intK, hn, parseInt, Bool.false_eq_true, if_false, parseU_wraps b (by omega)]
    have e : (((2 ^ b - 1 : Nat) : Nat) : Int) = 2 ^ b - 1 := by
      rw [Nat.cast_sub (by omega)]; push_cast; rfl
    show Res.ok (JVal.int ((2 ^ b - 1 : Nat) : Int)) = _
    rw [e]

/-- Structs and dimensions: the entries of the dispatcher build no kernel, whatever the text. -/
theorem json_scalar_containers_violated (ns : List (List Nat)) (ts : List JTy) (n : Nat) (t : JTy) (s : List Nat) :
    jsonParse (.struct ns ts) s = .ub ∧ jsonParse (.fixed n t) s = .ub ∧ jsonParse (.var t) s = .ub := ⟨rfl, rfl, rfl⟩

/-! ### examples -/

/-- `" 12 "` as `int8`, `"null"` as `?int8`, `"\"Yes\""` as `bool`, `"\"hi\""` as `string`. -/
example : Parsable (.int ⟨8, true⟩) ∧ ScalarText (.int ⟨8, true⟩) [49, 50] (.int 12) :=
  ⟨.plain _ (.int _ (by decide) (by decide)),
   .signed _ _ _ rfl ⟨[], [49, 50], [], [], rfl, by simp, Or.inr ⟨49, [50], rfl, by omega, by decide⟩, by simp, by simp⟩
     (.pos _ 12 (.plain [49, 50] (by decide) (by decide))) (by decide)⟩
example : Parsable (.option (.int ⟨8, true⟩)) ∧ ScalarText (.option (.int ⟨8, true⟩)) [78, 117, 108, 76] (.int (-128)) :=
  ⟨.option _ (.int _ (by decide) (by decide)) _ (.signed _ rfl), .missing _ _ _ (Or.inl (by decide)) (.signed ⟨8, true⟩ rfl)⟩
example : StrText [92, 110] [10] := ⟨[10], .short 110 10 [] [] (by decide) .nil, rfl⟩
example : ScalarText .bool [34, 89, 92, 117, 48, 48, 54, 53, 115, 34] (.bool 1) :=
  .word [89, 92, 117, 48, 48, 54, 53, 115] [89, 101, 115] true
    ⟨[89, 101, 115], .raw 89 [89] _ _ rfl (by decide) (by decide)
      (.u [48, 48, 54, 53] [115] [115] rfl (by simp [IsHex]) (by decide) (.raw 115 [115] [] [] rfl (by decide) (by decide) .nil)),
      rfl⟩ (by simp [TruthWord, lowerWord])
example : jsonParse (.int ⟨8, false⟩) [32, 53, 49, 49, 32] = .ok (.int 255) := by rfl

end Dynd
