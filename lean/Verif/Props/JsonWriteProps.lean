/-
C72 in full for the modelled types: whatever the value, if `format_json` returns a text it is an RFC 8259 document in
well-formed UTF-8; and the inputs on which it does not (malformed strings that stop the decoder; numbers printed in a
notation JSON does not have).
-/
import Verif.Props.JsonRound

namespace Dynd

/-! ### Partial correctness of the writers -/

/-- If the writer succeeds, it has appended a text with the property. -/
def Emits (f : Out → Res Out) (P : List Nat → Prop) : Prop :=
  ∀ o o' : Out, o.data.length ≤ o.cap → f o = .ok o' → ∃ e, o'.data = o.data ++ e ∧ P e ∧ o'.data.length ≤ o'.cap

theorem Writes.emits {f : Out → Res Out} {e : List Nat} {P : List Nat → Prop} (h : Writes f e) (hp : P e) : Emits f P := by
  intro o o' ho hf
  obtain ⟨o2, h1, h2, h3⟩ := h o ho
  rw [h1] at hf
  obtain rfl := Res.ok.inj hf
  exact ⟨e, h2, hp, h3⟩

theorem Emits.seq {f g : Out → Res Out} {P Q R : List Nat → Prop} (hf : Emits f P) (hg : Emits g Q)
    (h : ∀ a b, P a → Q b → R (a ++ b)) : Emits (fun o => do let o ← f o; g o) R := by
  intro o o' ho he
  obtain ⟨o1, h1, h2⟩ := Res.bind_eq_ok.1 he
  obtain ⟨a, ha, hpa, hc⟩ := hf o o1 ho h1
  obtain ⟨b, hb, hpb, hc'⟩ := hg o1 o' hc h2
  exact ⟨a ++ b, by rw [hb, ha, List.append_assoc], h a b hpa hpb, hc'⟩

theorem Emits.mono {f : Out → Res Out} {P Q : List Nat → Prop} (hf : Emits f P) (h : ∀ a, P a → Q a) : Emits f Q := by
  intro o o' ho he
  obtain ⟨e, h1, h2, h3⟩ := hf o o' ho he
  exact ⟨e, h1, h _ h2, h3⟩

theorem emits_fail {f : Out → Res Out} {P : List Nat → Prop} (h : ∀ o o', f o ≠ .ok o') : Emits f P :=
  fun o o' _ he => absurd he (h o o')

theorem wf_append {a b : List Nat} (ha : WellFormedUtf8 a) (hb : WellFormedUtf8 b) : WellFormedUtf8 (a ++ b) := by
  obtain ⟨cs, hc⟩ := ha
  obtain ⟨ds, hd⟩ := hb
  induction cs generalizing a with
  | nil => simp [encodeAll] at hc; subst hc; exact ⟨ds, hd⟩
  | cons c cs ih =>
    obtain ⟨x, y, h1, h2, rfl⟩ := encodeAll_cons.1 hc
    obtain ⟨es, he⟩ := ih h2
    exact ⟨c :: es, encodeAll_cons.2 ⟨x, y ++ b, h1, he, List.append_assoc _ _ _⟩⟩

theorem wf_ascii {a : List Nat} (h : ∀ b ∈ a, b < 128) : WellFormedUtf8 a := ⟨a, ascii_encodes a h⟩

/-- A JSON value in well-formed UTF-8. -/
def GoodJson (e : List Nat) : Prop := JsonValue rfcLex e ∧ WellFormedUtf8 e

theorem noerror_scalar {us : List Nat} {cp : Nat} {rest : List Nat} (h : noerrorNextUtf8 us = .ok (cp, rest)) : Scalar cp := by
  have hq : Scalar 0x3f := by unfold Scalar; omega
  cases us with
  | nil => simp [noerrorNextUtf8] at h
  | cons b us =>
    unfold noerrorNextUtf8 at h
    simp only at h
    split_ifs at h with h1
    · simp only [Res.ok.injEq, Prod.mk.injEq] at h; rw [← h.1]; exact hq
    · cases hg : getSequence (sequenceLength b) (b :: us) with
      | mk it r =>
        rw [hg] at h
        cases r with
        | error e => simp only [Res.ok.injEq, Prod.mk.injEq] at h; rw [← h.1]; exact hq
        | ok c =>
          simp only at h
          split_ifs at h with h2 h3 <;> simp only [Res.ok.injEq, Prod.mk.injEq] at h
          · rw [← h.1]
            unfold isCodePointValid isSurrogate at h2
            unfold Scalar
            simp at h2
            omega
          · rw [← h.1]; exact hq
          · rw [← h.1]; exact hq

theorem emits_loop : ∀ (fuel : Nat) (us : List Nat),
    Emits (fmtStrLoop fuel us) (fun k => JsonChars rfcLex k ∧ WellFormedUtf8 k) := by
  intro fuel
  induction fuel with
  | zero =>
    intro us
    cases us with
    | nil =>
      intro o o' ho he
      rw [fmtStrLoop] at he; obtain rfl := Res.ok.inj he
      exact ⟨[], by simp, ⟨.nil, [], rfl⟩, ho⟩
    | cons b us => exact emits_fail (by intro o o' h; rw [fmtStrLoop] at h; cases h)
  | succ fuel ih =>
    intro us
    cases us with
    | nil =>
      intro o o' ho he
      rw [fmtStrLoop] at he; obtain rfl := Res.ok.inj he
      exact ⟨[], by simp, ⟨.nil, [], rfl⟩, ho⟩
    | cons b us =>
      intro o o' ho he
      rw [fmtStrLoop.eq_def] at he
      simp only at he
      obtain ⟨⟨cp, rest⟩, h1, h2⟩ := Res.bind_eq_ok.1 he
      have hs : Scalar cp := noerror_scalar h1
      obtain ⟨p, hp, _, hp3, hp4⟩ := writes_cp hs
      have hw : Emits (fmtCp cp) (fun q => (∀ r, JsonChars rfcLex r → JsonChars rfcLex (q ++ r)) ∧ WellFormedUtf8 q) :=
        hp.emits ⟨hp3, hp4⟩
      exact (hw.seq (ih rest) (fun a b ha hb => ⟨ha.1 b hb.1, wf_append ha.2 hb.2⟩)) o o' ho h2

theorem emits_str (us : List Nat) : Emits (fmtStr us) (fun e => ∃ k, e = 34 :: (k ++ [34]) ∧ JsonChars rfcLex k ∧ WellFormedUtf8 k) := by
  have h1 : Emits (fun o => o.write [34]) (fun e => e = [34]) := (writes_write [34]).emits rfl
  have h2 := (emits_loop us.length us).seq h1
    (R := fun e => ∃ k, e = k ++ [34] ∧ JsonChars rfcLex k ∧ WellFormedUtf8 k) (by
      rintro a b ⟨ha, hb⟩ rfl; exact ⟨a, rfl, ha, hb⟩)
  exact h1.seq h2 (by rintro a b rfl ⟨k, rfl, h⟩; exact ⟨k, rfl, h⟩)

theorem wf_quoted {k : List Nat} (h : WellFormedUtf8 k) : WellFormedUtf8 (34 :: (k ++ [34])) := by
  have := wf_append (wf_ascii (a := [34]) (by simp)) (wf_append h (wf_ascii (a := [34]) (by simp)))
  simpa using this

/-- the values of a list, written with commas -/
theorem emits_seq {P : List Nat → Prop} : ∀ (fs : List (Out → Res Out)), (∀ f ∈ fs, Emits f P) →
    Emits (fmtSeq fs) (fun e => ∃ es, es.length = fs.length ∧ (∀ x ∈ es, P x) ∧ e = joinComma es)
  | [], _ => by
    intro o o' ho he
    rw [fmtSeq] at he; obtain rfl := Res.ok.inj he
    exact ⟨[], by simp, ⟨[], rfl, by simp, rfl⟩, ho⟩
  | [f], h => (h f (by simp)).mono (fun a ha => ⟨[a], rfl, by simpa using ha, rfl⟩)
  | f :: g :: fs, h => by
    have h1 : Emits (fun o => o.write [44]) (fun e => e = [44]) := (writes_write [44]).emits rfl
    have h2 := emits_seq (g :: fs) (fun x hx => h x (by simp [hx]))
    have h3 := h1.seq h2 (R := fun e => ∃ es, es.length = (g :: fs).length ∧ (∀ x ∈ es, P x) ∧ e = 44 :: joinComma es) (by
      rintro a b rfl ⟨es, e1, e2, rfl⟩; exact ⟨es, e1, e2, rfl⟩)
    refine (h f (by simp)).seq h3 ?_
    rintro a b ha ⟨es, e1, e2, rfl⟩
    refine ⟨a :: es, by simp [e1], ?_, ?_⟩
    · intro x hx
      rcases List.mem_cons.1 hx with rfl | hx
      · exact ha
      · exact e2 x hx
    · cases es with
      | nil => simp at e1
      | cons x es => rfl

theorem wf_join : ∀ (es : List (List Nat)), (∀ e ∈ es, WellFormedUtf8 e) → WellFormedUtf8 (joinComma es)
  | [], _ => wf_ascii (by simp [joinComma])
  | [e], h => h e (by simp)
  | e :: f :: es, h => by
    have := wf_append (h e (by simp)) (wf_append (wf_ascii (a := [44]) (by simp)) (wf_join (f :: es) (fun x hx => h x (by simp [hx]))))
    simpa [joinComma] using this

theorem wf_bracket {l r : Nat} (hl : l < 128) (hr : r < 128) {k : List Nat} (h : WellFormedUtf8 k) : WellFormedUtf8 (l :: (k ++ [r])) := by
  have := wf_append (wf_ascii (a := [l]) (by simpa using hl)) (wf_append h (wf_ascii (a := [r]) (by simpa using hr)))
  simpa using this

theorem emits_array {fs : List (Out → Res Out)} (h : ∀ f ∈ fs, Emits f GoodJson) : Emits (fmtBracket 91 93 fs) GoodJson := by
  have h1 : Emits (fun o => o.write [91]) (fun e => e = [91]) := (writes_write [91]).emits rfl
  have h2 : Emits (fun o => o.write [93]) (fun e => e = [93]) := (writes_write [93]).emits rfl
  have h3 := (emits_seq fs h).seq h2 (R := fun e => ∃ es : List (List Nat), (∀ x ∈ es, GoodJson x) ∧ e = joinComma es ++ [93]) (by
    rintro a b ⟨es, _, e2, rfl⟩ rfl; exact ⟨es, e2, rfl⟩)
  refine h1.seq h3 ?_
  rintro a b rfl ⟨es, e2, rfl⟩
  exact ⟨rfc_array es (fun e he => (e2 e he).1), wf_bracket (by omega) (by omega) (wf_join es (fun e he => (e2 e he).2))⟩

/-- the text of one member -/
def GoodMember (e : List Nat) : Prop :=
  ∃ k v, e = 34 :: (k ++ 34 :: 58 :: v) ∧ JsonChars rfcLex k ∧ WellFormedUtf8 k ∧ GoodJson v

theorem emits_field {name : List Nat} {f : Out → Res Out} (h : Emits f GoodJson) : Emits (fmtField name f) GoodMember := by
  have h1 : Emits (fun o => o.write [58]) (fun e => e = [58]) := (writes_write [58]).emits rfl
  have h2 := h1.seq h (R := fun e => ∃ v, e = 58 :: v ∧ GoodJson v) (by rintro a b rfl hb; exact ⟨b, rfl, hb⟩)
  refine (emits_str name).seq h2 ?_
  rintro a b ⟨k, rfl, h3, h4⟩ ⟨v, rfl, hv⟩
  exact ⟨k, v, by simp, h3, h4, hv⟩

theorem members_join : ∀ (es : List (List Nat)), es ≠ [] → (∀ e ∈ es, GoodMember e) → JsonMembers rfcLex (joinComma es)
  | [], h, _ => absurd rfl h
  | [e], _, h => by
    obtain ⟨k, v, rfl, hk, _, hv⟩ := h e (by simp)
    have := JsonMembers.one [] k [] [] v [] rfc_nil hk rfc_nil rfc_nil hv.1 rfc_nil
    simpa [joinComma] using this
  | e :: f :: es, _, h => by
    obtain ⟨k, v, rfl, hk, _, hv⟩ := h e (by simp)
    have := JsonMembers.cons [] k [] [] v [] _ rfc_nil hk rfc_nil rfc_nil hv.1 rfc_nil
      (members_join (f :: es) (by simp) (fun x hx => h x (by simp [hx])))
    simpa [joinComma] using this

theorem wf_member {e : List Nat} (h : GoodMember e) : WellFormedUtf8 e := by
  obtain ⟨k, v, rfl, _, hk, hv⟩ := h
  have := wf_append (wf_quoted hk) (wf_append (wf_ascii (a := [58]) (by simp)) hv.2)
  simpa using this

theorem emits_object {fs : List (Out → Res Out)} (h : ∀ f ∈ fs, Emits f GoodMember) : Emits (fmtBracket 123 125 fs) GoodJson := by
  have h1 : Emits (fun o => o.write [123]) (fun e => e = [123]) := (writes_write [123]).emits rfl
  have h2 : Emits (fun o => o.write [125]) (fun e => e = [125]) := (writes_write [125]).emits rfl
  have h3 := (emits_seq fs h).seq h2 (R := fun e => ∃ es : List (List Nat), (∀ x ∈ es, GoodMember x) ∧ e = joinComma es ++ [125]) (by
    rintro a b ⟨es, _, e2, rfl⟩ rfl; exact ⟨es, e2, rfl⟩)
  refine h1.seq h3 ?_
  rintro a b rfl ⟨es, e2, rfl⟩
  refine ⟨?_, wf_bracket (by omega) (by omega) (wf_join es (fun e he => wf_member (e2 e he)))⟩
  cases es with
  | nil => exact .obj0 [] rfc_nil
  | cons e es => exact .obj _ (members_join (e :: es) (by simp) e2)

theorem num_ascii {s : List Nat} (h : JsonNum s) : ∀ b ∈ s, b < 128 := by
  obtain ⟨m, i, f, e, rfl, hm, hi, hf, he⟩ := h
  have hd : ∀ ds, Digits ds → ∀ b ∈ ds, b < 128 := by
    intro ds h b hb
    have := h b hb
    omega
  intro b hb
  simp only [List.mem_append] at hb
  rcases hb with ((hb | hb) | hb) | hb
  · rcases hm with rfl | rfl <;> simp at hb; omega
  · rcases hi with rfl | ⟨d, ds, rfl, h1, h2⟩
    · simp at hb; omega
    · rcases List.mem_cons.1 hb with rfl | hb
      · omega
      · exact hd ds h2 b hb
  · rcases hf with rfl | ⟨ds, rfl, _, h2⟩
    · simp at hb
    · rcases List.mem_cons.1 hb with rfl | hb
      · omega
      · exact hd ds h2 b hb
  · rcases he with rfl | ⟨c, g, ds, rfl, h1, h2, _, h3⟩
    · simp at hb
    · rcases List.mem_cons.1 hb with rfl | hb
      · omega
      · rcases List.mem_append.1 hb with hb | hb
        · rcases h2 with rfl | rfl | rfl <;> simp at hb <;> omega
        · exact hd ds h3 b hb

mutual
theorem emits_fj (sal : Bool) : ∀ (t : JTy) (v : JVal), Emits (fj sal t v) GoodJson
  | .bool, v => by
    cases v with
    | bool b =>
      refine (writes_write (if b ≠ 0 then litTrue else litFalse)).emits ?_
      split_ifs
      · exact ⟨.tru, wf_ascii (by decide)⟩
      · exact ⟨.fls, wf_ascii (by decide)⟩
    | _ => exact emits_fail (by intro o o' h; simp [fj] at h)
  | .int it, v => by
    cases v with
    | int x => exact (writes_write (printInt x)).emits ⟨.num _ (printInt_json x), wf_ascii (num_ascii (printInt_json x))⟩
    | _ => exact emits_fail (by intro o o' h; simp [fj] at h)
  | .string, v => by
    cases v with
    | str s =>
      refine (emits_str s).mono ?_
      rintro a ⟨k, rfl, h1, h2⟩
      exact ⟨.str k h1, wf_quoted h2⟩
    | _ => exact emits_fail (by intro o o' h; simp [fj] at h)
  | .option t, v => by
    intro o o' ho he
    rw [fj] at he
    obtain ⟨b, h1, h2⟩ := Res.bind_eq_ok.1 he
    cases b with
    | true => exact emits_fj sal t v o o' ho h2
    | false => exact ((writes_write litNull).emits (P := GoodJson) ⟨.null, wf_ascii (by decide)⟩) o o' ho h2
  | .struct ns ts, v => by
    cases v with
    | tup vs =>
      intro o o' ho he
      rw [fj] at he
      split_ifs at he with h1 h2
      · refine emits_array ?_ o o' ho he
        intro f hf
        exact emits_fjs sal ts vs f hf
      · refine emits_object ?_ o o' ho he
        intro f hf
        obtain ⟨i, hi, rfl⟩ := List.getElem_of_mem hf
        rw [List.getElem_zipWith]
        exact emits_field (emits_fjs sal ts vs _ (List.getElem_mem _))
    | _ => exact emits_fail (by intro o o' h; simp [fj] at h)
  | .tuple ts, v => emits_fail (by intro o o' h; simp [fj] at h)
  | .fixed n t, v => by
    cases v with
    | arr vs =>
      intro o o' ho he
      rw [fj] at he
      split_ifs at he with h1
      refine emits_array ?_ o o' ho he
      intro f hf
      obtain ⟨x, _, rfl⟩ := List.mem_map.1 hf
      exact emits_fj sal t x
    | _ => exact emits_fail (by intro o o' h; simp [fj] at h)
  | .var t, v => by
    cases v with
    | arr vs =>
      intro o o' ho he
      rw [fj] at he
      refine emits_array ?_ o o' ho he
      intro f hf
      obtain ⟨x, _, rfl⟩ := List.mem_map.1 hf
      exact emits_fj sal t x
    | _ => exact emits_fail (by intro o o' h; simp [fj] at h)
theorem emits_fjs (sal : Bool) : ∀ (ts : List JTy) (vs : List JVal) (f : Out → Res Out),
    f ∈ List.zipWith (fun f v => f v) (fjs sal ts) vs → Emits f GoodJson
  | [], vs, f, h => by simp [fjs] at h
  | t :: ts, [], f, h => by simp at h
  | t :: ts, v :: vs, f, h => by
    rw [fjs, List.zipWith_cons_cons] at h
    rcases List.mem_cons.1 h with rfl | h
    · exact emits_fj sal t v
    · exact emits_fjs sal ts vs f h
end

/-! ### The headline theorem -/

/-- **C72.** Whatever the type and the value (strings and field names may hold any bytes, structs may repeat names, options
    may be missing, 128-bit integers included): if `format_json` gives a text, then it is a JSON document in the sense of
    RFC 8259, in well-formed UTF-8, and `validate_json` accepts it. -/
theorem format_json_valid (sal : Bool) (t : JTy) (v : JVal) (txt : List Nat) (h : formatJson sal t v = .ok txt) :
    JsonDoc rfcLex txt ∧ WellFormedUtf8 txt ∧ validateJson txt = .ok () := by
  unfold formatJson at h
  obtain ⟨o, h1, h2⟩ := Res.bind_eq_ok.1 h
  simp only [Res.pure_eq, Res.ok.injEq] at h2
  obtain ⟨e, h3, h4, _⟩ := emits_fj sal t v ⟨[], 1024⟩ o (by simp) h1
  simp only [List.nil_append] at h3
  rw [← h2, h3]
  have hd : JsonDoc rfcLex e := ⟨[], e, [], rfc_nil, h4.1, rfc_nil, by simp⟩
  exact ⟨hd, h4.2, validate_json_accepts_rfc e hd⟩

/-- a malformed string that is written: the sequence `E2 82` is cut off after two bytes -/
example : formatJson false .string (.str [97, 0xE2, 0x82]) = .ok [34, 97, 63, 34] := by decide +kernel

/-- a struct with two fields of the same, malformed name -/
example : formatJson false (.struct [[0xE2, 0x82], [0xE2, 0x82]] [.bool, .var .string]) (.tup [.bool 7, .arr []])
    = .ok ([123, 34, 63, 34, 58] ++ litTrue ++ [44, 34, 63, 34, 58, 91, 93, 125]) := by decide +kernel

/-! ### Where there is no text, or no JSON -/

/-- On a byte that cannot begin a character the decoder answers `?` and stays where it is, so the loop never ends, however
    many steps it is given (in the program: until memory runs out). -/
theorem format_json_stuck_violated (b : Nat) (s : List Nat) (h : sequenceLength b = 0) (fuel : Nat) (o : Out) :
    ∀ o', fmtStrLoop fuel (b :: s) o ≠ .ok o' := by
  induction fuel generalizing o with
  | zero => intro o' h; rw [fmtStrLoop] at h; cases h
  | succ fuel ih =>
    intro o' he
    rw [fmtStrLoop.eq_def] at he
    have e : noerrorNextUtf8 (b :: s) = .ok (0x3f, b :: s) := by
      unfold noerrorNextUtf8; simp only [h, if_true]
    simp only [e, Res.bind_ok] at he
    obtain ⟨o1, _, h2⟩ := Res.bind_eq_ok.1 he
    exact ih o1 o' h2

example : formatJson false .string (.str [0x80]) = .ub ∧ sequenceLength 0x80 = 0 := by decide +kernel

theorem not_json_head {c : Nat} {r : List Nat} (h1 : isSpace c = false) (h2 : c ≠ 123) (h3 : c ≠ 91) (h4 : c ≠ 34)
    (h5 : c ≠ 116) (h6 : c ≠ 102) (h7 : c ≠ 110) (h8 : c ≠ 45) (h9 : isDig c = false) : ¬ JsonDoc rfcLex (c :: r) := by
  intro h
  have hv := validate_json_accepts_rfc _ h
  have hw : jWs (c :: r) = c :: r := by simp [jWs, h1]
  have e : skipJson (c :: r) = .throw .parse := by
    unfold skipJson
    rw [show 2 * (c :: r).length + 2 = (2 * (c :: r).length + 1) + 1 from rfl, skipVal]
    simp only [hw, h2, h3, h4, h5, h6, h7, h8, h9, if_false, Bool.false_eq_true, or_self]
  unfold validateJson at hv
  rw [e] at hv
  cases hv

/-- Complex numbers are written `(re + imj)`, which is not JSON, whatever the parts. -/
theorem format_json_complex_violated (re im : FloatText) (o o' : Out) (h : o.data = []) (hc : o.data.length ≤ o.cap)
    (hw : fmtNumberText (streamComplex re im) o = .ok o') : ¬ JsonDoc rfcLex o'.data := by
  obtain ⟨o2, h1, h2, _⟩ := writes_write (streamComplex re im) o hc
  obtain rfl := Res.ok.inj (h1.symm.trans hw)
  rw [h2, h, List.nil_append]
  exact not_json_head (by decide) (by decide) (by decide) (by decide) (by decide) (by decide) (by decide) (by decide) (by decide)

/-- Infinities and not-a-numbers are written by name, which is not JSON. -/
theorem format_json_special_violated (neg : Bool) (o o' : Out) (h : o.data = []) (hc : o.data.length ≤ o.cap) (x : FloatText)
    (hx : x = .nan neg ∨ x = .inf neg) (hw : fmtNumberText (streamFloat x) o = .ok o') : ¬ JsonDoc rfcLex o'.data := by
  obtain ⟨o2, h1, h2, _⟩ := writes_write (streamFloat x) o hc
  obtain rfl := Res.ok.inj (h1.symm.trans hw)
  rw [h2, h, List.nil_append]
  intro hd
  have hv := validate_json_accepts_rfc _ hd
  rcases hx with rfl | rfl <;> cases neg <;> revert hv <;> decide +kernel

/-- finite numbers whose digits are JSON are fine -/
theorem format_json_digits (s : List Nat) (h : JsonNum s) (o o' : Out) (ho : o.data = []) (hc : o.data.length ≤ o.cap)
    (hw : fmtNumberText (streamFloat (.digits s)) o = .ok o') : JsonDoc rfcLex o'.data := by
  obtain ⟨o2, h1, h2, _⟩ := writes_write s o hc
  obtain rfl := Res.ok.inj (h1.symm.trans hw)
  rw [h2, ho, List.nil_append]
  exact ⟨[], s, [], rfc_nil, .num s h, rfc_nil, by simp⟩

end Dynd
