import Verif.Props.JsonProps
/-
C39, C41: reading and writing JSON.  A relation `JsonMeans t txt v` says which JSON texts stand for which values of a type;
the reader turns every such text into that value, and the writer produces such a text.
-/
namespace Dynd

/-! ### specification: what JSON texts mean -/

/-- value of a hexadecimal digit -/
def hexDigVal (d : Nat) : Nat := if d ≤ 57 then d - 48 else if d ≤ 70 then d - 55 else d - 87

/-- value of a string of hexadecimal digits -/
def hexNum (x : List Nat) : Nat := x.foldl (fun a d => 16 * a + hexDigVal d) 0

/-- The text between the quotes of a JSON string and the characters (Unicode scalar values) it stands for. -/
inductive StrMeans : List Nat → List Nat → Prop
  | nil : StrMeans [] []
  | raw (c : Nat) (w r cs : List Nat) (hw : encode .utf8 c = some w) (h1 : c ≠ 34) (h2 : c ≠ 92) (hr : StrMeans r cs) :
      StrMeans (w ++ r) (c :: cs)
  | short (d c : Nat) (r cs : List Nat)
      (h : (d, c) ∈ [(34, 34), (92, 92), (47, 47), (98, 8), (102, 12), (110, 10), (114, 13), (116, 9)])
      (hr : StrMeans r cs) : StrMeans (92 :: d :: r) (c :: cs)
  | u (x r cs : List Nat) (hl : x.length = 4) (h : ∀ d ∈ x, IsHex d) (hs : Scalar (hexNum x)) (hr : StrMeans r cs) :
      StrMeans (92 :: 117 :: (x ++ r)) (hexNum x :: cs)
  | U (x r cs : List Nat) (hl : x.length = 8) (h : ∀ d ∈ x, IsHex d) (hs : Scalar (hexNum x)) (hr : StrMeans r cs) :
      StrMeans (92 :: 85 :: (x ++ r)) (hexNum x :: cs)

/-- The text between the quotes stands for this string, stored as UTF-8. -/
def StrText (k bs : List Nat) : Prop := ∃ cs, StrMeans k cs ∧ encodeAll .utf8 cs = some bs

/-- Texts of elements with whitespace around them, separated by commas. -/
inductive ElemsText : List (List Nat) → List Nat → Prop
  | one (w v w' : List Nat) (hw : JWs dyndLex w) (hw' : JWs dyndLex w') : ElemsText [v] (w ++ (v ++ w'))
  | cons (w v w' : List Nat) (es : List (List Nat)) (b : List Nat) (hw : JWs dyndLex w) (hw' : JWs dyndLex w')
      (h : ElemsText es b) : ElemsText (v :: es) (w ++ (v ++ (w' ++ 44 :: b)))

/-- `[ ... ]` with these elements. -/
def ArrayText (es : List (List Nat)) (txt : List Nat) : Prop :=
  (es = [] ∧ ∃ w, JWs dyndLex w ∧ txt = 91 :: (w ++ [93])) ∨ ∃ b, ElemsText es b ∧ txt = 91 :: (b ++ [93])

/-- A member of an object: the text of its key between the quotes, the name it stands for, the text of its value. -/
structure JMember where
  key : List Nat
  name : List Nat
  txt : List Nat

/-- Members with whitespace anywhere, separated by commas. -/
inductive MembersText : List JMember → List Nat → Prop
  | one (w w1 w2 w' : List Nat) (m : JMember) (hw : JWs dyndLex w) (hw1 : JWs dyndLex w1) (hw2 : JWs dyndLex w2)
      (hw' : JWs dyndLex w') : MembersText [m] (w ++ (34 :: (m.key ++ 34 :: (w1 ++ 58 :: (w2 ++ (m.txt ++ w'))))))
  | cons (w w1 w2 w' : List Nat) (m : JMember) (ms : List JMember) (b : List Nat) (hw : JWs dyndLex w)
      (hw1 : JWs dyndLex w1) (hw2 : JWs dyndLex w2) (hw' : JWs dyndLex w') (h : MembersText ms b) :
      MembersText (m :: ms) (w ++ (34 :: (m.key ++ 34 :: (w1 ++ 58 :: (w2 ++ (m.txt ++ (w' ++ 44 :: b)))))))

/-- `{ ... }` with these members. -/
def ObjectText (ms : List JMember) (txt : List Nat) : Prop :=
  (ms = [] ∧ ∃ w, JWs dyndLex w ∧ txt = 123 :: (w ++ [125])) ∨ ∃ b, MembersText ms b ∧ txt = 123 :: (b ++ [125])

/-- The integers this library reads without undefined behaviour (C25: a minus sign with `int64`) or an error (`int128`). -/
def IntReadable (t : IntTy) (n : List Nat) : Prop :=
  (t.bits = 8 ∨ t.bits = 16 ∨ t.bits = 32 ∨ t.bits = 64 ∨ (t.bits = 128 ∧ t.signed = false)) ∧
  (t.signed = true → t.bits = 64 → n.head? ≠ some 45)

/-- `n` is a JSON number, written as an integer text with value `x`, and `x` is a value of `t`. -/
def IntText (t : IntTy) (n : List Nat) (x : Int) : Prop := JsonNum n ∧ SIntText n x ∧ t.Has x ∧ IntReadable t n

/-- The stored missing value of an option type. -/
def IsNa : JTy → JVal → Prop
  | .bool, v => v = .bool 2
  | .int t, v => t.signed = true ∧ v = .int t.min
  | .string, v => v = .str []
  | _, _ => False

/-- the last member with this name -/
def lastNamed (ms : List JMember) (name : List Nat) : Option JMember :=
  (ms.filter (fun m => decide (m.name = name))).getLast?

/-- What a field of a struct holds after reading an object: the value of the last member with its name (all of them must be
    readable), or, without such a member, the missing value of an optional field.  `D` is the meaning of the field's type. -/
def FieldMeans (t : JTy) (D : List Nat → JVal → Prop) (ms : List JMember) (n : List Nat) (v : JVal) : Prop :=
  (∀ m ∈ ms, m.name = n → ∃ x, D m.txt x) ∧
  match lastNamed ms n with
  | some m => D m.txt v
  | none => ∃ u, t = .option u ∧ IsNa u v

mutual
/-- `txt` is a JSON text for the value `v` of type `t`. -/
def JsonMeans : JTy → List Nat → JVal → Prop
  | .bool, txt, v =>
    ((txt = [116, 114, 117, 101] ∨ txt = [49]) ∧ v = .bool 1) ∨
    ((txt = [102, 97, 108, 115, 101] ∨ txt = [48]) ∧ v = .bool 0)
  | .int t, txt, v => ∃ x, IntText t txt x ∧ v = .int x
  | .string, txt, v => ∃ k bs, txt = 34 :: (k ++ [34]) ∧ StrText k bs ∧ v = .str bs
  | .option t, txt, v => (txt = [110, 117, 108, 108] ∧ IsNa t v) ∨
    (JsonMeans t txt v ∧ (t = .bool ∨ (∃ it, t = .int it) ∨ t = .string))
  | .struct ns ts, txt, v => ∃ vs, v = .tup vs ∧
      ((∃ es, ArrayText es txt ∧ ListMeans ts es vs) ∨
       (ns.Nodup ∧ ∃ ms, ObjectText ms txt ∧ (∀ m ∈ ms, StrText m.key m.name) ∧
          (∀ m ∈ ms, m.name ∉ ns → JsonValue dyndLex m.txt) ∧ FieldsMean ms ns ts vs))
  | .tuple ts, txt, v => ∃ es vs, ArrayText es txt ∧ ListMeans ts es vs ∧ v = .tup vs
  | .fixed n t, txt, v => ∃ es vs, ArrayText es txt ∧ es.length = n ∧ List.Forall₂ (JsonMeans t) es vs ∧ v = .arr vs
  | .var t, txt, v => ∃ es vs, ArrayText es txt ∧ List.Forall₂ (JsonMeans t) es vs ∧ v = .arr vs
/-- Element by element. -/
def ListMeans : List JTy → List (List Nat) → List JVal → Prop
  | [], es, vs => es = [] ∧ vs = []
  | t :: ts, es, vs => ∃ e es' v vs', es = e :: es' ∧ vs = v :: vs' ∧ JsonMeans t e v ∧ ListMeans ts es' vs'
/-- Field by field. -/
def FieldsMean (ms : List JMember) : List (List Nat) → List JTy → List JVal → Prop
  | ns, [], vs => ns = [] ∧ vs = []
  | ns, t :: ts, vs => ∃ n ns' v vs', ns = n :: ns' ∧ vs = v :: vs' ∧ FieldMeans t (JsonMeans t) ms n v ∧
      FieldsMean ms ns' ts vs'
end

/-! ### strings -/

theorem encode_raw {c : Nat} {w : List Nat} (h : encode .utf8 c = some w) (h1 : c ≠ 34) (h2 : c ≠ 92) :
    ∀ b ∈ w, b ≠ 34 ∧ b ≠ 92 := by
  have hs := encode_scalar h
  simp only [encode, hs, not_true_eq_false, if_false] at h
  split_ifs at h <;> simp only [Option.some.injEq] at h <;> subst h <;> intro b hb <;>
    simp only [List.mem_cons, List.not_mem_nil, or_false] at hb <;> omega

private theorem chars_raw {w r : List Nat} (hw : ∀ b ∈ w, b ≠ 34 ∧ b ≠ 92) (hr : JsonChars dyndLex r) :
    JsonChars dyndLex (w ++ r) := by
  induction w with
  | nil => exact hr
  | cons c w ih => exact .raw c _ (hw c (by simp)) (ih (fun b hb => hw b (by simp [hb])))

theorem StrMeans.chars {k cs : List Nat} (h : StrMeans k cs) : JsonChars dyndLex k := by
  induction h with
  | nil => exact .nil
  | raw c w r cs hw h1 h2 hr ih => exact chars_raw (encode_raw hw h1 h2) ih
  | short d c r cs h hr ih =>
    refine .short d r ?_ ih
    simp only [List.mem_cons, List.not_mem_nil, or_false, Prod.mk.injEq] at h ⊢
    omega
  | u x r cs hl h hs hr ih => exact .u x r hl h ih
  | U x r cs hl h hs hr ih => exact .U x r trivial hl h ih

private theorem hexVal_of {d : Nat} (h : IsHex d) : hexVal d = some (hexDigVal d) ∧ hexDigVal d < 16 := by
  unfold IsHex at h
  unfold hexVal hexDigVal
  split_ifs <;> first | omega | (refine ⟨by congr 1 <;> omega, by omega⟩)

theorem hexNum_foldl (x : List Nat) (a : Nat) :
    x.foldl (fun a d => 16 * a + hexDigVal d) a = a * 16 ^ x.length + hexNum x := by
  unfold hexNum
  induction x generalizing a with
  | nil => simp
  | cons d x ih =>
    rw [List.foldl_cons, ih, List.foldl_cons, ih (16 * 0 + hexDigVal d), List.length_cons, pow_succ]
    ring

theorem hexFold_num (x : List Nat) (h : ∀ d ∈ x, IsHex d) (a : Nat) (hb : a * 16 ^ x.length + hexNum x < 4294967296) :
    hexFold a x = a * 16 ^ x.length + hexNum x := by
  induction x generalizing a with
  | nil => simp [hexFold, hexNum]
  | cons d x ih =>
    obtain ⟨h1, h2⟩ := hexVal_of (h d (by simp))
    have e : a * 16 ^ (d :: x).length + hexNum (d :: x) = (a * 16 + hexDigVal d) * 16 ^ x.length + hexNum x := by
      rw [← hexNum_foldl, List.foldl_cons, hexNum_foldl, Nat.mul_comm 16 a]
    rw [e] at hb ⊢
    have h3 : a * 16 + hexDigVal d < 4294967296 := by
      have : 1 ≤ 16 ^ x.length := Nat.one_le_pow _ _ (by omega)
      have : (a * 16 + hexDigVal d) * 1 ≤ (a * 16 + hexDigVal d) * 16 ^ x.length := Nat.mul_le_mul_left _ this
      omega
    simp only [hexFold, h1, Nat.mod_eq_of_lt h3]
    exact ih (fun y hy => h y (by simp [hy])) _ hb

private theorem unescape_hex {x r us : List Nat} {c n : Nat} {w : List Nat} (fuel : Nat) (hl : x.length = n)
    (h : ∀ d ∈ x, IsHex d) (hw : encode .utf8 (hexNum x) = some w) (hc : (c = 117 ∧ n = 4) ∨ (c = 85 ∧ n = 8))
    (hr : unescapeLoop fuel r = .ok us) : unescapeLoop (fuel + 1) (92 :: c :: (x ++ r)) = .ok (w ++ us) := by
  have hs := encode_scalar hw
  have hf : hexFold 0 x = hexNum x := by
    have := hexFold_num x h 0 (by unfold Scalar at hs; omega)
    simpa using this
  have ha := utf8_append_eq hw
  rcases hc with ⟨rfl, rfl⟩ | ⟨rfl, rfl⟩
  · have e1 : (x ++ r).take 4 = x := by rw [← hl]; simp
    have e2 : (x ++ r).drop 4 = r := by rw [← hl]; simp
    have e3 : ¬ (x ++ r).length < 4 := by simp; omega
    rw [unescapeLoop.eq_def]
    simp only [if_pos rfl, e1, e2, hf, ha, hr, e3, if_false, Res.bind_ok, Res.pure_eq]
    simp
  · have e1 : (x ++ r).take 8 = x := by rw [← hl]; simp
    have e2 : (x ++ r).drop 8 = r := by rw [← hl]; simp
    have e3 : ¬ (x ++ r).length < 8 := by simp; omega
    rw [unescapeLoop.eq_def]
    simp only [if_pos rfl, e1, e2, hf, ha, hr, e3, if_false, Res.bind_ok, Res.pure_eq]
    simp

private theorem unescape_raw {w r us : List Nat} (hw : ∀ b ∈ w, b ≠ 34 ∧ b ≠ 92) (fuel : Nat)
    (hf : w.length ≤ fuel) (hr : unescapeLoop (fuel - w.length) r = .ok us) : unescapeLoop fuel (w ++ r) = .ok (w ++ us) := by
  induction w generalizing fuel with
  | nil => simpa using hr
  | cons c w ih =>
    simp only [List.length_cons] at hf hr
    obtain ⟨f, rfl⟩ : ∃ f, fuel = f + 1 := ⟨fuel - 1, by omega⟩
    have hc := (hw c (by simp)).2
    have := ih (fun b hb => hw b (by simp [hb])) f (by omega) (by rw [show f - w.length = f + 1 - (w.length + 1) by omega]; exact hr)
    rw [List.cons_append, unescapeLoop.eq_def]
    simp only [if_neg hc, this, Res.bind_ok, Res.pure_eq]
    rfl

private theorem unescape_means {k cs : List Nat} (h : StrMeans k cs) :
    ∀ (bs : List Nat) (fuel : Nat), encodeAll .utf8 cs = some bs → k.length ≤ fuel → unescapeLoop fuel k = .ok bs := by
  induction h with
  | nil =>
    intro bs fuel hb hf
    simp [encodeAll] at hb; subst hb
    cases fuel <;> simp [unescapeLoop]
  | raw c w r cs hw h1 h2 hr ih =>
    intro bs fuel hb hf
    obtain ⟨a, b, g1, g2, rfl⟩ := encodeAll_cons.1 hb
    rw [hw] at g1; simp only [Option.some.injEq] at g1; subst g1
    simp only [List.length_append] at hf
    exact unescape_raw (encode_raw hw h1 h2) fuel (by omega) (ih b _ g2 (by omega))
  | short d c r cs h hr ih =>
    intro bs fuel hb hf
    obtain ⟨a, b, g1, g2, rfl⟩ := encodeAll_cons.1 hb
    simp only [List.length_cons] at hf
    obtain ⟨f, rfl⟩ : ∃ f, fuel = f + 1 := ⟨fuel - 1, by omega⟩
    have h3 := ih b f g2 (by omega)
    simp only [List.mem_cons, List.not_mem_nil, or_false, Prod.mk.injEq] at h
    rw [encode_ascii (by omega)] at g1
    simp only [Option.some.injEq] at g1; subst g1
    rw [unescapeLoop.eq_def]
    rcases h with ⟨rfl, rfl⟩ | ⟨rfl, rfl⟩ | ⟨rfl, rfl⟩ | ⟨rfl, rfl⟩ | ⟨rfl, rfl⟩ | ⟨rfl, rfl⟩ | ⟨rfl, rfl⟩ | ⟨rfl, rfl⟩ <;>
      simp [h3]
  | u x r cs hl h hs hr ih =>
    intro bs fuel hb hf
    obtain ⟨a, b, g1, g2, rfl⟩ := encodeAll_cons.1 hb
    simp only [List.length_cons, List.length_append] at hf
    obtain ⟨f, rfl⟩ : ∃ f, fuel = f + 1 := ⟨fuel - 1, by omega⟩
    exact unescape_hex f hl h g1 (Or.inl ⟨rfl, rfl⟩) (ih b f g2 (by omega))
  | U x r cs hl h hs hr ih =>
    intro bs fuel hb hf
    obtain ⟨a, b, g1, g2, rfl⟩ := encodeAll_cons.1 hb
    simp only [List.length_cons, List.length_append] at hf
    obtain ⟨f, rfl⟩ : ∃ f, fuel = f + 1 := ⟨fuel - 1, by omega⟩
    exact unescape_hex f hl h g1 (Or.inr ⟨rfl, rfl⟩) (ih b f g2 (by omega))

private theorem plain_means {k cs : List Nat} (h : StrMeans k cs) :
    ∀ bs, encodeAll .utf8 cs = some bs → 92 ∉ k → k = bs := by
  induction h with
  | nil => intro bs hb _; simp [encodeAll] at hb; exact hb.symm
  | raw c w r cs hw h1 h2 hr ih =>
    intro bs hb hn
    obtain ⟨a, b, g1, g2, rfl⟩ := encodeAll_cons.1 hb
    rw [hw] at g1; simp only [Option.some.injEq] at g1; subst g1
    rw [ih b g2 (fun h => hn (by simp [h]))]
  | short d c r cs h hr ih => intro bs _ hn; exact absurd (by simp) hn
  | u x r cs hl h hs hr ih => intro bs _ hn; exact absurd (by simp) hn
  | U x r cs hl h hs hr ih => intro bs _ hn; exact absurd (by simp) hn

/-- A quoted string is read as what it means. -/
theorem quoted_text {k bs : List Nat} (h : StrText k bs) (r : List Nat) :
    ∃ e, parseDoublequote (34 :: (k ++ 34 :: r)) = .ok (some (k, e, r)) ∧
      (if e then unescape k else (pure k : Res (List Nat))) = .ok bs := by
  obtain ⟨cs, h1, h2⟩ := h
  obtain ⟨e, h3, h4⟩ := quoted_complete h1.chars r
  refine ⟨e, h3, ?_⟩
  cases e with
  | true => simp only [if_true]; exact unescape_means h1 bs _ h2 (Nat.le_refl _)
  | false => simp only [Bool.false_eq_true, if_false, Res.pure_eq, Res.ok.injEq]; exact plain_means h1 bs h2 (h4 rfl)

/-- A quoted string is stored as what it means. -/
theorem quoted_stored {k bs : List Nat} (h : StrText k bs) : assignString false .utf8 false bs = .ok bs := by
  obtain ⟨cs, _, h2⟩ := h
  exact ((string_set_exact bs (encodeAll_bound h2)).2 bs).2 ⟨rfl, cs, h2⟩

/-! ### numbers -/

theorem jsonNum_noSpace {n : List Nat} (h : JsonNum n) : ∀ c ∈ n, isSpace c = false := by
  have hd : ∀ {ds : List Nat}, Digits ds → ∀ c ∈ ds, isSpace c = false := by
    intro ds hds c hc
    have := hds c hc
    simp [isSpace]; omega
  obtain ⟨m, i, f, e, rfl, hm, hi, hf, he⟩ := h
  intro c hc
  simp only [List.mem_append] at hc
  rcases hc with ((hc | hc) | hc) | hc
  · rcases hm with rfl | rfl
    · cases hc
    · simp at hc; subst hc; rfl
  · rcases hi with rfl | ⟨d, ds, rfl, h1, h2⟩
    · simp at hc; subst hc; rfl
    · simp only [List.mem_cons] at hc
      rcases hc with rfl | hc
      · simp [isSpace]; omega
      · exact hd h2 c hc
  · rcases hf with rfl | ⟨ds, rfl, h1, h2⟩
    · cases hc
    · simp only [List.mem_cons] at hc
      rcases hc with rfl | hc
      · rfl
      · exact hd h2 c hc
  · rcases he with rfl | ⟨x, g, ds, rfl, h1, h2, h3, h4⟩
    · cases hc
    · simp only [List.mem_cons, List.mem_append] at hc
      rcases hc with rfl | hc | hc
      · rcases h1 with rfl | rfl <;> rfl
      · rcases h2 with rfl | rfl | rfl
        · cases hc
        · simp at hc; subst hc; rfl
        · simp at hc; subst hc; rfl
      · exact hd h4 c hc

theorem jsonNum_ne_nil {n : List Nat} (h : JsonNum n) : n ≠ [] := by
  obtain ⟨c, r, rfl, _⟩ := jsonNum_head h
  simp

theorem jsonNum_trim {n : List Nat} (h : JsonNum n) : trim n = n := by
  have := trim_spec [] n [] (by simp) (by simp) (fun c hc => jsonNum_noSpace h c (List.mem_of_mem_head? hc))
    (fun c hc => jsonNum_noSpace h c (List.mem_of_mem_getLast? hc)) (jsonNum_ne_nil h)
  simpa using this

theorem jsonNum_not_na {n : List Nat} (h : JsonNum n) : parseNa n = false := by
  obtain ⟨c, r, rfl, hc⟩ := jsonNum_head h
  have h2 : c ≠ 78 ∧ c ≠ 110 := by
    rcases hc with rfl | hc
    · decide
    · have := isDig_iff.1 hc; omega
  unfold parseNa
  split
  · rename_i heq; cases heq
  · rename_i a b heq
    obtain ⟨rfl, _⟩ := List.cons.inj heq
    simp [h2.1]
  · rename_i a b c' d heq
    obtain ⟨rfl, _⟩ := List.cons.inj heq
    simp [h2.1, h2.2]
  · rfl

/-- An integer text is converted to its value. -/
theorem strToNum_exact {t : IntTy} {n : List Nat} {x : Int} (h : IntText t n x) : strToNum t n = .ok x := by
  obtain ⟨h1, h2, h3, h4, h5⟩ := h
  obtain ⟨bits, sg⟩ := t
  simp only at h4 h5
  unfold strToNum
  rw [if_neg (by rw [jsonNum_not_na h1]; decide)]
  cases sg with
  | true =>
    simp only [if_true]
    have hle : bits ≤ 64 := by simp at h4; omega
    rw [if_pos hle]
    have hset : stringToSigned bits n = .ok x := by
      by_cases h64 : bits = 64
      · subst h64
        have hm : n.head? ≠ some 45 := h5 rfl rfl
        cases h2 with
        | neg s k hk => simp at hm
        | pos s k hk =>
          have hh := IntTy.has_signed.1 h3
          have hk2 : k < 2 ^ 63 := by
            have : (64 : Nat) - 1 = 63 := rfl
            rw [this] at hh; omega
          have := string_to_int64_nonneg_partial (s := n) (n := k) (by rw [jsonNum_trim h1]; exact hk) (by omega)
          rw [this, if_pos hk2]
      · have hh := IntTy.has_signed.1 h3
        have hlt : bits < 64 := by omega
        have hp : (2 : Nat) ^ (bits - 1) ≤ 2 ^ 63 := Nat.pow_le_pow_right (by omega) (by omega)
        have := string_to_signed_partial (bits := bits) (by omega) hlt (s := n) (v := x) (by rw [jsonNum_trim h1]; exact h2)
          (by omega)
        rw [this]; exact if_pos h3
    unfold stringToSigned at hset
    simp only [jsonNum_trim h1] at hset
    exact hset
  | false =>
    simp only [Bool.false_eq_true, if_false]
    have hh := IntTy.has_unsigned.1 h3
    have hmax : x ≤ (IntTy.mk bits false).max := h3.2
    have hb : 2 ^ bits ≤ 2 ^ (if bits ≤ 64 then 64 else bits) := by
      apply Nat.pow_le_pow_right (by omega)
      split_ifs <;> omega
    cases h2 with
    | pos s k hk =>
      rw [hk.not_minus]
      simp only
      rw [parse_unsigned_exact hk (by omega)]
      simp only [Res.bind_ok]
      rw [if_neg (by simp only [Bool.false_eq_true, false_and, false_or]; omega)]
      rfl
    | neg s k hk =>
      have hk0 : k = 0 := by omega
      subst hk0
      simp only [takeMinus]
      rw [parse_unsigned_exact hk (by exact Nat.pow_pos (by omega))]
      simp only [Res.bind_ok]
      rw [if_neg (by simp only [ne_eq, not_true_eq_false, and_false, false_or]; simpa using hmax)]
      rfl

/-! ### such texts are JSON values -/

theorem ElemsText.json {es : List (List Nat)} {b : List Nat} (h : ElemsText es b) (hv : ∀ e ∈ es, JsonValue dyndLex e) :
    JsonElems dyndLex b := by
  induction h with
  | one w v w' hw hw' => exact .one w v w' hw (hv v (by simp)) hw'
  | cons w v w' es b hw hw' h ih => exact .cons w v w' b hw (hv v (by simp)) hw' (ih (fun e he => hv e (by simp [he])))

theorem ArrayText.json {es : List (List Nat)} {txt : List Nat} (h : ArrayText es txt) (hv : ∀ e ∈ es, JsonValue dyndLex e) :
    JsonValue dyndLex txt := by
  rcases h with ⟨_, w, hw, rfl⟩ | ⟨b, hb, rfl⟩
  · exact .arr0 w hw
  · exact .arr b (hb.json hv)

theorem MembersText.json {ms : List JMember} {b : List Nat} (h : MembersText ms b)
    (hk : ∀ m ∈ ms, JsonChars dyndLex m.key) (hv : ∀ m ∈ ms, JsonValue dyndLex m.txt) : JsonMembers dyndLex b := by
  induction h with
  | one w w1 w2 w' m hw hw1 hw2 hw' =>
    exact .one w m.key w1 w2 m.txt w' hw (hk m (by simp)) hw1 hw2 (hv m (by simp)) hw'
  | cons w w1 w2 w' m ms b hw hw1 hw2 hw' h ih =>
    exact .cons w m.key w1 w2 m.txt w' b hw (hk m (by simp)) hw1 hw2 (hv m (by simp)) hw'
      (ih (fun x hx => hk x (by simp [hx])) (fun x hx => hv x (by simp [hx])))

theorem ObjectText.json {ms : List JMember} {txt : List Nat} (h : ObjectText ms txt)
    (hk : ∀ m ∈ ms, JsonChars dyndLex m.key) (hv : ∀ m ∈ ms, JsonValue dyndLex m.txt) : JsonValue dyndLex txt := by
  rcases h with ⟨_, w, hw, rfl⟩ | ⟨b, hb, rfl⟩
  · exact .obj0 w hw
  · exact .obj b (hb.json hk hv)

private theorem forall2_left {R : List Nat → JVal → Prop} {es : List (List Nat)} {vs : List JVal} (h : List.Forall₂ R es vs) :
    ∀ e ∈ es, ∃ v, R e v := by
  induction h with
  | nil => simp
  | cons h1 _ ih =>
    intro e he
    simp only [List.mem_cons] at he
    rcases he with rfl | he
    · exact ⟨_, h1⟩
    · exact ih e he

theorem StrText.json {k bs : List Nat} (h : StrText k bs) : JsonChars dyndLex k := by
  obtain ⟨cs, h1, _⟩ := h; exact h1.chars

mutual
/-- Texts with a meaning are JSON values. -/
theorem means_json : (t : JTy) → ∀ {txt : List Nat} {v : JVal}, JsonMeans t txt v → JsonValue dyndLex txt
  | .bool, txt, v, h => by
    simp only [JsonMeans] at h
    rcases h with ⟨rfl | rfl, _⟩ | ⟨rfl | rfl, _⟩
    · exact .tru
    · exact .num _ ⟨[], [49], [], [], rfl, by simp, Or.inr ⟨49, [], rfl, by omega, by decide⟩, by simp, by simp⟩
    · exact .fls
    · exact .num _ ⟨[], [48], [], [], rfl, by simp, Or.inl rfl, by simp, by simp⟩
  | .int t, txt, v, h => by
    simp only [JsonMeans] at h
    obtain ⟨x, h, _⟩ := h
    exact .num _ h.1
  | .string, txt, v, h => by
    simp only [JsonMeans] at h
    obtain ⟨k, bs, rfl, h, _⟩ := h
    exact .str k h.json
  | .option t, txt, v, h => by
    simp only [JsonMeans] at h
    rcases h with ⟨rfl, _⟩ | ⟨h, _⟩
    · exact .null
    · exact means_json t h
  | .struct ns ts, txt, v, h => by
    simp only [JsonMeans] at h
    obtain ⟨vs, _, ⟨es, h1, h2⟩ | ⟨_, ms, h1, h2, h3, h4⟩⟩ := h
    · exact h1.json (list_json ts h2)
    · refine h1.json (fun m hm => (h2 m hm).json) (fun m hm => ?_)
      by_cases hn : m.name ∈ ns
      · exact fields_json ms ts h4 m hm hn
      · exact h3 m hm hn
  | .tuple ts, txt, v, h => by
    simp only [JsonMeans] at h
    obtain ⟨es, vs, h1, h2, _⟩ := h
    exact h1.json (list_json ts h2)
  | .fixed n t, txt, v, h => by
    simp only [JsonMeans] at h
    obtain ⟨es, vs, h1, _, h2, _⟩ := h
    refine h1.json (fun e he => ?_)
    obtain ⟨x, hx⟩ := forall2_left h2 e he
    exact means_json t hx
  | .var t, txt, v, h => by
    simp only [JsonMeans] at h
    obtain ⟨es, vs, h1, h2, _⟩ := h
    refine h1.json (fun e he => ?_)
    obtain ⟨x, hx⟩ := forall2_left h2 e he
    exact means_json t hx
theorem list_json : (ts : List JTy) → ∀ {es : List (List Nat)} {vs : List JVal}, ListMeans ts es vs →
    ∀ e ∈ es, JsonValue dyndLex e
  | [], es, vs, h => by
    simp only [ListMeans] at h
    obtain ⟨rfl, _⟩ := h
    simp
  | t :: ts, es, vs, h => by
    simp only [ListMeans] at h
    obtain ⟨e, es', v, vs', rfl, rfl, h1, h2⟩ := h
    intro x hx
    simp only [List.mem_cons] at hx
    rcases hx with rfl | hx
    · exact means_json t h1
    · exact list_json ts h2 x hx
theorem fields_json (ms : List JMember) : (ts : List JTy) → ∀ {ns : List (List Nat)} {vs : List JVal},
    FieldsMean ms ns ts vs → ∀ m ∈ ms, m.name ∈ ns → JsonValue dyndLex m.txt
  | [], ns, vs, h => by
    simp only [FieldsMean] at h
    obtain ⟨rfl, _⟩ := h
    simp
  | t :: ts, ns, vs, h => by
    simp only [FieldsMean] at h
    obtain ⟨n, ns', v, vs', rfl, rfl, h1, h2⟩ := h
    intro m hm hn
    simp only [List.mem_cons] at hn
    rcases hn with hn | hn
    · obtain ⟨x, hx⟩ := h1.1 m hm hn
      exact means_json t hx
    · exact fields_json ms ts h2 m hm hn
end

/-! ### the reader -/

/-- The reader turns the text into the value, whatever was in the memory and whatever follows. -/
def Reads (p : JP) (txt : List Nat) (v : JVal) : Prop :=
  ∀ old w rest, JWs dyndLex w → ValEnd rest → p old (w ++ (txt ++ rest)) = .ok (v, rest)

theorem ws_nil : JWs dyndLex [] := by intro c h; cases h

theorem jTok_none_head {c d : Nat} {t r : List Nat} (hd : isSpace d = false) (hne : c ≠ d) : jTok (c :: t) (d :: r) = none := by
  unfold jTok
  rw [jWs_cons hd]
  simp [List.isPrefixOf, hne]

theorem jTok_here {c : Nat} {t r : List Nat} (hc : isSpace c = false) : jTok (c :: t) ((c :: t) ++ r) = some r := by
  have := jTok_of (w := []) (tok := c :: t) (rest := r) ws_nil ⟨c, t, rfl, hc⟩
  simpa using this

/-- Skipping the whitespace before a value. -/
theorem jWs_value {w txt rest : List Nat} (hw : JWs dyndLex w) (ht : JsonValue dyndLex txt) :
    jWs (w ++ (txt ++ rest)) = txt ++ rest := by
  obtain ⟨c, r, rfl, hc, _⟩ := jsonValue_head ht
  rw [jWs_append hw, List.cons_append, jWs_cons hc]

private theorem reads_bool {txt : List Nat} {v : JVal} (h : JsonMeans .bool txt v) : Reads (pj .bool) txt v := by
  intro old w rest hw hr
  have hj := means_json .bool h
  simp only [pj]
  rw [jWs_value hw hj]
  simp only [JsonMeans] at h
  unfold boolP
  rcases h with ⟨rfl | rfl, rfl⟩ | ⟨rfl | rfl, rfl⟩
  · have := jTok_here (c := 116) (t := [114, 117, 101]) (r := rest) rfl
    rw [show litTrue = [116, 114, 117, 101] from rfl, this]
  · have e1 : jTok litTrue ([49] ++ rest) = none := jTok_none_head rfl (by decide)
    have e2 : jTok litFalse ([49] ++ rest) = none := jTok_none_head rfl (by decide)
    have e3 : jTok litNull ([49] ++ rest) = none := jTok_none_head rfl (by decide)
    have hn : JsonNum [49] := ⟨[], [49], [], [], rfl, by simp, Or.inr ⟨49, [], rfl, by omega, by decide⟩, by simp, by simp⟩
    simp only [e1, e2, e3, jNumber_complete hn hr.num]
    rfl
  · have e1 : jTok litTrue ([102, 97, 108, 115, 101] ++ rest) = none := jTok_none_head rfl (by decide)
    have e2 := jTok_here (c := 102) (t := [97, 108, 115, 101]) (r := rest) rfl
    rw [e1, show litFalse = [102, 97, 108, 115, 101] from rfl, e2]
  · have e1 : jTok litTrue ([48] ++ rest) = none := jTok_none_head rfl (by decide)
    have e2 : jTok litFalse ([48] ++ rest) = none := jTok_none_head rfl (by decide)
    have e3 : jTok litNull ([48] ++ rest) = none := jTok_none_head rfl (by decide)
    have hn : JsonNum [48] := ⟨[], [48], [], [], rfl, by simp, Or.inl rfl, by simp, by simp⟩
    simp only [e1, e2, e3, jNumber_complete hn hr.num]
    rfl

private theorem reads_int {t : IntTy} {txt : List Nat} {v : JVal} (h : JsonMeans (.int t) txt v) :
    Reads (pj (.int t)) txt v := by
  intro old w rest hw hr
  have hj := means_json (.int t) h
  simp only [pj]
  rw [jWs_value hw hj]
  simp only [JsonMeans] at h
  obtain ⟨x, h, rfl⟩ := h
  unfold numP
  simp only [jNumber_complete h.1 hr.num, strToNum_exact h, Res.bind_ok, Res.pure_eq]

/-- `if` pulled in front of the continuation -/
theorem if_bind {α : Type} {e : Bool} {k bs : List Nat} (h : (if e then unescape k else (pure k : Res (List Nat))) = .ok bs)
    (f : List Nat → Res α) : (if e = true then unescape k >>= f else (pure k : Res (List Nat)) >>= f) = f bs := by
  cases e with
  | true => simp only [if_true] at h ⊢; rw [h]; rfl
  | false => simp only [Bool.false_eq_true, if_false] at h ⊢; rw [h]; rfl

private theorem reads_string {txt : List Nat} {v : JVal} (h : JsonMeans .string txt v) : Reads (pj .string) txt v := by
  intro old w rest hw hr
  have hj := means_json .string h
  simp only [pj]
  rw [jWs_value hw hj]
  simp only [JsonMeans] at h
  obtain ⟨k, bs, rfl, h, rfl⟩ := h
  unfold strP
  obtain ⟨e, h1, h2⟩ := quoted_text h rest
  rw [List.cons_append, jWs_cons rfl, List.append_assoc, List.cons_append, List.nil_append, h1]
  simp only [Res.bind_ok]
  rw [if_bind h2]
  simp only [Res.bind_ok, quoted_stored h, asParseError, Res.pure_eq]

private theorem reads_null {t : JTy} {v : JVal} (h : IsNa t v) : Reads (pj (.option t)) [110, 117, 108, 108] v := by
  intro old w rest hw hr
  simp only [pj]
  rw [jWs_value hw .null]
  have e : jTok litNull (jWs ([110, 117, 108, 108] ++ rest)) = some rest := by
    rw [List.cons_append, jWs_cons rfl]
    exact jTok_here (c := 110) (t := [117, 108, 108]) (r := rest) rfl
  cases t with
  | bool =>
    simp only [IsNa] at h; subst h
    simp only [optP, e, jAssignNa, Res.bind_ok, Res.pure_eq]
    rfl
  | int t =>
    simp only [IsNa] at h
    obtain ⟨h1, rfl⟩ := h
    have hna : assignNaBuiltin (.int t) (0 : Int) = t.min := if_pos h1
    simp only [optP, e, jAssignNa, if_pos h1, Res.bind_ok, Res.pure_eq]
    rw [hna]
  | string =>
    simp only [IsNa] at h; subst h
    simp only [optP, e, jAssignNa, Res.bind_ok, Res.pure_eq]
  | option t => exact absurd h (by simp [IsNa])
  | struct ns ts => exact absurd h (by simp [IsNa])
  | tuple ts => exact absurd h (by simp [IsNa])
  | fixed n t => exact absurd h (by simp [IsNa])
  | var t => exact absurd h (by simp [IsNa])

private theorem jTok_null_none {txt rest : List Nat} (h : ∃ c r, txt = c :: r ∧ isSpace c = false ∧ c ≠ 110) :
    jTok litNull (jWs (txt ++ rest)) = none := by
  obtain ⟨c, r, rfl, h1, h2⟩ := h
  rw [List.cons_append, jWs_cons h1]
  exact jTok_none_head h1 (fun h => h2 h.symm)

private theorem reads_opt_bool {txt : List Nat} {v : JVal} (h : JsonMeans .bool txt v) : Reads (pj (.option .bool)) txt v := by
  intro old w rest hw hr
  have hj := means_json .bool h
  simp only [pj]
  rw [jWs_value hw hj]
  simp only [JsonMeans] at h
  unfold optP
  simp only
  rcases h with ⟨rfl | rfl, rfl⟩ | ⟨rfl | rfl, rfl⟩
  · rw [jTok_null_none ⟨_, _, rfl, rfl, by decide⟩]
    rw [List.cons_append, jWs_cons rfl, quoted_other (by decide)]
    simp only [Res.bind_ok, optScalarP]
    have := jTok_here (c := 116) (t := [114, 117, 101]) (r := rest) rfl
    rw [show litTrue = [116, 114, 117, 101] from rfl]
    rw [List.cons_append] at this
    rw [this]
  · rw [jTok_null_none ⟨_, _, rfl, rfl, by decide⟩]
    rw [List.cons_append, jWs_cons rfl, quoted_other (by decide)]
    simp only [Res.bind_ok, optScalarP]
    have e1 : jTok litTrue (49 :: ([] ++ rest)) = none := jTok_none_head rfl (by decide)
    have e2 : jTok litFalse (49 :: ([] ++ rest)) = none := jTok_none_head rfl (by decide)
    have hn : JsonNum [49] := ⟨[], [49], [], [], rfl, by simp, Or.inr ⟨49, [], rfl, by omega, by decide⟩, by simp, by simp⟩
    have e3 : jNumber (49 :: ([] ++ rest)) = some ([49], rest) := jNumber_complete hn hr.num
    simp only [e1, e2, e3]
    rfl
  · rw [jTok_null_none ⟨_, _, rfl, rfl, by decide⟩]
    rw [List.cons_append, jWs_cons rfl, quoted_other (by decide)]
    simp only [Res.bind_ok, optScalarP]
    have e1 : jTok litTrue (102 :: ([97, 108, 115, 101] ++ rest)) = none := jTok_none_head rfl (by decide)
    have e2 := jTok_here (c := 102) (t := [97, 108, 115, 101]) (r := rest) rfl
    rw [List.cons_append] at e2
    rw [e1, show litFalse = [102, 97, 108, 115, 101] from rfl, e2]
  · rw [jTok_null_none ⟨_, _, rfl, rfl, by decide⟩]
    rw [List.cons_append, jWs_cons rfl, quoted_other (by decide)]
    simp only [Res.bind_ok, optScalarP]
    have e1 : jTok litTrue (48 :: ([] ++ rest)) = none := jTok_none_head rfl (by decide)
    have e2 : jTok litFalse (48 :: ([] ++ rest)) = none := jTok_none_head rfl (by decide)
    have hn : JsonNum [48] := ⟨[], [48], [], [], rfl, by simp, Or.inl rfl, by simp, by simp⟩
    have e3 : jNumber (48 :: ([] ++ rest)) = some ([48], rest) := jNumber_complete hn hr.num
    simp only [e1, e2, e3]
    rfl

private theorem reads_opt_int {t : IntTy} {txt : List Nat} {v : JVal} (h : JsonMeans (.int t) txt v) :
    Reads (pj (.option (.int t))) txt v := by
  intro old w rest hw hr
  have hj := means_json (.int t) h
  simp only [pj]
  rw [jWs_value hw hj]
  simp only [JsonMeans] at h
  obtain ⟨x, h, rfl⟩ := h
  obtain ⟨c, r, hcr, hc⟩ := jsonNum_head h.1
  have hc2 : isSpace c = false ∧ c ≠ 110 ∧ c ≠ 34 := by
    rcases hc with rfl | hc
    · decide
    · have := isDig_iff.1 hc
      refine ⟨?_, by omega, by omega⟩
      simp [isSpace]; omega
  unfold optP
  simp only
  rw [jTok_null_none ⟨c, r, hcr, hc2.1, hc2.2.1⟩]
  have e : jWs (txt ++ rest) = txt ++ rest := by rw [hcr, List.cons_append, jWs_cons hc2.1]
  have e2 : parseDoublequote (txt ++ rest) = .ok none := by rw [hcr, List.cons_append]; exact quoted_other hc2.2.2
  rw [e, e2]
  simp only [Res.bind_ok, optScalarP, jNumber_complete h.1 hr.num, strToNum_exact h, Res.pure_eq]

private theorem reads_opt_string {txt : List Nat} {v : JVal} (h : JsonMeans .string txt v) :
    Reads (pj (.option .string)) txt v := by
  intro old w rest hw hr
  have hj := means_json .string h
  simp only [pj]
  rw [jWs_value hw hj]
  simp only [JsonMeans] at h
  obtain ⟨k, bs, rfl, h, rfl⟩ := h
  unfold optP
  simp only
  rw [jTok_null_none ⟨_, _, rfl, rfl, by decide⟩]
  obtain ⟨e, h1, h2⟩ := quoted_text h rest
  rw [List.cons_append, jWs_cons rfl, List.append_assoc, List.cons_append, List.nil_append, h1]
  simp only [Res.bind_ok]
  rw [if_bind h2]
  simp only [Res.bind_ok, setOption, quoted_stored h, asParseError, Res.pure_eq]

/-- Readers, texts and values of a sequence. -/
inductive ReadsAll : List JP → List (List Nat) → List JVal → Prop
  | nil : ReadsAll [] [] []
  | cons {p : JP} {e : List Nat} {v : JVal} {ps : List JP} {es : List (List Nat)} {vs : List JVal} (h : Reads p e v)
      (hj : JsonValue dyndLex e) (hs : ReadsAll ps es vs) : ReadsAll (p :: ps) (e :: es) (v :: vs)

private theorem spc1 {c : Nat} (h : isSpace c = false) : ∃ c' t', [c] = c' :: t' ∧ isSpace c' = false := ⟨c, [], rfl, h⟩

theorem needTok_one {c : Nat} {w rest : List Nat} (hw : JWs dyndLex w) (hc : isSpace c = false) :
    needTok [c] (w ++ c :: rest) = .ok rest := by
  have := needTok_of (w := w) (tok := [c]) (rest := rest) hw (spc1 hc)
  simpa using this

theorem jTok_one {c : Nat} {w rest : List Nat} (hw : JWs dyndLex w) (hc : isSpace c = false) :
    jTok [c] (w ++ c :: rest) = some rest := by
  have := jTok_of (w := w) (tok := [c]) (rest := rest) hw (spc1 hc)
  simpa using this

private theorem seq_reads {es : List (List Nat)} {b : List Nat} (hb : ElemsText es b) :
    ∀ {ps : List JP} {vs : List JVal}, ReadsAll ps es vs → ∀ (q : List (JP × JVal)) (rest : List Nat), q.map Prod.fst = ps →
      ∃ w, JWs dyndLex w ∧ seqP q (b ++ 93 :: rest) = .ok (vs, w ++ 93 :: rest) := by
  induction hb with
  | one w v w' hw hw' =>
    intro ps vs h q rest hq
    cases h with
    | @cons p _ x ps _ xs h1 hj h2 =>
      cases h2
      obtain ⟨⟨p', o⟩, rfl, hp⟩ : ∃ a, q = [a] ∧ a.1 = p := by
        match q, hq with
        | [a], hq => simp at hq; exact ⟨a, rfl, hq⟩
      simp only at hp; subst hp
      refine ⟨w', hw', ?_⟩
      have e : w ++ (v ++ w') ++ 93 :: rest = w ++ (v ++ (w' ++ 93 :: rest)) := by simp
      rw [e]
      simp only [seqP]
      rw [h1 o w (w' ++ 93 :: rest) hw (valEnd_ws hw' (valEnd_cons _ (by simp)))]
      rfl
  | cons w v w' es b hw hw' hb ih =>
    intro ps vs h q rest hq
    cases h with
    | @cons p _ x ps _ xs h1 hj h2 =>
      obtain ⟨⟨p', o⟩, q', rfl, hp, hq'⟩ : ∃ a q', q = a :: q' ∧ a.1 = p ∧ q'.map Prod.fst = ps := by
        match q, hq with
        | a :: q', hq => simp at hq; exact ⟨a, q', rfl, hq⟩
      simp only at hp; subst hp
      have hne : q' ≠ [] := by
        rintro rfl
        simp at hq'; subst hq'
        cases h2
        cases hb
      obtain ⟨w2, hw2, h3⟩ := ih h2 q' rest hq'
      refine ⟨w2, hw2, ?_⟩
      have e : w ++ (v ++ (w' ++ 44 :: b)) ++ 93 :: rest = w ++ (v ++ (w' ++ 44 :: (b ++ 93 :: rest))) := by simp
      rw [e]
      obtain ⟨a, q'', rfl⟩ : ∃ a q'', q' = a :: q'' := by
        cases q' with
        | nil => exact absurd rfl hne
        | cons a q'' => exact ⟨a, q'', rfl⟩
      simp only [seqP]
      rw [h1 o w _ hw (valEnd_ws hw' (valEnd_cons _ (by simp)))]
      simp only [Res.bind_ok, needTok_one hw' (show isSpace 44 = false from rfl), h3, Res.pure_eq]

private theorem reads_seq {es : List (List Nat)} {txt : List Nat} (ht : ArrayText es txt) {ps : List JP} {vs : List JVal}
    (h : ReadsAll ps es vs) (q : List (JP × JVal)) (hq : q.map Prod.fst = ps) :
    ∃ b, txt = 91 :: b ∧ ∀ rest, ∃ w, JWs dyndLex w ∧ seqP q (b ++ rest) = .ok (vs, w ++ 93 :: rest) := by
  rcases ht with ⟨rfl, w, hw, rfl⟩ | ⟨b, hb, rfl⟩
  · cases h
    simp at hq; subst hq
    refine ⟨_, rfl, fun rest => ⟨w, hw, ?_⟩⟩
    simp [seqP]
  · refine ⟨_, rfl, fun rest => ?_⟩
    obtain ⟨w, hw, h2⟩ := seq_reads hb h q rest hq
    refine ⟨w, hw, ?_⟩
    rw [List.append_assoc]
    exact h2

private theorem reads_list {es : List (List Nat)} {txt : List Nat} (ht : ArrayText es txt) {ps : List JP} {vs : List JVal}
    (h : ReadsAll ps es vs) (old : JVal) (rest : List Nat) :
    ∃ b, txt ++ rest = 91 :: b ∧ listP ps old b = .ok (.tup vs, rest) := by
  have hlen : (memElems ps.length old).length = ps.length := by
    unfold memElems
    split <;> (try split_ifs) <;> simp_all
  obtain ⟨b, rfl, h2⟩ := reads_seq ht h (List.zip ps (memElems ps.length old))
    (List.map_fst_zip (by omega))
  refine ⟨b ++ rest, rfl, ?_⟩
  obtain ⟨w, hw, h3⟩ := h2 rest
  unfold listP
  simp only [h3, Res.bind_ok, needTok_one hw (show isSpace 93 = false from rfl), Res.pure_eq]

private theorem reads_fixed {es : List (List Nat)} {txt : List Nat} (ht : ArrayText es txt) {p : JP} {vs : List JVal}
    (h : ReadsAll (List.replicate es.length p) es vs) (old : JVal) (rest : List Nat) :
    fixedP es.length p old (txt ++ rest) = .ok (.arr vs, rest) := by
  have hlen : (memElems es.length old).length = es.length := by
    unfold memElems
    split <;> (try split_ifs) <;> simp_all
  obtain ⟨b, rfl, h2⟩ := reads_seq ht h ((memElems es.length old).map (fun o => (p, o)))
    (by rw [List.map_map]; apply List.ext_getElem <;> simp [hlen])
  obtain ⟨w, hw, h3⟩ := h2 rest
  unfold fixedP
  have e : needTok [91] (91 :: b ++ rest) = .ok (b ++ rest) := needTok_one (w := []) ws_nil rfl
  simp only [e, h3, Res.bind_ok, needTok_one hw (show isSpace 93 = false from rfl), Res.pure_eq]

private theorem elems_length {es : List (List Nat)} {b : List Nat} (h : ElemsText es b) : es.length ≤ b.length + 1 := by
  induction h with
  | one w v w' hw hw' => simp
  | cons w v w' es b hw hw' h ih => simp; omega

private theorem var_reads {p : JP} {es : List (List Nat)} {b : List Nat} (hb : ElemsText es b) :
    ∀ {vs : List JVal}, ReadsAll (List.replicate es.length p) es vs → ∀ (fuel size alloc : Nat) (rest : List Nat),
      es.length ≤ fuel → size ≤ alloc → 1 ≤ alloc → varLoop p fuel size alloc (b ++ 93 :: rest) = .ok (vs, rest) := by
  induction hb with
  | one w v w' hw hw' =>
    intro vs h fuel size alloc rest hf hs ha
    obtain ⟨f, rfl⟩ : ∃ f, fuel = f + 1 := ⟨fuel - 1, by simp at hf; omega⟩
    cases h with
    | @cons p _ x ps _ xs h1 hj h2 =>
      cases h2
      have e : w ++ (v ++ w') ++ 93 :: rest = w ++ (v ++ (w' ++ 93 :: rest)) := by simp
      rw [e]
      unfold varLoop
      simp only
      rw [if_neg (by split_ifs <;> omega), h1 .undef w _ hw (valEnd_ws hw' (valEnd_cons _ (by simp)))]
      simp only [Res.bind_ok, jTok1_none hw' (show isSpace 93 = false from rfl) (show (44 : Nat) ≠ 93 by decide),
        needTok_one hw' (show isSpace 93 = false from rfl), Res.pure_eq]
  | cons w v w' es b hw hw' hb ih =>
    intro vs h fuel size alloc rest hf hs ha
    simp only [List.length_cons] at hf
    obtain ⟨f, rfl⟩ : ∃ f, fuel = f + 1 := ⟨fuel - 1, by omega⟩
    cases h with
    | @cons p _ x ps _ xs h1 hj h2 =>
      have e : w ++ (v ++ (w' ++ 44 :: b)) ++ 93 :: rest = w ++ (v ++ (w' ++ 44 :: (b ++ 93 :: rest))) := by simp
      rw [e]
      unfold varLoop
      simp only
      rw [if_neg (by split_ifs <;> omega), h1 .undef w _ hw (valEnd_ws hw' (valEnd_cons _ (by simp)))]
      simp only [Res.bind_ok, jTok_one hw' (show isSpace 44 = false from rfl)]
      rw [ih h2 f (size + 1) _ rest (by omega) (by split_ifs <;> omega) (by split_ifs <;> omega)]
      rfl

private theorem elems_head {es : List (List Nat)} {b : List Nat} (h : ElemsText es b) (hv : ∀ e ∈ es, JsonValue dyndLex e)
    (rest : List Nat) : jTok [93] (b ++ rest) = none := by
  obtain ⟨w, v, t, hw, hv, rfl⟩ : ∃ w v t, JWs dyndLex w ∧ JsonValue dyndLex v ∧ b = w ++ (v ++ t) := by
    cases h with
    | one w v w' hw hw' => exact ⟨w, v, w', hw, hv v (by simp), rfl⟩
    | cons w v w' es b hw hw' h => exact ⟨w, v, _, hw, hv v (by simp), rfl⟩
  obtain ⟨c, r, rfl, h1, _, h2, _⟩ := jsonValue_head hv
  have e : w ++ (c :: r ++ t) ++ rest = w ++ c :: (r ++ t ++ rest) := by simp
  rw [e]
  exact jTok1_none hw h1 (fun h => h2 h.symm)

theorem ReadsAll.json {ps : List JP} {es : List (List Nat)} {vs : List JVal} (h : ReadsAll ps es vs) :
    ∀ e ∈ es, JsonValue dyndLex e := by
  induction h with
  | nil => simp
  | cons h hj hs ih =>
    intro e he
    simp only [List.mem_cons] at he
    rcases he with rfl | he
    · exact hj
    · exact ih e he

private theorem reads_var {es : List (List Nat)} {txt : List Nat} (ht : ArrayText es txt) {p : JP} {vs : List JVal}
    (h : ReadsAll (List.replicate es.length p) es vs) (old : JVal) (rest : List Nat) :
    varP p old (txt ++ rest) = .ok (.arr vs, rest) := by
  unfold varP
  rcases ht with ⟨rfl, w, hw, rfl⟩ | ⟨b, hb, rfl⟩
  · cases h
    have e : needTok [91] (91 :: (w ++ [93]) ++ rest) = .ok (w ++ 93 :: rest) := by
      have := needTok_one (w := []) (c := 91) (rest := w ++ 93 :: rest) ws_nil rfl
      simpa using this
    simp only [e, Res.bind_ok, jTok_one hw (show isSpace 93 = false from rfl), Res.pure_eq]
  · have e : needTok [91] (91 :: (b ++ [93]) ++ rest) = .ok (b ++ 93 :: rest) := by
      have := needTok_one (w := []) (c := 91) (rest := b ++ 93 :: rest) ws_nil rfl
      simpa using this
    have e2 := elems_head hb h.json (93 :: rest)
    have hl := elems_length hb
    have e3 := var_reads hb h ((b ++ 93 :: rest).length + 1) 0 8 rest (by simp; omega) (by omega) (by omega)
    simp only [e, Res.bind_ok, e2, e3, Res.pure_eq]

/-! ### objects -/

/-- Memory and "filled" flags after reading members one after the other (the values they stand for are given). -/
private def fillAll (ns : List (List Nat)) : List (JMember × JVal) → List JVal → List JVal
  | [], vs => vs
  | (m, x) :: l, vs =>
    match jFieldIndex ns m.name with
    | some i => fillAll ns l (vs.set i x)
    | none => fillAll ns l vs

private def markAll (ns : List (List Nat)) : List JMember → List Bool → List Bool
  | [], pop => pop
  | m :: l, pop =>
    match jFieldIndex ns m.name with
    | some i => markAll ns l (pop.set i true)
    | none => markAll ns l pop

private theorem fieldIndex_none {ns : List (List Nat)} {n : List Nat} (h : jFieldIndex ns n = none) : n ∉ ns := by
  unfold jFieldIndex at h
  rw [List.findIdx?_eq_none_iff] at h
  intro hm
  have := h n hm
  simp at this

private theorem fieldIndex_some {ns : List (List Nat)} {n : List Nat} {i : Nat} (h : jFieldIndex ns n = some i) :
    ns[i]? = some n := by
  unfold jFieldIndex at h
  rw [List.findIdx?_eq_some_iff_getElem] at h
  obtain ⟨h1, h2, _⟩ := h
  rw [List.getElem?_eq_getElem h1]
  simp at h2
  rw [h2]

private theorem fieldIndex_of {ns : List (List Nat)} (hn : ns.Nodup) {n : List Nat} {i : Nat} (h : ns[i]? = some n) :
    jFieldIndex ns n = some i := by
  cases hf : jFieldIndex ns n with
  | none => exact absurd (List.mem_of_getElem? h) (fieldIndex_none hf)
  | some j =>
    have h2 := fieldIndex_some hf
    obtain ⟨h3, h4⟩ := List.getElem?_eq_some_iff.1 h
    obtain ⟨h5, h6⟩ := List.getElem?_eq_some_iff.1 h2
    have : j = i := (List.Nodup.getElem_inj_iff hn).1 (h6.trans h4.symm)
    rw [this]

/-- One member: key, colon, value. -/
private theorem member_step {ns : List (List Nat)} {ps : List JP} {m : JMember} {x : JVal} {w w1 w2 rest : List Nat}
    (hw : JWs dyndLex w) (hw1 : JWs dyndLex w1) (hw2 : JWs dyndLex w2) (hr : ValEnd rest) (hk : StrText m.key m.name)
    (hu : m.name ∉ ns → JsonValue dyndLex m.txt)
    (hv : ∀ (i : Nat) (p : JP), ns[i]? = some m.name → ps[i]? = some p → Reads p m.txt x)
    (hps : ps.length = ns.length) (vs : List JVal) (pop : List Bool) (hvs : vs.length = ns.length) (fuel : Nat) :
    objLoop ns ps (fuel + 1) vs pop (w ++ (34 :: (m.key ++ 34 :: (w1 ++ 58 :: (w2 ++ (m.txt ++ rest)))))) =
      (match jTok [44] rest with
      | some s => objLoop ns ps fuel (fillAll ns [(m, x)] vs) (markAll ns [m] pop) s
      | none => do
        let s ← needTok [125] rest
        pure (fillAll ns [(m, x)] vs, markAll ns [m] pop, s)) := by
  obtain ⟨e, h1, h2⟩ := quoted_text hk (w1 ++ 58 :: (w2 ++ (m.txt ++ rest)))
  rw [objLoop.eq_def]
  simp only
  rw [jWs_append hw, jWs_cons rfl, h1]
  simp only [Res.bind_ok, needTok_one hw1 (show isSpace 58 = false from rfl)]
  rw [if_bind h2]
  cases hf : jFieldIndex ns m.name with
  | none =>
    have hj := hu (fieldIndex_none hf)
    simp only [skip_json_complete hw2 hj hr, Res.bind_ok, Res.pure_eq, fillAll, markAll, hf]
    rfl
  | some i =>
    have h3 := fieldIndex_some hf
    obtain ⟨h4, _⟩ := List.getElem?_eq_some_iff.1 h3
    have hp : ps[i]? = some ps[i] := List.getElem?_eq_getElem (by omega)
    have hvi : vs[i]? = some vs[i] := List.getElem?_eq_getElem (by omega)
    have hrd := hv i _ h3 hp vs[i] w2 rest hw2 hr
    simp only [hp, hvi, hrd, Res.bind_ok, Res.pure_eq, fillAll, markAll, hf]
    rfl

private theorem fillAll_length (ns : List (List Nat)) (l : List (JMember × JVal)) (vs : List JVal) :
    (fillAll ns l vs).length = vs.length := by
  induction l generalizing vs with
  | nil => rfl
  | cons a l ih =>
    obtain ⟨m, x⟩ := a
    simp only [fillAll]
    split
    · rw [ih]; simp
    · exact ih vs

private theorem fillAll_cons (ns : List (List Nat)) (a : JMember × JVal) (l : List (JMember × JVal)) (vs : List JVal) :
    fillAll ns (a :: l) vs = fillAll ns l (fillAll ns [a] vs) := by
  obtain ⟨m, x⟩ := a
  simp only [fillAll]
  split <;> rfl

private theorem markAll_cons (ns : List (List Nat)) (m : JMember) (l : List JMember) (pop : List Bool) :
    markAll ns (m :: l) pop = markAll ns l (markAll ns [m] pop) := by
  simp only [markAll]
  split <;> rfl

private theorem obj_reads {ns : List (List Nat)} {ps : List JP} (hps : ps.length = ns.length) {ms : List JMember} {b : List Nat}
    (hb : MembersText ms b) : ∀ (l : List (JMember × JVal)), l.map Prod.fst = ms → (∀ m ∈ ms, StrText m.key m.name) →
      (∀ m ∈ ms, m.name ∉ ns → JsonValue dyndLex m.txt) →
      (∀ a ∈ l, ∀ (i : Nat) (p : JP), ns[i]? = some a.1.name → ps[i]? = some p → Reads p a.1.txt a.2) →
      ∀ (fuel : Nat) (vs : List JVal) (pop : List Bool) (rest : List Nat), ms.length ≤ fuel → vs.length = ns.length →
        objLoop ns ps fuel vs pop (b ++ 125 :: rest) = .ok (fillAll ns l vs, markAll ns ms pop, rest) := by
  induction hb with
  | one w w1 w2 w' m hw hw1 hw2 hw' =>
    intro l hl hk hu hv fuel vs pop rest hf hvs
    obtain ⟨⟨m', x⟩, rfl, hm⟩ : ∃ a, l = [a] ∧ a.1 = m := by
      match l, hl with
      | [a], hl => simp at hl; exact ⟨a, rfl, hl⟩
    simp only at hm; subst hm
    obtain ⟨f, rfl⟩ : ∃ f, fuel = f + 1 := ⟨fuel - 1, by simp at hf; omega⟩
    have e : w ++ (34 :: (m'.key ++ 34 :: (w1 ++ 58 :: (w2 ++ (m'.txt ++ w'))))) ++ 125 :: rest =
        w ++ (34 :: (m'.key ++ 34 :: (w1 ++ 58 :: (w2 ++ (m'.txt ++ (w' ++ 125 :: rest)))))) := by simp
    rw [e, member_step hw hw1 hw2 (valEnd_ws hw' (valEnd_cons _ (by simp))) (hk m' (by simp)) (hu m' (by simp))
      (hv (m', x) (by simp)) hps vs pop hvs]
    simp only [jTok1_none hw' (show isSpace 125 = false from rfl) (show (44 : Nat) ≠ 125 by decide),
      needTok_one hw' (show isSpace 125 = false from rfl), Res.bind_ok, Res.pure_eq]
  | cons w w1 w2 w' m ms b hw hw1 hw2 hw' hb ih =>
    intro l hl hk hu hv fuel vs pop rest hf hvs
    obtain ⟨⟨m', x⟩, l', rfl, hm, hl'⟩ : ∃ a l', l = a :: l' ∧ a.1 = m ∧ l'.map Prod.fst = ms := by
      match l, hl with
      | a :: l', hl => simp at hl; exact ⟨a, l', rfl, hl⟩
    simp only at hm; subst hm
    simp only [List.length_cons] at hf
    obtain ⟨f, rfl⟩ : ∃ f, fuel = f + 1 := ⟨fuel - 1, by omega⟩
    have e : w ++ (34 :: (m'.key ++ 34 :: (w1 ++ 58 :: (w2 ++ (m'.txt ++ (w' ++ 44 :: b)))))) ++ 125 :: rest =
        w ++ (34 :: (m'.key ++ 34 :: (w1 ++ 58 :: (w2 ++ (m'.txt ++ (w' ++ 44 :: (b ++ 125 :: rest))))))) := by simp
    rw [e, member_step hw hw1 hw2 (valEnd_ws hw' (valEnd_cons _ (by simp))) (hk m' (by simp)) (hu m' (by simp))
      (hv (m', x) (by simp)) hps vs pop hvs]
    simp only [jTok_one hw' (show isSpace 44 = false from rfl)]
    rw [ih l' hl' (fun y hy => hk y (by simp [hy])) (fun y hy => hu y (by simp [hy])) (fun y hy => hv y (by simp [hy])) f
      _ _ rest (by omega) (by rw [fillAll_length]; exact hvs), fillAll_cons ns (m', x) l', markAll_cons ns m' ms]

private theorem fillAll_get {ns : List (List Nat)} (hn : ns.Nodup) {i : Nat} {n : List Nat} (hi : ns[i]? = some n)
    (l : List (JMember × JVal)) (vs : List JVal) (hl : vs.length = ns.length) :
    (fillAll ns l vs)[i]? =
      match (l.filter (fun a => decide (a.1.name = n))).getLast? with
      | some a => some a.2
      | none => vs[i]? := by
  induction l generalizing vs with
  | nil => rfl
  | cons a l ih =>
    obtain ⟨m, x⟩ := a
    obtain ⟨hlt, _⟩ := List.getElem?_eq_some_iff.1 hi
    rw [fillAll_cons, ih _ (by rw [fillAll_length]; exact hl)]
    by_cases hm : m.name = n
    · have hf : jFieldIndex ns m.name = some i := fieldIndex_of hn (hm ▸ hi)
      simp only [List.filter_cons, hm, decide_true, if_true]
      cases hr : l.filter (fun a => decide (a.1.name = n)) with
      | nil =>
        simp only [List.getLast?_nil, List.getLast?_singleton, fillAll, hf]
        rw [List.getElem?_set]
        simp [hl ▸ hlt]
      | cons b r =>
        rw [List.getLast?_cons_cons]
        cases hg : (b :: r).getLast? with
        | none => simp at hg
        | some c => rfl
    · simp only [List.filter_cons, hm, decide_false, Bool.false_eq_true, if_false]
      cases hr : (l.filter (fun a => decide (a.1.name = n))).getLast? with
      | some b => rfl
      | none =>
        simp only [fillAll]
        cases hf : jFieldIndex ns m.name with
        | none => rfl
        | some j =>
          have h2 := fieldIndex_some hf
          have hji : j ≠ i := by
            rintro rfl
            rw [hi] at h2
            simp only [Option.some.injEq] at h2
            exact hm h2.symm
          simp only
          rw [List.getElem?_set_ne hji]

private theorem markAll_get {ns : List (List Nat)} (hn : ns.Nodup) {i : Nat} {n : List Nat} (hi : ns[i]? = some n)
    (l : List JMember) (pop : List Bool) (hl : pop.length = ns.length) :
    (markAll ns l pop)[i]? = if ∃ m ∈ l, m.name = n then some true else pop[i]? := by
  induction l generalizing pop with
  | nil => simp [markAll]
  | cons m l ih =>
    obtain ⟨hlt, _⟩ := List.getElem?_eq_some_iff.1 hi
    have hlen : (markAll ns [m] pop).length = ns.length := by
      simp only [markAll]; split <;> simp [hl]
    rw [markAll_cons, ih _ hlen]
    by_cases h1 : ∃ m ∈ l, m.name = n
    · obtain ⟨y, hy, hyn⟩ := h1
      rw [if_pos ⟨y, hy, hyn⟩, if_pos ⟨y, by simp [hy], hyn⟩]
    · rw [if_neg h1]
      by_cases hm : m.name = n
      · have hf : jFieldIndex ns m.name = some i := fieldIndex_of hn (hm ▸ hi)
        rw [if_pos ⟨m, by simp, hm⟩]
        simp only [markAll, hf]
        rw [List.getElem?_set]
        simp [hl ▸ hlt]
      · rw [if_neg (by
          rintro ⟨y, hy, hyn⟩
          simp only [List.mem_cons] at hy
          rcases hy with rfl | hy
          · exact hm hyn
          · exact h1 ⟨y, hy, hyn⟩)]
        simp only [markAll]
        cases hf : jFieldIndex ns m.name with
        | none => rfl
        | some j =>
          have h2 := fieldIndex_some hf
          have hji : j ≠ i := by
            rintro rfl
            rw [hi] at h2
            simp only [Option.some.injEq] at h2
            exact hm h2.symm
          simp only
          rw [List.getElem?_set_ne hji]

private theorem assignNa_of {u : JTy} {v old : JVal} (h : IsNa u v) : jAssignNa u old = .ok v := by
  cases u with
  | bool => simp only [IsNa] at h; subst h; rfl
  | int t =>
    simp only [IsNa] at h
    obtain ⟨h1, rfl⟩ := h
    have hna : assignNaBuiltin (.int t) (0 : Int) = t.min := if_pos h1
    simp only [jAssignNa, if_pos h1, hna]
  | string => simp only [IsNa] at h; subst h; rfl
  | option t => exact absurd h (by simp [IsNa])
  | struct ns ts => exact absurd h (by simp [IsNa])
  | tuple ts => exact absurd h (by simp [IsNa])
  | fixed n t => exact absurd h (by simp [IsNa])
  | var t => exact absurd h (by simp [IsNa])

private theorem fillMissing_of (ts : List JTy) (vs ws : List JVal) (bs : List Bool) (hv : vs.length = ts.length)
    (hb : bs.length = ts.length) (hw : ws.length = ts.length)
    (h : ∀ (i : Nat) (t : JTy) (v w : JVal) (b : Bool), ts[i]? = some t → vs[i]? = some v → bs[i]? = some b → ws[i]? = some w →
      (b = true → v = w) ∧ (b = false → ∃ u, t = .option u ∧ IsNa u w)) : fillMissing ts vs bs = .ok ws := by
  induction ts generalizing vs ws bs with
  | nil =>
    have : ws = [] := by simpa using hw
    subst this
    unfold fillMissing; rfl
  | cons t ts ih =>
    match vs, bs, ws, hv, hb, hw with
    | v :: vs, b :: bs, w :: ws, hv, hb, hw =>
      simp only [fillMissing]
      obtain ⟨h1, h2⟩ := h 0 t v w b rfl rfl rfl rfl
      have h3 := ih vs ws bs (by simpa using hv) (by simpa using hb) (by simpa using hw)
        (fun i t v w b g1 g2 g3 g4 => h (i + 1) t v w b g1 g2 g3 g4)
      cases b with
      | true => simp only [if_true, h3, Res.bind_ok, Res.pure_eq, h1 rfl]
      | false =>
        obtain ⟨u, rfl, hu⟩ := h2 rfl
        simp only [Bool.false_eq_true, if_false, assignNa_of hu, h3, Res.bind_ok, Res.pure_eq]

theorem Reads.unique {p : JP} {txt : List Nat} {x y : JVal} (h1 : Reads p txt x) (h2 : Reads p txt y) : x = y := by
  have a := h1 .undef [] [] ws_nil valEnd_nil
  have b := h2 .undef [] [] ws_nil valEnd_nil
  rw [a] at b
  simp only [Res.ok.injEq, Prod.mk.injEq, and_true] at b
  exact b

private theorem choose_values {ns : List (List Nat)} (hn : ns.Nodup) {ps : List JP} (hps : ps.length = ns.length)
    (ms : List JMember)
    (h : ∀ m ∈ ms, ∀ (i : Nat) (p : JP), ns[i]? = some m.name → ps[i]? = some p → ∃ x, Reads p m.txt x) :
    ∃ l : List (JMember × JVal), l.map Prod.fst = ms ∧
      ∀ a ∈ l, ∀ (i : Nat) (p : JP), ns[i]? = some a.1.name → ps[i]? = some p → Reads p a.1.txt a.2 := by
  induction ms with
  | nil => exact ⟨[], rfl, by simp⟩
  | cons m ms ih =>
    obtain ⟨l, h1, h2⟩ := ih (fun y hy => h y (by simp [hy]))
    obtain ⟨x, hx⟩ : ∃ x, ∀ (i : Nat) (p : JP), ns[i]? = some m.name → ps[i]? = some p → Reads p m.txt x := by
      cases hf : jFieldIndex ns m.name with
      | none =>
        refine ⟨.undef, fun i p hi _ => absurd (List.mem_of_getElem? hi) (fieldIndex_none hf)⟩
      | some j =>
        have hj := fieldIndex_some hf
        obtain ⟨hlt, _⟩ := List.getElem?_eq_some_iff.1 hj
        have hp : ps[j]? = some ps[j] := List.getElem?_eq_getElem (by omega)
        obtain ⟨x, hx⟩ := h m (by simp) j _ hj hp
        refine ⟨x, fun i p hi hpi => ?_⟩
        have := fieldIndex_of hn hi
        rw [hf] at this
        simp only [Option.some.injEq] at this
        subst this
        rw [hp] at hpi
        simp only [Option.some.injEq] at hpi
        subst hpi
        exact hx
    refine ⟨(m, x) :: l, by simp [h1], fun a ha => ?_⟩
    simp only [List.mem_cons] at ha
    rcases ha with rfl | ha
    · exact hx
    · exact h2 a ha

private theorem members_length {ms : List JMember} {b : List Nat} (h : MembersText ms b) : ms.length ≤ b.length := by
  induction h with
  | one => simp; omega
  | cons w w1 w2 w' m ms b hw hw1 hw2 hw' h ih => simp; omega

private theorem members_head {ms : List JMember} {b : List Nat} (h : MembersText ms b) (rest : List Nat) :
    jTok [125] (b ++ rest) = none := by
  obtain ⟨w, t, hw, rfl⟩ : ∃ w t, JWs dyndLex w ∧ b = w ++ 34 :: t := by
    cases h with
    | one w w1 w2 w' m hw hw1 hw2 hw' => exact ⟨w, _, hw, rfl⟩
    | cons w w1 w2 w' m ms b hw hw1 hw2 hw' h => exact ⟨w, _, hw, rfl⟩
  rw [List.append_assoc, List.cons_append]
  exact jTok1_none hw rfl (by decide)

private theorem memElems_length (n : Nat) (old : JVal) : (memElems n old).length = n := by
  unfold memElems
  split <;> (try split_ifs) <;> simp_all

private theorem last_of {l : List (JMember × JVal)} {ms : List JMember} (h : l.map Prod.fst = ms) (n : List Nat) :
    lastNamed ms n = ((l.filter (fun a => decide (a.1.name = n))).getLast?).map Prod.fst := by
  subst h
  unfold lastNamed
  rw [List.filter_map, List.getLast?_map]
  rfl

private theorem reads_object {ns : List (List Nat)} {ts : List JTy} {ps : List JP} {ms : List JMember} {txt : List Nat}
    {vs : List JVal} (hn : ns.Nodup) (ht : ObjectText ms txt) (hk : ∀ m ∈ ms, StrText m.key m.name)
    (hu : ∀ m ∈ ms, m.name ∉ ns → JsonValue dyndLex m.txt) (hl : ns.length = ts.length) (hps : ps.length = ts.length)
    (hvl : vs.length = ts.length)
    (h : ∀ (i : Nat) n t v p, ns[i]? = some n → ts[i]? = some t → vs[i]? = some v → ps[i]? = some p →
      (∀ m ∈ ms, m.name = n → ∃ x, Reads p m.txt x) ∧
      (match lastNamed ms n with
       | some m => Reads p m.txt v
       | none => ∃ u, t = .option u ∧ IsNa u v)) (old : JVal) (rest : List Nat) :
    ∃ b, txt ++ rest = 123 :: b ∧ objP ns ts ps old b = .ok (.tup vs, rest) := by
  have hmem := memElems_length ts.length old
  obtain ⟨l, hl1, hl2⟩ := choose_values hn (hps.trans hl.symm) ms (fun m hm i p hi hp => by
    obtain ⟨hlt, _⟩ := List.getElem?_eq_some_iff.1 hi
    exact (h i m.name ts[i] vs[i] p hi (List.getElem?_eq_getElem (by omega)) (List.getElem?_eq_getElem (by omega)) hp).1
      m hm rfl)
  have hfill : fillMissing ts (fillAll ns l (memElems ts.length old)) (markAll ns ms (List.replicate ts.length false)) =
      .ok vs := by
    refine fillMissing_of ts _ vs _ (by rw [fillAll_length, hmem]) ?_ hvl ?_
    · have : ∀ (l : List JMember) (pop : List Bool), (markAll ns l pop).length = pop.length := by
        intro l
        induction l with
        | nil => intro pop; rfl
        | cons m l ih => intro pop; simp only [markAll]; split <;> simp [ih]
      rw [this]; simp
    · intro i t v w b h1 h2 h3 h4
      obtain ⟨hlt, _⟩ := List.getElem?_eq_some_iff.1 h1
      have hni : ns[i]? = some ns[i] := List.getElem?_eq_getElem (by omega)
      have hpi : ps[i]? = some ps[i] := List.getElem?_eq_getElem (by omega)
      obtain ⟨_, h6⟩ := h i _ t w _ hni h1 h4 hpi
      rw [fillAll_get hn hni l _ (by omega)] at h2
      rw [markAll_get hn hni ms _ (by simp; omega)] at h3
      rw [last_of hl1] at h6
      cases hlast : (l.filter (fun a => decide (a.1.name = ns[i]))).getLast? with
      | some a =>
        rw [hlast] at h2 h6
        simp only [Option.some.injEq, Option.map_some] at h2 h6
        have ha : a ∈ l ∧ a.1.name = ns[i] := by
          have := List.mem_of_getLast? hlast
          simpa using this
        rw [if_pos ⟨a.1, by rw [← hl1]; exact List.mem_map_of_mem ha.1, ha.2⟩] at h3
        simp only [Option.some.injEq] at h3
        refine ⟨fun _ => ?_, fun h => absurd (h3.trans h) (by decide)⟩
        rw [← h2]
        exact (hl2 a ha.1 i _ (by rw [ha.2]; exact hni) hpi).unique h6
      | none =>
        rw [hlast] at h6
        simp only [Option.map_none] at h6
        have hno : ¬ ∃ m ∈ ms, m.name = ns[i] := by
          rintro ⟨m, hm, hmn⟩
          rw [← hl1, List.mem_map] at hm
          obtain ⟨a, ha, rfl⟩ := hm
          rw [List.getLast?_eq_none_iff] at hlast
          have : a ∈ l.filter (fun a => decide (a.1.name = ns[i])) := by simp [ha, hmn]
          rw [hlast] at this
          cases this
        rw [if_neg hno, List.getElem?_replicate, if_pos (by omega)] at h3
        simp only [Option.some.injEq] at h3
        refine ⟨fun h => ?_, fun _ => h6⟩
        rw [← h3] at h; cases h
  rcases ht with ⟨rfl, w, hw, rfl⟩ | ⟨b, hb, rfl⟩
  · refine ⟨w ++ 125 :: rest, by simp, ?_⟩
    have : l = [] := by simpa using hl1
    subst this
    unfold objP
    simp only [jTok_one hw (show isSpace 125 = false from rfl)]
    simp only [fillAll, markAll] at hfill
    rw [hfill]
    rfl
  · refine ⟨b ++ 125 :: rest, by simp, ?_⟩
    unfold objP
    have hlen := members_length hb
    have e := obj_reads (ps := ps) (hps.trans hl.symm) hb l hl1 hk hu hl2 ((b ++ 125 :: rest).length + 1)
      (memElems ts.length old) (List.replicate ts.length false) rest (by simp; omega) (by omega)
    simp only [members_head hb]
    rw [e]
    simp only [Res.bind_ok, hfill, Res.pure_eq]

theorem pjs_length (ts : List JTy) : (pjs ts).length = ts.length := by
  induction ts with
  | nil => simp [pjs]
  | cons t ts ih => simp [pjs, ih]

mutual
/-- Every text with a meaning is read as that meaning. -/
theorem reads_means : (t : JTy) → ∀ {txt : List Nat} {v : JVal}, JsonMeans t txt v → Reads (pj t) txt v
  | .bool, txt, v, h => reads_bool h
  | .int t, txt, v, h => reads_int h
  | .string, txt, v, h => reads_string h
  | .option t, txt, v, h => by
    simp only [JsonMeans] at h
    rcases h with ⟨rfl, h⟩ | ⟨h, rfl | ⟨it, rfl⟩ | rfl⟩
    · exact reads_null h
    · exact reads_opt_bool h
    · exact reads_opt_int h
    · exact reads_opt_string h
  | .struct ns ts, txt, v, h => by
    intro old w rest hw hr
    have hj := means_json (.struct ns ts) h
    simp only [pj]
    rw [jWs_value hw hj]
    simp only [JsonMeans] at h
    obtain ⟨vs, rfl, ⟨es, h1, h2⟩ | ⟨hn, ms, h1, h2, h3, h4⟩⟩ := h
    · obtain ⟨b, hb, hl⟩ := reads_list h1 (reads_lists ts h2) old rest
      unfold structP
      have e2 : jTok [91] (91 :: b) = some b := jTok_one (w := []) ws_nil rfl
      rw [hb, jTok_none_head rfl (by decide), e2]
      exact hl
    · obtain ⟨g1, g2, g3⟩ := reads_fields ms ts h4
      obtain ⟨b, hb, hl⟩ := reads_object (ps := pjs ts) hn h1 h2 h3 g1 (pjs_length ts) g2 g3 old rest
      unfold structP
      have e2 : jTok [123] (123 :: b) = some b := jTok_one (w := []) ws_nil rfl
      rw [hb, e2]
      exact hl
  | .tuple ts, txt, v, h => by
    intro old w rest hw hr
    have hj := means_json (.tuple ts) h
    simp only [pj]
    rw [jWs_value hw hj]
    simp only [JsonMeans] at h
    obtain ⟨es, vs, h1, h2, rfl⟩ := h
    obtain ⟨b, hb, hl⟩ := reads_list h1 (reads_lists ts h2) old rest
    unfold tupleP
    have e2 : jTok [91] (91 :: b) = some b := jTok_one (w := []) ws_nil rfl
    rw [hb, e2]
    exact hl
  | .fixed n t, txt, v, h => by
    intro old w rest hw hr
    have hj := means_json (.fixed n t) h
    simp only [pj]
    rw [jWs_value hw hj]
    simp only [JsonMeans] at h
    obtain ⟨es, vs, h1, rfl, h2, rfl⟩ := h
    have hh : ReadsAll (List.replicate es.length (pj t)) es vs := by
      clear h1 hj
      induction h2 with
      | nil => exact .nil
      | cons a _ ih => exact .cons (reads_means t a) (means_json t a) ih
    exact reads_fixed h1 hh old rest
  | .var t, txt, v, h => by
    intro old w rest hw hr
    have hj := means_json (.var t) h
    simp only [pj]
    rw [jWs_value hw hj]
    simp only [JsonMeans] at h
    obtain ⟨es, vs, h1, h2, rfl⟩ := h
    have hh : ReadsAll (List.replicate es.length (pj t)) es vs := by
      clear h1 hj
      induction h2 with
      | nil => exact .nil
      | cons a _ ih => exact .cons (reads_means t a) (means_json t a) ih
    exact reads_var h1 hh old rest
theorem reads_lists : (ts : List JTy) → ∀ {es : List (List Nat)} {vs : List JVal}, ListMeans ts es vs →
    ReadsAll (pjs ts) es vs
  | [], es, vs, h => by
    simp only [ListMeans] at h
    obtain ⟨rfl, rfl⟩ := h
    simp only [pjs]
    exact .nil
  | t :: ts, es, vs, h => by
    simp only [ListMeans] at h
    obtain ⟨e, es', v, vs', rfl, rfl, h1, h2⟩ := h
    simp only [pjs]
    exact .cons (reads_means t h1) (means_json t h1) (reads_lists ts h2)
theorem reads_fields (ms : List JMember) : (ts : List JTy) → ∀ {ns : List (List Nat)} {vs : List JVal},
    FieldsMean ms ns ts vs → ns.length = ts.length ∧ vs.length = ts.length ∧
      ∀ (i : Nat) n t v p, ns[i]? = some n → ts[i]? = some t → vs[i]? = some v → (pjs ts)[i]? = some p →
      (∀ m ∈ ms, m.name = n → ∃ x, Reads p m.txt x) ∧
      (match lastNamed ms n with
       | some m => Reads p m.txt v
       | none => ∃ u, t = .option u ∧ IsNa u v)
  | [], ns, vs, h => by
    simp only [FieldsMean] at h
    obtain ⟨rfl, rfl⟩ := h
    exact ⟨rfl, rfl, fun i n t v p h1 => by simp at h1⟩
  | t :: ts, ns, vs, h => by
    simp only [FieldsMean] at h
    obtain ⟨n, ns', v, vs', rfl, rfl, h1, h2⟩ := h
    obtain ⟨g1, g2, g3⟩ := reads_fields ms ts h2
    refine ⟨by simp [g1], by simp [g2], ?_⟩
    intro i n' t' v' p' e1 e2 e3 e4
    simp only [pjs] at e4
    cases i with
    | succ i => exact g3 i n' t' v' p' (by simpa using e1) (by simpa using e2) (by simpa using e3) (by simpa using e4)
    | zero =>
      simp only [List.getElem?_cons_zero, Option.some.injEq] at e1 e2 e3 e4
      subst e1 e2 e3 e4
      refine ⟨fun m hm hmn => ?_, ?_⟩
      · obtain ⟨x, hx⟩ := h1.1 m hm hmn
        exact ⟨x, reads_means t hx⟩
      · have h5 := h1.2
        cases hl : lastNamed ms n with
        | none => rw [hl] at h5; exact h5
        | some m => rw [hl] at h5; exact reads_means t h5
end

/-- **parse_json reads what the text means**: for every type and every text with a meaning (whitespace, escapes and member
    order chosen freely), whatever the destination memory held before. -/
theorem parse_json_means {t : JTy} {txt : List Nat} {v : JVal} (h : JsonMeans t txt v) (old : JVal) (w w' : List Nat)
    (hw : JWs dyndLex w) (hw' : JWs dyndLex w') : parseJsonInto t old (w ++ (txt ++ w')) = .ok v := by
  have hr := reads_means t h old w w' hw (by
    have := valEnd_ws hw' valEnd_nil
    simpa using this)
  unfold parseJsonInto
  simp only [hr, Res.bind_ok, jWs_nil hw', if_true, Res.pure_eq]

/-! ### the writer -/

/-- Writing appends these bytes, whatever the state of the output buffer. -/
def Writes (f : Out → Res Out) (bs : List Nat) : Prop :=
  ∀ o : Out, o.data.length ≤ o.cap → ∃ o', f o = .ok o' ∧ o'.data = o.data ++ bs ∧ o'.data.length ≤ o'.cap

private theorem ensure_spec (o : Out) (n : Nat) (h : o.data.length ≤ o.cap) :
    (o.ensure n).data = o.data ∧ o.data.length + n ≤ (o.ensure n).cap := by
  unfold Out.ensure
  by_cases h1 : o.cap - o.data.length < n
  · rw [if_pos h1]
    refine ⟨rfl, ?_⟩
    simp only
    split_ifs <;> omega
  · rw [if_neg h1]
    exact ⟨rfl, by omega⟩

theorem writes_write (bs : List Nat) : Writes (fun o => o.write bs) bs := by
  intro o h
  obtain ⟨h1, h2⟩ := ensure_spec o bs.length h
  show ∃ o', o.write bs = .ok o' ∧ _
  unfold Out.write Out.store
  rw [if_pos (by rw [h1]; exact h2)]
  exact ⟨_, rfl, by simp only [h1], by simp only [h1, List.length_append]; exact h2⟩

theorem Writes.seq {f g : Out → Res Out} {a b : List Nat} (hf : Writes f a) (hg : Writes g b) :
    Writes (fun o => do let o ← f o; g o) (a ++ b) := by
  intro o h
  obtain ⟨o1, h1, h2, h3⟩ := hf o h
  obtain ⟨o2, h4, h5, h6⟩ := hg o1 h3
  exact ⟨o2, by simp only [h1, Res.bind_ok, h4], by rw [h5, h2, List.append_assoc], h6⟩

theorem ascii_encodes (p : List Nat) (h : ∀ b ∈ p, b < 128) : encodeAll .utf8 p = some p := by
  induction p with
  | nil => rfl
  | cons b p ih =>
    exact encodeAll_cons.2 ⟨[b], p, encode_ascii (h b (by simp)), ih (fun x hx => h x (by simp [hx])), rfl⟩

theorem writes_cp {c : Nat} (hs : Scalar c) :
    ∃ p, Writes (fmtCp c) p ∧ (∀ r cs, StrMeans r cs → StrMeans (p ++ r) (c :: cs)) ∧
      (∀ r, JsonChars rfcLex r → JsonChars rfcLex (p ++ r)) ∧ ∃ cps, encodeAll .utf8 cps = some p := by
  by_cases hlt : c < 0x80
  · have he := encode_ascii hlt
    have short : ∀ d, (d, c) ∈ [(34, 34), (92, 92), (47, 47), (98, 8), (102, 12), (110, 10), (114, 13), (116, 9)] →
        (∀ r cs, StrMeans r cs → StrMeans ([92, d] ++ r) (c :: cs)) ∧
        ∀ r, JsonChars rfcLex r → JsonChars rfcLex ([92, d] ++ r) := by
      intro d h
      refine ⟨fun r cs hr => .short d c r cs h hr, fun r hr => .short d r ?_ hr⟩
      simp only [List.mem_cons, List.not_mem_nil, or_false, Prod.mk.injEq] at h ⊢
      omega
    have key : ∀ p, fmtCp c = (fun o => o.write p) → (∀ r cs, StrMeans r cs → StrMeans (p ++ r) (c :: cs)) ∧
          (∀ r, JsonChars rfcLex r → JsonChars rfcLex (p ++ r)) → (∀ b ∈ p, b < 128) →
        ∃ p, Writes (fmtCp c) p ∧ (∀ r cs, StrMeans r cs → StrMeans (p ++ r) (c :: cs)) ∧
          (∀ r, JsonChars rfcLex r → JsonChars rfcLex (p ++ r)) ∧ ∃ cps, encodeAll .utf8 cps = some p :=
      fun p h1 h2 h3 => ⟨p, h1 ▸ writes_write p, h2.1, h2.2, p, ascii_encodes p h3⟩
    by_cases h1 : c = 8
    · subst h1; exact key [92, 98] rfl (short 98 (by simp)) (by simp)
    by_cases h2 : c = 12
    · subst h2; exact key [92, 102] rfl (short 102 (by simp)) (by simp)
    by_cases h3 : c = 10
    · subst h3; exact key [92, 110] rfl (short 110 (by simp)) (by simp)
    by_cases h4 : c = 13
    · subst h4; exact key [92, 114] rfl (short 114 (by simp)) (by simp)
    by_cases h5 : c = 9
    · subst h5; exact key [92, 116] rfl (short 116 (by simp)) (by simp)
    by_cases h6 : c = 92
    · subst h6; exact key [92, 92] rfl (short 92 (by simp)) (by simp)
    by_cases h7 : c = 47
    · subst h7; exact key [92, 47] rfl (short 47 (by simp)) (by simp)
    by_cases h8 : c = 34
    · subst h8; exact key [92, 34] rfl (short 34 (by simp)) (by simp)
    by_cases h9 : c < 0x20 ∨ c = 0x7f
    · refine key ([92, 117] ++ hex16 (c % 65536)) ?_ ?_ ?_
      · funext o
        unfold fmtCp
        rw [if_pos hlt, if_neg h1, if_neg h2, if_neg h3, if_neg h4, if_neg h5, if_neg h6, if_neg h7, if_neg h8, if_pos h9]
      · rw [Nat.mod_eq_of_lt (by omega)]
        have hx := hex16_ok c
        have hhex : ∀ d ∈ hex16 c, IsHex d := by
          intro d hd
          exact hexVal_isSome.1 (List.all_eq_true.1 hx.2 d hd)
        have hnum : hexNum (hex16 c) = c := by
          have e1 := hexFold_hex16 c (by omega)
          have hb : hexNum (hex16 c) < 4294967296 := by
            have hd : ∀ d ∈ hex16 c, hexDigVal d < 16 := fun d hd => (hexVal_of (hhex d hd)).2
            rw [hex16_eq] at hd ⊢
            simp only [List.mem_cons, List.not_mem_nil, or_false, forall_eq_or_imp, forall_eq] at hd
            simp only [hexNum, List.foldl_cons, List.foldl_nil]
            omega
          have e2 := hexFold_num (hex16 c) hhex 0 (by omega)
          rw [e1] at e2
          omega
        refine ⟨fun r cs hr => ?_, fun r hr => .u (hex16 c) r hx.1 hhex hr⟩
        have := StrMeans.u (hex16 c) r cs hx.1 hhex (by rw [hnum]; exact hs) hr
        rw [hnum] at this
        exact this
      · intro b hb
        rcases List.mem_append.1 hb with hb | hb
        · simp at hb; omega
        · have := hexVal_isSome.1 (List.all_eq_true.1 (hex16_ok (c % 65536)).2 b hb)
          unfold IsHex at this; omega
    · refine key [c] ?_ ?_ (by simpa using hlt)
      · funext o
        unfold fmtCp
        rw [if_pos hlt, if_neg h1, if_neg h2, if_neg h3, if_neg h4, if_neg h5, if_neg h6, if_neg h7, if_neg h8, if_neg h9,
          Nat.mod_eq_of_lt (by omega)]
      · exact ⟨fun r cs hr => .raw c [c] r cs he h8 h6 hr, fun r hr => .raw c r ⟨by omega, h8, h6⟩ hr⟩
  · obtain ⟨w, hw⟩ : ∃ w, encode .utf8 c = some w := by
      simp only [encode, hs, not_true_eq_false, if_false]
      split_ifs <;> exact ⟨_, rfl⟩
    refine ⟨w, ?_, fun r cs hr => .raw c w r cs hw (by omega) (by omega) hr, fun r hr => ?_,
      [c], encodeAll_cons.2 ⟨w, [], hw, rfl, (List.append_nil w).symm⟩⟩
    swap
    · have hge : ∀ b ∈ w, 128 ≤ b := by
        simp only [encode, hs, not_true_eq_false, if_false, hlt] at hw
        split_ifs at hw <;> simp only [Option.some.injEq] at hw <;> subst hw <;> intro b hb <;>
          simp only [List.mem_cons, List.not_mem_nil, or_false] at hb <;> omega
      clear hw
      induction w with
      | nil => exact hr
      | cons b w ih =>
        have := hge b (by simp)
        exact .raw b _ ⟨by omega, by omega, by omega⟩ (ih (fun x hx => hge x (by simp [hx])))
    intro o h
    obtain ⟨h1, h2⟩ := ensure_spec o 16 h
    have hlen := (encode_utf8_length hw).2
    unfold fmtCp
    rw [if_neg hlt]
    simp only
    unfold noerrorAppendUtf8
    rw [if_pos (by rw [h1]; omega), utf8_append_eq hw]
    simp only [Res.bind_ok]
    unfold Out.store
    rw [if_pos (by rw [h1]; omega)]
    exact ⟨_, rfl, by simp only [h1], by simp only [h1, List.length_append]; omega⟩

private theorem writes_loop (cps us : List Nat) (h : encodeAll .utf8 cps = some us) :
    ∃ k, StrMeans k cps ∧ JsonChars rfcLex k ∧ ∀ fuel, cps.length ≤ fuel → Writes (fmtStrLoop fuel us) k := by
  induction cps generalizing us with
  | nil =>
    simp [encodeAll] at h; subst h
    refine ⟨[], .nil, .nil, fun fuel _ o ho => ⟨o, ?_, by simp, ho⟩⟩
    cases fuel <;> rfl
  | cons c cs ih =>
    have hb := encodeAll_bound h
    obtain ⟨a, b, h1, h2, rfl⟩ := encodeAll_cons.1 h
    obtain ⟨k, hk, hkr, hw⟩ := ih b h2
    obtain ⟨p, hp, hp2, hp3, _⟩ := writes_cp (encode_scalar h1)
    refine ⟨p ++ k, hp2 k cs hk, hp3 k hkr, fun fuel hf => ?_⟩
    simp only [List.length_cons] at hf
    obtain ⟨f, rfl⟩ : ∃ f, fuel = f + 1 := ⟨fuel - 1, by omega⟩
    have hd : noerrorNextUtf8 (a ++ b) = .ok (c, b) := by
      have := noerror_agrees .utf8 (a ++ b) c b ((decode_exact .utf8 (a ++ b) hb c b).2 ⟨a, h1, rfl⟩)
      simpa [nextFn] using this
    obtain ⟨x, xs, hx⟩ : ∃ x xs, a ++ b = x :: xs := by
      cases hab : a ++ b with
      | nil => exact absurd (List.append_eq_nil_iff.1 hab).1 (encode_nonempty h1)
      | cons x xs => exact ⟨x, xs, rfl⟩
    have e : fmtStrLoop (f + 1) (a ++ b) = fun o => (fmtCp c o >>= fun o => fmtStrLoop f b o) := by
      funext o
      rw [hx] at hd ⊢
      rw [fmtStrLoop.eq_def]
      simp only [hd, Res.bind_ok]
    rw [e]
    exact hp.seq (hw f (by omega))

/-- A well-formed string is written as a quoted text that means it. -/
theorem writes_str {us : List Nat} (h : ∃ cps, encodeAll .utf8 cps = some us) :
    ∃ k, StrText k us ∧ JsonChars rfcLex k ∧ Writes (fmtStr us) (34 :: (k ++ [34])) := by
  obtain ⟨cps, h⟩ := h
  obtain ⟨k, hk, hkr, hw⟩ := writes_loop cps us h
  refine ⟨k, ⟨cps, hk, h⟩, hkr, ?_⟩
  have := (writes_write [34]).seq ((hw us.length (encodeAll_length h)).seq (writes_write [34]))
  exact this

private theorem decDigits_head (n : Nat) :
    decDigits n = [48] ∨ ∃ d ds, decDigits n = d :: ds ∧ (49 ≤ d ∧ d ≤ 57) ∧ Digits ds := by
  induction n using Nat.strong_induction_on with
  | _ n ih =>
    rw [decDigits]
    by_cases h : n < 10
    · rw [if_pos h]
      by_cases h0 : n = 0
      · left; subst h0; rfl
      · right; exact ⟨48 + n, [], rfl, by omega, by intro c hc; cases hc⟩
    · rw [if_neg h]
      right
      have hd : Digits [48 + n % 10] := by intro c hc; simp at hc; omega
      rcases ih (n / 10) (by omega) with h1 | ⟨d, ds, h1, h2, h3⟩
      · exfalso
        have := (decDigits_spec (n / 10)).2.2
        rw [h1] at this
        have h0 : digVal [48] = 0 := rfl
        rw [h0] at this
        omega
      · refine ⟨d, ds ++ [48 + n % 10], by rw [h1]; rfl, h2, ?_⟩
        intro c hc
        simp only [List.mem_append] at hc
        rcases hc with hc | hc
        · exact h3 c hc
        · exact hd c hc

theorem printInt_json (x : Int) : JsonNum (printInt x) := by
  unfold printInt
  have h : ∀ i, (i = [48] ∨ ∃ d ds, i = d :: ds ∧ (49 ≤ d ∧ d ≤ 57) ∧ Digits ds) → JsonNum i ∧ JsonNum (45 :: i) := by
    intro i hi
    exact ⟨⟨[], i, [], [], by simp, by simp, hi, by simp, by simp⟩, ⟨[45], i, [], [], by simp, by simp, hi, by simp, by simp⟩⟩
  have h2 := h _ (decDigits_head x.natAbs)
  split_ifs
  · exact h2.2
  · exact h2.1

theorem printInt_head {x : Int} (h : 0 ≤ x) : (printInt x).head? ≠ some 45 := by
  unfold printInt
  rw [if_neg (by omega)]
  rcases decDigits_head x.natAbs with h1 | ⟨d, ds, h1, h2, h3⟩
  · rw [h1]; decide
  · rw [h1]; simp; omega

/-! ### specification: the values -/

/-- The integer types of the library, without the signed 128-bit type. -/
def JIntTy (t : IntTy) : Prop :=
  t.bits = 8 ∨ t.bits = 16 ∨ t.bits = 32 ∨ t.bits = 64 ∨ (t.bits = 128 ∧ t.signed = false)

/-- The integers that survive: all values, but no negative `int64`. -/
def JIntOk (t : IntTy) (x : Int) : Prop := JIntTy t ∧ t.Has x ∧ (t.signed = true → t.bits = 64 → 0 ≤ x)

/-- well-formed UTF-8 -/
def WellFormedUtf8 (bs : List Nat) : Prop := ∃ cps, encodeAll .utf8 cps = some bs

/-- Values of `option[t]`: the missing value or a value.  Only `bool`, signed integers, `uint32` (without its greatest value)
    and strings. -/
def JOptOk : JTy → JVal → Prop
  | .bool, v => v = .bool 0 ∨ v = .bool 1 ∨ v = .bool 2
  | .int t, v => ∃ x, v = .int x ∧ JIntTy t ∧
      ((t.signed = true ∧ (x = t.min ∨ JIntOk t x)) ∨ (t.signed = false ∧ t.bits = 32 ∧ x ≠ t.max ∧ t.Has x))
  | .string, v => ∃ bs, v = .str bs ∧ WellFormedUtf8 bs
  | _, _ => False

mutual
/-- The values of a type for which the round trip is claimed. -/
def JOk : JTy → JVal → Prop
  | .bool, v => v = .bool 0 ∨ v = .bool 1
  | .int t, v => ∃ x, v = .int x ∧ JIntOk t x
  | .string, v => ∃ bs, v = .str bs ∧ WellFormedUtf8 bs
  | .option t, v => JOptOk t v
  | .struct ns ts, v => ns.Nodup ∧ ns.length = ts.length ∧ (∀ n ∈ ns, WellFormedUtf8 n) ∧ ∃ vs, v = .tup vs ∧ JOks ts vs
  | .tuple _, _ => False
  | .fixed n t, v => ∃ vs, v = .arr vs ∧ vs.length = n ∧ ∀ x ∈ vs, JOk t x
  | .var t, v => ∃ vs, v = .arr vs ∧ ∀ x ∈ vs, JOk t x
/-- Field by field. -/
def JOks : List JTy → List JVal → Prop
  | [], vs => vs = []
  | t :: ts, vs => ∃ v vs', vs = v :: vs' ∧ JOk t v ∧ JOks ts vs'
end

/-! ### the writer produces texts that mean the value -/

private theorem int_means {t : IntTy} {x : Int} (h : JIntOk t x) : JsonMeans (.int t) (printInt x) (.int x) := by
  obtain ⟨h1, h2, h3⟩ := h
  simp only [JsonMeans]
  exact ⟨x, ⟨printInt_json x, printInt_text x, h2, h1, fun a b => printInt_head (h3 a b)⟩, rfl⟩

private theorem bool_means (b : Nat) (h : b = 0 ∨ b = 1) : JsonMeans .bool (if b ≠ 0 then litTrue else litFalse) (.bool b) := by
  simp only [JsonMeans]
  rcases h with rfl | rfl
  · exact Or.inr ⟨Or.inl rfl, rfl⟩
  · exact Or.inl ⟨Or.inl rfl, rfl⟩

/-- Elements joined by commas. -/
def joinComma : List (List Nat) → List Nat
  | [] => []
  | [e] => e
  | e :: es => e ++ 44 :: joinComma es

/-- Writers and what they write. -/
inductive WritesAll : List (Out → Res Out) → List (List Nat) → Prop
  | nil : WritesAll [] []
  | cons {f : Out → Res Out} {e : List Nat} {fs : List (Out → Res Out)} {es : List (List Nat)} (h : Writes f e)
      (hs : WritesAll fs es) : WritesAll (f :: fs) (e :: es)

private theorem writes_seq {fs : List (Out → Res Out)} {es : List (List Nat)} (h : WritesAll fs es) :
    Writes (fmtSeq fs) (joinComma es) := by
  induction h with
  | nil => intro o ho; exact ⟨o, rfl, by simp [joinComma], ho⟩
  | @cons f e fs es h hs ih =>
    cases hs with
    | nil => exact h
    | @cons f2 e2 fs2 es2 h2 hs2 =>
      have := h.seq ((writes_write [44]).seq ih)
      exact this

private theorem writes_bracket {fs : List (Out → Res Out)} {es : List (List Nat)} (h : WritesAll fs es) (l r : Nat) :
    Writes (fmtBracket l r fs) (l :: (joinComma es ++ [r])) := by
  have := (writes_write [l]).seq ((writes_seq h).seq (writes_write [r]))
  exact this

private theorem joinComma_elems (es : List (List Nat)) (h : es ≠ []) : ElemsText es (joinComma es) := by
  induction es with
  | nil => exact absurd rfl h
  | cons e es ih =>
    cases es with
    | nil =>
      have := ElemsText.one [] e [] ws_nil ws_nil
      simpa [joinComma] using this
    | cons e2 es =>
      have := ElemsText.cons [] e [] (e2 :: es) _ ws_nil ws_nil (ih (by simp))
      simpa [joinComma] using this

private theorem array_of (es : List (List Nat)) : ArrayText es (91 :: (joinComma es ++ [93])) := by
  cases es with
  | nil => exact Or.inl ⟨rfl, [], ws_nil, rfl⟩
  | cons e es => exact Or.inr ⟨_, joinComma_elems (e :: es) (by simp), rfl⟩

/-- The text of a member without whitespace. -/
private def memberText (m : JMember) : List Nat := 34 :: (m.key ++ 34 :: 58 :: m.txt)

private theorem joinComma_members (ms : List JMember) (h : ms ≠ []) : MembersText ms (joinComma (ms.map memberText)) := by
  induction ms with
  | nil => exact absurd rfl h
  | cons m ms ih =>
    cases ms with
    | nil =>
      have := MembersText.one [] [] [] [] m ws_nil ws_nil ws_nil ws_nil
      simpa [joinComma, memberText] using this
    | cons m2 ms =>
      have := MembersText.cons [] [] [] [] m (m2 :: ms) _ ws_nil ws_nil ws_nil ws_nil (ih (by simp))
      simpa [joinComma, memberText] using this

private theorem object_of (ms : List JMember) : ObjectText ms (123 :: (joinComma (ms.map memberText) ++ [125])) := by
  cases ms with
  | nil => exact Or.inl ⟨rfl, [], ws_nil, rfl⟩
  | cons e es => exact Or.inr ⟨_, joinComma_members (e :: es) (by simp), rfl⟩

private theorem bool_rfc (b : Nat) : JsonValue rfcLex (if b ≠ 0 then litTrue else litFalse) := by
  split_ifs
  · exact .tru
  · exact .fls

theorem rfc_nil : JWs rfcLex [] := by intro c h; cases h

theorem rfc_array (es : List (List Nat)) (h : ∀ e ∈ es, JsonValue rfcLex e) :
    JsonValue rfcLex (91 :: (joinComma es ++ [93])) := by
  cases es with
  | nil => exact .arr0 [] rfc_nil
  | cons e es =>
    refine .arr _ ?_
    induction es generalizing e with
    | nil =>
      have := JsonElems.one [] e [] rfc_nil (h e (by simp)) rfc_nil
      simpa [joinComma] using this
    | cons e2 es ih =>
      have := JsonElems.cons [] e [] _ rfc_nil (h e (by simp)) rfc_nil (ih e2 (fun x hx => h x (by simp [hx])))
      simpa [joinComma] using this

private theorem rfc_object (ms : List JMember) (hk : ∀ m ∈ ms, JsonChars rfcLex m.key)
    (h : ∀ m ∈ ms, JsonValue rfcLex m.txt) : JsonValue rfcLex (123 :: (joinComma (ms.map memberText) ++ [125])) := by
  cases ms with
  | nil => exact .obj0 [] rfc_nil
  | cons m ms =>
    refine .obj _ ?_
    induction ms generalizing m with
    | nil =>
      have := JsonMembers.one [] m.key [] [] m.txt [] rfc_nil (hk m (by simp)) rfc_nil rfc_nil (h m (by simp)) rfc_nil
      simpa [joinComma, memberText] using this
    | cons m2 ms ih =>
      have := JsonMembers.cons [] m.key [] [] m.txt [] _ rfc_nil (hk m (by simp)) rfc_nil rfc_nil (h m (by simp)) rfc_nil
        (ih m2 (fun x hx => hk x (by simp [hx])) (fun x hx => h x (by simp [hx])))
      simpa [joinComma, memberText] using this

private theorem lastNamed_of {ms : List JMember} {n e : List Nat} (h1 : ∀ m ∈ ms, m.name = n → m.txt = e)
    (h2 : ∃ m ∈ ms, m.name = n) : ∃ m, lastNamed ms n = some m ∧ m.txt = e := by
  obtain ⟨m, hm, hmn⟩ := h2
  unfold lastNamed
  cases hl : (ms.filter (fun m => decide (m.name = n))).getLast? with
  | none =>
    rw [List.getLast?_eq_none_iff] at hl
    have : m ∈ ms.filter (fun m => decide (m.name = n)) := by simp [hm, hmn]
    rw [hl] at this
    cases this
  | some y =>
    have := List.mem_of_getLast? hl
    simp only [List.mem_filter, decide_eq_true_eq] at this
    exact ⟨y, rfl, h1 y this.1 this.2⟩

private theorem fields_of (ms : List JMember) (ts : List JTy) : ∀ (ns es : List (List Nat)) (vs : List JVal),
    ListMeans ts es vs → ns.length = ts.length →
    (∀ (i : Nat) n e, ns[i]? = some n → es[i]? = some e → (∀ m ∈ ms, m.name = n → m.txt = e) ∧ ∃ m ∈ ms, m.name = n) →
    FieldsMean ms ns ts vs := by
  induction ts with
  | nil =>
    intro ns es vs h hl _
    simp only [ListMeans] at h
    simp only [FieldsMean]
    exact ⟨by simpa using hl, h.2⟩
  | cons t ts ih =>
    intro ns es vs h hl hm
    simp only [ListMeans] at h
    obtain ⟨e, es', v, vs', rfl, rfl, h1, h2⟩ := h
    match ns, hl with
    | n :: ns', hl =>
      simp only [FieldsMean]
      refine ⟨n, ns', v, vs', rfl, rfl, ?_, ih ns' es' vs' h2 (by simpa using hl)
        (fun i n' e' a b => hm (i + 1) n' e' (by simpa using a) (by simpa using b))⟩
      obtain ⟨g1, g2⟩ := hm 0 n e rfl rfl
      obtain ⟨m, g3, g4⟩ := lastNamed_of g1 g2
      refine ⟨fun m hm hmn => ⟨v, by rw [g1 m hm hmn]; exact h1⟩, ?_⟩
      rw [g3]
      simp only
      rw [g4]; exact h1

/-- The members a struct is written as. -/
private theorem members_of {ns : List (List Nat)} (hu : ∀ n ∈ ns, WellFormedUtf8 n) :
    ∀ {fs : List (Out → Res Out)} {es : List (List Nat)}, WritesAll fs es → ns.length = fs.length →
    ∃ ms : List JMember, ms.map JMember.name = ns ∧ ms.map JMember.txt = es ∧ (∀ m ∈ ms, StrText m.key m.name) ∧
      (∀ m ∈ ms, JsonChars rfcLex m.key) ∧ WritesAll (List.zipWith fmtField ns fs) (ms.map memberText) := by
  induction ns with
  | nil =>
    intro fs es h hl
    cases h with
    | nil => exact ⟨[], rfl, rfl, by simp, by simp, .nil⟩
    | cons => simp at hl
  | cons n ns ih =>
    intro fs es h hl
    cases h with
    | nil => simp at hl
    | @cons f e fs es hf hs =>
      obtain ⟨ms, h1, h2, h3, h5, h4⟩ := ih (fun x hx => hu x (by simp [hx])) hs (by simpa using hl)
      obtain ⟨k, hk, hkr, hw⟩ := writes_str (hu n (by simp))
      refine ⟨⟨k, n, e⟩ :: ms, by simp [h1], by simp [h2], ?_, ?_, ?_⟩
      · intro m hm
        simp only [List.mem_cons] at hm
        rcases hm with rfl | hm
        · exact hk
        · exact h3 m hm
      · intro m hm
        simp only [List.mem_cons] at hm
        rcases hm with rfl | hm
        · exact hkr
        · exact h5 m hm
      · refine .cons ?_ h4
        have := hw.seq ((writes_write [58]).seq hf)
        have e2 : fmtField n f = fun o => (do let o ← fmtStr n o; let o ← o.write [58]; f o) := rfl
        rw [e2]
        simp only [memberText]
        simpa [List.append_assoc] using this

private theorem opt_means (sal : Bool) {t : JTy} {v : JVal} (h : JOptOk t v) :
    ∃ txt, Writes (fj sal (.option t) v) txt ∧ JsonMeans (.option t) txt v ∧ JsonValue rfcLex txt := by
  have hnull : ∀ {t : JTy} {v : JVal}, jIsAvail t v = .ok false → IsNa t v →
      ∃ txt, Writes (fj sal (.option t) v) txt ∧ JsonMeans (.option t) txt v ∧ JsonValue rfcLex txt := by
    intro t v h1 h2
    refine ⟨litNull, ?_, ?_, .null⟩
    · have e : fj sal (.option t) v = fun o => o.write litNull := by
        funext o
        simp only [fj, h1, Res.bind_ok, Bool.false_eq_true, if_false]
      rw [e]; exact writes_write _
    · simp only [JsonMeans]; exact Or.inl ⟨rfl, h2⟩
  have hval : ∀ {t : JTy} {v : JVal} {txt : List Nat}, jIsAvail t v = .ok true → Writes (fj sal t v) txt → JsonMeans t txt v → JsonValue rfcLex txt →
      (t = .bool ∨ (∃ it, t = .int it) ∨ t = .string) →
      ∃ txt, Writes (fj sal (.option t) v) txt ∧ JsonMeans (.option t) txt v ∧ JsonValue rfcLex txt := by
    intro t v txt h1 h2 h3 h5 h4
    refine ⟨txt, ?_, ?_, h5⟩
    · have e : fj sal (.option t) v = fj sal t v := by
        funext o
        simp only [fj, h1, Res.bind_ok, if_true]
      rw [e]; exact h2
    · simp only [JsonMeans]; exact Or.inr ⟨h3, h4⟩
  cases t with
  | bool =>
    simp only [JOptOk] at h
    have hb : ∀ b, (b = 0 ∨ b = 1) → ∃ txt, Writes (fj sal (.option .bool) (.bool b)) txt ∧
        JsonMeans (.option .bool) txt (.bool b) ∧ JsonValue rfcLex txt := by
      intro b hb
      refine hval (txt := if b ≠ 0 then litTrue else litFalse) ?_ ?_ (bool_means b hb) (bool_rfc b) (Or.inl rfl)
      · rcases hb with rfl | rfl <;> rfl
      · have e : fj sal .bool (.bool b) = fun o => o.write (if b ≠ 0 then litTrue else litFalse) := by
          funext o; simp only [fj]
        rw [e]; exact writes_write _
    rcases h with rfl | rfl | rfl
    · exact hb 0 (Or.inl rfl)
    · exact hb 1 (Or.inr rfl)
    · exact hnull rfl rfl
  | int t =>
    simp only [JOptOk] at h
    obtain ⟨x, rfl, ht, h⟩ := h
    have hw : Writes (fj sal (.int t) (.int x)) (printInt x) := by
      have e : fj sal (.int t) (.int x) = fun o => o.write (printInt x) := by funext o; simp only [fj]
      rw [e]; exact writes_write _
    rcases h with ⟨h1, h2⟩ | ⟨h1, h2, h3, h4⟩
    · by_cases hx : x = t.min
      · subst hx
        refine hnull ?_ ⟨h1, rfl⟩
        simp only [jIsAvail, Res.ok.injEq]
        simp only [isAvailBuiltin]
        rw [if_pos h1]
        simp
      · have h3 : JIntOk t x := h2.resolve_left hx
        refine hval ?_ hw (int_means h3) (.num _ (printInt_json x)) (Or.inr (Or.inl ⟨t, rfl⟩))
        simp only [jIsAvail, Res.ok.injEq]
        simp only [isAvailBuiltin]
        rw [if_pos h1]
        simp [hx]
    · refine hval ?_ hw (int_means ⟨ht, h4, fun a => by rw [h1] at a; cases a⟩) (.num _ (printInt_json x)) (Or.inr (Or.inl ⟨t, rfl⟩))
      simp only [jIsAvail, Res.ok.injEq]
      simp only [isAvailBuiltin]
      rw [if_neg (by simp [h1])]
      simp [h2, h3]
  | string =>
    simp only [JOptOk] at h
    obtain ⟨bs, rfl, hb⟩ := h
    obtain ⟨k, hk, hkr, hw⟩ := writes_str hb
    refine hval (txt := 34 :: (k ++ [34])) rfl ?_ ?_ (.str k hkr) (Or.inr (Or.inr rfl))
    · have e : fj sal .string (.str bs) = fmtStr bs := by funext o; simp only [fj]
      rw [e]; exact hw
    · simp only [JsonMeans]; exact ⟨k, bs, rfl, hk, rfl⟩
  | option t => exact absurd h (by simp [JOptOk])
  | struct ns ts => exact absurd h (by simp [JOptOk])
  | tuple ts => exact absurd h (by simp [JOptOk])
  | fixed n t => exact absurd h (by simp [JOptOk])
  | var t => exact absurd h (by simp [JOptOk])

mutual
theorem format_means (sal : Bool) : (t : JTy) → ∀ {v : JVal}, JOk t v → ∃ txt, Writes (fj sal t v) txt ∧
    JsonMeans t txt v ∧ JsonValue rfcLex txt
  | .bool, v, h => by
    simp only [JOk] at h
    obtain ⟨b, rfl, hb⟩ : ∃ b, v = .bool b ∧ (b = 0 ∨ b = 1) := by
      rcases h with rfl | rfl
      · exact ⟨0, rfl, Or.inl rfl⟩
      · exact ⟨1, rfl, Or.inr rfl⟩
    refine ⟨_, ?_, bool_means b hb, bool_rfc b⟩
    have e : fj sal .bool (.bool b) = fun o => o.write (if b ≠ 0 then litTrue else litFalse) := by
      funext o; simp only [fj]
    rw [e]; exact writes_write _
  | .int t, v, h => by
    simp only [JOk] at h
    obtain ⟨x, rfl, hx⟩ := h
    refine ⟨_, ?_, int_means hx, .num _ (printInt_json x)⟩
    have e : fj sal (.int t) (.int x) = fun o => o.write (printInt x) := by funext o; simp only [fj]
    rw [e]; exact writes_write _
  | .string, v, h => by
    simp only [JOk] at h
    obtain ⟨bs, rfl, hb⟩ := h
    obtain ⟨k, hk, hkr, hw⟩ := writes_str hb
    refine ⟨34 :: (k ++ [34]), ?_, ?_, .str k hkr⟩
    · have e : fj sal .string (.str bs) = fmtStr bs := by funext o; simp only [fj]
      rw [e]; exact hw
    · simp only [JsonMeans]; exact ⟨k, bs, rfl, hk, rfl⟩
  | .option t, v, h => opt_means sal (by simpa only [JOk] using h)
  | .struct ns ts, v, h => by
    simp only [JOk] at h
    obtain ⟨hn, hl, hu, vs, rfl, hv⟩ := h
    obtain ⟨es, h1, h2, hrfc, h3⟩ := formats_mean sal ts hv
    have hlen : ¬ (vs.length ≠ ts.length ∨ ns.length ≠ ts.length) := by simp [h3, hl]
    cases sal with
    | true =>
      refine ⟨91 :: (joinComma es ++ [93]), ?_, ?_, rfc_array es hrfc⟩
      · have e : fj true (.struct ns ts) (.tup vs) = fmtBracket 91 93 (List.zipWith (fun f v => f v) (fjs true ts) vs) := by
          funext o; simp only [fj, hlen, if_false, if_true]
        rw [e]; exact writes_bracket h1 91 93
      · simp only [JsonMeans]
        exact ⟨vs, rfl, Or.inl ⟨es, array_of es, h2⟩⟩
    | false =>
      have hfl : (List.zipWith (fun f v => f v) (fjs false ts) vs).length = ts.length := by
        have : (fjs false ts).length = ts.length := by
          clear h1 h2 hv hl hlen h3
          induction ts with
          | nil => simp [fjs]
          | cons t ts ih => simp [fjs, ih]
        simp [this, h3]
      obtain ⟨ms, g1, g2, g3, g5, g4⟩ := members_of hu h1 (hl.trans hfl.symm)
      refine ⟨123 :: (joinComma (ms.map memberText) ++ [125]), ?_, ?_, rfc_object ms g5
        (fun m hm => hrfc m.txt (by rw [← g2]; exact List.mem_map_of_mem hm))⟩
      · have e : fj false (.struct ns ts) (.tup vs) =
            fmtBracket 123 125 (List.zipWith fmtField ns (List.zipWith (fun f v => f v) (fjs false ts) vs)) := by
          funext o; simp only [fj, hlen, if_false, Bool.false_eq_true]
        rw [e]; exact writes_bracket g4 123 125
      · simp only [JsonMeans]
        refine ⟨vs, rfl, Or.inr ⟨hn, ms, object_of ms, g3, ?_, ?_⟩⟩
        · intro m hm hno
          exact absurd (by rw [← g1]; exact List.mem_map_of_mem hm) hno
        · refine fields_of ms ts ns es vs h2 hl ?_
          intro i n e hi he
          rw [← g1, List.getElem?_map] at hi
          rw [← g2, List.getElem?_map] at he
          cases hmi : ms[i]? with
          | none => rw [hmi] at hi; simp at hi
          | some mi =>
            rw [hmi] at hi he
            simp only [Option.map_some, Option.some.injEq] at hi he
            subst hi he
            refine ⟨fun m hm hmn => ?_, ⟨mi, List.mem_of_getElem? hmi, rfl⟩⟩
            have : m = mi := List.inj_on_of_nodup_map (by rw [g1]; exact hn) hm (List.mem_of_getElem? hmi) hmn
            rw [this]
  | .tuple ts, v, h => by simp only [JOk] at h
  | .fixed n t, v, h => by
    simp only [JOk] at h
    obtain ⟨vs, rfl, hl, hv⟩ := h
    have hh : ∃ es, WritesAll (vs.map (fun v => fj sal t v)) es ∧ List.Forall₂ (JsonMeans t) es vs ∧
        ∀ e ∈ es, JsonValue rfcLex e := by
      clear hl
      induction vs with
      | nil => exact ⟨[], .nil, .nil, by simp⟩
      | cons x vs ih =>
        obtain ⟨es, h1, h2, h5⟩ := ih (fun y hy => hv y (by simp [hy]))
        obtain ⟨e, h3, h4, h6⟩ := format_means sal t (hv x (by simp))
        refine ⟨e :: es, .cons h3 h1, .cons h4 h2, ?_⟩
        intro y hy
        simp only [List.mem_cons] at hy
        rcases hy with rfl | hy
        · exact h6
        · exact h5 y hy
    obtain ⟨es, h1, h2, hrfc⟩ := hh
    refine ⟨91 :: (joinComma es ++ [93]), ?_, ?_, rfc_array es hrfc⟩
    · have e : fj sal (.fixed n t) (.arr vs) = fmtBracket 91 93 (vs.map (fun v => fj sal t v)) := by
        funext o; simp only [fj, hl, ne_eq, not_true_eq_false, if_false]
      rw [e]; exact writes_bracket h1 91 93
    · simp only [JsonMeans]
      exact ⟨es, vs, array_of es, by rw [h2.length_eq, hl], h2, rfl⟩
  | .var t, v, h => by
    simp only [JOk] at h
    obtain ⟨vs, rfl, hv⟩ := h
    have hh : ∃ es, WritesAll (vs.map (fun v => fj sal t v)) es ∧ List.Forall₂ (JsonMeans t) es vs ∧
        ∀ e ∈ es, JsonValue rfcLex e := by
      induction vs with
      | nil => exact ⟨[], .nil, .nil, by simp⟩
      | cons x vs ih =>
        obtain ⟨es, h1, h2, h5⟩ := ih (fun y hy => hv y (by simp [hy]))
        obtain ⟨e, h3, h4, h6⟩ := format_means sal t (hv x (by simp))
        refine ⟨e :: es, .cons h3 h1, .cons h4 h2, ?_⟩
        intro y hy
        simp only [List.mem_cons] at hy
        rcases hy with rfl | hy
        · exact h6
        · exact h5 y hy
    obtain ⟨es, h1, h2, hrfc⟩ := hh
    refine ⟨91 :: (joinComma es ++ [93]), ?_, ?_, rfc_array es hrfc⟩
    · have e : fj sal (.var t) (.arr vs) = fmtBracket 91 93 (vs.map (fun v => fj sal t v)) := by
        funext o; simp only [fj]
      rw [e]; exact writes_bracket h1 91 93
    · simp only [JsonMeans]
      exact ⟨es, vs, array_of es, h2, rfl⟩
theorem formats_mean (sal : Bool) : (ts : List JTy) → ∀ {vs : List JVal}, JOks ts vs →
    ∃ es, WritesAll (List.zipWith (fun f v => f v) (fjs sal ts) vs) es ∧ ListMeans ts es vs ∧
      (∀ e ∈ es, JsonValue rfcLex e) ∧ vs.length = ts.length
  | [], vs, h => by
    simp only [JOks] at h
    subst h
    exact ⟨[], by simp only [fjs, List.zipWith_nil_left]; exact .nil, by simp [ListMeans], by simp, rfl⟩
  | t :: ts, vs, h => by
    simp only [JOks] at h
    obtain ⟨v, vs', rfl, h1, h2⟩ := h
    obtain ⟨e, h3, h4, h8⟩ := format_means sal t h1
    obtain ⟨es, h5, h6, h9, h7⟩ := formats_mean sal ts h2
    refine ⟨e :: es, ?_, ?_, ?_, by simp [h7]⟩
    · simp only [fjs, List.zipWith_cons_cons]
      exact .cons h3 h5
    · simp only [ListMeans]
      exact ⟨e, es, v, vs', rfl, rfl, h4, h6⟩
    · intro y hy
      simp only [List.mem_cons] at hy
      rcases hy with rfl | hy
      · exact h8
      · exact h9 y hy
end

/-- **C39.** Writing a value as JSON (structs as objects or as lists) succeeds and produces a text that means that value. -/
theorem format_json_means (sal : Bool) {t : JTy} {v : JVal} (h : JOk t v) :
    ∃ txt, formatJson sal t v = .ok txt ∧ JsonMeans t txt v ∧ JsonValue rfcLex txt := by
  obtain ⟨txt, h1, h2, h5⟩ := format_means sal t h
  obtain ⟨o', h3, h4, _⟩ := h1 ⟨[], 1024⟩ (by simp)
  refine ⟨txt, ?_, h2, h5⟩
  unfold formatJson
  simp only [h3, Res.bind_ok, Res.pure_eq, h4, List.nil_append]

/-- **C39, the round trip.** For every type and every value of it in `JOk`: the written text parses back to the value,
    whatever the destination held.  Missing for the full property: tuples, options of unsigned types other than `uint32` and
    negative `int64` numbers (`json_*_violated` below). -/
theorem json_roundtrip_partial (sal : Bool) {t : JTy} {v : JVal} (h : JOk t v) :
    ∃ txt, formatJson sal t v = .ok txt ∧ ∀ old, parseJsonInto t old txt = .ok v := by
  obtain ⟨txt, h1, h2, _⟩ := format_json_means sal h
  refine ⟨txt, h1, fun old => ?_⟩
  have := parse_json_means h2 old [] [] ws_nil ws_nil
  simpa using this

/-- **C72.** The output is a JSON document in the sense of RFC 8259, and `validate_json` accepts it. -/
theorem format_json_valid_partial (sal : Bool) {t : JTy} {v : JVal} (h : JOk t v) :
    ∃ txt, formatJson sal t v = .ok txt ∧ JsonDoc rfcLex txt ∧ validateJson txt = .ok () := by
  obtain ⟨txt, h1, _, h3⟩ := format_json_means sal h
  have hd : JsonDoc rfcLex txt := ⟨[], txt, [], rfc_nil, h3, rfc_nil, by simp⟩
  exact ⟨txt, h1, hd, validate_json_accepts_rfc txt hd⟩

/-! ### C41: objects -/

/-- **C41.** An object read into a struct: if every key denotes its name, values under unknown names are JSON, and
    `FieldsMean` says what each field holds (the value of the last member with the field's name, or the missing value if an
    optional field has none), then parsing gives exactly that struct, in whatever order the members come and whatever the
    memory held.  Missing for the full property: optional fields of unsigned integer type that are absent
    (`json_missing_unsigned_violated`), and the restrictions of `JsonMeans` on integers. -/
theorem json_object_fields_partial {ns : List (List Nat)} {ts : List JTy} {ms : List JMember} {txt : List Nat} {vs : List JVal}
    (hn : ns.Nodup) (ht : ObjectText ms txt) (hk : ∀ m ∈ ms, StrText m.key m.name)
    (hu : ∀ m ∈ ms, m.name ∉ ns → JsonValue dyndLex m.txt) (hf : FieldsMean ms ns ts vs) (old : JVal) :
    parseJsonInto (.struct ns ts) old txt = .ok (.tup vs) := by
  have hm : JsonMeans (.struct ns ts) txt (.tup vs) := by
    simp only [JsonMeans]
    exact ⟨vs, rfl, Or.inr ⟨hn, ms, ht, hk, hu, hf⟩⟩
  have := parse_json_means hm old [] [] ws_nil ws_nil
  simpa using this

private theorem lastNamed_perm {ms ms' : List JMember} (hp : ms.Perm ms') (hd : (ms.map JMember.name).Nodup) (n : List Nat) :
    lastNamed ms n = lastNamed ms' n := by
  unfold lastNamed
  have h1 := hp.filter (fun m => decide (m.name = n))
  have h2 : (ms.filter (fun m => decide (m.name = n))).length ≤ 1 := by
    by_contra hgt
    have hd2 : ((ms.filter (fun m => decide (m.name = n))).map JMember.name).Nodup :=
      hd.sublist (List.filter_sublist.map _)
    match hl : ms.filter (fun m => decide (m.name = n)) with
    | [] => rw [hl] at hgt; simp at hgt
    | [a] => rw [hl] at hgt; simp at hgt
    | a :: b :: r =>
      rw [hl] at hd2
      have ha : a ∈ ms.filter (fun m => decide (m.name = n)) := by rw [hl]; simp
      have hb : b ∈ ms.filter (fun m => decide (m.name = n)) := by rw [hl]; simp
      simp only [List.mem_filter, decide_eq_true_eq] at ha hb
      simp [ha.2, hb.2] at hd2
  match hl : ms.filter (fun m => decide (m.name = n)), hl' : ms'.filter (fun m => decide (m.name = n)) with
  | [], l' =>
    rw [hl, hl'] at h1
    have : l' = [] := h1.symm.eq_nil
    rw [hl, hl', this]
  | [a], l' =>
    rw [hl, hl'] at h1
    have : l' = [a] := h1.symm.eq_singleton
    rw [hl, hl', this]
  | a :: b :: r, _ => rw [hl] at h2; simp at h2

private theorem fieldsMean_perm {ms ms' : List JMember} (hp : ms.Perm ms') (hd : (ms.map JMember.name).Nodup) (ts : List JTy) :
    ∀ (ns : List (List Nat)) (vs : List JVal), FieldsMean ms ns ts vs → FieldsMean ms' ns ts vs := by
  induction ts with
  | nil => intro ns vs h; simpa only [FieldsMean] using h
  | cons t ts ih =>
    intro ns vs h
    simp only [FieldsMean] at h ⊢
    obtain ⟨n, ns', v, vs', rfl, rfl, h1, h2⟩ := h
    refine ⟨n, ns', v, vs', rfl, rfl, ⟨fun m hm => h1.1 m (hp.mem_iff.2 hm), ?_⟩, ih ns' vs' h2⟩
    rw [← lastNamed_perm hp hd]
    exact h1.2

/-- **C41, key order.** Two objects with the same members (distinct names) in different orders, however they are laid out,
    give the same struct. -/
theorem json_object_order_partial {ns : List (List Nat)} {ts : List JTy} {ms ms' : List JMember} {txt txt' : List Nat}
    {vs : List JVal} (hn : ns.Nodup) (hp : ms.Perm ms') (hd : (ms.map JMember.name).Nodup) (ht : ObjectText ms txt)
    (ht' : ObjectText ms' txt') (hk : ∀ m ∈ ms, StrText m.key m.name)
    (hu : ∀ m ∈ ms, m.name ∉ ns → JsonValue dyndLex m.txt) (hf : FieldsMean ms ns ts vs) (old old' : JVal) :
    parseJsonInto (.struct ns ts) old txt = .ok (.tup vs) ∧ parseJsonInto (.struct ns ts) old' txt' = .ok (.tup vs) :=
  ⟨json_object_fields_partial hn ht hk hu hf old,
   json_object_fields_partial hn ht' (fun m hm => hk m (hp.mem_iff.2 hm)) (fun m hm => hu m (hp.mem_iff.2 hm))
    (fieldsMean_perm hp hd ts ns vs hf) old'⟩

private theorem fillMissing_throw (ts : List JTy) (vs : List JVal) (bs : List Bool) (hv : vs.length = ts.length)
    (hb : bs.length = ts.length)
    (hopt : ∀ u, JTy.option u ∈ ts → u = .bool ∨ (∃ it, u = .int it) ∨ u = .string)
    (h : ∃ (i : Nat) (t : JTy), ts[i]? = some t ∧ bs[i]? = some false ∧ ∀ u, t ≠ .option u) :
    fillMissing ts vs bs = .throw .parse := by
  induction ts generalizing vs bs with
  | nil => obtain ⟨i, t, h1, _⟩ := h; simp at h1
  | cons t ts ih =>
    match vs, bs, hv, hb with
    | v :: vs, b :: bs, hv, hb =>
      simp only [fillMissing]
      have hna : ∀ u, t = .option u → ∃ x, jAssignNa u v = .ok x := by
        intro u hu
        rcases hopt u (by rw [hu]; simp) with rfl | ⟨it, rfl⟩ | rfl
        · exact ⟨_, rfl⟩
        · simp only [jAssignNa]; split_ifs <;> exact ⟨_, rfl⟩
        · exact ⟨_, rfl⟩
      have hrest : ¬ (b = false ∧ ∀ u, t ≠ .option u) → fillMissing ts vs bs = .throw .parse := by
        intro hno
        refine ih vs bs (by simpa using hv) (by simpa using hb) (fun u hu => hopt u (by simp [hu])) ?_
        obtain ⟨i, t', h1, h2, h3⟩ := h
        cases i with
        | zero =>
          simp only [List.getElem?_cons_zero, Option.some.injEq] at h1 h2
          exact absurd ⟨h2, h1 ▸ h3⟩ hno
        | succ i => exact ⟨i, t', by simpa using h1, by simpa using h2, h3⟩
      cases b with
      | true =>
        simp only [if_true, Res.pure_eq, Res.bind_ok]
        rw [hrest (by simp)]; rfl
      | false =>
        simp only [Bool.false_eq_true, if_false]
        cases t with
        | option u =>
          obtain ⟨x, hx⟩ := hna u rfl
          simp only [hx, Res.bind_ok]
          rw [hrest (by simp)]; rfl
        | bool => rfl
        | int t => rfl
        | string => rfl
        | struct ns ts => rfl
        | tuple ts => rfl
        | fixed n t => rfl
        | var t => rfl

private theorem pjs_get (ts : List JTy) (i : Nat) : (pjs ts)[i]? = (ts[i]?).map pj := by
  induction ts generalizing i with
  | nil => simp [pjs]
  | cons t ts ih =>
    simp only [pjs]
    cases i with
    | zero => simp
    | succ i => simp [ih]

/-- **C41, missing required field.** If the values of all known members can be read but a field that is not optional has no
    member, parsing raises (options being of `bool`, integers or strings). -/
theorem json_object_missing_raises_partial {ns : List (List Nat)} {ts : List JTy} {ms : List JMember} {txt : List Nat}
    (hn : ns.Nodup) (hl : ns.length = ts.length) (ht : ObjectText ms txt) (hk : ∀ m ∈ ms, StrText m.key m.name)
    (hu : ∀ m ∈ ms, m.name ∉ ns → JsonValue dyndLex m.txt)
    (hm : ∀ m ∈ ms, ∀ (i : Nat) t, ns[i]? = some m.name → ts[i]? = some t → ∃ v, JsonMeans t m.txt v)
    (hopt : ∀ u, JTy.option u ∈ ts → u = .bool ∨ (∃ it, u = .int it) ∨ u = .string)
    (hmiss : ∃ (i : Nat) (t : JTy) (n : List Nat), ts[i]? = some t ∧ ns[i]? = some n ∧ (∀ u, t ≠ .option u) ∧ ∀ m ∈ ms, m.name ≠ n)
    (old : JVal) : parseJsonInto (.struct ns ts) old txt = .throw .parse := by
  have hps := pjs_length ts
  have hmem := memElems_length ts.length old
  obtain ⟨l, hl1, hl2⟩ := choose_values hn (hps.trans hl.symm) ms (fun m hmm i p hi hp => by
    rw [pjs_get] at hp
    cases hti : ts[i]? with
    | none => rw [hti] at hp; simp at hp
    | some t =>
      rw [hti] at hp
      simp only [Option.map_some, Option.some.injEq] at hp
      subst hp
      obtain ⟨v, hv⟩ := hm m hmm i t hi hti
      exact ⟨v, reads_means t hv⟩)
  have hlen : ∀ (l : List JMember) (pop : List Bool), (markAll ns l pop).length = pop.length := by
    intro l
    induction l with
    | nil => intro pop; rfl
    | cons m l ih => intro pop; simp only [markAll]; split <;> simp [ih]
  have hfill : fillMissing ts (fillAll ns l (memElems ts.length old)) (markAll ns ms (List.replicate ts.length false)) =
      .throw .parse := by
    refine fillMissing_throw ts _ _ (by rw [fillAll_length, hmem]) (by rw [hlen]; simp) hopt ?_
    obtain ⟨i, t, n, h1, h2, h3, h4⟩ := hmiss
    refine ⟨i, t, h1, ?_, h3⟩
    obtain ⟨hlt, _⟩ := List.getElem?_eq_some_iff.1 h1
    rw [markAll_get hn h2 ms _ (by simp; omega), if_neg (by rintro ⟨m, g1, g2⟩; exact h4 m g1 g2), List.getElem?_replicate,
      if_pos hlt]
  unfold parseJsonInto
  have hpj : pj (.struct ns ts) old txt = .throw .parse := by
    simp only [pj]
    rcases ht with ⟨rfl, w, hw, rfl⟩ | ⟨b, hb, rfl⟩
    · rw [jWs_cons rfl]
      unfold structP
      have e2 : jTok [123] (123 :: (w ++ [125])) = some (w ++ [125]) := jTok_one (w := []) ws_nil rfl
      have : l = [] := by simpa using hl1
      subst this
      simp only [e2]
      unfold objP
      simp only [jTok_one hw (show isSpace 125 = false from rfl)]
      simp only [fillAll, markAll] at hfill
      rw [hfill]
      rfl
    · rw [jWs_cons rfl]
      unfold structP
      have e2 : jTok [123] (123 :: (b ++ [125])) = some (b ++ [125]) := jTok_one (w := []) ws_nil rfl
      simp only [e2]
      unfold objP
      have hlen2 := members_length hb
      have e := obj_reads (ps := pjs ts) (hps.trans hl.symm) hb l hl1 hk hu hl2 ((b ++ [125]).length + 1)
        (memElems ts.length old) (List.replicate ts.length false) [] (by simp; omega) (by omega)
      simp only [members_head hb]
      rw [e]
      simp only [Res.bind_ok, hfill]
      rfl
  rw [hpj]; rfl

/-! ### what fails -/

/-- **C39 fails for tuples**: writing any tuple raises. -/
theorem json_tuple_format_violated (sal : Bool) (ts : List JTy) (v : JVal) : formatJson sal (.tuple ts) v = .throw .runtime := by
  unfold formatJson
  simp only [fj]
  rfl

/-- **C39 fails for options of unsigned types**: every value of `?uint8`, `?uint16`, `?uint64`, `?uint128` is written as
    `null`, and reading `null` leaves what was in memory. -/
theorem json_unsigned_option_violated (sal : Bool) (b : Nat) (hb : b ≠ 32) (x : Int) (old : JVal) :
    formatJson sal (.option (.int ⟨b, false⟩)) (.int x) = .ok [110, 117, 108, 108] ∧
    parseJsonInto (.option (.int ⟨b, false⟩)) old [110, 117, 108, 108] = .ok old := by
  constructor
  · have h1 : jIsAvail (.int ⟨b, false⟩) (.int x) = .ok false := by
      simp only [jIsAvail, Res.ok.injEq]
      simp only [isAvailBuiltin]
      rw [if_neg (by simp)]
      simp [hb]
    unfold formatJson
    simp only [fj, h1, Res.bind_ok, Bool.false_eq_true, if_false]
    rfl
  · rfl

/-- **C39 fails for negative `int64`**: every negative number is written, and reading the text negates `INT64_MIN`
    (signed overflow, see C25). -/
theorem json_negative_int64_violated (sal : Bool) (x : Int) (hx : x < 0) (hmin : -(2 : Int) ^ 63 ≤ x) (old : JVal) :
    ∃ txt, formatJson sal (.int ⟨64, true⟩) (.int x) = .ok txt ∧ parseJsonInto (.int ⟨64, true⟩) old txt = .ub := by
  refine ⟨printInt x, ?_, ?_⟩
  · unfold formatJson
    have e : fj sal (.int ⟨64, true⟩) (.int x) = fun o => o.write (printInt x) := by funext o; simp only [fj]
    obtain ⟨o', h1, h2, _⟩ := writes_write (printInt x) ⟨[], 1024⟩ (by simp)
    rw [e]
    simp only [h1, Res.bind_ok, Res.pure_eq, h2, List.nil_append]
  · have hj := printInt_json x
    have e : printInt x = 45 :: decDigits x.natAbs := by unfold printInt; rw [if_pos hx]
    obtain ⟨d1, d2, d3⟩ := decDigits_spec x.natAbs
    have ht := UIntText.plain _ d1 d2
    rw [d3] at ht
    have hub := string_to_int64_violated (s := printInt x) (s' := decDigits x.natAbs) (n := x.natAbs)
      (by rw [jsonNum_trim hj, e]) ht (by omega)
    have hnum : strToNum ⟨64, true⟩ (printInt x) = .ub := by
      unfold strToNum
      rw [if_neg (by rw [jsonNum_not_na hj]; decide)]
      unfold stringToSigned at hub
      simp only [jsonNum_trim hj] at hub
      simp only [if_true]
      rw [if_pos (by decide)]
      exact hub
    unfold parseJsonInto
    simp only [pj]
    have hw : jWs (printInt x) = printInt x := by
      have := jWs_value (w := []) (rest := []) ws_nil (JsonValue.num _ hj)
      simpa using this
    rw [hw]
    unfold numP
    have hc := jNumber_complete (r := []) hj (fun c t h => by cases h)
    rw [List.append_nil] at hc
    simp only [hc, hnum]
    rfl

/-- **Writing a string that is not well-formed UTF-8 does not terminate**: at a byte that cannot start a character the
    loop makes no progress (every number of iterations is exhausted). -/
theorem json_malformed_string_violated (b : Nat) (hb : (128 ≤ b ∧ b < 192) ∨ (248 ≤ b ∧ b < 256)) (r : List Nat) (fuel : Nat) (o : Out)
    (ho : o.data.length ≤ o.cap) : fmtStrLoop fuel (b :: r) o = .ub := by
  induction fuel generalizing o with
  | zero => rfl
  | succ f ih =>
    rw [fmtStrLoop.eq_def]
    have hd := (noerror_utf8_no_progress_violated b hb r).1
    obtain ⟨p, hp, _⟩ := writes_cp (c := 0x3f) (by decide)
    obtain ⟨o', h1, _, h3⟩ := hp o ho
    simp only [hd, Res.bind_ok, h1]
    exact ih o' h3

/-- **C41 fails for absent optional unsigned fields**: they are left unwritten. -/
theorem json_missing_unsigned_violated (b : Nat) (n : List Nat) :
    parseJson (.struct [n] [.option (.int ⟨b, false⟩)]) [123, 125] = .ok (.tup [.undef]) := by
  rfl

/-- **RFC 8259 escapes of characters outside the basic plane are rejected**: `"\ud83d\ude00"` is a JSON document
    (standing for U+1F600) that `parse_json` cannot read as a string. -/
theorem json_surrogate_pair_violated :
    JsonDoc rfcLex (34 :: ([92, 117, 100, 56, 51, 100, 92, 117, 100, 101, 48, 48] ++ [34])) ∧
    parseJson .string (34 :: ([92, 117, 100, 56, 51, 100, 92, 117, 100, 101, 48, 48] ++ [34])) = .throw .parse := by
  constructor
  · exact ⟨[], _, [], rfc_nil, .str [92, 117, 100, 56, 51, 100, 92, 117, 100, 101, 48, 48]
      (.u [100, 56, 51, 100] _ rfl (by unfold IsHex; decide) (.u [100, 101, 48, 48] [] rfl (by unfold IsHex; decide) .nil)),
      rfc_nil, by simp⟩
  · rfl

/-! ### non-trivial instances -/

/-- `{a: 2 * ?int32, é: var * string}` with the value `{a: [-7, NA], é: ["x\ny"]}`. -/
example : JOk (.struct [[97], [195, 169]] [.fixed 2 (.option (.int ⟨32, true⟩)), .var .string])
    (.tup [.arr [.int (-7), .int (IntTy.mk 32 true).min], .arr [.str [120, 10, 121]]]) := by
  simp only [JOk, JOks, JOptOk, JIntOk, JIntTy]
  refine ⟨by decide, rfl, ?_, _, rfl, _, _, rfl, ⟨_, rfl, rfl, ?_⟩, _, _, rfl, ⟨_, rfl, ?_⟩, rfl⟩
  · intro n hn
    simp only [List.mem_cons, List.not_mem_nil, or_false] at hn
    rcases hn with rfl | rfl
    · exact ⟨[97], by decide⟩
    · exact ⟨[233], by decide⟩
  · intro x hx
    simp only [List.mem_cons, List.not_mem_nil, or_false] at hx
    rcases hx with rfl | rfl
    · exact ⟨_, rfl, by simp, Or.inl ⟨trivial, Or.inr ⟨by simp, by decide, by simp⟩⟩⟩
    · exact ⟨_, rfl, by simp, Or.inl ⟨trivial, Or.inl rfl⟩⟩
  · intro x hx
    simp only [List.mem_cons, List.not_mem_nil, or_false] at hx
    subst hx
    exact ⟨_, rfl, [120, 10, 121], by decide⟩

/-- `{ "b" : 1, "z":[null], "a": true, "b": 2}` read into `{a: bool, b: int8, c: ?bool}` gives `{true, 2, NA}`. -/
example (old : JVal) : parseJsonInto (.struct [[97], [98], [99]] [.bool, .int ⟨8, true⟩, .option .bool]) old
    [123, 32, 34, 98, 34, 32, 58, 32, 49, 44, 32, 34, 122, 34, 58, 91, 110, 117, 108, 108, 93, 44, 32, 34, 97, 34, 58, 32,
     116, 114, 117, 101, 44, 32, 34, 98, 34, 58, 32, 50, 125] = .ok (.tup [.bool 1, .int 2, .bool 2]) := by
  have ms1 : ∀ c, c ≠ 34 → c ≠ 92 → c < 128 → StrText [c] [c] := fun c h1 h2 h3 =>
    ⟨[c], .raw c [c] [] [] (encode_ascii h3) h1 h2 .nil, by simp [encodeAll, encode_ascii h3]⟩
  have w1 : JWs dyndLex [32] := by intro c hc; simp at hc; subst hc; exact Or.inl rfl
  have num : ∀ d, 49 ≤ d → d ≤ 57 → JsonMeans (.int ⟨8, true⟩) [d] (.int ((d - 48 : Nat) : Int)) := by
    intro d h1 h2
    simp only [JsonMeans]
    have hd : Digits [d] := by intro c hc; simp at hc; omega
    refine ⟨_, ⟨⟨[], [d], [], [], rfl, by simp, Or.inr ⟨d, [], rfl, by omega, by intro c hc; cases hc⟩, by simp, by simp⟩,
      ?_, ?_, by simp, by simp⟩, rfl⟩
    · have := SIntText.pos [d] _ (.plain [d] hd (by simp))
      simpa [digVal] using this
    · simp only [IntTy.Has, IntTy.min, IntTy.max, if_true]; omega
  have hb := MembersText.cons [32] [32] [32] [] ⟨[98], [98], [49]⟩ _ _ w1 w1 w1 ws_nil
    (.cons [32] [] [] [] ⟨[122], [122], [91, 110, 117, 108, 108, 93]⟩ _ _ w1 ws_nil ws_nil ws_nil
      (.cons [32] [] [32] [] ⟨[97], [97], [116, 114, 117, 101]⟩ _ _ w1 ws_nil w1 ws_nil
        (.one [32] [] [32] [] ⟨[98], [98], [50]⟩ w1 ws_nil w1 ws_nil)))
  have key := json_object_fields_partial (ns := [[97], [98], [99]]) (ts := [.bool, .int ⟨8, true⟩, .option .bool])
    (vs := [.bool 1, .int 2, .bool 2]) (by decide) (Or.inr ⟨_, hb, rfl⟩) ?_ ?_ ?_ old
  · simpa using key
  · intro m hm
    simp only [List.mem_cons, List.not_mem_nil, or_false] at hm
    rcases hm with rfl | rfl | rfl | rfl <;> exact ms1 _ (by decide) (by decide) (by decide)
  · intro m hm hno
    simp only [List.mem_cons, List.not_mem_nil, or_false] at hm
    rcases hm with rfl | rfl | rfl | rfl
    · exact absurd (by simp) hno
    · exact .arr [110, 117, 108, 108] (.one [] _ [] ws_nil .null ws_nil)
    · exact absurd (by simp) hno
    · exact absurd (by simp) hno
  · simp only [FieldsMean]
    refine ⟨_, _, _, _, rfl, rfl, ⟨?_, ?_⟩, _, _, _, _, rfl, rfl, ⟨?_, ?_⟩, _, _, _, _, rfl, rfl, ⟨?_, ?_⟩, rfl, rfl⟩
    · intro m hm hn
      simp only [List.mem_cons, List.not_mem_nil, or_false] at hm
      rcases hm with rfl | rfl | rfl | rfl <;> simp at hn
      exact ⟨.bool 1, by simp [JsonMeans]⟩
    · simp [lastNamed, JsonMeans]
    · intro m hm hn
      simp only [List.mem_cons, List.not_mem_nil, or_false] at hm
      rcases hm with rfl | rfl | rfl | rfl <;> simp at hn
      · exact ⟨_, num 49 (by omega) (by omega)⟩
      · exact ⟨_, num 50 (by omega) (by omega)⟩
    · have := num 50 (by omega) (by omega)
      simpa [lastNamed] using this
    · intro m hm hn
      simp only [List.mem_cons, List.not_mem_nil, or_false] at hm
      rcases hm with rfl | rfl | rfl | rfl <;> simp at hn
    · simp [lastNamed, IsNa]

end Dynd
