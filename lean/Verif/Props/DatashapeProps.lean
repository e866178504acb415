/-
C36: a type printed as text is read back as the same type.
-/
import Verif.Model.Datashape
import Verif.Props.EscapeProps
import Verif.Props.IntProps
import Mathlib.Data.List.Forall2
import Mathlib.Tactic.Linarith
import Mathlib.Tactic.IntervalCases

namespace Dynd

/-! ### Literals -/
theorem s_star : str "*" = [42] := rfl
theorem s_star2 : str "**" = [42, 42] := rfl
theorem s_dots : str "..." = [46, 46, 46] := rfl
theorem s_sstar : str " * " = [32, 42, 32] := rfl
theorem s_dstar : str "... * " = [46, 46, 46, 32, 42, 32] := rfl
theorem s_lb : str "[" = [91] := rfl
theorem s_rb : str "]" = [93] := rfl
theorem s_lc : str "{" = [123] := rfl
theorem s_rc : str "}" = [125] := rfl
theorem s_lp : str "(" = [40] := rfl
theorem s_rp : str ")" = [41] := rfl
theorem s_comma : str "," = [44] := rfl
theorem s_commasp : str ", " = [44, 32] := rfl
theorem s_colon : str ":" = [58] := rfl
theorem s_colonsp : str ": " = [58, 32] := rfl
theorem s_q : str "?" = [63] := rfl
theorem s_eq : str "=" = [61] := rfl
theorem s_arrow : str "->" = [45, 62] := rfl
theorem s_cret : str ") -> " = [41, 32, 45, 62, 32] := rfl
theorem s_cdots : str ", ..." = [44, 32, 46, 46, 46] := rfl
theorem s_cdotsp : str ", ...)" = [44, 32, 46, 46, 46, 41] := rfl
theorem s_cdotsc : str ", ...}" = [44, 32, 46, 46, 46, 125] := rfl
theorem s_align : str "align" = [97, 108, 105, 103, 110] := rfl
theorem s_balign : str "[align=" = [91, 97, 108, 105, 103, 110, 61] := rfl
theorem s_calign : str ", align=" = [44, 32, 97, 108, 105, 103, 110, 61] := rfl
theorem s_cq : str ", '" = [44, 32, 39] := rfl
theorem s_sq : str "'" = [39] := rfl
theorem s_bq : str "['" = [91, 39] := rfl
theorem s_qb : str "']" = [39, 93] := rfl

theorem ofBytes_str (s : String) : ofBytes (str s) = s := by
  simp [ofBytes, str, List.map_map, Function.comp_def]

theorem str_inj {a b : String} (h : str a = str b) : a = b := by
  rw [← ofBytes_str a, h, ofBytes_str]

/-! ### Tokens -/
theorem skipWs_nonws {c : Nat} {s : List Nat} (h1 : isSpace c = false) (h2 : c ≠ 35) : skipWs (c :: s) = c :: s := by
  simp [skipWs, skipWsGo, h1, h2]
theorem skipWs_sp (s : List Nat) : skipWs (32 :: s) = skipWs s := by
  simp [skipWs, skipWsGo, isSpace]
theorem skipWs_nil : skipWs [] = [] := rfl

theorem strip_append (t s : List Nat) : strip t (t ++ s) = some s := by
  induction t with
  | nil => simp [strip]
  | cons a t ih => simp [strip, ih]

theorem tok_sp (t s : List Nat) : tok t (32 :: s) = tok t s := by simp [tok, skipWs_sp]
theorem tok_hit {a : Nat} {t s : List Nat} (h1 : isSpace a = false) (h2 : a ≠ 35) :
    tok (a :: t) (a :: t ++ s) = some s := by
  rw [tok, List.cons_append, skipWs_nonws h1 h2, ← List.cons_append, strip_append]
theorem tok_miss {a c : Nat} {t s : List Nat} (h1 : isSpace c = false) (h2 : c ≠ 35) (h3 : a ≠ c) :
    tok (a :: t) (c :: s) = none := by
  rw [tok, skipWs_nonws h1 h2]; simp [strip, h3]
theorem tok_nil (a : Nat) (t : List Nat) : tok (a :: t) [] = none := rfl
/-- single character token at the start -/
theorem tok1 {a : Nat} (s : List Nat) (h1 : isSpace a = false) (h2 : a ≠ 35) : tok [a] (a :: s) = some s :=
  tok_hit (t := []) h1 h2

/-- What may follow a type inside a larger description: nothing, `,`, `)`, `]` or `}`. -/
def DsFollow (rest : List Nat) : Prop :=
  rest = [] ∨ ∃ c r, rest = c :: r ∧ (c = 44 ∨ c = 41 ∨ c = 93 ∨ c = 125)

theorem follow_miss {a : Nat} {t rest : List Nat} (h : DsFollow rest) (ha : a ≠ 44 ∧ a ≠ 41 ∧ a ≠ 93 ∧ a ≠ 125) :
    tok (a :: t) rest = none := by
  rcases h with rfl | ⟨c, r, rfl, hc⟩
  · rfl
  · refine tok_miss ?_ ?_ ?_
    · rcases hc with rfl | rfl | rfl | rfl <;> rfl
    · rcases hc with rfl | rfl | rfl | rfl <;> decide
    · rcases hc with rfl | rfl | rfl | rfl <;> omega

/-- The text does not continue a name. -/
def DsBound (b : List Nat) : Prop := ∀ c r, b = c :: r → nameChar c = false

theorem follow_bound {rest : List Nat} (h : DsFollow rest) : DsBound rest := by
  intro c r e
  rcases h with rfl | ⟨c', r', rfl, hc⟩
  · simp at e
  · obtain ⟨rfl, _⟩ := List.cons.inj e
    rcases hc with rfl | rfl | rfl | rfl <;> rfl
theorem bound_cons {c : Nat} {r : List Nat} (h : nameChar c = false) : DsBound (c :: r) := by
  intro c' r' e; obtain ⟨rfl, _⟩ := List.cons.inj e; exact h
theorem bound_follow_append {x rest : List Nat} (hx : x = [] ∨ ∃ c r, x = c :: r ∧ nameChar c = false) (h : DsFollow rest) :
    DsBound (x ++ rest) := by
  rcases hx with rfl | ⟨c, r, rfl, hc⟩
  · exact follow_bound h
  · exact bound_cons hc

theorem takeWhile_bound {p : Nat → Bool} {r b : List Nat} (hr : r.all p = true) (hb : ∀ c s, b = c :: s → p c = false) :
    (r ++ b).takeWhile p = r ∧ (r ++ b).dropWhile p = b := by
  induction r with
  | nil =>
    cases b with
    | nil => simp
    | cons c s => simp [List.takeWhile_cons, List.dropWhile_cons, hb c s rfl]
  | cons a r ih =>
    simp only [List.all_cons, Bool.and_eq_true] at hr
    simp [List.takeWhile_cons, List.dropWhile_cons, hr.1, ih hr.2]

theorem scanName_simple {n b : List Nat} (hn : simpleName n = true) (hb : DsBound b) : scanName (n ++ b) = some (n, b) := by
  cases n with
  | nil => simp [simpleName] at hn
  | cons c r =>
    simp only [simpleName, Bool.and_eq_true] at hn
    obtain ⟨h1, h2⟩ := takeWhile_bound hn.2 hb
    simp [scanName, hn.1, h1, h2]

theorem nameStart_iff {c : Nat} : nameStart c = true ↔ (97 ≤ c ∧ c ≤ 122) ∨ (65 ≤ c ∧ c ≤ 90) ∨ c = 95 := by
  simp [nameStart]; omega
theorem isSpace_iff {c : Nat} : isSpace c = true ↔ c = 32 ∨ (9 ≤ c ∧ c ≤ 13) := by simp [isSpace]
theorem isSpace_false {c : Nat} (h : c ≠ 32 ∧ (c < 9 ∨ 13 < c)) : isSpace c = false := by
  cases e : isSpace c with
  | false => rfl
  | true => rw [isSpace_iff] at e; omega
theorem nameStart_false {c : Nat} (h : ¬ ((97 ≤ c ∧ c ≤ 122) ∨ (65 ≤ c ∧ c ≤ 90) ∨ c = 95)) : nameStart c = false := by
  cases e : nameStart c with
  | false => rfl
  | true => rw [nameStart_iff] at e; exact absurd e h

theorem name_head {n : List Nat} (hn : simpleName n = true) :
    ∃ c r, n = c :: r ∧ ((97 ≤ c ∧ c ≤ 122) ∨ (65 ≤ c ∧ c ≤ 90) ∨ c = 95) := by
  cases n with
  | nil => simp [simpleName] at hn
  | cons c r =>
    simp only [simpleName, Bool.and_eq_true] at hn
    exact ⟨c, r, rfl, nameStart_iff.1 hn.1⟩

theorem typevar_simple {n : List Nat} (h : validTypevar n = true) : simpleName n = true ∧ isUpperC (n.headD 0) = true := by
  cases n with
  | nil => simp [validTypevar] at h
  | cons c r =>
    simp only [validTypevar, Bool.and_eq_true] at h
    refine ⟨?_, h.1⟩
    simp only [simpleName, Bool.and_eq_true]
    refine ⟨?_, h.2⟩
    have h1 := h.1
    simp only [isUpperC, Bool.and_eq_true, decide_eq_true_eq] at h1
    exact nameStart_iff.2 (Or.inr (Or.inl h1))

/-! ### Numbers -/
theorem decDigits_head (k : Nat) : (k = 0 ∧ decDigits k = [48]) ∨ ∃ c r, decDigits k = c :: r ∧ 49 ≤ c ∧ c ≤ 57 ∧ Digits r := by
  induction k using Nat.strong_induction_on with
  | _ k ih =>
    by_cases h : k < 10
    · rw [decDigits, if_pos h]
      by_cases h0 : k = 0
      · left; subst h0; exact ⟨rfl, rfl⟩
      · right; exact ⟨48 + k, [], rfl, by omega, by omega, by simp [Digits]⟩
    · right
      rw [decDigits, if_neg h]
      rcases ih (k / 10) (by omega) with ⟨h0, _⟩ | ⟨c, r, h1, h2, h3, h4⟩
      · omega
      · refine ⟨c, r ++ [48 + k % 10], by rw [h1]; rfl, h2, h3, ?_⟩
        intro d hd
        rcases List.mem_append.1 hd with hd | hd
        · exact h4 d hd
        · simp at hd; omega

theorem scanUInt_dec (k : Nat) (b : List Nat) (hb : ∀ c r, b = c :: r → isDig c = false) :
    scanUInt (decDigits k ++ b) = some (decDigits k, b) := by
  rcases decDigits_head k with ⟨rfl, h⟩ | ⟨c, r, h, h1, h2, h3⟩
  · rw [h]
    cases b with
    | nil => rfl
    | cons c r => simp [scanUInt, hb c r rfl]
  · rw [h]
    have hr : r.all isDig = true := by
      rw [List.all_eq_true]; intro d hd; exact isDig_iff.2 (h3 d hd)
    obtain ⟨g1, g2⟩ := takeWhile_bound hr hb
    simp [scanUInt, h1, h2, g1, g2]

theorem dec_head (k : Nat) : ∃ c r, decDigits k = c :: r ∧ 48 ≤ c ∧ c ≤ 57 := by
  rcases decDigits_head k with ⟨_, h⟩ | ⟨c, r, h, h1, h2, _⟩
  · exact ⟨48, [], h, by omega, by omega⟩
  · exact ⟨c, r, h, by omega, by omega⟩

theorem scanNum_dec (k : Nat) (b : List Nat) (hb : ∀ c r, b = c :: r → isDig c = false) :
    scanNameOrNum (decDigits k ++ b) = some (decDigits k, b) := by
  have h1 := scanUInt_dec k b hb
  obtain ⟨c, r, h, hc⟩ := dec_head k
  have h2 : scanName (decDigits k ++ b) = none := by
    rw [h]
    simp [scanName, nameStart_false (c := c) (by omega)]
  rw [scanNameOrNum, h2]
  exact h1

theorem expectNumber_dec (k : Nat) (b : List Nat) (hb : ∀ c r, b = c :: r → isDig c = false) :
    expectNumber (decDigits k ++ b) = .ok (decDigits k, b) := by
  have h1 := scanUInt_dec k b hb
  obtain ⟨c, r, h, hc⟩ := dec_head k
  have h2 : skipWs (decDigits k ++ b) = decDigits k ++ b := by
    rw [h, List.cons_append, skipWs_nonws (isSpace_false (by omega)) (by omega)]
  rw [expectNumber, h2, h1]

theorem decValue_dec (k : Nat) : decValue (decDigits k) = k := (decDigits_spec k).2.2
theorem atoi_dec {k : Nat} (h : k < 2147483648) : atoi (decDigits k) = .ok k := by
  rw [atoi, decValue_dec, if_pos (by omega)]

theorem scanNum_name {n b : List Nat} (hn : simpleName n = true) (hb : DsBound b) :
    scanNameOrNum (n ++ b) = some (n, b) := by
  rw [scanNameOrNum, scanName_simple hn hb]

/-! ### Specification: the types whose text determines them -/

/-- an identifier: a letter or underscore, then letters, digits, underscores -/
def Identifier (s : String) : Prop :=
  ∃ c r, s.toList = c :: r ∧ (c.isAlpha = true ∨ c = '_') ∧ ∀ d ∈ r, d.isAlphanum = true ∨ d = '_'
/-- a type variable name: an identifier that begins with a capital -/
def TypeVarName (s : String) : Prop :=
  ∃ c r, s.toList = c :: r ∧ c.isUpper = true ∧ ∀ d ∈ r, d.isAlphanum = true ∨ d = '_'
/-- capitalised names that mean a registered type -/
def reservedNames : List String :=
  ["Any", "Scalar", "Bool", "Int", "UInt", "Float", "Complex", "Dim", "Bytes", "FixedBytes", "String", "FixedString",
   "Fixed", "Categorical", "Expr", "State"]
/-- a name whose bytes are UTF-8 for characters of the basic multilingual plane -/
def BmpName (s : String) : Prop := ∃ cps, encodeAll .utf8 cps = some (str s) ∧ ∀ c ∈ cps, c < 0x10000

mutual
/-- The types for which the round trip holds.  The conditions marked (*) are not conditions of the type constructors
    but defects of the printer or the parser, each with a counterexample below; the others are what the constructors
    of the library demand. -/
def Describable : Ty → Prop
  | .prim _ => True
  | .kind _ => True
  | .leaf (.bytes a) => a ∈ [1, 2, 4, 8, 16]
  | .leaf (.fixedBytes n a) => a ∈ [1, 2, 4, 8, 16] ∧ a ∣ n ∧ a ≤ n ∧ n < 2 ^ 31 -- (*) size below 2^31
  | .leaf .string => True
  | .leaf (.fixedString n e) => 0 < n ∧ n < 2 ^ 31 ∧ e < 5 -- (*) size above 0 and below 2^31
  | .leaf (.char e) => e ∈ [0, 1, 4]
  | .leaf .typeT => True
  | .leaf (.categorical _) => False -- (*)
  | .fixedDim n el => 0 ≤ n ∧ n < 2 ^ 63 ∧ Describable el
  | .fixedDimKind el => Describable el
  | .varDim el => Describable el
  | .dimKind el => Describable el
  | .pointer t => Describable t
  | .option t => Describable t ∧ ∀ u, t ≠ .option u
  | .tuple ts v => DescribableAll ts ∧ (ts = [] → v = false) -- (*) no empty variadic tuple
  | .struct ns ts v =>
    ns.length = ts.length ∧ DescribableAll ts ∧ (ts = [] → v = false) -- (*) no empty variadic struct
      ∧ ∀ nm ∈ ns, BmpName nm -- (*) no supplementary characters
  | .callable ret (.tuple ps pv) (.struct ns ks kv) =>
    Describable ret ∧ DescribableAll ps ∧ DescribableAll ks ∧ ns.length = ks.length
      ∧ (∀ nm ∈ ns, Identifier nm) -- (*) only identifiers as keyword names
      ∧ (ks = [] → kv = pv) -- (*) without keywords both parts have the same variadic flag
  | .callable _ _ _ => False
  | .typevar nm => TypeVarName nm ∧ nm ∉ reservedNames -- (*) not a registered name
  | .typevarDim nm el => TypeVarName nm ∧ nm ∉ reservedNames ∧ Describable el -- (*) not a registered name
  | .ellipsis nm el => (nm = "" ∨ TypeVarName nm) ∧ Describable el
  | .powDimsym (.fixedDim n (.prim .void)) x el => 0 ≤ n ∧ n < 2 ^ 63 ∧ TypeVarName x ∧ Describable el
  | .powDimsym (.varDim (.prim .void)) x el => TypeVarName x ∧ Describable el
  | .powDimsym (.typevarDim b (.prim .void)) x el =>
    TypeVarName b ∧ b ≠ "Fixed" ∧ TypeVarName x ∧ Describable el -- (*) base not called `Fixed`
  | .powDimsym _ _ _ => False -- (*) in particular no `Fixed` base
  | .dimFragment _ => False -- (*)
/-- every type of the list -/
def DescribableAll : List Ty → Prop
  | [] => True
  | t :: ts => Describable t ∧ DescribableAll ts
end

theorem isAlpha_iff {c : Char} : (c.isAlpha = true ∨ c = '_') ↔ nameStart c.toNat = true := by
  rw [nameStart_iff]
  simp only [Char.isAlpha, Char.isUpper, Char.isLower, Bool.or_eq_true, Bool.and_eq_true, decide_eq_true_eq, ge_iff_le,
    UInt32.le_iff_toNat_le, Char.toNat]
  have : c = '_' ↔ c.val.toNat = 95 := by
    constructor
    · rintro rfl; rfl
    · intro h; exact Char.ext (UInt32.toNat_inj.1 h)
  rw [this]
  have h1 : ('A' : Char).toNat = 65 := rfl
  have h2 : ('Z' : Char).toNat = 90 := rfl
  have h3 : ('a' : Char).toNat = 97 := rfl
  have h4 : ('z' : Char).toNat = 122 := rfl
  norm_num
  rw [h1, h2, h3, h4]
  omega

theorem isAlnum_iff {c : Char} : (c.isAlphanum = true ∨ c = '_') ↔ nameChar c.toNat = true := by
  have h := isAlpha_iff (c := c)
  rw [nameChar, Bool.or_eq_true, ← h, isDig_iff, Char.isAlphanum, Bool.or_eq_true]
  simp only [Char.isDigit, Bool.and_eq_true, decide_eq_true_eq, ge_iff_le, UInt32.le_iff_toNat_le, Char.toNat]
  norm_num
  tauto

theorem isUpper_iff {c : Char} : c.isUpper = true ↔ isUpperC c.toNat = true := by
  simp only [Char.isUpper, isUpperC, Bool.and_eq_true, decide_eq_true_eq, ge_iff_le, UInt32.le_iff_toNat_le, Char.toNat]
  have h1 : ('A' : Char).toNat = 65 := rfl
  have h2 : ('Z' : Char).toNat = 90 := rfl
  norm_num
  rw [h1, h2]

theorem identifier_iff {s : String} : Identifier s ↔ simpleName (str s) = true := by
  unfold Identifier str
  cases h : s.toList with
  | nil => simp [simpleName]
  | cons c r =>
    simp only [List.map_cons, simpleName, Bool.and_eq_true, List.all_eq_true, List.mem_map, forall_exists_index, and_imp,
      forall_apply_eq_imp_iff₂, ← isAlpha_iff, ← isAlnum_iff]
    constructor
    · rintro ⟨c', r', e, h1, h2⟩
      obtain ⟨rfl, rfl⟩ := List.cons.inj e
      exact ⟨h1, h2⟩
    · rintro ⟨h1, h2⟩
      exact ⟨c, r, rfl, h1, h2⟩

theorem typeVarName_iff {s : String} : TypeVarName s ↔ validTypevar (str s) = true := by
  unfold TypeVarName str
  cases h : s.toList with
  | nil => simp [validTypevar]
  | cons c r =>
    simp only [List.map_cons, validTypevar, Bool.and_eq_true, List.all_eq_true, List.mem_map, forall_exists_index, and_imp,
      forall_apply_eq_imp_iff₂, ← isUpper_iff, ← isAlnum_iff]
    constructor
    · rintro ⟨c', r', e, h1, h2⟩
      obtain ⟨rfl, rfl⟩ := List.cons.inj e
      exact ⟨h1, h2⟩
    · rintro ⟨h1, h2⟩
      exact ⟨c, r, rfl, h1, h2⟩

/-! ### One type at a time -/

theorem noOpt_sp (rec : List Nat → PRes) (s : List Nat) : noOpt rec (32 :: s) = noOpt rec s := by
  simp only [noOpt, skipWs_sp]
theorem parseTy_sp (f : Nat) (s : List Nat) : parseTy f (32 :: s) = parseTy f s := by
  cases f with
  | zero => rfl
  | succ f => simp only [parseTy, skipWs_sp, noOpt_sp]

/-- The text `x` is read back as `t`, wherever it stands inside a description. -/
structure DsRT (t : Ty) (x : List Nat) : Prop where
  hd : ∃ c r, x = c :: r ∧ isSpace c = false ∧ c ≠ 35 ∧ c ≠ 41
  ahead : ∀ rest, DsFollow rest → kwdAhead (x ++ rest) = none ∧ (tok [46, 46, 46] (x ++ rest)).bind (tok [41]) = none
  parse : ∀ f rest, x.length ≤ f → DsFollow rest → parseTy f (x ++ rest) = .ok (some (t, rest))

/-- The same without the option mark. -/
structure DsNT (t : Ty) (x : List Nat) : Prop where
  hd : ∃ c r, x = c :: r ∧ isSpace c = false ∧ c ≠ 35 ∧ c ≠ 41 ∧ c ≠ 63
  ahead : ∀ rest, DsFollow rest → kwdAhead (x ++ rest) = none ∧ (tok [46, 46, 46] (x ++ rest)).bind (tok [41]) = none
  parse : ∀ f rest, x.length ≤ f + 1 → DsFollow rest → noOpt (parseTy f) (x ++ rest) = .ok (some (t, rest))

theorem DsNT.rt {t : Ty} {x : List Nat} (h : DsNT t x) : DsRT t x := by
  obtain ⟨c, r, rfl, h1, h2, h3, h4⟩ := h.hd
  refine ⟨⟨c, r, rfl, h1, h2, h3⟩, h.ahead, ?_⟩
  intro f rest hf hr
  cases f with
  | zero => simp at hf
  | succ f =>
    rw [parseTy, List.cons_append, skipWs_nonws h1 h2, s_q]
    simp only [strip, Ne.symm h4, if_false]
    exact h.parse f rest hf hr

theorem kwdAhead_other {c : Nat} {s : List Nat} (h1 : isSpace c = false) (h2 : c ≠ 35) (h3 : c ≠ 46)
    (h4 : nameStart c = false) : kwdAhead (c :: s) = none := by
  unfold kwdAhead
  rw [s_dots, tok_miss h1 h2 (Ne.symm h3)]
  simp only [skipWs_nonws h1 h2, scanName, h4, Bool.false_eq_true, if_false]

theorem ahead_other {c : Nat} {s : List Nat} (h1 : isSpace c = false) (h2 : c ≠ 35) (h3 : c ≠ 46)
    (h4 : nameStart c = false) :
    kwdAhead (c :: s) = none ∧ (tok [46, 46, 46] (c :: s)).bind (tok [41]) = none := by
  refine ⟨kwdAhead_other h1 h2 h3 h4, ?_⟩
  rw [tok_miss h1 h2 (Ne.symm h3)]; rfl

theorem ahead_name {n tail : List Nat} (hn : simpleName n = true) (hb : DsBound tail) (ht : tok [58] tail = none) :
    kwdAhead (n ++ tail) = none ∧ (tok [46, 46, 46] (n ++ tail)).bind (tok [41]) = none := by
  have hs := scanName_simple hn hb
  obtain ⟨c, r, rfl, hc⟩ := name_head hn
  have h1 : isSpace c = false := isSpace_false (by omega)
  have h2 : c ≠ 35 := by omega
  have h3 : (46 : Nat) ≠ c := by omega
  constructor
  · unfold kwdAhead
    rw [s_dots, List.cons_append, tok_miss h1 h2 h3]
    rw [List.cons_append] at hs
    simp only [skipWs_nonws h1 h2, hs, s_colon, ht]
  · rw [List.cons_append, tok_miss h1 h2 h3]; rfl

theorem DsRT.option {t : Ty} {x : List Nat} (h : DsNT t x) (ho : ∀ u, t ≠ .option u) : DsRT (.option t) (63 :: x) := by
  refine ⟨⟨63, x, rfl, rfl, by decide, by decide⟩, fun rest _ => ahead_other rfl (by decide) (by decide) rfl, ?_⟩
  intro f rest hf hr
  cases f with
  | zero => simp at hf
  | succ f =>
    have e : strip [63] (63 :: (x ++ rest)) = some (x ++ rest) := strip_append [63] (x ++ rest)
    rw [parseTy, List.cons_append, skipWs_nonws rfl (by decide), s_q]
    simp only [e, h.parse f rest (by simp at hf; omega) hr, Res.bind_ok]
    cases t with
    | option u => exact absurd rfl (ho u)
    | _ => rfl

/-- texts that begin with a name -/
theorem nt_name {t : Ty} {n tail : List Nat} (hn : simpleName n = true)
    (ht : tail = [] ∨ ∃ c r, tail = c :: r ∧ nameChar c = false)
    (hc : ∀ rest, DsFollow rest → tok [58] (tail ++ rest) = none)
    (hp : ∀ f rest, (n ++ tail).length ≤ f + 1 → DsFollow rest → noOptNamed (parseTy f) n (tail ++ rest) = .ok (some (t, rest))) :
    DsNT t (n ++ tail) := by
  obtain ⟨c, r, e, hcc⟩ := name_head hn
  refine ⟨⟨c, r ++ tail, by rw [e]; rfl, isSpace_false (by omega), by omega, by omega, by omega⟩, ?_, ?_⟩
  · intro rest hr
    rw [List.append_assoc]
    exact ahead_name hn (bound_follow_append ht hr) (hc rest hr)
  · intro f rest hf hr
    rw [List.append_assoc]
    have h1 := scanNum_name hn (bound_follow_append ht hr)
    have h2 : skipWs (n ++ (tail ++ rest)) = n ++ (tail ++ rest) := by
      rw [e, List.cons_append, skipWs_nonws (isSpace_false (by omega)) (by omega)]
    simp only [noOpt, h2, h1]
    exact hp f rest hf hr

theorem nameChar_of {c : Nat} (h : nameChar c = false) : isDig c = false := by
  simp only [nameChar, Bool.or_eq_false_iff] at h; exact h.2

/-- texts that begin with a number -/
theorem nt_num {t : Ty} {k : Nat} {tail : List Nat} (ht : ∃ c r, tail = c :: r ∧ nameChar c = false)
    (hp : ∀ f rest, (decDigits k ++ tail).length ≤ f + 1 → DsFollow rest →
      noOptNamed (parseTy f) (decDigits k) (tail ++ rest) = .ok (some (t, rest))) :
    DsNT t (decDigits k ++ tail) := by
  obtain ⟨c, r, e, hcc⟩ := dec_head k
  have hsp : isSpace c = false := isSpace_false (by omega)
  refine ⟨⟨c, r ++ tail, by rw [e]; rfl, hsp, by omega, by omega, by omega⟩, ?_, ?_⟩
  · intro rest hr
    rw [e, List.append_assoc, List.cons_append]
    exact ahead_other hsp (by omega) (by omega) (nameStart_false (by omega))
  · intro f rest hf hr
    rw [List.append_assoc]
    have h1 := scanNum_dec k (tail ++ rest) (by
      intro c' r' e'
      obtain ⟨c0, r0, rfl, h0⟩ := ht
      obtain ⟨rfl, _⟩ := List.cons.inj e'
      exact nameChar_of h0)
    have h2 : skipWs (decDigits k ++ (tail ++ rest)) = decDigits k ++ (tail ++ rest) := by
      rw [e, List.cons_append, skipWs_nonws hsp (by omega)]
    simp only [noOpt, h2, h1]
    exact hp f rest hf hr

/-- a name or number, ` * `, and an element type -/
theorem named_dim {rec : List Nat → PRes} {n x rest : List Nat} {el t : Ty}
    (hx : rec (32 :: (x ++ rest)) = .ok (some (el, rest))) (hd : dimNamed n el = .ok t) :
    noOptNamed rec n ([32, 42, 32] ++ x ++ rest) = .ok (some (t, rest)) := by
  have e1 : tok [42, 42] (32 :: 42 :: 32 :: (x ++ rest)) = none := by
    rw [tok_sp, tok, skipWs_nonws rfl (by decide)]; simp [strip]
  have e2 : tok [42] (32 :: 42 :: 32 :: (x ++ rest)) = some (32 :: (x ++ rest)) := by
    rw [tok_sp]; exact tok1 _ rfl (by decide)
  have e3 : [32, 42, 32] ++ x ++ rest = 32 :: 42 :: 32 :: (x ++ rest) := by simp
  rw [e3, noOptNamed, s_star2, e1, s_star]
  simp only [e2, hx, need, Res.bind_ok, Res.pure_eq, hd]

theorem DsNT.dimName {n x : List Nat} {el t : Ty} (hn : simpleName n = true) (hx : DsRT el x) (hd : dimNamed n el = .ok t) :
    DsNT t (n ++ ([32, 42, 32] ++ x)) := by
  refine nt_name hn (Or.inr ⟨32, _, rfl, rfl⟩) ?_ ?_
  · intro rest _
    simp only [List.cons_append, tok_sp]
    exact tok_miss rfl (by decide) (by decide)
  · intro f rest hf hr
    refine named_dim (el := el) ?_ hd
    rw [parseTy_sp]
    exact hx.parse f rest (by simp at hf; omega) hr

theorem DsNT.dimNum {k : Nat} {x : List Nat} {el t : Ty} (hx : DsRT el x) (hd : dimNamed (decDigits k) el = .ok t) :
    DsNT t (decDigits k ++ ([32, 42, 32] ++ x)) := by
  refine nt_num ⟨32, _, rfl, rfl⟩ ?_
  intro f rest hf hr
  refine named_dim (el := el) ?_ hd
  rw [parseTy_sp]
  exact hx.parse f rest (by simp at hf; omega) hr

theorem printInt_nonneg {n : Int} (h : 0 ≤ n) : printInt n = decDigits n.toNat := by
  rw [printInt, if_neg (by omega)]; congr 1; omega

theorem parse_dim {n : Int} (h : 0 ≤ n) (h2 : n < 2 ^ 63) : parseInt ⟨64, true⟩ (decDigits n.toNat) = .ok n := by
  rw [← printInt_nonneg h]
  refine print_parse_int ⟨64, true⟩ (by decide) n ?_
  rw [IntTy.has_signed]
  omega

theorem isDig_dec (k : Nat) : isDig ((decDigits k).headD 0) = true := by
  obtain ⟨c, r, e, hc⟩ := dec_head k
  rw [e]; exact isDig_iff.2 hc

theorem DsNT.fixedDim {n : Int} {x : List Nat} {el : Ty} (h0 : 0 ≤ n) (h1 : n < 2 ^ 63) (hx : DsRT el x) :
    DsNT (.fixedDim n el) (printInt n ++ str " * " ++ x) := by
  rw [printInt_nonneg h0, s_sstar, List.append_assoc]
  refine DsNT.dimNum hx ?_
  rw [dimNamed, if_pos (isDig_dec _), parse_dim h0 h1]; rfl

theorem registry_heads :
    registry.all (fun p => !isUpperC (p.1.headD 0) || (reservedNames.map str).contains p.1) = true := by decide

theorem registry_none {nm : String} (hv : TypeVarName nm) (hr : nm ∉ reservedNames) :
    registry.lookup (str nm) = none := by
  rw [List.lookup_eq_none_iff]
  intro p hp
  have h := List.all_eq_true.1 registry_heads p hp
  have hu := (typevar_simple (typeVarName_iff.1 hv)).2
  simp only [bne_iff_ne, ne_eq]
  intro e
  rw [← e, hu] at h
  simp only [Bool.not_true, Bool.false_or, List.contains_iff_mem, List.mem_map] at h
  obtain ⟨a, ha, e'⟩ := h
  rw [str_inj e'] at ha
  exact hr ha

theorem upper_not_dig {n : List Nat} (h : isUpperC (n.headD 0) = true) : isDig (n.headD 0) = false := by
  simp only [isUpperC, Bool.and_eq_true, decide_eq_true_eq] at h
  cases e : isDig (n.headD 0) with
  | false => rfl
  | true => rw [isDig_iff] at e; omega

theorem DsNT.fixedDimKind {x : List Nat} {el : Ty} (hx : DsRT el x) : DsNT (.fixedDimKind el) (str "Fixed * " ++ x) :=
  DsNT.dimName (n := str "Fixed") (by decide) hx rfl
theorem DsNT.varDim {x : List Nat} {el : Ty} (hx : DsRT el x) : DsNT (.varDim el) (str "var * " ++ x) :=
  DsNT.dimName (n := str "var") (by decide) hx rfl
theorem DsNT.dimKind {x : List Nat} {el : Ty} (hx : DsRT el x) : DsNT (.dimKind el) (str "Dim * " ++ x) :=
  DsNT.dimName (n := str "Dim") (by decide) hx rfl

theorem DsNT.typevarDim {nm : String} {x : List Nat} {el : Ty} (hv : TypeVarName nm) (hr : nm ∉ reservedNames)
    (hx : DsRT el x) : DsNT (.typevarDim nm el) (str nm ++ str " * " ++ x) := by
  obtain ⟨h1, h2⟩ := typevar_simple (typeVarName_iff.1 hv)
  rw [s_sstar, List.append_assoc]
  refine DsNT.dimName h1 hx ?_
  have h3 := upper_not_dig h2
  rw [dimNamed, if_neg (by rw [h3]; decide), registry_none hv hr]
  simp only [h2, if_true, ofBytes_str]

theorem DsNT.ellipsisNamed {nm : String} {x : List Nat} {el : Ty} (hv : TypeVarName nm) (hx : DsRT el x) :
    DsNT (.ellipsis nm el) (str nm ++ str "... * " ++ x) := by
  have hv' := typeVarName_iff.1 hv
  obtain ⟨h1, h2⟩ := typevar_simple hv'
  rw [s_dstar, List.append_assoc]
  refine nt_name h1 (Or.inr ⟨46, _, rfl, rfl⟩) ?_ ?_
  · intro rest _
    exact tok_miss rfl (by decide) (by decide)
  · intro f rest hf hr
    have e1 : tok [42, 42] (46 :: 46 :: 46 :: 32 :: 42 :: 32 :: (x ++ rest)) = none := tok_miss rfl (by decide) (by decide)
    have e2 : tok [42] (46 :: 46 :: 46 :: 32 :: 42 :: 32 :: (x ++ rest)) = none := tok_miss rfl (by decide) (by decide)
    have e3 : tok [46, 46, 46] (46 :: 46 :: 46 :: 32 :: 42 :: 32 :: (x ++ rest)) = some (32 :: 42 :: 32 :: (x ++ rest)) :=
      tok_hit (t := [46, 46]) rfl (by decide)
    have e4 : tok [42] (32 :: 42 :: 32 :: (x ++ rest)) = some (32 :: (x ++ rest)) := by
      rw [tok_sp]; exact tok1 _ rfl (by decide)
    have e5 : parseTy f (32 :: (x ++ rest)) = .ok (some (el, rest)) := by
      rw [parseTy_sp]; exact hx.parse f rest (by simp at hf; omega) hr
    have e6 : [46, 46, 46, 32, 42, 32] ++ x ++ rest = 46 :: 46 :: 46 :: 32 :: 42 :: 32 :: (x ++ rest) := by simp
    rw [e6, noOptNamed, s_star2, e1, s_star, e2, s_dots]
    simp only [e3, expect, e4, Res.bind_ok, need, e5, Res.pure_eq, mkEllipsis, hv', if_true, ofBytes_str]

theorem DsNT.ellipsisAnon {x : List Nat} {el : Ty} (hx : DsRT el x) : DsNT (.ellipsis "" el) (str "... * " ++ x) := by
  rw [s_dstar]
  have a1 : ∀ s, tok [46, 46, 46] ([46, 46, 46, 32, 42, 32] ++ s) = some (32 :: 42 :: 32 :: s) := fun s =>
    tok_hit (t := [46, 46]) rfl (by decide)
  refine ⟨⟨46, _, rfl, rfl, by decide, by decide, by decide⟩, ?_, ?_⟩
  · intro rest _
    rw [List.append_assoc, a1]
    constructor
    · unfold kwdAhead
      have e0 : tok [44] (32 :: 42 :: 32 :: (x ++ rest)) = none := by
        rw [tok_sp]; exact tok_miss rfl (by decide) (by decide)
      rw [s_dots, a1, s_comma]
      simp only [e0, skipWs_sp, skipWs_nonws (c := 42) rfl (by decide)]
      rfl
    · show tok [41] (32 :: 42 :: 32 :: (x ++ rest)) = none
      rw [tok_sp]; exact tok_miss rfl (by decide) (by decide)
  · intro f rest hf hr
    have e5 : parseTy f (32 :: (x ++ rest)) = .ok (some (el, rest)) := by
      rw [parseTy_sp]; exact hx.parse f rest (by simp at hf; omega) hr
    have e4 : tok [42] (32 :: 42 :: 32 :: (x ++ rest)) = some (32 :: (x ++ rest)) := by
      rw [tok_sp]; exact tok1 _ rfl (by decide)
    have e6 : [46, 46, 46, 32, 42, 32] ++ x ++ rest = 46 :: 46 :: 46 :: 32 :: 42 :: 32 :: (x ++ rest) := by simp
    have e7 : scanNameOrNum (46 :: 46 :: 46 :: 32 :: 42 :: 32 :: (x ++ rest)) = none := rfl
    have e8 : strip [46, 46, 46] (46 :: 46 :: 46 :: 32 :: 42 :: 32 :: (x ++ rest)) = some (32 :: 42 :: 32 :: (x ++ rest)) :=
      strip_append [46, 46, 46] _
    rw [e6, noOpt]
    simp only [skipWs_nonws (c := 46) rfl (by decide), e7, s_dots, e8, expect, s_star, e4, Res.bind_ok, need, e5, Res.pure_eq]

theorem powBase_ok {rec : List Nat → PRes} {n x y rest : List Nat} {el : Ty} {mk : Ty → Ty} (hx : validTypevar x = true)
    (hy : rec (32 :: (y ++ rest)) = .ok (some (el, rest))) (hm : dsPowBase n = .ok mk) :
    noOptNamed rec n ([42, 42] ++ x ++ [32, 42, 32] ++ y ++ rest) = .ok (some (.powDimsym (mk (.prim .void)) (ofBytes x) el, rest)) := by
  obtain ⟨h1, h2⟩ := typevar_simple hx
  have e1 : [42, 42] ++ x ++ [32, 42, 32] ++ y ++ rest = [42, 42] ++ (x ++ 32 :: 42 :: 32 :: (y ++ rest)) := by simp
  have e2 : tok [42, 42] ([42, 42] ++ (x ++ 32 :: 42 :: 32 :: (y ++ rest))) = some (x ++ 32 :: 42 :: 32 :: (y ++ rest)) :=
    tok_hit (t := [42]) rfl (by decide)
  have e3 := scanNum_name (b := 32 :: 42 :: 32 :: (y ++ rest)) h1 (bound_cons rfl)
  have e4 : tok [42] (32 :: 42 :: 32 :: (y ++ rest)) = some (32 :: (y ++ rest)) := by
    rw [tok_sp]; exact tok1 _ rfl (by decide)
  have h3 : ¬ (49 ≤ x.headD 0 ∧ x.headD 0 ≤ 57) := by
    have := h2
    simp only [isUpperC, Bool.and_eq_true, decide_eq_true_eq] at this
    omega
  rw [e1, noOptNamed, s_star2]
  simp only [e2]
  rw [powDim, e3]
  simp only [if_neg h3, h2, if_true, s_star, e4, hm, Res.bind_ok, hy, Res.pure_eq]

theorem DsNT.powNum {n : Int} {x : String} {y : List Nat} {el : Ty} (h0 : 0 ≤ n) (h1 : n < 2 ^ 63) (hx : TypeVarName x)
    (hy : DsRT el y) :
    DsNT (.powDimsym (.fixedDim n (.prim .void)) x el) (printInt n ++ str "**" ++ str x ++ str " * " ++ y) := by
  have e : printInt n ++ str "**" ++ str x ++ str " * " ++ y = decDigits n.toNat ++ ([42, 42] ++ str x ++ [32, 42, 32] ++ y) := by
    rw [printInt_nonneg h0, s_star2, s_sstar]; simp
  rw [e]
  refine nt_num ⟨42, _, rfl, rfl⟩ ?_
  intro f rest hf hr
  have := powBase_ok (rec := parseTy f) (n := decDigits n.toNat) (x := str x) (y := y) (rest := rest) (el := el)
    (mk := Ty.fixedDim n) (typeVarName_iff.1 hx)
    (by rw [parseTy_sp]; exact hy.parse f rest (by simp at hf; omega) hr)
    (by rw [dsPowBase, if_pos (isDig_dec _), parse_dim h0 h1]; rfl)
  rwa [ofBytes_str] at this

theorem DsNT.powName {n : List Nat} {mk : Ty → Ty} {x : String} {y : List Nat} {el : Ty} (hn : simpleName n = true)
    (hm : dsPowBase n = .ok mk) (hx : TypeVarName x) (hy : DsRT el y) :
    DsNT (.powDimsym (mk (.prim .void)) x el) (n ++ str "**" ++ str x ++ str " * " ++ y) := by
  have e : n ++ str "**" ++ str x ++ str " * " ++ y = n ++ ([42, 42] ++ str x ++ [32, 42, 32] ++ y) := by
    rw [s_star2, s_sstar]; simp
  rw [e]
  refine nt_name hn (Or.inr ⟨42, _, rfl, rfl⟩) ?_ ?_
  · intro rest _
    exact tok_miss rfl (by decide) (by decide)
  intro f rest hf hr
  have := powBase_ok (rec := parseTy f) (n := n) (x := str x) (y := y) (rest := rest) (el := el)
    (mk := mk) (typeVarName_iff.1 hx)
    (by rw [parseTy_sp]; exact hy.parse f rest (by simp at hf; omega) hr) hm
  rwa [ofBytes_str] at this

theorem named_dtype_follow {rec : List Nat → PRes} {n rest : List Nat} (h : DsFollow rest) :
    noOptNamed rec n rest = dtypeNamed rec n rest := by
  rw [noOptNamed, s_star2, follow_miss h (by decide), s_star, follow_miss h (by decide), s_dots, follow_miss h (by decide)]

theorem named_dtype_bracket {rec : List Nat → PRes} {n b : List Nat} :
    noOptNamed rec n (91 :: b) = dtypeNamed rec n (91 :: b) := by
  rw [noOptNamed, s_star2, tok_miss rfl (by decide) (by decide), s_star, tok_miss rfl (by decide) (by decide), s_dots,
    tok_miss rfl (by decide) (by decide)]

theorem nt_single {n : List Nat} {t : Ty} {r : Reg} (hn : simpleName n = true) (h1 : n ≠ str "complex")
    (h2 : n ≠ str "State") (h3 : builtinNames.lookup n = none) (h4 : registry.lookup n = some r)
    (h5 : ∀ s, regSingle s r = .ok (some (t, s))) : DsNT t n := by
  have := nt_name (t := t) (tail := []) hn (Or.inl rfl) (fun rest hr => follow_miss hr (by decide)) (by
    intro f rest _ hr
    rw [List.nil_append, named_dtype_follow hr, dtypeNamed, if_neg h1, if_neg h2, h3]
    simp only [h4, s_lb, follow_miss hr (show (91 : Nat) ≠ 44 ∧ (91 : Nat) ≠ 41 ∧ (91 : Nat) ≠ 93 ∧ (91 : Nat) ≠ 125 by decide)]
    exact h5 rest)
  rwa [List.append_nil] at this

theorem DsNT.complex {x : List Nat} {t u : Ty} (hx : DsRT t x)
    (hu : ∀ b, (match t with
      | .prim (.flt .f32) => (Res.ok (some (Ty.prim (.cplx .c32), b)) : PRes)
      | .prim (.flt .f64) => Res.ok (some (Ty.prim (.cplx .c64), b))
      | _ => .throw .parse) = .ok (some (u, b))) : DsNT u (str "complex" ++ ([91] ++ x ++ [93])) := by
  refine nt_name (by decide) (Or.inr ⟨91, _, rfl, rfl⟩) (fun rest _ => tok_miss rfl (by decide) (by decide)) ?_
  intro f rest hf hr
  have e : [91] ++ x ++ [93] ++ rest = 91 :: (x ++ 93 :: rest) := by simp
  rw [e, named_dtype_bracket, dtypeNamed, if_pos rfl, complexParams, s_lb, tok1 _ rfl (by decide)]
  simp only [need, hx.parse f (93 :: rest) (by simp [str] at hf; omega) (Or.inr ⟨93, rest, rfl, by omega⟩), Res.bind_ok,
    Res.pure_eq, expect, s_rb, tok1 rest (show isSpace 93 = false from rfl) (by decide)]
  exact hu rest

theorem DsNT.prim (b : BTy) : DsNT (.prim b) (primText b) := by
  have f32 : DsNT (.prim (.flt .f32)) (str "float32") := nt_single (by decide) (by decide) (by decide) rfl rfl (fun _ => rfl)
  have f64 : DsNT (.prim (.flt .f64)) (str "float64") := nt_single (by decide) (by decide) (by decide) rfl rfl (fun _ => rfl)
  rcases b with _ | _ | (_ | _ | _ | _ | _) | (_ | _ | _ | _ | _) | (_ | _ | _ | _) | (_ | _)
  all_goals first
    | exact nt_single (by decide) (by decide) (by decide) rfl rfl (fun _ => rfl)
    | exact DsNT.complex f32.rt (fun _ => rfl)
    | exact DsNT.complex f64.rt (fun _ => rfl)

theorem DsNT.kind (k : Kind) : DsNT (.kind k) (kindText k) := by
  cases k
  all_goals exact nt_single (by decide) (by decide) (by decide) rfl rfl (fun _ => rfl)

theorem DsNT.typevar {nm : String} (hv : TypeVarName nm) (hr : nm ∉ reservedNames) : DsNT (.typevar nm) (str nm) := by
  obtain ⟨h1, h2⟩ := typevar_simple (typeVarName_iff.1 hv)
  have := nt_name (t := .typevar nm) (tail := []) h1 (Or.inl rfl) (fun rest hr => follow_miss hr (by decide)) (by
    intro f rest _ hf
    have g1 : str nm ≠ str "complex" := by
      intro e; rw [e] at h2; revert h2; decide
    have g2 : str nm ≠ str "State" := by
      intro e; rw [str_inj e] at hr; revert hr; decide
    have g3 : builtinNames.lookup (str nm) = none := by
      rw [List.lookup_eq_none_iff]
      intro p hp
      have h : builtinNames.all (fun p => !isUpperC (p.1.headD 0)) = true := by decide
      have h := List.all_eq_true.1 h p hp
      simp only [bne_iff_ne, ne_eq]
      intro e
      rw [← e, h2] at h
      simp at h
    rw [List.nil_append, named_dtype_follow hf, dtypeNamed, if_neg g1, if_neg g2, g3]
    simp only [registry_none hv hr, h2, if_true, s_lb,
      follow_miss hf (show (91 : Nat) ≠ 44 ∧ (91 : Nat) ≠ 41 ∧ (91 : Nat) ≠ 93 ∧ (91 : Nat) ≠ 125 by decide), ofBytes_str])
  rwa [List.append_nil] at this

/-- a registered name followed by arguments in brackets -/
theorem nt_args {n args : List Nat} {t : Ty} {r : Reg} (hn : simpleName n = true) (h1 : n ≠ str "complex")
    (h2 : n ≠ str "State") (h3 : builtinNames.lookup n = none) (h4 : registry.lookup n = some r)
    (h5 : ∀ f rest, (n ++ 91 :: args).length ≤ f + 1 → DsFollow rest →
      regArgs (parseTy f) (91 :: (args ++ rest)) r = .ok (some (t, rest))) : DsNT t (n ++ 91 :: args) := by
  refine nt_name hn (Or.inr ⟨91, _, rfl, rfl⟩) (fun rest _ => tok_miss rfl (by decide) (by decide)) ?_
  intro f rest hf hr
  have e : 91 :: args ++ rest = 91 :: (args ++ rest) := rfl
  rw [e, named_dtype_bracket, dtypeNamed, if_neg h1, if_neg h2, h3]
  simp only [h4, s_lb, tok1 (a := 91) (args ++ rest) rfl (by decide), Option.isSome_some, if_true]
  exact h5 f rest hf hr

theorem expect1 {a : Nat} (s : List Nat) (h1 : isSpace a = false) (h2 : a ≠ 35) : expect [a] (a :: s) = .ok s := by
  rw [expect, tok1 s h1 h2]

theorem DsNT.pointer {x : List Nat} {t : Ty} (hx : DsRT t x) : DsNT (.pointer t) (str "pointer[" ++ x ++ str "]") := by
  have e : str "pointer[" ++ x ++ str "]" = str "pointer" ++ 91 :: (x ++ [93]) := by
    rw [s_rb]; simp [str]
  rw [e]
  refine nt_args (r := .pointer) (by decide) (by decide) (by decide) rfl rfl ?_
  intro f rest hf hr
  have e2 : x ++ [93] ++ rest = x ++ 93 :: rest := by simp
  simp only [regArgs, oneTypeArg, s_lb, s_rb, e2, expect1 (a := 91) (x ++ 93 :: rest) rfl (by decide), Res.bind_ok, need,
    hx.parse f (93 :: rest) (by simp [str] at hf; omega) (Or.inr ⟨93, rest, rfl, by omega⟩), Res.pure_eq,
    expect1 (a := 93) rest rfl (by decide)]

theorem digBound {c : Nat} {r : List Nat} (h : isDig c = false) : ∀ c' r', c :: r = c' :: r' → isDig c' = false := by
  intro c' r' e; obtain ⟨rfl, _⟩ := List.cons.inj e; exact h

theorem expect_align (s : List Nat) : expect (str "align") (97 :: 108 :: 105 :: 103 :: 110 :: s) = .ok s := by
  have : tok [97, 108, 105, 103, 110] ([97, 108, 105, 103, 110] ++ s) = some s := tok_hit (t := [108, 105, 103, 110]) rfl (by decide)
  rw [expect, s_align]
  have e : 97 :: 108 :: 105 :: 103 :: 110 :: s = [97, 108, 105, 103, 110] ++ s := rfl
  rw [e, this]

theorem DsNT.bytesAlign {a : Nat} (ha : a ∈ [1, 2, 4, 8, 16]) :
    DsNT (.leaf (.bytes a)) (str "bytes" ++ (str "[align=" ++ decDigits a ++ str "]")) := by
  have e : str "bytes" ++ (str "[align=" ++ decDigits a ++ str "]")
      = str "bytes" ++ 91 :: (97 :: 108 :: 105 :: 103 :: 110 :: 61 :: (decDigits a ++ [93])) := by
    rw [s_balign, s_rb]; simp
  rw [e]
  refine nt_args (r := .bytes) (by decide) (by decide) (by decide) rfl rfl ?_
  intro f rest hf hr
  have e2 : 97 :: 108 :: 105 :: 103 :: 110 :: 61 :: (decDigits a ++ [93]) ++ rest
      = 97 :: 108 :: 105 :: 103 :: 110 :: 61 :: (decDigits a ++ 93 :: rest) := by simp
  have h1 : mkBytes a = .ok (.leaf (.bytes a)) := by
    simp only [List.mem_cons, List.not_mem_nil, or_false] at ha
    rcases ha with rfl | rfl | rfl | rfl | rfl <;> rfl
  have h2 : a < 2147483648 := by
    simp only [List.mem_cons, List.not_mem_nil, or_false] at ha; omega
  simp only [regArgs, bytesArgs, s_lb, s_rb, s_eq, e2, expect1 (a := 91) _ rfl (by decide), Res.bind_ok, expect_align,
    expect1 (a := 61) _ rfl (by decide), expectNumber_dec a (93 :: rest) (digBound rfl), expect1 (a := 93) rest rfl (by decide),
    atoi_dec h2, h1, Res.pure_eq]

theorem mkFixedBytes_ok {n a : Nat} (ha : a ∈ [1, 2, 4, 8, 16]) (hd : a ∣ n) (hl : a ≤ n) :
    mkFixedBytes n a = .ok (.leaf (.fixedBytes n a)) := by
  have h1 : smallPow2 a = true := by
    simp only [List.mem_cons, List.not_mem_nil, or_false] at ha
    rcases ha with rfl | rfl | rfl | rfl | rfl <;> rfl
  rw [mkFixedBytes, if_neg (by omega), h1]
  simp [Nat.mod_eq_zero_of_dvd hd]

theorem DsNT.fixedBytes {n a : Nat} (ha : a ∈ [1, 2, 4, 8, 16]) (hd : a ∣ n) (hl : a ≤ n) (hn : n < 2 ^ 31) :
    DsNT (.leaf (.fixedBytes n a))
      (str "fixed_bytes[" ++ decDigits n ++ (if a ≠ 1 then str ", align=" ++ decDigits a else []) ++ str "]") := by
  by_cases h1 : a = 1
  · subst h1
    have e : str "fixed_bytes[" ++ decDigits n ++ (if (1 : Nat) ≠ 1 then str ", align=" ++ decDigits 1 else []) ++ str "]"
        = str "fixed_bytes" ++ 91 :: (decDigits n ++ [93]) := by
      rw [s_rb]; simp [str]
    rw [e]
    refine nt_args (r := .fixedBytes) (by decide) (by decide) (by decide) rfl rfl ?_
    intro f rest hf hr
    have e2 : decDigits n ++ [93] ++ rest = decDigits n ++ 93 :: rest := by simp
    simp only [regArgs, fixedBytesArgs, s_lb, s_rb, e2, expect1 (a := 91) _ rfl (by decide), Res.bind_ok,
      expectNumber_dec n (93 :: rest) (digBound rfl), tok1 (a := 93) rest rfl (by decide), atoi_dec (k := n) (by omega),
      mkFixedBytes_ok ha hd hl, Res.pure_eq]
  · have e : str "fixed_bytes[" ++ decDigits n ++ (if a ≠ 1 then str ", align=" ++ decDigits a else []) ++ str "]"
        = str "fixed_bytes" ++ 91 :: (decDigits n ++ (44 :: 32 :: 97 :: 108 :: 105 :: 103 :: 110 :: 61 :: (decDigits a ++ [93]))) := by
      rw [if_pos h1, s_rb, s_calign]; simp [str]
    rw [e]
    refine nt_args (r := .fixedBytes) (by decide) (by decide) (by decide) rfl rfl ?_
    intro f rest hf hr
    have e2 : decDigits n ++ (44 :: 32 :: 97 :: 108 :: 105 :: 103 :: 110 :: 61 :: (decDigits a ++ [93])) ++ rest
        = decDigits n ++ 44 :: (32 :: 97 :: 108 :: 105 :: 103 :: 110 :: 61 :: (decDigits a ++ 93 :: rest)) := by simp
    have e3 : ∀ s, tok [93] (44 :: s) = none := fun s => tok_miss rfl (by decide) (by decide)
    have e4 : ∀ s, expect (str "align") (32 :: 97 :: 108 :: 105 :: 103 :: 110 :: s) = .ok s := by
      intro s
      rw [← expect_align s, expect, tok_sp]; rfl
    have h2 : a < 2147483648 := by
      simp only [List.mem_cons, List.not_mem_nil, or_false] at ha; omega
    simp only [regArgs, fixedBytesArgs, s_lb, s_rb, s_comma, s_eq, e2, expect1 (a := 91) _ rfl (by decide), Res.bind_ok,
      expectNumber_dec n (44 :: _) (digBound rfl), e3, expect1 (a := 44) _ rfl (by decide), e4,
      expect1 (a := 61) _ rfl (by decide), expectNumber_dec a (93 :: rest) (digBound rfl),
      expect1 (a := 93) rest rfl (by decide), atoi_dec (k := n) (by omega), atoi_dec h2,
      mkFixedBytes_ok ha hd hl, Res.pure_eq]

theorem dsQuotedLoop_plain {q : Nat} (v s : List Nat) (fuel : Nat) (hf : v.length < fuel)
    (hq : q ≠ 92) (hv : ∀ c ∈ v, c ≠ 92 ∧ c ≠ q) : dsQuotedLoop q fuel (v ++ q :: s) = .ok (v, s) := by
  induction v generalizing fuel with
  | nil =>
    cases fuel with
    | zero => simp at hf
    | succ f => simp [dsQuotedLoop, hq]
  | cons c v ih =>
    cases fuel with
    | zero => simp at hf
    | succ f =>
      have hc := hv c (by simp)
      have := ih f (by simp at hf; omega) (fun d hd => hv d (by simp [hd]))
      simp [dsQuotedLoop, hc.1, hc.2, this]

theorem encArg_ok {e : Nat} (he : e < 5) (s : List Nat) : encArg (39 :: (encText e ++ 39 :: s)) = .ok (e, s) := by
  have hv : ∀ c ∈ encText e, c ≠ 92 ∧ c ≠ 39 := by
    interval_cases e <;> decide
  have h1 : dsQuotedLoop 39 (encText e ++ 39 :: s).length (encText e ++ 39 :: s) = .ok (encText e, s) :=
    dsQuotedLoop_plain _ _ _ (by simp) (by decide) hv
  have h2 : encOf (encText e) = .ok e := by
    interval_cases e <;> rfl
  rw [encArg, skipWs_nonws rfl (by decide), dsQuoted]
  simp only [h1, Res.bind_ok, Res.pure_eq, h2]

theorem encArg_sp (s : List Nat) : encArg (32 :: s) = encArg s := by
  rw [encArg, skipWs_sp]; rfl

theorem skipWs_dec (k : Nat) (b : List Nat) : skipWs (decDigits k ++ b) = decDigits k ++ b := by
  obtain ⟨c, r, h, hc⟩ := dec_head k
  rw [h, List.cons_append, skipWs_nonws (isSpace_false (by omega)) (by omega)]

theorem DsNT.fixedString {n e : Nat} (hn : 0 < n) (hn2 : n < 2 ^ 31) (he : e < 5) :
    DsNT (.leaf (.fixedString n e))
      (str "fixed_string[" ++ decDigits n ++ (if e ≠ 2 then str ", '" ++ encText e ++ str "'" else []) ++ str "]") := by
  by_cases h1 : e = 2
  · subst h1
    have e1 : str "fixed_string[" ++ decDigits n ++ (if (2 : Nat) ≠ 2 then str ", '" ++ encText 2 ++ str "'" else []) ++ str "]"
        = str "fixed_string" ++ 91 :: (decDigits n ++ [93]) := by
      rw [s_rb]; simp [str]
    rw [e1]
    refine nt_args (r := .fixedString) (by decide) (by decide) (by decide) rfl rfl ?_
    intro f rest hf hr
    have e2 : decDigits n ++ [93] ++ rest = decDigits n ++ 93 :: rest := by simp
    have e3 : ∀ s, tok [44] (93 :: s) = none := fun s => tok_miss rfl (by decide) (by decide)
    simp only [regArgs, fixedStringArgs, s_lb, s_rb, s_comma, e2, expect1 (a := 91) _ rfl (by decide), Res.bind_ok,
      skipWs_dec, scanUInt_dec n (93 :: rest) (digBound rfl), atoi_dec (k := n) (by omega), if_neg (show ¬ n = 0 by omega), e3,
      expect1 (a := 93) rest rfl (by decide), Res.pure_eq]
  · have e1 : str "fixed_string[" ++ decDigits n ++ (if e ≠ 2 then str ", '" ++ encText e ++ str "'" else []) ++ str "]"
        = str "fixed_string" ++ 91 :: (decDigits n ++ (44 :: 32 :: 39 :: (encText e ++ [39, 93]))) := by
      rw [if_pos h1, s_rb, s_cq, s_sq]; simp [str]
    rw [e1]
    refine nt_args (r := .fixedString) (by decide) (by decide) (by decide) rfl rfl ?_
    intro f rest hf hr
    have e2 : decDigits n ++ (44 :: 32 :: 39 :: (encText e ++ [39, 93])) ++ rest
        = decDigits n ++ 44 :: (32 :: 39 :: (encText e ++ 39 :: 93 :: rest)) := by simp
    simp only [regArgs, fixedStringArgs, s_lb, s_rb, s_comma, e2, expect1 (a := 91) _ rfl (by decide), Res.bind_ok,
      skipWs_dec, scanUInt_dec n (44 :: _) (digBound rfl), atoi_dec (k := n) (by omega), if_neg (show ¬ n = 0 by omega),
      tok1 (a := 44) _ rfl (by decide), encArg_sp, encArg_ok he,
      expect1 (a := 93) rest rfl (by decide), Res.pure_eq]

theorem DsNT.charEnc {e : Nat} (he : e ∈ [0, 1, 4]) : DsNT (.leaf (.char e)) (str "char" ++ (str "['" ++ encText e ++ str "']")) := by
  have he5 : e < 5 := by simp only [List.mem_cons, List.not_mem_nil, or_false] at he; omega
  have e1 : str "char" ++ (str "['" ++ encText e ++ str "']") = str "char" ++ 91 :: (39 :: (encText e ++ [39, 93])) := by
    rw [s_bq, s_qb]; simp
  rw [e1]
  refine nt_args (r := .char) (by decide) (by decide) (by decide) rfl rfl ?_
  intro f rest hf hr
  have e2 : 39 :: (encText e ++ [39, 93]) ++ rest = 39 :: (encText e ++ 39 :: 93 :: rest) := by simp
  have h1 : mkChar e = .ok (.leaf (.char e)) := by
    simp only [List.mem_cons, List.not_mem_nil, or_false] at he
    rw [mkChar, if_pos he]
  simp only [regArgs, charArgs, s_lb, s_rb, e2, expect1 (a := 91) _ rfl (by decide), Res.bind_ok, encArg_ok he5,
    expect1 (a := 93) rest rfl (by decide), h1, Res.pure_eq]

theorem DsNT.leaf {l : LeafTy} (h : Describable (.leaf l)) : ∃ x, leafText l = .ok x ∧ DsNT (.leaf l) x := by
  cases l with
  | bytes a =>
    refine ⟨_, rfl, ?_⟩
    by_cases h1 : a = 1
    · subst h1; exact nt_single (by decide) (by decide) (by decide) rfl rfl (fun _ => rfl)
    · rw [if_pos h1]; exact DsNT.bytesAlign (by simpa only [Describable] using h)
  | fixedBytes n a =>
    simp only [Describable] at h
    exact ⟨_, rfl, DsNT.fixedBytes h.1 h.2.1 h.2.2.1 h.2.2.2⟩
  | string => exact ⟨_, rfl, nt_single (by decide) (by decide) (by decide) rfl rfl (fun _ => rfl)⟩
  | fixedString n e =>
    simp only [Describable] at h
    exact ⟨_, rfl, DsNT.fixedString h.1 h.2.1 h.2.2⟩
  | char e =>
    refine ⟨_, rfl, ?_⟩
    by_cases h1 : e = 4
    · subst h1; exact nt_single (by decide) (by decide) (by decide) rfl rfl (fun _ => rfl)
    · rw [if_pos h1]; exact DsNT.charEnc (by simpa only [Describable] using h)
  | typeT => exact ⟨_, rfl, nt_single (by decide) (by decide) (by decide) rfl rfl (fun _ => rfl)⟩
  | categorical i => simp only [Describable] at h

/-! ### Items in brackets -/

/-- texts separated by `, ` -/
def joinC : List (List Nat) → List Nat
  | [] => []
  | [x] => x
  | x :: y :: r => x ++ 44 :: 32 :: joinC (y :: r)

theorem joinC_length {xs : List (List Nat)} (h : ∀ x ∈ xs, x ≠ []) : xs.length ≤ (joinC xs).length := by
  induction xs with
  | nil => simp
  | cons x xs ih =>
    have hx : 0 < x.length := List.length_pos_iff.2 (h x (by simp))
    cases xs with
    | nil => simp [joinC]; omega
    | cons y r =>
      have := ih (fun z hz => h z (by simp only [List.mem_cons] at hz ⊢; tauto))
      simp only [joinC, List.length_append, List.length_cons] at this ⊢
      omega

theorem joinC_mem_length {xs : List (List Nat)} : ∀ x ∈ xs, x.length ≤ (joinC xs).length := by
  induction xs with
  | nil => simp
  | cons x xs ih =>
    intro z hz
    cases xs with
    | nil => simp at hz; subst hz; simp [joinC]
    | cons y r =>
      simp only [joinC, List.length_append, List.length_cons]
      rcases List.mem_cons.1 hz with rfl | hz
      · omega
      · have := ih z hz; omega

/-- optional space -/
def DsSp (p : List Nat) : Prop := p = [] ∨ p = [32]
theorem sp_tok {p : List Nat} (hp : DsSp p) (t s : List Nat) : tok t (p ++ s) = tok t s := by
  rcases hp with rfl | rfl
  · rfl
  · exact tok_sp t s
theorem sp_skip {p : List Nat} (hp : DsSp p) (s : List Nat) : skipWs (p ++ s) = skipWs s := by
  rcases hp with rfl | rfl
  · rfl
  · exact skipWs_sp s
theorem sp_parse {p : List Nat} (hp : DsSp p) (f : Nat) (s : List Nat) : parseTy f (p ++ s) = parseTy f s := by
  rcases hp with rfl | rfl
  · rfl
  · exact parseTy_sp f s
theorem sp_kwd {p : List Nat} (hp : DsSp p) {s : List Nat} (h : kwdAhead s = none) : kwdAhead (p ++ s) = none := by
  rcases hp with rfl | rfl
  · exact h
  · unfold kwdAhead at h ⊢
    rw [List.singleton_append, tok_sp]
    cases h1 : tok (str "...") s with
    | none =>
      simp only [h1] at h ⊢
      rw [skipWs_sp]
      cases h2 : scanName (skipWs s) with
      | none => rfl
      | some q =>
        simp only [h2] at h ⊢
        cases h3 : tok (str ":") q.2 with
        | none => rfl
        | some _ => simp only [h3] at h; cases h
    | some s1 =>
      simp only [h1] at h ⊢
      cases h4 : tok (str ",") s1 with
      | some s2 => simp only [h4] at h ⊢; exact h
      | none =>
        simp only [h4] at h ⊢
        cases h2 : scanName (skipWs s1) with
        | none => rfl
        | some q =>
          simp only [h2] at h ⊢
          cases h3 : tok (str ":") q.2 with
          | none => rfl
          | some _ => simp only [h3] at h; cases h

theorem follow_comma (s : List Nat) : DsFollow (44 :: s) := Or.inr ⟨44, s, rfl, by omega⟩
theorem follow_rp (s : List Nat) : DsFollow (41 :: s) := Or.inr ⟨41, s, rfl, by omega⟩
theorem follow_rc (s : List Nat) : DsFollow (125 :: s) := Or.inr ⟨125, s, rfl, by omega⟩

/-- one positional item and the closing bracket -/
theorem item_last {t : Ty} {x p : List Nat} (h : DsRT t x) (hp : DsSp p) (f k : Nat) (rest : List Nat) (hf : x.length ≤ f) :
    dsItems (parseTy f) (k + 1) (p ++ (x ++ 41 :: rest)) = .ok ([t], false, none, rest) := by
  obtain ⟨a1, a2⟩ := h.ahead (41 :: rest) (follow_rp rest)
  have e1 : tok [44] (41 :: rest) = none := tok_miss rfl (by decide) (by decide)
  rw [dsItems, sp_kwd hp a1]
  simp only [s_dots, s_rp, s_comma, sp_tok hp, a2, sp_parse hp, need, h.parse f (41 :: rest) hf (follow_rp rest), Res.bind_ok, Res.pure_eq,
    e1, expect1 (a := 41) rest rfl (by decide)]

/-- one positional item, a comma, and more -/
theorem item_cons {t : Ty} {x p : List Nat} (h : DsRT t x) (hp : DsSp p) (f k : Nat) (T : List Nat) (hf : x.length ≤ f)
    (hT : tok [41] T = none) {ts : List Ty} {v : Bool} {kw : Option Ty} {rest : List Nat}
    (hr : dsItems (parseTy f) k T = .ok (ts, v, kw, rest)) :
    dsItems (parseTy f) (k + 1) (p ++ (x ++ 44 :: T)) = .ok (t :: ts, v, kw, rest) := by
  obtain ⟨a1, a2⟩ := h.ahead (44 :: T) (follow_comma T)
  rw [dsItems, sp_kwd hp a1]
  simp only [s_dots, s_rp, s_comma, sp_tok hp, a2, sp_parse hp, need, h.parse f (44 :: T) hf (follow_comma T), Res.bind_ok, Res.pure_eq,
    tok1 (a := 44) T rfl (by decide), hT, hr]

theorem joinC_append {x : List Nat} {xs : List (List Nat)} (hxs : xs ≠ []) (s : List Nat) :
    joinC (x :: xs) ++ s = x ++ 44 :: ([32] ++ (joinC xs ++ s)) := by
  cases xs with
  | nil => exact absurd rfl hxs
  | cons y r => simp [joinC]

theorem tok_join {c : Nat} {xs : List (List Nat)} (hx : ∀ x ∈ xs, ∃ d r, x = d :: r ∧ isSpace d = false ∧ d ≠ 35 ∧ d ≠ c)
    (hxs : xs ≠ []) (s : List Nat) : tok [c] (joinC xs ++ s) = none := by
  cases xs with
  | nil => exact absurd rfl hxs
  | cons x r =>
    obtain ⟨d, r', rfl, h1, h2, h3⟩ := hx x (by simp)
    cases r with
    | nil => exact tok_miss h1 h2 (Ne.symm h3)
    | cons y r => exact tok_miss h1 h2 (Ne.symm h3)

theorem rt_hd_all {ts : List Ty} {xs : List (List Nat)} (h : List.Forall₂ DsRT ts xs) :
    ∀ x ∈ xs, ∃ d r, x = d :: r ∧ isSpace d = false ∧ d ≠ 35 ∧ d ≠ 41 := by
  induction h with
  | nil => simp
  | cons h1 _ ih =>
    intro x hx
    rcases List.mem_cons.1 hx with rfl | hx
    · exact h1.hd
    · exact ih x hx

/-- all positional items and the closing bracket -/
theorem items_all {ts : List Ty} {xs : List (List Nat)} (h : List.Forall₂ DsRT ts xs) :
    ∀ (p : List Nat) (f k : Nat) (rest : List Nat), DsSp p → xs ≠ [] → (∀ x ∈ xs, x.length ≤ f) → xs.length ≤ k →
    dsItems (parseTy f) k (p ++ (joinC xs ++ 41 :: rest)) = .ok (ts, false, none, rest) := by
  induction h with
  | nil => intro p f k rest hp h0; exact absurd rfl h0
  | @cons t x ts xs h1 h2 ih =>
    intro p f k rest hp _ hf hk
    cases k with
    | zero => simp at hk
    | succ k =>
      cases h2 with
      | nil => exact item_last h1 hp f k rest (hf x (by simp))
      | @cons t2 x2 ts2 xs2 h3 h4 =>
        rw [joinC_append (by simp)]
        refine item_cons h1 hp f k _ (hf x (by simp)) ?_ (ih [32] f k rest (Or.inr rfl) (by simp)
          (fun z hz => hf z (List.mem_cons_of_mem _ hz)) (by simp at hk ⊢; omega))
        rw [sp_tok (Or.inr rfl)]
        exact tok_join (rt_hd_all (.cons h3 h4)) (by simp) _

/-- all positional items, then something that is not a positional item -/
theorem items_then {ts : List Ty} {xs : List (List Nat)} (h : List.Forall₂ DsRT ts xs) (f : Nat) (T : List Nat)
    (hT : tok [41] T = none) {v : Bool} {kw : Option Ty} {rest : List Nat}
    (hr : ∀ j, dsItems (parseTy f) (j + 1) (32 :: T) = .ok ([], v, kw, rest)) :
    ∀ (p : List Nat) (k : Nat), DsSp p → xs ≠ [] → (∀ x ∈ xs, x.length ≤ f) → xs.length + 1 ≤ k →
    dsItems (parseTy f) k (p ++ (joinC xs ++ 44 :: 32 :: T)) = .ok (ts, v, kw, rest) := by
  induction h with
  | nil => intro p k hp h0; exact absurd rfl h0
  | @cons t x ts xs h1 h2 ih =>
    intro p k hp _ hf hk
    cases k with
    | zero => simp at hk
    | succ k =>
      cases h2 with
      | nil =>
        cases k with
        | zero => simp at hk
        | succ k => exact item_cons h1 hp f (k + 1) _ (hf x (by simp)) (by rw [tok_sp]; exact hT) (hr k)
      | @cons t2 x2 ts2 xs2 h3 h4 =>
        rw [joinC_append (by simp)]
        refine item_cons h1 hp f k _ (hf x (by simp)) ?_ (ih [32] k (Or.inr rfl) (by simp)
          (fun z hz => hf z (List.mem_cons_of_mem _ hz)) (by simp at hk ⊢; omega))
        rw [sp_tok (Or.inr rfl)]
        exact tok_join (rt_hd_all (.cons h3 h4)) (by simp) _

/-- The text `z` is read back as the named item `e`. -/
structure DsFT (q : Bool) (e : String × Ty) (z : List Nat) : Prop where
  hd : ∃ c r, z = c :: r ∧ isSpace c = false ∧ c ≠ 35 ∧ c ≠ 41 ∧ c ≠ 125 ∧ c ≠ 46
  parse : ∀ f rest, z.length ≤ f → DsFollow rest → dsItem (parseTy f) q (z ++ rest) = .ok (some (e, rest))

theorem sp_item {p : List Nat} (hp : DsSp p) (rec : List Nat → PRes) (q : Bool) (s : List Nat) :
    dsItem rec q (p ++ s) = dsItem rec q s := by
  simp only [dsItem, sp_skip hp]

theorem ft_dots {q : Bool} {e : String × Ty} {z : List Nat} (h : DsFT q e z) (s : List Nat) :
    tok [46, 46, 46] (z ++ s) = none := by
  obtain ⟨c, r, rfl, h1, h2, _, _, h5⟩ := h.hd
  exact tok_miss h1 h2 (Ne.symm h5)

theorem field_last {q : Bool} {c : Nat} (hc : c = 41 ∨ c = 125) {e : String × Ty} {z p : List Nat} (h : DsFT q e z) (hp : DsSp p)
    (f k : Nat) (rest : List Nat) (hf : z.length ≤ f) :
    dsFields (parseTy f) q [c] (k + 1) (p ++ (z ++ c :: rest)) = .ok ([e], false, rest) := by
  have hfol : DsFollow (c :: rest) := Or.inr ⟨c, rest, rfl, by omega⟩
  have e1 : tok [44] (c :: rest) = none := by
    refine tok_miss ?_ (by omega) (by omega)
    exact isSpace_false (by omega)
  have e2 : expect [c] (c :: rest) = .ok rest := expect1 rest (isSpace_false (by omega)) (by omega)
  rw [dsFields]
  simp only [s_dots, s_comma, sp_tok hp, ft_dots h, sp_item hp, h.parse f (c :: rest) hf hfol, Res.bind_ok, e1, e2, Res.pure_eq]

theorem field_cons {q : Bool} {c : Nat} {e : String × Ty} {z p : List Nat} (h : DsFT q e z) (hp : DsSp p)
    (f k : Nat) (T : List Nat) (hf : z.length ≤ f) (hT : tok [c] T = none) {es : List (String × Ty)} {v : Bool} {rest : List Nat}
    (hr : dsFields (parseTy f) q [c] k T = .ok (es, v, rest)) :
    dsFields (parseTy f) q [c] (k + 1) (p ++ (z ++ 44 :: T)) = .ok (e :: es, v, rest) := by
  rw [dsFields]
  simp only [s_dots, s_comma, sp_tok hp, ft_dots h, sp_item hp, h.parse f (44 :: T) hf (follow_comma T), Res.bind_ok,
    tok1 (a := 44) T rfl (by decide), hT, hr, Res.pure_eq]

theorem field_dots {q : Bool} {c : Nat} (hc : c = 41 ∨ c = 125) (f k : Nat) (rest : List Nat) :
    dsFields (parseTy f) q [c] (k + 1) (32 :: 46 :: 46 :: 46 :: c :: rest) = .ok ([], true, rest) := by
  have e1 : tok [46, 46, 46] (32 :: 46 :: 46 :: 46 :: c :: rest) = some (c :: rest) := by
    rw [tok_sp]; exact tok_hit (t := [46, 46]) rfl (by decide)
  have e2 : expect [c] (c :: rest) = .ok rest := expect1 rest (isSpace_false (by omega)) (by omega)
  rw [dsFields]
  simp only [s_dots, e1, e2, Res.bind_ok, Res.pure_eq]

theorem ft_hd_all {q : Bool} {c : Nat} (hc : c = 41 ∨ c = 125) {es : List (String × Ty)} {zs : List (List Nat)}
    (h : List.Forall₂ (DsFT q) es zs) : ∀ z ∈ zs, ∃ d r, z = d :: r ∧ isSpace d = false ∧ d ≠ 35 ∧ d ≠ c := by
  induction h with
  | nil => simp
  | cons h1 _ ih =>
    intro x hx
    rcases List.mem_cons.1 hx with rfl | hx
    · obtain ⟨d, r, e, g1, g2, g3, g4, _⟩ := h1.hd
      exact ⟨d, r, e, g1, g2, by omega⟩
    · exact ih x hx

/-- all named items, with or without `, ...`, and the closing bracket -/
theorem fields_all {q : Bool} {c : Nat} (hc : c = 41 ∨ c = 125) (v : Bool) {es : List (String × Ty)} {zs : List (List Nat)}
    (h : List.Forall₂ (DsFT q) es zs) :
    ∀ (p : List Nat) (f k : Nat) (rest : List Nat), DsSp p → zs ≠ [] → (∀ z ∈ zs, z.length ≤ f) → zs.length + 1 ≤ k →
    dsFields (parseTy f) q [c] k (p ++ (joinC zs ++ ((if v then [44, 32, 46, 46, 46] else []) ++ c :: rest))) = .ok (es, v, rest) := by
  induction h with
  | nil => intro p f k rest hp h0; exact absurd rfl h0
  | @cons e z es zs h1 h2 ih =>
    intro p f k rest hp _ hf hk
    cases k with
    | zero => simp at hk
    | succ k =>
      cases h2 with
      | nil =>
        cases v with
        | false => exact field_last hc h1 hp f k rest (hf z (by simp))
        | true =>
          cases k with
          | zero => simp at hk
          | succ k =>
            refine field_cons h1 hp f (k + 1) _ (hf z (by simp)) ?_ (field_dots hc f k rest)
            show tok [c] (32 :: 46 :: 46 :: 46 :: c :: rest) = none
            rw [tok_sp]; exact tok_miss rfl (by decide) (by omega)
      | @cons t2 x2 ts2 xs2 h3 h4 =>
        rw [joinC_append (by simp)]
        refine field_cons h1 hp f k _ (hf z (by simp)) ?_ (ih [32] f k rest (Or.inr rfl) (by simp)
          (fun z hz => hf z (List.mem_cons_of_mem _ hz)) (by simp at hk ⊢; omega))
        rw [sp_tok (Or.inr rfl)]
        exact tok_join (ft_hd_all hc (.cons h3 h4)) (by simp) _

/-- a named item whose name is an identifier -/
theorem DsFT.bare {q : Bool} {nm : String} {t : Ty} {x : List Nat} (hn : simpleName (str nm) = true) (h : DsRT t x) :
    DsFT q (nm, t) (str nm ++ 58 :: 32 :: x) := by
  obtain ⟨c, r, e, hc⟩ := name_head hn
  refine ⟨⟨c, r ++ 58 :: 32 :: x, by rw [e]; rfl, isSpace_false (by omega), by omega, by omega, by omega, by omega⟩, ?_⟩
  intro f rest hf hr
  have e0 : str nm ++ 58 :: 32 :: x ++ rest = str nm ++ 58 :: 32 :: (x ++ rest) := by simp
  have e1 : skipWs (str nm ++ 58 :: 32 :: (x ++ rest)) = str nm ++ 58 :: 32 :: (x ++ rest) := by
    rw [e, List.cons_append, skipWs_nonws (isSpace_false (by omega)) (by omega)]
  have e2 := scanName_simple (b := 58 :: 32 :: (x ++ rest)) hn (bound_cons rfl)
  rw [dsItem, e0]
  simp only [e1, e2, Res.bind_ok, s_colon, expect1 (a := 58) _ rfl (by decide), need, parseTy_sp,
    h.parse f rest (by simp at hf; omega) hr, Res.pure_eq, ofBytes_str]

/-- a named item whose name is quoted -/
theorem DsFT.quoted {nm : String} {t : Ty} {x lit : List Nat} (hq : ∃ r, lit = 39 :: r)
    (hl : ∀ rest, dsQuoted (lit ++ rest) = .ok (some (str nm, rest))) (h : DsRT t x) : DsFT true (nm, t) (lit ++ 58 :: 32 :: x) := by
  obtain ⟨r, rfl⟩ := hq
  refine ⟨⟨39, r ++ 58 :: 32 :: x, rfl, rfl, by omega, by omega, by omega, by omega⟩, ?_⟩
  intro f rest hf hr
  have e0 : 39 :: r ++ 58 :: 32 :: x ++ rest = 39 :: (r ++ 58 :: 32 :: (x ++ rest)) := by simp
  have e1 : skipWs (39 :: (r ++ 58 :: 32 :: (x ++ rest))) = 39 :: (r ++ 58 :: 32 :: (x ++ rest)) := skipWs_nonws rfl (by decide)
  have e2 : scanName (39 :: (r ++ 58 :: 32 :: (x ++ rest))) = none := rfl
  have e3 : dsQuoted (39 :: (r ++ 58 :: 32 :: (x ++ rest))) = .ok (some (str nm, 58 :: 32 :: (x ++ rest))) := hl _
  rw [dsItem, e0]
  simp only [e1, e2, if_true, e3, Res.bind_ok, s_colon, expect1 (a := 58) _ rfl (by decide), need, parseTy_sp,
    h.parse f rest (by simp at hf; omega) hr, Res.pure_eq, ofBytes_str]

theorem DsFT.name {nm : String} (hb : BmpName nm) :
    ∃ y, nameText nm = .ok y ∧ ∀ {t : Ty} {x : List Nat}, DsRT t x → DsFT true (nm, t) (y ++ 58 :: 32 :: x) := by
  by_cases hs : simpleName (str nm) = true
  · exact ⟨str nm, by rw [nameText, if_pos hs], fun h => DsFT.bare hs h⟩
  · obtain ⟨cps, h1, h2⟩ := hb
    have h0 := escaped_datashape_roundtrip_partial true cps (str nm)
    obtain ⟨lit, hl, _⟩ := h0 [] h1 h2
    refine ⟨lit, by rw [nameText, if_neg hs, hl], fun h => DsFT.quoted ?_ ?_ h⟩
    · simp only [printEscapedUtf8, if_true] at hl
      rw [Res.bind_eq_ok] at hl
      obtain ⟨b, _, hb⟩ := hl
      simp only [Res.pure_eq, Res.ok.injEq] at hb
      exact ⟨_, hb.symm⟩
    · intro rest
      obtain ⟨lit', hl', h'⟩ := h0 rest h1 h2
      rw [hl] at hl'
      obtain rfl := Res.ok.inj hl'
      exact h'

/-- A keyword item: its name is an identifier. -/
structure DsKT (e : String × Ty) (z : List Nat) : Prop where
  ft : DsFT false e z
  nm : ∃ n w, simpleName n = true ∧ z = n ++ 58 :: w

theorem kt_ft {es : List (String × Ty)} {zs : List (List Nat)} (h : List.Forall₂ DsKT es zs) :
    List.Forall₂ (DsFT false) es zs := h.imp (fun _ _ g => g.ft)

theorem join_head {zs : List (List Nat)} {es : List (String × Ty)} (h : List.Forall₂ DsKT es zs) (hz : zs ≠ []) :
    ∃ n w, simpleName n = true ∧ joinC zs = n ++ 58 :: w := by
  cases h with
  | nil => exact absurd rfl hz
  | cons h1 h2 =>
    obtain ⟨n, w, hn, rfl⟩ := h1.nm
    cases h2 with
    | nil => exact ⟨n, w, hn, rfl⟩
    | cons h3 h4 => exact ⟨n, _, hn, by rw [joinC, List.append_assoc, List.cons_append]⟩

theorem kwd_scan {n w : List Nat} (hn : simpleName n = true) :
    skipWs (n ++ 58 :: w) = n ++ 58 :: w ∧ scanName (n ++ 58 :: w) = some (n, 58 :: w) ∧ tok [46, 46, 46] (n ++ 58 :: w) = none
      ∧ tok [41] (n ++ 58 :: w) = none := by
  have h := scanName_simple (b := 58 :: w) hn (bound_cons rfl)
  obtain ⟨c, r, rfl, hc⟩ := name_head hn
  have h1 : isSpace c = false := isSpace_false (by omega)
  exact ⟨skipWs_nonws h1 (by omega), h, tok_miss h1 (by omega) (by omega), tok_miss h1 (by omega) (by omega)⟩

theorem kwdAhead_kw {p n w : List Nat} (hp : DsSp p) (hn : simpleName n = true) :
    kwdAhead (p ++ (n ++ 58 :: w)) = some (false, p ++ (n ++ 58 :: w)) := by
  obtain ⟨h1, h2, h3, _⟩ := kwd_scan (w := w) hn
  unfold kwdAhead
  rw [s_dots, sp_tok hp, h3]
  simp only [sp_skip hp, h1, h2, s_colon, tok1 (a := 58) w rfl (by decide)]

theorem kwdAhead_dots {p n w : List Nat} (hp : DsSp p) (hn : simpleName n = true) :
    kwdAhead (p ++ (46 :: 46 :: 46 :: 44 :: 32 :: (n ++ 58 :: w))) = some (true, 32 :: (n ++ 58 :: w)) := by
  obtain ⟨h1, h2, h3, _⟩ := kwd_scan (w := w) hn
  have e : tok [46, 46, 46] (46 :: 46 :: 46 :: 44 :: 32 :: (n ++ 58 :: w)) = some (44 :: 32 :: (n ++ 58 :: w)) :=
    tok_hit (t := [46, 46]) rfl (by decide)
  unfold kwdAhead
  rw [s_dots, sp_tok hp, e, s_comma]
  simp only [tok1 (a := 44) _ rfl (by decide), skipWs_sp, h1, h2, s_colon, tok1 (a := 58) w rfl (by decide)]

/-- the closing of the keyword part -/
def kwEnd (kv : Bool) : List Nat := if kv then [44, 32, 46, 46, 46] else []

theorem tail_kw {es : List (String × Ty)} {zs : List (List Nat)} (h : List.Forall₂ DsKT es zs) (hz : zs ≠ []) (kv : Bool)
    (f j : Nat) (p rest : List Nat) (hp : DsSp p) (hf : ∀ z ∈ zs, z.length ≤ f) :
    dsItems (parseTy f) (j + 1) (p ++ (joinC zs ++ (kwEnd kv ++ 41 :: rest)))
      = .ok ([], false, some (mkStruct es kv), rest) := by
  have hall := fields_all (c := 41) (Or.inl rfl) kv (kt_ft h) p f ((p ++ (joinC zs ++ (kwEnd kv ++ 41 :: rest))).length + 1) rest
    hp hz hf (by
      have := joinC_length (xs := zs) (fun z hz' => by
        obtain ⟨d, r, rfl, _⟩ := ft_hd_all (c := 41) (Or.inl rfl) (kt_ft h) z hz'; simp)
      simp only [List.length_append]; omega)
  have ha : kwdAhead (p ++ (joinC zs ++ (kwEnd kv ++ 41 :: rest))) = some (false, p ++ (joinC zs ++ (kwEnd kv ++ 41 :: rest))) := by
    obtain ⟨n, w, hn, e⟩ := join_head h hz
    rw [e, List.append_assoc, List.cons_append]
    exact kwdAhead_kw hp hn
  rw [dsItems, ha]
  rw [← kwEnd] at hall
  simp only [s_rp, hall, Res.bind_ok, Res.pure_eq]

theorem tail_dkw {es : List (String × Ty)} {zs : List (List Nat)} (h : List.Forall₂ DsKT es zs) (hz : zs ≠ []) (kv : Bool)
    (f j : Nat) (p rest : List Nat) (hp : DsSp p) (hf : ∀ z ∈ zs, z.length ≤ f) :
    dsItems (parseTy f) (j + 1) (p ++ (46 :: 46 :: 46 :: 44 :: 32 :: (joinC zs ++ (kwEnd kv ++ 41 :: rest))))
      = .ok ([], true, some (mkStruct es kv), rest) := by
  have hall := fields_all (c := 41) (Or.inl rfl) kv (kt_ft h) [32] f ((32 :: (joinC zs ++ (kwEnd kv ++ 41 :: rest))).length + 1) rest
    (Or.inr rfl) hz hf (by
      have := joinC_length (xs := zs) (fun z hz' => by
        obtain ⟨d, r, rfl, _⟩ := ft_hd_all (c := 41) (Or.inl rfl) (kt_ft h) z hz'; simp)
      simp only [List.length_cons, List.length_append]; omega)
  have ha : kwdAhead (p ++ (46 :: 46 :: 46 :: 44 :: 32 :: (joinC zs ++ (kwEnd kv ++ 41 :: rest))))
      = some (true, 32 :: (joinC zs ++ (kwEnd kv ++ 41 :: rest))) := by
    obtain ⟨n, w, hn, e⟩ := join_head h hz
    rw [e, List.append_assoc, List.cons_append]
    exact kwdAhead_dots hp hn
  rw [dsItems, ha]
  rw [← kwEnd, List.singleton_append] at hall
  simp only [s_rp, hall, Res.bind_ok, Res.pure_eq]

theorem tail_dots (f j : Nat) (p rest : List Nat) (hp : DsSp p) :
    dsItems (parseTy f) (j + 1) (p ++ (46 :: 46 :: 46 :: 41 :: rest)) = .ok ([], true, none, rest) := by
  have e : tok [46, 46, 46] (46 :: 46 :: 46 :: 41 :: rest) = some (41 :: rest) := tok_hit (t := [46, 46]) rfl (by decide)
  have e2 : tok [44] (41 :: rest) = none := tok_miss rfl (by decide) (by decide)
  have ha : kwdAhead (p ++ (46 :: 46 :: 46 :: 41 :: rest)) = none := by
    apply sp_kwd hp
    unfold kwdAhead
    rw [s_dots, e, s_comma]
    simp only [e2, skipWs_nonws (c := 41) rfl (by decide)]
    rfl
  rw [dsItems, ha]
  simp only [s_dots, s_rp, sp_tok hp, e, Option.bind_some, tok1 (a := 41) rest rfl (by decide)]

/-- the text between the parentheses of a tuple or a callable -/
def bodyText (xs : List (List Nat)) (pv : Bool) (zs : List (List Nat)) (kv : Bool) : List Nat :=
  joinC xs ++ (if pv then (if xs.isEmpty then [46, 46, 46] else [44, 32, 46, 46, 46]) else [])
    ++ (if zs.isEmpty then [] else (if !xs.isEmpty || pv then [44, 32] else []) ++ joinC zs)
    ++ (if !zs.isEmpty && kv then [44, 32, 46, 46, 46] else [])

theorem rt_ne {ts : List Ty} {xs : List (List Nat)} (h : List.Forall₂ DsRT ts xs) : ∀ x ∈ xs, x ≠ [] := by
  intro x hx
  obtain ⟨d, r, rfl, _⟩ := rt_hd_all h x hx
  simp

theorem forall2_nil {α β : Type} {R : α → β → Prop} {a : List α} (h : List.Forall₂ R a []) : a = [] := by
  cases h; rfl

theorem body_parse {ps : List Ty} {xs : List (List Nat)} {es : List (String × Ty)} {zs : List (List Nat)}
    (h : List.Forall₂ DsRT ps xs) (hk : List.Forall₂ DsKT es zs) (pv kv : Bool) (f : Nat) (rest : List Nat)
    (hf : (bodyText xs pv zs kv).length ≤ f) :
    (match tok [41] (bodyText xs pv zs kv ++ 41 :: rest) with
      | some s => Res.ok (([] : List Ty), false, (none : Option Ty), s)
      | none => dsItems (parseTy f) ((bodyText xs pv zs kv ++ 41 :: rest).length + 1) (bodyText xs pv zs kv ++ 41 :: rest))
      = .ok (ps, pv, if zs.isEmpty then none else some (mkStruct es kv), rest) := by
  have hfx : ∀ x ∈ xs, x.length ≤ f := by
    intro x hx
    have := joinC_mem_length x hx
    simp only [bodyText, List.length_append] at hf
    omega
  have hlx : xs.length ≤ (joinC xs).length := joinC_length (rt_ne h)
  by_cases hx : xs = []
  · subst hx
    obtain rfl := forall2_nil h
    by_cases hz : zs = []
    · subst hz
      cases pv
      · have e : bodyText [] false [] kv ++ 41 :: rest = 41 :: rest := by cases kv <;> rfl
        rw [e, tok1 (a := 41) rest rfl (by decide)]; rfl
      · have e : bodyText [] true [] kv ++ 41 :: rest = [] ++ (46 :: 46 :: 46 :: 41 :: rest) := by cases kv <;> rfl
        have e2 : tok [41] ([] ++ (46 :: 46 :: 46 :: 41 :: rest)) = none := tok_miss rfl (by decide) (by decide)
        rw [e, e2]
        exact tail_dots f _ [] rest (Or.inl rfl)
    · have hze : zs.isEmpty = false := by cases zs with
        | nil => exact absurd rfl hz
        | cons => rfl
      have hfz : ∀ z ∈ zs, z.length ≤ f := by
        intro z hz'
        have := joinC_mem_length z hz'
        simp only [bodyText, List.length_append, hze, Bool.false_eq_true, if_false] at hf
        omega
      obtain ⟨n, w, hn, ej⟩ := join_head hk hz
      rw [hze, if_neg (by decide)]
      cases pv
      · have e : bodyText [] false zs kv ++ 41 :: rest = [] ++ (joinC zs ++ (kwEnd kv ++ 41 :: rest)) := by
          simp [bodyText, joinC, hze, kwEnd]
        have e2 : tok [41] ([] ++ (joinC zs ++ (kwEnd kv ++ 41 :: rest))) = none := by
          rw [ej, List.append_assoc, List.nil_append]; exact (kwd_scan hn).2.2.2
        rw [e, e2]
        exact tail_kw hk hz kv f _ [] rest (Or.inl rfl) hfz
      · have e : bodyText [] true zs kv ++ 41 :: rest = [] ++ (46 :: 46 :: 46 :: 44 :: 32 :: (joinC zs ++ (kwEnd kv ++ 41 :: rest))) := by
          simp [bodyText, joinC, hze, kwEnd]
        have e2 : tok [41] ([] ++ (46 :: 46 :: 46 :: 44 :: 32 :: (joinC zs ++ (kwEnd kv ++ 41 :: rest)))) = none :=
          tok_miss rfl (by decide) (by decide)
        rw [e, e2]
        exact tail_dkw hk hz kv f _ [] rest (Or.inl rfl) hfz
  · have hxe : xs.isEmpty = false := by cases xs with
      | nil => exact absurd rfl hx
      | cons => rfl
    have e2 : ∀ s, tok [41] ([] ++ (joinC xs ++ s)) = none := fun s => tok_join (rt_hd_all h) hx s
    by_cases hz : zs = []
    · subst hz
      obtain rfl := forall2_nil hk
      cases pv
      · have e : bodyText xs false [] kv ++ 41 :: rest = [] ++ (joinC xs ++ 41 :: rest) := by simp [bodyText]
        rw [e, e2]
        exact items_all h [] f _ rest (Or.inl rfl) hx hfx (by simp only [List.length_append, List.nil_append]; omega)
      · have e : bodyText xs true [] kv ++ 41 :: rest = [] ++ (joinC xs ++ 44 :: 32 :: (46 :: 46 :: 46 :: 41 :: rest)) := by
          simp [bodyText, hxe]
        rw [e, e2]
        exact items_then h f _ (tok_miss rfl (by decide) (by decide)) (fun j => tail_dots f j [32] rest (Or.inr rfl)) [] _
          (Or.inl rfl) hx hfx (by simp only [List.length_append, List.nil_append, List.length_cons]; omega)
    · have hze : zs.isEmpty = false := by cases zs with
        | nil => exact absurd rfl hz
        | cons => rfl
      have hfz : ∀ z ∈ zs, z.length ≤ f := by
        intro z hz'
        have := joinC_mem_length z hz'
        simp only [bodyText, List.length_append, hze, Bool.false_eq_true, if_false] at hf
        omega
      obtain ⟨n, w, hn, ej⟩ := join_head hk hz
      rw [hze, if_neg (by decide)]
      cases pv
      · have e : bodyText xs false zs kv ++ 41 :: rest
            = [] ++ (joinC xs ++ 44 :: 32 :: (joinC zs ++ (kwEnd kv ++ 41 :: rest))) := by
          simp [bodyText, hxe, hze, kwEnd]
        rw [e, e2]
        refine items_then h f _ ?_ (fun j => tail_kw hk hz kv f j [32] rest (Or.inr rfl) hfz) [] _
          (Or.inl rfl) hx hfx (by simp only [List.length_append, List.nil_append, List.length_cons]; omega)
        rw [ej, List.append_assoc]; exact (kwd_scan hn).2.2.2
      · have e : bodyText xs true zs kv ++ 41 :: rest
            = [] ++ (joinC xs ++ 44 :: 32 :: (46 :: 46 :: 46 :: 44 :: 32 :: (joinC zs ++ (kwEnd kv ++ 41 :: rest)))) := by
          simp [bodyText, hxe, hze, kwEnd]
        rw [e, e2]
        exact items_then h f _ (tok_miss rfl (by decide) (by decide)) (fun j => tail_dkw hk hz kv f j [32] rest (Or.inr rfl) hfz) [] _
          (Or.inl rfl) hx hfx (by simp only [List.length_append, List.nil_append, List.length_cons]; omega)

theorem noOpt_open {c : Nat} (hc : c = 40 ∨ c = 123) (rec : List Nat → PRes) (s : List Nat) :
    noOpt rec (c :: s) = structOrTuple rec (c :: s) := by
  have h1 : skipWs (c :: s) = c :: s := skipWs_nonws (isSpace_false (by omega)) (by omega)
  have h2 : scanNameOrNum (c :: s) = none := by rcases hc with rfl | rfl <;> rfl
  have h3 : strip [46, 46, 46] (c :: s) = none := by rcases hc with rfl | rfl <;> rfl
  simp only [noOpt, h1, h2, s_dots, h3]

theorem open_hd {c : Nat} (hc : c = 40 ∨ c = 123) (s : List Nat) :
    (∃ d r, c :: s = d :: r ∧ isSpace d = false ∧ d ≠ 35 ∧ d ≠ 41 ∧ d ≠ 63)
      ∧ ∀ rest, kwdAhead (c :: s ++ rest) = none ∧ (tok [46, 46, 46] (c :: s ++ rest)).bind (tok [41]) = none := by
  refine ⟨⟨c, s, rfl, isSpace_false (by omega), by omega, by omega, by omega⟩, fun rest => ?_⟩
  exact ahead_other (isSpace_false (by omega)) (by omega) (by omega) (nameStart_false (by omega))

theorem parseStruct_paren (rec : List Nat → PRes) (s : List Nat) : parseStruct rec (40 :: s) = .ok none := by
  rw [parseStruct, s_lc, tok_miss rfl (by decide) (by decide)]

theorem DsNT.tuple {ts : List Ty} {xs : List (List Nat)} {v : Bool} (h : List.Forall₂ DsRT ts xs) (hv : ts = [] → v = false) :
    DsNT (.tuple ts v) (40 :: (joinC xs ++ (if v then [44, 32, 46, 46, 46, 41] else [41]))) := by
  have e : joinC xs ++ (if v then [44, 32, 46, 46, 46, 41] else [41]) = bodyText xs v [] false ++ [41] := by
    cases v
    · simp [bodyText]
    · cases xs with
      | nil => have := hv (forall2_nil h); simp at this
      | cons => simp [bodyText]
  rw [e]
  refine ⟨(open_hd (Or.inl rfl) _).1, fun rest _ => (open_hd (Or.inl rfl) _).2 rest, ?_⟩
  intro f rest hf hr
  have hb := body_parse h (es := []) (zs := []) .nil v false f rest (by simp at hf; omega)
  have e1 : 40 :: (bodyText xs v [] false ++ [41]) ++ rest = 40 :: (bodyText xs v [] false ++ 41 :: rest) := by simp
  have e2 : tok [45, 62] rest = none := follow_miss hr (by decide)
  rw [e1, noOpt_open (Or.inl rfl), structOrTuple, parseStruct_paren]
  simp only [Res.bind_ok, parseTuple, s_lp, s_rp, tok1 (a := 40) _ rfl (by decide)]
  refine Res.bind_eq_ok.2 ⟨_, hb, ?_⟩
  simp only [s_arrow, e2]
  rfl

theorem DsNT.callable {ps : List Ty} {xs : List (List Nat)} {es : List (String × Ty)} {zs : List (List Nat)} {r : Ty}
    {x : List Nat} (h : List.Forall₂ DsRT ps xs) (hk : List.Forall₂ DsKT es zs) (hx : DsRT r x) (pv kv : Bool) (hv : es = [] → kv = pv) :
    DsNT (.callable r (.tuple ps pv) (mkStruct es kv)) (40 :: (bodyText xs pv zs kv ++ [41, 32, 45, 62, 32] ++ x)) := by
  refine ⟨(open_hd (Or.inl rfl) _).1, fun rest _ => (open_hd (Or.inl rfl) _).2 rest, ?_⟩
  intro f rest hf hr
  have hb := body_parse h hk pv kv f (32 :: 45 :: 62 :: 32 :: (x ++ rest)) (by simp at hf; omega)
  have e1 : 40 :: (bodyText xs pv zs kv ++ [41, 32, 45, 62, 32] ++ x) ++ rest
      = 40 :: (bodyText xs pv zs kv ++ 41 :: (32 :: 45 :: 62 :: 32 :: (x ++ rest))) := by simp
  have e2 : tok [45, 62] (32 :: 45 :: 62 :: 32 :: (x ++ rest)) = some (32 :: (x ++ rest)) := by
    rw [tok_sp]; exact tok_hit (t := [62]) rfl (by decide)
  rw [e1, noOpt_open (Or.inl rfl), structOrTuple, parseStruct_paren]
  simp only [Res.bind_ok, parseTuple, s_lp, s_rp, tok1 (a := 40) _ rfl (by decide)]
  refine Res.bind_eq_ok.2 ⟨_, hb, ?_⟩
  simp only [Res.bind_ok, s_arrow, e2, need, parseTy_sp, hx.parse f rest (by simp at hf; omega) hr, Res.pure_eq]
  cases hk with
  | nil => rw [hv rfl]; rfl
  | cons => rfl

theorem DsNT.struct {es : List (String × Ty)} {zs : List (List Nat)} {v : Bool} (h : List.Forall₂ (DsFT true) es zs)
    (hv : es = [] → v = false) :
    DsNT (mkStruct es v) (123 :: (joinC zs ++ (if v then [44, 32, 46, 46, 46, 125] else [125]))) := by
  refine ⟨(open_hd (Or.inr rfl) _).1, fun rest _ => (open_hd (Or.inr rfl) _).2 rest, ?_⟩
  intro f rest hf hr
  by_cases hz : zs = []
  · subst hz
    obtain rfl := forall2_nil h
    obtain rfl := hv rfl
    have e1 : 123 :: (joinC [] ++ (if false then [44, 32, 46, 46, 46, 125] else [125])) ++ rest = 123 :: 125 :: rest := rfl
    rw [e1, noOpt_open (Or.inr rfl), structOrTuple]
    simp only [parseStruct, s_lc, s_rc, tok1 (a := 123) _ rfl (by decide), tok1 (a := 125) _ rfl (by decide), Res.bind_ok]
    rfl
  · have e1 : 123 :: (joinC zs ++ (if v then [44, 32, 46, 46, 46, 125] else [125])) ++ rest
        = 123 :: (joinC zs ++ ((if v then [44, 32, 46, 46, 46] else []) ++ 125 :: rest)) := by
      cases v <;> simp
    have e2 : ∀ s, tok [125] (joinC zs ++ s) = none := fun s => tok_join (ft_hd_all (c := 125) (Or.inr rfl) h) hz s
    have hall := fields_all (c := 125) (Or.inr rfl) v h [] f
      ((joinC zs ++ ((if v then [44, 32, 46, 46, 46] else []) ++ 125 :: rest)).length + 1) rest (Or.inl rfl) hz (by
        intro z hz'
        have := joinC_mem_length z hz'
        simp only [List.length_cons, List.length_append] at hf
        have h2 : 0 < (if v then [44, 32, 46, 46, 46, 125] else [125] : List Nat).length := by cases v <;> simp
        omega) (by
        have := joinC_length (xs := zs) (fun z hz' => by
          obtain ⟨d, r, rfl, _⟩ := ft_hd_all (c := 125) (Or.inr rfl) h z hz'; simp)
        simp only [List.length_append]; omega)
    rw [List.nil_append] at hall
    rw [e1, noOpt_open (Or.inr rfl), structOrTuple]
    simp only [parseStruct, s_lc, s_rc, tok1 (a := 123) _ rfl (by decide), e2, hall, Res.bind_ok, Res.pure_eq]

/-! ### Every type -/

def DsPr (t : Ty) (x : List Nat) : Prop := printTy t = .ok x ∧ DsRT t x

theorem pr_rt {ts : List Ty} {xs : List (List Nat)} (h : List.Forall₂ DsPr ts xs) : List.Forall₂ DsRT ts xs :=
  h.imp (fun _ _ g => g.2)

theorem printTys_ok {ts : List Ty} {xs : List (List Nat)} (h : List.Forall₂ DsPr ts xs) : printTys ts = .ok (joinC xs) := by
  induction h with
  | nil => rfl
  | cons h1 h2 ih =>
    cases h2 with
    | nil => exact h1.1
    | cons h3 h4 => rw [printTys, h1.1, Res.bind_ok, ih, Res.bind_ok, Res.pure_eq, s_commasp]; simp [joinC]

theorem printFields_ok {R : String × Ty → List Nat → Prop} {ts : List Ty} {xs : List (List Nat)} (h : List.Forall₂ DsPr ts xs) :
    ∀ ns : List String, ns.length = ts.length →
      (∀ nm ∈ ns, ∃ y, nameText nm = .ok y ∧ ∀ (t : Ty) (x : List Nat), DsRT t x → R (nm, t) (y ++ 58 :: 32 :: x)) →
      ∃ zs, printFields ns ts = .ok (joinC zs) ∧ List.Forall₂ R (ns.zip ts) zs := by
  induction h with
  | nil =>
    intro ns hl _
    obtain rfl := List.length_eq_zero_iff.1 hl
    exact ⟨[], rfl, .nil⟩
  | @cons t x ts xs h1 h2 ih =>
    intro ns hl hn
    cases ns with
    | nil => simp at hl
    | cons nm ns =>
      obtain ⟨y, hy, hR⟩ := hn nm (by simp)
      obtain ⟨zs, hp, hz⟩ := ih ns (by simpa using hl) (fun m hm => hn m (List.mem_cons_of_mem _ hm))
      refine ⟨(y ++ 58 :: 32 :: x) :: zs, ?_, .cons (hR t x h1.2) hz⟩
      cases h2 with
      | nil =>
        obtain rfl : zs = [] := by
          rw [List.zip_nil_right] at hz; cases hz; rfl
        rw [printFields, hy, Res.bind_ok, h1.1, Res.bind_ok, Res.pure_eq, s_colonsp]; simp [joinC]
      | @cons t2 x2 ts2 xs2 h3 h4 =>
        cases ns with
        | nil => simp at hl
        | cons nm2 ns2 =>
          cases hz with
          | cons g1 g2 =>
            rw [printFields, hy, Res.bind_ok, h1.1, Res.bind_ok, hp, Res.bind_ok, Res.pure_eq, s_colonsp, s_commasp]
            simp [joinC]

theorem zip_struct {ns : List String} {ts : List Ty} (h : ns.length = ts.length) (v : Bool) :
    mkStruct (ns.zip ts) v = .struct ns ts v := by
  rw [mkStruct, List.map_fst_zip (by omega), List.map_snd_zip (by omega)]

theorem zip_nil_iff {ns : List String} {ts : List Ty} (h : ns.length = ts.length) : ns.zip ts = [] → ts = [] := by
  intro e
  have := congrArg List.length e
  simp only [List.length_zip, List.length_nil] at this
  exact List.length_eq_zero_iff.1 (by omega)

theorem forall2_isEmpty {α β : Type} {R : α → β → Prop} {a : List α} {b : List β} (h : List.Forall₂ R a b) :
    a.isEmpty = b.isEmpty := by cases h <;> rfl

def DsGood (t : Ty) : Prop := ∃ x, printTy t = .ok x ∧ DsRT t x ∧ ((∀ u, t ≠ .option u) → DsNT t x)

theorem ds_good_nt {t : Ty} {x : List Nat} (h1 : printTy t = .ok x) (h2 : DsNT t x) : DsGood t := ⟨x, h1, h2.rt, fun _ => h2⟩

theorem zip_empty {ns : List String} {ts : List Ty} (h : ns.length = ts.length) : (ns.zip ts).isEmpty = ts.isEmpty := by
  cases ns <;> cases ts <;> simp at h ⊢

theorem pow_desc {b : Ty} {x : String} {el : Ty} (h : Describable (.powDimsym b x el)) :
    Describable el ∧ TypeVarName x ∧ ((∃ n, b = .fixedDim n (.prim .void) ∧ 0 ≤ n ∧ n < 2 ^ 63) ∨ b = .varDim (.prim .void)
      ∨ ∃ m, b = .typevarDim m (.prim .void) ∧ TypeVarName m ∧ m ≠ "Fixed") := by
  cases b with
  | fixedDim n e =>
    cases e with
    | prim p =>
      cases p with
      | void => simp only [Describable] at h; exact ⟨h.2.2.2, h.2.2.1, Or.inl ⟨n, rfl, h.1, h.2.1⟩⟩
      | _ => simp only [Describable] at h
    | _ => simp only [Describable] at h
  | varDim e =>
    cases e with
    | prim p =>
      cases p with
      | void => simp only [Describable] at h; exact ⟨h.2, h.1, Or.inr (Or.inl rfl)⟩
      | _ => simp only [Describable] at h
    | _ => simp only [Describable] at h
  | typevarDim m e =>
    cases e with
    | prim p =>
      cases p with
      | void => simp only [Describable] at h; exact ⟨h.2.2.2, h.2.2.1, Or.inr (Or.inr ⟨m, rfl, h.1, h.2.1⟩)⟩
      | _ => simp only [Describable] at h
    | _ => simp only [Describable] at h
  | _ => simp only [Describable] at h

mutual
theorem rt_ty : ∀ t : Ty, Describable t → DsGood t
  | .prim b, _ => ds_good_nt rfl (DsNT.prim b)
  | .kind k, _ => ds_good_nt rfl (DsNT.kind k)
  | .leaf l, h => by
    obtain ⟨x, h1, h2⟩ := DsNT.leaf h
    exact ds_good_nt (by rw [printTy, h1]) h2
  | .fixedDim n el, h => by
    simp only [Describable] at h
    obtain ⟨x, h1, h2, _⟩ := rt_ty el h.2.2
    exact ds_good_nt (by rw [printTy, h1]; rfl) (DsNT.fixedDim h.1 h.2.1 h2)
  | .fixedDimKind el, h => by
    simp only [Describable] at h
    obtain ⟨x, h1, h2, _⟩ := rt_ty el h
    exact ds_good_nt (by rw [printTy, h1]; rfl) (DsNT.fixedDimKind h2)
  | .varDim el, h => by
    simp only [Describable] at h
    obtain ⟨x, h1, h2, _⟩ := rt_ty el h
    exact ds_good_nt (by rw [printTy, h1]; rfl) (DsNT.varDim h2)
  | .dimKind el, h => by
    simp only [Describable] at h
    obtain ⟨x, h1, h2, _⟩ := rt_ty el h
    exact ds_good_nt (by rw [printTy, h1]; rfl) (DsNT.dimKind h2)
  | .pointer t, h => by
    simp only [Describable] at h
    obtain ⟨x, h1, h2, _⟩ := rt_ty t h
    exact ds_good_nt (by rw [printTy, h1]; rfl) (DsNT.pointer h2)
  | .option t, h => by
    simp only [Describable] at h
    obtain ⟨x, h1, _, h3⟩ := rt_ty t h.1
    exact ⟨63 :: x, by rw [printTy, h1]; rfl, DsRT.option (h3 h.2) h.2, fun g => absurd rfl (g t)⟩
  | .tuple ts v, h => by
    simp only [Describable] at h
    obtain ⟨xs, hx⟩ := rt_tys ts h.1
    refine ds_good_nt (x := 40 :: (joinC xs ++ (if v then [44, 32, 46, 46, 46, 41] else [41]))) ?_ (DsNT.tuple (pr_rt hx) h.2)
    rw [printTy, printTys_ok hx]
    cases v <;> rfl
  | .struct ns ts v, h => by
    simp only [Describable] at h
    obtain ⟨xs, hx⟩ := rt_tys ts h.2.1
    obtain ⟨zs, hp, hz⟩ := printFields_ok (R := DsFT true) hx ns h.1 (fun nm hm => by
      obtain ⟨y, g1, g2⟩ := DsFT.name (h.2.2.2 nm hm)
      exact ⟨y, g1, fun t x g => g2 g⟩)
    have hn := DsNT.struct (v := v) hz (fun e => h.2.2.1 (zip_nil_iff h.1 e))
    rw [zip_struct h.1] at hn
    refine ds_good_nt ?_ hn
    rw [printTy, hp]
    cases v <;> rfl
  | .callable ret (.tuple ps pv) (.struct ns ks kv), h => by
    simp only [Describable] at h
    obtain ⟨h1, h2, h3, h4, h5, h6⟩ := h
    obtain ⟨r, hr1, hr2, _⟩ := rt_ty ret h1
    obtain ⟨xs, hx⟩ := rt_tys ps h2
    obtain ⟨ws, hw⟩ := rt_tys ks h3
    obtain ⟨zs, hp, hz⟩ := printFields_ok (R := DsKT) hw ns h4 (fun nm hm => by
      have hs := identifier_iff.1 (h5 nm hm)
      exact ⟨str nm, by rw [nameText, if_pos hs], fun t x g => ⟨DsFT.bare hs g, str nm, _, hs, rfl⟩⟩)
    have hn := DsNT.callable (pr_rt hx) hz hr2 pv kv (fun e => h6 (zip_nil_iff h4 e))
    rw [zip_struct h4] at hn
    refine ds_good_nt ?_ hn
    have he1 := forall2_isEmpty hx
    have he2 := forall2_isEmpty hz
    rw [zip_empty h4] at he2
    rw [printTy, printTys_ok hx, Res.bind_ok, hp, Res.bind_ok, hr1, Res.bind_ok, he1, he2]
    simp only [bodyText, s_lp, s_dots, s_cdots, s_commasp, s_cret, Res.pure_eq, List.append_assoc, List.cons_append, List.nil_append]
  | .callable _ (.prim _) _, h | .callable _ (.leaf _) _, h | .callable _ (.kind _) _, h | .callable _ (.fixedDim _ _) _, h
  | .callable _ (.fixedDimKind _) _, h | .callable _ (.varDim _) _, h | .callable _ (.dimKind _) _, h
  | .callable _ (.pointer _) _, h | .callable _ (.option _) _, h | .callable _ (.struct _ _ _) _, h
  | .callable _ (.callable _ _ _) _, h | .callable _ (.typevar _) _, h | .callable _ (.typevarDim _ _) _, h
  | .callable _ (.ellipsis _ _) _, h | .callable _ (.powDimsym _ _ _) _, h | .callable _ (.dimFragment _) _, h
  | .callable _ (.tuple _ _) (.prim _), h | .callable _ (.tuple _ _) (.leaf _), h | .callable _ (.tuple _ _) (.kind _), h
  | .callable _ (.tuple _ _) (.fixedDim _ _), h | .callable _ (.tuple _ _) (.fixedDimKind _), h
  | .callable _ (.tuple _ _) (.varDim _), h | .callable _ (.tuple _ _) (.dimKind _), h | .callable _ (.tuple _ _) (.pointer _), h
  | .callable _ (.tuple _ _) (.option _), h | .callable _ (.tuple _ _) (.tuple _ _), h
  | .callable _ (.tuple _ _) (.callable _ _ _), h | .callable _ (.tuple _ _) (.typevar _), h
  | .callable _ (.tuple _ _) (.typevarDim _ _), h | .callable _ (.tuple _ _) (.ellipsis _ _), h
  | .callable _ (.tuple _ _) (.powDimsym _ _ _), h | .callable _ (.tuple _ _) (.dimFragment _), h => by simp only [Describable] at h
  | .typevar nm, h => by
    simp only [Describable] at h
    exact ds_good_nt rfl (DsNT.typevar h.1 h.2)
  | .typevarDim nm el, h => by
    simp only [Describable] at h
    obtain ⟨x, h1, h2, _⟩ := rt_ty el h.2.2
    exact ds_good_nt (by rw [printTy, h1]; rfl) (DsNT.typevarDim h.1 h.2.1 h2)
  | .ellipsis nm el, h => by
    simp only [Describable] at h
    obtain ⟨x, h1, h2, _⟩ := rt_ty el h.2
    rcases h.1 with rfl | hv
    · exact ds_good_nt (by rw [printTy, h1]; rfl) (DsNT.ellipsisAnon h2)
    · exact ds_good_nt (by rw [printTy, h1]; rfl) (DsNT.ellipsisNamed hv h2)
  | .powDimsym b x el, h => by
    obtain ⟨hel, hx, hb⟩ := pow_desc h
    obtain ⟨y, h1, h2, _⟩ := rt_ty el hel
    rcases hb with ⟨n, rfl, g1, g2⟩ | rfl | ⟨m, rfl, g1, g2⟩
    · exact ds_good_nt (by rw [printTy, h1]; rfl) (DsNT.powNum g1 g2 hx h2)
    · exact ds_good_nt (by rw [printTy, h1]; rfl) (DsNT.powName (n := str "var") (mk := Ty.varDim) (by decide) rfl hx h2)
    · obtain ⟨k1, k2⟩ := typevar_simple (typeVarName_iff.1 g1)
      refine ds_good_nt (by rw [printTy, h1]; rfl) (DsNT.powName (n := str m) (mk := Ty.typevarDim m) k1 ?_ hx h2)
      have k3 : str m ≠ str "var" := by
        intro e; rw [e] at k2; revert k2; decide
      rw [dsPowBase, if_neg (by rw [upper_not_dig k2]; decide), if_neg k3, if_neg (fun e => g2 (str_inj e)), if_pos k2, ofBytes_str]
  | .dimFragment _, h => by simp only [Describable] at h
theorem rt_tys : ∀ ts : List Ty, DescribableAll ts → ∃ xs, List.Forall₂ DsPr ts xs
  | [], _ => ⟨[], .nil⟩
  | t :: ts, h => by
    simp only [DescribableAll] at h
    obtain ⟨x, h1, h2, _⟩ := rt_ty t h.1
    obtain ⟨xs, hx⟩ := rt_tys ts h.2
    exact ⟨x :: xs, .cons ⟨h1, h2⟩ hx⟩
end

theorem upper_head {nm : String} (h : TypeVarName nm) (s : List Nat) : (str nm ++ s).head? ≠ some 116 := by
  obtain ⟨h1, h2⟩ := typevar_simple (typeVarName_iff.1 h)
  obtain ⟨c, r, e, _⟩ := name_head h1
  rw [e] at h2 ⊢
  have h3 : isUpperC c = true := h2
  simp only [isUpperC, Bool.and_eq_true, decide_eq_true_eq] at h3
  simp only [List.cons_append, List.head?_cons, ne_eq, Option.some.injEq]
  omega

theorem num_head {n : Int} (h : 0 ≤ n) (s : List Nat) : (printInt n ++ s).head? ≠ some 116 := by
  rw [printInt_nonneg h]
  obtain ⟨c, r, e, hc1, hc2⟩ := dec_head n.toNat
  rw [e]
  simp only [List.cons_append, List.head?_cons, ne_eq, Option.some.injEq]
  omega

theorem head_not_t {t : Ty} (hd : Describable t) (hne : t ≠ .leaf .typeT) {x : List Nat} (hx : printTy t = .ok x) :
    x.head? ≠ some 116 := by
  cases t with
  | prim b =>
    simp only [printTy, Res.ok.injEq] at hx; subst hx
    rcases b with _ | _ | (_ | _ | _ | _ | _) | (_ | _ | _ | _ | _) | (_ | _ | _ | _) | (_ | _) <;> decide
  | leaf l =>
    cases l with
    | typeT => exact absurd rfl hne
    | categorical i => simp only [Describable] at hd
    | bytes a => simp only [printTy, leafText, Res.ok.injEq] at hx; subst hx; exact fun e => absurd e (by simp [str])
    | fixedBytes n a => simp only [printTy, leafText, Res.ok.injEq] at hx; subst hx; exact fun e => absurd e (by simp [str])
    | string => simp only [printTy, leafText, Res.ok.injEq] at hx; subst hx; exact fun e => absurd e (by simp [str])
    | fixedString n e => simp only [printTy, leafText, Res.ok.injEq] at hx; subst hx; exact fun e => absurd e (by simp [str])
    | char e => simp only [printTy, leafText, Res.ok.injEq] at hx; subst hx; exact fun e => absurd e (by simp [str])
  | kind k => simp only [printTy, Res.ok.injEq] at hx; subst hx; cases k <;> decide
  | fixedDim n el =>
    simp only [Describable] at hd
    rw [printTy, Res.bind_eq_ok] at hx
    obtain ⟨e, _, hx⟩ := hx
    simp only [Res.pure_eq, Res.ok.injEq] at hx; subst hx
    rw [List.append_assoc]; exact num_head hd.1 _
  | fixedDimKind el | varDim el | dimKind el | pointer el | option el =>
    rw [printTy, Res.bind_eq_ok] at hx
    obtain ⟨e, _, hx⟩ := hx
    simp only [Res.pure_eq, Res.ok.injEq] at hx; subst hx
    simp [str]
  | tuple ts v | struct ns ts v =>
    rw [printTy, Res.bind_eq_ok] at hx
    obtain ⟨e, _, hx⟩ := hx
    simp only [Res.pure_eq, Res.ok.injEq] at hx; subst hx
    simp [str]
  | callable r p k =>
    cases p with
    | tuple ps pv =>
      cases k with
      | struct ns ks kv =>
        rw [printTy, Res.bind_eq_ok] at hx
        obtain ⟨e, _, hx⟩ := hx
        rw [Res.bind_eq_ok] at hx
        obtain ⟨e2, _, hx⟩ := hx
        rw [Res.bind_eq_ok] at hx
        obtain ⟨e3, _, hx⟩ := hx
        simp only [Res.pure_eq, Res.ok.injEq] at hx; subst hx
        simp [str]
      | _ => simp only [Describable] at hd
    | _ => simp only [Describable] at hd
  | typevar nm =>
    simp only [Describable] at hd
    simp only [printTy, Res.ok.injEq] at hx; subst hx
    have := upper_head hd.1 []
    rwa [List.append_nil] at this
  | typevarDim nm el =>
    simp only [Describable] at hd
    rw [printTy, Res.bind_eq_ok] at hx
    obtain ⟨e, _, hx⟩ := hx
    simp only [Res.pure_eq, Res.ok.injEq] at hx; subst hx
    rw [List.append_assoc]; exact upper_head hd.1 _
  | ellipsis nm el =>
    simp only [Describable] at hd
    rw [printTy, Res.bind_eq_ok] at hx
    obtain ⟨e, _, hx⟩ := hx
    simp only [Res.pure_eq, Res.ok.injEq] at hx; subst hx
    rw [List.append_assoc]
    rcases hd.1 with rfl | hv
    · simp [str]
    · exact upper_head hv _
  | powDimsym b x el =>
    obtain ⟨_, hx2, hb⟩ := pow_desc hd
    rw [printTy, Res.bind_eq_ok] at hx
    obtain ⟨e, _, hx⟩ := hx
    simp only [Res.pure_eq, Res.ok.injEq] at hx; subst hx
    rw [List.append_assoc, List.append_assoc, List.append_assoc]
    rcases hb with ⟨n, rfl, g1, g2⟩ | rfl | ⟨m, rfl, g1, g2⟩
    · exact num_head g1 _
    · simp [powBaseText, str]
    · exact upper_head g1 _
  | dimFragment _ => simp only [Describable] at hd

theorem parseStmt_nil (f : Nat) (syms : List (List Nat)) : parseStmt (f + 1) syms [] = .ok none := rfl

/-- C36: the text of a type is read back as that type, for all types, of any nesting depth and width, in `Describable`.
    Missing: the types excluded by the conditions marked (*) there; for each of them the claim is false, see the
    `_violated` theorems below. -/
theorem datashape_roundtrip_partial (t : Ty) (h : Describable t) :
    ∃ txt, printTy t = .ok txt ∧ typeFromDatashape txt = .ok t := by
  obtain ⟨x, h1, h2, _⟩ := rt_ty t h
  refine ⟨x, h1, ?_⟩
  by_cases ht : t = .leaf .typeT
  · subst ht
    simp only [printTy, leafText, Res.ok.injEq] at h1
    subst h1; rfl
  · have hx := head_not_t h ht h1
    have hs : tok (str "type") x = none := by
      obtain ⟨c, r, rfl, g1, g2, _⟩ := h2.hd
      have hc : c ≠ 116 := by simpa using hx
      exact tok_miss g1 g2 (Ne.symm hc)
    have hp := h2.parse (x.length + 1) [] (by omega) (Or.inl rfl)
    rw [List.append_nil] at hp
    have e : parseStmt (x.length + 1) [] x = .ok (some (t, [], [])) := by
      rw [parseStmt, hs]
      simp only [hp, Res.bind_ok, Res.pure_eq]
    rw [typeFromDatashape, e, Res.bind_ok]
    simp only [parseTopLoop, parseStmt_nil, Res.bind_ok, skipWs_nil, Res.pure_eq]

/-- Consequence: two types with the same text are the same type. -/
theorem datashape_text_injective_partial {t u : Ty} (ht : Describable t) (hu : Describable u) (h : printTy t = printTy u) : t = u := by
  obtain ⟨x, h1, h2⟩ := datashape_roundtrip_partial t ht
  obtain ⟨y, h3, h4⟩ := datashape_roundtrip_partial u hu
  rw [h1, h3] at h
  obtain rfl := Res.ok.inj h
  rw [h2] at h4
  exact Res.ok.inj h4

/-! ### A case that meets the hypothesis, and the defects -/

/-- the type `3 * {x: int32, 'a b': ?float64, ...}` with a callable inside -/
def sampleTy : Ty :=
  .fixedDim 3 (.struct ["x", "a b", "f"]
    [.prim (.int .w32), .option (.prim (.flt .f64)),
     .callable (.typevar "R") (.tuple [.ellipsis "Dims" (.typevar "T"), .leaf (.fixedString 5 0)] true)
       (.struct ["axis"] [.varDim (.kind .int)] true)] true)

theorem ascii_bmp (s : String) (h : ∀ c ∈ str s, c < 128) : BmpName s := by
  refine ⟨str s, ?_, fun c hc => by have := h c hc; omega⟩
  generalize str s = l at h
  induction l with
  | nil => rfl
  | cons c l ih =>
    have hc := h c (by simp)
    have := ih (fun d hd => h d (List.mem_cons_of_mem _ hd))
    have e : encode .utf8 c = some [c] := by simp [encode, hc, show Scalar c by unfold Scalar; omega]
    simp [encodeAll, this, e]

example : Describable sampleTy := by
  simp only [sampleTy, Describable, DescribableAll, true_and, and_true]
  refine ⟨by decide, by decide, rfl, ⟨(fun u h => by cases h), ⟨⟨'R', [], rfl, by decide, by simp⟩, by decide⟩, ?_, ?_⟩, by simp, ?_⟩
  · exact ⟨⟨Or.inr ⟨'D', ['i', 'm', 's'], rfl, by decide, by decide⟩, ⟨'T', [], rfl, by decide, by simp⟩, by decide⟩, by decide⟩
  · refine ⟨rfl, ?_, by simp⟩
    intro nm hm
    simp only [List.mem_singleton] at hm; subst hm
    exact ⟨'a', ['x', 'i', 's'], rfl, by decide, by decide⟩
  · intro nm hm
    simp only [List.mem_cons, List.not_mem_nil, or_false] at hm
    rcases hm with rfl | rfl | rfl <;> exact ascii_bmp _ (by decide)

theorem dec_lt {n : Nat} (h : n < 10) : decDigits n = [48 + n] := by rw [decDigits, if_pos h]

/-- `Fixed ** N * int32`, which the parser accepts, prints without its base, and that text is rejected. -/
theorem pow_fixed_base_violated :
    typeFromDatashape (str "Fixed**N * int32") = .ok (.powDimsym (.fixedDimKind (.prim .void)) "N" (.prim (.int .w32)))
      ∧ printTy (.powDimsym (.fixedDimKind (.prim .void)) "N" (.prim (.int .w32))) = .ok (str "**N * int32")
      ∧ typeFromDatashape (str "**N * int32") = .throw .parse := ⟨rfl, rfl, rfl⟩

/-- The empty variadic tuple is what `(...)` means, but prints as a text that is rejected; the same for the struct. -/
theorem empty_variadic_violated :
    typeFromDatashape (str "(...)") = .ok (.tuple [] true)
      ∧ printTy (.tuple [] true) = .ok (str "(, ...)")
      ∧ typeFromDatashape (str "(, ...)") = .throw .parse
      ∧ typeFromDatashape (str "{...}") = .ok (.struct [] [] true)
      ∧ printTy (.struct [] [] true) = .ok (str "{, ...}")
      ∧ typeFromDatashape (str "{, ...}") = .throw .parse := ⟨rfl, rfl, rfl, rfl, rfl, rfl⟩

/-- A type variable may have the name of a kind; its text means the kind. -/
theorem typevar_reserved_violated :
    TypeVarName "Int" ∧ printTy (.typevar "Int") = .ok (str "Int") ∧ typeFromDatashape (str "Int") = .ok (.kind .int)
      ∧ printTy (.typevarDim "Dim" (.typevar "T")) = .ok (str "Dim * T")
      ∧ typeFromDatashape (str "Dim * T") = .ok (.dimKind (.typevar "T")) :=
  ⟨⟨'I', ['n', 't'], rfl, by decide, by decide⟩, rfl, rfl, rfl, rfl⟩

/-- Keyword names that need quotes are printed in quotes, which the parser does not accept in a callable type. -/
theorem callable_keyword_quoted_violated :
    ∃ x, printTy (.callable (.prim .void) (.tuple [] false) (.struct ["a b"] [.prim .bool] false)) = .ok x
      ∧ x = str "('a b': bool) -> void" ∧ typeFromDatashape x = .throw .parse := ⟨_, rfl, rfl, rfl⟩

/-- Without keywords the variadic flag of the keyword part is not printed and comes back as that of the positional part. -/
theorem callable_variadic_violated :
    printTy (.callable (.prim .void) (.tuple [] false) (.struct [] [] true)) = .ok (str "() -> void")
      ∧ typeFromDatashape (str "() -> void") = .ok (.callable (.prim .void) (.tuple [] false) (.struct [] [] false)) := ⟨rfl, rfl⟩

/-- A fixed string of size 0 (allowed by the constructor) prints a text that is rejected. -/
theorem fixed_string_zero_violated :
    printTy (.leaf (.fixedString 0 2)) = .ok (str "fixed_string[0]") ∧ typeFromDatashape (str "fixed_string[0]") = .throw .parse := by
  refine ⟨?_, rfl⟩
  simp only [printTy, leafText, dec_lt (show 0 < 10 by decide)]; rfl

/-- A dim fragment prints a text that is rejected. -/
theorem dim_fragment_violated :
    printTy (.dimFragment [-1]) = .ok (str "dim_fragment[var * void]") ∧ typeFromDatashape (str "dim_fragment[var * void]") = .throw .parse :=
  ⟨rfl, rfl⟩

/-- Every text that begins with `categorical[` is rejected, so a categorical type cannot be read back. -/
theorem categorical_rejected_violated (s : List Nat) : typeFromDatashape (str "categorical[" ++ s) = .throw .parse := rfl

/-- A size of a `fixed_bytes` type from 2^31 up is printed but overflows `atoi` when read. -/
theorem fixed_bytes_size_violated (n : Nat) (h : 2 ^ 31 ≤ n) :
    ∃ x, printTy (.leaf (.fixedBytes n 1)) = .ok x ∧ typeFromDatashape x = .ub := by
  refine ⟨str "fixed_bytes" ++ 91 :: (decDigits n ++ [93]), ?_, ?_⟩
  · simp only [printTy, leafText, s_rb]
    simp [str]
  · have e : ∀ f, parseTy (f + 1) (str "fixed_bytes" ++ 91 :: (decDigits n ++ [93])) = .ub := by
      intro f
      have g1 : parseTy (f + 1) (str "fixed_bytes" ++ 91 :: (decDigits n ++ [93]))
          = regArgs (parseTy f) (91 :: (decDigits n ++ [93])) .fixedBytes := rfl
      rw [g1]
      have g2 : atoi (decDigits n) = .ub := by rw [atoi, decValue_dec, if_neg (by omega)]
      simp only [regArgs, fixedBytesArgs, s_lb, s_rb, expect1 (a := 91) _ rfl (by decide), Res.bind_ok,
        expectNumber_dec n [93] (digBound rfl), tok1 (a := 93) [] rfl (by decide), g2]
      rfl
    have g3 : tok (str "type") (str "fixed_bytes" ++ 91 :: (decDigits n ++ [93])) = none := rfl
    rw [typeFromDatashape, parseStmt, g3]
    simp only [e]
    rfl

/-- Texts that are accepted with a meaning other than the written one: keywords without `->` are dropped, a power
    dimension before a struct is dropped, and a defined name is not replaced by its definition. -/
theorem parser_drops_text_violated :
    typeFromDatashape (str "(x: bool)") = .ok (.tuple [] false)
      ∧ typeFromDatashape (str "var**N {x: bool}") = .ok (.struct ["x"] [.prim .bool] false)
      ∧ typeFromDatashape (str "type X = bool  X") = .ok (.typevar "X") := ⟨rfl, rfl, rfl⟩

end Dynd
