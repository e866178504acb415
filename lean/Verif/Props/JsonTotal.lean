import Verif.Props.JsonRound
/-
C70: parsing JSON ends with a well-formed value or an exception, for every text.
C71: the line and column reported for an error position.
-/
namespace Dynd

/-! ### specification -/

mutual
/-- Types whose integers are not `int64` (see C25 for those). -/
def NoInt64 : JTy → Prop
  | .bool => True
  | .int t => t.Valid ∧ ¬ (t.signed = true ∧ t.bits = 64)
  | .string => True
  | .option t => NoInt64 t
  | .struct ns ts => ns.length = ts.length ∧ NoInt64s ts
  | .tuple ts => NoInt64s ts
  | .fixed _ t => NoInt64 t
  | .var t => NoInt64 t
/-- every one of them -/
def NoInt64s : List JTy → Prop
  | [] => True
  | t :: ts => NoInt64 t ∧ NoInt64s ts
end

mutual
/-- `v` is a value of type `t`: bytes of booleans are 0 or 1 (or 2 for a missing one), integers are in range, strings are
    well-formed UTF-8, arrays and structs have the right number of elements.  Absent values of optional unsigned integers are
    not written (C41). -/
def JTyped : JTy → JVal → Prop
  | .bool, v => v = .bool 0 ∨ v = .bool 1
  | .int t, v => ∃ x, v = .int x ∧ t.Has x
  | .string, v => ∃ bs, v = .str bs ∧ WellFormedUtf8 bs
  | .option t, v => JTyped t v ∨ (t = .bool ∧ v = .bool 2) ∨ (∃ it, t = .int it ∧ it.signed = false ∧ v = .undef)
  | .struct _ ts, v => ∃ vs, v = .tup vs ∧ JTypeds ts vs
  | .tuple ts, v => ∃ vs, v = .tup vs ∧ JTypeds ts vs
  | .fixed n t, v => ∃ vs, v = .arr vs ∧ vs.length = n ∧ ∀ x ∈ vs, JTyped t x
  | .var t, v => ∃ vs, v = .arr vs ∧ ∀ x ∈ vs, JTyped t x
/-- Field by field. -/
def JTypeds : List JTy → List JVal → Prop
  | [], vs => vs = []
  | t :: ts, vs => ∃ v vs', vs = v :: vs' ∧ JTyped t v ∧ JTypeds ts vs'
end

/-- the text is made of bytes -/
def IsBytes (s : List Nat) : Prop := ∀ c ∈ s, c < 256

/-! ### proof -/

/-- no undefined behaviour, and the result has the property -/
private def Sf {α : Type} (x : Res α) (P : α → Prop) : Prop := x ≠ .ub ∧ ∀ a, x = .ok a → P a

private theorem Sf.ok {α : Type} {a : α} {P : α → Prop} (h : P a) : Sf (.ok a) P :=
  ⟨(fun e => by cases e), fun b e => by cases e; exact h⟩
private theorem Sf.pure {α : Type} {a : α} {P : α → Prop} (h : P a) : Sf (Pure.pure a : Res α) P := Sf.ok h
private theorem Sf.throw {α : Type} {P : α → Prop} (e : Exc) : Sf (.throw e : Res α) P :=
  ⟨(fun e => by cases e), fun b e => by cases e⟩
private theorem Sf.bind {α β : Type} {x : Res α} {f : α → Res β} {P : α → Prop} {Q : β → Prop} (h : Sf x P)
    (hf : ∀ a, P a → Sf (f a) Q) : Sf (x >>= f) Q := by
  cases x with
  | ok a => exact hf a (h.2 a rfl)
  | throw e => exact Sf.throw e
  | ub => exact absurd rfl h.1
private theorem Sf.mono {α : Type} {x : Res α} {P Q : α → Prop} (h : Sf x P) (hpq : ∀ a, P a → Q a) : Sf x Q :=
  ⟨h.1, fun a e => hpq a (h.2 a e)⟩
private theorem Sf.caught {α : Type} {x : Res α} {P : α → Prop} (h : Sf x P) : Sf (asParseError x) P := by
  cases x with
  | ok a => exact h
  | throw e => exact Sf.throw _
  | ub => exact absurd rfl h.1

/-- a proper final part of `s0` -/
private def Rem (s0 s : List Nat) : Prop := s <:+ s0 ∧ s.length < s0.length

private theorem Rem.trans {a b c : List Nat} (h1 : Rem a b) (h2 : Rem b c) : Rem a c :=
  ⟨h2.1.trans h1.1, by have := h1.2; have := h2.2; omega⟩
private theorem suf_rem {a b c : List Nat} (h1 : b <:+ a) (h2 : Rem b c) : Rem a c :=
  ⟨h2.1.trans h1, by have := h2.2; have := h1.length_le; omega⟩
private theorem bytes_suf {a b : List Nat} (h : IsBytes a) (hb : b <:+ a) : IsBytes b := fun c hc => h c (hb.subset hc)
private theorem Rem.bytes {a b : List Nat} (h : Rem a b) (ha : IsBytes a) : IsBytes b := bytes_suf ha h.1

private theorem ws_suf (s : List Nat) : jWs s <:+ s := List.dropWhile_suffix _

private theorem tok_rem {tok s r : List Nat} (h : jTok tok s = some r) (ht : tok ≠ []) : Rem s r := by
  obtain ⟨w, _, rfl⟩ := jTok_sound h
  refine ⟨(List.suffix_append tok r).trans (List.suffix_append w _), ?_⟩
  have := List.length_pos_iff.2 ht
  simp; omega

private theorem need_rem {tok s : List Nat} (ht : tok ≠ []) : Sf (needTok tok s) (Rem s) := by
  unfold needTok
  split
  · rename_i r h; exact Sf.ok (tok_rem h ht)
  · exact Sf.throw _

private theorem num_rem {s n r : List Nat} (h : jNumber s = some (n, r)) : Rem s r := by
  obtain ⟨rfl, hn⟩ := jNumber_sound h
  refine ⟨List.suffix_append n r, ?_⟩
  have := List.length_pos_iff.2 (jsonNum_ne_nil hn)
  simp; omega

private theorem quoted_safe {s : List Nat} (hs : IsBytes s) :
    Sf (parseDoublequote s) (fun o => ∀ i e r, o = some (i, e, r) → IsBytes i ∧ Rem s r) := by
  refine ⟨quoted_noub s, fun o ho i e r hr => ?_⟩
  subst hr
  obtain ⟨rfl, _⟩ := quoted_sound ho
  refine ⟨fun c hc => hs c (by simp [hc]), ⟨?_, by simp; omega⟩⟩
  exact ⟨34 :: (i ++ [34]), by simp⟩

private theorem utf8Append_sf (c : Nat) : Sf (utf8Append c) IsBytes := by
  unfold utf8Append IsBytes
  split_ifs
  · exact Sf.throw _
  all_goals
    refine Sf.ok ?_
    intro b hb
    simp only [List.mem_cons, List.not_mem_nil, or_false] at hb
    omega

private theorem unescapeLoop_sf (f : Nat) : ∀ s : List Nat, IsBytes s → s.length ≤ f → Sf (unescapeLoop f s) IsBytes := by
  induction f with
  | zero =>
    intro s _ hf
    have : s = [] := List.length_eq_zero_iff.1 (by omega)
    subst this
    exact Sf.ok (by intro c hc; cases hc)
  | succ f ih =>
    intro s hs hf
    match s with
    | [] => exact Sf.ok (by intro c hc; cases hc)
    | c :: s =>
      simp only [List.length_cons] at hf
      have hcons : ∀ (c : Nat) (r : List Nat), c < 256 → IsBytes r → r.length ≤ f →
          Sf (do let r ← unescapeLoop f r; pure (c :: r)) IsBytes := by
        intro c r hc hr hl
        refine Sf.bind (ih r hr hl) (fun a ha => Sf.ok ?_)
        intro x hx
        simp only [List.mem_cons] at hx
        rcases hx with rfl | hx
        · exact hc
        · exact ha x hx
      have happ : ∀ (x r : List Nat), IsBytes r → r.length ≤ f →
          Sf (do let a ← utf8Append (hexFold 0 x); let r ← unescapeLoop f r; pure (a ++ r)) IsBytes := by
        intro x r hr hl
        refine Sf.bind (utf8Append_sf _) (fun a ha => Sf.bind (ih r hr hl) (fun b hb => Sf.ok ?_))
        intro y hy
        simp only [List.mem_append] at hy
        rcases hy with hy | hy
        · exact ha y hy
        · exact hb y hy
      have hs2 : IsBytes s := fun x hx => hs x (by simp [hx])
      rw [unescapeLoop.eq_def]
      simp only
      by_cases hc : c = 92
      · rw [if_pos hc]
        match s with
        | [] => exact Sf.ok (by intro c hc; cases hc)
        | d :: s =>
          have hd : d < 256 := hs2 d (by simp)
          have hs3 : IsBytes s := fun x hx => hs2 x (by simp [hx])
          simp only [List.length_cons] at hf
          simp only
          split_ifs
          · exact hcons d s hd hs3 (by omega)
          · exact hcons _ s (by omega) hs3 (by omega)
          · exact hcons _ s (by omega) hs3 (by omega)
          · exact hcons _ s (by omega) hs3 (by omega)
          · exact hcons _ s (by omega) hs3 (by omega)
          · exact hcons _ s (by omega) hs3 (by omega)
          · exact Sf.ok (by intro c hc; cases hc)
          · exact happ _ _ (bytes_suf hs3 (List.drop_suffix 4 s)) (by simp; omega)
          · exact Sf.ok (by intro c hc; cases hc)
          · exact happ _ _ (bytes_suf hs3 (List.drop_suffix 8 s)) (by simp; omega)
          · exact hcons _ s (by omega) hs3 (by omega)
      · rw [if_neg hc]
        exact hcons c s (hs c (by simp)) hs2 (by omega)

private theorem ite_unescape {i : List Nat} (hi : IsBytes i) (e : Bool) :
    Sf (if e then unescape i else (pure i : Res (List Nat))) IsBytes := by
  cases e with
  | true => exact unescapeLoop_sf _ i hi (Nat.le_refl _)
  | false => exact Sf.ok hi

/-- the same with the `if` in front of the continuation -/
private theorem ite_unescape_bind {α : Type} {i : List Nat} (hi : IsBytes i) (e : Bool) {f : List Nat → Res α} {P : α → Prop}
    (hf : ∀ i, IsBytes i → Sf (f i) P) : Sf (if e = true then unescape i >>= f else (pure i : Res (List Nat)) >>= f) P := by
  cases e with
  | true => exact Sf.bind (unescapeLoop_sf _ i hi (Nat.le_refl _)) hf
  | false => exact hf i hi

private theorem assignString_sf {s : List Nat} (hs : IsBytes s) : Sf (assignString false .utf8 false s) WellFormedUtf8 := by
  obtain ⟨h1, h2⟩ := string_set_exact s hs
  refine ⟨h1, fun out ho => ?_⟩
  obtain ⟨rfl, h3⟩ := (h2 out).1 ho
  exact h3

private theorem parseBool_sf (s : List Nat) : Sf (parseBool s) (fun _ => True) := by
  unfold parseBool
  split <;> (try split_ifs) <;> first | exact Sf.ok trivial | exact Sf.throw _

private theorem parseU_sf (b : Nat) (s : List Nat) : Sf (parseU b s) (fun n => n < 2 ^ b) :=
  ⟨by
    unfold parseU
    split
    · simp
    · exact parseULoop_no_ub, fun n h => parseU_lt h⟩

private theorem min_has {t : IntTy} (h : t.Valid) : t.Has t.min := by
  obtain ⟨b, s⟩ := t
  simp only [IntTy.Valid] at h
  have p := Nat.pow_pos (n := b - 1) (show 0 < 2 by omega)
  have p2 := Nat.pow_pos (n := b) (show 0 < 2 by omega)
  cases s
  · simp only [IntTy.Has, IntTy.min, IntTy.max, Bool.false_eq_true, if_false]; omega
  · simp only [IntTy.Has, IntTy.min, IntTy.max, if_true]; omega

private theorem strToNum_sf {t : IntTy} (ht : t.Valid) (h64 : ¬ (t.signed = true ∧ t.bits = 64)) (s : List Nat) :
    Sf (strToNum t s) t.Has := by
  unfold strToNum
  by_cases h1 : parseNa s = true
  · rw [if_pos h1]
    by_cases h2 : t.signed = true
    · rw [if_pos h2]; exact Sf.ok (min_has ht)
    · rw [if_neg h2]; exact Sf.throw _
  rw [if_neg h1]
  rcases takeMinus s with ⟨neg, b⟩
  simp only
  by_cases h3 : t.signed = true
  · rw [if_pos h3]
    by_cases h4 : t.bits ≤ 64
    · rw [if_pos h4]
      have h5 : t.bits < 64 := by
        have : t.bits ≠ 64 := fun h => h64 ⟨h3, h⟩
        omega
      obtain ⟨bs, sg⟩ := t
      simp only at h3 h4 h5
      subst h3
      simp only [IntTy.Valid] at ht
      refine Sf.bind (parseU_sf 64 _) (fun v hv => ?_)
      rw [overflowCheck_eq (by omega) h5 hv]
      have hle : (2:Nat) ^ (bs - 1) ≤ 2 ^ 62 := Nat.pow_le_pow_right (by omega) (by omega)
      have hpos : 0 < (2:Nat) ^ (bs - 1) := Nat.pow_pos (by omega)
      have e62 : (2:Nat) ^ 62 = 4611686018427387904 := by decide
      have e63 : (2:Nat) ^ 63 = 9223372036854775808 := by decide
      simp only [Res.bind_ok]
      cases neg with
      | true =>
        simp only [if_true, decide_eq_true_eq]
        by_cases hlt : 2 ^ (bs - 1) < v
        · rw [if_pos hlt]; exact Sf.throw _
        · rw [if_neg hlt]
          have hc : (IntTy.mk 64 true).cast (v : Int) = v :=
            IntTy.cast_signed (by omega) (by simp only [show 64 - 1 = 63 from rfl, e63]; omega)
          rw [hc, i64_ok (by omega) (by omega)]
          simp only [Res.bind_ok]
          rw [IntTy.cast_signed (by omega) (by omega)]
          exact Sf.ok (IntTy.has_signed.2 (by omega))
      | false =>
        simp only [Bool.false_eq_true, if_false, decide_eq_true_eq]
        by_cases hlt : 2 ^ (bs - 1) ≤ v
        · rw [if_pos hlt]; exact Sf.throw _
        · rw [if_neg hlt, IntTy.cast_signed (by omega) (by omega)]
          exact Sf.ok (IntTy.has_signed.2 (by omega))
    · rw [if_neg h4]; exact Sf.throw _
  · rw [if_neg h3]
    refine Sf.bind (parseU_sf _ _) (fun v _ => ?_)
    split_ifs with h5
    · exact Sf.throw _
    · refine Sf.ok ⟨?_, by omega⟩
      have : t.min = 0 := by unfold IntTy.min; rw [if_neg h3]
      omega

/-- A reader that ends with a value of the type, having consumed something, or raises. -/
private def PGood (p : JP) (T : JVal → Prop) : Prop :=
  ∀ old s, (old = .undef ∨ T old) → IsBytes s → Sf (p old s) (fun vr => T vr.1 ∧ Rem s vr.2)

private theorem PGood.ws {p : JP} {T : JVal → Prop} (h : PGood p T) : PGood (fun old s => p old (jWs s)) T :=
  fun old s ho hs => (h old (jWs s) ho (bytes_suf hs (ws_suf s))).mono (fun _ ⟨a, b⟩ => ⟨a, suf_rem (ws_suf s) b⟩)

private theorem boolP_good : PGood boolP (JTyped .bool) := by
  intro old s _ hs
  unfold boolP
  split
  · rename_i r h; exact Sf.ok ⟨Or.inr rfl, tok_rem h (by decide)⟩
  split
  · rename_i r h; exact Sf.ok ⟨Or.inl rfl, tok_rem h (by decide)⟩
  split
  · exact Sf.throw _
  split
  · rename_i n r h
    split_ifs
    · exact Sf.ok ⟨Or.inl rfl, num_rem h⟩
    · exact Sf.ok ⟨Or.inr rfl, num_rem h⟩
    · exact Sf.throw _
  · refine Sf.bind (quoted_safe hs) (fun o ho => ?_)
    match o with
    | none => exact Sf.throw _
    | some (i, esc, r) =>
      obtain ⟨hi, hr⟩ := ho i esc r rfl
      refine ite_unescape_bind hi esc (fun i _ => Sf.bind (parseBool_sf i) (fun b _ => Sf.ok ⟨?_, hr⟩))
      cases b
      · exact Or.inl rfl
      · exact Or.inr rfl

private theorem numP_good {t : IntTy} (ht : t.Valid) (h64 : ¬ (t.signed = true ∧ t.bits = 64)) :
    PGood (numP t) (JTyped (.int t)) := by
  intro old s _ hs
  unfold numP
  split
  · rename_i n r h
    exact Sf.bind (strToNum_sf ht h64 n) (fun x hx => Sf.ok ⟨⟨x, rfl, hx⟩, num_rem h⟩)
  · refine Sf.bind (quoted_safe hs) (fun o ho => ?_)
    match o with
    | none => exact Sf.throw _
    | some (i, esc, r) =>
      obtain ⟨hi, hr⟩ := ho i esc r rfl
      refine Sf.bind (P := t.Has) (Sf.caught ?_) (fun x hx => Sf.ok ⟨⟨x, rfl, hx⟩, hr⟩)
      exact ite_unescape_bind hi esc (fun _ _ => strToNum_sf ht h64 i)

private theorem strP_good : PGood strP (JTyped .string) := by
  intro old s _ hs
  unfold strP
  refine Sf.bind (quoted_safe (bytes_suf hs (ws_suf s))) (fun o ho => ?_)
  match o with
  | none => exact Sf.throw _
  | some (i, esc, r) =>
    obtain ⟨hi, hr⟩ := ho i esc r rfl
    refine Sf.bind (P := WellFormedUtf8) (Sf.caught ?_) (fun x hx => Sf.ok ⟨⟨x, rfl, hx⟩, suf_rem (ws_suf s) hr⟩)
    exact ite_unescape_bind hi esc (fun i hi => assignString_sf hi)

private theorem wf_nil : WellFormedUtf8 [] := by
  exact ⟨[], rfl⟩

private theorem assignNa_good {t : JTy} (hn : NoInt64 t) {old : JVal} (ho : old = .undef ∨ JTyped (.option t) old) :
    Sf (jAssignNa t old) (JTyped (.option t)) := by
  match t with
  | .bool => exact Sf.ok (Or.inr (Or.inl ⟨rfl, rfl⟩))
  | .int it =>
    show Sf (if it.signed then .ok (.int (assignNaBuiltin (.int it) (0 : Int))) else .ok old) _
    by_cases h : it.signed = true
    · rw [if_pos h]
      have hna : assignNaBuiltin (.int it) (0 : Int) = it.min := if_pos h
      rw [hna]
      exact Sf.ok (Or.inl ⟨_, rfl, min_has hn.1⟩)
    · rw [if_neg h]
      refine Sf.ok ?_
      rcases ho with rfl | ho
      · exact Or.inr (Or.inr ⟨it, rfl, by simpa using h, rfl⟩)
      · exact ho
  | .string => exact Sf.ok (Or.inl ⟨[], rfl, wf_nil⟩)
  | .option _ => exact Sf.throw _
  | .struct _ _ => exact Sf.throw _
  | .tuple _ => exact Sf.throw _
  | .fixed _ _ => exact Sf.throw _
  | .var _ => exact Sf.throw _

private theorem setOption_good {t : JTy} (hn : NoInt64 t) {old : JVal} (ho : old = .undef ∨ JTyped (.option t) old)
    {s : List Nat} (hs : IsBytes s) : Sf (setOption t old s) (JTyped (.option t)) := by
  unfold setOption
  match t with
  | .bool =>
    simp only
    split_ifs
    · exact assignNa_good hn ho
    · refine Sf.bind (parseBool_sf s) (fun b _ => Sf.ok (Or.inl ?_))
      cases b
      · exact Or.inl rfl
      · exact Or.inr rfl
  | .int it =>
    simp only
    split_ifs
    · exact assignNa_good hn ho
    · exact Sf.bind (strToNum_sf hn.1 hn.2 s) (fun x hx => Sf.ok (Or.inl ⟨x, rfl, hx⟩))
  | .string => exact Sf.bind (assignString_sf hs) (fun x hx => Sf.ok (Or.inl ⟨x, rfl, hx⟩))
  | .option _ => exact Sf.throw _
  | .struct _ _ => exact Sf.throw _
  | .tuple _ => exact Sf.throw _
  | .fixed _ _ => exact Sf.throw _
  | .var _ => exact Sf.throw _

private theorem optScalar_good {t : JTy} (hn : NoInt64 t) (s : List Nat) :
    Sf (optScalarP t s) (fun vr => JTyped (.option t) vr.1 ∧ Rem s vr.2) := by
  unfold optScalarP
  match t with
  | .bool =>
    simp only
    split
    · rename_i r h; exact Sf.ok ⟨Or.inl (Or.inr rfl), tok_rem h (by decide)⟩
    split
    · rename_i r h; exact Sf.ok ⟨Or.inl (Or.inl rfl), tok_rem h (by decide)⟩
    split
    · rename_i n r h
      split_ifs
      · exact Sf.ok ⟨Or.inl (Or.inr rfl), num_rem h⟩
      · exact Sf.ok ⟨Or.inl (Or.inl rfl), num_rem h⟩
      · exact Sf.throw _
    · exact Sf.throw _
  | .int it =>
    simp only
    split
    · rename_i n r h
      exact Sf.bind (strToNum_sf hn.1 hn.2 n) (fun x hx => Sf.ok ⟨Or.inl ⟨x, rfl, hx⟩, num_rem h⟩)
    · exact Sf.throw _
  | .string => exact Sf.throw _
  | .option _ => exact Sf.throw _
  | .struct _ _ => exact Sf.throw _
  | .tuple _ => exact Sf.throw _
  | .fixed _ _ => exact Sf.throw _
  | .var _ => exact Sf.throw _

private theorem optP_good {t : JTy} (hn : NoInt64 t) : PGood (optP t) (JTyped (.option t)) := by
  intro old s ho hs
  have key : Sf (match jTok litNull (jWs s) with
    | some r => do
      let v ← jAssignNa t old
      pure (v, r)
    | none => do
      match ← parseDoublequote (jWs s) with
      | some (i, esc, r) =>
        let v ← asParseError (do
          let i ← if esc then unescape i else pure i
          setOption t old i)
        pure (v, r)
      | none => optScalarP t (jWs s)) (fun vr => JTyped (.option t) vr.1 ∧ Rem s vr.2) := by
    split
    · rename_i r h
      exact Sf.bind (assignNa_good hn ho) (fun v hv => Sf.ok ⟨hv, suf_rem (ws_suf s) (tok_rem h (by decide))⟩)
    · refine Sf.bind (quoted_safe (bytes_suf hs (ws_suf s))) (fun o hq => ?_)
      match o with
      | none => exact (optScalar_good hn (jWs s)).mono (fun _ ⟨a, b⟩ => ⟨a, suf_rem (ws_suf s) b⟩)
      | some (i, esc, r) =>
        obtain ⟨hi, hr⟩ := hq i esc r rfl
        refine Sf.bind (P := JTyped (.option t)) (Sf.caught ?_) (fun x hx => Sf.ok ⟨hx, suf_rem (ws_suf s) hr⟩)
        exact ite_unescape_bind hi esc (fun i hi => setOption_good hn ho hi)
  match t with
  | .bool => exact key
  | .int it => exact key
  | .string => exact key
  | .option _ => exact Sf.throw _
  | .struct _ _ => exact Sf.throw _
  | .tuple _ => exact Sf.throw _
  | .fixed _ _ => exact Sf.throw _
  | .var _ => exact Sf.throw _

/-- readers with their memory, all good for the predicates given -/
private def Goods : List (JP × JVal) → List (JVal → Prop) → Prop
  | [], Ts => Ts = []
  | (p, o) :: q, Ts => ∃ T Ts', Ts = T :: Ts' ∧ PGood p T ∧ (o = .undef ∨ T o) ∧ Goods q Ts'

/-- values having the predicates given -/
private def Holds : List (JVal → Prop) → List JVal → Prop
  | [], vs => vs = []
  | T :: Ts, vs => ∃ v vs', vs = v :: vs' ∧ T v ∧ Holds Ts vs'

private theorem seqP_good : ∀ (q : List (JP × JVal)) (Ts : List (JVal → Prop)) (s : List Nat), Goods q Ts → IsBytes s →
    Sf (seqP q s) (fun vr => Holds Ts vr.1 ∧ vr.2 <:+ s)
  | [], Ts, s, h, _ => by
    simp only [Goods] at h
    subst h
    exact Sf.ok ⟨rfl, List.suffix_refl s⟩
  | [(p, o)], Ts, s, h, hs => by
    obtain ⟨T, Ts', rfl, hp, ho, h2⟩ := h
    simp only [Goods] at h2
    subst h2
    exact Sf.bind (hp o s ho hs) (fun vr ⟨h1, h2⟩ => Sf.ok ⟨⟨vr.1, [], rfl, h1, rfl⟩, h2.1⟩)
  | (p, o) :: x :: q, Ts, s, h, hs => by
    obtain ⟨T, Ts', rfl, hp, ho, h2⟩ := h
    refine Sf.bind (hp o s ho hs) (fun vr ⟨h1, h3⟩ => ?_)
    refine Sf.bind (need_rem (s := vr.2) (by decide)) (fun r hr => ?_)
    have h4 := h3.trans hr
    refine Sf.bind (seqP_good (x :: q) Ts' r h2 (h4.bytes hs)) (fun w ⟨h5, h6⟩ => Sf.ok ⟨⟨vr.1, w.1, rfl, h1, h5⟩, ?_⟩)
    exact h6.trans h4.1

private theorem goods_replicate {p : JP} {T : JVal → Prop} (hp : PGood p T) : ∀ (os : List JVal),
    (∀ o ∈ os, o = .undef ∨ T o) → Goods (os.map (fun o => (p, o))) (List.replicate os.length T)
  | [], _ => rfl
  | o :: os, h => ⟨T, _, rfl, hp, h o (by simp), goods_replicate hp os (fun o ho => h o (by simp [ho]))⟩

private theorem holds_replicate {T : JVal → Prop} : ∀ (n : Nat) (vs : List JVal), Holds (List.replicate n T) vs →
    vs.length = n ∧ ∀ v ∈ vs, T v
  | 0, vs, h => by
    simp only [List.replicate_zero, Holds] at h
    subst h
    exact ⟨rfl, by simp⟩
  | n + 1, vs, h => by
    obtain ⟨v, vs', rfl, h1, h2⟩ := h
    obtain ⟨h3, h4⟩ := holds_replicate n vs' h2
    refine ⟨by simp [h3], fun x hx => ?_⟩
    rcases List.mem_cons.1 hx with rfl | hx
    · exact h1
    · exact h4 x hx

private theorem memElems_length (n : Nat) (old : JVal) : (memElems n old).length = n := by
  cases old <;> simp only [memElems, List.length_replicate] <;> split <;> simp_all

private theorem fixedP_good {n : Nat} {p : JP} {t : JTy} (hp : PGood p (JTyped t)) :
    PGood (fixedP n p) (JTyped (.fixed n t)) := by
  intro old s ho hs
  unfold fixedP
  refine Sf.bind (need_rem (by decide)) (fun r hr => ?_)
  have hold : ∀ o ∈ memElems n old, o = .undef ∨ JTyped t o := by
    rcases ho with rfl | ⟨vs, rfl, h1, h2⟩
    · intro o ho
      exact Or.inl (List.eq_of_mem_replicate ho)
    · intro o ho
      simp only [memElems, h1, if_true] at ho
      exact Or.inr (h2 o ho)
  refine Sf.bind (seqP_good _ _ r (goods_replicate hp _ hold) (hr.bytes hs)) (fun w ⟨h1, h2⟩ => ?_)
  refine Sf.bind (need_rem (s := w.2) (by decide)) (fun r2 hr2 => Sf.ok ⟨?_, ?_⟩)
  · rw [memElems_length] at h1
    obtain ⟨h3, h4⟩ := holds_replicate n _ h1
    exact ⟨w.1, rfl, h3, h4⟩
  · exact hr.trans (suf_rem h2 hr2)

private theorem varLoop_good {p : JP} {T : JVal → Prop} (hp : PGood p T) : ∀ (fuel size alloc : Nat) (s : List Nat),
    IsBytes s → s.length < fuel → size ≤ alloc → 0 < alloc →
    Sf (varLoop p fuel size alloc s) (fun vr => (∀ v ∈ vr.1, T v) ∧ Rem s vr.2)
  | 0, _, _, _, _, h, _, _ => by omega
  | fuel + 1, size, alloc, s, hs, hf, h1, h2 => by
    rw [varLoop.eq_def]
    simp only
    have h3 : ¬ (if size = alloc then alloc * 2 else alloc) < size + 1 := by split <;> omega
    have h4 : size + 1 ≤ (if size = alloc then alloc * 2 else alloc) := by omega
    rw [if_neg h3]
    generalize (if size = alloc then alloc * 2 else alloc) = al at h4
    refine Sf.bind (hp .undef s (Or.inl rfl) hs) (fun vr ⟨h5, h6⟩ => ?_)
    obtain ⟨v, r⟩ := vr
    simp only at h5 h6 ⊢
    split
    · rename_i r2 h
      have h7 := h6.trans (tok_rem h (by decide))
      have := h7.2
      refine Sf.bind (varLoop_good hp fuel (size + 1) al r2 (h7.bytes hs) (by omega) h4 (by omega)) (fun w ⟨h8, h9⟩ => Sf.ok ⟨?_, h7.trans h9⟩)
      intro x hx
      rcases List.mem_cons.1 hx with rfl | hx
      · exact h5
      · exact h8 x hx
    · refine Sf.bind (need_rem (by decide)) (fun r2 hr2 => Sf.ok ⟨?_, h6.trans hr2⟩)
      intro x hx
      simp only [List.mem_singleton] at hx
      exact hx ▸ h5

private theorem varP_good {p : JP} {t : JTy} (hp : PGood p (JTyped t)) : PGood (varP p) (JTyped (.var t)) := by
  intro old s _ hs
  unfold varP
  refine Sf.bind (need_rem (by decide)) (fun r hr => ?_)
  split
  · rename_i r2 h
    exact Sf.ok ⟨⟨[], rfl, by simp⟩, hr.trans (tok_rem h (by decide))⟩
  · refine Sf.bind (varLoop_good hp _ 0 8 r (hr.bytes hs) (by omega) (by omega) (by omega)) (fun w ⟨h1, h2⟩ => Sf.ok ⟨?_, hr.trans h2⟩)
    exact ⟨w.1, rfl, h1⟩

/-- what the fields must hold -/
private def typesOf : List JTy → List (JVal → Prop)
  | [] => []
  | t :: ts => JTyped t :: typesOf ts

private theorem holds_typeds : ∀ (ts : List JTy) (vs : List JVal), Holds (typesOf ts) vs → JTypeds ts vs
  | [], _, h => h
  | _ :: ts, _, ⟨v, vs', h1, h2, h3⟩ => ⟨v, vs', h1, h2, holds_typeds ts vs' h3⟩

/-- readers of the fields, in order -/
private def PGoods : List JP → List JTy → Prop
  | [], ts => ts = []
  | p :: ps, ts => ∃ t ts', ts = t :: ts' ∧ PGood p (JTyped t) ∧ PGoods ps ts'

/-- Memory of the fields: unwritten or a value. -/
private def Olds : List JTy → List JVal → Prop
  | [], vs => vs = []
  | t :: ts, vs => ∃ v vs', vs = v :: vs' ∧ (v = .undef ∨ JTyped t v) ∧ Olds ts vs'

private theorem pgoods_length : ∀ (ps : List JP) (ts : List JTy), PGoods ps ts → ps.length = ts.length
  | [], _, h => by simp only [PGoods] at h; subst h; rfl
  | _ :: ps, _, ⟨t, ts', h1, _, h2⟩ => by subst h1; simp [pgoods_length ps ts' h2]

private theorem olds_undef : ∀ ts : List JTy, Olds ts (List.replicate ts.length .undef)
  | [] => rfl
  | _ :: ts => ⟨_, _, rfl, Or.inl rfl, olds_undef ts⟩

private theorem olds_typed : ∀ (ts : List JTy) (vs : List JVal), JTypeds ts vs → Olds ts vs ∧ vs.length = ts.length
  | [], _, h => by simp only [JTypeds] at h; subst h; exact ⟨rfl, rfl⟩
  | _ :: ts, _, ⟨v, vs', h1, h2, h3⟩ => by
    subst h1
    obtain ⟨h4, h5⟩ := olds_typed ts vs' h3
    exact ⟨⟨v, vs', rfl, Or.inr h2, h4⟩, by simp [h5]⟩

private theorem memElems_olds {ts : List JTy} {old : JVal} (ho : old = .undef ∨ ∃ vs, old = .tup vs ∧ JTypeds ts vs) :
    Olds ts (memElems ts.length old) := by
  rcases ho with rfl | ⟨vs, rfl, h⟩
  · exact olds_undef ts
  · obtain ⟨h1, h2⟩ := olds_typed ts vs h
    simpa only [memElems, h2, if_true] using h1

private theorem goods_zip : ∀ (ps : List JP) (ts : List JTy) (os : List JVal), PGoods ps ts → Olds ts os →
    Goods (List.zip ps os) (typesOf ts)
  | [], _, _, h, _ => by simp only [PGoods] at h; subst h; rfl
  | p :: ps, _, _, ⟨t, ts', h1, h2, h3⟩, ho => by
    subst h1
    obtain ⟨o, os', rfl, h4, h5⟩ := ho
    exact ⟨_, _, rfl, h2, h4, goods_zip ps ts' os' h3 h5⟩

private theorem listP_good {ps : List JP} {ts : List JTy} (hp : PGoods ps ts) :
    PGood (listP ps) (fun v => ∃ vs, v = .tup vs ∧ JTypeds ts vs) := by
  intro old s ho hs
  unfold listP
  rw [pgoods_length ps ts hp]
  refine Sf.bind (seqP_good _ _ s (goods_zip ps ts _ hp (memElems_olds ho)) hs) (fun w ⟨h1, h2⟩ => ?_)
  exact Sf.bind (need_rem (s := w.2) (by decide)) (fun r hr => Sf.ok ⟨⟨w.1, rfl, holds_typeds ts _ h1⟩, suf_rem h2 hr⟩)

/-- Memory of the fields during the reading of an object: those marked hold a value. -/
private def Part : List JTy → List JVal → List Bool → Prop
  | [], vs, bs => vs = [] ∧ bs = []
  | t :: ts, vs, bs => ∃ v vs' b bs', vs = v :: vs' ∧ bs = b :: bs' ∧ (v = .undef ∨ JTyped t v) ∧ (b = true → JTyped t v) ∧
      Part ts vs' bs'

private theorem part_olds : ∀ (ts : List JTy) (vs : List JVal), Olds ts vs → Part ts vs (List.replicate ts.length false)
  | [], _, h => ⟨h, rfl⟩
  | _ :: ts, _, ⟨v, vs', h1, h2, h3⟩ => ⟨v, vs', false, _, h1, rfl, h2, (fun h => by cases h), part_olds ts vs' h3⟩

private theorem part_get : ∀ (ts : List JTy) (ps : List JP) (vs : List JVal) (bs : List Bool) (i : Nat), Part ts vs bs →
    PGoods ps ts → i < ts.length → ∃ (t : JTy) (p : JP) (o : JVal), ps[i]? = some p ∧ vs[i]? = some o ∧ PGood p (JTyped t) ∧
      (o = .undef ∨ JTyped t o) ∧ ∀ v, JTyped t v → Part ts (vs.set i v) (bs.set i true)
  | [], _, _, _, _, _, _, h => by simp at h
  | t :: ts, [], _, _, _, _, h2, _ => by cases h2
  | t :: ts, p :: ps, _, _, 0, ⟨v, vs', b, bs', h1, h2, h3, h4, h5⟩, ⟨t', ts', h6, h7, h8⟩, _ => by
    subst h1 h2
    obtain ⟨rfl, rfl⟩ := List.cons.inj h6
    exact ⟨t, p, v, rfl, rfl, h7, h3, fun w hw => ⟨w, vs', true, bs', rfl, rfl, Or.inr hw, fun _ => hw, h5⟩⟩
  | t :: ts, p :: ps, _, _, i + 1, ⟨v, vs', b, bs', h1, h2, h3, h4, h5⟩, ⟨t', ts', h6, h7, h8⟩, hi => by
    subst h1 h2
    obtain ⟨rfl, rfl⟩ := List.cons.inj h6
    obtain ⟨u, q, o, g1, g2, g3, g4, g5⟩ := part_get ts ps vs' bs' i h5 h8 (by simpa using hi)
    exact ⟨u, q, o, by simpa using g1, by simpa using g2, g3, g4, fun w hw => ⟨v, _, b, _, rfl, rfl, h3, h4, g5 w hw⟩⟩

private theorem skip_good (s : List Nat) : Sf (skipJson s) (Rem s) := by
  refine ⟨?_, fun r hr => ?_⟩
  · rcases skip_json_total s with ⟨r, h⟩ | h <;> rw [h] <;> simp
  · obtain ⟨w, v, _, _, hp⟩ := skip_json_sound hr
    exact ⟨⟨w ++ v, by rw [hp]; simp⟩, skip_shrinks hr⟩

private theorem objLoop_good {ns : List (List Nat)} {ps : List JP} {ts : List JTy} (hn : ns.length = ts.length)
    (hp : PGoods ps ts) : ∀ (fuel : Nat) (vs : List JVal) (pop : List Bool) (s : List Nat), Part ts vs pop →
    IsBytes s → s.length < fuel →
    Sf (objLoop ns ps fuel vs pop s) (fun w => Part ts w.1 w.2.1 ∧ Rem s w.2.2)
  | 0, _, _, _, _, _, h => by omega
  | fuel + 1, vs, pop, s, hv, hs, hf => by
    rw [objLoop.eq_def]
    simp only
    refine Sf.bind (quoted_safe (bytes_suf hs (ws_suf s))) (fun o ho => ?_)
    match o with
    | none => exact Sf.throw _
    | some (raw, esc, r) =>
      obtain ⟨hi, hr⟩ := ho raw esc r rfl
      have hr := suf_rem (ws_suf s) hr
      refine Sf.bind (need_rem (s := r) (by decide)) (fun r2 hr2 => ?_)
      have hr2 := hr.trans hr2
      refine ite_unescape_bind hi esc (fun name _ => ?_)
      refine Sf.bind (P := fun w : List JVal × List Bool × List Nat => Part ts w.1 w.2.1 ∧ Rem s w.2.2) ?_ (fun w ⟨h1, h2⟩ => ?_)
      · split
        · exact Sf.bind (skip_good r2) (fun r3 hr3 => Sf.ok ⟨hv, hr2.trans hr3⟩)
        · rename_i i hf
          have hil : i < ts.length := by
            rw [← hn]
            exact (List.findIdx?_eq_some_iff_getElem.1 hf).1
          obtain ⟨t, p, o, g1, g2, g3, g4, g5⟩ := part_get ts ps vs pop i hv hp hil
          rw [g1, g2]
          exact Sf.bind (g3 o r2 g4 (hr2.bytes hs)) (fun vr ⟨h1, h2⟩ => Sf.ok ⟨g5 vr.1 h1, hr2.trans h2⟩)
      · split
        · rename_i r3 h
          have h3 := h2.trans (tok_rem h (by decide))
          have := h3.2
          exact (objLoop_good hn hp fuel w.1 w.2.1 r3 h1 (h3.bytes hs) (by omega)).mono (fun _ ⟨a, b⟩ => ⟨a, h3.trans b⟩)
        · exact Sf.bind (need_rem (by decide)) (fun r4 h4 => Sf.ok ⟨h1, h2.trans h4⟩)

private theorem fill_good : ∀ (ts : List JTy) (vs : List JVal) (bs : List Bool), NoInt64s ts → Part ts vs bs →
    Sf (fillMissing ts vs bs) (JTypeds ts)
  | [], _, _, _, ⟨h1, h2⟩ => by
    subst h1 h2
    exact Sf.ok rfl
  | t :: ts, _, _, hn, ⟨v, vs', b, bs', h1, h2, h3, h4, h5⟩ => by
    subst h1 h2
    rw [fillMissing.eq_def]
    simp only
    refine Sf.bind (P := JTyped t) ?_ (fun w hw => Sf.bind (fill_good ts vs' bs' hn.2 h5) (fun ws hws => Sf.ok ⟨w, ws, rfl, hw, hws⟩))
    cases b with
    | true => exact Sf.ok (h4 rfl)
    | false =>
      simp only [Bool.false_eq_true, if_false]
      match t with
      | .option u => exact assignNa_good (t := u) hn.1 h3
      | .bool => exact Sf.throw _
      | .int _ => exact Sf.throw _
      | .string => exact Sf.throw _
      | .struct _ _ => exact Sf.throw _
      | .tuple _ => exact Sf.throw _
      | .fixed _ _ => exact Sf.throw _
      | .var _ => exact Sf.throw _

private theorem objP_good {ns : List (List Nat)} {ps : List JP} {ts : List JTy} (hn : ns.length = ts.length)
    (hi : NoInt64s ts) (hp : PGoods ps ts) : PGood (objP ns ts ps) (fun v => ∃ vs, v = .tup vs ∧ JTypeds ts vs) := by
  intro old s ho hs
  unfold objP
  have h0 := part_olds ts _ (memElems_olds ho)
  simp only
  split
  · rename_i r h
    exact Sf.bind (fill_good ts _ _ hi h0) (fun vs hv => Sf.ok ⟨⟨vs, rfl, hv⟩, tok_rem h (by decide)⟩)
  · refine Sf.bind (objLoop_good hn hp _ _ _ s h0 hs (by omega)) (fun w ⟨h1, h2⟩ => ?_)
    exact Sf.bind (fill_good ts _ _ hi h1) (fun vs hv => Sf.ok ⟨⟨vs, rfl, hv⟩, h2⟩)

private theorem structP_good {ns : List (List Nat)} {ps : List JP} {ts : List JTy} (hn : ns.length = ts.length)
    (hi : NoInt64s ts) (hp : PGoods ps ts) : PGood (structP ns ts ps) (JTyped (.struct ns ts)) := by
  intro old s ho hs
  unfold structP
  split
  · rename_i r h
    have hr := tok_rem h (by decide)
    exact (objP_good hn hi hp old r ho (hr.bytes hs)).mono (fun _ ⟨a, b⟩ => ⟨a, hr.trans b⟩)
  split
  · rename_i r h
    have hr := tok_rem h (by decide)
    exact (listP_good hp old r ho (hr.bytes hs)).mono (fun _ ⟨a, b⟩ => ⟨a, hr.trans b⟩)
  · exact Sf.throw _

private theorem tupleP_good {ps : List JP} {ts : List JTy} (hp : PGoods ps ts) : PGood (tupleP ps) (JTyped (.tuple ts)) := by
  intro old s ho hs
  unfold tupleP
  split
  · rename_i r h
    have hr := tok_rem h (by decide)
    exact (listP_good hp old r ho (hr.bytes hs)).mono (fun _ ⟨a, b⟩ => ⟨a, hr.trans b⟩)
  · exact Sf.throw _

mutual
private theorem pj_good : ∀ t : JTy, NoInt64 t → PGood (pj t) (JTyped t)
  | .bool, _ => boolP_good.ws
  | .int _, h => (numP_good h.1 h.2).ws
  | .string, _ => strP_good.ws
  | .option t, h => (optP_good (t := t) h).ws
  | .struct _ ts, h => (structP_good h.1 h.2 (pjs_good ts h.2)).ws
  | .tuple ts, h => (tupleP_good (pjs_good ts h)).ws
  | .fixed _ t, h => (fixedP_good (pj_good t h)).ws
  | .var t, h => (varP_good (pj_good t h)).ws
private theorem pjs_good : ∀ ts : List JTy, NoInt64s ts → PGoods (pjs ts) ts
  | [], _ => rfl
  | t :: ts, h => ⟨t, ts, rfl, pj_good t h.1, pjs_good ts h.2⟩
end

/-- **C70.** Reading any byte string as any type (without `int64`) never goes out of bounds, never runs for ever, and when it
    succeeds the result is a complete, well-formed value of the type. -/
theorem parse_json_wellformed_partial (t : JTy) (s : List Nat) (ht : NoInt64 t) (hs : IsBytes s) :
    parseJson t s ≠ .ub ∧ ∀ v, parseJson t s = .ok v → JTyped t v := by
  refine Sf.bind (pj_good t ht .undef s (Or.inl rfl) hs) (fun w ⟨h1, _⟩ => ?_)
  obtain ⟨v, r⟩ := w
  simp only
  split_ifs
  · exact Sf.ok h1
  · exact Sf.throw _

/-- The same when reading into memory that holds a value: what is left is again a complete value. -/
theorem parse_json_into_wellformed_partial (t : JTy) (old : JVal) (s : List Nat) (ht : NoInt64 t) (ho : JTyped t old)
    (hs : IsBytes s) : parseJsonInto t old s ≠ .ub ∧ ∀ v, parseJsonInto t old s = .ok v → JTyped t v := by
  refine Sf.bind (pj_good t ht old s (Or.inr ho) hs) (fun w ⟨h1, _⟩ => ?_)
  obtain ⟨v, r⟩ := w
  simp only
  split_ifs
  · exact Sf.ok h1
  · exact Sf.throw _

/-- `{x: ?int32, y: var * string}` and `{"y": ["é"], "z": 1}` meet the hypotheses. -/
example : NoInt64 (.struct [[120], [121]] [.option (.int ⟨32, true⟩), .var .string]) ∧
    IsBytes [123, 34, 121, 34, 58, 91, 34, 195, 169, 34, 93, 44, 34, 122, 34, 58, 49, 125] := by
  refine ⟨⟨rfl, ⟨by unfold IntTy.Valid; decide, by decide⟩, trivial, trivial⟩, ?_⟩
  unfold IsBytes
  decide

/-! ### C71: where an error is reported -/

/-- What follows the last newline of a text. -/
def afterLastNewline (s : List Nat) : List Nat := (s.reverse.takeWhile (fun c => decide (c ≠ 10))).reverse

/-- The text before its last newline, if there is one. -/
def beforeLastNewline (s : List Nat) : List Nat := s.take (s.length - (afterLastNewline s).length - 1)

/-- The rest of the line a text starts with. -/
def restOfLine (s : List Nat) : List Nat := s.takeWhile (fun c => decide (c ≠ 10))

/-- Positions of which no line is found: the end of a text that is empty or whose last character is a newline. -/
def NoLine (s : List Nat) (pos : Nat) : Prop := pos = s.length ∧ (s = [] ∨ s.getLast? = some 10)

private theorem tw_self {x : List Nat} (h : 10 ∉ x) : x.takeWhile (fun c => decide (c ≠ 10)) = x := by
  induction x with
  | nil => rfl
  | cons c x ih =>
    simp only [List.mem_cons, not_or] at h
    rw [List.takeWhile_cons, if_pos (by simpa using Ne.symm h.1), ih h.2]

private theorem tw_stop (a b : List Nat) :
    (a ++ 10 :: b).takeWhile (fun c => decide (c ≠ 10)) = a.takeWhile (fun c => decide (c ≠ 10)) := by
  induction a with
  | nil => rfl
  | cons c a ih => rw [List.cons_append, List.takeWhile_cons, List.takeWhile_cons, ih]

private theorem aln_noNl {x : List Nat} (h : 10 ∉ x) : afterLastNewline x = x := by
  unfold afterLastNewline
  rw [tw_self (by simpa using h), List.reverse_reverse]

private theorem aln_append (l x : List Nat) : afterLastNewline (l ++ 10 :: x) = afterLastNewline x := by
  unfold afterLastNewline
  rw [List.reverse_append, List.reverse_cons, List.append_assoc]
  exact congrArg List.reverse (tw_stop _ _)

private theorem aln_length (x : List Nat) : (afterLastNewline x).length ≤ x.length := by
  unfold afterLastNewline
  rw [List.length_reverse]
  exact Nat.le_trans (List.takeWhile_sublist _).length_le (by simp)

private theorem aln_lt {x : List Nat} (h : 10 ∈ x) : (afterLastNewline x).length < x.length := by
  obtain ⟨a, b, rfl⟩ := List.append_of_mem h
  rw [aln_append]
  have := aln_length b
  simp
  omega

private theorem bln_append {l x : List Nat} (h : 10 ∈ x) : beforeLastNewline (l ++ 10 :: x) = l ++ 10 :: beforeLastNewline x := by
  unfold beforeLastNewline
  rw [aln_append]
  have := aln_lt h
  have e : (l ++ 10 :: x).length - (afterLastNewline x).length - 1 = l.length + (1 + (x.length - (afterLastNewline x).length - 1)) := by
    simp; omega
  rw [e, List.take_length_add_append, Nat.add_comm 1, List.take_succ_cons]

private theorem bln_noNl {l x : List Nat} (h : 10 ∉ x) : beforeLastNewline (l ++ 10 :: x) = l := by
  unfold beforeLastNewline
  rw [aln_append, aln_noNl h]
  have e : (l ++ 10 :: x).length - x.length - 1 = l.length := by simp; omega
  rw [e, List.take_left]

private theorem split_line (s : List Nat) : (10 ∉ s ∧ s.takeWhile (fun c => decide (c ≠ 10)) = s) ∨
    ∃ l r, s = l ++ 10 :: r ∧ 10 ∉ l ∧ s.takeWhile (fun c => decide (c ≠ 10)) = l := by
  induction s with
  | nil => exact Or.inl ⟨by simp, rfl⟩
  | cons c s ih =>
    by_cases hc : c = 10
    · subst hc
      exact Or.inr ⟨[], s, rfl, by simp, by simp⟩
    · rcases ih with ⟨h1, h2⟩ | ⟨l, r, h1, h2, h3⟩
      · exact Or.inl ⟨by simp [h1, Ne.symm hc], by rw [List.takeWhile_cons, if_pos (by simpa using hc), h2]⟩
      · exact Or.inr ⟨c :: l, r, by rw [h1]; rfl, by simp [h2, Ne.symm hc], by rw [List.takeWhile_cons, if_pos (by simpa using hc), h3]⟩

private theorem noNl_count {x : List Nat} (h : 10 ∉ x) : x.count 10 = 0 := List.count_eq_zero.2 h

private theorem lineCol_loop : ∀ (fuel base line : Nat) (cur s : List Nat) (k : Nat), s.length < fuel → k ≤ s.length →
    (NoLine s k → lineColLoop fuel base line cur s (base + k) = .throw .runtime) ∧
    (¬ NoLine s k → lineColLoop fuel base line cur s (base + k) = .ok ⟨line + (s.take k).count 10,
      1 + (afterLastNewline (s.take k)).length,
      if 10 ∈ s.take k then afterLastNewline (beforeLastNewline (s.take k)) else cur,
      afterLastNewline (s.take k) ++ restOfLine (s.drop k)⟩)
  | 0, _, _, _, _, _, h, _ => by omega
  | fuel + 1, base, line, cur, s, k, hf, hk => by
    rw [lineColLoop.eq_def]
    simp only
    by_cases hs : s = []
    · subst hs
      have : k = 0 := by simpa using hk
      subst this
      exact ⟨fun _ => rfl, fun h => absurd ⟨rfl, Or.inl rfl⟩ h⟩
    rw [if_neg hs]
    rcases split_line s with ⟨h1, h2⟩ | ⟨l, r, h1, h2, h3⟩
    · rw [h2, if_pos rfl]
      have ht : 10 ∉ s.take k := fun h => h1 ((List.take_sublist k s).subset h)
      have hd : 10 ∉ s.drop k := fun h => h1 ((List.drop_sublist k s).subset h)
      refine ⟨fun ⟨_, h⟩ => ?_, fun _ => ?_⟩
      · rcases h with h | h
        · exact absurd h hs
        · exact absurd (List.mem_of_getLast? h) h1
      · have e1 : restOfLine (s.drop k) = s.drop k := by
          exact tw_self hd
        rw [noNl_count ht, aln_noNl ht, if_neg ht, e1, List.take_append_drop, List.length_take_of_le hk]
        simp only [Res.ok.injEq, ErrPos.mk.injEq, and_true, true_and, Nat.add_zero]
        omega
    · rw [h3]
      have hlen : s.length = l.length + 1 + r.length := by rw [h1]; simp; omega
      rw [if_neg (by omega)]
      by_cases hk2 : k < l.length + 1
      · rw [if_pos (by omega)]
        have e1 : s.take k = l.take k := by rw [h1, List.take_append_of_le_length (by omega)]
        have ht : 10 ∉ s.take k := by
          rw [e1]; exact fun h => h2 ((List.take_sublist k l).subset h)
        have e2 : s.drop k = l.drop k ++ 10 :: r := by rw [h1, List.drop_append_of_le_length (by omega)]
        have e3 : restOfLine (s.drop k) = l.drop k := by
          unfold restOfLine
          rw [e2, List.takeWhile_append_of_pos]
          · simp
          · intro c hc
            simp only [decide_eq_true_eq]
            rintro rfl
            exact h2 ((List.drop_sublist k l).subset hc)
        refine ⟨fun ⟨h, _⟩ => by omega, fun _ => ?_⟩
        rw [noNl_count ht, aln_noNl ht, if_neg ht, e3, e1, List.take_append_drop, List.length_take_of_le (by omega)]
        simp only [Res.ok.injEq, ErrPos.mk.injEq, and_true, true_and, Nat.add_zero]
        omega
      · rw [if_neg (by omega)]
        obtain ⟨k2, rfl⟩ : ∃ k2, k = l.length + 1 + k2 := ⟨k - (l.length + 1), by omega⟩
        have ed : s.drop (l.length + 1) = r := by
          rw [h1, List.drop_append, List.drop_eq_nil_of_le (by omega)]; simp
        have et : s.take (l.length + 1 + k2) = l ++ 10 :: r.take k2 := by
          rw [h1, Nat.add_assoc, List.take_length_add_append, Nat.add_comm 1, List.take_succ_cons]
        have ed2 : s.drop (l.length + 1 + k2) = r.drop k2 := by rw [← List.drop_drop, ed]
        have en : NoLine s (l.length + 1 + k2) ↔ NoLine r k2 := by
          unfold NoLine
          have : s.getLast? = some 10 ↔ r = [] ∨ r.getLast? = some 10 := by
            rw [h1, List.getLast?_append]
            cases r with
            | nil => simp
            | cons a r => rw [List.getLast?_cons_cons]; simp [List.getLast?_cons]
          rw [this]
          constructor
          · rintro ⟨a, b⟩
            exact ⟨by omega, b.resolve_left hs⟩
          · rintro ⟨a, b⟩
            exact ⟨by omega, Or.inr b⟩
        have ih := lineCol_loop fuel (base + l.length + 1) (line + 1) l r k2 (by omega) (by omega)
        rw [show base + (l.length + 1 + k2) = base + l.length + 1 + k2 by omega, ed, en]
        refine ⟨ih.1, fun h => ?_⟩
        rw [ih.2 h, et, ed2, aln_append, List.count_append, List.count_cons, noNl_count h2, if_pos (by simp : 10 ∈ l ++ 10 :: r.take k2)]
        simp only [Res.ok.injEq, ErrPos.mk.injEq, and_true, true_and, beq_self_eq_true, if_true]
        refine ⟨by omega, ?_⟩
        by_cases h10 : 10 ∈ r.take k2
        · rw [if_pos h10, bln_append h10, aln_append]
        · rw [if_neg h10, bln_noNl h10, aln_noNl h2]

/-- **C71.** An error at a position of the text is reported with its line (1 + the newlines before it), its column (1 + the
    characters since the last newline), its line and the line before; only at the end of a text that is empty or ends in a newline
    there is no line, and a different exception escapes. -/
theorem error_position_exact (s : List Nat) (pos : Nat) (h : pos ≤ s.length) :
    (NoLine s pos → errorLineColumn s pos = .throw .runtime) ∧
    (¬ NoLine s pos → errorLineColumn s pos = .ok ⟨1 + (s.take pos).count 10,
      1 + (afterLastNewline (s.take pos)).length,
      if 10 ∈ s.take pos then afterLastNewline (beforeLastNewline (s.take pos)) else [],
      afterLastNewline (s.take pos) ++ restOfLine (s.drop pos)⟩) := by
  have := lineCol_loop (s.length + 1) 0 1 [] s pos (by omega) h
  simpa [errorLineColumn] using this

/-- **C71.** The marker printed under the text: whenever there is a line, nothing is raised, the last line printed consists of
    spaces and a caret, and the caret is under the character at the position of the error. -/
theorem error_marker_points (s : List Nat) (pos : Nat) (h : pos ≤ s.length) (hl : ¬ NoLine s pos) :
    ∃ lines text k, (errorLineColumn s pos >>= errorMarker) = .ok (lines ++ [text, List.replicate k 32 ++ [94]]) ∧
      ∀ c, s[pos]? = some c → c ≠ 10 → text[k]? = some c := by
  rw [(error_position_exact s pos h).2 hl, Res.bind_ok]
  generalize ha : afterLastNewline (s.take pos) = a
  generalize hb : restOfLine (s.drop pos) = b
  have hab : ∀ c, s[pos]? = some c → c ≠ 10 → (a ++ b)[a.length]? = some c := by
    intro c hc hn
    have hp : pos < s.length := by
      by_contra hp
      rw [List.getElem?_eq_none (by omega)] at hc
      cases hc
    have hc2 : s[pos] = c := by
      rw [List.getElem?_eq_getElem hp] at hc
      exact Option.some.inj hc
    have : b = c :: restOfLine (s.drop (pos + 1)) := by
      rw [← hb, List.drop_eq_getElem_cons hp, hc2]
      unfold restOfLine
      rw [List.takeWhile_cons, if_pos (by simpa using hn)]
    rw [List.getElem?_append_right (Nat.le_refl _), this]
    simp
  unfold errorMarker
  simp only
  by_cases h1 : (a ++ b).length < 200
  · rw [if_pos h1]
    refine ⟨if 1 < 1 + (s.take pos).count 10 then
      [if 10 ∈ s.take pos then afterLastNewline (beforeLastNewline (s.take pos)) else []] else [], a ++ b, a.length, ?_, hab⟩
    rw [show ((1 : Int) + a.length - 1).toNat = a.length by omega]
  · rw [if_neg h1]
    by_cases h2 : (1 : Int) + a.length < 80
    · rw [if_pos h2]
      refine ⟨[], (a ++ b).take 80 ++ [32, 46, 46, 46], a.length, ?_, fun c hc hn => ?_⟩
      · rw [show ((1 : Int) + a.length - 1).toNat = a.length by omega]
        unfold stdSubstr
        rw [if_pos (by omega)]
        rfl
      · have := hab c hc hn
        rw [List.getElem?_append_left, List.getElem?_take, if_pos (by omega), this]
        rw [List.length_take]
        have : a.length < (a ++ b).length := by
          by_contra hx
          rw [List.getElem?_eq_none (by omega)] at this
          cases this
        omega
    · rw [if_neg h2]
      refine ⟨[], [32, 46, 46, 46, 32] ++ ((a ++ b).drop (a.length - 60)).take 80 ++ [32, 46, 46, 46], 65, ?_, fun c hc hn => ?_⟩
      · have hl2 : a.length ≤ (a ++ b).length := by simp
        unfold stdSubstr
        rw [if_pos (by omega), show ((1 : Int) + a.length - 60 - 1).toNat = a.length - 60 by omega]
        rfl
      · have h3 := hab c hc hn
        have : a.length < (a ++ b).length := by
          by_contra hx
          rw [List.getElem?_eq_none (by omega)] at h3
          cases h3
        rw [List.getElem?_append_left, List.getElem?_append_right, List.getElem?_take, if_pos, List.getElem?_drop]
        · rw [show a.length - 60 + (65 - [32, 46, 46, 46, 32].length) = a.length by simp; omega]
          exact h3
        · simp
        · simp
        · rw [List.length_append, List.length_take, List.length_drop]
          simp only [List.length_cons, List.length_nil]
          omega

/-- `"[1,\n x]"` and the `x`: line 2, column 2. -/
example : (1 + (([91, 49, 44, 10, 32, 120, 93] : List Nat).take 5).count 10 = 2) ∧
    1 + (afterLastNewline (([91, 49, 44, 10, 32, 120, 93] : List Nat).take 5)).length = 2 ∧
    ¬ NoLine [91, 49, 44, 10, 32, 120, 93] 5 := by
  refine ⟨by decide, by decide, fun h => ?_⟩
  exact absurd h.1 (by decide)

/-- A truncated text that ends in a newline: the error at its end has no line. -/
theorem error_position_end_violated : ∃ s : List Nat, (∃ v, v <+: s ∧ v ≠ []) ∧ errorLineColumn s s.length = .throw .runtime :=
  ⟨[91, 49, 44, 10], ⟨[91], by decide, by decide⟩, (error_position_exact _ _ (Nat.le_refl _)).1 ⟨rfl, Or.inr rfl⟩⟩

end Dynd
