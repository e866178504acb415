/-
C69: reading a type description ends with a type or an exception, for every text.
-/
import Verif.Props.DatashapeProps

namespace Dynd

/-- no run of decimal digits in the text is longer than nine -/
def ShortNumbers (s : List Nat) : Prop :=
  ∀ p ds q, s = p ++ ds ++ q → (∀ c ∈ ds, 48 ≤ c ∧ c ≤ 57) → ds.length ≤ 9

/-- no undefined behaviour, and the result has the property -/
private def Safe {α : Type} (x : Res α) (P : α → Prop) : Prop := x ≠ .ub ∧ ∀ a, x = .ok a → P a

private theorem Safe.ok {α : Type} {a : α} {P : α → Prop} (h : P a) : Safe (.ok a) P :=
  ⟨(fun e => by cases e), fun b e => by cases e; exact h⟩
private theorem Safe.throw {α : Type} {P : α → Prop} (e : Exc) : Safe (.throw e : Res α) P :=
  ⟨(fun e => by cases e), fun b e => by cases e⟩
private theorem Safe.bind {α β : Type} {x : Res α} {f : α → Res β} {P : α → Prop} {Q : β → Prop} (h : Safe x P)
    (hf : ∀ a, P a → Safe (f a) Q) : Safe (x >>= f) Q := by
  cases x with
  | ok a => exact hf a (h.2 a rfl)
  | throw e => exact Safe.throw e
  | ub => exact absurd rfl h.1
private theorem Safe.mono {α : Type} {x : Res α} {P Q : α → Prop} (h : Safe x P) (hpq : ∀ a, P a → Q a) : Safe x Q :=
  ⟨h.1, fun a e => hpq a (h.2 a e)⟩

/-- a proper final part of `s0` -/
private def In (s0 s : List Nat) : Prop := s <:+ s0 ∧ s.length < s0.length

private theorem In.trans {a b c : List Nat} (h1 : In a b) (h2 : In b c) : In a c := ⟨h2.1.trans h1.1, by have := h1.2; have := h2.2; omega⟩
private theorem In.suf {a b c : List Nat} (h1 : In a b) (h2 : c <:+ b) : In a c := ⟨h2.trans h1.1, by have := h1.2; have := h2.length_le; omega⟩
private theorem suf_in {a b c : List Nat} (h1 : b <:+ a) (h2 : In b c) : In a c := ⟨h2.1.trans h1, by have := h2.2; have := h1.length_le; omega⟩

private theorem short_suf {a b : List Nat} (h : ShortNumbers a) (hb : b <:+ a) : ShortNumbers b := by
  obtain ⟨p0, rfl⟩ := hb
  intro p ds q e hd
  exact h (p0 ++ p) ds q (by rw [e]; simp) hd

private theorem skipWsGo_suf (b : Bool) (s : List Nat) : skipWsGo b s <:+ s := by
  induction s generalizing b with
  | nil => cases b <;> exact List.suffix_refl _
  | cons c s ih =>
    cases b with
    | true => exact (ih _).trans (List.suffix_cons _ _)
    | false =>
      simp only [skipWsGo]
      split
      · exact (ih _).trans (List.suffix_cons _ _)
      · split
        · exact (ih _).trans (List.suffix_cons _ _)
        · exact List.suffix_refl _
private theorem skipWs_suf (s : List Nat) : skipWs s <:+ s := skipWsGo_suf false s

private theorem strip_in {t s r : List Nat} (h : strip t s = some r) (ht : t ≠ []) : In s r := by
  induction t generalizing s with
  | nil => exact absurd rfl ht
  | cons a t ih =>
    cases s with
    | nil => simp [strip] at h
    | cons b s =>
      simp only [strip] at h
      split at h
      · cases t with
        | nil => simp only [strip, Option.some.injEq] at h; subst h; exact ⟨List.suffix_cons _ _, by simp⟩
        | cons a' t => exact suf_in (List.suffix_cons _ _) (ih h (by simp))
      · cases h
private theorem tok_in {t s r : List Nat} (h : tok t s = some r) (ht : t ≠ []) : In s r :=
  suf_in (skipWs_suf s) (strip_in h ht)
private theorem expect_in {t s : List Nat} (ht : t ≠ []) : Safe (expect t s) (In s) := by
  rw [expect]
  split
  · rename_i r h; exact Safe.ok (tok_in h ht)
  · exact Safe.throw _

private theorem dropWhile_suf (p : Nat → Bool) (s : List Nat) : s.dropWhile p <:+ s := List.dropWhile_suffix p

private theorem scanName_in {s n r : List Nat} (h : scanName s = some (n, r)) : In s r := by
  cases s with
  | nil => simp [scanName] at h
  | cons c s =>
    simp only [scanName] at h
    split at h
    · simp only [Option.some.injEq, Prod.mk.injEq] at h
      obtain ⟨_, rfl⟩ := h
      exact ⟨(dropWhile_suf _ _).trans (List.suffix_cons _ _), by
        have := (dropWhile_suf nameChar s).length_le; simp only [List.length_cons]; omega⟩
    · cases h

private theorem scanUInt_in {s n r : List Nat} (h : scanUInt s = some (n, r)) : In s r ∧ s = n ++ r ∧ Digits n := by
  cases s with
  | nil => simp [scanUInt] at h
  | cons c s =>
    simp only [scanUInt] at h
    split at h
    · rename_i hc
      simp only [Option.some.injEq, Prod.mk.injEq] at h
      obtain ⟨rfl, rfl⟩ := h
      refine ⟨⟨(dropWhile_suf _ _).trans (List.suffix_cons _ _), by
        have := (dropWhile_suf isDig s).length_le; simp only [List.length_cons]; omega⟩, ?_, ?_⟩
      · rw [List.cons_append, List.takeWhile_append_dropWhile]
      · intro d hd
        rcases List.mem_cons.1 hd with rfl | hd
        · omega
        · exact isDig_iff.1 ((List.all_eq_true.1 List.all_takeWhile d hd))
    · split at h
      · rename_i hc
        subst hc
        cases s with
        | nil =>
          simp only [Option.some.injEq, Prod.mk.injEq] at h
          obtain ⟨rfl, rfl⟩ := h
          exact ⟨⟨by simp, by simp⟩, rfl, by simp [Digits]⟩
        | cons d s =>
          simp only at h
          split at h
          · cases h
          · simp only [Option.some.injEq, Prod.mk.injEq] at h
            obtain ⟨rfl, rfl⟩ := h
            exact ⟨⟨List.suffix_cons _ _, by simp⟩, rfl, by simp [Digits]⟩
      · cases h

private theorem scanNameOrNum_in {s n r : List Nat} (h : scanNameOrNum s = some (n, r)) : In s r := by
  rw [scanNameOrNum] at h
  split at h
  · rename_i q hq
    simp only [Option.some.injEq] at h; subst h
    exact scanName_in hq
  · exact (scanUInt_in h).1

private theorem atoi_safe {s n r : List Nat} (hs : ShortNumbers s) (h : s = n ++ r) (hd : Digits n) : ∃ k, atoi n = .ok k := by
  have h1 := hs [] n r (by simpa using h) hd
  have h2 : decValue n < 10 ^ n.length := digVal_lt hd
  have h3 : (10 : Nat) ^ n.length ≤ 10 ^ 9 := Nat.pow_le_pow_right (by decide) h1
  exact ⟨_, by rw [atoi, if_pos (by omega)]⟩
private theorem atoll_safe {s n r : List Nat} (hs : ShortNumbers s) (h : s = n ++ r) (hd : Digits n) : ∃ k, atoll n = .ok k := by
  have h1 := hs [] n r (by simpa using h) hd
  have h2 : decValue n < 10 ^ n.length := digVal_lt hd
  have h3 : (10 : Nat) ^ n.length ≤ 10 ^ 9 := Nat.pow_le_pow_right (by decide) h1
  exact ⟨_, by rw [atoll, if_pos (by omega)]⟩

private theorem expectNumber_in {s : List Nat} (hs : ShortNumbers s) :
    Safe (expectNumber s) (fun x => In s x.2 ∧ (∃ k, atoi x.1 = .ok k) ∧ ∃ k, atoll x.1 = .ok k) := by
  rw [expectNumber]
  split
  · rename_i r h
    obtain ⟨h1, h2, h3⟩ := scanUInt_in h
    have hs' := short_suf hs (skipWs_suf s)
    exact Safe.ok ⟨suf_in (skipWs_suf s) h1, atoi_safe hs' h2 h3, atoll_safe hs' h2 h3⟩
  · exact Safe.throw _

private theorem parseInt_safe (n : List Nat) : Safe (parseInt ⟨64, true⟩ n) (fun _ => True) :=
  ⟨(parse_signed_sound (bits := 64) (by decide) n).1, fun _ _ => trivial⟩

private theorem utf8Append_safe (c : Nat) : Safe (utf8Append c) (fun _ => True) := by
  refine ⟨?_, fun _ _ => trivial⟩
  unfold utf8Append
  split_ifs <;> simp

private theorem dsQuotedLoop_safe (q : Nat) (f : Nat) : ∀ s : List Nat, s.length ≤ f → Safe (dsQuotedLoop q f s) (fun x => In s x.2) := by
  induction f with
  | zero =>
    intro s hs
    obtain rfl : s = [] := List.length_eq_zero_iff.1 (by omega)
    exact Safe.throw _
  | succ f ih =>
    intro s hs
    cases s with
    | nil => exact Safe.throw _
    | cons c s =>
      have h0 : ∀ (w : List Nat) (r : List Nat), In (c :: s) r → r.length ≤ f →
          Safe (do let (v, r) ← dsQuotedLoop q f r; pure (w ++ v, r)) (fun x => In (c :: s) x.2) := by
        intro w r hr hl
        refine Safe.bind (ih r hl) ?_
        rintro ⟨v, r'⟩ h
        exact Safe.ok (In.trans hr h)
      have hl : s.length ≤ f := by simp at hs; omega
      have hin : In (c :: s) s := ⟨List.suffix_cons _ _, by simp⟩
      rw [dsQuotedLoop.eq_def]
      simp only
      split
      · cases s with
        | nil => exact Safe.throw _
        | cons d s =>
          have hl2 : s.length ≤ f := by simp at hl; omega
          have hin2 : In (c :: d :: s) s := In.trans hin ⟨List.suffix_cons _ _, by simp⟩
          simp only
          split
          · exact h0 [d] s hin2 hl2
          split
          · exact h0 [8] s hin2 hl2
          split
          · exact h0 [12] s hin2 hl2
          split
          · exact h0 [10] s hin2 hl2
          split
          · exact h0 [13] s hin2 hl2
          split
          · exact h0 [9] s hin2 hl2
          split
          · split
            · exact Safe.throw _
            split
            · refine Safe.bind (utf8Append_safe _) (fun a _ => ?_)
              exact h0 a _ (In.suf hin2 (List.drop_suffix _ _)) (by simp; omega)
            · exact Safe.throw _
          · exact Safe.throw _
      · split
        · exact h0 [c] s hin hl
        · exact Safe.ok hin

private theorem dsQuoted_safe (s : List Nat) : Safe (dsQuoted s) (fun o => ∀ v r, o = some (v, r) → In s r) := by
  rw [dsQuoted.eq_def]
  split
  · refine Safe.bind (dsQuotedLoop_safe _ _ _ (by omega)) (fun x hx => Safe.ok ?_)
    intro v r e
    cases e
    exact suf_in (List.suffix_cons _ _) hx
  · refine Safe.bind (dsQuotedLoop_safe _ _ _ (by omega)) (fun x hx => Safe.ok ?_)
    intro v r e
    cases e
    exact suf_in (List.suffix_cons _ _) hx
  · exact Safe.ok (fun v r e => by cases e)

/-- the result of a type parser on a text: what is left is a proper final part of it -/
private def POk (s0 : List Nat) (o : Option (Ty × List Nat)) : Prop := ∀ t r, o = some (t, r) → In s0 r
/-- `rec` behaves on every proper final part of `s0` -/
private def RecOk (rec : List Nat → PRes) (s0 : List Nat) : Prop := ∀ s, In s0 s → Safe (rec s) (POk s)

private theorem some_ok {s0 s : List Nat} {t : Ty} (h : In s0 s) : POk s0 (some (t, s)) := by
  intro t' r e; cases e; exact h
private theorem none_ok (s0 : List Nat) : POk s0 none := by intro t' r e; cases e

private theorem need_safe {s s0 : List Nat} {x : PRes} (hs : In s0 s) (h : Safe x (POk s)) : Safe (need x) (fun y => In s0 y.2) := by
  rw [need]
  refine Safe.bind h (fun o ho => ?_)
  cases o with
  | none => exact Safe.throw _
  | some y => exact Safe.ok (In.trans hs (ho y.1 y.2 rfl))

private theorem need_safe' {s : List Nat} {x : PRes} (h : Safe x (POk s)) : Safe (need x) (fun y => In s y.2) := by
  rw [need]
  refine Safe.bind h (fun o ho => ?_)
  cases o with
  | none => exact Safe.throw _
  | some y => exact Safe.ok (ho y.1 y.2 rfl)

private theorem mk_safe {x : Res Ty} (h : x ≠ .ub) : Safe x (fun _ => True) := ⟨h, fun _ _ => trivial⟩

private theorem encOf_safe (v : List Nat) : Safe (encOf v) (fun _ => True) := by
  refine ⟨?_, fun _ _ => trivial⟩
  unfold encOf; split_ifs <;> simp

private theorem bytesArgs_safe {s0 s : List Nat} (hs : ShortNumbers s0) (h : In s0 s) : Safe (bytesArgs s) (POk s0) := by
  refine Safe.bind (expect_in (by decide)) (fun s1 h1 => ?_)
  refine Safe.bind (expect_in (by decide)) (fun s2 h2 => ?_)
  refine Safe.bind (expect_in (by decide)) (fun s3 h3 => ?_)
  have h3' := In.trans (In.trans (In.trans h h1) h2) h3
  refine Safe.bind (expectNumber_in (short_suf hs h3'.1)) (fun x hx => ?_)
  obtain ⟨g1, ⟨k, g2⟩, _⟩ := hx
  refine Safe.bind (expect_in (by decide)) (fun s4 h4 => ?_)
  rw [g2, Res.bind_ok]
  refine Safe.bind (mk_safe (by unfold mkBytes; split_ifs <;> simp)) (fun t _ => ?_)
  exact Safe.ok (some_ok (In.trans (In.trans h3' g1) h4))

private theorem mkFixedBytes_safe (n a : Nat) : Safe (mkFixedBytes n a) (fun _ => True) :=
  mk_safe (by unfold mkFixedBytes; split_ifs <;> simp)

private theorem fixedBytesArgs_safe {s0 s : List Nat} (hs : ShortNumbers s0) (h : In s0 s) : Safe (fixedBytesArgs s) (POk s0) := by
  refine Safe.bind (expect_in (by decide)) (fun s1 h1 => ?_)
  have h1' := In.trans h h1
  refine Safe.bind (expectNumber_in (short_suf hs h1'.1)) (fun x hx => ?_)
  obtain ⟨g1, ⟨k, g2⟩, _⟩ := hx
  have h2 := In.trans h1' g1
  simp only
  split
  · rename_i s3 h3
    rw [g2, Res.bind_ok]
    refine Safe.bind (mkFixedBytes_safe _ _) (fun t _ => ?_)
    exact Safe.ok (some_ok (In.trans h2 (tok_in h3 (by decide))))
  · refine Safe.bind (expect_in (by decide)) (fun s3 h3 => ?_)
    refine Safe.bind (expect_in (by decide)) (fun s4 h4 => ?_)
    refine Safe.bind (expect_in (by decide)) (fun s5 h5 => ?_)
    have h5' := In.trans (In.trans (In.trans h2 h3) h4) h5
    refine Safe.bind (expectNumber_in (short_suf hs h5'.1)) (fun y hy => ?_)
    obtain ⟨k1, ⟨j, k2⟩, _⟩ := hy
    refine Safe.bind (expect_in (by decide)) (fun s6 h6 => ?_)
    rw [g2, Res.bind_ok, k2, Res.bind_ok]
    refine Safe.bind (mkFixedBytes_safe _ _) (fun t _ => ?_)
    exact Safe.ok (some_ok (In.trans (In.trans h5' k1) h6))

private theorem encArg_safe (s : List Nat) : Safe (encArg s) (fun x => In s x.2) := by
  rw [encArg]
  refine Safe.bind (dsQuoted_safe _) (fun o ho => ?_)
  cases o with
  | none => exact Safe.throw _
  | some x =>
    refine Safe.bind (encOf_safe _) (fun e _ => ?_)
    exact Safe.ok (suf_in (skipWs_suf s) (ho x.1 x.2 rfl))

private theorem fixedStringArgs_safe {s0 s : List Nat} (hs : ShortNumbers s0) (h : In s0 s) : Safe (fixedStringArgs s) (POk s0) := by
  refine Safe.bind (expect_in (by decide)) (fun s1 h1 => ?_)
  have h1' := In.trans h h1
  split
  · rename_i n s2 hn
    obtain ⟨g1, g2, g3⟩ := scanUInt_in hn
    obtain ⟨k, hk⟩ := atoi_safe (short_suf hs ((skipWs_suf s1).trans h1'.1)) g2 g3
    have h2 := In.trans h1' (suf_in (skipWs_suf s1) g1)
    rw [hk, Res.bind_ok]
    simp only
    split
    · exact Safe.throw _
    · split
      · rename_i s3 h3
        refine Safe.bind (encArg_safe _) (fun x hx => ?_)
        refine Safe.bind (expect_in (by decide)) (fun s4 h4 => ?_)
        exact Safe.ok (some_ok (In.trans (In.trans (In.trans h2 (tok_in h3 (by decide))) hx) h4))
      · refine Safe.bind (expect_in (by decide)) (fun s4 h4 => ?_)
        exact Safe.ok (some_ok (In.trans h2 h4))
  · refine Safe.bind (encArg_safe _) (fun x hx => ?_)
    refine Safe.bind (expect_in (by decide)) (fun s4 h4 => ?_)
    exact Safe.ok (some_ok (In.trans (In.trans h1' hx) h4))

private theorem charArgs_safe {s0 s : List Nat} (h : In s0 s) : Safe (charArgs s) (POk s0) := by
  refine Safe.bind (expect_in (by decide)) (fun s1 h1 => ?_)
  refine Safe.bind (encArg_safe _) (fun x hx => ?_)
  refine Safe.bind (expect_in (by decide)) (fun s4 h4 => ?_)
  refine Safe.bind (mk_safe (by unfold mkChar; split_ifs <;> simp)) (fun t _ => ?_)
  exact Safe.ok (some_ok (In.trans (In.trans (In.trans h h1) hx) h4))

private theorem oneTypeArg_safe {rec : List Nat → PRes} {mk : Ty → Res Ty} {s0 s : List Nat} (hr : RecOk rec s0) (hm : ∀ t, mk t ≠ .ub)
    (h : In s0 s) : Safe (oneTypeArg rec mk s) (POk s0) := by
  refine Safe.bind (expect_in (by decide)) (fun s1 h1 => ?_)
  have h1' := In.trans h h1
  refine Safe.bind (need_safe h1' (hr s1 h1')) (fun x hx => ?_)
  refine Safe.bind (expect_in (by decide)) (fun s2 h2 => ?_)
  refine Safe.bind (mk_safe (hm _)) (fun t _ => ?_)
  exact Safe.ok (some_ok (In.trans hx h2))

private theorem fixedArgs_safe {rec : List Nat → PRes} {s0 s : List Nat} (hs : ShortNumbers s0) (hr : RecOk rec s0) (h : In s0 s) :
    Safe (fixedArgs rec s) (POk s0) := by
  refine Safe.bind (expect_in (by decide)) (fun s1 h1 => ?_)
  have h1' := In.trans h h1
  refine Safe.bind (expectNumber_in (short_suf hs h1'.1)) (fun x hx => ?_)
  obtain ⟨g1, _, ⟨k, g2⟩⟩ := hx
  simp only
  rw [g2, Res.bind_ok]
  refine Safe.bind (expect_in (by decide)) (fun s2 h2 => ?_)
  refine Safe.bind (expect_in (by decide)) (fun s3 h3 => ?_)
  have h3' := In.trans (In.trans (In.trans h1' g1) h2) h3
  refine Safe.bind (need_safe h3' (hr s3 h3')) (fun y hy => ?_)
  exact Safe.ok (some_ok hy)

private theorem mkOptionTy_ne (t : Ty) : mkOptionTy t ≠ .ub := by cases t <;> simp [mkOptionTy]

private theorem regArgs_safe {rec : List Nat → PRes} {s0 s : List Nat} (hs : ShortNumbers s0) (hr : RecOk rec s0) (h : In s0 s) (r : Reg) :
    Safe (regArgs rec s r) (POk s0) := by
  cases r with
  | bytes => exact bytesArgs_safe hs h
  | char => exact charArgs_safe h
  | fixedBytes => exact fixedBytesArgs_safe hs h
  | fixedString => exact fixedStringArgs_safe hs h
  | fixed => exact fixedArgs_safe hs hr h
  | option => exact oneTypeArg_safe hr mkOptionTy_ne h
  | pointer => exact oneTypeArg_safe (mk := fun t => .ok (.pointer t)) hr (fun _ => nofun) h
  | _ => exact Safe.throw _

private theorem regSingle_safe {s0 s : List Nat} (h : In s0 s) (r : Reg) : Safe (regSingle s r) (POk s0) := by
  cases r <;> first | exact Safe.ok (some_ok h) | exact Safe.throw _

private theorem complexParams_safe {rec : List Nat → PRes} {s0 s : List Nat} (hr : RecOk rec s0) (h : In s0 s) :
    Safe (complexParams rec s) (POk s0) := by
  rw [complexParams]
  split
  · rename_i b hb
    have hb' := In.trans h (tok_in hb (by decide))
    refine Safe.bind (need_safe hb' (hr b hb')) (fun x hx => ?_)
    refine Safe.bind (expect_in (by decide)) (fun s2 h2 => ?_)
    have h2' := In.trans hx h2
    split
    · exact Safe.ok (some_ok h2')
    · exact Safe.ok (some_ok h2')
    · exact Safe.throw _
  · exact Safe.ok (some_ok h)

private theorem dtypeNamed_safe {rec : List Nat → PRes} {s0 s : List Nat} (hs : ShortNumbers s0) (hr : RecOk rec s0) (h : In s0 s)
    (n : List Nat) : Safe (dtypeNamed rec n s) (POk s0) := by
  rw [dtypeNamed]
  split
  · exact complexParams_safe hr h
  split
  · exact Safe.throw _
  split
  · exact Safe.ok (some_ok h)
  split
  · split
    · exact regArgs_safe hs hr h _
    · exact regSingle_safe h _
  · split
    · split
      · exact Safe.ok (some_ok h)
      · exact Safe.throw _
    · exact Safe.throw _

private theorem dimNamed_safe (n : List Nat) (el : Ty) : Safe (dimNamed n el) (fun _ => True) := by
  rw [dimNamed]
  split
  · exact Safe.bind (parseInt_safe n) (fun k _ => Safe.ok trivial)
  · split
    all_goals first
      | exact Safe.ok trivial
      | exact Safe.throw _
      | (split <;> first | exact Safe.ok trivial | exact Safe.throw _)

private theorem powBase_safe (n : List Nat) : Safe (dsPowBase n) (fun _ => True) := by
  rw [dsPowBase]
  split
  · exact Safe.bind (parseInt_safe n) (fun k _ => Safe.ok trivial)
  · split_ifs
    all_goals first
      | exact Safe.ok trivial
      | exact Safe.throw _

private theorem dsItem_safe {rec : List Nat → PRes} {s0 s : List Nat} (hr : RecOk rec s0) (h : In s0 s) (q : Bool) :
    Safe (dsItem rec q s) (fun o => ∀ e r, o = some (e, r) → In s r) := by
  rw [dsItem]
  have hn : Safe (match scanName (skipWs s) with
      | some r => Res.ok (some r)
      | none => if q = true then dsQuoted (skipWs s) else .ok none) (fun o => ∀ n r, o = some (n, r) → In s r) := by
    split
    · rename_i r hr'
      refine Safe.ok ?_
      intro n r' e
      simp only [Option.some.injEq] at e
      subst e
      exact suf_in (skipWs_suf s) (scanName_in hr')
    · split
      · exact (dsQuoted_safe _).mono (fun o ho n r e => suf_in (skipWs_suf s) (ho n r e))
      · exact Safe.ok (fun n r e => by cases e)
  refine Safe.bind hn (fun o ho => ?_)
  split
  · exact Safe.ok (fun e r h => by cases h)
  · rename_i n s1
    have h1 := ho n s1 rfl
    refine Safe.bind (expect_in (by decide)) (fun s2 h2 => ?_)
    have h2' := In.trans h1 h2
    refine Safe.bind (need_safe (s0 := s) h2' (hr s2 (In.trans h h2'))) (fun x hx => ?_)
    refine Safe.ok ?_
    intro e r he
    cases he
    exact hx

private theorem dsFields_safe {rec : List Nat → PRes} {s0 : List Nat} (hr : RecOk rec s0) (q : Bool) (close : List Nat) (hc : close ≠ []) (f : Nat) :
    ∀ s, In s0 s → s.length < f → Safe (dsFields rec q close f s) (fun x => In s0 x.2.2) := by
  induction f with
  | zero => intro s _ hl; omega
  | succ f ih =>
    intro s h hl
    rw [dsFields]
    split
    · rename_i s1 h1
      refine Safe.bind (expect_in hc) (fun s2 h2 => ?_)
      exact Safe.ok (In.trans (In.trans h (tok_in h1 (by decide))) h2)
    · refine Safe.bind (dsItem_safe hr h q) (fun o ho => ?_)
      split
      · exact Safe.throw _
      · rename_i x s1
        have h1 := ho x s1 rfl
        split
        · rename_i s2 h2
          have h2' := In.trans h1 (tok_in h2 (by decide))
          split
          · rename_i s3 h3
            exact Safe.ok (In.trans h (In.trans h2' (tok_in h3 hc)))
          · refine Safe.bind (ih s2 (In.trans h h2') (by have := h2'.2; omega)) (fun y hy => ?_)
            exact Safe.ok hy
        · refine Safe.bind (expect_in hc) (fun s2 h2 => ?_)
          exact Safe.ok (In.trans h (In.trans h1 h2))

private theorem parseStruct_safe {rec : List Nat → PRes} {s0 s : List Nat} (hr : RecOk rec s0) (h : s <:+ s0) :
    Safe (parseStruct rec s) (POk s0) := by
  rw [parseStruct]
  split
  · exact Safe.ok (none_ok _)
  · rename_i s1 h1
    have h1' := suf_in h (tok_in h1 (by decide))
    split
    · rename_i s2 h2
      exact Safe.ok (some_ok (In.trans h1' (tok_in h2 (by decide))))
    · refine Safe.bind (dsFields_safe hr _ _ (by decide) _ s1 h1' (by omega)) (fun x hx => ?_)
      exact Safe.ok (some_ok hx)

private theorem kwdAhead_in {s s' : List Nat} {v : Bool} (h : kwdAhead s = some (v, s')) : s' <:+ s := by
  unfold kwdAhead at h
  simp only at h
  split at h
  · rename_i n r hn
    split at h
    · rename_i hc
      simp only [Option.some.injEq, Prod.mk.injEq] at h
      obtain ⟨_, rfl⟩ := h
      split
      · rename_i s1 h1
        split
        · rename_i s2 h2
          exact (In.trans (tok_in h1 (by decide)) (tok_in h2 (by decide))).1
        · exact List.suffix_refl _
      · exact List.suffix_refl _
    · cases h
  · cases h

private theorem dsItems_safe {rec : List Nat → PRes} {s0 : List Nat} (hr : RecOk rec s0) (f : Nat) :
    ∀ s, In s0 s → s.length < f → Safe (dsItems rec f s) (fun x => In s0 x.2.2.2) := by
  induction f with
  | zero => intro s _ hl; omega
  | succ f ih =>
    intro s h hl
    rw [dsItems]
    split
    · rename_i v s1 h1
      have h1' := In.suf h (kwdAhead_in h1)
      refine Safe.bind (dsFields_safe hr _ _ (by decide) _ s1 h1' (by omega)) (fun x hx => ?_)
      exact Safe.ok hx
    · split
      · rename_i s1 h1
        rw [Option.bind_eq_some_iff] at h1
        obtain ⟨s2, h2, h3⟩ := h1
        exact Safe.ok (In.trans h (In.trans (tok_in h2 (by decide)) (tok_in h3 (by decide))))
      · refine Safe.bind (need_safe' (hr s h)) (fun x hx => ?_)
        simp only
        split
        · rename_i s2 h2
          have h2' := In.trans hx (tok_in h2 (by decide))
          split
          · rename_i s3 h3
            exact Safe.ok (In.trans h (In.trans h2' (tok_in h3 (by decide))))
          · refine Safe.bind (ih s2 (In.trans h h2') (by have := h2'.2; omega)) (fun y hy => ?_)
            exact Safe.ok hy
        · refine Safe.bind (expect_in (by decide)) (fun s2 h2 => ?_)
          exact Safe.ok (In.trans h (In.trans hx h2))

private theorem parseTuple_safe {rec : List Nat → PRes} {s0 s : List Nat} (hr : RecOk rec s0) (h : s <:+ s0) :
    Safe (parseTuple rec s) (POk s0) := by
  rw [parseTuple]
  split
  · exact Safe.ok (none_ok _)
  · rename_i s1 h1
    have h1' := suf_in h (tok_in h1 (by decide))
    have hb : Safe (match tok (str ")") s1 with
        | some s => Res.ok (([] : List Ty), false, (none : Option Ty), s)
        | none => dsItems rec (s1.length + 1) s1) (fun x => In s0 x.2.2.2) := by
      split
      · rename_i s2 h2
        exact Safe.ok (In.trans h1' (tok_in h2 (by decide)))
      · exact dsItems_safe hr _ s1 h1' (by omega)
    refine Safe.bind hb (fun x hx => ?_)
    simp only
    split
    · exact Safe.ok (some_ok hx)
    · rename_i s2 h2
      have h2' := In.trans hx (tok_in h2 (by decide))
      refine Safe.bind (need_safe h2' (hr s2 h2')) (fun y hy => ?_)
      exact Safe.ok (some_ok hy)

private theorem structOrTuple_safe {rec : List Nat → PRes} {s0 s : List Nat} (hr : RecOk rec s0) (h : s <:+ s0) :
    Safe (structOrTuple rec s) (POk s0) := by
  rw [structOrTuple]
  refine Safe.bind (parseStruct_safe hr h) (fun o ho => ?_)
  cases o with
  | none => exact parseTuple_safe hr h
  | some r => exact Safe.ok ho

private theorem powDim_safe {rec : List Nat → PRes} {s0 s : List Nat} (hr : RecOk rec s0) (h : In s0 s) (n : List Nat) :
    Safe (powDim rec n s) (POk s0) := by
  rw [powDim]
  split
  · exact Safe.throw _
  · rename_i x s1 h1
    have h1' := In.trans h (scanNameOrNum_in h1)
    split
    · refine Safe.bind (parseInt_safe x) (fun e _ => ?_)
      refine Safe.bind (expect_in (by decide)) (fun s2 h2 => ?_)
      have h2' := In.trans h1' h2
      refine Safe.bind (hr s2 h2') (fun o ho => ?_)
      split
      · exact Safe.throw _
      · rename_i el s3
        refine Safe.bind (powBase_safe n) (fun mk _ => ?_)
        exact Safe.ok (some_ok (In.trans h2' (ho el s3 rfl)))
    · split
      · split
        · exact structOrTuple_safe hr h1'.1
        · rename_i s2 h2
          have h2' := In.trans h1' (tok_in h2 (by decide))
          refine Safe.bind (powBase_safe n) (fun mk _ => ?_)
          refine Safe.bind (hr s2 h2') (fun o ho => ?_)
          split
          · exact Safe.throw _
          · rename_i el s3
            exact Safe.ok (some_ok (In.trans h2' (ho el s3 rfl)))
      · exact Safe.throw _

private theorem noOptNamed_safe {rec : List Nat → PRes} {s0 s : List Nat} (hs : ShortNumbers s0) (hr : RecOk rec s0) (h : In s0 s)
    (n : List Nat) : Safe (noOptNamed rec n s) (POk s0) := by
  rw [noOptNamed]
  split
  · rename_i b hb
    exact powDim_safe hr (In.trans h (tok_in hb (by decide))) n
  split
  · rename_i b hb
    have hb' := In.trans h (tok_in hb (by decide))
    refine Safe.bind (need_safe hb' (hr b hb')) (fun x hx => ?_)
    refine Safe.bind (dimNamed_safe n _) (fun t _ => ?_)
    exact Safe.ok (some_ok hx)
  split
  · rename_i b hb
    refine Safe.bind (expect_in (by decide)) (fun b2 h2 => ?_)
    have hb' := In.trans (In.trans h (tok_in hb (by decide))) h2
    refine Safe.bind (need_safe hb' (hr b2 hb')) (fun x hx => ?_)
    refine Safe.bind (mk_safe (by unfold mkEllipsis; split_ifs <;> simp)) (fun t _ => ?_)
    exact Safe.ok (some_ok hx)
  · exact dtypeNamed_safe hs hr h n

private theorem noOpt_safe {rec : List Nat → PRes} {s0 s : List Nat} (hs : ShortNumbers s0) (hr : RecOk rec s0) (h : s <:+ s0) :
    Safe (noOpt rec s) (POk s0) := by
  rw [noOpt]
  have h' := (skipWs_suf s).trans h
  simp only
  split
  · rename_i n b hb
    exact noOptNamed_safe hs hr (suf_in h' (scanNameOrNum_in hb)) n
  split
  · rename_i b hb
    refine Safe.bind (expect_in (by decide)) (fun b2 h2 => ?_)
    have hb' := In.trans (suf_in h' (strip_in hb (by decide))) h2
    refine Safe.bind (need_safe hb' (hr b2 hb')) (fun x hx => ?_)
    exact Safe.ok (some_ok hx)
  · exact structOrTuple_safe hr h'

private theorem parseTy_safe (f : Nat) : ∀ s, ShortNumbers s → s.length < f → Safe (parseTy f s) (POk s) := by
  induction f with
  | zero => intro s _ hl; omega
  | succ f ih =>
    intro s hs hl
    have hr : RecOk (parseTy f) s := fun s' h' => ih s' (short_suf hs h'.1) (by have := h'.2; omega)
    rw [parseTy]
    split
    · rename_i b hb
      have hb' := suf_in (skipWs_suf s) (strip_in hb (by decide))
      refine Safe.bind (noOpt_safe hs hr hb'.1) (fun o ho => ?_)
      split
      · exact Safe.ok (none_ok _)
      · rename_i t r
        refine Safe.bind (mk_safe (mkOptionTy_ne t)) (fun u _ => ?_)
        exact Safe.ok (some_ok (ho t r rfl))
    · exact noOpt_safe hs hr (List.suffix_refl _)

private theorem trimLeft_suf (s : List Nat) : trimLeft s <:+ s := by
  induction s with
  | nil => exact List.suffix_refl _
  | cons c s ih =>
    rw [trimLeft]
    split
    · exact ih.trans (List.suffix_cons _ _)
    · exact List.suffix_refl _

private theorem parseStmt_safe {f : Nat} {s : List Nat} (hs : ShortNumbers s) (hl : s.length < f) (syms : List (List Nat)) :
    Safe (parseStmt f syms s) (fun o => ∀ t r y, o = some (t, r, y) → In s r) := by
  rw [parseStmt]
  split
  · rename_i h1
    refine Safe.ok ?_
    intro t r y e
    cases e
    exact tok_in h1 (by decide)
  · rename_i c r h1
    have h1' := tok_in h1 (by decide)
    split
    · split
      · split
        · refine Safe.ok ?_
          intro t r' y e
          cases e
          exact In.suf h1' List.nil_suffix
        · exact Safe.throw _
      · rename_i n b hb
        have hb' := In.trans (In.suf h1' (trimLeft_suf _)) (scanName_in hb)
        refine Safe.bind (expect_in (by decide)) (fun b2 h2 => ?_)
        have h2' := In.trans hb' h2
        refine Safe.bind (need_safe h2' (parseTy_safe f b2 (short_suf hs h2'.1) (by have := h2'.2; omega))) (fun x hx => ?_)
        simp only
        split
        · exact Safe.throw _
        split
        · exact Safe.throw _
        · refine Safe.ok ?_
          intro t r' y e
          cases e
          exact hx
    · exact Safe.ok (fun t r y e => by cases e)
  · refine Safe.bind (parseTy_safe f s hs hl) (fun o ho => ?_)
    split
    · exact Safe.ok (fun t r y e => by cases e)
    · rename_i t b
      refine Safe.ok ?_
      intro t' r y e
      cases e
      exact ho t b rfl

private theorem parseTopLoop_safe {f : Nat} (k : Nat) : ∀ (syms : List (List Nat)) (t : Ty) (s : List Nat), ShortNumbers s → s.length < f →
    s.length < k → Safe (parseTopLoop f k syms t s) (fun _ => True) := by
  induction k with
  | zero => intro _ _ _ _ _ hl; omega
  | succ k ih =>
    intro syms t s hs hf hk
    rw [parseTopLoop]
    refine Safe.bind (parseStmt_safe hs hf syms) (fun o ho => ?_)
    split
    · split
      · exact Safe.ok trivial
      · exact Safe.throw _
    · rename_i t' s' y
      have h := ho t' s' y rfl
      exact ih _ _ _ (short_suf hs h.1) (by have := h.2; omega) (by have := h.2; omega)

/-- C69: for every text (any bytes, any length and nesting) in which no run of digits is longer than nine, reading it
    as a type description ends with a type or with an exception: no undefined behaviour, and the recursion and all
    loops terminate.  Missing: longer numbers, where `atoi` and `atoll` overflow, see `datashape_long_number_violated`;
    the C++ stack, whose use grows with the nesting depth of the text; the parts of the parser that are not modelled
    end in the exception `unmodelled`. -/
theorem datashape_parse_total_partial (s : List Nat) (hs : ShortNumbers s) :
    (∃ t, typeFromDatashape s = .ok t) ∨ ∃ e, typeFromDatashape s = .throw e := by
  have h : Safe (typeFromDatashape s) (fun _ => True) := by
    rw [typeFromDatashape]
    refine Safe.bind (parseStmt_safe hs (by omega) []) (fun o ho => ?_)
    split
    · exact Safe.throw _
    · rename_i t b y
      have h := ho t b y rfl
      exact parseTopLoop_safe _ _ _ _ (short_suf hs h.1) (by have := h.2; omega) (by have := h.2; omega)
  cases e : typeFromDatashape s with
  | ok t => exact Or.inl ⟨t, rfl⟩
  | throw x => exact Or.inr ⟨x, rfl⟩
  | ub => exact absurd e h.1

/-- The nesting bound of the model is not a restriction: with any larger bound nothing changes in whether the parse of
    a text ends, since the parse never gets to the bound. -/
theorem datashape_depth_enough (s : List Nat) (hs : ShortNumbers s) (f : Nat) (hf : s.length < f) : parseTy f s ≠ .ub :=
  (parseTy_safe f s hs hf).1

/-- texts without digits meet the hypothesis -/
theorem shortNumbers_of_no_digit {s : List Nat} (h : ∀ c ∈ s, c < 48 ∨ 57 < c) : ShortNumbers s := by
  intro p ds q e hd
  cases ds with
  | nil => simp
  | cons d ds =>
    have h1 := hd d (by simp)
    have h2 := h d (by rw [e]; simp)
    omega

example : ShortNumbers (str "{x: ?string, 'y z': (T, ...) -> Dims... * void") ∧
    typeFromDatashape (str "{x: ?string, 'y z': (T, ...) -> Dims... * void") = .throw .parse :=
  ⟨shortNumbers_of_no_digit (by decide), rfl⟩

/-- Without the bound on numbers the parser runs into the undefined overflow of `atoi`. -/
theorem datashape_long_number_violated : typeFromDatashape (str "bytes[align=2147483648]") = .ub := rfl

/-- A dimension size that does not fit is not always rejected: `25000000000000000000` is read as 6553255926290448384. -/
theorem datashape_dim_wraps_violated :
    typeFromDatashape (str "25000000000000000000 * bool") = .ok (.fixedDim 6553255926290448384 (.prim .bool)) := by
  have h : parseInt ⟨64, true⟩ (str "25000000000000000000") = .ok 6553255926290448384 := by decide +kernel
  have e0 : dimNamed (str "25000000000000000000") (.prim .bool) = .ok (.fixedDim 6553255926290448384 (.prim .bool)) := by
    rw [dimNamed, if_pos (by rfl), h]; rfl
  have e3 : ∀ n f, noOptNamed (parseTy (f + 1)) n (str " * bool")
      = (do let t ← dimNamed n (.prim .bool); pure (some (t, []))) := fun n f => rfl
  have e4 : scanNameOrNum (skipWs (str "25000000000000000000 * bool")) = some (str "25000000000000000000", str " * bool") := rfl
  have e5 : strip (str "?") (skipWs (str "25000000000000000000 * bool")) = none := rfl
  have e1 : ∀ f, parseTy (f + 2) (str "25000000000000000000 * bool")
      = .ok (some (.fixedDim 6553255926290448384 (.prim .bool), [])) := by
    intro f
    rw [parseTy, e5]
    simp only [noOpt, e4, e3, e0, Res.bind_ok, Res.pure_eq]
  have e2 : typeFromDatashape (str "25000000000000000000 * bool")
      = (do match ← (do match ← parseTy (26 + 2) (str "25000000000000000000 * bool") with
                        | none => pure none
                        | some (t, b) => pure (some (t, b, []))) with
            | none => .throw .parse
            | some (t, b, syms) => parseTopLoop 28 28 syms t b) := rfl
  rw [e2, e1]
  rfl

end Dynd
