/-
C120: which pairs of arrays a two-argument operator combines correctly, and the proof that it does.
-/
import Verif.Props.BinarySteps

namespace Dynd

/-! ### Specification: the pairs of arrays -/

/-- The dimension of the result; `none` is `var`. -/
inductive DimRes : Option Nat → Option Nat → Option Nat → Prop
  | same (n : Nat) : DimRes (some n) (some n) (some n)
  | left (m : Nat) : DimRes (some 1) (some m) (some m)
  | right (n : Nat) : DimRes (some n) (some 1) (some n)
  | varVar : DimRes none none none
  | varOne : DimRes none (some 1) none
  | oneVar : DimRes (some 1) none none
  | varFixed (m : Nat) : m ≠ 1 → DimRes none (some m) (some m)
  | fixedVar (n : Nat) : n ≠ 1 → DimRes (some n) none (some n)

/-- What is below the dimension `p` when it meets `q`: nothing but dimensions of size 1 if `p` has size 1, or if `p` is
    fixed and `q` is `var`. -/
def Below (p q : Option Nat) (a : List (Option Nat)) : Prop :=
  (p = some 1 ∨ (p ≠ none ∧ q = none)) → ∀ x ∈ a, x = some 1

/-- An operand `b` repeated along the dimension `p` of the other one does not begin with `var`; along a `var` dimension
    it must begin with a dimension of size 1. -/
def Repeats (p : Option Nat) (b : List (Option Nat)) : Prop :=
  b.head? ≠ some none ∧ (p = none → b.head? = some (some 1))

/-- `Bcast a b r`: arrays with the dimensions `a` and `b` are combined correctly, the result having the dimensions `r`. -/
inductive Bcast : List (Option Nat) → List (Option Nat) → List (Option Nat) → Prop
  | nil : Bcast [] [] []
  | both (p q t : Option Nat) {a b r : List (Option Nat)} : a.length = b.length → DimRes p q t → Below p q a → Below q p b →
      Bcast a b r → Bcast (p :: a) (q :: b) (t :: r)
  | repeatR (p : Option Nat) {a b r : List (Option Nat)} : b.length ≤ a.length → Repeats p b →
      (p = some 1 → ∀ x ∈ a, x = some 1) → Bcast a b r → Bcast (p :: a) b (p :: r)
  | repeatL (q : Option Nat) {a b r : List (Option Nat)} : a.length ≤ b.length → Repeats q a →
      (q = some 1 → ∀ x ∈ b, x = some 1) → Bcast a b r → Bcast a (q :: b) (q :: r)

/-! ### Unfolding `combine` -/

theorem combine_both {α β γ : Type} (op : α → β → γ) {a b : Nat} (h : a = b) (u : NestVal α) (v : NestVal β) :
    combine op (max (a + 1) (b + 1)) (a + 1) (b + 1) u v =
      (agreedSize u.items.length v.items.length).bind fun n =>
        (zipAll (combine op (max a b) a b) (stretch n u.items) (stretch n v.items)).map .list := by
  subst h
  simp [combine, Nat.max_self]

theorem combine_repR {α β γ : Type} (op : α → β → γ) {a b : Nat} (h : b ≤ a) (u : NestVal α) (v : NestVal β) :
    combine op (max (a + 1) b) (a + 1) b u v =
      (agreedSize u.items.length [v].length).bind fun n =>
        (zipAll (combine op (max a b) a b) (stretch n u.items) (stretch n [v])).map .list := by
  have e1 : max (a + 1) b = a + 1 := by omega
  have e2 : max a b = a := by omega
  have e3 : min b a = b := by omega
  have e4 : b < a + 1 := by omega
  have e5 : min (a + 1) a = a := by omega
  rw [e1, e2]
  simp only [combine, e3, e4, e5, Nat.lt_irrefl, if_true, if_false]

theorem combine_repL {α β γ : Type} (op : α → β → γ) {a b : Nat} (h : a ≤ b) (u : NestVal α) (v : NestVal β) :
    combine op (max a (b + 1)) a (b + 1) u v =
      (agreedSize [u].length v.items.length).bind fun n =>
        (zipAll (combine op (max a b) a b) (stretch n [u]) (stretch n v.items)).map .list := by
  have e1 : max a (b + 1) = b + 1 := by omega
  have e2 : max a b = b := by omega
  have e3 : min a b = a := by omega
  have e4 : a < b + 1 := by omega
  have e5 : min (b + 1) b = b := by omega
  rw [e1, e2]
  simp only [combine, e3, e4, e5, Nat.lt_irrefl, if_true, if_false]

/-! ### The kernels of one dimension -/

section levels
variable {α β γ : Type} {op : α → β → γ} {src0 : USrc α} {src1 : USrc β} {r : List BLevel}
  {sm0 sm1 : List UMeta} {dm : List UMeta} {w : Nat} {f : NestVal α → NestVal β → Option (NestVal γ)}

/-- the value of an operand -/
abbrev val {α : Type} (src : USrc α) (sm : List UMeta) : Int → Option (NestVal α) := viewArr src.cells src.recs sm

/-- what is known about the kernels of the elements -/
def Inner (op : α → β → γ) (src0 : USrc α) (src1 : USrc β) (r : List BLevel) (sm0 sm1 dm : List UMeta) (w : Nat)
    (f : NestVal α → NestVal β → Option (NestVal γ)) : Prop :=
  ∀ (d s0 s1 : Int) (m : UDst γ) u v, val src0 sm0 s0 = some u → val src1 sm1 s1 = some v → Room w d m →
    Outcome dm w (f u v) d m (run2 op src0 src1 r d s0 s1 m)

theorem fixed_outcome {n : Nat} {ov : Option (List (NestVal γ))} {d : Int} {m : UDst γ} {x : Res (UDst γ)}
    (h : LOutcome dm w w n ov d m x) :
    Outcome (.fixed n w :: dm) (n * w) (ov.map .list) d m x := by
  cases ov with
  | none => exact h
  | some rs =>
    obtain ⟨m', e, h1, h2, h3, h4⟩ := h
    refine ⟨m', e, h1, h2, h3, ?_⟩
    intro cells recs hag
    simp only [viewArr]
    rw [h4 cells recs hag]; rfl

theorem run_ff (hb : Inner op src0 src1 r sm0 sm1 dm w f) {n : Nat} {t0 t1 d s0 s1 : Int} {m : UDst γ}
    {xs : List (NestVal α)} {ys : List (NestVal β)} (h0 : viewList (val src0 sm0) t0 n s0 = some (stretch n xs))
    (h1 : viewList (val src1 sm1) t1 n s1 = some (stretch n ys)) (hn : agreedSize xs.length ys.length = some n)
    (hr : Room (n * w) d m) :
    Outcome (.fixed n w :: dm) (n * w)
      ((agreedSize xs.length ys.length).bind fun n => (zipAll f (stretch n xs) (stretch n ys)).map .list) d m
      (run2 op src0 src1 (.ff n w t0 t1 :: r) d s0 s1 m) := by
  rw [hn]
  exact fixed_outcome (loop2_runs hb n w t0 t1 (.inl rfl) d s0 s1 m _ _ h0 h1 hr)

theorem run_fv (hb : Inner op src0 src1 r sm0 sm1 dm w f) {n : Nat} {a b : BSrc} {d s0 s1 : Int} {m : UDst γ}
    {x0 x1 : VSrc} (e0 : openSrc src0 a s0 = .ok x0) (e1 : openSrc src1 b s1 = .ok x1)
    {xs : List (NestVal α)} {ys : List (NestVal β)} (h0 : Opened (val src0 sm0) x0 xs) (h1 : Opened (val src1 sm1) x1 ys)
    (hf : fitFixed n [x0, x1] = match agreedSize x0.size x1.size with
      | some _ => .ok [useStride x0, useStride x1]
      | none => .throw .broadcast)
    (hn : ∀ k, agreedSize x0.size x1.size = some k → k = n) (hr : Room (n * w) d m) :
    Outcome (.fixed n w :: dm) (n * w)
      ((agreedSize xs.length ys.length).bind fun n => (zipAll f (stretch n xs) (stretch n ys)).map .list) d m
      (run2 op src0 src1 (.fv n w a b :: r) d s0 s1 m) := by
  simp only [run2]
  rw [e0, Res.bind_ok, e1, Res.bind_ok, hf, ← h0.1, ← h1.1]
  cases e : agreedSize x0.size x1.size with
  | none => rfl
  | some k =>
    have hk := hn k e
    subst hk
    obtain ⟨c0, c1⟩ := common_sizes e
    simp only [Res.bind_ok, Option.bind_some]
    exact fixed_outcome (loop2_runs hb k w _ _ (.inl rfl) d x0.base x1.base m _ _ (opened_stretch h0 c0) (opened_stretch h1 c1) hr)

theorem run_vf (hb : Inner op src0 src1 r sm0 sm1 dm w f) {a b : BSrc} {d s0 s1 : Int} {m : UDst γ}
    {x0 x1 : VSrc} (e0 : openSrc src0 a s0 = .ok x0) (e1 : openSrc src1 b s1 = .ok x1)
    {xs : List (NestVal α)} {ys : List (NestVal β)} (h0 : Opened (val src0 sm0) x0 xs) (h1 : Opened (val src1 sm1) x1 ys)
    (hr : Room 16 d m) :
    Outcome (.var w 0 :: dm) 16
      ((agreedSize xs.length ys.length).bind fun n => (zipAll f (stretch n xs) (stretch n ys)).map .list) d m
      (run2 op src0 src1 (.vf w 0 a b :: r) d s0 s1 m) := by
  obtain ⟨r1, r2, r3⟩ := hr
  have hnone : m.recs d = none := r2 d (by omega) (by omega)
  simp only [run2]
  rw [e0, Res.bind_ok, e1, Res.bind_ok, hnone, join2, ← h0.1, ← h1.1]
  simp only [ne_eq, not_true_eq_false, if_false]
  cases e : agreedSize x0.size x1.size with
  | none => rfl
  | some n =>
    obtain ⟨c0, c1⟩ := common_sizes e
    simp only [Res.bind_ok, Option.bind_some]
    let m0 : UDst γ := { m with recs := putAt m.recs d (m.next, n), next := m.next + n * w }
    have hroom : Room (n * w) m.next m0 := by
      refine ⟨?_, ?_, ?_⟩
      · show m.next + ((n * w : Nat) : Int) ≤ m.next + n * w
        rw [Int.natCast_mul]
      · intro a h1 h2
        show putAt m.recs d (m.next, n) a = none
        simp only [putAt]
        rw [if_neg (by omega)]
        exact r3 a h1
      · intro a h1
        have h1' : m.next + n * w ≤ a := h1
        have : 0 ≤ (n : Int) * w := by exact_mod_cast Nat.zero_le (n * w)
        show putAt m.recs d (m.next, n) a = none
        simp only [putAt]
        rw [if_neg (by omega)]
        exact r3 a (by omega)
    have hl := loop2_runs hb n (if n ≤ 1 then 0 else (w : Int)) (useStride x0) (useStride x1)
      (by by_cases h : n ≤ 1 <;> simp [h]) m.next x0.base x1.base m0 _ _ (opened_stretch h0 c0) (opened_stretch h1 c1) hroom
    revert hl
    cases ez : zipAll f (stretch n xs) (stretch n ys) with
    | none => exact fun h => h
    | some rs =>
      rintro ⟨m', e', h1, h2, h3, h4⟩
      have hm0 : m0.next = m.next + n * w := rfl
      have hnn : 0 ≤ (n : Int) * w := by exact_mod_cast Nat.zero_le (n * w)
      have hcast : ((n * w : Nat) : Int) = (n : Int) * w := Int.natCast_mul _ _
      have hd' : m'.recs d = some (m.next, n) ∧ m'.cells d = m.cells d := by
        have := h3 d (by omega) (by omega)
        refine ⟨this.1.trans ?_, this.2⟩
        show putAt m.recs d (m.next, n) d = _
        simp [putAt]
      refine ⟨m', e', by omega, h2, ?_, ?_⟩
      · intro a ha hna
        have hq := h3 a (by omega) (by omega)
        refine ⟨hq.1.trans ?_, hq.2⟩
        show putAt m.recs d (m.next, n) a = _
        simp only [putAt]
        rw [if_neg (by omega)]
      · intro cells recs h
        simp only [viewArr]
        have hd := h d (.inl (by omega))
        rw [hd.1, hd'.1]
        simp only [Option.bind_some, Int.add_zero]
        have hl := h4 cells recs (fun a ha => h a (by rw [hcast] at ha; right; omega))
        have hl' : viewList (viewArr cells recs dm) (w : Int) n m.next = some rs := by
          by_cases h' : n ≤ 1
          · rw [if_pos h'] at hl
            rw [← hl]
            have : n = 0 ∨ n = 1 := by omega
            rcases this with rfl | rfl
            · rfl
            · simp only [viewList]
          · rw [if_neg h'] at hl; exact hl
        rw [hl']; rfl

end levels

/-! ### The operands of one dimension -/

/-- The metadata pointer of an operand: right, or never read again. -/
def PtrOK (ds : List (Option Nat)) (sm : List UMeta) (p : Option (List UMeta)) : Prop :=
  p = some sm ∨ ∀ x ∈ ds, x = some 1

theorem stretch_one {A : Type} {n : Nat} {xs : List A} (h : xs.length = n) : stretch n xs = xs := by
  match xs, h with
  | [], _ => rfl
  | [x], h => simp only [List.length_singleton] at h; subst h; rfl
  | _ :: _ :: _, _ => rfl

theorem side_ff {α : Type} (src : USrc α) {n : Nat} {d : List (Option Nat)} {sm : List UMeta} {p : Option (List UMeta)}
    (hm : MetaFits (some n :: d) sm) (hp : PtrOK (some n :: d) sm p) (ho : n = 1 → ∀ x ∈ d, x = some 1) :
    ∃ t p' sm', instSrcF (n == 1) p = .ok (t, p') ∧ MetaFits d sm' ∧ PtrOK d sm' p' ∧
      ∀ N, (n = 1 ∨ n = N) → ∀ s u, val src sm s = some u →
        u.items.length = n ∧ viewList (val src sm') t N s = some (stretch N u.items) := by
  cases hm with
  | fixed _ st hm =>
    rename_i sm'
    have hv : ∀ s u, val src (.fixed n st :: sm') s = some u → viewList (val src sm') st n s = some u.items := by
      intro s u h
      simp only [val, viewArr, Option.map_eq_some_iff] at h
      obtain ⟨xs, h1, rfl⟩ := h
      exact h1
    by_cases h1 : n = 1
    · subst h1
      refine ⟨0, p, sm', rfl, hm, .inr (ho rfl), ?_⟩
      intro N _ s u h
      have := hv s u h
      have hl := viewList_length this
      refine ⟨hl, ?_⟩
      have := opened_stretch (x := { isVar := false, size := 1, stride := st, base := s }) ⟨hl.symm, this⟩ (n := N) (.inl rfl)
      simpa [useStride] using this
    · have hp' : p = some (.fixed n st :: sm') := by
        rcases hp with h | h
        · exact h
        · have := h (some n) (by simp)
          simp only [Option.some.injEq] at this
          exact absurd this h1
      subst hp'
      refine ⟨st, some sm', sm', by simp [instSrcF, h1], hm, .inl rfl, ?_⟩
      intro N hN s u h
      have hN : n = N := by rcases hN with h | h <;> [exact absurd h h1; exact h]
      subst hN
      have := hv s u h
      have hl := viewList_length this
      exact ⟨hl, by rw [stretch_one hl]; exact this⟩

theorem side_rep {α : Type} (src : USrc α) {sm : List UMeta} (N : Nat) (s : Int) {u : NestVal α} (h : val src sm s = some u) :
    viewList (val src sm) 0 N s = some (stretch N [u]) := viewList_zero h N

theorem side_var {α : Type} (src : USrc α) {d : List (Option Nat)} {sm : List UMeta} {p : Option (List UMeta)}
    (hm : MetaFits (none :: d) sm) (hp : PtrOK (none :: d) sm p) :
    ∃ st o p' sm', instSrcV false true p = .ok (.var st o, p') ∧ MetaFits d sm' ∧ PtrOK d sm' p' ∧
      ∀ s u, val src sm s = some u → ∃ x, openSrc src (.var st o) s = .ok x ∧ x.isVar = true ∧
        Opened (val src sm') x u.items := by
  cases hm with
  | var st o hm =>
    rename_i sm'
    have hp' : p = some (.var st o :: sm') := by
      rcases hp with h | h
      · exact h
      · have := h none (by simp)
        cases this
    subst hp'
    refine ⟨st, o, some sm', sm', rfl, hm, .inl rfl, ?_⟩
    intro s u h
    simp only [val, viewArr, Option.bind_eq_some_iff, Option.map_eq_some_iff] at h
    obtain ⟨⟨b, n⟩, h1, xs, h2, rfl⟩ := h
    refine ⟨{ isVar := true, size := n, stride := st, base := b + o }, by simp only [openSrc, h1], rfl, ?_, h2⟩
    exact (viewList_length h2).symm

theorem side_one {α : Type} (src : USrc α) {d : List (Option Nat)} {sm : List UMeta} (p : Option (List UMeta))
    (hm : MetaFits (some 1 :: d) sm) (ho : ∀ x ∈ d, x = some 1) :
    ∃ sm', MetaFits d sm' ∧ PtrOK d sm' p ∧
      ∀ s u, val src sm s = some u → Opened (val src sm') { isVar := false, size := 1, stride := 0, base := s } u.items := by
  cases hm with
  | fixed _ st hm =>
    rename_i sm'
    refine ⟨sm', hm, .inr ho, ?_⟩
    intro s u h
    simp only [val, viewArr, Option.map_eq_some_iff] at h
    obtain ⟨xs, h1, rfl⟩ := h
    refine ⟨(viewList_length h1).symm, ?_⟩
    simp only [viewList] at h1 ⊢
    exact h1

theorem side_fix {α : Type} (src : USrc α) {n : Nat} {d : List (Option Nat)} {sm : List UMeta} {p : Option (List UMeta)}
    (hm : MetaFits (some n :: d) sm) (hp : PtrOK (some n :: d) sm p) (hn : n ≠ 1) (ho : ∀ x ∈ d, x = some 1) :
    ∃ st p' sm', instSrcV false false p = .ok (.fix n st, p') ∧ MetaFits d sm' ∧ PtrOK d sm' p' ∧
      ∀ s u, val src sm s = some u → Opened (val src sm') { isVar := false, size := n, stride := st, base := s } u.items := by
  cases hm with
  | fixed _ st hm =>
    rename_i sm'
    have hp' : p = some (.fixed n st :: sm') := by
      rcases hp with h | h
      · exact h
      · have := h (some n) (by simp)
        simp only [Option.some.injEq] at this
        exact absurd this hn
    subst hp'
    refine ⟨st, none, sm', rfl, hm, .inr ho, ?_⟩
    intro s u h
    simp only [val, viewArr, Option.map_eq_some_iff] at h
    obtain ⟨xs, h1, rfl⟩ := h
    exact ⟨(viewList_length h1).symm, h1⟩

theorem fit_left {x0 x1 : VSrc} {n : Nat} (h0 : x0.isVar = true) (h1 : x1.isVar = false) (hs : x1.size = n) (hn : n ≠ 1) :
    (fitFixed n [x0, x1] = match agreedSize x0.size x1.size with
      | some _ => .ok [useStride x0, useStride x1]
      | none => .throw .broadcast) ∧ ∀ k, agreedSize x0.size x1.size = some k → k = n := by
  subst hs
  by_cases e1 : x0.size = 1
  · have : (1 : Nat) ≠ x1.size := fun h => hn h.symm
    simp [fitFixed, h0, h1, e1, agreedSize, useStride, hn, this]
  · by_cases e2 : x0.size = x1.size
    · simp [fitFixed, h0, h1, e2, agreedSize, useStride, hn]
    · simp [fitFixed, h0, h1, e1, e2, agreedSize, hn]

theorem fit_right {x0 x1 : VSrc} {n : Nat} (h0 : x0.isVar = false) (h1 : x1.isVar = true) (hs : x0.size = n) (hn : n ≠ 1) :
    (fitFixed n [x0, x1] = match agreedSize x0.size x1.size with
      | some _ => .ok [useStride x0, useStride x1]
      | none => .throw .broadcast) ∧ ∀ k, agreedSize x0.size x1.size = some k → k = n := by
  subst hs
  by_cases e1 : x1.size = 1
  · simp [fitFixed, h0, h1, e1, agreedSize, useStride, hn]
  · by_cases e2 : x1.size = x0.size
    · simp [fitFixed, h0, h1, e2, agreedSize, useStride, hn]
    · have : x0.size ≠ x1.size := fun h => e2 h.symm
      simp [fitFixed, h0, h1, e1, e2, this, agreedSize, hn]

end Dynd
