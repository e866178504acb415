import Verif.Model.Elwise
import Mathlib.Tactic.Ring
import Mathlib.Tactic.Linarith
/-
C46, C67: elementwise application and broadcasting.
-/
namespace Dynd

/-! ## Specification for fixed dimensions -/

/-- Size of a shape in the `k`-th dimension counted from the right; missing dimensions have size 1. -/
def szAt (a : List Nat) (k : Nat) : Nat := a.reverse.getD k 1

/-- The broadcasting rule: `r` is the common shape of `args`. -/
def BShape (args : List (List Nat)) (r : List Nat) : Prop :=
  r.length = (args.map List.length).foldl max 0 ∧
  ∀ k < r.length, (∀ a ∈ args, szAt a k = 1 ∨ szAt a k = szAt r k) ∧ (szAt r k = 1 ∨ ∃ a ∈ args, szAt a k = szAt r k)

/-- All indices of a shape in row-major order. -/
def gridIdx : List Nat → List (List Nat)
  | [] => [[]]
  | n :: ns => (List.range n).flatMap fun j => (gridIdx ns).map (j :: ·)

/-- Offset of the element an operand contributes at index `idx` of the result: its dimensions are aligned to the
    right, dimensions of size 1 are stretched. -/
def opOff (m : Dims) (idx : List Nat) : Int :=
  ((m.reverse.zip idx.reverse).map fun p => if p.1.1 = 1 then 0 else (p.2 : Int) * p.1.2).sum

/-- Offset of the element at index `idx` in an array with the given strides. -/
def dstOff (strides : List Int) (idx : List Nat) : Int := (List.zipWith (fun (i : Nat) st => (i : Int) * st) idx strides).sum

/-- After a dimension of size 1 there are only dimensions of size 1. -/
def TailOnes (a : Dims) : Prop := (a.map (·.1)).Pairwise fun x y => x = 1 → y = 1

/-! ## Type resolution -/

theorem szAt_short {a : List Nat} {k : Nat} (h : a.length ≤ k) : szAt a k = 1 := by
  unfold szAt
  rw [List.getD_eq_getElem?_getD, List.getElem?_eq_none (by simpa using h)]
  rfl

theorem szAt_cons {x : Nat} {a : List Nat} {k : Nat} : szAt (x :: a) k = if k = a.length then x else szAt a k := by
  unfold szAt
  rw [List.reverse_cons, List.getD_eq_getElem?_getD, List.getD_eq_getElem?_getD]
  by_cases h : k = a.length
  · subst h
    rw [if_pos rfl, List.getElem?_append_right (by simp)]
    simp
  · rw [if_neg h]
    by_cases h2 : k < a.length
    · rw [List.getElem?_append_left (by simpa using h2)]
    · rw [List.getElem?_eq_none (by simp; omega), List.getElem?_eq_none (by simp; omega)]

/-- The operand below the dimension being processed. -/
def peel (nd : Nat) {β : Type} (a : List β) : List β := if a.length < nd + 1 then a else a.tail

theorem peel_len {β : Type} {nd : Nat} {a : List β} (h : a.length ≤ nd + 1) : (peel nd a).length ≤ nd := by
  unfold peel; split
  · omega
  · simp; omega

theorem szAt_peel {nd : Nat} {a : List Nat} (h : a.length ≤ nd + 1) {k : Nat} (hk : k < nd) :
    szAt (peel nd a) k = szAt a k := by
  unfold peel
  split
  · rfl
  · cases a with
    | nil => rfl
    | cons x a =>
      simp at h
      rw [List.tail_cons, szAt_cons, if_neg (by simp at *; omega)]

theorem flag_eq {nd : Nat} {a : List Nat} (h : a.length ≤ nd + 1) :
    (decide (a.length < nd + 1) || decide (a.head? = some 1)) = decide (szAt a nd = 1) := by
  by_cases hl : a.length < nd + 1
  · simp [hl, szAt_short (show a.length ≤ nd by omega)]
  · cases a with
    | nil => simp at hl
    | cons x a =>
      simp at h hl
      have : a.length = nd := by omega
      rw [szAt_cons, if_pos this.symm]
      simp [this]

theorem size_eq {nd : Nat} {a : List Nat} (h : a.length ≤ nd + 1) :
    (if a.length < nd + 1 then 1 else a.headD 1) = szAt a nd := by
  by_cases hl : a.length < nd + 1
  · rw [if_pos hl, szAt_short (by omega)]
  · rw [if_neg hl]
    cases a with
    | nil => simp at hl
    | cons x a =>
      simp at h hl
      rw [szAt_cons, if_pos (by omega)]
      rfl

/-- Which operands are broadcast at each level. -/
def levelsOf : Nat → List (List Nat) → List (List Bool)
  | 0, _ => []
  | nd + 1, args => (args.map fun a => decide (szAt a nd = 1)) :: levelsOf nd (args.map (peel nd))

/-- Compatible with size `n` in dimension `k`. -/
def AxisOK (args : List (List Nat)) (k n : Nat) : Prop :=
  (∀ a ∈ args, szAt a k = 1 ∨ szAt a k = n) ∧ (n = 1 ∨ ∃ a ∈ args, szAt a k = n)

theorem axisOK_peel {args : List (List Nat)} {nd : Nat} (h : ∀ a ∈ args, a.length ≤ nd + 1) {k n : Nat} (hk : k < nd) :
    AxisOK (args.map (peel nd)) k n ↔ AxisOK args k n := by
  unfold AxisOK
  constructor
  · rintro ⟨h1, h2⟩
    refine ⟨fun a ha => ?_, h2.imp id ?_⟩
    · have := h1 _ (List.mem_map_of_mem ha)
      rwa [szAt_peel (h a ha) hk] at this
    · rintro ⟨b, hb, e⟩
      obtain ⟨a, ha, rfl⟩ := List.mem_map.1 hb
      exact ⟨a, ha, by rwa [szAt_peel (h a ha) hk] at e⟩
  · rintro ⟨h1, h2⟩
    refine ⟨fun b hb => ?_, h2.imp id ?_⟩
    · obtain ⟨a, ha, rfl⟩ := List.mem_map.1 hb
      rw [szAt_peel (h a ha) hk]; exact h1 a ha
    · rintro ⟨a, ha, e⟩
      exact ⟨_, List.mem_map_of_mem ha, by rwa [szAt_peel (h a ha) hk]⟩

/-- The size chosen for a dimension. -/
theorem axis_choice (args : List (List Nat)) (k : Nat) :
    let rs := (((args.map fun a => decide (szAt a k = 1)).zip (args.map fun a => szAt a k)).find? fun p => !p.1).elim 1 (·.2)
    let bad := ((args.map fun a => decide (szAt a k = 1)).zip (args.map fun a => szAt a k)).any
      fun p => !p.1 && decide (rs ≠ p.2) && decide (p.2 ≠ 1)
    (bad = false → AxisOK args k rs) ∧ (bad = true → ∀ n, ¬ AxisOK args k n) := by
  intro rs bad
  have hz : (args.map fun a => decide (szAt a k = 1)).zip (args.map fun a => szAt a k) =
      args.map fun a => (decide (szAt a k = 1), szAt a k) := by
    rw [List.zip_map']
  have hrs : rs = ((args.map fun a => (decide (szAt a k = 1), szAt a k)).find? fun p => !p.1).elim 1 (·.2) := by
    simp only [rs, hz]
  have hmem : rs = 1 ∨ ∃ a ∈ args, szAt a k = rs := by
    rw [hrs]
    cases hf : (args.map fun a => (decide (szAt a k = 1), szAt a k)).find? fun p => !p.1 with
    | none => exact Or.inl rfl
    | some p =>
      obtain ⟨a, ha, rfl⟩ := List.mem_map.1 (List.mem_of_find?_eq_some hf)
      exact Or.inr ⟨a, ha, rfl⟩
  have hrs1 : rs = 1 → ∀ a ∈ args, szAt a k = 1 := by
    rw [hrs]
    intro h a ha
    cases hf : (args.map fun a => (decide (szAt a k = 1), szAt a k)).find? fun p => !p.1 with
    | none =>
      have := List.find?_eq_none.1 hf _ (List.mem_map_of_mem ha)
      simpa using this
    | some p =>
      rw [hf] at h
      have h2 := List.find?_some hf
      obtain ⟨b, hb, rfl⟩ := List.mem_map.1 (List.mem_of_find?_eq_some hf)
      simp at h h2
      exact absurd h h2
  have hbad : bad = true ↔ ∃ a ∈ args, szAt a k ≠ 1 ∧ rs ≠ szAt a k := by
    simp only [bad, hz, List.any_map, List.any_eq_true]
    constructor
    · rintro ⟨a, ha, h⟩
      simp at h
      exact ⟨a, ha, h.2, h.1.2⟩
    · rintro ⟨a, ha, h1, h2⟩
      exact ⟨a, ha, by simp [h1, h2]⟩
  constructor
  · intro hb
    refine ⟨fun a ha => ?_, hmem⟩
    by_contra hc
    have : bad = true := hbad.2 ⟨a, ha, fun h => hc (Or.inl h), fun h => hc (Or.inr h.symm)⟩
    rw [hb] at this; simp at this
  · intro hb n hn
    obtain ⟨a, ha, h1, h2⟩ := hbad.1 hb
    have hna : szAt a k = n := (hn.1 a ha).resolve_left h1
    rcases hmem with h | ⟨b, hb', he⟩
    · exact h1 (hrs1 h a ha)
    · have hrs' : rs ≠ 1 := fun h => h1 (hrs1 h a ha)
      rcases hn.1 b hb' with h | h
      · exact hrs' (he ▸ h)
      · exact h2 (by rw [← he, h, hna])

theorem elwResolve_spec : ∀ (nd : Nat) (args : List (List Nat)), (∀ a ∈ args, a.length ≤ nd) →
    (∃ shape, elwResolve nd none args = .ok (levelsOf nd args, shape) ∧ shape.length = nd ∧
      ∀ k < nd, AxisOK args k (szAt shape k)) ∨
    (elwResolve nd none args = .throw .runtime ∧ ∃ k < nd, ∀ n, ¬ AxisOK args k n)
  | 0, args, _ => Or.inl ⟨[], rfl, rfl, by simp⟩
  | nd + 1, args, h => by
    have e1 : (args.map fun a => decide (a.length < nd + 1) || decide (a.head? = some 1)) =
        args.map fun a => decide (szAt a nd = 1) := List.map_congr_left fun a ha => flag_eq (h a ha)
    have e2 : (args.map fun a => if a.length < nd + 1 then 1 else a.headD 1) = args.map fun a => szAt a nd :=
      List.map_congr_left fun a ha => size_eq (h a ha)
    obtain ⟨hc1, hc2⟩ := axis_choice args nd
    rw [elwResolve]
    simp only [e1, e2, Res.bind_ok]
    generalize hrs : (((args.map fun a => decide (szAt a nd = 1)).zip (args.map fun a => szAt a nd)).find? fun p => !p.1).elim 1 (·.2) = rs at *
    by_cases hbad : ((args.map fun a => decide (szAt a nd = 1)).zip (args.map fun a => szAt a nd)).any
      (fun p => !p.1 && decide (rs ≠ p.2) && decide (p.2 ≠ 1)) = true
    · rw [if_pos hbad]
      exact Or.inr ⟨rfl, nd, by omega, hc2 hbad⟩
    · rw [if_neg hbad]
      have hax := hc1 (by simpa using hbad)
      rcases elwResolve_spec nd (args.map (peel nd)) (fun b hb => by
        obtain ⟨a, ha, rfl⟩ := List.mem_map.1 hb
        exact peel_len (h a ha)) with ⟨shape, e, hl, hk⟩ | ⟨e, k, hk, hno⟩
      · left
        refine ⟨rs :: shape, ?_, by simp [hl], fun k hk' => ?_⟩
        · have e' : elwResolve nd (Option.map List.tail none)
              (args.map fun a => if a.length < nd + 1 then a else a.tail) = .ok (levelsOf nd (args.map (peel nd)), shape) := e
          rw [e', Res.bind_ok]
          rfl
        · rw [szAt_cons]
          by_cases hkn : k = nd
          · subst hkn
            rw [if_pos hl.symm]; exact hax
          · rw [if_neg (by omega)]
            exact (axisOK_peel h (by omega)).1 (hk k (by omega))
      · right
        refine ⟨?_, k, by omega, fun n hn => hno n ((axisOK_peel h hk).2 hn)⟩
        have e' : elwResolve nd (Option.map List.tail none)
            (args.map fun a => if a.length < nd + 1 then a else a.tail) = .throw .runtime := e
        rw [e']; rfl

theorem foldl_max_ge (l : List Nat) : ∀ (m : Nat), m ≤ l.foldl max m ∧ ∀ x ∈ l, x ≤ l.foldl max m := by
  induction l with
  | nil => intro m; simp
  | cons y l ih =>
    intro m
    obtain ⟨h1, h2⟩ := ih (max m y)
    simp only [List.foldl_cons]
    refine ⟨by omega, fun x hx => ?_⟩
    rcases List.mem_cons.1 hx with rfl | hx
    · omega
    · exact h2 x hx

/-! ## Running -/

theorem zip_append_of_le {β γ : Type} : ∀ (l : List β) (r s : List γ), l.length ≤ r.length → l.zip (r ++ s) = l.zip r
  | [], _, _, _ => by simp
  | _ :: _, [], _, h => by simp at h
  | a :: l, b :: r, s, h => by
    simp only [List.cons_append, List.zip_cons_cons]
    rw [zip_append_of_le l r s (by simpa using h)]

theorem opOff_short {m : Dims} {j : Nat} {js : List Nat} (h : m.length ≤ js.length) : opOff m (j :: js) = opOff m js := by
  unfold opOff
  rw [List.reverse_cons, zip_append_of_le _ _ _ (by simpa using h)]

theorem opOff_cons {m : Dims} {n : Nat} {st : Int} {j : Nat} {js : List Nat} (h : m.length = js.length) :
    opOff ((n, st) :: m) (j :: js) = (if n = 1 then 0 else (j : Int) * st) + opOff m js := by
  unfold opOff
  rw [List.reverse_cons, List.reverse_cons, List.zip_append (by simpa using h)]
  simp
  ring

theorem elwLoop_eq {body : Int → List Int → List (Int × List Int)} {ds : Int} {ss : List Int} :
    ∀ (c : Nat) (d : Int) (s : List Int), s.length = ss.length →
      elwLoop body ds ss c d s =
        (List.range c).flatMap fun j : Nat => body (d + (j : Int) * ds) (List.zipWith (fun a b => a + (j : Int) * b) s ss)
  | 0, d, s, _ => rfl
  | c + 1, d, s, h => by
    rw [elwLoop, elwLoop_eq c _ _ (by simp [h]), List.range_succ_eq_map, List.flatMap_cons, List.flatMap_map]
    congr 1
    · congr 1
      · simp
      · apply List.ext_getElem?
        intro k
        rw [List.getElem?_zipWith]
        cases hs : s[k]? with
        | none => rfl
        | some x =>
          have : k < ss.length := by rw [← h]; exact (List.getElem?_eq_some_iff.1 hs).1
          rw [List.getElem?_eq_getElem this]
          simp
    · congr 1
      funext j
      congr 1
      · push_cast; ring
      · apply List.ext_getElem?
        intro k
        rw [List.getElem?_zipWith, List.getElem?_zipWith, List.getElem?_zipWith]
        cases hs : s[k]? <;> cases hs2 : ss[k]? <;> simp
        push_cast; ring

/-- A level's strides for operands given as pairs (arrmeta pointer, dimensions it should describe). -/
theorem elwSrcs_spec (nd : Nat) : ∀ (P : List (Dims × Dims)),
    (∀ p ∈ P, szAt (p.2.map (·.1)) nd ≠ 1 → p.1 ≠ []) →
    elwSrcs (P.map fun p => decide (szAt (p.2.map (·.1)) nd = 1)) (P.map (·.1)) =
      .ok (P.map fun p => if szAt (p.2.map (·.1)) nd = 1 then 0 else (p.1.headD (0, 0)).2,
           P.map fun p => if szAt (p.2.map (·.1)) nd = 1 then p.1 else p.1.tail)
  | [], _ => rfl
  | p :: P, h => by
    simp only [List.map_cons, elwSrcs]
    rw [elwSrcs_spec nd P (fun q hq => h q (by simp [hq]))]
    by_cases h1 : szAt (p.2.map (·.1)) nd = 1
    · simp [h1, elwSrc]
    · have := h p (by simp) h1
      cases hp : p.1 with
      | nil => exact absurd hp this
      | cons x xs => simp [h1, elwSrc]

theorem map_peel (nd : Nat) (a : Dims) : (peel nd a).map (·.1) = peel nd (a.map (·.1)) := by
  unfold peel
  simp only [List.length_map]
  split
  · rfl
  · rw [List.map_tail]

theorem elwInst_run : ∀ (nd : Nat) (P : List (Dims × Dims)) (shape : List Nat) (sts : List Int),
    shape.length = nd → sts.length = nd →
    (∀ p ∈ P, p.2.length ≤ nd ∧ TailOnes p.2 ∧ (p.1 = p.2 ∨ ∀ x ∈ p.2, x.1 = 1)) →
    ∃ ks, elwInst (levelsOf nd (P.map fun p => p.2.map (·.1))) (shape.zip sts) (P.map (·.1)) = .ok ks ∧
      ∀ (d : Int) (s : List Int), s.length = P.length →
        elwRun ks d s = (gridIdx shape).map fun idx =>
          (d + dstOff sts idx, List.zipWith (fun b (p : Dims × Dims) => b + opOff p.2 idx) s P)
  | 0, P, shape, sts, h1, h2, hP => by
    have e1 : shape = [] := by simpa using h1
    have e2 : sts = [] := by simpa using h2
    subst e1 e2
    refine ⟨[], rfl, fun d s hs => ?_⟩
    simp only [elwRun, gridIdx, List.map_cons, List.map_nil, dstOff, List.zipWith_nil_left, List.sum_nil, Int.add_zero]
    congr 2
    apply List.ext_getElem?
    intro k
    rw [List.getElem?_zipWith]
    cases hk : s[k]? with
    | none => rfl
    | some x =>
      have : k < P.length := by rw [← hs]; exact (List.getElem?_eq_some_iff.1 hk).1
      rw [List.getElem?_eq_getElem this]
      simp [opOff]
  | nd + 1, P, shape, sts, h1, h2, hP => by
    obtain ⟨n, shape, rfl⟩ : ∃ n t, shape = n :: t := by
      cases shape with
      | nil => simp at h1
      | cons n t => exact ⟨n, t, rfl⟩
    obtain ⟨st, sts, rfl⟩ : ∃ n t, sts = n :: t := by
      cases sts with
      | nil => simp at h2
      | cons n t => exact ⟨n, t, rfl⟩
    have hne : ∀ p ∈ P, szAt (p.2.map (·.1)) nd ≠ 1 → p.1 = p.2 ∧ p.2.length = nd + 1 := by
      intro p hp hsz
      obtain ⟨q1, q2, q3⟩ := hP p hp
      have hl : p.2.length = nd + 1 := by
        by_contra hc
        exact hsz (szAt_short (by simp; omega))
      refine ⟨q3.resolve_right fun hall => hsz ?_, hl⟩
      cases hp2 : p.2 with
      | nil => rw [hp2] at hl; simp at hl
      | cons x xs =>
        rw [hp2] at hl hall
        simp at hl
        rw [List.map_cons, szAt_cons, if_pos (by simp [hl])]
        exact hall x (by simp)
    have hes := elwSrcs_spec nd P (fun p hp hsz hnil => by
      obtain ⟨a, b⟩ := hne p hp hsz
      rw [← a, hnil] at b; simp at b)
    let P' : List (Dims × Dims) := P.map fun p =>
      ((if szAt (p.2.map (·.1)) nd = 1 then p.1 else p.1.tail), peel nd p.2)
    have hP' : ∀ p ∈ P', p.2.length ≤ nd ∧ TailOnes p.2 ∧ (p.1 = p.2 ∨ ∀ x ∈ p.2, x.1 = 1) := by
      intro p' hp'
      obtain ⟨p, hp, rfl⟩ := List.mem_map.1 hp'
      obtain ⟨q1, q2, q3⟩ := hP p hp
      refine ⟨peel_len q1, ?_, ?_⟩
      · unfold peel
        simp only
        split
        · exact q2
        · unfold TailOnes at *
          cases hp2 : p.2 with
          | nil => simp
          | cons x xs => rw [hp2] at q2; simp only [List.map_cons, List.pairwise_cons] at q2; simpa using q2.2
      · simp only
        by_cases hsz : szAt (p.2.map (·.1)) nd = 1
        · rw [if_pos hsz]
          unfold peel
          by_cases hlt : p.2.length < nd + 1
          · rw [if_pos hlt]; exact q3
          · rw [if_neg hlt]
            right
            cases hp2 : p.2 with
            | nil => simp
            | cons x xs =>
              rw [hp2] at q2 hsz hlt q1
              simp at hlt q1
              rw [List.map_cons, szAt_cons, if_pos (by simp; omega)] at hsz
              unfold TailOnes at q2
              simp only [List.map_cons, List.pairwise_cons] at q2
              intro y hy
              exact q2.1 y.1 (List.mem_map_of_mem (by simpa using hy)) hsz
        · rw [if_neg hsz]
          obtain ⟨a, b⟩ := hne p hp hsz
          left
          unfold peel
          rw [if_neg (by omega), a]
    obtain ⟨ks, eks, hrun⟩ := elwInst_run nd P' shape sts (by simpa using h1) (by simpa using h2) hP'
    have hlev : levelsOf (nd + 1) (P.map fun p => p.2.map (·.1)) =
        (P.map fun p => decide (szAt (p.2.map (·.1)) nd = 1)) :: levelsOf nd (P'.map fun p => p.2.map (·.1)) := by
      simp only [levelsOf, List.map_map, P']
      congr 2
      apply List.map_congr_left
      intro p _
      simp [map_peel]
    have hfst : (P.map fun p => if szAt (p.2.map (·.1)) nd = 1 then p.1 else p.1.tail) = P'.map (·.1) := by
      simp [P']
    refine ⟨_, by
      rw [hlev, List.zip_cons_cons, elwInst, hes, Res.bind_ok]
      simp only
      rw [hfst, eks, Res.bind_ok]
      rfl, fun d s hs => ?_⟩
    rw [elwRun, elwLoop_eq _ _ _ (by simp [hs])]
    simp only [gridIdx, List.map_flatMap, List.map_map]
    congr 1
    funext j
    rw [hrun _ _ (by simp [hs, P'])]
    apply List.map_congr_left
    intro idx hidx
    have hil : idx.length = nd := by
      have : ∀ (sh : List Nat), ∀ i ∈ gridIdx sh, i.length = sh.length := by
        intro sh
        induction sh with
        | nil => intro i hi; simp [gridIdx] at hi; simp [hi]
        | cons n sh ih =>
          intro i hi
          simp only [gridIdx, List.mem_flatMap, List.mem_map] at hi
          obtain ⟨_, _, t, ht, rfl⟩ := hi
          simp [ih t ht]
      rw [this shape idx hidx]; simpa using h1
    simp only [Function.comp]
    congr 1
    · simp [dstOff]; ring
    · apply List.ext_getElem?
      intro k
      simp only [List.getElem?_zipWith, P', List.getElem?_map]
      cases hk : s[k]? with
      | none => rfl
      | some x =>
        have hkP : k < P.length := by rw [← hs]; exact (List.getElem?_eq_some_iff.1 hk).1
        rw [List.getElem?_eq_getElem hkP]
        simp only [Option.map_some, Option.some.injEq]
        generalize hp : P[k] = p
        have hpm : p ∈ P := hp ▸ List.getElem_mem hkP
        obtain ⟨q1, -, -⟩ := hP p hpm
        by_cases hsz : szAt (p.2.map (·.1)) nd = 1
        · rw [if_pos hsz]
          unfold peel
          by_cases hlt : p.2.length < nd + 1
          · rw [if_pos hlt, opOff_short (by omega)]; ring
          · rw [if_neg hlt]
            cases hp2 : p.2 with
            | nil => rw [hp2] at hlt; simp at hlt
            | cons y ys =>
              rw [hp2] at hsz hlt q1
              simp at hlt q1
              rw [List.map_cons, szAt_cons, if_pos (by simp; omega)] at hsz
              obtain ⟨y1, y2⟩ := y
              simp only at hsz
              rw [opOff_cons (by omega), if_pos hsz]
              simp
        · rw [if_neg hsz]
          obtain ⟨a, b⟩ := hne p hpm hsz
          unfold peel
          rw [if_neg (by omega), a]
          cases hp2 : p.2 with
          | nil => rw [hp2] at b; simp at b
          | cons y ys =>
            rw [hp2] at hsz b
            simp at b
            rw [List.map_cons, szAt_cons, if_pos (by simp; omega)] at hsz
            obtain ⟨y1, y2⟩ := y
            simp only at hsz
            rw [opOff_cons (by omega), if_neg hsz]
            simp
            ring

/-- C67: elementwise application to operands with fixed dimensions of any rank: the result has the shape given by the
    broadcasting rule, the scalar function is applied once for each index, in row-major order, to the elements the
    rule prescribes; incompatible shapes raise.  Restricted to operands in which a dimension of size 1 is not
    followed by a longer one. -/
theorem elwise_fixed_partial (strides : List Nat → List Int) (hst : ∀ sh, (strides sh).length = sh.length)
    (args : List Dims) (ht : ∀ a ∈ args, TailOnes a) :
    (∃ shape, BShape (args.map (·.map (·.1))) shape ∧
      elwApply strides args = .ok (shape, (gridIdx shape).map fun idx =>
        (dstOff (strides shape) idx, args.map fun a => opOff a idx))) ∨
    (elwApply strides args = .throw .runtime ∧ ¬ ∃ shape, BShape (args.map (·.map (·.1))) shape) := by
  generalize hnd : ((args.map (·.map (·.1))).map List.length).foldl max 0 = nd
  have hle : ∀ a ∈ args.map (·.map (·.1)), a.length ≤ nd := fun a ha => by
    rw [← hnd]; exact (foldl_max_ge _ 0).2 _ (List.mem_map_of_mem ha)
  rcases elwResolve_spec nd (args.map (·.map (·.1))) hle with ⟨shape, e, hl, hk⟩ | ⟨e, k, hk, hno⟩
  · left
    refine ⟨shape, ⟨by rw [hl, hnd], fun k hk' => hk k (by omega)⟩, ?_⟩
    obtain ⟨ks, eks, hrun⟩ := elwInst_run nd (args.map fun a => (a, a)) shape (strides shape) hl (by rw [hst, hl])
      (fun p hp => by
        obtain ⟨a, ha, rfl⟩ := List.mem_map.1 hp
        refine ⟨by simpa using hle _ (List.mem_map_of_mem (f := fun a : Dims => a.map (·.1)) ha), ht a ha, Or.inl rfl⟩)
    unfold elwApply elwEntry
    simp only [hnd]
    rw [e, Res.bind_ok]
    simp only
    have e1 : (args.map fun a => (a, a)).map (fun p : Dims × Dims => p.2.map (·.1)) = args.map (·.map (·.1)) := by simp
    have e2 : (args.map fun a => (a, a)).map (fun p : Dims × Dims => p.1) = args := by
      rw [List.map_map]; exact List.map_id' args
    rw [e1, e2] at eks
    rw [eks, Res.bind_ok, hrun _ _ (by simp)]
    simp only [Res.pure_eq, Res.ok.injEq, Prod.mk.injEq, true_and]
    apply List.map_congr_left
    intro idx _
    simp only [Int.zero_add, Prod.mk.injEq, true_and]
    apply List.ext_getElem?
    intro k
    simp only [List.getElem?_zipWith, List.getElem?_map]
    cases args[k]? <;> simp
  · right
    refine ⟨?_, ?_⟩
    · unfold elwApply elwEntry
      simp only [hnd]
      rw [e]; rfl
    · rintro ⟨shape, h1, h2⟩
      exact hno _ (h2 k (by rw [h1, hnd]; exact hk))

/-- Type resolution with a given destination. -/
theorem elwResolve_given : ∀ (nd : Nat) (r : List Nat) (args : List (List Nat)), r.length = nd →
    (∀ a ∈ args, a.length ≤ nd) →
    ((∀ k < nd, ∀ a ∈ args, szAt a k = 1 ∨ szAt a k = szAt r k) ∧
      elwResolve nd (some r) args = .ok (levelsOf nd args, r)) ∨
    ((∃ k < nd, ∃ a ∈ args, szAt a k ≠ 1 ∧ szAt a k ≠ szAt r k) ∧ elwResolve nd (some r) args = .throw .runtime)
  | 0, r, args, hr, _ => Or.inl ⟨by simp, by rw [List.length_eq_zero_iff.1 hr]; rfl⟩
  | nd + 1, [], args, hr, _ => by simp at hr
  | nd + 1, x :: r, args, hr, h => by
    have hr' : r.length = nd := by simpa using hr
    have e1 : (args.map fun a => decide (a.length < nd + 1) || decide (a.head? = some 1)) =
        args.map fun a => decide (szAt a nd = 1) := List.map_congr_left fun a ha => flag_eq (h a ha)
    have e2 : (args.map fun a => if a.length < nd + 1 then 1 else a.headD 1) = args.map fun a => szAt a nd :=
      List.map_congr_left fun a ha => size_eq (h a ha)
    have hx : szAt (x :: r) nd = x := by rw [szAt_cons, if_pos hr'.symm]
    have hlow : ∀ k < nd, szAt (x :: r) k = szAt r k := fun k hk => by rw [szAt_cons, if_neg (by omega)]
    rw [elwResolve]
    simp only [e1, e2, Res.bind_ok, List.zip_map', List.any_map]
    by_cases hbad : (args.any ((fun p : Bool × Nat => !p.1 && decide (x ≠ p.2) && decide (p.2 ≠ 1)) ∘
        fun a => (decide (szAt a nd = 1), szAt a nd))) = true
    · rw [if_pos hbad]
      obtain ⟨a, ha, hb⟩ := List.any_eq_true.1 hbad
      simp at hb
      exact Or.inr ⟨⟨nd, by omega, a, ha, hb.2, by rw [hx]; exact fun h => hb.1.2 h.symm⟩, rfl⟩
    · rw [if_neg hbad]
      have hax : ∀ a ∈ args, szAt a nd = 1 ∨ szAt a nd = x := by
        intro a ha
        by_contra hc
        apply hbad
        rw [List.any_eq_true]
        refine ⟨a, ha, ?_⟩
        have h1 : szAt a nd ≠ 1 := fun h => hc (Or.inl h)
        have h2 : x ≠ szAt a nd := fun h => hc (Or.inr h.symm)
        simp [h1, h2]
      have hpl : ∀ b ∈ args.map (peel nd), b.length ≤ nd := fun b hb => by
        obtain ⟨a, ha, rfl⟩ := List.mem_map.1 hb
        exact peel_len (h a ha)
      rcases elwResolve_given nd r (args.map (peel nd)) hr' hpl with ⟨hk, e⟩ | ⟨⟨k, hk, b, hb, b1, b2⟩, e⟩
      · refine Or.inl ⟨fun k hk' a ha => ?_, ?_⟩
        · by_cases hkn : k = nd
          · subst hkn; rw [hx]; exact hax a ha
          · have := hk k (by omega) _ (List.mem_map_of_mem ha)
            rwa [szAt_peel (h a ha) (by omega), ← hlow k (by omega)] at this
        · have e' : elwResolve nd (Option.map List.tail (some (x :: r)))
              (args.map fun a => if a.length < nd + 1 then a else a.tail) = .ok (levelsOf nd (args.map (peel nd)), r) := e
          rw [e', Res.bind_ok]
          rfl
      · refine Or.inr ⟨?_, ?_⟩
        · obtain ⟨a, ha, rfl⟩ := List.mem_map.1 hb
          rw [szAt_peel (h a ha) hk] at b1 b2
          exact ⟨k, by omega, a, ha, b1, by rwa [hlow k hk]⟩
        · have e' : elwResolve nd (Option.map List.tail (some (x :: r)))
              (args.map fun a => if a.length < nd + 1 then a else a.tail) = .throw .runtime := e
          rw [e']; rfl

/-- C67, given destination: every operand must broadcast to the shape of the destination, which is then filled in
    row-major order from the elements the rule prescribes; otherwise an exception is raised. -/
theorem elwise_fixed_given_partial (dst : Dims) (args : List Dims) (ht : ∀ a ∈ args, TailOnes a) :
    ((∀ a ∈ args, a.length ≤ dst.length ∧
        ∀ k < dst.length, szAt (a.map (·.1)) k = 1 ∨ szAt (a.map (·.1)) k = szAt (dst.map (·.1)) k) ∧
      elwApplyTo dst args = .ok ((gridIdx (dst.map (·.1))).map fun idx =>
        (dstOff (dst.map (·.2)) idx, args.map fun a => opOff a idx))) ∨
    ((∃ a ∈ args, dst.length < a.length ∨
        ∃ k < dst.length, szAt (a.map (·.1)) k ≠ 1 ∧ szAt (a.map (·.1)) k ≠ szAt (dst.map (·.1)) k) ∧
      ∃ e, elwApplyTo dst args = .throw e) := by
  unfold elwApplyTo elwEntry
  simp only [List.length_map]
  by_cases hlen : dst.length < ((args.map (·.map (·.1))).map List.length).foldl max 0
  · right
    rw [if_pos hlen]
    refine ⟨?_, _, rfl⟩
    by_contra hc
    have hb : ∀ (l : List Nat) (m N : Nat), m ≤ N → (∀ x ∈ l, x ≤ N) → l.foldl max m ≤ N := by
      intro l
      induction l with
      | nil => intro m N h _; simpa using h
      | cons y l ih =>
        intro m N h1 h2
        exact ih _ _ (by have := h2 y (by simp); omega) (fun x hx => h2 x (by simp [hx]))
    have := hb ((args.map (·.map (·.1))).map List.length) 0 dst.length (by omega) (fun x hx => by
      obtain ⟨b, hb', rfl⟩ := List.mem_map.1 hx
      obtain ⟨a, ha, rfl⟩ := List.mem_map.1 hb'
      rw [List.length_map]
      by_contra hgt
      exact hc ⟨a, ha, Or.inl (by omega)⟩)
    omega
  · rw [if_neg hlen]
    have hle : ∀ a ∈ args.map (·.map (·.1)), a.length ≤ dst.length := fun a ha => by
      have := (foldl_max_ge ((args.map (·.map (·.1))).map List.length) 0).2 _ (List.mem_map_of_mem ha)
      omega
    have hle' : ∀ a ∈ args, a.length ≤ dst.length := fun a ha => by
      have := hle _ (List.mem_map_of_mem ha)
      simpa using this
    rcases elwResolve_given dst.length (dst.map (·.1)) (args.map (·.map (·.1))) (by simp) hle with ⟨hk, e⟩ | ⟨hk, e⟩
    · left
      refine ⟨fun a ha => ⟨hle' a ha, fun k hk' => hk k hk' _ (List.mem_map_of_mem ha)⟩, ?_⟩
      obtain ⟨ks, eks, hrun⟩ := elwInst_run dst.length (args.map fun a => (a, a)) (dst.map (·.1)) (dst.map (·.2))
        (by simp) (by simp) (fun p hp => by
          obtain ⟨a, ha, rfl⟩ := List.mem_map.1 hp
          exact ⟨hle' a ha, ht a ha, Or.inl rfl⟩)
      rw [e, Res.bind_ok]
      simp only
      have e1 : (args.map fun a => (a, a)).map (fun p : Dims × Dims => p.2.map (·.1)) = args.map (·.map (·.1)) := by simp
      have e2 : (args.map fun a => (a, a)).map (fun p : Dims × Dims => p.1) = args := by
        rw [List.map_map]; exact List.map_id' args
      have e3 : (dst.map (·.1)).zip (dst.map (·.2)) = dst := by
        rw [List.zip_map']; exact List.map_id' dst
      rw [e1, e2, e3] at eks
      rw [eks, Res.bind_ok, hrun _ _ (by simp)]
      simp only [Res.pure_eq, Res.ok.injEq]
      apply List.map_congr_left
      intro idx _
      simp only [Int.zero_add, Prod.mk.injEq, true_and]
      apply List.ext_getElem?
      intro k
      simp only [List.getElem?_zipWith, List.getElem?_map]
      cases args[k]? <;> simp
    · right
      refine ⟨?_, _, by rw [e]; rfl⟩
      obtain ⟨k, hk, b, hb, b1, b2⟩ := hk
      obtain ⟨a, ha, rfl⟩ := List.mem_map.1 hb
      exact ⟨a, ha, Or.inr ⟨k, hk, b1, b2⟩⟩

/-- A concrete case: a row and a scalar written into a `2 * 2` destination with Fortran strides. -/
example : elwApplyTo [(2, 8), (2, 16)] [[(2, 4)], []] =
    .ok [(0, [0, 0]), (16, [4, 0]), (8, [0, 0]), (24, [4, 0])] := by decide
example : elwApplyTo [(2, 8), (2, 16)] [[(3, 4)]] = .throw .runtime := by decide

/-- Row-major strides for 8-byte elements, as an example. -/
def exStrides : List Nat → List Int
  | [] => []
  | _ :: ns => ((ns.foldl (· * ·) 1 * 8 : Nat) : Int) :: exStrides ns

/-- The hypotheses are met by a `2 * 3` array, a `3` array, a `2 * 1` array and a scalar. -/
example : (∀ a ∈ [[(2, 24), (3, 8)], [(3, 8)], [(2, 8), (1, 0)], ([] : Dims)], TailOnes a) ∧
    BShape ([[(2, (24 : Int)), (3, 8)], [(3, 8)], [(2, 8), (1, 0)], []].map (·.map (·.1))) [2, 3] := by
  refine ⟨?_, rfl, ?_⟩
  · simp [TailOnes]
  · intro k hk
    simp at hk
    have : k = 0 ∨ k = 1 := by omega
    rcases this with rfl | rfl <;> simp [szAt]

/-- C67 violated: a `1 * 3` operand broadcast against a `2 * 3` one contributes its first element everywhere, since
    below the stretched dimension its arrmeta is not advanced. -/
theorem elwise_leading_one_violated :
    elwApply exStrides [[(1, 0), (3, 8)], [(2, 24), (3, 8)]] =
      .ok ([2, 3], [(0, [0, 0]), (8, [0, 8]), (16, [0, 16]), (24, [0, 24]), (32, [0, 32]), (40, [0, 40])]) ∧
    (gridIdx [2, 3]).map (fun idx => opOff [(1, 0), (3, 8)] idx) = [0, 8, 16, 0, 8, 16] := by decide

/-! ## C46: sizes known only at run time -/

/-- `n` is the size that operands of sizes `sizes` broadcast to. -/
def BroadcastSize (sizes : List Nat) (n : Nat) : Prop :=
  (∀ s ∈ sizes, s = 1 ∨ s = n) ∧ (n = 1 ∨ n ∈ sizes)

/-- The calls that elementwise application to `n` elements should make. -/
def wantCalls (n : Nat) (dst dstStride : Int) (srcs : List VSrc) : List (Int × List Int) :=
  (List.range n).map fun j : Nat =>
    (dst + (j : Int) * dstStride, srcs.map fun s => s.base + (if s.size = 1 then 0 else (j : Int)) * s.stride)

theorem BroadcastSize.unique {sizes : List Nat} {n m : Nat} (h1 : BroadcastSize sizes n) (h2 : BroadcastSize sizes m) :
    n = m := by
  rcases h1.2 with rfl | a
  · rcases h2.2 with rfl | b
    · rfl
    · rcases h1.1 m b with h | h <;> omega
  · rcases h2.1 n a with h | h
    · subst h
      rcases h2.2 with rfl | b
      · rfl
      · rcases h1.1 m b with h | h <;> omega
    · exact h

/-- The stride of an operand. -/
def vStride (s : VSrc) : Int := if s.size = 1 then 0 else s.stride

theorem fitVar_ok (n : Nat) : ∀ srcs : List VSrc, (∀ s ∈ srcs, s.size = 1 ∨ s.size = n) →
    fitVar n srcs = .ok (srcs.map vStride)
  | [], _ => rfl
  | s :: ss, h => by
    have hs := h s (by simp)
    have ih := fitVar_ok n ss (fun t ht => h t (by simp [ht]))
    by_cases h1 : s.size = 1
    · simp [fitVar, h1, ih, vStride]
    · have h2 : s.size = n := by rcases hs with h | h; exact absurd h h1; exact h
      simp [fitVar, ← h2, h1, h2 ▸ ih, vStride]

theorem fitVar_throw (n : Nat) : ∀ srcs : List VSrc, ¬ (∀ s ∈ srcs, s.size = 1 ∨ s.size = n) →
    fitVar n srcs = .throw .broadcast
  | [], h => absurd (by simp) h
  | s :: ss, h => by
    by_cases hs : s.size = 1 ∨ s.size = n
    · have ih := fitVar_throw n ss (fun k => h (by
        intro t ht
        rcases List.mem_cons.1 ht with rfl | ht
        · exact hs
        · exact k t ht))
      by_cases h1 : s.size = 1
      · simp [fitVar, h1, ih]
      · have h2 : s.size = n := by rcases hs with h | h; exact absurd h h1; exact h
        have h3 : n ≠ 1 := h2 ▸ h1
        simp [fitVar, h2, h3, ih]
    · have h1 : s.size ≠ 1 := fun k => hs (Or.inl k)
      have h2 : s.size ≠ n := fun k => hs (Or.inr k)
      simp [fitVar, h1, h2]

theorem fitFixed_ok (n : Nat) : ∀ srcs : List VSrc, (∀ s ∈ srcs, s.isVar = true → s.size = 1 ∨ s.size = n) →
    (∀ s ∈ srcs, s.isVar = false → s.size = 1 → s.stride = 0) →
    fitFixed n srcs = .ok (srcs.map vStride)
  | [], _, _ => rfl
  | s :: ss, h, h0 => by
    have ih := fitFixed_ok n ss (fun t ht => h t (by simp [ht])) (fun t ht => h0 t (by simp [ht]))
    cases hv : s.isVar
    · by_cases h1 : s.size = 1
      · simp [fitFixed, h1, ih, vStride, hv, h0 s (by simp) hv h1]
      · simp [fitFixed, h1, ih, vStride, hv]
    · by_cases h1 : s.size = 1
      · simp [fitFixed, h1, ih, vStride, hv]
      · have h2 : s.size = n := by rcases h s (by simp) hv with h | h; exact absurd h h1; exact h
        simp [fitFixed, hv, h2 ▸ ih, ← h2, h1, vStride]

theorem fitFixed_throw (n : Nat) : ∀ srcs : List VSrc, ¬ (∀ s ∈ srcs, s.isVar = true → s.size = 1 ∨ s.size = n) →
    fitFixed n srcs = .throw .broadcast
  | [], h => absurd (by simp) h
  | s :: ss, h => by
    by_cases hs : s.isVar = true → s.size = 1 ∨ s.size = n
    · have ih := fitFixed_throw n ss (fun k => h (by
        intro t ht
        rcases List.mem_cons.1 ht with rfl | ht
        · exact hs
        · exact k t ht))
      cases hv : s.isVar
      · simp [fitFixed, hv, ih]
      · by_cases h1 : s.size = 1
        · simp [fitFixed, hv, h1, ih]
        · have h2 : s.size = n := by rcases hs hv with h | h; exact absurd h h1; exact h
          have h3 : n ≠ 1 := h2 ▸ h1
          simp [fitFixed, hv, h2, h3, ih]
    · have hv : s.isVar = true := by
        cases hv : s.isVar
        · exact absurd (fun k => by rw [hv] at k; cases k) hs
        · rfl
      have h1 : s.size ≠ 1 := fun k => hs (fun _ => Or.inl k)
      have h2 : s.size ≠ n := fun k => hs (fun _ => Or.inr k)
      simp [fitFixed, hv, h1, h2]

/-- The accumulated size and strides. -/
theorem joinVar_spec : ∀ (srcs : List VSrc) (a : Nat),
    (∃ n, (∀ s ∈ srcs, s.size = 1 ∨ s.size = n) ∧ (a = 1 ∨ a = n) ∧ (n = a ∨ n ∈ srcs.map (·.size)) ∧
      joinVar a srcs = .ok (n, srcs.map vStride)) ∨
    ((∀ n, ¬ BroadcastSize (a :: srcs.map (·.size)) n) ∧ joinVar a srcs = .throw .broadcast)
  | [], a => Or.inl ⟨a, by simp, Or.inr rfl, Or.inl rfl, rfl⟩
  | s :: ss, a => by
    by_cases h1 : s.size = 1
    · rcases joinVar_spec ss a with ⟨n, hs, ha, hn, e⟩ | ⟨hno, e⟩
      · refine Or.inl ⟨n, ?_, ha, ?_, ?_⟩
        · intro t ht
          rcases List.mem_cons.1 ht with rfl | ht
          · exact Or.inl h1
          · exact hs t ht
        · rcases hn with h | h
          · exact Or.inl h
          · exact Or.inr (by simp only [List.map_cons, List.mem_cons]; exact Or.inr h)
        · simp [joinVar, h1, e, vStride]
      · refine Or.inr ⟨fun n hb => hno n ⟨?_, ?_⟩, by simp [joinVar, h1, e]⟩
        · intro t ht
          rcases List.mem_cons.1 ht with rfl | ht
          · exact hb.1 _ (by simp)
          · exact hb.1 _ (by simp only [List.map_cons, List.mem_cons]; exact Or.inr (Or.inr ht))
        · rcases hb.2 with h | h
          · exact Or.inl h
          · simp only [List.map_cons, List.mem_cons] at h
            rcases h with h | h | h
            · exact Or.inr (by simp [h])
            · exact Or.inl (h.trans h1)
            · exact Or.inr (by simp only [List.mem_cons]; exact Or.inr h)
    · by_cases ha : a = 1 ∨ a = s.size
      · have estep : joinVar a (s :: ss) = (joinVar s.size ss >>= fun p => pure (p.1, s.stride :: p.2)) := by
          have e0 : ∀ x : Res (Nat × Int), x = .ok (s.size, s.stride) →
              (x >>= fun q => joinVar q.1 ss >>= fun p => (pure (p.1, q.2 :: p.2) : Res _)) =
                (joinVar s.size ss >>= fun p => pure (p.1, s.stride :: p.2)) := by
            rintro _ rfl; rfl
          simp only [joinVar]
          cases hv : s.isVar <;> simp only [if_true, if_false, Bool.false_eq_true] <;> refine e0 _ ?_ <;>
            rcases ha with h | h <;> subst h <;> simp [h1]
        rcases joinVar_spec ss s.size with ⟨n, hs, hsn, hn, e⟩ | ⟨hno, e⟩
        · have hsz : s.size = n := by rcases hsn with h | h; exact absurd h h1; exact h
          refine Or.inl ⟨n, ?_, ?_, ?_, ?_⟩
          · intro t ht
            rcases List.mem_cons.1 ht with rfl | ht
            · exact Or.inr hsz
            · exact hs t ht
          · rcases ha with h | h
            · exact Or.inl h
            · exact Or.inr (h.trans hsz)
          · exact Or.inr (by simp [hsz])
          · rw [estep, e]
            simp [vStride, h1]
        · refine Or.inr ⟨fun n hb => ?_, by rw [estep, e]; rfl⟩
          have hsz : s.size = n := by
            rcases hb.1 s.size (by simp) with h | h
            · exact absurd h h1
            · exact h
          refine hno n ⟨?_, Or.inr (by simp [hsz])⟩
          intro t ht
          exact hb.1 t (by
            simp only [List.map_cons, List.mem_cons] at ht ⊢
            exact Or.inr ht)
      · have n1 : a ≠ 1 := fun k => ha (Or.inl k)
        have n2 : a ≠ s.size := fun k => ha (Or.inr k)
        refine Or.inr ⟨fun n hb => ?_, ?_⟩
        · have e1 : a = n := by rcases hb.1 a (by simp) with h | h; exact absurd h n1; exact h
          have e2 : s.size = n := by rcases hb.1 s.size (by simp) with h | h; exact absurd h h1; exact h
          exact n2 (e1.trans e2.symm)
        · cases hv : s.isVar <;> simp [joinVar, h1, hv, n1, Ne.symm n2]

theorem elwLoop_leaf (n : Nat) (d ds ds' : Int) (srcs : List VSrc) (h : n ≤ 1 ∨ ds = ds') :
    elwLoop (fun d s => [(d, s)]) ds (srcs.map vStride) n d (srcs.map (·.base)) = wantCalls n d ds' srcs := by
  rw [elwLoop_eq _ _ _ (by simp), wantCalls, List.map_eq_flatMap (l := List.range n)]
  have hcong : ∀ (l : List Nat) (f g : Nat → List (Int × List Int)), (∀ x ∈ l, f x = g x) → l.flatMap f = l.flatMap g := by
    intro l f g hfg
    rw [List.flatMap_def, List.flatMap_def, List.map_congr_left hfg]
  apply hcong
  intro j hj
  have hj := List.mem_range.1 hj
  have e1 : (j : Int) * ds = j * ds' := by
    rcases h with h | h
    · have : j = 0 := by omega
      simp [this]
    · rw [h]
  rw [e1]
  congr 2
  apply List.ext_getElem?
  intro k
  simp only [List.getElem?_zipWith, List.getElem?_map]
  cases srcs[k]? with
  | none => rfl
  | some s =>
    by_cases h1 : s.size = 1 <;> simp [vStride, h1]

/-- C46: a destination without data.  It receives exactly the size the operands broadcast to, and element `j` of the
    result is computed from element `j` of every operand (element 0 of an operand of size one); operands that do not
    broadcast are rejected. -/
theorem elwise_var_fresh (fresh : Int) (dst : VDst) (srcs : List VSrc) (hb : dst.begin' = none) (ho : dst.offset = 0) :
    (∃ n, BroadcastSize (srcs.map (·.size)) n ∧
      elwVarSingle fresh dst srcs =
        .ok (⟨some fresh, n, dst.stride, 0⟩, wantCalls n fresh dst.stride srcs)) ∨
    ((∀ n, ¬ BroadcastSize (srcs.map (·.size)) n) ∧ elwVarSingle fresh dst srcs = .throw .broadcast) := by
  unfold elwVarSingle
  simp only [hb, ho, ne_eq, not_true, if_false]
  rcases joinVar_spec srcs 1 with ⟨n, hs, _, hn, e⟩ | ⟨hno, e⟩
  · refine Or.inl ⟨n, ⟨?_, hn⟩, ?_⟩
    · intro s hs'
      obtain ⟨t, ht, rfl⟩ := List.mem_map.1 hs'
      exact hs t ht
    · rw [e, Res.bind_ok]
      simp only [Res.pure_eq]
      rw [elwLoop_leaf n _ _ dst.stride _ (by by_cases h : n ≤ 1 <;> simp [h])]
  · refine Or.inr ⟨fun n hbn => hno n ⟨?_, ?_⟩, by rw [e]; rfl⟩
    · intro s hs
      rcases List.mem_cons.1 hs with rfl | hs
      · exact Or.inl rfl
      · exact hbn.1 s hs
    · rcases hbn.2 with h | h
      · exact Or.inl h
      · exact Or.inr (by simp only [List.mem_cons]; exact Or.inr h)

/-- C46: a destination that already holds `dst.size` elements keeps its size; every operand must have that size or
    size one. -/
theorem elwise_var_existing (fresh : Int) (dst : VDst) (srcs : List VSrc) (b : Int) (hb : dst.begin' = some b) :
    ((∀ s ∈ srcs, s.size = 1 ∨ s.size = dst.size) ∧
      elwVarSingle fresh dst srcs = .ok (dst, wantCalls dst.size (b + dst.offset) dst.stride srcs)) ∨
    ((∃ s ∈ srcs, s.size ≠ 1 ∧ s.size ≠ dst.size) ∧ elwVarSingle fresh dst srcs = .throw .broadcast) := by
  unfold elwVarSingle
  simp only [hb]
  by_cases h : ∀ s ∈ srcs, s.size = 1 ∨ s.size = dst.size
  · refine Or.inl ⟨h, ?_⟩
    rw [fitVar_ok _ _ h, Res.bind_ok]
    simp only [Res.pure_eq]
    rw [elwLoop_leaf _ _ _ dst.stride _ (by by_cases h : dst.size ≤ 1 <;> simp [h])]
  · refine Or.inr ⟨?_, by rw [fitVar_throw _ _ h]; rfl⟩
    by_contra hc
    apply h
    intro s hs
    by_contra hn
    exact hc ⟨s, hs, fun k => hn (Or.inl k), fun k => hn (Or.inr k)⟩

/-- C46: a fixed destination of size `n`, whose fixed operands were matched when the kernel was made (size `n`, or
    size one with stride 0): var operands must have size `n` or one. -/
theorem elwise_fixed_existing (n : Nat) (dst ds : Int) (srcs : List VSrc)
    (hf : ∀ s ∈ srcs, s.isVar = false → s.size = n ∧ s.size ≠ 1 ∨ s.size = 1 ∧ s.stride = 0) :
    ((∀ s ∈ srcs, s.size = 1 ∨ s.size = n) ∧ elwFixedSingle n dst ds srcs = .ok (wantCalls n dst ds srcs)) ∨
    ((∃ s ∈ srcs, s.size ≠ 1 ∧ s.size ≠ n) ∧ elwFixedSingle n dst ds srcs = .throw .broadcast) := by
  unfold elwFixedSingle
  by_cases h : ∀ s ∈ srcs, s.isVar = true → s.size = 1 ∨ s.size = n
  · refine Or.inl ⟨?_, ?_⟩
    · intro s hs
      cases hv : s.isVar
      · rcases hf s hs hv with h | h
        · exact Or.inr h.1
        · exact Or.inl h.1
      · exact h s hs hv
    · rw [fitFixed_ok n srcs h, Res.bind_ok, elwLoop_leaf n _ _ ds _ (Or.inr rfl)]
      · rfl
      · intro s hs hv h1
        rcases hf s hs hv with h | h
        · exact absurd h1 h.2
        · exact h.2
  · refine Or.inr ⟨?_, by rw [fitFixed_throw _ _ h]; rfl⟩
    by_contra hc
    apply h
    intro s hs _
    by_contra hn
    exact hc ⟨s, hs, fun k => hn (Or.inl k), fun k => hn (Or.inr k)⟩

/-- C46: the size of the result, and whether the operands broadcast at all, do not depend on their order. -/
theorem elwise_var_order (fresh : Int) (dst : VDst) (srcs srcs' : List VSrc) (hb : dst.begin' = none)
    (ho : dst.offset = 0) (hp : srcs.Perm srcs') :
    (∃ n c c', elwVarSingle fresh dst srcs = .ok (⟨some fresh, n, dst.stride, 0⟩, c) ∧
      elwVarSingle fresh dst srcs' = .ok (⟨some fresh, n, dst.stride, 0⟩, c') ∧ c.map (·.1) = c'.map (·.1)) ∨
    (elwVarSingle fresh dst srcs = .throw .broadcast ∧ elwVarSingle fresh dst srcs' = .throw .broadcast) := by
  have hiff : ∀ n, BroadcastSize (srcs.map (·.size)) n ↔ BroadcastSize (srcs'.map (·.size)) n := by
    intro n
    have := hp.map (·.size)
    unfold BroadcastSize
    simp only [this.mem_iff]
  rcases elwise_var_fresh fresh dst srcs hb ho with ⟨n, h1, e1⟩ | ⟨h1, e1⟩ <;>
    rcases elwise_var_fresh fresh dst srcs' hb ho with ⟨m, h2, e2⟩ | ⟨h2, e2⟩
  · have := BroadcastSize.unique ((hiff n).1 h1) h2
    subst this
    exact Or.inl ⟨n, _, _, e1, e2, by simp [wantCalls]⟩
  · exact absurd ((hiff n).1 h1) (h2 n)
  · exact absurd ((hiff m).2 h2) (h1 m)
  · exact Or.inr ⟨e1, e2⟩

/-- Concrete cases: sizes 3, 1, 3 with a fresh destination; sizes 3 and 2 do not broadcast; an empty operand makes an
    empty result. -/
example : elwVarSingle 100 ⟨none, 0, 8, 0⟩ [⟨true, 3, 4, 10⟩, ⟨false, 1, 4, 20⟩, ⟨true, 3, -4, 30⟩] =
    .ok (⟨some 100, 3, 8, 0⟩, [(100, [10, 20, 30]), (108, [14, 20, 26]), (116, [18, 20, 22])]) := by decide
example : elwVarSingle 100 ⟨none, 0, 8, 0⟩ [⟨true, 3, 4, 10⟩, ⟨true, 2, 4, 20⟩] = .throw .broadcast := by decide
example : elwVarSingle 100 ⟨none, 0, 8, 0⟩ [⟨true, 1, 4, 10⟩, ⟨true, 0, 4, 20⟩] = .ok (⟨some 100, 0, 8, 0⟩, []) := by
  decide
example : elwFixedSingle 2 0 8 [⟨true, 2, 4, 10⟩, ⟨false, 1, 0, 20⟩] = .ok [(0, [10, 20]), (8, [14, 20])] := by decide

/-- Whether the kernel chosen writes a var dimension. -/
def kernelWritesVar (k : EKernel) : Bool := decide (k = .varDst)

/-- C46, type resolution: the dimension of the result type is what the chosen kernel writes, except exactly when some
    operand is var, some is a scalar and no fixed operand has a size other than one; then the result type says var
    but the kernel writes a fixed dimension (and reads the destination's arrmeta as such). -/
theorem elwise_result_kind_partial (srcs : List DimKind) :
    (decide (elwResDim srcs = .var) = kernelWritesVar (elwChoose srcs)) ↔
      ¬ (.var ∈ srcs ∧ .scalar ∈ srcs ∧ ∀ n, .fixed n ∈ srcs → n = 1) := by
  have hsz : elwResSize srcs = 1 ↔ ∀ n, .fixed n ∈ srcs → n = 1 := by
    unfold elwResSize
    induction srcs with
    | nil => simp
    | cons k ks ih =>
      rw [List.findSome?_cons]
      cases k with
      | var => simpa using ih
      | scalar => simpa using ih
      | fixed n =>
        by_cases hn : n = 1
        · simp only [hn, if_true, ih, List.mem_cons, DimKind.fixed.injEq]
          constructor
          · rintro h m (rfl | hm)
            · rfl
            · exact h m hm
          · intro h m hm
            exact h m (Or.inr hm)
        · simp only [hn, if_false, Option.getD_some, List.mem_cons, DimKind.fixed.injEq, false_iff]
          intro h
          exact hn (h n (Or.inl rfl))
  unfold elwResDim kernelWritesVar elwChoose
  by_cases hv : .var ∈ srcs
  · have h1 : (srcs.all fun k => decide (k ≠ .var)) = false := by
      rw [Bool.eq_false_iff]
      intro h
      have := List.all_eq_true.1 h _ hv
      simp at this
    simp only [h1, Bool.not_false, Bool.true_and, Bool.or_false]
    by_cases hb : (srcs.all fun k => decide (k = .var) || decide (k = .fixed 1)) = true
    · have hns : .scalar ∉ srcs := by
        intro h
        have := List.all_eq_true.1 hb _ h
        simp at this
      simp [hb, hns]
    · have hb' := Bool.eq_false_iff.2 hb
      simp only [hb', Bool.false_eq_true, if_false]
      by_cases hs1 : elwResSize srcs = 1
      · have hall := hsz.1 hs1
        have : .scalar ∈ srcs := by
          by_contra hns
          apply hb
          rw [List.all_eq_true]
          intro k hk
          cases k with
          | var => simp
          | scalar => exact absurd hk hns
          | fixed n => simp [hall n hk]
        simp [hs1, hv, this]
        exact hall
      · have hnall : ¬ ∀ n, .fixed n ∈ srcs → n = 1 := fun h => hs1 (hsz.2 h)
        simp only [hs1, if_false]
        have : ¬ (DimKind.var ∈ srcs ∧ DimKind.scalar ∈ srcs ∧ ∀ n, DimKind.fixed n ∈ srcs → n = 1) :=
          fun h => hnall h.2.2
        simp [this]
  · have h1 : (srcs.all fun k => decide (k ≠ .var)) = true := by
      rw [List.all_eq_true]
      intro k hk
      simp only [ne_eq, decide_not, Bool.not_eq_true', decide_eq_false_iff_not]
      rintro rfl
      exact hv hk
    simp only [h1, if_true]
    simp [hv]

/-- C46 violated: one var operand and one scalar. -/
theorem elwise_var_scalar_violated :
    elwResDim [.var, .scalar] = .var ∧ elwChoose [.var, .scalar] = .fixedVar := by decide

end Dynd
