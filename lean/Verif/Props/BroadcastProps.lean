import Verif.Props.PermuteProps
/-
Property theorems C56 (broadcast strides) and C57 (broadcast shape of several operands).
-/
namespace Dynd
open Res

/-! ## C56 -/

/-- NumPy's reading of a broadcast source: coordinate 0 along stretched (size 1) dimensions. -/
def stretchIndex : List (Int × Int) → List Int → List Int
  | (n, _) :: src, i :: ix => (if n = 1 then 0 else i) :: stretchIndex src ix
  | _, _ => []

private theorem broadcastLoop_ok {dst : List Int} {src : List (Int × Int)} {st : List Int}
    (hl : dst.length = src.length) (h : broadcastLoop dst src = .ok st) (ix : List Int) (hi : InShape dst ix) :
    st.length = src.length ∧ InB src (stretchIndex src ix) ∧
    dotStrides (List.zip dst st) ix = dotStrides src (stretchIndex src ix) := by
  induction src generalizing dst st ix with
  | nil =>
    cases dst with
    | nil => cases hi; simp only [broadcastLoop, Res.ok.injEq] at h; subst h; exact ⟨rfl, .nil, rfl⟩
    | cons _ _ => simp at hl
  | cons d src ih =>
    cases dst with
    | nil => simp at hl
    | cons m dst =>
      obtain ⟨n, s⟩ := d
      cases hi with
      | @cons _ i _ ix h0 h1 hi =>
        simp only [broadcastLoop] at h
        split at h
        · rename_i hn
          rw [bind_eq_ok] at h
          obtain ⟨r, hr, h⟩ := h
          simp only [pure_eq, Res.ok.injEq] at h
          subst h
          obtain ⟨a, b, c⟩ := ih (by simpa using hl) hr ix hi
          refine ⟨by simp [a], ?_, ?_⟩
          · simp only [stretchIndex, hn, if_true]; exact .cons (by omega) (by omega) b
          · simp only [List.zip_cons_cons, dotStrides, stretchIndex, hn, if_true, c]; omega
        · split at h
          · rename_i hn hnm
            rw [bind_eq_ok] at h
            obtain ⟨r, hr, h⟩ := h
            simp only [pure_eq, Res.ok.injEq] at h
            subst h
            obtain ⟨a, b, c⟩ := ih (by simpa using hl) hr ix hi
            refine ⟨by simp [a], ?_, ?_⟩
            · simp only [stretchIndex, hn, if_false]; exact .cons h0 (by omega) b
            · simp only [List.zip_cons_cons, dotStrides, stretchIndex, hn, if_false, c]
          · simp at h

private theorem broadcastLoop_total (dst : List Int) (src : List (Int × Int)) (hl : dst.length = src.length) :
    (canBroadcastLoop dst (src.map Prod.fst) = true ∧ ∃ st, broadcastLoop dst src = .ok st ∧ st.length = src.length) ∨
    (canBroadcastLoop dst (src.map Prod.fst) = false ∧ broadcastLoop dst src = .throw .broadcast) := by
  induction src generalizing dst with
  | nil => left; simp [canBroadcastLoop, broadcastLoop]
  | cons d src ih =>
    cases dst with
    | nil => simp at hl
    | cons m dst =>
      obtain ⟨n, s⟩ := d
      simp only [List.map_cons, canBroadcastLoop, broadcastLoop]
      by_cases hn : n = 1
      · rw [if_neg (by omega), if_pos hn]
        rcases ih dst (by simpa using hl) with ⟨h1, st, h2, h3⟩ | ⟨h1, h2⟩
        · left; exact ⟨h1, _, by rw [h2]; rfl, by simp [h3]⟩
        · right; exact ⟨h1, by rw [h2]; rfl⟩
      · by_cases hm : n = m
        · rw [if_neg (by omega), if_neg hn, if_pos hm]
          rcases ih dst (by simpa using hl) with ⟨h1, st, h2, h3⟩ | ⟨h1, h2⟩
          · left; exact ⟨h1, _, by rw [h2]; rfl, by simp [h3]⟩
          · right; exact ⟨h1, by rw [h2]; rfl⟩
        · right
          rw [if_pos ⟨hn, hm⟩, if_neg hn, if_neg hm]
          exact ⟨rfl, rfl⟩

private theorem inShape_drop {dst ix : List Int} (h : InShape dst ix) (k : Nat) : InShape (dst.drop k) (ix.drop k) := by
  induction h generalizing k with
  | nil => simpa using InShape.nil
  | cons a b hc ih =>
    cases k with
    | zero => exact .cons a b hc
    | succ k => exact ih k

private theorem zip_replicate_dot (dst st ix : List Int) (k : Nat) (hk : k ≤ dst.length) :
    dotStrides (List.zip dst (List.replicate k 0 ++ st)) ix = dotStrides (List.zip (dst.drop k) st) (ix.drop k) := by
  induction k generalizing dst ix with
  | zero => simp
  | succ k ih =>
    cases dst with
    | nil => simp at hk
    | cons d dst =>
      cases ix with
      | nil =>
        simp only [List.replicate_succ, List.cons_append, List.zip_cons_cons, List.drop_nil]
        generalize List.zip (List.drop (k + 1) (d :: dst)) st = z
        cases z with
        | nil => rfl
        | cons p z => obtain ⟨a, b⟩ := p; rfl
      | cons i ix =>
        simp only [List.replicate_succ, List.cons_append, List.zip_cons_cons, List.drop_succ_cons, dotStrides]
        rw [ih dst ix (by simpa using hk)]; omega

/-- C56: broadcasting a strided source to a destination shape succeeds exactly when the broadcasting rule allows
    it (and raises `broadcast_error` otherwise); reading the result at any destination index addresses the
    in-bounds source element that NumPy broadcasting designates. -/
theorem broadcast_to_shape_exact (dst : List Int) (src : List (Int × Int)) :
    (CanBroadcastSpec dst (src.map Prod.fst) → ∃ st, broadcastToShape dst src = .ok st ∧
        st.length = dst.length) ∧
    (¬ CanBroadcastSpec dst (src.map Prod.fst) → broadcastToShape dst src = .throw .broadcast) ∧
    (∀ st, broadcastToShape dst src = .ok st → ∀ ix, InShape dst ix →
      InB src (stretchIndex src (ix.drop (dst.length - src.length))) ∧
      dotStrides (List.zip dst st) ix = dotStrides src (stretchIndex src (ix.drop (dst.length - src.length)))) := by
  have hspec := shape_can_broadcast_exact dst (src.map Prod.fst)
  unfold shapeCanBroadcast at hspec
  simp only [List.length_map] at hspec
  refine ⟨fun h => ?_, fun h => ?_, fun st h ix hi => ?_⟩
  · have hb := hspec.2 h
    split at hb
    · rename_i hl
      rcases broadcastLoop_total (dst.drop (dst.length - src.length)) src (by simp; omega) with ⟨_, st, h2, h3⟩ | ⟨h1, _⟩
      · refine ⟨List.replicate (dst.length - src.length) 0 ++ st, ?_, by simp [h3]; omega⟩
        unfold broadcastToShape
        rw [if_neg (by omega), h2]; rfl
      · rw [h1] at hb; simp at hb
    · simp at hb
  · unfold broadcastToShape
    split
    · rfl
    · rename_i hl
      rcases broadcastLoop_total (dst.drop (dst.length - src.length)) src (by simp; omega) with ⟨h1, _⟩ | ⟨_, h2⟩
      · exfalso; apply h; apply hspec.1; rw [if_pos (by omega)]; exact h1
      · rw [h2]; rfl
  · unfold broadcastToShape at h
    split at h
    · simp at h
    · rename_i hl
      rw [bind_eq_ok] at h
      obtain ⟨r, hr, h⟩ := h
      simp only [pure_eq, Res.ok.injEq] at h
      subst h
      obtain ⟨a, b, c⟩ := broadcastLoop_ok (by simp; omega) hr _ (inShape_drop hi (dst.length - src.length))
      exact ⟨b, by rw [zip_replicate_dot _ _ _ _ (by omega), c]⟩

example : broadcastToShape [2, 3, 4] [(3, 16), (1, 4)] = .ok [0, 16, 0] ∧
    broadcastToShape [2, 3] [(2, 4)] = .throw .broadcast := by decide

/-! ## C57 -/

/-- Size of a shape at the `k`-th position from the right, 1 where the shape has no such dimension. -/
def sizeAt (l : List Int) (k : Nat) : Int := l.reverse.getD k 1

/-- `r` is the NumPy broadcast shape of `inputs`: every input stretches to `r`, and every size of `r` that is
    not 1 comes from an input. -/
def IsBroadcastShape (inputs : List (List Int)) (r : List Int) : Prop :=
  (∀ s ∈ inputs, ∀ k, sizeAt s k = 1 ∨ sizeAt s k = sizeAt r k) ∧
  (∀ k, sizeAt r k = 1 ∨ ∃ s ∈ inputs, sizeAt s k = sizeAt r k)

private theorem sizeAt_append (a b : List Int) (k : Nat) :
    sizeAt (a ++ b) k = if k < b.length then sizeAt b k else sizeAt a (k - b.length) := by
  unfold sizeAt
  rw [List.reverse_append]
  split
  · rw [List.getD_append _ _ _ _ (by simpa)]
  · rw [List.getD_append_right _ _ _ _ (by simp; omega)]; simp

private theorem sizeAt_out (a : List Int) (k : Nat) (h : a.length ≤ k) : sizeAt a k = 1 := by
  unfold sizeAt; rw [List.getD_eq_default _ _ (by simpa)]

private theorem sizeAt_nonneg (a : List Int) (h : ∀ x ∈ a, 0 ≤ x) (k : Nat) : 0 ≤ sizeAt a k := by
  unfold sizeAt
  by_cases hk : k < a.reverse.length
  · simp only [List.getD, List.getElem?_eq_getElem hk, Option.getD_some]
    exact h _ (List.mem_reverse.1 (List.getElem_mem hk))
  · rw [List.getD_eq_default _ _ (by omega)]; omega

/-- The per-axis join: sizes 1 stretch. -/
def JoinSize (a b c : Int) : Prop := (a = 1 ∧ c = b) ∨ (b = 1 ∧ c = a) ∨ (a = b ∧ c = a)

private theorem broadcastAxes_spec (o s : List Int) (hl : o.length = s.length) (ho : ∀ x ∈ o, 0 ≤ x) (hs : ∀ x ∈ s, 0 ≤ x) :
    (∃ r, broadcastAxes o s = .ok r ∧ r.length = o.length ∧ (∀ x ∈ r, 0 ≤ x) ∧
      ∀ k, JoinSize (sizeAt o k) (sizeAt s k) (sizeAt r k)) ∨
    (broadcastAxes o s = .throw .broadcast ∧ ∃ k, sizeAt o k ≠ 1 ∧ sizeAt s k ≠ 1 ∧ sizeAt o k ≠ sizeAt s k) := by
  induction s generalizing o with
  | nil =>
    cases o with
    | nil => left; exact ⟨[], rfl, rfl, by simp, fun k => by right; right; exact ⟨rfl, rfl⟩⟩
    | cons _ _ => simp at hl
  | cons s ss ih =>
    cases o with
    | nil => simp at hl
    | cons o os =>
      have hl' : os.length = ss.length := by simpa using hl
      have ho0 := ho o (by simp)
      have hs0 := hs s (by simp)
      have hcons : ∀ (a : Int) (l : List Int) (k : Nat), sizeAt (a :: l) k = if k < l.length then sizeAt l k else if k = l.length then a else 1 := by
        intro a l k
        rw [show a :: l = [a] ++ l from rfl, sizeAt_append]
        split
        · rfl
        · by_cases hk : k = l.length
          · rw [if_pos hk, hk, Nat.sub_self]; rfl
          · rw [if_neg hk, sizeAt_out _ _ (by simp; omega)]
      simp only [broadcastAxes]
      by_cases hc : o = 1 ∨ s = 1 ∨ o = s
      · have hax : ∃ c, broadcastAxis o s = .ok c ∧ JoinSize o s c ∧ 0 ≤ c := by
          unfold broadcastAxis
          by_cases h1 : o = 1
          · rw [if_pos h1]; exact ⟨s, rfl, Or.inl ⟨h1, rfl⟩, hs0⟩
          · rw [if_neg h1, if_neg (by omega), if_pos (by omega), if_neg (by omega)]
            refine ⟨o, rfl, ?_, ho0⟩
            rcases hc with h | h | h
            · exact absurd h h1
            · exact Or.inr (Or.inl ⟨h, rfl⟩)
            · exact Or.inr (Or.inr ⟨h, rfl⟩)
        obtain ⟨c, hc1, hc2, hc3⟩ := hax
        rw [hc1, bind_ok]
        rcases ih os hl' (fun x hx => ho x (by simp [hx])) (fun x hx => hs x (by simp [hx])) with
          ⟨r, h1, h2, h3, h4⟩ | ⟨h1, k, h2⟩
        · left
          rw [h1]
          refine ⟨c :: r, rfl, by simp [h2], ?_, fun k => ?_⟩
          · intro x hx; rcases List.mem_cons.1 hx with rfl | hx
            · exact hc3
            · exact h3 x hx
          · rw [hcons, hcons, hcons, h2, ← hl']
            split
            · exact h4 k
            · split
              · exact hc2
              · exact Or.inl ⟨rfl, rfl⟩
        · right
          rw [h1]
          refine ⟨rfl, k, ?_⟩
          have hk : k < os.length := by
            by_contra hk; exact h2.1 (sizeAt_out _ _ (by omega))
          rw [hcons, hcons, ← hl', if_pos hk, if_pos hk]; exact h2
      · right
        have : broadcastAxis o s = .throw .broadcast := by
          unfold broadcastAxis
          rw [if_neg (by omega), if_neg (by omega), if_pos (by omega), if_pos (by omega)]
        rw [this]
        refine ⟨rfl, os.length, ?_⟩
        rw [hcons, hcons, ← hl', if_neg (by omega), if_pos rfl, if_neg (by omega), if_pos rfl]
        omega

private theorem broadcastInput_spec (o s : List Int) (hl : s.length ≤ o.length) (ho : ∀ x ∈ o, 0 ≤ x) (hs : ∀ x ∈ s, 0 ≤ x) :
    (∃ r, broadcastInput o s = .ok r ∧ r.length = o.length ∧ (∀ x ∈ r, 0 ≤ x) ∧
      ∀ k, JoinSize (sizeAt o k) (sizeAt s k) (sizeAt r k)) ∨
    (broadcastInput o s = .throw .broadcast ∧ ∃ k, sizeAt o k ≠ 1 ∧ sizeAt s k ≠ 1 ∧ sizeAt o k ≠ sizeAt s k) := by
  unfold broadcastInput
  have e : o.take (o.length - s.length) ++ o.drop (o.length - s.length) = o := List.take_append_drop _ _
  have hld : (o.drop (o.length - s.length)).length = s.length := by simp; omega
  have hat : ∀ k, sizeAt o k = if k < s.length then sizeAt (o.drop (o.length - s.length)) k else
      sizeAt (o.take (o.length - s.length)) (k - s.length) := by
    intro k
    conv_lhs => rw [← e]
    rw [sizeAt_append, hld]
  rcases broadcastAxes_spec (o.drop (o.length - s.length)) s hld (fun x hx => ho x (List.mem_of_mem_drop hx)) hs with
    ⟨r, h1, h2, h3, h4⟩ | ⟨h1, k, h2⟩
  · left
    rw [h1]
    refine ⟨_, rfl, ?_, ?_, fun k => ?_⟩
    · simp only [List.length_append, h2]; simp
    · intro x hx
      rcases List.mem_append.1 hx with hx | hx
      · exact ho x (List.mem_of_mem_take hx)
      · exact h3 x hx
    · rw [hat, sizeAt_append, h2, hld]
      split
      · exact h4 k
      · right; left; exact ⟨sizeAt_out _ _ (by omega), rfl⟩
  · right
    rw [h1]
    refine ⟨rfl, k, ?_⟩
    have hk : k < s.length := by
      by_contra hk; exact h2.2.1 (sizeAt_out _ _ (by omega))
    rw [hat, if_pos hk]; exact h2

private theorem broadcastInputs_spec (inputs : List (List Int)) (o : List Int)
    (hl : ∀ s ∈ inputs, s.length ≤ o.length) (ho : ∀ x ∈ o, 0 ≤ x) (hs : ∀ s ∈ inputs, ∀ x ∈ s, 0 ≤ x) :
    (∃ r, broadcastInputs o inputs = .ok r ∧ r.length = o.length ∧
      (∀ k, (sizeAt o k = 1 ∨ sizeAt o k = sizeAt r k) ∧ ∀ s ∈ inputs, sizeAt s k = 1 ∨ sizeAt s k = sizeAt r k) ∧
      (∀ k, sizeAt r k = 1 ∨ sizeAt r k = sizeAt o k ∨ ∃ s ∈ inputs, sizeAt s k = sizeAt r k)) ∨
    (broadcastInputs o inputs = .throw .broadcast ∧
      ¬ ∃ r, ∀ k, (sizeAt o k = 1 ∨ sizeAt o k = sizeAt r k) ∧ ∀ s ∈ inputs, sizeAt s k = 1 ∨ sizeAt s k = sizeAt r k) := by
  induction inputs generalizing o with
  | nil =>
    left
    exact ⟨o, rfl, rfl, fun k => ⟨Or.inr rfl, by simp⟩, fun k => Or.inr (Or.inl rfl)⟩
  | cons s ss ih =>
    simp only [broadcastInputs]
    rcases broadcastInput_spec o s (hl s (by simp)) ho (hs s (by simp)) with ⟨m, h1, h2, h3, h4⟩ | ⟨h1, k, h2⟩
    · rw [h1, bind_ok]
      rcases ih m (fun t ht => by rw [h2]; exact hl t (by simp [ht])) h3 (fun t ht => hs t (by simp [ht])) with
        ⟨r, g1, g2, g3, g4⟩ | ⟨g1, g2⟩
      · left
        refine ⟨r, g1, by omega, fun k => ?_, fun k => ?_⟩
        · obtain ⟨a, b⟩ := g3 k
          have hj := h4 k
          refine ⟨?_, fun t ht => ?_⟩
          · rcases hj with hj | hj | hj <;> omega
          · rcases List.mem_cons.1 ht with rfl | ht
            · rcases hj with hj | hj | hj <;> omega
            · exact b t ht
        · rcases g4 k with g | g | ⟨t, ht, g⟩
          · exact Or.inl g
          · have hj := h4 k
            rcases hj with hj | hj | hj
            · right; right; exact ⟨s, by simp, by omega⟩
            · right; left; omega
            · right; left; omega
          · right; right; exact ⟨t, by simp [ht], g⟩
      · right
        refine ⟨g1, ?_⟩
        rintro ⟨r, hr⟩
        apply g2
        refine ⟨r, fun k => ⟨?_, fun t ht => (hr k).2 t (by simp [ht])⟩⟩
        have hj := h4 k
        have ha := (hr k).1
        have hb := (hr k).2 s (by simp)
        rcases hj with hj | hj | hj <;> omega
    · right
      rw [h1]
      refine ⟨rfl, ?_⟩
      rintro ⟨r, hr⟩
      have ha := (hr k).1
      have hb := (hr k).2 s (by simp)
      omega

private theorem foldl_max_le (l : List (List Int)) (m : Nat) :
    m ≤ l.foldl (fun m s => max m s.length) m ∧ ∀ s ∈ l, s.length ≤ l.foldl (fun m s => max m s.length) m := by
  induction l generalizing m with
  | nil => simp
  | cons s l ih =>
    simp only [List.foldl_cons, List.mem_cons, forall_eq_or_imp]
    obtain ⟨a, b⟩ := ih (max m s.length)
    exact ⟨by omega, by omega, b⟩

private theorem foldl_max_mem (l : List (List Int)) (m : Nat) :
    l.foldl (fun m s => max m s.length) m = m ∨ ∃ s ∈ l, s.length = l.foldl (fun m s => max m s.length) m := by
  induction l generalizing m with
  | nil => simp
  | cons s l ih =>
    simp only [List.foldl_cons, List.mem_cons, exists_eq_or_imp]
    rcases ih (max m s.length) with h | h
    · rw [h]; omega
    · exact Or.inr (Or.inr h)

private theorem sizeAt_ones (n k : Nat) : sizeAt (List.replicate n 1) k = 1 := by
  unfold sizeAt
  rw [List.reverse_replicate]
  by_cases h : k < n
  · simp [List.getD, h]
  · rw [List.getD_eq_default _ _ (by simp; omega)]

/-- C57: for operands of fixed sizes, `broadcast_input_shapes` returns the NumPy broadcast shape (as many
    dimensions as the largest operand) if one exists, and raises `broadcast_error` otherwise. -/
theorem broadcast_input_shapes_exact (inputs : List (List Int)) (hs : ∀ s ∈ inputs, ∀ x ∈ s, 0 ≤ x) :
    (∃ r, broadcastInputShapes inputs = .ok r ∧ IsBroadcastShape inputs r ∧
      (∀ s ∈ inputs, s.length ≤ r.length) ∧ (r = [] ∨ ∃ s ∈ inputs, s.length = r.length)) ∨
    (broadcastInputShapes inputs = .throw .broadcast ∧ ¬ ∃ r, IsBroadcastShape inputs r) := by
  unfold broadcastInputShapes
  simp only
  obtain ⟨_, hmax⟩ := foldl_max_le inputs 0
  have hmem := foldl_max_mem inputs 0
  generalize inputs.foldl (fun m s => max m s.length) 0 = n at hmax hmem
  rcases broadcastInputs_spec inputs (List.replicate n 1) (by simpa using hmax)
    (fun x hx => by have := List.eq_of_mem_replicate hx; omega) hs with ⟨r, g1, g2, g3, g4⟩ | ⟨g1, g2⟩
  · left
    refine ⟨r, g1, ⟨fun s h k => (g3 k).2 s h, fun k => ?_⟩, fun s h => by rw [g2]; simpa using hmax s h, ?_⟩
    swap
    · rw [List.length_replicate] at g2
      rcases hmem with h | h
      · left; exact List.length_eq_zero_iff.1 (by omega)
      · right; rw [g2]; exact h
    rcases g4 k with g | g | g
    · exact Or.inl g
    · rw [sizeAt_ones] at g; exact Or.inl g
    · exact Or.inr g
  · right
    refine ⟨g1, ?_⟩
    rintro ⟨r, hr, _⟩
    exact g2 ⟨r, fun k => ⟨Or.inl (sizeAt_ones n k), fun s h => hr s h k⟩⟩

/-- C57: the broadcast shape does not depend on the order of the operands. -/
theorem broadcast_shape_unique {inputs inputs' : List (List Int)} {r r' : List Int} (hp : inputs.Perm inputs')
    (h : IsBroadcastShape inputs r) (h' : IsBroadcastShape inputs' r') : ∀ k, sizeAt r k = sizeAt r' k := by
  intro k
  rcases h.2 k with h1 | ⟨s, hs, h1⟩
  · rcases h'.2 k with h2 | ⟨s, hs, h2⟩
    · omega
    · have := h.1 s (hp.mem_iff.2 hs) k; omega
  · have h3 := h'.1 s (hp.mem_iff.1 hs) k
    rcases h'.2 k with h2 | ⟨t, ht, h2⟩
    · rcases h3 with h3 | h3 <;> omega
    · have := h.1 t (hp.mem_iff.2 ht) k
      omega

example : broadcastInputShapes [[3, 1], [4], [2, 1, 1]] = .ok [2, 3, 4] ∧
    broadcastInputShapes [[3], [4]] = .throw .broadcast := by decide

/-- C57: `incremental_broadcast` on fixed sizes computes the same per-axis join. -/
theorem incremental_broadcast_axis_exact (o s : Int) (ho : 0 ≤ o) (hs : 0 ≤ s) :
    (∀ c, incrBroadcast1 o s = .ok c ↔ JoinSize o s c) ∧
    (incrBroadcast1 o s = .throw .broadcast ↔ o ≠ 1 ∧ s ≠ 1 ∧ o ≠ s) := by
  unfold incrBroadcast1 JoinSize
  constructor
  · intro c
    repeat' split
    all_goals simp only [Res.ok.injEq, reduceCtorEq, false_iff]
    all_goals omega
  · repeat' split
    all_goals simp only [reduceCtorEq, false_iff, true_iff]
    all_goals omega

end Dynd
