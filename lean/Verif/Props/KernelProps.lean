import Verif.Model.Kernels
import Verif.Props.IndexProps
import Verif.Props.HalfProps
import Mathlib.Data.List.TakeDrop
import Mathlib.Tactic.Ring
import Mathlib.Tactic.Linarith
/-
Property theorems C47-C51: take, binary search, range, byte swapping.
-/
namespace Dynd

/-! ## take -/

theorem maskRun_spec {nz : Bool} {mask : List UInt8} {n : Nat} (hn : mask.length = n) :
    ∀ (fuel i : Nat), i ≤ n → n - i < fuel → ∃ i', maskRun nz mask n fuel i = .ok i' ∧ i ≤ i' ∧ i' ≤ n ∧
      (∀ j b, i ≤ j → j < i' → mask[j]? = some b → (b != 0) = nz) ∧
      (∀ b, i' < n → mask[i']? = some b → (b != 0) ≠ nz) := by
  intro fuel
  induction fuel with
  | zero => intro i _ h; omega
  | succ fuel ih =>
    intro i hi hf
    unfold maskRun
    by_cases h : i < n
    · rw [if_pos h, List.getElem?_eq_getElem (by omega)]
      simp only
      by_cases hb : (mask[i] != 0) = nz
      · rw [if_pos hb]
        obtain ⟨i', e, h1, h2, h3, h4⟩ := ih (i + 1) (by omega) (by omega)
        refine ⟨i', e, by omega, h2, ?_, h4⟩
        intro j b hj hj' hjb
        by_cases hij : j = i
        · subst hij
          rw [List.getElem?_eq_getElem (by omega), Option.some.injEq] at hjb
          rw [← hjb]; exact hb
        · exact h3 j b (by omega) hj' hjb
      · rw [if_neg hb]
        refine ⟨i, rfl, le_refl _, by omega, by omega, ?_⟩
        intro b _ hjb
        rw [List.getElem?_eq_getElem (by omega), Option.some.injEq] at hjb
        rw [← hjb]; exact hb
    · rw [if_neg h]
      exact ⟨i, rfl, le_refl _, hi, by omega, by omega⟩

/-- Specification of a masked selection: the elements whose mask byte is nonzero, in order. -/
def selected {α : Type} (src : List α) (mask : List UInt8) : List α :=
  ((src.zip mask).filter fun p => p.2 != 0).map (·.1)

theorem selected_append {α : Type} {s1 s2 : List α} {m1 m2 : List UInt8} (h : s1.length = m1.length) :
    selected (s1 ++ s2) (m1 ++ m2) = selected s1 m1 ++ selected s2 m2 := by
  unfold selected
  rw [List.zip_append h, List.filter_append, List.map_append]

theorem selected_all {α : Type} : ∀ {s : List α} {m : List UInt8}, s.length = m.length → (∀ b ∈ m, (b != 0) = true) →
    selected s m = s
  | [], [], _, _ => rfl
  | x :: s, b :: m, h, hb => by
    have ih := selected_all (s := s) (m := m) (by simpa using h) (fun c hc => hb c (by simp [hc]))
    have hb0 := hb b (by simp)
    unfold selected at ih ⊢
    simp only [List.zip_cons_cons, List.filter_cons, hb0, ite_true, List.map_cons, ih]

theorem selected_none {α : Type} : ∀ {s : List α} {m : List UInt8}, (∀ b ∈ m, (b != 0) = false) →
    selected s m = []
  | [], _, _ => by simp [selected]
  | _ :: _, [], _ => by simp [selected]
  | x :: s, b :: m, hb => by
    have ih := selected_none (s := s) (m := m) (fun c hc => hb c (by simp [hc]))
    have hb0 := hb b (by simp)
    unfold selected at ih ⊢
    simp only [List.zip_cons_cons, List.filter_cons, hb0]
    simpa using ih

theorem selected_step {α : Type} {src : List α} {mask : List UInt8} {i j : Nat} (h : src.length = mask.length)
    (hij : i ≤ j) (hj : j ≤ src.length) :
    selected (src.take j) (mask.take j) = selected (src.take i) (mask.take i) ++
      selected ((src.drop i).take (j - i)) ((mask.drop i).take (j - i)) := by
  rw [← selected_append (by simp; omega)]
  congr 1
  · rw [← List.take_add]; congr 1; omega
  · rw [← List.take_add]; congr 1; omega

theorem mem_take_drop {mask : List UInt8} {i j : Nat} {b : UInt8} (h : b ∈ (mask.drop i).take (j - i)) :
    ∃ k, i ≤ k ∧ k < j ∧ mask[k]? = some b := by
  obtain ⟨k, hk⟩ := List.mem_iff_getElem?.1 h
  rw [List.getElem?_take] at hk
  split at hk
  · rw [List.getElem?_drop] at hk
    exact ⟨i + k, by omega, by omega, hk⟩
  · simp at hk

theorem selected_length_le {α : Type} (s : List α) (m : List UInt8) : (selected s m).length ≤ s.length := by
  unfold selected
  rw [List.length_map]
  refine le_trans (List.length_filter_le _ _) ?_
  simp

theorem maskLoop_spec {α : Type} {src : List α} {mask : List UInt8} (h : src.length = mask.length) :
    ∀ (fuel i : Nat), i ≤ src.length → src.length - i < fuel →
      maskLoop src mask src.length fuel i i (selected (src.take i) (mask.take i)) = .ok (selected src mask) := by
  intro fuel
  induction fuel with
  | zero => intro i _ hf; omega
  | succ fuel ih =>
    intro i hi hf
    unfold maskLoop
    by_cases hlt : i < src.length
    · rw [if_pos hlt]
      obtain ⟨i1, e1, a1, a2, a3, a4⟩ := maskRun_spec (nz := false) h.symm (src.length + 1) i hi (by omega)
      obtain ⟨i2, e2, b1, b2, b3, b4⟩ := maskRun_spec (nz := true) h.symm (src.length + 1) i1 a2 (by omega)
      rw [e1, Res.bind_ok]
      simp only
      rw [e2, Res.bind_ok]
      have hs1 : i + (i1 - i) = i1 := by omega
      rw [hs1]
      have f1 : selected (src.take i1) (mask.take i1) = selected (src.take i) (mask.take i) := by
        have hn : selected ((src.drop i).take (i1 - i)) ((mask.drop i).take (i1 - i)) = [] := by
          apply selected_none
          intro b hb
          obtain ⟨k, k1, k2, k3⟩ := mem_take_drop hb
          exact a3 k b k1 k2 k3
        rw [selected_step h a1 a2, hn, List.append_nil]
      have f2 : selected (src.take i2) (mask.take i2) = selected (src.take i1) (mask.take i1) ++
          (src.drop i1).take (i2 - i1) := by
        rw [selected_step h b1 b2]
        congr 1
        apply selected_all
        · simp; omega
        · intro b hb
          obtain ⟨k, k1, k2, k3⟩ := mem_take_drop hb
          exact b3 k b k1 k2 k3
      have hprog : i < i2 := by
        by_contra hcon
        have h1 : i1 = i := by omega
        have h2 : i2 = i := by omega
        obtain ⟨b, hb⟩ : ∃ b, mask[i]? = some b := ⟨_, List.getElem?_eq_getElem (by omega)⟩
        have x1 := a4 b (by omega) (by rw [h1]; exact hb)
        have x2 := b4 b (by omega) (by rw [h2]; exact hb)
        cases hv : (b != 0) <;> simp_all
      by_cases hgt : i2 > i1
      · rw [if_pos hgt]
        have hc : copyRun src i1 (i2 - i1) src.length (selected (src.take i) (mask.take i)) =
            .ok (selected (src.take i2) (mask.take i2)) := by
          unfold copyRun
          rw [if_pos, f2, f1]
          have := selected_length_le (src.take i) (mask.take i)
          simp only [List.length_take] at this
          omega
        rw [hc, Res.bind_ok, show i1 + (i2 - i1) = i2 by omega]
        exact ih i2 b2 (by omega)
      · rw [if_neg hgt]
        have : i2 = i1 := by omega
        subst this
        rw [← f1]
        exact ih i2 b2 (by omega)
    · rw [if_neg hlt]
      rw [List.take_of_length_le (by omega), List.take_of_length_le (by omega)]

/-- C47: `take` with a boolean mask returns exactly the elements whose mask entry is true, in order, and raises
    when the sizes differ; it never reads or writes out of bounds. -/
theorem masked_take_exact {α : Type} (src : List α) (mask : List UInt8) :
    maskedTake src mask = if src.length = mask.length then .ok (selected src mask) else .throw .invalidArg := by
  unfold maskedTake
  by_cases h : src.length = mask.length
  · rw [if_neg (by simpa using h), if_pos h]
    have := maskLoop_spec h (src.length + 1) 0 (by omega) (by omega)
    simpa [selected] using this
  · rw [if_pos h, if_neg h]

example : maskedTake [10, 20, 30, 40, 50] [0, 1, 1, 0, 1] = .ok [20, 30, 50] := by decide

/-- C48: `take` with indices returns, for indices in `-n … n-1`, the elements at those positions in order (negative
    ones counting from the end), and raises `index_out_of_bounds` when some index is out of range; it never
    reads out of bounds. -/
theorem indexed_take_exact {α : Type} (src : List α) (idx : List Int) :
    ((∀ i ∈ idx, -(src.length : Int) ≤ i ∧ i < src.length) →
      ∃ xs, indexedTake src idx = .ok xs ∧ xs.length = idx.length ∧
        ∀ (k : Nat) i, idx[k]? = some i →
          xs[k]? = src[(if i < 0 then i + src.length else i).toNat]? ∧ xs[k]?.isSome) ∧
    ((∃ i ∈ idx, ¬ (-(src.length : Int) ≤ i ∧ i < src.length)) → indexedTake src idx = .throw .indexOutOfBounds) := by
  induction idx with
  | nil => simp [indexedTake]
  | cons i rest ih =>
    have hone : -(src.length : Int) ≤ i ∧ i < src.length →
        ∃ x, applySingleIndex i src.length = .ok (if i < 0 then i + src.length else i) ∧
          0 ≤ (if i < 0 then i + src.length else i) ∧ src[(if i < 0 then i + (src.length : Int) else i).toNat]? = some x := by
      intro hi
      have hlt : (if i < 0 then i + (src.length : Int) else i).toNat < src.length := by split <;> omega
      refine ⟨src[_]'hlt, ?_, by split <;> omega, List.getElem?_eq_getElem hlt⟩
      unfold applySingleIndex
      by_cases h0 : i ≥ 0
      · rw [if_pos h0, if_pos hi.2, if_neg (by omega)]
      · rw [if_neg h0, if_pos (by omega), if_pos (by omega)]
    constructor
    · intro hall
      obtain ⟨x, e1, e2, e3⟩ := hone (hall i (by simp))
      obtain ⟨xs, f1, f2, f3⟩ := ih.1 (fun j hj => hall j (by simp [hj]))
      refine ⟨x :: xs, ?_, by simp [f2], ?_⟩
      · unfold indexedTake
        rw [e1, Res.bind_ok, if_pos e2, e3, f1]
        rfl
      · intro k j hk
        cases k with
        | zero =>
          simp only [List.getElem?_cons_zero, Option.some.injEq] at hk ⊢
          subst hk
          rw [e3]; simp
        | succ k =>
          simp only [List.getElem?_cons_succ] at hk ⊢
          exact f3 k j hk
    · rintro ⟨j, hj, hbad⟩
      unfold indexedTake
      by_cases hi : -(src.length : Int) ≤ i ∧ i < src.length
      · obtain ⟨x, e1, e2, e3⟩ := hone hi
        rw [e1, Res.bind_ok, if_pos e2, e3]
        have hj' : j ∈ rest := by
          rcases List.mem_cons.1 hj with rfl | h
          · exact absurd hi hbad
          · exact h
        rw [ih.2 ⟨j, hj', hbad⟩]; rfl
      · have : applySingleIndex i src.length = .throw .indexOutOfBounds := by
          unfold applySingleIndex
          by_cases h0 : i ≥ 0
          · rw [if_pos h0, if_neg (by omega)]
          · rw [if_neg h0, if_neg (by omega)]
        rw [this, Res.bind_throw]

example : indexedTake [10, 20, 30] [2, -3, 1] = .ok [30, 10, 20] ∧
    indexedTake [10, 20, 30] [2, 3, 1] = .throw .indexOutOfBounds := by decide

/-! ## binary_search -/

/-- A strict weak order: what the search relies on. -/
structure StrictWeakLess {α : Type} (less : α → α → Bool) : Prop where
  asymm : ∀ a b, less a b = true → less b a = false
  /-- `¬ less` is transitive -/
  ntrans : ∀ a b c, less a b = false → less b c = false → less a c = false

/-- Sorted: no later element precedes an earlier one. -/
def SortedBy {α : Type} (less : α → α → Bool) (arr : List α) : Prop := arr.Pairwise (fun x y => less y x = false)

/-- `i` holds an element equivalent to `key`. -/
def HoldsKey {α : Type} (less : α → α → Bool) (arr : List α) (key : α) (i : Nat) : Prop :=
  ∃ x, arr[i]? = some x ∧ less key x = false ∧ less x key = false

theorem bsearch_loop_spec {α : Type} (less : α → α → Bool) (arr : List α) (key : α) :
    ∀ (fuel first last : Nat), last ≤ arr.length → last - first < fuel →
      (∃ i : Nat, bsearchLoop less arr key fuel first last = .ok i ∧ first ≤ i ∧ i < last ∧ HoldsKey less arr key i) ∨
      (bsearchLoop less arr key fuel first last = .ok (-1) ∧
        (StrictWeakLess less → SortedBy less arr → ∀ i, first ≤ i → i < last → ¬ HoldsKey less arr key i)) := by
  intro fuel
  induction fuel with
  | zero => intro first last _ h; omega
  | succ fuel ih =>
    intro first last hl hf
    unfold bsearchLoop
    by_cases hlt : first < last
    · rw [if_pos hlt]
      generalize ht : first + (last - first) / 2 = t
      have ht1 : first ≤ t := by omega
      have ht2 : t < last := by omega
      have hx := List.getElem?_eq_getElem (l := arr) (i := t) (by omega)
      rw [hx]
      simp only
      by_cases c1 : less key arr[t] = true
      · rw [if_pos c1]
        rcases ih first t (by omega) (by omega) with ⟨i, e, h1, h2, h3⟩ | ⟨e, hno⟩
        · exact Or.inl ⟨i, e, h1, by omega, h3⟩
        · right
          refine ⟨e, fun hw hs i hi1 hi2 => ?_⟩
          by_cases hit : i < t
          · exact hno hw hs i hi1 hit
          · rintro ⟨x, hxi, q1, q2⟩
            have hle : less x arr[t] = false := by
              by_cases hit' : i = t
              · subst hit'
                rw [hx, Option.some.injEq] at hxi
                subst hxi
                by_contra hc
                have hc' : less arr[i] arr[i] = true := by simpa using hc
                have := hw.asymm _ _ hc'
                simp [hc'] at this
              · unfold SortedBy at hs
                rw [List.pairwise_iff_getElem] at hs
                obtain ⟨hib, rfl⟩ := List.getElem?_eq_some_iff.1 hxi
                exact hs t i (by omega) hib (by omega)
            have := hw.ntrans _ _ _ q1 hle
            rw [c1] at this; simp at this
      · rw [if_neg c1]
        by_cases c2 : less arr[t] key = true
        · rw [if_pos c2]
          rcases ih (t + 1) last hl (by omega) with ⟨i, e, h1, h2, h3⟩ | ⟨e, hno⟩
          · exact Or.inl ⟨i, e, by omega, h2, h3⟩
          · right
            refine ⟨e, fun hw hs i hi1 hi2 => ?_⟩
            by_cases hit : t + 1 ≤ i
            · exact hno hw hs i hit hi2
            · rintro ⟨x, hxi, q1, q2⟩
              have hle : less arr[t] x = false := by
                by_cases hit' : i = t
                · subst hit'
                  rw [hx, Option.some.injEq] at hxi
                  subst hxi
                  by_contra hc
                  have hc' : less arr[i] arr[i] = true := by simpa using hc
                  have := hw.asymm _ _ hc'
                  simp [hc'] at this
                · unfold SortedBy at hs
                  rw [List.pairwise_iff_getElem] at hs
                  obtain ⟨hib, rfl⟩ := List.getElem?_eq_some_iff.1 hxi
                  exact hs i t hib (by omega) (by omega)
              have := hw.ntrans _ _ _ hle q2
              rw [c2] at this; simp at this
        · rw [if_neg c2]
          left
          exact ⟨t, rfl, ht1, ht2, arr[t], hx, by simpa using c1, by simpa using c2⟩
    · rw [if_neg hlt]
      right
      exact ⟨rfl, fun _ _ i h1 h2 => by omega⟩

/-- C49: `binary_search` terminates on every array without reading out of bounds; a nonnegative answer is always
    the position of an element equivalent to the key, and on a sorted array the answer is `-1` exactly when there
    is no such element. -/
theorem binary_search_exact {α : Type} (less : α → α → Bool) (arr : List α) (key : α) :
    (∃ i : Nat, binarySearch less arr key = .ok i ∧ i < arr.length ∧ HoldsKey less arr key i) ∨
    (binarySearch less arr key = .ok (-1) ∧
      (StrictWeakLess less → SortedBy less arr → ∀ i, ¬ HoldsKey less arr key i)) := by
  rcases bsearch_loop_spec less arr key (arr.length + 1) 0 arr.length (le_refl _) (by omega) with
    ⟨i, e, _, h2, h3⟩ | ⟨e, hno⟩
  · exact Or.inl ⟨i, e, h2, h3⟩
  · right
    refine ⟨e, fun hw hs i hk => ?_⟩
    obtain ⟨x, hx, _⟩ := id hk
    exact hno hw hs i (by omega) (List.getElem?_eq_some_iff.1 hx).1 hk

/-- The orders the library searches with: integers and booleans. -/
theorem strictWeak_int : StrictWeakLess (fun a b : Int => decide (a < b)) :=
  ⟨fun a b h => by simp at h ⊢; omega, fun a b c h1 h2 => by simp at h1 h2 ⊢; omega⟩

/-- The order on strings. -/
theorem strictWeak_lex : StrictWeakLess lexLess := by
  constructor
  · intro a
    induction a with
    | nil => intro b h; cases b <;> simp_all [lexLess]
    | cons x a ih =>
      intro b h
      cases b with
      | nil => simp [lexLess] at h
      | cons y b =>
        simp only [lexLess] at h ⊢
        by_cases c1 : x < y
        · rw [if_neg (by omega), if_pos c1]
        · by_cases c2 : y < x
          · rw [if_neg c1, if_pos c2] at h; simp at h
          · rw [if_neg c1, if_neg c2] at h
            rw [if_neg c2, if_neg c1]
            exact ih b h
  · intro a
    induction a with
    | nil =>
      intro b c h1 h2
      cases b with
      | nil => exact h2
      | cons y b => simp [lexLess] at h1
    | cons x a ih =>
      intro b c h1 h2
      cases c with
      | nil => simp [lexLess]
      | cons z c =>
        cases b with
        | nil => simp [lexLess] at h2
        | cons y b =>
          simp only [lexLess] at h1 h2 ⊢
          by_cases c1 : x < y
          · rw [if_pos c1] at h1; simp at h1
          · by_cases d1 : y < z
            · rw [if_pos d1] at h2; simp at h2
            · rw [if_neg (by omega)]
              by_cases e : z < x
              · rw [if_pos e]
              · rw [if_neg e]
                rw [if_neg c1, if_neg (by omega)] at h1
                rw [if_neg d1, if_neg (by omega)] at h2
                exact ih b c h1 h2

example : binarySearch (fun a b : Int => decide (a < b)) [-3, 0, 4, 4, 9, 12] 9 = .ok 4 ∧
    binarySearch (fun a b : Int => decide (a < b)) [-3, 0, 4, 4, 9, 12] 5 = .ok (-1) := by decide

/-! ## range -/

/-- Values of a `w`-bit signed integer type. -/
def SInt (w : Nat) (x : Int) : Prop := -(2 ^ (w - 1) : Int) ≤ x ∧ x < 2 ^ (w - 1)

theorem sint_ok {w : Nat} {x : Int} (h : SInt w x) : sint w x = .ok x := if_pos h

/-- `x` lies strictly before `stop` in the direction of `step`. -/
def Before (step x stop : Int) : Prop := (0 < step ∧ x < stop) ∨ (step < 0 ∧ stop < x)

theorem rangeSize_spec {w : Nat} {a b s : Int} (hs : s ≠ 0)
    (h1 : SInt w (b - a)) (h2 : SInt w (b - a + s)) (h3 : SInt w (b - a + s - s.sign)) :
    ∃ n, rangeSize w a b s = .ok n ∧ ∀ k : Nat, k < n ↔ Before s (a + k * s) b := by
  unfold rangeSize Before
  rcases lt_trichotomy s 0 with hneg | h0 | hpos
  · rw [if_neg (by omega), if_pos hneg]
    rw [Int.sign_eq_neg_one_of_neg hneg] at h3
    by_cases hba : b ≥ a
    · rw [if_pos hba]
      refine ⟨0, rfl, fun k => ?_⟩
      have : (k : Int) * s ≤ 0 := Int.mul_nonpos_of_nonneg_of_nonpos (by omega) (by omega)
      constructor
      · intro h; omega
      · rintro (⟨h, _⟩ | ⟨_, h⟩) <;> omega
    · rw [if_neg hba, sint_ok h1, Res.bind_ok, sint_ok h2, Res.bind_ok,
        sint_ok (show SInt w (b - a + s + 1) by have e : b - a + s - -1 = b - a + s + 1 := by ring
                                                rw [e] at h3; exact h3), Res.bind_ok]
      refine ⟨_, rfl, fun k => ?_⟩
      have hq : (b - a + s + 1).tdiv s = (a - b - s - 1) / (-s) := by
        rw [← Int.neg_tdiv_neg, Int.tdiv_eq_ediv_of_nonneg (by omega)]
        congr 1; ring
      rw [hq]
      have hq0 : 0 ≤ (a - b - s - 1) / (-s) := Int.ediv_nonneg (by omega) (by omega)
      have key : ((k : Int) + 1 ≤ (a - b - s - 1) / (-s)) ↔ ((k : Int) + 1) * (-s) ≤ a - b - s - 1 :=
        Int.le_ediv_iff_mul_le (by omega)
      have e : ((k : Int) + 1) * (-s) = -(k * s) - s := by ring
      rw [e] at key
      constructor
      · intro h
        have := key.1 (by omega)
        right; constructor <;> omega
      · rintro (⟨h, _⟩ | ⟨_, h⟩)
        · omega
        · have := key.2 (by omega)
          omega
  · exact absurd h0 hs
  · rw [if_pos hpos]
    rw [Int.sign_eq_one_of_pos hpos] at h3
    by_cases hba : b ≤ a
    · rw [if_pos hba]
      refine ⟨0, rfl, fun k => ?_⟩
      have : 0 ≤ (k : Int) * s := Int.mul_nonneg (by omega) (by omega)
      constructor
      · intro h; omega
      · rintro (⟨_, h⟩ | ⟨h, _⟩) <;> omega
    · rw [if_neg hba, sint_ok h1, Res.bind_ok, sint_ok h2, Res.bind_ok, sint_ok h3, Res.bind_ok]
      refine ⟨_, rfl, fun k => ?_⟩
      have hq : (b - a + s - 1).tdiv s = (b - a + s - 1) / s := Int.tdiv_eq_ediv_of_nonneg (by omega)
      rw [hq]
      have hq0 : 0 ≤ (b - a + s - 1) / s := Int.ediv_nonneg (by omega) (by omega)
      have key : ((k : Int) + 1 ≤ (b - a + s - 1) / s) ↔ ((k : Int) + 1) * s ≤ b - a + s - 1 :=
        Int.le_ediv_iff_mul_le (by omega)
      have e : ((k : Int) + 1) * s = k * s + s := by ring
      rw [e] at key
      constructor
      · intro h
        have := key.1 (by omega)
        left; constructor <;> omega
      · rintro (⟨_, h⟩ | ⟨h, _⟩)
        · have := key.2 (by omega)
          omega
        · omega

theorem rangeFill_spec {w : Nat} {a s : Int} {size : Nat} (h : ∀ k : Nat, k < size → SInt w k ∧ SInt w (k * s) ∧ SInt w (a + k * s)) :
    ∀ (fuel i : Nat), i ≤ size → size - i ≤ fuel →
      rangeFill w a s size fuel i = .ok ((List.range' i (size - i)).map fun k : Nat => a + k * s) := by
  intro fuel
  induction fuel with
  | zero =>
    intro i hi hf
    have : i = size := by omega
    subst this
    simp [rangeFill]
  | succ fuel ih =>
    intro i hi hf
    unfold rangeFill
    by_cases hlt : i < size
    · rw [if_pos hlt]
      obtain ⟨h1, h2, h3⟩ := h i hlt
      rw [sint_ok h1, Res.bind_ok, sint_ok h2, Res.bind_ok, sint_ok h3, Res.bind_ok, ih (i + 1) (by omega) (by omega)]
      rw [show size - i = (size - (i + 1)) + 1 by omega, List.range'_succ]
      rfl
    · rw [if_neg hlt]
      have : i = size := by omega
      subst this
      simp

/-- Nonempty or not, when the size computation does not overflow. -/
theorem range_exact_of_fits {w : Nat} {a b s : Int} (ha : SInt w a) (hb : SInt w b) (hs : s ≠ 0)
    (h1 : SInt w (b - a)) (h2 : SInt w (b - a + s)) (h3 : SInt w (b - a + s - s.sign)) :
    ∃ xs, rangeInt w (some a) (some b) (some s) = .ok xs ∧
      ∀ (k : Nat) (x : Int), xs[k]? = some x ↔ x = a + k * s ∧ Before s x b := by
  obtain ⟨n, hn, hk⟩ := rangeSize_spec hs h1 h2 h3
  have hbound : ∀ k : Nat, k < n → SInt w k ∧ SInt w (k * s) ∧ SInt w (a + k * s) := by
    intro k hkn
    have hB := (hk k).1 hkn
    unfold Before at hB
    unfold SInt at *
    generalize (2 : Int) ^ (w - 1) = M at *
    have hkk : 0 ≤ (k : Int) := by omega
    rcases hB with ⟨hp, hlt⟩ | ⟨hneg, hlt⟩
    · have hks : (k : Int) ≤ k * s := by nlinarith
      refine ⟨⟨by omega, by omega⟩, ⟨by omega, by omega⟩, by omega, by omega⟩
    · have hks : k * s ≤ -(k : Int) := by nlinarith
      refine ⟨⟨by omega, by omega⟩, ⟨by omega, by omega⟩, by omega, by omega⟩
  refine ⟨(List.range n).map fun k : Nat => a + k * s, ?_, ?_⟩
  · unfold rangeInt
    have : rangeArgs (some a) (some b) (some s) = .ok (a, b, s) := rfl
    rw [this, Res.bind_ok]
    simp only
    rw [hn, Res.bind_ok, rangeFill_spec hbound n 0 (by omega) (by omega)]
    simp [List.range_eq_range']
  · intro k x
    rw [List.getElem?_map]
    by_cases hkn : k < n
    · rw [List.getElem?_range hkn]
      simp only [Option.map_some, Option.some.injEq]
      constructor
      · rintro rfl
        exact ⟨rfl, (hk k).1 hkn⟩
      · rintro ⟨rfl, _⟩
        rfl
    · have : (List.range n)[k]? = none := by rw [List.getElem?_eq_none_iff]; simp; omega
      rw [this]
      simp only [Option.map_none, reduceCtorEq, false_iff, not_and]
      rintro rfl
      rw [← hk k]; exact hkn

/-- C50: `range(start, stop, step)` with a nonzero step, for argument values of a `w`-bit signed type, consists of
    exactly the values `start + k*step` lying strictly before `stop`, in order.  When the result is not empty, the
    intermediate values of its size (`stop - start`, `stop - start + step`, `stop - start + step ∓ 1`) must be
    representable. -/
theorem range_exact {w : Nat} {a b s : Int} (ha : SInt w a) (hb : SInt w b) (hs : s ≠ 0)
    (hfit : Before s a b → SInt w (b - a) ∧ SInt w (b - a + s) ∧ SInt w (b - a + s - s.sign)) :
    ∃ xs, rangeInt w (some a) (some b) (some s) = .ok xs ∧
      ∀ (k : Nat) (x : Int), xs[k]? = some x ↔ x = a + k * s ∧ Before s x b := by
  by_cases hB : Before s a b
  · obtain ⟨h1, h2, h3⟩ := hfit hB
    exact range_exact_of_fits ha hb hs h1 h2 h3
  · refine ⟨[], ?_, ?_⟩
    · have h0 : rangeSize w a b s = .ok 0 := by
        unfold Before at hB
        unfold rangeSize
        rcases Int.lt_or_gt_of_ne hs with h | h
        · rw [if_neg (by omega), if_pos h, if_pos (by omega)]
        · rw [if_pos h, if_pos (by omega)]
      unfold rangeInt
      have : rangeArgs (some a) (some b) (some s) = .ok (a, b, s) := rfl
      rw [this, Res.bind_ok]
      simp only
      rw [h0, Res.bind_ok]
      rfl
    · intro k x
      simp only [List.getElem?_nil, reduceCtorEq, false_iff, not_and]
      rintro rfl hB'
      apply hB
      unfold Before at *
      have hkk : 0 ≤ (k : Int) := by omega
      rcases hB' with ⟨hp, hlt⟩ | ⟨hneg, hlt⟩
      · left; refine ⟨hp, ?_⟩; nlinarith
      · right; refine ⟨hneg, ?_⟩; nlinarith

/-- C50: a zero step raises. -/
theorem range_zero_step (w : Nat) (a b : Int) : rangeInt w (some a) (some b) (some 0) = .throw .runtime := by
  rfl

/-- C50: the short forms. -/
theorem range_short_forms (w : Nat) (a b : Int) :
    rangeInt w (some b) none none = rangeInt w (some 0) (some b) (some 1) ∧
    rangeInt w (some a) (some b) none = rangeInt w (some a) (some b) (some 1) := ⟨rfl, rfl⟩

/-- C50 violated: when the size computation overflows the result is undefined although every element is
    representable: `range(0, INT32_MAX, 2)` and `range(INT32_MIN, 1, 1073741824)` on `int32`. -/
theorem range_overflow_violated :
    rangeInt 32 (some 0) (some 2147483647) (some 2) = .ub ∧
    rangeInt 32 (some (-2147483648)) (some 1) (some 1073741824) = .ub := by decide

example : rangeInt 32 (some 10) (some (-5)) (some (-4)) = .ok [10, 6, 2, -2] := by decide

/-! ## byteswap -/

theorem swapLoop_spec {α : Type} {lo hi : Nat} (l : List α) (hl : hi ≤ l.length) :
    ∀ m, lo + 2 * m ≤ hi → ∃ r, swapLoop lo hi m l = .ok r ∧ r.length = l.length ∧
      ∀ k, r[k]? = if (lo ≤ k ∧ k < lo + m) ∨ (hi - m ≤ k ∧ k < hi) then l[lo + hi - 1 - k]? else l[k]? := by
  intro m
  induction m with
  | zero =>
    intro _
    refine ⟨l, rfl, rfl, fun k => ?_⟩
    rw [if_neg (by omega)]
  | succ m ih =>
    intro hm
    obtain ⟨r, e, hrl, hr⟩ := ih (by omega)
    have h1 : r[lo + m]? = l[lo + m]? := by rw [hr, if_neg (by omega)]
    have h2 : r[hi - m - 1]? = l[hi - m - 1]? := by rw [hr, if_neg (by omega)]
    have g1 := List.getElem?_eq_getElem (l := l) (i := lo + m) (by omega)
    have g2 := List.getElem?_eq_getElem (l := l) (i := hi - m - 1) (by omega)
    refine ⟨(r.set (lo + m) l[hi - m - 1]).set (hi - m - 1) l[lo + m], ?_, by simp [hrl], fun k => ?_⟩
    · unfold swapLoop swapAt
      rw [e, Res.bind_ok, h1, h2, g1, g2]
    · rw [List.getElem?_set, List.getElem?_set]
      simp only [List.length_set]
      by_cases c1 : hi - m - 1 = k
      · rw [if_pos c1, if_pos (by omega), if_pos (by omega), ← g1]
        congr 1; omega
      · rw [if_neg c1]
        by_cases c2 : lo + m = k
        · rw [if_pos c2, if_pos (by omega), if_pos (by omega), ← g2]
          congr 1; omega
        · rw [if_neg c2, hr]
          by_cases c3 : (lo ≤ k ∧ k < lo + m) ∨ (hi - m ≤ k ∧ k < hi)
          · rw [if_pos c3, if_pos (by omega)]
          · rw [if_neg c3, if_neg (by omega)]

theorem copyDown_spec {α : Type} (src : List α) {hi : Nat} (hh : hi ≤ src.length) :
    ∀ m, m ≤ hi → copyDown src hi m = .ok ((src.take hi).reverse.take m) := by
  intro m
  induction m with
  | zero => intro _; simp [copyDown]
  | succ m ih =>
    intro hm
    unfold copyDown
    rw [ih (by omega), Res.bind_ok, if_pos hm, List.getElem?_eq_getElem (by omega)]
    simp only [Res.pure_eq, Res.ok.injEq]
    rw [List.take_add_one]
    congr 1
    rw [List.getElem?_reverse (by simp; omega)]
    simp only [List.length_take, Nat.min_eq_left hh]
    rw [List.getElem?_take, if_pos (by omega), show hi - 1 - m = hi - m - 1 by omega, List.getElem?_eq_getElem (by omega)]
    rfl

/-- C51: byte swapping reverses the bytes of an element, in place and copying alike. -/
theorem byteswap_reverses {α : Type} (l : List α) : byteswapInPlace l = .ok l.reverse ∧ byteswapCopy l = .ok l.reverse := by
  constructor
  · obtain ⟨r, e, hl, hr⟩ := swapLoop_spec (lo := 0) (hi := l.length) l (le_refl _) (l.length / 2) (by omega)
    unfold byteswapInPlace
    rw [e]
    congr 1
    apply List.ext_getElem?
    intro k
    rw [hr]
    by_cases hk : k < l.length
    · rw [List.getElem?_reverse hk]
      split
      · congr 1; omega
      · congr 1; omega
    · rw [if_neg (by omega), List.getElem?_eq_none (by omega), List.getElem?_eq_none (by simp; omega)]
  · unfold byteswapCopy
    rw [copyDown_spec l (le_refl _) _ (le_refl _)]
    simp [List.take_of_length_le]

/-- C51: byte swapping twice restores the data. -/
theorem byteswap_involution {α : Type} (l : List α) :
    (byteswapInPlace l >>= byteswapInPlace) = .ok l ∧ (byteswapCopy l >>= byteswapCopy) = .ok l ∧
    (byteswapCopy l >>= byteswapInPlace) = .ok l := by
  rw [(byteswap_reverses l).1, (byteswap_reverses l).2]
  simp only [Res.bind_ok]
  rw [(byteswap_reverses l.reverse).1, (byteswap_reverses l.reverse).2]
  simp

/-- C51: pairwise byte swapping (complex numbers) reverses the bytes of each half, in place and copying alike. -/
theorem pairswap_reverses {α : Type} (a b : List α) (h : a.length = b.length) :
    pairswapInPlace (a ++ b) = .ok (a.reverse ++ b.reverse) ∧ pairswapCopy (a ++ b) = .ok (a.reverse ++ b.reverse) := by
  have hlen : (a ++ b).length = 2 * a.length := by simp; omega
  have hhalf : (a ++ b).length / 2 = a.length := by omega
  constructor
  · unfold pairswapInPlace
    rw [hhalf, hlen, show 2 * a.length / 4 = a.length / 2 by omega]
    obtain ⟨r1, e1, hl1, hr1⟩ := swapLoop_spec (lo := 0) (hi := a.length) (a ++ b) (by omega) (a.length / 2) (by omega)
    rw [e1, Res.bind_ok]
    obtain ⟨r2, e2, hl2, hr2⟩ := swapLoop_spec (lo := a.length) (hi := 2 * a.length) r1 (by omega) (a.length / 2) (by omega)
    rw [e2]
    congr 1
    apply List.ext_getElem?
    intro k
    rw [hr2, hr1, hr1]
    have gl : ∀ (i : Nat), i < a.length → (a ++ b)[i]? = a[i]? := fun i hi => List.getElem?_append_left hi
    have gr : ∀ (i : Nat), a.length ≤ i → (a ++ b)[i]? = b[i - a.length]? := fun i hi => List.getElem?_append_right hi
    by_cases hk : k < a.length
    · have hR : (a.reverse ++ b.reverse)[k]? = a[a.length - 1 - k]? := by
        rw [List.getElem?_append_left (by simpa using hk), List.getElem?_reverse hk]
      rw [if_neg (by omega), hR]
      split
      · rw [gl _ (by omega)]; congr 1; omega
      · rw [gl _ (by omega)]; congr 1; omega
    · by_cases hk2 : k < 2 * a.length
      · have hR : (a.reverse ++ b.reverse)[k]? = b[b.length - 1 - (k - a.length)]? := by
          rw [List.getElem?_append_right (by simp; omega), List.length_reverse, List.getElem?_reverse (by omega)]
        rw [hR]
        rw [if_neg (show ¬ ((0 ≤ a.length + 2 * a.length - 1 - k ∧ a.length + 2 * a.length - 1 - k < 0 + a.length / 2) ∨
          (a.length - a.length / 2 ≤ a.length + 2 * a.length - 1 - k ∧ a.length + 2 * a.length - 1 - k < a.length)) by omega),
          if_neg (show ¬ ((0 ≤ k ∧ k < 0 + a.length / 2) ∨ (a.length - a.length / 2 ≤ k ∧ k < a.length)) by omega)]
        split
        · rw [gr _ (by omega)]; congr 1; omega
        · rw [gr _ (by omega)]; congr 1; omega
      · rw [if_neg (by omega), if_neg (by omega), List.getElem?_eq_none (by omega),
          List.getElem?_eq_none (l := a.reverse ++ b.reverse) (by simp; omega)]
  · unfold pairswapCopy
    rw [hhalf, copyDown_spec _ (by omega) _ (le_refl _), Res.bind_ok, copyDown_spec _ (le_refl _) _ (by omega), Res.bind_ok]
    simp [List.take_append, h]

/-- The `n` low bytes of `v`, least significant first. -/
def bytesLE : Nat → Nat → List Nat
  | 0, _ => []
  | n + 1, v => v % 256 :: bytesLE n (v / 256)

theorem or_add {a b k : Nat} (hb : b < 2 ^ k) (ha : 2 ^ k ∣ a) : a ||| b = a + b := by
  obtain ⟨c, rfl⟩ := ha
  rw [← Nat.two_pow_add_eq_or_of_lt hb]

theorem byteswap16_eq {v : Nat} (hv : v < 2 ^ 16) : byteswap16 v = v % 256 * 256 + v / 256 := by
  unfold byteswap16
  have a0 : v &&& 0xff = v % 256 := and_low v 8
  rw [a0, Nat.shiftLeft_eq, Nat.shiftRight_eq_div_pow, or_add (k := 8) (by omega) (by omega)]
  omega

theorem byteswap32_eq {v : Nat} (hv : v < 2 ^ 32) : byteswap32 v =
    v % 256 * 2 ^ 24 + v / 2 ^ 8 % 256 * 2 ^ 16 + v / 2 ^ 16 % 256 * 2 ^ 8 + v / 2 ^ 24 := by
  unfold byteswap32
  have a0 : v &&& 0xff = v % 256 := and_low v 8
  have a1 : v &&& 0xff00 = v / 2 ^ 8 % 2 ^ 8 * 2 ^ 8 := and_field v 8 8
  have a2 : v &&& 0xff0000 = v / 2 ^ 16 % 2 ^ 8 * 2 ^ 16 := and_field v 16 8
  rw [a0, a1, a2]
  simp only [Nat.shiftLeft_eq, Nat.shiftRight_eq_div_pow]
  rw [show v % 256 * 2 ^ 24 % 2 ^ 32 = v % 256 * 2 ^ 24 by omega,
    show v / 2 ^ 8 % 2 ^ 8 * 2 ^ 8 * 2 ^ 8 % 2 ^ 32 = v / 2 ^ 8 % 256 * 2 ^ 16 by omega,
    show v / 2 ^ 16 % 2 ^ 8 * 2 ^ 16 / 2 ^ 8 = v / 2 ^ 16 % 256 * 2 ^ 8 by omega]
  have h0 : v % 256 < 256 := Nat.mod_lt _ (by norm_num)
  have h1 : v / 2 ^ 8 % 256 < 256 := Nat.mod_lt _ (by norm_num)
  have h2 : v / 2 ^ 16 % 256 < 256 := Nat.mod_lt _ (by norm_num)
  have h3 : v / 2 ^ 24 < 256 := by omega
  generalize v / 2 ^ 8 % 256 = b1 at *
  generalize v / 2 ^ 16 % 256 = b2 at *
  generalize v / 2 ^ 24 = b3 at *
  generalize v % 256 = b0 at *
  clear a0 a1 a2 hv
  have o1 : b0 * 2 ^ 24 ||| b1 * 2 ^ 16 = b0 * 2 ^ 24 + b1 * 2 ^ 16 := or_add (k := 24) (by omega) (by omega)
  have o2 : (b0 * 2 ^ 24 + b1 * 2 ^ 16) ||| b2 * 2 ^ 8 = b0 * 2 ^ 24 + b1 * 2 ^ 16 + b2 * 2 ^ 8 :=
    or_add (k := 16) (by omega) (by omega)
  have o3 : (b0 * 2 ^ 24 + b1 * 2 ^ 16 + b2 * 2 ^ 8) ||| b3 = b0 * 2 ^ 24 + b1 * 2 ^ 16 + b2 * 2 ^ 8 + b3 :=
    or_add (k := 8) (by omega) (by omega)
  rw [o1, o2, o3]

theorem byteswap64_eq {v : Nat} (hv : v < 2 ^ 64) : byteswap64 v =
    v % 256 * 2 ^ 56 + v / 2 ^ 8 % 256 * 2 ^ 48 + v / 2 ^ 16 % 256 * 2 ^ 40 + v / 2 ^ 24 % 256 * 2 ^ 32 +
    v / 2 ^ 32 % 256 * 2 ^ 24 + v / 2 ^ 40 % 256 * 2 ^ 16 + v / 2 ^ 48 % 256 * 2 ^ 8 + v / 2 ^ 56 := by
  unfold byteswap64
  have a0 : v &&& 0xff = v % 256 := and_low v 8
  have a1 : v &&& 0xff00 = v / 2 ^ 8 % 2 ^ 8 * 2 ^ 8 := and_field v 8 8
  have a2 : v &&& 0xff0000 = v / 2 ^ 16 % 2 ^ 8 * 2 ^ 16 := and_field v 16 8
  have a3 : v &&& 0xff000000 = v / 2 ^ 24 % 2 ^ 8 * 2 ^ 24 := and_field v 24 8
  have a4 : v &&& 0xff00000000 = v / 2 ^ 32 % 2 ^ 8 * 2 ^ 32 := and_field v 32 8
  have a5 : v &&& 0xff0000000000 = v / 2 ^ 40 % 2 ^ 8 * 2 ^ 40 := and_field v 40 8
  have a6 : v &&& 0xff000000000000 = v / 2 ^ 48 % 2 ^ 8 * 2 ^ 48 := and_field v 48 8
  rw [a0, a1, a2, a3, a4, a5, a6]
  simp only [Nat.shiftLeft_eq, Nat.shiftRight_eq_div_pow]
  have h0 : v % 256 < 256 := Nat.mod_lt _ (by norm_num)
  have h1 : v / 2 ^ 8 % 2 ^ 8 < 256 := Nat.mod_lt _ (by norm_num)
  have h2 : v / 2 ^ 16 % 2 ^ 8 < 256 := Nat.mod_lt _ (by norm_num)
  have h3 : v / 2 ^ 24 % 2 ^ 8 < 256 := Nat.mod_lt _ (by norm_num)
  have h4 : v / 2 ^ 32 % 2 ^ 8 < 256 := Nat.mod_lt _ (by norm_num)
  have h5 : v / 2 ^ 40 % 2 ^ 8 < 256 := Nat.mod_lt _ (by norm_num)
  have h6 : v / 2 ^ 48 % 2 ^ 8 < 256 := Nat.mod_lt _ (by norm_num)
  have h7 : v / 2 ^ 56 < 256 := by omega
  have e256 : (256 : Nat) = 2 ^ 8 := rfl
  generalize v / 2 ^ 8 % 2 ^ 8 = b1 at *
  generalize v / 2 ^ 16 % 2 ^ 8 = b2 at *
  generalize v / 2 ^ 24 % 2 ^ 8 = b3 at *
  generalize v / 2 ^ 32 % 2 ^ 8 = b4 at *
  generalize v / 2 ^ 40 % 2 ^ 8 = b5 at *
  generalize v / 2 ^ 48 % 2 ^ 8 = b6 at *
  generalize v / 2 ^ 56 = b7 at *
  generalize v % 256 = b0 at *
  clear a0 a1 a2 a3 a4 a5 a6 hv
  rw [show b0 * 2 ^ 56 % 2 ^ 64 = b0 * 2 ^ 56 by omega, show b1 * 2 ^ 8 * 2 ^ 40 % 2 ^ 64 = b1 * 2 ^ 48 by omega,
    show b2 * 2 ^ 16 * 2 ^ 24 % 2 ^ 64 = b2 * 2 ^ 40 by omega, show b3 * 2 ^ 24 * 2 ^ 8 % 2 ^ 64 = b3 * 2 ^ 32 by omega,
    show b4 * 2 ^ 32 / 2 ^ 8 = b4 * 2 ^ 24 by omega, show b5 * 2 ^ 40 / 2 ^ 24 = b5 * 2 ^ 16 by omega,
    show b6 * 2 ^ 48 / 2 ^ 40 = b6 * 2 ^ 8 by omega]
  have o1 : (b0 * 2 ^ 56) ||| b1 * 2 ^ 48 = b0 * 2 ^ 56 + b1 * 2 ^ 48 := or_add (k := 56) (by omega) (by omega)
  have o2 : (b0 * 2 ^ 56 + b1 * 2 ^ 48) ||| b2 * 2 ^ 40 = b0 * 2 ^ 56 + b1 * 2 ^ 48 + b2 * 2 ^ 40 := or_add (k := 48) (by omega) (by omega)
  have o3 : (b0 * 2 ^ 56 + b1 * 2 ^ 48 + b2 * 2 ^ 40) ||| b3 * 2 ^ 32 = b0 * 2 ^ 56 + b1 * 2 ^ 48 + b2 * 2 ^ 40 + b3 * 2 ^ 32 := or_add (k := 40) (by omega) (by omega)
  have o4 : (b0 * 2 ^ 56 + b1 * 2 ^ 48 + b2 * 2 ^ 40 + b3 * 2 ^ 32) ||| b4 * 2 ^ 24 = b0 * 2 ^ 56 + b1 * 2 ^ 48 + b2 * 2 ^ 40 + b3 * 2 ^ 32 + b4 * 2 ^ 24 := or_add (k := 32) (by omega) (by omega)
  have o5 : (b0 * 2 ^ 56 + b1 * 2 ^ 48 + b2 * 2 ^ 40 + b3 * 2 ^ 32 + b4 * 2 ^ 24) ||| b5 * 2 ^ 16 = b0 * 2 ^ 56 + b1 * 2 ^ 48 + b2 * 2 ^ 40 + b3 * 2 ^ 32 + b4 * 2 ^ 24 + b5 * 2 ^ 16 := or_add (k := 24) (by omega) (by omega)
  have o6 : (b0 * 2 ^ 56 + b1 * 2 ^ 48 + b2 * 2 ^ 40 + b3 * 2 ^ 32 + b4 * 2 ^ 24 + b5 * 2 ^ 16) ||| b6 * 2 ^ 8 = b0 * 2 ^ 56 + b1 * 2 ^ 48 + b2 * 2 ^ 40 + b3 * 2 ^ 32 + b4 * 2 ^ 24 + b5 * 2 ^ 16 + b6 * 2 ^ 8 := or_add (k := 16) (by omega) (by omega)
  have o7 : (b0 * 2 ^ 56 + b1 * 2 ^ 48 + b2 * 2 ^ 40 + b3 * 2 ^ 32 + b4 * 2 ^ 24 + b5 * 2 ^ 16 + b6 * 2 ^ 8) ||| b7 = b0 * 2 ^ 56 + b1 * 2 ^ 48 + b2 * 2 ^ 40 + b3 * 2 ^ 32 + b4 * 2 ^ 24 + b5 * 2 ^ 16 + b6 * 2 ^ 8 + b7 := or_add (k := 8) (by omega) (by omega)
  rw [o1, o2, o3, o4, o5, o6, o7]

theorem bytesLE_cons {n b r : Nat} (h : b < 256) : bytesLE (n + 1) (b + 256 * r) = b :: bytesLE n r := by
  rw [bytesLE, show (b + 256 * r) % 256 = b by omega, show (b + 256 * r) / 256 = r by omega]

theorem bytesLE_one {b : Nat} (h : b < 256) : bytesLE 1 b = [b] := by
  rw [bytesLE, bytesLE, Nat.mod_eq_of_lt h]

/-- C51: `byteswap_value` reverses the bytes of a 16, 32 or 64 bit value. -/
theorem byteswap_value_reverses (v : Nat) :
    (v < 2 ^ 16 → byteswap16 v < 2 ^ 16 ∧ bytesLE 2 (byteswap16 v) = (bytesLE 2 v).reverse) ∧
    (v < 2 ^ 32 → byteswap32 v < 2 ^ 32 ∧ bytesLE 4 (byteswap32 v) = (bytesLE 4 v).reverse) ∧
    (v < 2 ^ 64 → byteswap64 v < 2 ^ 64 ∧ bytesLE 8 (byteswap64 v) = (bytesLE 8 v).reverse) := by
  refine ⟨fun h => ?_, fun h => ?_, fun h => ?_⟩
  · rw [byteswap16_eq h]
    have h0 : v % 256 < 256 := by omega
    have h1 : v / 256 < 256 := by omega
    have hv : v = (v % 256) + 256 * ((v / 256)) := by omega
    generalize v / 256 = b1 at *
    generalize v % 256 = b0 at *
    subst hv
    refine ⟨by omega, ?_⟩
    rw [show b0 * 256 + b1 = b1 + 256 * (b0) by omega]
    rw [bytesLE_cons h1, bytesLE_one h0, bytesLE_cons h0, bytesLE_one h1]
    rfl
  · rw [byteswap32_eq h]
    have h0 : v % 256 < 256 := by omega
    have h1 : v / 2 ^ 8 % 256 < 256 := by omega
    have h2 : v / 2 ^ 16 % 256 < 256 := by omega
    have h3 : v / 2 ^ 24 < 256 := by omega
    have hv : v = (v % 256) + 256 * ((v / 2 ^ 8 % 256) + 256 * ((v / 2 ^ 16 % 256) + 256 * ((v / 2 ^ 24)))) := by omega
    generalize v / 2 ^ 8 % 256 = b1 at *
    generalize v / 2 ^ 16 % 256 = b2 at *
    generalize v / 2 ^ 24 = b3 at *
    generalize v % 256 = b0 at *
    subst hv
    refine ⟨by omega, ?_⟩
    rw [show b0 * 2 ^ 24 + b1 * 2 ^ 16 + b2 * 2 ^ 8 + b3 = b3 + 256 * (b2 + 256 * (b1 + 256 * (b0))) by omega]
    rw [bytesLE_cons h3, bytesLE_cons h2, bytesLE_cons h1, bytesLE_one h0, bytesLE_cons h0, bytesLE_cons h1, bytesLE_cons h2, bytesLE_one h3]
    rfl
  · rw [byteswap64_eq h]
    have h0 : v % 256 < 256 := by omega
    have h1 : v / 2 ^ 8 % 256 < 256 := by omega
    have h2 : v / 2 ^ 16 % 256 < 256 := by omega
    have h3 : v / 2 ^ 24 % 256 < 256 := by omega
    have h4 : v / 2 ^ 32 % 256 < 256 := by omega
    have h5 : v / 2 ^ 40 % 256 < 256 := by omega
    have h6 : v / 2 ^ 48 % 256 < 256 := by omega
    have h7 : v / 2 ^ 56 < 256 := by omega
    have hv : v = (v % 256) + 256 * ((v / 2 ^ 8 % 256) + 256 * ((v / 2 ^ 16 % 256) + 256 * ((v / 2 ^ 24 % 256) + 256 * ((v / 2 ^ 32 % 256) + 256 * ((v / 2 ^ 40 % 256) + 256 * ((v / 2 ^ 48 % 256) + 256 * ((v / 2 ^ 56)))))))) := by omega
    generalize v / 2 ^ 8 % 256 = b1 at *
    generalize v / 2 ^ 16 % 256 = b2 at *
    generalize v / 2 ^ 24 % 256 = b3 at *
    generalize v / 2 ^ 32 % 256 = b4 at *
    generalize v / 2 ^ 40 % 256 = b5 at *
    generalize v / 2 ^ 48 % 256 = b6 at *
    generalize v / 2 ^ 56 = b7 at *
    generalize v % 256 = b0 at *
    subst hv
    refine ⟨by omega, ?_⟩
    rw [show b0 * 2 ^ 56 + b1 * 2 ^ 48 + b2 * 2 ^ 40 + b3 * 2 ^ 32 + b4 * 2 ^ 24 + b5 * 2 ^ 16 + b6 * 2 ^ 8 + b7 = b7 + 256 * (b6 + 256 * (b5 + 256 * (b4 + 256 * (b3 + 256 * (b2 + 256 * (b1 + 256 * (b0))))))) by omega]
    rw [bytesLE_cons h7, bytesLE_cons h6, bytesLE_cons h5, bytesLE_cons h4, bytesLE_cons h3, bytesLE_cons h2, bytesLE_cons h1, bytesLE_one h0, bytesLE_cons h0, bytesLE_cons h1, bytesLE_cons h2, bytesLE_cons h3, bytesLE_cons h4, bytesLE_cons h5, bytesLE_cons h6, bytesLE_one h7]
    rfl

example : byteswap32 0x12345678 = 0x78563412 ∧ byteswapInPlace [1, 2, 3, 4] = .ok [4, 3, 2, 1] ∧
    pairswapCopy [1, 2, 3, 4] = .ok [2, 1, 4, 3] := by decide

end Dynd
