import Verif.Props.LayoutProps
import Mathlib.Data.List.GetD
import Mathlib.Algebra.BigOperators.Group.List.Basic
/-
Property theorems C55 (permute / transpose / rotate), C56 (broadcast strides), C57 (broadcast shape),
C58 (new_axis), C59 (axis order classification).
-/
namespace Dynd
open Res

/-! ## C55 -/

/-- Every initial segment of axes that the permutation maps to itself is left in place: the moved axes
    form one block that reaches the last axis listed. -/
def OneBlock (axes : List Nat) : Prop :=
  ∀ c, c < axes.length → (∀ j, j < c → axes.getD j 0 < c) → ∀ j, j < c → axes.getD j 0 = j

private theorem permInterval_spec {axes : List Nat} {i : Nat} (hb : ∀ j, j < axes.length → axes.getD j 0 < axes.length)
    (hfix : ∀ j, j < i → axes.getD j 0 = j) (hmv : axes.getD i 0 ≠ i) (h1 : OneBlock axes)
    (fuel loopI maxI : Nat) (hf : axes.length ≤ fuel + loopI) (hl : i < loopI) (hlm : loopI ≤ maxI + 1)
    (hm : maxI < axes.length) (hmax : ∀ j, i ≤ j → j < loopI → axes.getD j 0 ≤ maxI) :
    permInterval axes fuel loopI maxI = axes.length - 1 := by
  have done : ∀ (loopI maxI : Nat), loopI ≤ maxI + 1 → maxI < axes.length → i < loopI →
      (∀ j, i ≤ j → j < loopI → axes.getD j 0 ≤ maxI) → ¬ (loopI ≤ maxI ∧ loopI < axes.length) →
      maxI = axes.length - 1 := by
    intro loopI maxI hlm hm hl hmax hc
    by_cases hle : loopI ≤ maxI
    · omega
    · have : loopI = maxI + 1 := by omega
      subst this
      by_contra hne
      have := h1 (maxI + 1) (by omega) (fun j hj => by
        by_cases hji : j < i
        · rw [hfix j hji]; omega
        · have := hmax j (by omega) hj; omega) i (by omega)
      exact hmv this
  induction fuel generalizing loopI maxI with
  | zero =>
    simp only [permInterval]
    exact done loopI maxI hlm hm hl hmax (by omega)
  | succ fuel ih =>
    simp only [permInterval]
    split
    · rename_i hc
      apply ih
      · omega
      · omega
      · omega
      · have := hb loopI hc.2; omega
      · intro j hj hj2
        by_cases he : j = loopI
        · subst he; omega
        · have := hmax j hj (by omega); omega
    · rename_i hc
      exact done loopI maxI hlm hm hl hmax hc

private theorem getD_eq {α : Type} (l : List α) (k : Nat) (d : α) (h : k < l.length) : l.getD k d = l[k] := by
  simp [List.getD, h]

private theorem permuteTypeDims_ok (axes : List Nat) (dims : List (Int × Int)) (hperm : axes.Perm (List.range axes.length))
    (h1 : OneBlock axes) (hlen : axes.length ≤ dims.length) (fuel i : Nat) (hf : axes.length ≤ fuel + i) (hf1 : 0 < fuel)
    (hi : i < axes.length) (hfix : ∀ j, j < i → axes.getD j 0 = j) :
    ∃ r, permuteTypeDims axes fuel ((dims.map Prod.fst).drop i) i i dims = .ok r ∧
      r.shape = (axes.drop i).map (fun a => (dims.map Prod.fst).getD a 0) ++ (dims.map Prod.fst).drop axes.length ∧
      r.amd = dims.take i ++ (axes.drop i).map (fun a => dims.getD a (0, 0)) ++ dims.drop axes.length := by
  have hmem : ∀ j, j < axes.length → axes.getD j 0 < axes.length := by
    intro j hj
    have : axes.getD j 0 ∈ axes := by rw [getD_eq _ _ _ hj]; exact List.getElem_mem _
    simpa using hperm.subset this
  have hnd : axes.Nodup := hperm.nodup_iff.2 List.nodup_range
  have idtail : ∀ k, (∀ j, k ≤ j → j < axes.length → axes.getD j 0 = j) → k ≤ axes.length →
      (axes.drop k).map (fun a => (dims.map Prod.fst).getD a 0) ++ (dims.map Prod.fst).drop axes.length
        = (dims.map Prod.fst).drop k ∧
      (axes.drop k).map (fun a => dims.getD a (0, 0)) ++ dims.drop axes.length = dims.drop k := by
    intro k hk hkl
    have hax : axes.drop k = (List.range axes.length).drop k := by
      apply List.ext_getElem
      · simp
      · intro n h1 h2
        simp only [List.getElem_drop, List.getElem_range]
        have := hk (k + n) (by omega) (by simp at h1; omega)
        rwa [getD_eq _ _ _ (by simp at h1; omega)] at this
    constructor
    · apply List.ext_getElem
      · simp; omega
      · intro n h1 h2
        simp only [List.length_drop, List.length_map] at h2
        by_cases hn : n < axes.length - k
        · rw [List.getElem_append_left (by simpa using hn)]
          simp only [hax, List.getElem_map, List.getElem_drop, List.getElem_range]
          rw [getD_eq _ _ _ (by simp; omega)]; simp
        · rw [List.getElem_append_right (by simp; omega)]
          simp only [List.length_map, List.length_drop, List.getElem_drop, List.getElem_map]
          congr 2; omega
    · apply List.ext_getElem
      · simp; omega
      · intro n h1 h2
        simp only [List.length_drop] at h2
        by_cases hn : n < axes.length - k
        · rw [List.getElem_append_left (by simpa using hn)]
          simp only [hax, List.getElem_map, List.getElem_drop, List.getElem_range]
          rw [getD_eq _ _ _ (by omega)]
        · rw [List.getElem_append_right (by simp; omega)]
          simp only [List.length_map, List.length_drop, List.getElem_drop]
          congr 1; omega
  induction fuel generalizing i with
  | zero => omega
  | succ fuel ih =>
    simp only [permuteTypeDims]
    by_cases hst : axes.getD i 0 = i
    · rw [if_pos hst]
      by_cases hlast : i = axes.length - 1
      · rw [if_pos hlast]
        have := idtail i (fun j hj hj2 => by
          have : j = i := by omega
          rw [this, hst]) (by omega)
        refine ⟨_, rfl, this.1.symm, ?_⟩
        simp only [List.append_assoc, this.2, List.take_append_drop]
      · rw [if_neg hlast]
        have hd : (dims.map Prod.fst).drop i = (dims.map Prod.fst)[i]'(by simp; omega) :: (dims.map Prod.fst).drop (i + 1) :=
          List.drop_eq_getElem_cons (by simp; omega)
        obtain ⟨r, hr, hsh, hamd⟩ := ih (i + 1) (by omega) (by omega) (by omega) (fun j hj => by
          by_cases he : j = i
          · rw [he, hst]
          · exact hfix j (by omega))
        rw [hd]
        simp only
        rw [hr]
        have hax : axes.drop i = i :: axes.drop (i + 1) := by
          rw [List.drop_eq_getElem_cons hi, ← getD_eq axes i 0 hi, hst]
        have hA : dims.take (i + 1) ++ (axes.drop (i + 1)).map (fun a => dims.getD a (0, 0)) ++ dims.drop axes.length
            = dims.take i ++ (axes.drop i).map (fun a => dims.getD a (0, 0)) ++ dims.drop axes.length := by
          rw [hax, List.map_cons, List.take_succ_eq_append_getElem (by omega : i < dims.length), getD_eq _ _ _ (by omega : i < dims.length)]
          simp only [List.append_assoc, List.cons_append, List.nil_append]
        have hS : (dims.map Prod.fst)[i]'(by simp; omega) :: r.shape =
            (axes.drop i).map (fun a => (dims.map Prod.fst).getD a 0) ++ (dims.map Prod.fst).drop axes.length := by
          rw [hsh, hax, List.map_cons, getD_eq _ _ _ (by simp; omega)]; rfl
        by_cases hw : r.was = true
        · simp only [bind_ok, hw, if_true, pure_eq]
          exact ⟨_, rfl, hS, by rw [← hA, ← hamd]⟩
        · simp only [bind_ok, hw, pure_eq]
          -- nothing moved below: the sub-shape is unchanged, so the shape is too
          refine ⟨_, rfl, ?_, by rw [← hA, ← hamd]⟩
          have key : ∀ (fuel : Nat) (sh : List Int) (off j : Nat) (m : List (Int × Int)) (r : PermOut),
              permuteTypeDims axes fuel sh off j m = .ok r → r.was = false → r.shape = sh := by
            intro fuel
            induction fuel with
            | zero => intro sh off j m r h; simp [permuteTypeDims] at h
            | succ fuel ih2 =>
              intro sh off j m r h hwf
              simp only [permuteTypeDims] at h
              split at h
              · split at h
                · simp only [Res.ok.injEq] at h; rw [← h]
                · cases sh with
                  | nil => simp at h
                  | cons n sub =>
                    simp only at h
                    rw [bind_eq_ok] at h
                    obtain ⟨r2, _, h⟩ := h
                    split at h <;> simp only [pure_eq, Res.ok.injEq] at h
                    · rw [← h] at hwf; simp at hwf
                    · rw [← h]
              · split at h
                · simp at h
                · rw [bind_eq_ok] at h
                  obtain ⟨sub, _, h⟩ := h
                  split at h
                  · simp at h
                  · simp only [pure_eq, Res.ok.injEq] at h
                    rw [← h] at hwf; simp at hwf
          have hrs := key _ _ _ _ _ _ hr (by simpa using hw)
          rw [← hS, hrs]
    · rw [if_neg hst]
      have hgt : i < axes.getD i 0 := by
        rcases Nat.lt_trichotomy (axes.getD i 0) i with hlt | he | hgt
        · exfalso
          have e := hfix _ hlt
          have hl : axes.getD i 0 < axes.length := by omega
          rw [getD_eq axes (axes.getD i 0) 0 hl] at e
          have e2 : axes[axes.getD i 0]'hl = axes[i]'hi := by rw [e, getD_eq axes i 0 hi]
          have := (List.nodup_iff_injective_getElem.1 hnd) (a₁ := ⟨axes.getD i 0, hl⟩) (a₂ := ⟨i, hi⟩) e2
          simp only [Fin.mk.injEq] at this
          omega
        · exact absurd he hst
        · exact hgt
      have hint : permInterval axes axes.length (i + 1) (axes.getD i 0) = axes.length - 1 := by
        apply permInterval_spec hmem hfix hst h1
        · omega
        · omega
        · omega
        · exact hmem i hi
        · intro j hj hj2
          have : j = i := by omega
          subst this; exact Nat.le_refl _
      rw [hint]
      have hpn : axes.length - 1 - i + 1 = axes.length - i := by omega
      rw [hpn, if_neg (by simp; omega), if_neg (by omega)]
      simp only [bind_ok]
      rw [if_neg (by omega)]
      have e2 : i + (axes.length - i) = axes.length := by omega
      have htk : (axes.drop i).take (axes.length - i) = axes.drop i := by
        rw [List.take_of_length_le]; simp
      refine ⟨_, rfl, ?_, ?_⟩
      · simp only [htk, List.drop_drop, e2]
        congr 1
        apply List.map_congr_left
        intro a ha
        have ha' : a ∈ axes := List.mem_of_mem_drop ha
        have hal : a < axes.length := by simpa using hperm.subset ha'
        have hge : i ≤ a := by
          obtain ⟨k, hk, he⟩ := List.getElem_of_mem ha
          simp only [List.getElem_drop] at he
          by_contra hlt
          have e := hfix a (by omega)
          rw [getD_eq axes a 0 hal] at e
          simp only [List.length_drop] at hk
          have e3 : axes[a]'hal = axes[i + k]'(by omega) := by rw [e, he]
          have := (List.nodup_iff_injective_getElem.1 hnd) (a₁ := ⟨a, hal⟩) (a₂ := ⟨i + k, by omega⟩) e3
          simp only [Fin.mk.injEq] at this
          omega
        rw [getD_eq _ _ _ (by simp; omega), getD_eq _ _ _ (by simp; omega)]
        simp only [List.getElem_drop]
        congr 1; omega
      · simp only [htk, e2]
        congr 2
        apply List.map_congr_left
        intro a ha
        have ha' : a ∈ axes := List.mem_of_mem_drop ha
        have hal : a < axes.length := by simpa using hperm.subset ha'
        have hge : i ≤ a := by
          obtain ⟨k, hk, he⟩ := List.getElem_of_mem ha
          simp only [List.getElem_drop] at he
          by_contra hlt
          have e := hfix a (by omega)
          rw [getD_eq axes a 0 hal] at e
          simp only [List.length_drop] at hk
          have e3 : axes[a]'hal = axes[i + k]'(by omega) := by rw [e, he]
          have := (List.nodup_iff_injective_getElem.1 hnd) (a₁ := ⟨a, hal⟩) (a₂ := ⟨i + k, by omega⟩) e3
          simp only [Fin.mk.injEq] at this
          omega
        rw [getD_eq _ _ _ (by simp; omega), getD_eq _ _ _ (by omega)]
        simp only [List.getElem_take, List.getElem_drop]
        congr 1; omega

/-- The multi-index of the permuted array that designates element `ix` of the source: axis `k` of the result
    is axis `axes[k]` of the source; axes beyond the listed ones stay. -/
def permuteIndex (axes : List Nat) (ix : List Int) : List Int :=
  axes.map (fun a => ix.getD a 0) ++ ix.drop axes.length

private theorem permute_view {v : View} {axes : List Nat} (hperm : axes.Perm (List.range axes.length))
    (h1 : OneBlock axes) (hlen : axes.length ≤ v.dims.length) (hne : 0 < axes.length) :
    v.permute (axes.map Int.ofNat) =
      .ok ⟨v.off, axes.map (fun a => v.dims.getD a (0, 0)) ++ v.dims.drop axes.length⟩ := by
  unfold View.permute
  rw [if_neg (by simpa using hlen)]
  have hv : isValidPerm (axes.map Int.ofNat) = .ok true := by
    rw [(is_valid_perm_exact _).2]
    simpa using hperm.map Int.ofNat
  rw [hv]
  simp only [bind_ok, Bool.not_true, Bool.false_eq_true, if_false]
  have hmap : (axes.map Int.ofNat).map Int.toNat = axes := by
    rw [List.map_map]
    conv_rhs => rw [← List.map_id axes]
    apply List.map_congr_left; intro a _; simp
  rw [hmap]
  obtain ⟨r, hr, hsh, hamd⟩ := permuteTypeDims_ok axes v.dims hperm h1 hlen ((axes.map Int.ofNat).length + 1) 0
    (by simp) (by omega) hne (fun j hj => by omega)
  simp only [List.drop_zero, List.take_zero, List.nil_append] at hr hsh hamd
  rw [hr]
  have hmem : ∀ a ∈ axes, a < v.dims.length := by
    intro a ha
    have : a < axes.length := by simpa using hperm.subset ha
    omega
  have hfst : r.shape = r.amd.map Prod.fst := by
    rw [hsh, hamd, List.map_append, List.map_map, List.map_drop]
    congr 1
    apply List.map_congr_left
    intro a ha
    have := hmem a ha
    simp only [Function.comp]
    rw [getD_eq _ _ _ (by simpa using this), getD_eq _ _ _ this]
    simp
  simp only [bind_ok]
  rw [if_neg (by rw [hfst]; simp)]
  simp only [pure_eq]
  rw [← hamd, hfst]
  congr 2
  apply List.ext_getElem
  · simp
  · intro n h1 h2; simp

private theorem InB.getD {dims : List (Int × Int)} {ix : List Int} (h : InB dims ix) {a : Nat} (ha : a < dims.length) :
    0 ≤ ix.getD a 0 ∧ ix.getD a 0 < (dims.getD a (0, 0)).1 := by
  induction h generalizing a with
  | nil => simp at ha
  | cons h0 h1 _ ih =>
    cases a with
    | zero => simp; omega
    | succ a => simpa using ih (by simpa using ha)

private theorem InB.length' {dims : List (Int × Int)} {ix : List Int} (h : InB dims ix) : dims.length = ix.length := by
  induction h with
  | nil => rfl
  | cons _ _ _ ih => simp [ih]

private theorem InB.mk' {dims : List (Int × Int)} {ix : List Int} (hl : dims.length = ix.length)
    (h : ∀ a, a < dims.length → 0 ≤ ix.getD a 0 ∧ ix.getD a 0 < (dims.getD a (0, 0)).1) : InB dims ix := by
  induction dims generalizing ix with
  | nil => cases ix with
    | nil => exact .nil
    | cons _ _ => simp at hl
  | cons d dims ih =>
    cases ix with
    | nil => simp at hl
    | cons i ix =>
      obtain ⟨n, s⟩ := d
      have h0 := h 0 (by simp)
      simp only [List.getD_cons_zero] at h0
      exact .cons h0.1 h0.2 (ih (by simpa using hl) fun a ha => by
        have := h (a + 1) (by simpa using ha); simpa using this)

private theorem dot_map (dims : List (Int × Int)) (ix : List Int) (axes : List Nat) :
    dotStrides (axes.map (fun a => dims.getD a (0, 0))) (axes.map (fun a => ix.getD a 0)) =
      (axes.map (fun a => ix.getD a 0 * (dims.getD a (0, 0)).2)).sum := by
  induction axes with
  | nil => simp [dotStrides]
  | cons a axes ih =>
    simp only [List.map_cons, List.sum_cons, ← ih]
    generalize dims.getD a (0, 0) = d
    obtain ⟨n, s⟩ := d
    rfl

private theorem dot_append (d1 d2 : List (Int × Int)) (x1 x2 : List Int) (h : d1.length = x1.length) :
    dotStrides (d1 ++ d2) (x1 ++ x2) = dotStrides d1 x1 + dotStrides d2 x2 := by
  induction d1 generalizing x1 with
  | nil => cases x1 <;> simp_all [dotStrides]
  | cons d d1 ih =>
    cases x1 with
    | nil => simp at h
    | cons x x1 =>
      obtain ⟨n, s⟩ := d
      simp only [List.cons_append, dotStrides, ih x1 (by simpa using h)]; omega

private theorem range_take_map {α : Type} (l : List α) (d : α) (k : Nat) (h : k ≤ l.length) :
    (List.range k).map (fun a => l.getD a d) = l.take k := by
  apply List.ext_getElem
  · simp; omega
  · intro n h1 h2
    simp only [List.length_map, List.length_range] at h1
    simp only [List.getElem_map, List.getElem_range, List.getElem_take]
    exact getD_eq _ _ _ (by omega)

/-- C55: permuting the axes of an array with a valid permutation gives a view with the permuted shape in which
    every element keeps its address: element `ix` is found at the permuted multi-index, and the
    correspondence covers the whole view.  Hypothesis `OneBlock` is needed (see `permute_violated`). -/
theorem permute_exact_partial {v : View} {axes : List Nat} (hperm : axes.Perm (List.range axes.length))
    (h1 : OneBlock axes) (hlen : axes.length ≤ v.dims.length) (hne : 0 < axes.length) :
    ∃ v', v.permute (axes.map Int.ofNat) = .ok v' ∧
      v'.dims.map Prod.fst = permuteIndex axes (v.dims.map Prod.fst) ∧
      (∀ ix, InB v.dims ix → InB v'.dims (permuteIndex axes ix) ∧ v'.addr (permuteIndex axes ix) = v.addr ix) ∧
      (∀ ox, InB v'.dims ox → ∃ ix, InB v.dims ix ∧ ox = permuteIndex axes ix) := by
  have hmem : ∀ a ∈ axes, a < axes.length := fun a ha => by simpa using hperm.subset ha
  have hnd : axes.Nodup := hperm.nodup_iff.2 List.nodup_range
  refine ⟨_, permute_view hperm h1 hlen hne, ?_, ?_, ?_⟩
  · simp only [permuteIndex, List.map_append, List.map_map, List.map_drop]
    congr 1
    apply List.map_congr_left
    intro a ha
    have := hmem a ha
    simp only [Function.comp]
    rw [getD_eq _ _ _ (by omega), getD_eq _ _ _ (by simp; omega)]
    simp
  · intro ix hi
    have hl := hi.length'
    constructor
    · apply InB.mk'
      · simp [permuteIndex]; omega
      · intro k hk
        simp only [List.length_append, List.length_map, List.length_drop] at hk
        simp only [permuteIndex]
        by_cases hka : k < axes.length
        · rw [List.getD_append _ _ _ _ (by simpa using hka), List.getD_append _ _ _ _ (by simpa using hka)]
          rw [getD_eq _ _ _ (by simpa using hka), getD_eq _ _ _ (by simpa using hka)]
          simp only [List.getElem_map]
          exact hi.getD (by have := hmem _ (List.getElem_mem hka); omega)
        · rw [List.getD_append_right _ _ _ _ (by simp; omega), List.getD_append_right _ _ _ _ (by simp; omega)]
          rw [getD_eq _ _ _ (by simp; omega), getD_eq _ _ _ (by simp; omega)]
          simp only [List.length_map, List.getElem_drop]
          have := hi.getD (a := axes.length + (k - axes.length)) (by omega)
          rwa [getD_eq _ _ _ (by omega), getD_eq _ _ _ (by omega)] at this
    · simp only [View.addr, permuteIndex]
      congr 1
      rw [dot_append _ _ _ _ (by simp), dot_map]
      have hsum := (hperm.map (fun a => ix.getD a 0 * (v.dims.getD a (0, 0)).2)).sum_eq
      rw [hsum, ← dot_map, range_take_map _ _ _ hlen, range_take_map _ _ _ (by omega : axes.length ≤ ix.length)]
      rw [← dot_append _ _ _ _ (by simp; omega), List.take_append_drop, List.take_append_drop]
  · intro ox ho
    have hl := ho.length'
    simp only [List.length_append, List.length_map, List.length_drop] at hl
    let ix := (List.range axes.length).map (fun a => ox.getD (axes.idxOf a) 0) ++ ox.drop axes.length
    have hox : ox = permuteIndex axes ix := by
      simp only [permuteIndex, ix]
      rw [List.drop_append_of_le_length (by simp)]
      conv_lhs => rw [← List.take_append_drop axes.length ox]
      congr 1
      · apply List.ext_getElem
        · simp; omega
        · intro n g1 g2
          simp only [List.length_map] at g2
          have hb := hmem _ (List.getElem_mem g2)
          simp only [List.getElem_map, List.getElem_take]
          rw [List.getD_append _ _ _ _ (by simpa using hb), getD_eq _ _ _ (by simpa using hb)]
          simp only [List.getElem_map, List.getElem_range]
          rw [hnd.idxOf_getElem n g2, getD_eq _ _ _ (by omega)]
      · simp
    refine ⟨ix, ?_, hox⟩
    apply InB.mk'
    · simp [ix]; omega
    · intro a ha
      by_cases haa : a < axes.length
      · have hia : a ∈ axes := hperm.mem_iff.2 (by simpa using haa)
        have hidx := List.idxOf_lt_length_of_mem hia
        have hb := ho.getD (a := axes.idxOf a) (by simp; omega)
        rw [List.getD_append (axes.map fun a => v.dims.getD a (0, 0)) _ _ _ (by simpa using hidx),
          getD_eq (axes.map fun a => v.dims.getD a (0, 0)) _ _ (by simpa using hidx)] at hb
        simp only [List.getElem_map, List.getElem_idxOf] at hb
        simp only [ix]
        rw [List.getD_append (List.map _ (List.range axes.length)) _ _ _ (by simpa using haa),
          getD_eq (List.map _ (List.range axes.length)) _ _ (by simpa using haa)]
        simp only [List.getElem_map, List.getElem_range]
        exact hb
      · have hb := ho.getD (a := a) (by simp; omega)
        rw [List.getD_append_right (axes.map fun a => v.dims.getD a (0, 0)) _ _ _ (by simp; omega)] at hb
        simp only [ix]
        rw [List.getD_append_right (List.map _ (List.range axes.length)) _ _ _ (by simp; omega)]
        rw [getD_eq (v.dims.drop axes.length) _ _ (by simp; omega), getD_eq ox _ _ (by omega)] at hb
        rw [getD_eq (ox.drop axes.length) _ _ (by simp; omega), getD_eq v.dims _ _ (by omega)]
        simp only [List.length_map, List.length_range, List.getElem_drop] at hb ⊢
        have e : axes.length + (a - axes.length) = a := by omega
        simp only [e] at hb ⊢
        exact hb

example : OneBlock [0, 2, 1] ∧ [0, 2, 1].Perm (List.range 3) ∧
    View.permute ⟨0, [(2, 48), (3, 16), (4, 4)]⟩ [0, 2, 1] = .ok ⟨0, [(2, 48), (4, 4), (3, 16)]⟩ := by
  refine ⟨?_, by decide, by decide⟩
  intro c hc h j hj
  have hc' : c = 0 ∨ c = 1 ∨ c = 2 := by simp at hc; omega
  rcases hc' with rfl | rfl | rfl
  · omega
  · have : j = 0 := by omega
    subst this; rfl
  · have := h 1 (by omega); simp at this

/-- C55, violated: permuting with `[1, 0, 2]` (swap the first two axes of a 3-D array, listing the third)
    produces a type with five dimensions and reads the dimension records past their end. -/
theorem permute_violated :
    ∃ (v : View) (axes : List Int), v.Valid ∧ isValidPerm axes = .ok true ∧ axes.length = v.dims.length ∧
      v.permute axes = .ub :=
  ⟨⟨0, [(2, 48), (3, 16), (4, 4)]⟩, [1, 0, 2], by
    intro d hd
    simp only [List.mem_cons, List.not_mem_nil, or_false] at hd
    rcases hd with rfl | rfl | rfl <;> decide, by decide, by decide, by decide⟩

/-- C55: `permute` with anything that is not a permutation of the leading axes raises. -/
theorem permute_invalid_throws {v : View} {axes : List Int}
    (h : axes.length > v.dims.length ∨ ¬ axes.Perm ((List.range axes.length).map Int.ofNat)) :
    v.permute axes = .throw .invalidArg := by
  unfold View.permute
  split
  · rfl
  · rename_i hl
    have hnp := h.resolve_left hl
    obtain ⟨hb, hiff⟩ := is_valid_perm_exact axes
    rcases hb with hb | hb
    · exact absurd (hiff.1 hb) hnp
    · rw [hb]; rfl

private theorem reverse_range_getD (n j : Nat) (h : j < n) : (List.range n).reverse.getD j 0 = n - 1 - j := by
  rw [getD_eq _ _ _ (by simpa using h)]
  simp

/-- C55: transposing an array of any rank reverses the axes and keeps every element. -/
theorem transpose_exact (v : View) (hne : 0 < v.dims.length) :
    ∃ v', v.transpose = .ok v' ∧ v'.dims = v.dims.reverse ∧
      ∀ ix, InB v.dims ix → InB v'.dims ix.reverse ∧ v'.addr ix.reverse = v.addr ix := by
  have hperm : (List.range v.dims.length).reverse.Perm (List.range (List.range v.dims.length).reverse.length) := by
    simp
  have hob : OneBlock (List.range v.dims.length).reverse := by
    intro c hc h j hj
    simp only [List.length_reverse, List.length_range] at hc
    have := h 0 (by omega)
    rw [reverse_range_getD _ _ hne] at this
    omega
  have key : ∀ {α : Type} (l : List α) (d : α) (n : Nat), l.length = n →
      (List.range n).reverse.map (fun a => l.getD a d) = l.reverse := by
    intro α l d n hn
    rw [List.map_reverse, range_take_map _ _ _ (by omega), List.take_of_length_le (by omega)]
  obtain ⟨v', h1, _, h3, _⟩ := permute_exact_partial (v := v) hperm hob (by simp) (by simpa using hne)
  have h1' := permute_view (v := v) hperm hob (by simp) (by simpa using hne)
  rw [h1] at h1'
  simp only [Res.ok.injEq] at h1'
  refine ⟨v', h1, ?_, ?_⟩
  · rw [h1']
    simp only [List.length_reverse, List.length_range, List.drop_length, List.append_nil]
    exact key _ _ _ rfl
  · intro ix hi
    have := h3 ix hi
    have hl := hi.length'
    have e : permuteIndex (List.range v.dims.length).reverse ix = ix.reverse := by
      simp only [permuteIndex, List.length_reverse, List.length_range]
      rw [key _ _ _ hl.symm, List.drop_of_length_le (by omega), List.append_nil]
    rwa [e] at this

example : View.transpose ⟨8, [(2, 12), (3, 4)]⟩ = .ok ⟨8, [(3, 4), (2, 12)]⟩ := by decide

private theorem rotateAxes_facts (t f : Nat) (hne : t ≠ f) :
    (rotateAxes t f).length = max t f + 1 ∧ (rotateAxes t f).Perm (List.range (max t f + 1)) ∧
    OneBlock (rotateAxes t f) ∧
    (∀ k, k < max t f + 1 → (rotateAxes t f).getD k 0 =
      if k < min t f then k else if k = t then f else if f < t then k + 1 else k - 1) := by
  have hlen : (rotateAxes t f).length = max t f + 1 := by
    unfold rotateAxes
    rcases Nat.lt_or_gt_of_ne hne with h | h
    · rw [if_neg (by omega), if_pos h]; simp; omega
    · rw [if_pos h]; simp; omega
  have hget : ∀ k, k < max t f + 1 → (rotateAxes t f).getD k 0 =
      if k < min t f then k else if k = t then f else if f < t then k + 1 else k - 1 := by
    intro k hk
    have hr : ∀ n j, j < n → (List.range n).getD j 0 = j := fun n j h => by
      rw [getD_eq _ _ _ (by simpa using h)]; simp
    have hm : ∀ (g : Nat → Nat) n j, j < n → ((List.range n).map g).getD j 0 = g j := fun g n j h => by
      rw [getD_eq _ _ _ (by simpa using h)]; simp
    rcases Nat.lt_or_gt_of_ne hne with h | h
    · have e : rotateAxes t f = List.range t ++ ([f] ++ (List.range (f - t)).map (fun k => t + k)) := by
        unfold rotateAxes; rw [if_neg (by omega), if_pos h, List.append_assoc]
      rw [e]
      by_cases h1 : k < t
      · rw [List.getD_append _ _ _ _ (by simpa using h1), hr _ _ h1, if_pos (by omega)]
      · rw [List.getD_append_right _ _ _ _ (by simp; omega), List.length_range, if_neg (by omega)]
        by_cases h2 : k = t
        · subst h2; simp
        · rw [List.getD_append_right _ _ _ _ (by simp; omega), hm _ _ _ (by simp; omega), if_neg h2, if_neg (by omega)]
          simp; omega
    · have e : rotateAxes t f = List.range f ++ ((List.range (t - f)).map (fun k => f + k + 1) ++ [f]) := by
        unfold rotateAxes; rw [if_pos h, List.append_assoc]
      rw [e]
      by_cases h1 : k < f
      · rw [List.getD_append _ _ _ _ (by simpa using h1), hr _ _ h1, if_pos (by omega)]
      · rw [List.getD_append_right _ _ _ _ (by simp; omega), List.length_range, if_neg (by omega)]
        by_cases h2 : k = t
        · subst h2
          rw [List.getD_append_right _ _ _ _ (by simp)]; simp
        · rw [List.getD_append _ _ _ _ (by simp; omega), hm _ _ _ (by omega), if_neg h2, if_pos h]
          omega
  refine ⟨hlen, ?_, ?_, hget⟩
  · unfold rotateAxes
    rcases Nat.lt_or_gt_of_ne hne with h | h
    · rw [if_neg (by omega), if_pos h]
      have e : List.range (max t f + 1) = List.range t ++ ((List.range (f - t)).map (fun k => t + k) ++ [f]) := by
        have e1 : max t f + 1 = f + 1 := by omega
        rw [e1, List.range_succ]
        have e2 : List.range f = List.range t ++ (List.range (f - t)).map (fun k => t + k) := by
          have : f = t + (f - t) := by omega
          conv_lhs => rw [this, List.range_add]
        rw [e2, List.append_assoc]
      rw [e, List.append_assoc]
      exact List.Perm.append_left _ List.perm_append_comm
    · rw [if_pos h]
      have e : List.range (max t f + 1) = List.range f ++ ([f] ++ (List.range (t - f)).map (fun k => f + k + 1)) := by
        have e1 : max t f + 1 = f + 1 + (t - f) := by omega
        rw [e1, List.range_add, List.range_succ, List.append_assoc]
        congr 2
        apply List.map_congr_left
        intro a _; omega
      rw [e, List.append_assoc]
      exact List.Perm.append_left _ List.perm_append_comm
  · intro c hc h j hj
    rw [hlen] at hc
    have hcm : c ≤ min t f := by
      by_contra hgt
      have h0 := h (min t f) (by omega)
      rw [hget _ (by omega), if_neg (by omega)] at h0
      have h1 := h (c - 1) (by omega)
      rw [hget _ (by omega)] at h1
      split_ifs at h0 h1 <;> omega
    rw [hget j (by omega), if_pos (by omega)]

/-- C55: `rotate(to, from)` moves axis `from` to position `to`, shifting the axes in between by one and keeping
    every element. -/
theorem rotate_exact (v : View) (t f : Nat) (ht : t < v.dims.length) (hf : f < v.dims.length) :
    ∃ v', v.rotate t f = .ok v' ∧
      (t = f → v' = v) ∧
      (t ≠ f → ∃ axes : List Nat, axes.length = max t f + 1 ∧
        (∀ k, k < max t f + 1 → axes.getD k 0 = if k < min t f then k else if k = t then f else if f < t then k + 1 else k - 1) ∧
        ∀ ix, InB v.dims ix → InB v'.dims (permuteIndex axes ix) ∧ v'.addr (permuteIndex axes ix) = v.addr ix) := by
  by_cases he : t = f
  · exact ⟨v, by simp [View.rotate, he], fun _ => rfl, fun h => absurd he h⟩
  · obtain ⟨h1, h2, h3, h4⟩ := rotateAxes_facts t f he
    obtain ⟨v', g1, _, g3, _⟩ := permute_exact_partial (v := v) (axes := rotateAxes t f) (by rw [h1]; exact h2) h3
      (by omega) (by omega)
    refine ⟨v', by rw [View.rotate, if_neg he, g1], fun h => absurd h he, fun _ => ⟨rotateAxes t f, h1, h4, g3⟩⟩

example : View.rotate ⟨0, [(2, 48), (3, 16), (4, 4)]⟩ 0 2 = .ok ⟨0, [(4, 4), (2, 48), (3, 16)]⟩ := by decide

/-! ## C58: new_axis -/

/-- C58: inserting new axes of size one keeps every element at its address: the new coordinates are 0. -/
theorem new_axis_exact (v : View) (i k : Nat) (hi : i ≤ v.dims.length) (ix : List Int) (h : InB v.dims ix) :
    InB (v.newAxis i k).dims (ix.take i ++ List.replicate k 0 ++ ix.drop i) ∧
    (v.newAxis i k).addr (ix.take i ++ List.replicate k 0 ++ ix.drop i) = v.addr ix := by
  have hl := h.length'
  have hz : ∀ k, dotStrides (List.replicate k (1, 0)) (List.replicate k 0) = 0 := by
    intro k; induction k with
    | zero => rfl
    | succ k ih => simp only [List.replicate_succ, dotStrides, ih]; omega
  have happ : ∀ {d1 d2 : List (Int × Int)} {x1 x2 : List Int}, InB d1 x1 → InB d2 x2 → InB (d1 ++ d2) (x1 ++ x2) := by
    intro d1 d2 x1 x2 h1 h2
    induction h1 with
    | nil => exact h2
    | cons a b _ ih => exact .cons a b ih
  have htd : ∀ {d : List (Int × Int)} {x : List Int} (n : Nat), InB d x → InB (d.take n) (x.take n) ∧ InB (d.drop n) (x.drop n) := by
    intro d x n h
    induction h generalizing n with
    | nil => simpa using InB.nil
    | cons a b hc ih =>
      cases n with
      | zero => exact ⟨.nil, .cons a b hc⟩
      | succ n => exact ⟨.cons a b (ih n).1, (ih n).2⟩
  have hrep : ∀ k, InB (List.replicate k (1, 0)) (List.replicate k 0) := by
    intro k; induction k with
    | zero => exact .nil
    | succ k ih => exact .cons (by decide) (by decide) ih
  constructor
  · exact happ (happ (htd i h).1 (hrep k)) (htd i h).2
  · simp only [View.addr, View.newAxis]
    congr 1
    rw [dot_append _ _ _ _ (by simp; omega), dot_append _ _ _ _ (by simp; omega), hz]
    have := dot_append (v.dims.take i) (v.dims.drop i) (ix.take i) (ix.drop i) (by simp; omega)
    rw [List.take_append_drop, List.take_append_drop] at this
    omega

example : (View.newAxis ⟨0, [(3, 8), (2, 4)]⟩ 1 1) = ⟨0, [(3, 8), (1, 0), (2, 4)]⟩ := by decide

/-! ## C59: classify_axis_order -/

/-- C59: strides of strictly decreasing magnitude (rank at least 2) are classified as C order. -/
theorem classify_c_order (s : Int) (rest : List Int) (hne : rest ≠ []) (hpos : ∀ x ∈ s :: rest, x ≠ 0)
    (h : (s :: rest).Pairwise (fun a b => b.natAbs < a.natAbs)) : classifyAxisOrder (s :: rest) = .c := by
  have key : ∀ (cur : Int) (l : List Int), l ≠ [] → (∀ x ∈ l, x ≠ 0 ∧ (x.natAbs : Int) < cur) → classifyStrided cur l = .c := by
    intro cur l
    induction l with
    | nil => intro h; exact absurd rfl h
    | cons e rest ih =>
      intro _ hall
      have he := hall e (by simp)
      simp only [classifyStrided]
      rw [if_pos (by omega), if_pos he.2]
      cases rest with
      | nil => simp [classifyStrided]
      | cons e2 rest2 => rw [ih (by simp) fun x hx => hall x (by simp [hx])]; simp
  cases rest with
  | nil => exact absurd rfl hne
  | cons r rest =>
    simp only [classifyAxisOrder]
    rw [if_pos (hpos s (by simp))]
    apply key _ _ (by simp)
    intro x hx
    have := (List.pairwise_cons.1 h).1 x hx
    exact ⟨hpos x (by simp [hx]), by omega⟩

/-- C59, violated: three strides of magnitude 100, 4, 40 are not in decreasing order, yet they are
    classified as C order (every stride is only compared with the outermost one). -/
theorem classify_axis_order_violated :
    ∃ l : List Int, (∀ x ∈ l, x ≠ 0) ∧ ¬ l.Pairwise (fun a b => b.natAbs ≤ a.natAbs) ∧ classifyAxisOrder l = .c :=
  ⟨[100, 4, 40], by decide, by decide, by decide⟩

/-- C59, what holds in rank 2: non-zero strides are C order iff the outer one is larger. -/
theorem classify_rank2_exact_partial (a b : Int) (ha : a ≠ 0) (hb : b ≠ 0) :
    classifyAxisOrder [a, b] = if b.natAbs < a.natAbs then .c else .f := by
  simp only [classifyAxisOrder, classifyStrided, ne_eq, ha, not_false_eq_true, if_true]
  rw [if_pos (by omega)]
  simp only [true_or, if_true]
  by_cases h : b.natAbs < a.natAbs
  · rw [if_pos (by omega), if_pos h]
  · rw [if_neg (by omega), if_neg h]

end Dynd
