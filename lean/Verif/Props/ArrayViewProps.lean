import Verif.Model.ArrayOps
import Verif.Props.ElwiseProps
import Mathlib.Tactic.SplitIfs
/-
C89: `view`.
-/
namespace Dynd
open Res

/-- A value of dtype `l` may be reinterpreted as dtype `v`: the same type, or plain data of the same size that is aligned at
    least as well. -/
def Reinterpretable (l v : VLeaf) : Prop :=
  l.ty = v.ty ∨ (l.pod = true ∧ v.pod = true ∧ l.size = v.size ∧ v.align ≤ l.align)

/-- Sizes of an array, leading var dimension included. -/
def VArr.sizes : VArr → List Nat
  | .fixed _ dims => dims.map (·.1)
  | .var _ _ n _ dims => n :: dims.map (·.1)

/-- Address of the element at an index. -/
def VArr.elem : VArr → List Nat → Int
  | .fixed b dims, idx => b + dstOff (dims.map (·.2)) idx
  | .var b o _ s dims, idx => b + o + dstOff (s :: dims.map (·.2)) idx

private theorem tryView_spec : ∀ (src : Dims) (l : VLeaf) (m : VMeta) (dst : List ADim) (v : VLeaf),
    (∀ r, tryView src l m dst v = some r ↔ dst = src.map (fun p => ADim.fixed p.1) ∧ Reinterpretable l v ∧
      r = (src.map (·.2), if l.ty = v.ty then m else .default))
  | (n, s) :: src, l, m, .fixed k :: dst, v => by
    intro r
    simp only [tryView, List.map_cons, List.cons.injEq, ADim.fixed.injEq]
    have ih := tryView_spec src l m dst v
    by_cases h : n ≠ k
    · rw [if_pos h]; simp only [reduceCtorEq, false_iff]; rintro ⟨⟨h1, -⟩, -⟩; exact h h1.symm
    · have h' : n = k := by omega
      rw [if_neg h]
      subst h'
      cases ht : tryView src l m dst v with
      | none =>
        simp only [reduceCtorEq, false_iff, true_and]
        rintro ⟨h1, h2, -⟩
        have := (ih (src.map (·.2), if l.ty = v.ty then m else .default)).2 ⟨h1, h2, rfl⟩
        rw [ht] at this; simp at this
      | some q =>
        obtain ⟨h1, h2, h3⟩ := (ih q).1 ht
        obtain ⟨ss, m'⟩ := q
        simp only [Prod.mk.injEq] at h3
        simp only [Option.some.injEq, true_and]
        constructor
        · rintro rfl; exact ⟨h1, h2, by rw [h3.1, h3.2]⟩
        · rintro ⟨-, -, rfl⟩; rw [h3.1, h3.2]
  | _ :: _, _, _, [], _ => by intro r; simp [tryView]
  | _ :: _, _, _, .var :: _, _ => by intro r; simp [tryView]
  | [], l, m, [], v => by
    intro r
    unfold tryView Reinterpretable
    split_ifs with h1 h2
    · simp only [h1, true_or, List.map_nil, true_and, Option.some.injEq]
      exact eq_comm
    · simp only [h1, false_or]
      constructor
      · intro h; exact ⟨rfl, h2, by simpa [eq_comm] using h⟩
      · rintro ⟨-, -, rfl⟩; rfl
    · simp only [h1, false_or, reduceCtorEq, false_iff]
      rintro ⟨-, h3, -⟩; exact h2 h3
  | [], _, _, _ :: _, _ => by intro r; simp [tryView]

/-- **C89**: viewing an array (of any rank, sizes and strides; a leading var dimension may be viewed as a fixed one) as
    another type succeeds exactly if the sizes are the same and the dtype can be reinterpreted, and then every element of
    the view is at the address of the element of the array with the same index; otherwise `type_error` is raised. -/
theorem old_view_exact (a : VArr) (l v : VLeaf) (m : VMeta) (dst : List ADim) :
    (dst = a.sizes.map ADim.fixed ∧ Reinterpretable l v →
      ∃ b ss m', oldView a l m dst v = .ok (b, ss, m') ∧ ss.length = a.sizes.length ∧
        (∀ idx, b + dstOff ss idx = a.elem idx) ∧ (l.ty = v.ty → m' = m) ∧ (l.ty ≠ v.ty → m' = .default)) ∧
    (¬ (dst = a.sizes.map ADim.fixed ∧ Reinterpretable l v) → oldView a l m dst v = .throw .typeError) := by
  cases a with
  | fixed b dims =>
    have hs : (VArr.fixed b dims).sizes.map ADim.fixed = dims.map (fun p => ADim.fixed p.1) := by
      simp [VArr.sizes, Function.comp_def]
    rw [hs]
    have sp := tryView_spec dims l m dst v
    unfold oldView
    simp only
    constructor
    · rintro ⟨h1, h2⟩
      rw [if_pos (by rw [h1]; simp)]
      have ht := (sp _).2 ⟨h1, h2, rfl⟩
      simp only [viewConcrete]
      rw [ht]
      refine ⟨_, _, _, rfl, by simp [VArr.sizes], fun idx => rfl, fun h => by rw [if_pos h], fun h => by rw [if_neg h]⟩
    · intro h
      split_ifs with h1
      · simp only [viewConcrete]
        cases ht : tryView dims l m dst v with
        | none => rfl
        | some q => exact absurd ⟨((sp q).1 ht).1, ((sp q).1 ht).2.1⟩ h
      · rfl
  | var b o n s dims =>
    have hs : (VArr.var b o n s dims).sizes.map ADim.fixed = .fixed n :: dims.map (fun p => ADim.fixed p.1) := by
      simp [VArr.sizes, Function.comp_def]
    rw [hs]
    unfold oldView
    simp only
    constructor
    · rintro ⟨rfl, h2⟩
      have ht := (tryView_spec dims l m _ v _).2 ⟨rfl, h2, rfl⟩
      rw [if_pos (by simp)]
      simp only [viewConcrete, if_true]
      rw [ht]
      refine ⟨_, _, _, rfl, by simp [VArr.sizes], fun idx => rfl, fun h => by rw [if_pos h], fun h => by rw [if_neg h]⟩
    · intro h
      split_ifs with h1
      · cases dst with
        | nil => rfl
        | cons d dst =>
          cases d with
          | var => rfl
          | fixed k =>
            simp only [viewConcrete]
            split_ifs with h2
            · subst h2
              cases ht : tryView dims l m dst v with
              | none => rfl
              | some q =>
                have := (tryView_spec dims l m dst v q).1 ht
                exact absurd ⟨by rw [this.1], this.2.1⟩ h
            · rfl
      · rfl

/-- C89 is violated for a struct dtype with its own layout: viewing a struct whose fields are not at their default offsets
    (taken from a larger struct) as another plain struct of the same size succeeds and uses default offsets, so the fields
    of the view are other bytes. -/
theorem old_view_layout_violated :
    oldView (.fixed 0 [(2, 24)]) ⟨1, 16, 8, true⟩ (.other 7) [.fixed 2] ⟨2, 16, 8, true⟩ = .ok (0, [24], .default) := by
  decide

/-- Concrete cases: two rows of three 8-byte integers seen as doubles; a var dimension seen as fixed; refusals. -/
example : oldView (.fixed 100 [(2, 24), (3, 8)]) ⟨1, 8, 8, true⟩ .default [.fixed 2, .fixed 3] ⟨2, 8, 8, true⟩ =
      .ok (100, [24, 8], .default) ∧
    oldView (.var 500 4 3 8 []) ⟨1, 8, 8, true⟩ .default [.fixed 3] ⟨1, 8, 8, true⟩ = .ok (504, [8], .default) ∧
    oldView (.var 500 4 3 8 []) ⟨1, 8, 8, true⟩ .default [.fixed 2] ⟨1, 8, 8, true⟩ = .throw .typeError ∧
    oldView (.fixed 100 [(2, 24)]) ⟨1, 8, 4, true⟩ .default [.fixed 2] ⟨2, 8, 8, true⟩ = .throw .typeError := by decide

end Dynd
