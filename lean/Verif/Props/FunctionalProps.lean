import Verif.Model.Functional
import Verif.Props.ElwiseProps
import Verif.Props.ArrayIterProps
import Mathlib.Tactic.Ring
import Mathlib.Tactic.Linarith
/-
C97: outer; C82: compose in one memory; C98: where and the index given to the child of an elementwise application.
-/
namespace Dynd

/-! ## outer: specification -/

/-- Cutting a list into consecutive pieces of the given lengths. -/
def pieces {α : Type} : List Nat → List α → List (List α)
  | [], _ => []
  | r :: rs, l => l.take r :: pieces rs (l.drop r)

/-- The addresses of the arguments' elements for the result's element `idx`: each argument is indexed by its own part
    of `idx`. -/
def outerArgs (args : List Dims) (idx : List Nat) : List Int :=
  List.zipWith (fun a i => dstOff (a.map (·.2)) i) args (pieces (args.map List.length) idx)

/-- The shape of an outer result: the arguments' shapes one after the other. -/
def outerShape (args : List Dims) : List Nat := (args.map fun a => a.map (·.1)).flatten

/-! ## outer: proofs -/

theorem skipScalars_eq : ∀ (l : List Dims) (i : Nat),
    ∃ k, skipScalars i (l.map (·.map (·.1))) = i + k ∧ k ≤ l.length ∧ (∀ a ∈ l.take k, a = []) ∧
      (∀ a, (l.drop k).head? = some a → a ≠ [])
  | [], i => ⟨0, rfl, by simp, by simp, by simp⟩
  | [] :: rest, i => by
    obtain ⟨k, h1, h2, h3, h4⟩ := skipScalars_eq rest (i + 1)
    refine ⟨k + 1, ?_, by simpa using h2, ?_, by simpa using h4⟩
    · simp only [List.map_cons, List.map_nil, skipScalars, h1]; omega
    · intro a ha
      simp only [List.take_succ_cons, List.mem_cons] at ha
      rcases ha with rfl | ha
      · rfl
      · exact h3 a ha
  | (x :: xs) :: rest, i => ⟨0, by simp [skipScalars], by simp, by simp, by
      intro a ha
      simp only [List.drop_zero, List.head?_cons, Option.some.injEq] at ha
      subst ha; simp⟩

theorem outerArgs_nil_pre : ∀ (pre : List Dims) (rest : List Dims) (idx : List Nat), (∀ a ∈ pre, a = []) →
    outerArgs (pre ++ rest) idx = List.replicate pre.length 0 ++ outerArgs rest idx
  | [], _, _, _ => rfl
  | a :: pre, rest, idx, h => by
    have ha : a = [] := h a (by simp)
    subst ha
    have ih := outerArgs_nil_pre pre rest idx (fun b hb => h b (by simp [hb]))
    unfold outerArgs at ih ⊢
    simp only [List.cons_append, List.map_cons, List.length_nil, pieces, List.drop_zero, List.zipWith_cons_cons, ih,
      List.length_cons, List.replicate_succ]
    congr 1

theorem outerShape_nil_pre (pre rest : List Dims) (h : ∀ a ∈ pre, a = []) : outerShape (pre ++ rest) = outerShape rest := by
  unfold outerShape
  rw [List.map_append, List.flatten_append]
  have : (pre.map fun a => a.map (·.1)).flatten = [] := by
    rw [List.flatten_eq_nil_iff]
    intro l hl
    obtain ⟨a, ha, rfl⟩ := List.mem_map.1 hl
    rw [h a ha]; rfl
  rw [this]; rfl

theorem dstOff_cons (st : Int) (sts : List Int) (j : Nat) (js : List Nat) :
    dstOff (st :: sts) (j :: js) = (j : Int) * st + dstOff sts js := by
  simp [dstOff]

/-- One more dimension on the first argument. -/
theorem outerArgs_cons (n : Nat) (st : Int) (m : Dims) (post : List Dims) (j : Nat) (js : List Nat) :
    ∃ o os, outerArgs (m :: post) js = o :: os ∧
      outerArgs (((n, st) :: m) :: post) (j :: js) = ((j : Int) * st + o) :: os := by
  refine ⟨_, _, rfl, ?_⟩
  simp only [outerArgs, List.map_cons, List.length_cons, pieces, List.take_succ_cons, List.drop_succ_cons,
    List.zipWith_cons_cons, dstOff_cons]

theorem outerArgs_length (args : List Dims) (idx : List Nat) : (outerArgs args idx).length = args.length := by
  have h : ∀ (rs : List Nat) (l : List Nat), (pieces rs l).length = rs.length := by
    intro rs
    induction rs with
    | nil => intro l; rfl
    | cons r rs ih => intro l; simp [pieces, ih]
  simp [outerArgs, h]

theorem outerRest (pre : List Dims) (m : Dims) (post : List Dims) :
    (pre ++ m :: post).set pre.length m = pre ++ m :: post := by simp

/-- Levels, kernels and calls from the first argument with dimensions on. -/
theorem outer_levels_spec : ∀ (fuel : Nat) (pre rest : List Dims), (∀ a ∈ pre, a = []) →
    (∀ a, rest.head? = some a → a ≠ []) → (outerShape rest).length ≤ fuel →
    ∃ lv, outerLevels fuel pre.length ((pre ++ rest).map (·.map (·.1))) = .ok (lv, outerShape rest) ∧
      ∀ dst : Dims, dst.length = (outerShape rest).length →
        ∃ ks, outerInst lv dst (pre ++ rest) = .ok ks ∧ ∀ (d : Int) (s : List Int), s.length = (pre ++ rest).length →
          elwRun ks d s = (gridIdx (dst.map (·.1))).map fun idx =>
            (d + dstOff (dst.map (·.2)) idx, List.zipWith (· + ·) s (outerArgs (pre ++ rest) idx)) := by
  intro fuel
  induction fuel with
  | zero =>
    intro pre rest hpre hhd hlen
    cases rest with
    | nil =>
      refine ⟨[], ?_, ?_⟩
      · simp [outerLevels, outerShape]
      · intro dst hd
        have : dst = [] := by simpa [outerShape] using hd
        subst this
        refine ⟨[], rfl, ?_⟩
        intro d s hs
        have h0 : outerArgs (pre ++ []) [] = List.replicate pre.length 0 := by
          rw [outerArgs_nil_pre pre [] [] hpre]; simp [outerArgs]
        simp only [elwRun, List.map_nil, gridIdx, List.map_cons, h0, dstOff, List.zipWith_nil_left, List.sum_nil,
          Int.add_zero]
        congr 2
        apply List.ext_getElem
        · simp at hs ⊢; omega
        · intro k h1 h2; simp
    | cons a rest =>
      have := hhd a rfl
      cases a with
      | nil => exact absurd rfl this
      | cons x xs => simp [outerShape] at hlen
  | succ fuel ih =>
    intro pre rest hpre hhd hlen
    cases rest with
    | nil =>
      refine ⟨[], ?_, ?_⟩
      · simp [outerLevels, outerShape]
      · intro dst hd
        have : dst = [] := by simpa [outerShape] using hd
        subst this
        refine ⟨[], rfl, ?_⟩
        intro d s hs
        have h0 : outerArgs (pre ++ []) [] = List.replicate pre.length 0 := by
          rw [outerArgs_nil_pre pre [] [] hpre]; simp [outerArgs]
        simp only [elwRun, List.map_nil, gridIdx, List.map_cons, h0, dstOff, List.zipWith_nil_left, List.sum_nil,
          Int.add_zero]
        congr 2
        apply List.ext_getElem
        · simp at hs ⊢; omega
        · intro k h1 h2; simp
    | cons a post =>
      have hne := hhd a rfl
      obtain ⟨⟨n, st⟩, m, rfl⟩ : ∃ x m, a = x :: m := by
        cases a with
        | nil => exact absurd rfl hne
        | cons x xs => exact ⟨x, xs, rfl⟩
      -- the arguments of the next level
      obtain ⟨k, hk1, hk2, hk3, hk4⟩ := skipScalars_eq (m :: post) pre.length
      have hsplit : pre ++ m :: post = (pre ++ (m :: post).take k) ++ (m :: post).drop k := by
        rw [List.append_assoc, List.take_append_drop]
      have hpre' : ∀ a ∈ pre ++ (m :: post).take k, a = [] := by
        intro a ha
        rcases List.mem_append.1 ha with h | h
        · exact hpre a h
        · exact hk3 a h
      have hsh : outerShape ((m :: post).drop k) = outerShape (m :: post) := by
        conv => rhs; rw [← List.take_append_drop k (m :: post)]
        rw [outerShape_nil_pre _ _ hk3]
      have hlen' : (outerShape ((m :: post).drop k)).length ≤ fuel := by
        rw [hsh]
        simp only [outerShape, List.map_cons, List.flatten_cons, List.cons_append, List.length_cons] at hlen ⊢
        omega
      obtain ⟨lv, hlv, hin⟩ := ih (pre ++ (m :: post).take k) ((m :: post).drop k) hpre' hk4 hlen'
      rw [← hsplit, hsh] at hlv
      rw [← hsplit] at hin
      have hpl : (pre ++ (m :: post).take k).length = pre.length + k := by
        rw [List.length_append, List.length_take]; omega
      rw [hpl] at hlv
      refine ⟨pre.length :: lv, ?_, ?_⟩
      · rw [outerLevels, if_pos (by simp)]
        have hg : ((pre ++ ((n, st) :: m) :: post).map (·.map (·.1)))[pre.length]? = some (n :: m.map (·.1)) := by
          simp
        simp only [hg]
        have hset : ((pre ++ ((n, st) :: m) :: post).map (·.map (·.1))).set pre.length (m.map (·.1)) =
            (pre ++ m :: post).map (·.map (·.1)) := by
          simp [List.set_append_right]
        rw [hset]
        have hdrop : ((pre ++ m :: post).map (·.map (·.1))).drop pre.length = (m :: post).map (·.map (·.1)) := by
          rw [List.map_append, List.drop_append_of_le_length (by simp)]
          simp
        rw [hdrop, hk1, hlv]
        simp [outerShape]
      · intro dst hd
        obtain ⟨⟨dn, ds⟩, dst', rfl⟩ : ∃ x dst', dst = x :: dst' := by
          cases dst with
          | nil => simp [outerShape] at hd
          | cons x xs => exact ⟨x, xs, rfl⟩
        have hd' : dst'.length = (outerShape ((m :: post).drop k)).length := by
          rw [hsh]
          simp only [outerShape, List.map_cons, List.flatten_cons, List.cons_append, List.length_cons] at hd ⊢
          omega
        obtain ⟨ks, hks, hrun⟩ := hin dst' hd'
        have hset : (pre ++ ((n, st) :: m) :: post).set pre.length m = pre ++ m :: post := by
          simp [List.set_append_right]
        refine ⟨{ size := dn, dstStride := ds,
                  srcStride := (List.replicate (pre ++ ((n, st) :: m) :: post).length 0).set pre.length st } :: ks, ?_, ?_⟩
        · rw [outerInst]
          have hg : (pre ++ ((n, st) :: m) :: post)[pre.length]? = some ((n, st) :: m) := by simp
          simp only [hg, hset, hks]
          rfl
        · intro d s hs
          rw [elwRun]
          rw [elwLoop_eq dn d s (by simp at hs ⊢; omega)]
          simp only [List.map_cons, gridIdx, List.map_flatMap, List.map_map]
          apply List.flatMap_congr
          intro j _
          rw [hrun _ _ (by simp at hs ⊢; omega)]
          apply List.map_congr_left
          intro idx _
          simp only [Function.comp_apply, dstOff_cons, Prod.mk.injEq]
          refine ⟨by ring, ?_⟩
          rw [outerArgs_nil_pre _ _ _ hpre, outerArgs_nil_pre _ _ _ hpre]
          obtain ⟨o, os, h1, h2⟩ := outerArgs_cons n st m post j idx
          rw [h1, h2]
          have hol : os.length = post.length := by
            have := outerArgs_length (m :: post) idx
            rw [h1] at this; simpa using this
          apply List.ext_getElem
          · simp at hs ⊢; omega
          · intro q hq1 hq2
            simp only [List.getElem_zipWith, List.getElem_set, List.getElem_replicate]
            rcases Nat.lt_trichotomy q pre.length with hlt | heq | hgt
            · rw [List.getElem_append_left (by simpa using hlt), List.getElem_append_left (by simpa using hlt)]
              rw [if_neg (by omega)]
              simp
            · subst heq
              rw [List.getElem_append_right (by simp), List.getElem_append_right (by simp)]
              simp
              ring
            · rw [List.getElem_append_right (by simp; omega), List.getElem_append_right (by simp; omega)]
              rw [if_neg (by omega)]
              obtain ⟨r, hr⟩ : ∃ r, q = pre.length + 1 + r := ⟨q - pre.length - 1, by omega⟩
              subst hr
              have e : pre.length + 1 + r - (List.replicate pre.length (0 : Int)).length = r + 1 := by simp; omega
              simp only [e, List.getElem_cons_succ]
              simp

theorem outerShape_length : ∀ args : List Dims,
    (outerShape args).length = ((args.map fun a => a.map (·.1)).map List.length).sum
  | [] => rfl
  | a :: args => by
    have := outerShape_length args
    unfold outerShape at this ⊢
    simp only [List.map_cons, List.flatten_cons, List.length_append, List.sum_cons, this]

theorem outerResolve_spec (args : List Dims) (hn : args.length < 4 ∨ ∀ a ∈ args, a = []) :
    ∃ lv, outerResolve (args.map (·.map (·.1))) = .ok (lv, outerShape args) ∧
      ∀ dst : Dims, dst.length = (outerShape args).length →
        ∃ ks, outerInst lv dst args = .ok ks ∧ ∀ (d : Int) (s : List Int), s.length = args.length →
          elwRun ks d s = (gridIdx (dst.map (·.1))).map fun idx =>
            (d + dstOff (dst.map (·.2)) idx, List.zipWith (· + ·) s (outerArgs args idx)) := by
  obtain ⟨k, hk1, hk2, hk3, hk4⟩ := skipScalars_eq args 0
  have hsplit : args.take k ++ args.drop k = args := List.take_append_drop k args
  have hsh : outerShape (args.drop k) = outerShape args := by
    conv => rhs; rw [← hsplit]
    rw [outerShape_nil_pre _ _ hk3]
  have hfuel : (outerShape (args.drop k)).length ≤ ((args.map (·.map (·.1))).map List.length).sum := by
    rw [hsh, outerShape_length]
  obtain ⟨lv, h1, h2⟩ := outer_levels_spec (((args.map (·.map (·.1))).map List.length).sum) (args.take k) (args.drop k) hk3 hk4 hfuel
  rw [hsplit, hsh] at h1
  rw [hsplit, hsh] at h2
  have hlt : (args.take k).length = k := by rw [List.length_take]; omega
  rw [hlt] at h1
  refine ⟨lv, ?_, h2⟩
  unfold outerResolve
  simp only [hk1, Nat.zero_add, List.length_map]
  by_cases hkl : k < args.length
  · have hn' : args.length < 4 := by
      rcases hn with h | h
      · exact h
      · exfalso
        have : (args.drop k).head? = some args[k] := by simp [List.head?_drop, hkl]
        exact hk4 _ this (h _ (List.getElem_mem hkl))
    rw [if_pos hkl, if_pos hn']
    exact h1
  · rw [if_neg hkl]
    have hke : k = args.length := by omega
    subst hke
    have he : outerShape args = [] := by rw [← hsh]; simp [outerShape]
    rw [he] at h1 ⊢
    cases hf : ((args.map (·.map (·.1))).map List.length).sum with
    | zero => rw [hf] at h1; simpa [outerLevels] using h1
    | succ f => rw [hf] at h1; simpa [outerLevels] using h1

/-- A call of `outer(f)` on at most three arguments with fixed dimensions: the shape of the result is the arguments'
    shapes one after the other, and `f` is called exactly once for every element of the result, in row-major order, on
    the elements of the arguments selected by their own parts of the index. -/
theorem outer_exact (strides : List Nat → List Int) (hst : ∀ sh, (strides sh).length = sh.length) (args : List Dims)
    (hn : args.length ≤ 3) :
    outerApply strides args = .ok (outerShape args, (gridIdx (outerShape args)).map fun idx =>
      (dstOff (strides (outerShape args)) idx, outerArgs args idx)) := by
  obtain ⟨lv, h1, h2⟩ := outerResolve_spec args (Or.inl (by omega))
  obtain ⟨ks, h3, h4⟩ := h2 ((outerShape args).zip (strides (outerShape args))) (by simp [hst])
  have e1 : ((outerShape args).zip (strides (outerShape args))).map (·.1) = outerShape args := by
    rw [List.map_fst_zip]; rw [hst]
  have e2 : ((outerShape args).zip (strides (outerShape args))).map (·.2) = strides (outerShape args) := by
    rw [List.map_snd_zip]; rw [hst]
  simp only [outerApply, outerApplyTo, h1, Res.bind_ok, h3, Res.pure_eq]
  rw [h4 0 _ (by simp), e1, e2]
  congr 2
  apply List.map_congr_left
  intro idx _
  rw [Prod.mk.injEq]
  refine ⟨by ring, ?_⟩
  apply List.ext_getElem
  · simp [outerArgs_length]
  · intro q h1 h2; simp

/-- With a destination given by the caller, of the right number of dimensions: its sizes, not the arguments', bound
    the loops. -/
theorem outer_given_exact (dst : Dims) (args : List Dims) (hn : args.length ≤ 3)
    (hd : dst.length = (outerShape args).length) :
    outerApplyTo dst args = .ok ((gridIdx (dst.map (·.1))).map fun idx =>
      (dstOff (dst.map (·.2)) idx, outerArgs args idx)) := by
  obtain ⟨lv, h1, h2⟩ := outerResolve_spec args (Or.inl (by omega))
  obtain ⟨ks, h3, h4⟩ := h2 dst hd
  simp only [outerApplyTo, h1, Res.bind_ok, h3, Res.pure_eq]
  rw [h4 0 _ (by simp)]
  congr 1
  apply List.map_congr_left
  intro idx _
  rw [Prod.mk.injEq]
  refine ⟨by ring, ?_⟩
  apply List.ext_getElem
  · simp [outerArgs_length]
  · intro q h1 h2; simp

theorem gridIdx_split : ∀ (a b idx : List Nat), idx ∈ gridIdx (a ++ b) →
    idx.take a.length ∈ gridIdx a ∧ idx.drop a.length ∈ gridIdx b
  | [], b, idx, h => by simpa [gridIdx] using h
  | n :: a, b, idx, h => by
    simp only [List.cons_append, gridIdx, List.mem_flatMap, List.mem_map] at h
    obtain ⟨j, hj, js, hjs, rfl⟩ := h
    obtain ⟨h1, h2⟩ := gridIdx_split a b js hjs
    refine ⟨?_, by simpa using h2⟩
    simp only [gridIdx, List.mem_flatMap, List.mem_map, List.length_cons, List.take_succ_cons]
    exact ⟨j, hj, _, h1, rfl⟩

/-- The parts of an index of the result are indices of the arguments: `f` never reads outside an argument. -/
theorem outer_in_bounds (args : List Dims) : ∀ idx ∈ gridIdx (outerShape args),
    List.Forall₂ (fun i a => i ∈ gridIdx (a.map (·.1))) (pieces (args.map List.length) idx) args := by
  induction args with
  | nil => intro idx _; exact List.Forall₂.nil
  | cons a args ih =>
    intro idx hidx
    have he : outerShape (a :: args) = a.map (·.1) ++ outerShape args := by simp [outerShape]
    rw [he] at hidx
    obtain ⟨h1, h2⟩ := gridIdx_split _ _ _ hidx
    rw [List.length_map] at h1 h2
    exact List.Forall₂.cons h1 (ih _ h2)

/-- Four arguments of which one is not a scalar: the table of implementations is read past its end. -/
theorem outer_many_violated (strides : List Nat → List Int) (args : List Dims) (h4 : 4 ≤ args.length)
    (hne : ∃ a ∈ args, a ≠ []) : outerApply strides args = .ub := by
  obtain ⟨k, hk1, hk2, hk3, hk4⟩ := skipScalars_eq args 0
  have hkl : k < args.length := by
    rcases Nat.lt_or_ge k args.length with h | h
    · exact h
    · obtain ⟨a, ha, hx⟩ := hne
      rw [List.take_of_length_le h] at hk3
      exact absurd (hk3 a ha) hx
  have : outerResolve (args.map (·.map (·.1))) = .ub := by
    unfold outerResolve
    simp only [hk1, Nat.zero_add, List.length_map]
    rw [if_pos hkl, if_neg (by omega)]
  simp [outerApply, this]

/-- A destination larger than the arguments is accepted, and elements past the end of an argument are read. -/
theorem outer_given_violated :
    ∃ (dst : Dims) (args : List Dims) (calls : List (Int × List Int)), outerApplyTo dst args = .ok calls ∧
      args = [[(2, 4)]] ∧ (8, [8]) ∈ calls :=
  ⟨[(3, 4)], [[(2, 4)]], _, outer_given_exact _ _ (by decide) (by decide), rfl, by decide⟩

example : outerApply (fun sh => match sh with | [_, b] => [8 * (b : Int), 8] | _ => sh.map fun _ => 0)
    [[(2, 4)], [], [(3, 8)]] = .ok ([2, 3],
      [(0, [0, 0, 0]), (8, [0, 0, 8]), (16, [0, 0, 16]), (24, [4, 0, 0]), (32, [4, 0, 8]), (40, [4, 0, 16])]) := by
  decide +kernel

/-! ## compose -/

/-- The memory after writing `v i` at `d + i * ds` for `i = 0, …, n - 1`, in this order. -/
def writeAll {V : Type} (n : Nat) (d ds : Int) (v : Nat → V) (m : VMem V) : VMem V :=
  (List.range n).foldl (fun m (i : Nat) => fun a => if a = d + (i : Int) * ds then v i else m a) m

theorem composeFirst_spec {V W : Type} (f : V → W) (m : VMem V) (ss : Int) : ∀ (c i : Nat) (s : Int) (buf : List W),
    i + c ≤ buf.length → ∃ buf', composeFirst f m ss c i s buf = .ok buf' ∧ buf'.length = buf.length ∧
      ∀ j : Nat, buf'[j]? = if i ≤ j ∧ j < i + c then some (f (m (s + ((j - i : Nat) : Int) * ss))) else buf[j]?
  | 0, i, s, buf, _ => ⟨buf, rfl, rfl, fun j => by rw [if_neg (by omega)]⟩
  | c + 1, i, s, buf, h => by
    obtain ⟨buf', h1, h2, h3⟩ := composeFirst_spec f m ss c (i + 1) (s + ss) (buf.set i (f (m s))) (by simp; omega)
    refine ⟨buf', ?_, by simpa using h2, ?_⟩
    · rw [composeFirst, if_pos (by omega), h1]
    · intro j
      rw [h3 j]
      by_cases hj : i + 1 ≤ j ∧ j < i + 1 + c
      · rw [if_pos hj, if_pos (by omega)]
        have e : ((j - i : Nat) : Int) = ((j - (i + 1) : Nat) : Int) + 1 := by omega
        rw [e]
        congr 3
        ring
      · rw [if_neg hj]
        by_cases hji : j = i
        · subst hji
          rw [if_pos (by omega), List.getElem?_set_self (by omega)]
          simp
        · rw [if_neg (by omega), List.getElem?_set_ne (by omega)]

theorem composeSecond_spec {V W : Type} (g : W → V) (buf : List W) (ds : Int) (w : Nat → W) (d0 : Int) :
    ∀ (c i : Nat) (m : VMem V), (∀ j : Nat, i ≤ j → j < i + c → buf[j]? = some (w j)) →
      composeSecond g buf ds c i (d0 + (i : Int) * ds) m =
        .ok ((List.range' i c).foldl (fun m (j : Nat) => m.put (d0 + (j : Int) * ds) (g (w j))) m)
  | 0, i, m, _ => rfl
  | c + 1, i, m, h => by
    rw [composeSecond, h i (by omega) (by omega)]
    have e : d0 + (i : Int) * ds + ds = d0 + ((i + 1 : Nat) : Int) * ds := by push_cast; ring
    simp only [e]
    rw [composeSecond_spec g buf ds w d0 c (i + 1) _ (fun j h1 h2 => h j (by omega) (by omega))]
    rfl

/-- One chunk, at element `k` of the whole run. -/
theorem composeStep_spec {V W : Type} (f : V → W) (g : W → V) (c k : Nat) (d ds s ss : Int) (buf : List W) (m : VMem V)
    (hc : c ≤ buf.length) :
    ∃ buf', buf'.length = buf.length ∧
      composeStep f g c (d + (k : Int) * ds) ds (s + (k : Int) * ss) ss buf m =
        .ok (buf', (List.range' k c).foldl
          (fun m' (j : Nat) => m'.put (d + (j : Int) * ds) (g (f (m (s + (j : Int) * ss))))) m) := by
  obtain ⟨buf', h1, h2, h3⟩ := composeFirst_spec f m ss c 0 (s + (k : Int) * ss) buf (by omega)
  refine ⟨buf', h2, ?_⟩
  unfold composeStep
  rw [h1, Res.bind_ok]
  have := composeSecond_spec g buf' ds (fun j => f (m (s + ((k + j : Nat) : Int) * ss))) (d + (k : Int) * ds) c 0 m
    (fun j _ hj => by
      rw [h3 j, if_pos ⟨Nat.zero_le _, hj⟩]
      congr 3
      push_cast
      simp only [Nat.sub_zero]
      ring)
  simp only [Nat.cast_zero, zero_mul, add_zero] at this
  rw [this, Res.bind_ok, Res.pure_eq]
  congr 2
  have e : List.range' k c = (List.range' 0 c).map (k + ·) := by
    rw [List.map_add_range']; simp
  rw [e, List.foldl_map]
  congr 1
  funext m' j
  congr 1
  push_cast
  ring

theorem foldl_put_other {V : Type} (d ds : Int) (v : Nat → V) (a : Int) : ∀ (l : List Nat) (m : VMem V),
    (∀ j ∈ l, a ≠ d + (j : Int) * ds) → l.foldl (fun m (j : Nat) => m.put (d + (j : Int) * ds) (v j)) m a = m a
  | [], _, _ => rfl
  | j :: l, m, h => by
    rw [List.foldl_cons, foldl_put_other d ds v a l _ (fun j' hj' => h j' (by simp [hj']))]
    simp [VMem.put, h j (by simp)]

theorem foldl_put_congr {V : Type} (d ds : Int) : ∀ (l : List Nat) (v w : Nat → V) (m : VMem V),
    (∀ j ∈ l, v j = w j) → l.foldl (fun m (j : Nat) => m.put (d + (j : Int) * ds) (v j)) m =
      l.foldl (fun m (j : Nat) => m.put (d + (j : Int) * ds) (w j)) m
  | [], _, _, _, _ => rfl
  | j :: l, v, w, m, h => by
    rw [List.foldl_cons, List.foldl_cons, h j (by simp)]
    exact foldl_put_congr d ds l v w _ (fun j' hj' => h j' (by simp [hj']))

theorem cmpLoop_spec {V W : Type} (f : V → W) (g : W → V) (reset : List W → List W)
    (hreset : ∀ b, (reset b).length = b.length) (d ds s ss : Int) (n : Nat)
    (hov : ∀ i j : Nat, i < j → j < n → d + (i : Int) * ds ≠ s + (j : Int) * ss) (m0 : VMem V) :
    ∀ (fuel count prev k : Nat) (buf : List W), buf.length = composeChunk → count ≤ fuel → k + prev + count = n →
      cmpLoop f g reset fuel count prev (d + (k : Int) * ds) ds (s + (k : Int) * ss) ss buf
        ((List.range (k + prev)).foldl (fun m (j : Nat) => m.put (d + (j : Int) * ds) (g (f (m0 (s + (j : Int) * ss))))) m0) =
      .ok ((List.range n).foldl (fun m (j : Nat) => m.put (d + (j : Int) * ds) (g (f (m0 (s + (j : Int) * ss))))) m0)
  | 0, count, prev, k, buf, hb, hf, hn => by
    have h0 : count = 0 := by omega
    subst h0
    rw [Nat.add_zero] at hn
    simp only [cmpLoop, if_true, hn]
  | fuel + 1, count, prev, k, buf, hb, hf, hn => by
    rw [cmpLoop]
    by_cases h0 : count = 0
    · subst h0
      rw [Nat.add_zero] at hn
      rw [if_pos rfl, hn]
    · rw [if_neg h0]
      have e1 : s + (k : Int) * ss + (prev : Int) * ss = s + ((k + prev : Nat) : Int) * ss := by push_cast; ring
      have e2 : d + (k : Int) * ds + (prev : Int) * ds = d + ((k + prev : Nat) : Int) * ds := by push_cast; ring
      simp only [e1, e2]
      have hc : min count composeChunk ≤ (reset buf).length := by rw [hreset, hb]; exact Nat.min_le_right _ _
      obtain ⟨buf', hl, hstep⟩ := composeStep_spec f g (min count composeChunk) (k + prev) d ds s ss (reset buf)
        ((List.range (k + prev)).foldl (fun m (j : Nat) => m.put (d + (j : Int) * ds) (g (f (m0 (s + (j : Int) * ss))))) m0) hc
      rw [hstep, Res.bind_ok]
      have hsrc : ∀ j ∈ List.range' (k + prev) (min count composeChunk),
          g (f ((List.range (k + prev)).foldl
            (fun m (j : Nat) => m.put (d + (j : Int) * ds) (g (f (m0 (s + (j : Int) * ss))))) m0 (s + (j : Int) * ss))) =
          g (f (m0 (s + (j : Int) * ss))) := by
        intro j hj
        obtain ⟨hj1, hj2⟩ := List.mem_range'_1.1 hj
        rw [foldl_put_other]
        intro i hi
        have := List.mem_range.1 hi
        exact fun h => hov i j (by omega) (by omega) h.symm
      rw [foldl_put_congr d ds _ _ _ _ hsrc, ← List.foldl_append]
      have hr : List.range (k + prev) ++ List.range' (k + prev) (min count composeChunk) =
          List.range (k + prev + min count composeChunk) := by
        rw [List.range_eq_range', List.range_eq_range']
        have := List.range'_append (s := 0) (m := k + prev) (n := min count composeChunk) (step := 1)
        simpa using this
      rw [hr]
      exact cmpLoop_spec f g reset hreset d ds s ss n hov m0 fuel (count - min count composeChunk)
        (min count composeChunk) (k + prev) buf' (by rw [hl, hreset, hb]) (by
          have : 0 < min count composeChunk := by
            have : 0 < composeChunk := by decide
            omega
          omega) (by omega)

/-- Evaluating a composed callable on any number of elements: element `i` of the destination gets `g (f x)` of element
    `i` of the source, whatever the strides, as long as no element is read from a place already written as a result. -/
theorem compose_mem_exact {V W : Type} (f : V → W) (g : W → V) (reset : List W → List W)
    (hreset : ∀ b, (reset b).length = b.length) (buf : List W) (hb : buf.length = 128) (n : Nat) (d ds s ss : Int)
    (m : VMem V) (hov : ∀ i j : Nat, i < j → j < n → d + (i : Int) * ds ≠ s + (j : Int) * ss) :
    composeInMem f g reset buf n d ds s ss m = .ok (writeAll n d ds (fun i => g (f (m (s + (i : Int) * ss)))) m) := by
  obtain ⟨buf', hl, hstep⟩ := composeStep_spec f g (min n composeChunk) 0 d ds s ss buf m
    (by rw [hb]; exact Nat.min_le_right _ _)
  simp only [Nat.cast_zero, zero_mul, add_zero] at hstep
  simp only [composeInMem, hstep, Res.bind_ok]
  have := cmpLoop_spec f g reset hreset d ds s ss n hov m n (n - min n composeChunk) (min n composeChunk) 0 buf'
    (by rw [hl, hb]; rfl) (by omega) (by omega)
  simp only [Nat.cast_zero, zero_mul, add_zero, Nat.zero_add] at this
  rw [← List.range_eq_range']
  exact this

theorem writeAll_get {V : Type} (n : Nat) (d ds : Int) (v : Nat → V) (m : VMem V) (hds : ds ≠ 0) :
    (∀ i : Nat, i < n → writeAll n d ds v m (d + (i : Int) * ds) = v i) ∧
    (∀ a, (∀ i : Nat, i < n → a ≠ d + (i : Int) * ds) → writeAll n d ds v m a = m a) := by
  constructor
  · induction n with
    | zero => intro i hi; omega
    | succ n ih =>
      intro i hi
      unfold writeAll at ih ⊢
      rw [List.range_succ, List.foldl_append, List.foldl_cons, List.foldl_nil]
      by_cases h : i = n
      · subst h; rw [if_pos rfl]
      · rw [if_neg ?_]
        · exact ih i (by omega)
        · intro he
          have : ((i : Int) - n) * ds = 0 := by linarith
          rcases mul_eq_zero.1 this with h' | h'
          · omega
          · exact hds h'
  · intro a ha
    exact foldl_put_other d ds v a (List.range n) m (fun j hj => ha j (List.mem_range.1 hj))

/-- Source and destination apart, destination elements apart: every element of the destination is the composition
    applied to the corresponding source element, and nothing else in memory changes. -/
theorem compose_mem_elements {V W : Type} (f : V → W) (g : W → V) (reset : List W → List W)
    (hreset : ∀ b, (reset b).length = b.length) (buf : List W) (hb : buf.length = 128) (n : Nat) (d ds s ss : Int)
    (m : VMem V) (hds : ds ≠ 0) (hov : ∀ i j : Nat, i < n → j < n → d + (i : Int) * ds ≠ s + (j : Int) * ss) :
    ∃ m', composeInMem f g reset buf n d ds s ss m = .ok m' ∧
      (∀ i : Nat, i < n → m' (d + (i : Int) * ds) = g (f (m (s + (i : Int) * ss)))) ∧
      (∀ a, (∀ i : Nat, i < n → a ≠ d + (i : Int) * ds) → m' a = m a) :=
  ⟨_, compose_mem_exact f g reset hreset buf hb n d ds s ss m (fun i j h1 h2 => hov i j (by omega) h2),
    writeAll_get n d ds _ m hds⟩

/-- In place: the composition may overwrite its own argument. -/
theorem compose_in_place {V W : Type} (f : V → W) (g : W → V) (reset : List W → List W)
    (hreset : ∀ b, (reset b).length = b.length) (buf : List W) (hb : buf.length = 128) (n : Nat) (d ds : Int)
    (m : VMem V) (hds : ds ≠ 0) :
    ∃ m', composeInMem f g reset buf n d ds d ds m = .ok m' ∧
      ∀ i : Nat, i < n → m' (d + (i : Int) * ds) = g (f (m (d + (i : Int) * ds))) := by
  refine ⟨_, compose_mem_exact f g reset hreset buf hb n d ds d ds m ?_, (writeAll_get n d ds _ m hds).1⟩
  intro i j h1 h2 he
  have : ((i : Int) - j) * ds = 0 := by linarith
  rcases mul_eq_zero.1 this with h' | h'
  · omega
  · exact hds h'

/-- What can be composed. -/
theorem compose_accepts (narg1 narg2 : Nat) (noBuffer : Bool) :
    composeMake narg1 narg2 noBuffer = .ok () ↔ narg1 = 1 ∧ narg2 = 1 ∧ noBuffer = false := by
  unfold composeMake
  by_cases h1 : narg1 = 1 <;> by_cases h2 : narg2 = 1 <;> cases noBuffer <;> simp [h1, h2]

example : ∃ m', composeInMem (fun x : Int => 2 * x) (fun y => y + 1) (fun b => b) (List.replicate 128 0) 1000 5000 1 0 1
    (fun a => a) = .ok m' ∧ m' 5999 = 1999 ∧ m' 6000 = 6000 := by
  obtain ⟨m', h1, h2, h3⟩ := compose_mem_elements (fun x : Int => 2 * x) (fun y => y + 1) (fun b => b) (fun _ => rfl)
    (List.replicate 128 0) (by simp) 1000 5000 1 0 1 (fun a => a) (by decide) (by intro i j _ _; omega)
  exact ⟨m', h1, by simpa using h2 999 (by decide), h3 6000 (by intro i hi; omega)⟩

/-! ## where, and the index given to the child -/

theorem indexLoop_spec (body : List Nat → Int → List Nat × List (List Nat × Int)) (k : Nat) (st : Int) (L : Nat)
    (G : List (List Nat)) (off : List Nat → Int) (hk : k < L)
    (hbody : ∀ (idx : List Nat) (s : Int), idx.length = L → (body idx s).1.length = L ∧
      (body idx s).1.take (k + 1) = idx.take (k + 1) ∧
      (body idx s).2 = G.map fun js => (idx.take (k + 1) ++ js, s + off js)) :
    ∀ (c i : Nat) (idx : List Nat) (s : Int), idx.length = L →
      (indexLoop body k st c i idx s).1.length = L ∧
      (indexLoop body k st c i idx s).1.take k = idx.take k ∧
      (indexLoop body k st c i idx s).2 = (List.range' i c).flatMap fun j : Nat =>
        G.map fun js => (idx.take k ++ j :: js, s + ((j : Int) - i) * st + off js)
  | 0, i, idx, s, h => by
    refine ⟨by simp [indexLoop, h], ?_, rfl⟩
    simp [indexLoop, List.take_set_of_le]
  | c + 1, i, idx, s, h => by
    have htk : (idx.set k i).take (k + 1) = idx.take k ++ [i] := by
      rw [List.take_succ, List.take_set_of_le (Nat.le_refl k), List.getElem?_set_self (by omega)]
      rfl
    obtain ⟨b1, b2, b3⟩ := hbody (idx.set k i) s (by simp [h])
    obtain ⟨l1, l2, l3⟩ := indexLoop_spec body k st L G off hk hbody c (i + 1) (body (idx.set k i) s).1 (s + st) b1
    have htk2 : (body (idx.set k i) s).1.take k = idx.take k := by
      have := congrArg (List.take k) b2
      rw [List.take_take, List.take_take, Nat.min_eq_left (by omega), List.take_set_of_le (Nat.le_refl k)] at this
      exact this
    simp only [indexLoop]
    refine ⟨l1, by rw [l2, htk2], ?_⟩
    rw [b3, l3, htk2, htk, List.range'_succ, List.flatMap_cons]
    congr 1
    · apply List.map_congr_left
      intro js _
      simp
    · apply List.flatMap_congr
      intro j _
      apply List.map_congr_left
      intro js _
      rw [Prod.mk.injEq]
      refine ⟨rfl, ?_⟩
      push_cast
      ring

theorem indexRun_spec : ∀ (ls : List (Nat × Int)) (k : Nat) (idx : List Nat) (s : Int), k + ls.length = idx.length →
    (indexRun ls k idx s).1.length = idx.length ∧ (indexRun ls k idx s).1.take k = idx.take k ∧
    (indexRun ls k idx s).2 = (gridIdx (ls.map (·.1))).map fun js => (idx.take k ++ js, s + dstOff (ls.map (·.2)) js)
  | [], k, idx, s, h => by
    simp only [indexRun, List.map_nil, gridIdx, List.map_cons, dstOff, List.zipWith_nil_left, List.sum_nil,
      Int.add_zero, List.append_nil, true_and]
    simp only [List.length_nil, Nat.add_zero] at h
    rw [List.take_of_length_le (by omega)]
  | (n, st) :: ls, k, idx, s, h => by
    simp only [List.length_cons] at h
    have := indexLoop_spec (indexRun ls (k + 1)) k st idx.length (gridIdx (ls.map (·.1))) (dstOff (ls.map (·.2)))
      (by omega) (fun idx' s' h' => by
        obtain ⟨h1, h2, h3⟩ := indexRun_spec ls (k + 1) idx' s' (by omega)
        exact ⟨by omega, h2, h3⟩) n 0 idx s rfl
    obtain ⟨h1, h2, h3⟩ := this
    refine ⟨h1, h2, ?_⟩
    rw [indexRun, h3]
    simp only [List.map_cons, gridIdx, List.map_flatMap, List.map_map]
    rw [← List.range_eq_range']
    apply List.flatMap_congr
    intro j _
    apply List.map_congr_left
    intro js _
    simp only [Function.comp_apply, dstOff_cons, Prod.mk.injEq, true_and]
    push_cast
    ring

theorem ignoreInst_ones : ∀ (sh : List Nat) (st : Int) (rest : Dims), (∀ n ∈ sh, n = 1) →
    ignoreInst sh ((1, st) :: rest) = .ok (List.replicate sh.length (1, 0))
  | [], _, _, _ => rfl
  | n :: sh, st, rest, h => by
    have hn : n = 1 := h n (by simp)
    rw [ignoreInst, if_pos hn, ignoreInst_ones sh st rest (fun x hx => h x (by simp [hx]))]
    rfl

/-- The levels have the argument's sizes; dimensions of size 1 have stride 0. -/
theorem ignoreInst_spec : ∀ (arg : Dims), TailOnes arg →
    ignoreInst (arg.map (·.1)) arg = .ok (arg.map fun x => if x.1 = 1 then (1, 0) else x)
  | [], _ => rfl
  | (n, st) :: arg, h => by
    simp only [TailOnes, List.map_cons, List.pairwise_cons] at h
    rw [List.map_cons, ignoreInst]
    by_cases hn : n = 1
    · subst hn
      rw [if_pos rfl]
      have hall : ∀ x ∈ arg.map (·.1), x = 1 := fun x hx => h.1 x hx rfl
      rw [ignoreInst_ones _ _ _ hall, Res.bind_ok, Res.pure_eq]
      congr 1
      simp only [List.map_cons, if_true, List.length_map]
      congr 1
      symm
      rw [List.eq_replicate_iff]
      refine ⟨by simp, ?_⟩
      intro b hb
      obtain ⟨x, hx, rfl⟩ := List.mem_map.1 hb
      rw [if_pos (hall x.1 (List.mem_map_of_mem hx))]
    · rw [if_neg hn, ignoreInst_spec arg h.2, Res.bind_ok, Res.pure_eq, List.map_cons, if_neg hn]

theorem dstOff_ones : ∀ (arg : Dims) (idx : List Nat), idx ∈ gridIdx (arg.map (·.1)) →
    dstOff ((arg.map fun x => if x.1 = 1 then ((1, 0) : Nat × Int) else x).map (·.2)) idx = dstOff (arg.map (·.2)) idx
  | [], _, _ => rfl
  | (n, st) :: arg, idx, h => by
    simp only [List.map_cons, gridIdx, List.mem_flatMap, List.mem_range, List.mem_map] at h
    obtain ⟨j, hj, js, hjs, rfl⟩ := h
    simp only [List.map_cons, dstOff_cons]
    rw [dstOff_ones arg js hjs]
    by_cases hn : n = 1
    · subst hn
      have : j = 0 := by omega
      subst this
      simp
    · rw [if_neg hn]

/-- A function that asks for its position, applied elementwise to an array with fixed dimensions: it is called once
    for every element, in row-major order, and is told the element's index. -/
theorem index_exact (arg : Dims) (h : TailOnes arg) :
    indexApply arg = .ok ((gridIdx (arg.map (·.1))).map fun idx => (idx, dstOff (arg.map (·.2)) idx)) := by
  unfold indexApply
  rw [ignoreInst_spec arg h, Res.bind_ok, Res.pure_eq]
  congr 1
  have h3 := (indexRun_spec (arg.map fun x : Nat × Int => if x.1 = 1 then ((1, 0) : Nat × Int) else x) 0
    (List.replicate arg.length 0) 0 (by simp)).2.2
  rw [h3]
  have e : (arg.map fun x => if x.1 = 1 then ((1, 0) : Nat × Int) else x).map (·.1) = arg.map (·.1) := by
    rw [List.map_map]
    apply List.map_congr_left
    intro x _
    by_cases hx : x.1 = 1 <;> simp [hx]
  rw [e]
  apply List.map_congr_left
  intro idx hidx
  rw [dstOff_ones arg idx hidx]
  simp

/-- A dimension of size 1 before a larger one: only the first element is visited. -/
theorem index_leading_one_violated (a b : Int) (n : Nat) (hn : n ≠ 1) :
    indexApply [(1, a), (n, b)] = .ok [([0, 0], 0)] := by
  simp [indexApply, ignoreInst, hn, indexRun, indexLoop]

theorem whereCalls_spec (fresh : Nat) (p : Int → Bool) : ∀ (calls : List (List Nat × Int)) (dst : WhereDst),
    (∀ c ∈ calls, c.1 ≠ []) → dst.size = dst.data.length → (dst.size = 0 ∨ dst.capacity = dst.size) →
    ∃ cap, whereCalls fresh p calls dst = .ok
      { size := dst.size + (calls.filter fun c => p c.2).length,
        data := dst.data ++ (calls.filter fun c => p c.2).map fun c => c.1.headD 0, capacity := cap }
  | [], dst, _, _, _ => ⟨dst.capacity, by simp [whereCalls]⟩
  | c :: calls, dst, hc, hs, hcap => by
    rw [whereCalls]
    by_cases hp : p c.2 = true
    · obtain ⟨i, rest, hi⟩ : ∃ i rest, c.1 = i :: rest := by
        cases h : c.1 with
        | nil => exact absurd h (hc c (by simp))
        | cons i rest => exact ⟨i, rest, rfl⟩
      have hstep : whereSingle fresh p dst c =
          .ok { size := dst.size + 1, data := dst.data ++ [i], capacity := dst.size + 1 } := by
        unfold whereSingle
        rw [if_pos hp]
        simp only [hi]
        by_cases h0 : dst.size = 0
        · have hd : dst.data = [] := by
            rw [h0] at hs; exact List.length_eq_zero_iff.1 hs.symm
          simp [h0, hd]
        · have hcc : dst.size = dst.capacity := by
            rcases hcap with h | h
            · exact absurd h h0
            · exact h.symm
          rw [if_neg h0, if_pos hcc]
          have e1 : List.take (dst.size + 1) dst.data = dst.data := List.take_of_length_le (by omega)
          have e2 : dst.size + 1 - dst.data.length = 1 := by omega
          simp only [e1, e2]
          rw [if_pos (by simp; omega), List.set_append_right _ _ (by omega), hs]
          simp
      rw [hstep, Res.bind_ok]
      obtain ⟨cap, h⟩ := whereCalls_spec fresh p calls
        { size := dst.size + 1, data := dst.data ++ [i], capacity := dst.size + 1 }
        (fun c' hc' => hc c' (by simp [hc'])) (by simp [hs]) (Or.inr rfl)
      refine ⟨cap, ?_⟩
      rw [h, List.filter_cons_of_pos (by simpa using hp)]
      simp [hi, Nat.add_assoc, Nat.add_comm 1]
    · have hstep : whereSingle fresh p dst c = .ok dst := by
        unfold whereSingle; rw [if_neg hp]
      rw [hstep, Res.bind_ok]
      obtain ⟨cap, h⟩ := whereCalls_spec fresh p calls dst (fun c' hc' => hc c' (by simp [hc'])) hs hcap
      exact ⟨cap, by rw [h, List.filter_cons_of_neg (by simpa using hp)]⟩

/-- `where(f)(a)` for an array with fixed dimensions: the leading indices of the elements satisfying `f`, in
    row-major order. -/
theorem where_exact_partial (fresh : Nat) (p : Int → Bool) (arg : Dims) (h : TailOnes arg) (hne : arg ≠ []) :
    whereApply fresh p arg = .ok (((gridIdx (arg.map (·.1))).filter fun idx => p (dstOff (arg.map (·.2)) idx)).map
      fun idx => idx.headD 0) := by
  have hc : ∀ c ∈ (gridIdx (arg.map (·.1))).map fun idx => (idx, dstOff (arg.map (·.2)) idx), c.1 ≠ [] := by
    intro c hc
    obtain ⟨idx, hidx, rfl⟩ := List.mem_map.1 hc
    have := ((mem_gridIdx _ _).1 hidx).1
    intro h0
    have h0' : idx = [] := h0
    subst h0'
    simp only [List.length_nil, List.length_map] at this
    exact hne (List.length_eq_zero_iff.1 this.symm)
  obtain ⟨cap, hw⟩ := whereCalls_spec fresh p _ { size := ([] : List Nat).length, data := [], capacity := 0 } hc rfl
    (Or.inl rfl)
  simp only [whereApply, whereTo, index_exact arg h, Res.bind_ok, hw, Res.pure_eq]
  congr 1
  simp only [List.length_nil, Nat.zero_add, List.nil_append]
  rw [List.take_of_length_le (by simp), List.filter_map, List.map_map]
  rfl

/-- One dimension: exactly the positions of the elements satisfying `f`, in order. -/
theorem where_one_dim (fresh : Nat) (p : Int → Bool) (n : Nat) (st : Int) :
    whereApply fresh p [(n, st)] = .ok ((List.range n).filter fun i => p ((i : Int) * st)) := by
  rw [where_exact_partial fresh p [(n, st)] (by simp [TailOnes]) (by simp)]
  congr 1
  have e : gridIdx [n] = (List.range n).map fun j => [j] := by
    simp only [gridIdx, List.map_cons, List.map_nil]
    exact List.map_eq_flatMap.symm
  simp only [List.map_cons, List.map_nil, e, List.filter_map, List.map_map]
  have : ((fun idx => p (dstOff [st] idx)) ∘ fun j : Nat => [j]) = fun i : Nat => p ((i : Int) * st) := by
    funext i; simp [dstOff]
  rw [this]
  have h2 : ((fun idx : List Nat => idx.headD 0) ∘ fun j : Nat => [j]) = id := by funext i; rfl
  rw [h2, List.map_id]

/-- Two dimensions: the result cannot tell the elements of a row apart. -/
theorem where_two_dims_violated :
    whereApply 0 (fun a => decide (a = 0)) [(2, 16), (2, 8)] = whereApply 0 (fun a => decide (a = 8)) [(2, 16), (2, 8)] := by
  decide +kernel

/-- A scalar that satisfies `f`: the index of a dimension that does not exist is read. -/
theorem where_scalar_violated (fresh : Nat) (p : Int → Bool) (h : p 0 = true) : whereApply fresh p [] = .ub := by
  simp [whereApply, whereTo, indexApply, ignoreInst, indexRun, whereCalls, whereSingle, h]

/-- A destination that already holds elements: the first match is written past the end of its memory. -/
theorem where_given_violated (fresh : Nat) (p : Int → Bool) (old : List Nat) (hold : old ≠ []) (n : Nat) (st : Int)
    (hp : p 0 = true) (hn : 0 < n) : whereTo fresh p old [(n, st)] = .ub := by
  obtain ⟨n, rfl⟩ : ∃ k, n = k + 1 := ⟨n - 1, by omega⟩
  have hl : old.length ≠ 0 := fun h => hold (List.length_eq_zero_iff.1 h)
  rw [whereTo, index_exact [(n + 1, st)] (by simp [TailOnes]), Res.bind_ok]
  have e : ∃ rest, (gridIdx ([(n + 1, st)].map (·.1))).map (fun idx => (idx, dstOff ([(n + 1, st)].map (·.2)) idx)) =
      ([0], 0) :: rest := by
    refine ⟨((gridIdx [n + 1]).map (fun idx => (idx, dstOff [st] idx))).tail, ?_⟩
    simp [gridIdx, List.range_succ_eq_map, dstOff]
  obtain ⟨rest, e⟩ := e
  rw [e, whereCalls]
  have : whereSingle fresh p { size := old.length, data := old, capacity := 0 } ([0], 0) = .ub := by
    simp [whereSingle, hp, hl]
  rw [this]
  rfl

example : whereApply 7 (fun a => decide (a = 0 ∨ a = 16 ∨ a = 24)) [(5, 8)] = .ok [0, 2, 3] := by decide +kernel

end Dynd
