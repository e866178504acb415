/-
C123: reductions of arrays whose last dimension is `var`, below any number of fixed dimensions.
-/
import Verif.Props.ReduceBytes
import Mathlib.Tactic.Ring

namespace Dynd

/-- the addresses of the elements of the `var` dimension at `s` -/
def rowAddrs (vd : VarData) (st : Int) (s : Int) : List Int :=
  (List.range (vd s).2).map fun j : Nat => (vd s).1 + (j : Int) * st

/-- the accumulations -/
def eRows (vd : VarData) (st : Int) (ks : List RLevel) (d s : Int) : List (Int × Int) :=
  (eList ks d s).flatMap fun p => (rowAddrs vd st p.2).map fun a => (p.1, a)

theorem eRows_cons (vd : VarData) (st : Int) (k : RLevel) (ks : List RLevel) (d s : Int) :
    eRows vd st (k :: ks) d s =
      (List.range k.size).flatMap fun j : Nat => eRows vd st ks (d + (j : Int) * k.ds) (s + (j : Int) * k.src) := by
  simp only [eRows, eList, List.flatMap_assoc]

theorem eRows_sub (vd : VarData) (st : Int) (ks : List RLevel) (d s : Int) : ∀ p ∈ eRows vd st ks d s, p.1 ∈ dList ks d := by
  intro p hp
  obtain ⟨q, hq, hp⟩ := List.mem_flatMap.1 hp
  obtain ⟨a, _, rfl⟩ := List.mem_map.1 hp
  exact eList_sub ks d s q hq

theorem accs_rowAddrs (vd : VarData) (st : Int) (d s : Int) :
    accsOf (leafAcc (vd s).2 d 0 (vd s).1 st) = eRows vd st [] d s := by
  rw [leafAcc_eq, accsOf_mapacc]
  simp [eRows, eList, rowAddrs]

theorem vFollow_spec (vd : VarData) (st : Int) : ∀ (ks : List RLevel) (d ds s ss : Int) (n : Nat),
    accsOf (vFollow vd st ks d ds s ss n) =
      ((List.range n).flatMap fun j : Nat => eRows vd st ks (d + (j : Int) * ds) (s + (j : Int) * ss)) ∧
    initsOf (vFollow vd st ks d ds s ss n) = []
  | [], d, ds, s, ss, n => by
    rw [vFollow, redVarFollow, rLoop_eq, accsOf_flatMap, initsOf_flatMap]
    simp only [accs_rowAddrs, inits_leaf]
    simp
  | k :: ks, d, ds, s, ss, n => by
    rw [vFollow, rLoop_eq, accsOf_flatMap, initsOf_flatMap]
    have ih := fun d ds s ss n => vFollow_spec vd st ks d ds s ss n
    simp only [(ih _ _ _ _ _).1, (ih _ _ _ _ _).2]
    refine ⟨?_, by simp⟩
    simp only [eRows_cons]

/-- Levels above a `var` dimension on which the kernels behave. -/
def GoodRows (ks : List RLevel) : Prop := ∀ k ∈ ks, (k.bc = true → k.dst ≠ 0) ∧ (k.bc = false → 1 ≤ k.size)

/-- What a first pass must do. -/
def RowsOK (vd : VarData) (st : Int) (ks : List RLevel) (d s : Int) (l : List REv) : Prop :=
  accsOf l = eRows vd st ks d s ∧ initsOf l = dList ks d ∧ WellInit [] l

theorem rows_first (vd : VarData) (st : Int) (d s : Int) : RowsOK vd st [] d s (redVarFirst vd st d s) := by
  refine ⟨?_, ?_, ?_⟩
  · rw [redVarFirst, accsOf, accs_rowAddrs]
  · rw [redVarFirst, initsOf, inits_leaf]; rfl
  · show WellInit [d] _
    apply wellInit_accs (inits_leaf _ _ _ _ _)
    rw [accs_rowAddrs]
    intro p hp
    exact eRows_sub vd st [] d s p hp

theorem rows_loop (vd : VarData) (st : Int) (ks : List RLevel) (L : List (List REv)) (n : Nat) (hl : L.length = n)
    (d ds s ss : Int)
    (hL : ∀ (j : Nat) l, L[j]? = some l → RowsOK vd st ks (d + (j : Int) * ds) (s + (j : Int) * ss) l) :
    accsOf L.flatten = ((List.range n).flatMap fun j : Nat => eRows vd st ks (d + (j : Int) * ds) (s + (j : Int) * ss)) ∧
    initsOf L.flatten = ((List.range n).flatMap fun j : Nat => dList ks (d + (j : Int) * ds)) ∧
    WellInit [] L.flatten := by
  have h1 : L.map accsOf = (List.range n).map fun j : Nat => eRows vd st ks (d + (j : Int) * ds) (s + (j : Int) * ss) := by
    apply List.ext_getElem?
    intro j
    rw [List.getElem?_map, List.getElem?_map]
    by_cases hj : j < n
    · rw [List.getElem?_eq_getElem (by omega), List.getElem?_range hj]
      have := (hL j _ (List.getElem?_eq_getElem (by omega))).1
      simp [this]
    · rw [List.getElem?_eq_none (by omega), List.getElem?_eq_none (by simp; omega)]; rfl
  have h2 : L.map initsOf = (List.range n).map fun j : Nat => dList ks (d + (j : Int) * ds) := by
    apply List.ext_getElem?
    intro j
    rw [List.getElem?_map, List.getElem?_map]
    by_cases hj : j < n
    · rw [List.getElem?_eq_getElem (by omega), List.getElem?_range hj]
      have := (hL j _ (List.getElem?_eq_getElem (by omega))).2.1
      simp [this]
    · rw [List.getElem?_eq_none (by omega), List.getElem?_eq_none (by simp; omega)]; rfl
  refine ⟨by rw [accsOf_flatten, h1]; rfl, by rw [initsOf_flatten, h2]; rfl, ?_⟩
  have : ∀ (L : List (List REv)) (S : List Int), (∀ l ∈ L, WellInit [] l) → WellInit S L.flatten := by
    intro L
    induction L with
    | nil => intro S _; trivial
    | cons x L ih =>
      intro S h
      rw [List.flatten_cons]
      exact WellInit.append ((h x (by simp)).mono (by simp)) (ih _ (fun l hl => h l (by simp [hl])))
  apply this
  intro l hl
  obtain ⟨j, hj⟩ := List.getElem?_of_mem hl
  exact (hL j l hj).2.2

theorem rows_spec (vd : VarData) (st : Int) : ∀ (ks : List RLevel), GoodRows ks →
    (∀ d s, ∃ l, vFirst vd st ks d s = .ok l ∧ RowsOK vd st ks d s l) ∧
    (∀ d ds s ss n, ds ≠ 0 → ∃ l, vFirstStr vd st ks d ds s ss n = .ok l ∧
      accsOf l = ((List.range n).flatMap fun j : Nat => eRows vd st ks (d + (j : Int) * ds) (s + (j : Int) * ss)) ∧
      initsOf l = ((List.range n).flatMap fun j : Nat => dList ks (d + (j : Int) * ds)) ∧ WellInit [] l)
  | [], _ => by
    refine ⟨fun d s => ⟨_, by rw [vFirst], rows_first vd st d s⟩, ?_⟩
    intro d ds s ss n _
    obtain ⟨L, hl, e, hL⟩ := rLoopR_ok (body := fun d s => .ok (redVarFirst vd st d s)) (ds := ds) (ss := ss)
      (P := RowsOK vd st []) (fun d s => ⟨_, rfl, rows_first vd st d s⟩) n d s
    refine ⟨L.flatten, ?_, rows_loop vd st [] L n hl d ds s ss hL⟩
    rw [vFirstStr, ← e, redVarFirstStr]
    have : ∀ (n : Nat) (d s : Int), rLoopR (fun d s => Res.ok (redVarFirst vd st d s)) ds ss n d s =
        .ok (rLoop (fun d s => redVarFirst vd st d s) ds ss n d s) := by
      intro n
      induction n with
      | zero => intro _ _; rfl
      | succ n ih => intro d s; rw [rLoopR, rLoop, ih]; rfl
    rw [this]
  | k :: ks, hg => by
    obtain ⟨hg1, hg2⟩ := hg k (by simp)
    obtain ⟨ih1, ih2⟩ := rows_spec vd st ks (fun x hx => hg x (by simp [hx]))
    have hone : ∀ d s, ∃ l, vFirst vd st (k :: ks) d s = .ok l ∧ RowsOK vd st (k :: ks) d s l := by
      intro d s
      cases hb : k.bc
      · obtain ⟨a, ea, ha1, ha2, ha3⟩ := ih1 d s
        have hn := hg2 hb
        have hds : k.ds = 0 := by simp [RLevel.ds, hb]
        refine ⟨a ++ (if k.size > 1 then vFollow vd st ks d 0 (s + k.src) k.src (k.size - 1) else []), ?_, ?_⟩
        · rw [vFirst, hb]
          simp only [Bool.false_eq_true, if_false]
          rw [ea, Res.bind_ok]
          split <;> simp
        · have hacc : accsOf (if k.size > 1 then vFollow vd st ks d 0 (s + k.src) k.src (k.size - 1) else []) =
              (List.range (k.size - 1)).flatMap fun j : Nat => eRows vd st ks d (s + ((j + 1 : Nat) : Int) * k.src) := by
            split
            · rw [(vFollow_spec vd st ks _ _ _ _ _).1]
              congr 1; funext j
              congr 1
              · ring
              · push_cast; ring
            · have : k.size - 1 = 0 := by omega
              rw [this]; rfl
          have hini : initsOf (if k.size > 1 then vFollow vd st ks d 0 (s + k.src) k.src (k.size - 1) else []) = [] := by
            split
            · exact (vFollow_spec vd st ks _ _ _ _ _).2
            · rfl
          refine ⟨?_, ?_, ?_⟩
          · rw [accsOf_append, hacc, ha1, eRows_cons]
            obtain ⟨m, hm⟩ : ∃ m, k.size = m + 1 := ⟨k.size - 1, by omega⟩
            rw [hm, List.range_succ_eq_map, List.flatMap_cons, List.flatMap_map, hds]
            simp
          · rw [initsOf_append, hini, ha2, List.append_nil]
            rw [dList.eq_2 d k ks, hb]; rfl
          · apply WellInit.append ha3
            apply wellInit_accs hini
            rw [hacc, ha2]
            intro p hp
            obtain ⟨j, _, hp⟩ := List.mem_flatMap.1 hp
            rw [List.append_nil]
            exact eRows_sub vd st _ _ _ p hp
      · obtain ⟨l, e, h1, h2, h3⟩ := ih2 d k.dst s k.src k.size (hg1 hb)
        have hds : k.ds = k.dst := by simp [RLevel.ds, hb]
        refine ⟨l, ?_, ?_, ?_, h3⟩
        · rw [vFirst, hb]; exact e
        · rw [h1, eRows_cons, hds]
        · rw [h2, dList.eq_2 d k ks, hb]; rfl
    refine ⟨hone, ?_⟩
    intro d ds s ss n hds
    obtain ⟨L, hl, e, hL⟩ := rLoopR_ok (body := fun d s => vFirst vd st (k :: ks) d s) (ds := ds) (ss := ss)
      (P := RowsOK vd st (k :: ks)) hone n d s
    refine ⟨L.flatten, ?_, rows_loop vd st (k :: ks) L n hl d ds s ss hL⟩
    rw [← e, vFirstStr]
    cases hb : k.bc
    · simp only [Bool.false_eq_true, if_false, hds]
      congr 1
      funext d s
      rw [vFirst, hb]; rfl
    · simp only [if_true, hds, if_false]
      congr 1
      funext d s
      rw [vFirst, hb]; rfl

end Dynd
