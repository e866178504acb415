import Verif.Model.Reduction
import Verif.Props.ElwiseProps
import Mathlib.Data.List.Nodup
/-
C52: a reduction along axes is the fold of the elements along those axes; C68: reductions of ragged arrays.
-/
namespace Dynd

/-! ## Specification -/

/-- Which of `nd` dimensions are kept when reducing over `axes` (`none`: all of them). -/
def keptDims (axes : Option (List Int)) (nd : Nat) : List Bool :=
  (List.range nd).map fun k : Nat => match axes with
    | none => false
    | some l => decide ((k : Int) ∉ l)

/-- Shape of the result: the kept sizes, with 1 for a reduced dimension under `keepdims`. -/
def resultShape (keepdims : Bool) (kept : List Bool) (shape : List Nat) : List Nat :=
  if keepdims then List.zipWith (fun b n => if b then n else 1) kept shape
  else ((kept.zip shape).filter (·.1)).map (·.2)

/-- Where the element at index `idx` of the operand ends up: kept coordinates stay, reduced ones are dropped, or
    become 0 with `keepdims`. -/
def resultIdx (keepdims : Bool) (kept : List Bool) (idx : List Nat) : List Nat :=
  if keepdims then List.zipWith (fun b i => if b then i else 0) kept idx
  else ((kept.zip idx).filter (·.1)).map (·.2)

/-- `resultIdx` by recursion. -/
def outIdx (keepdims : Bool) : List Bool → List Nat → List Nat
  | b :: bs, i :: is =>
    if b then i :: outIdx keepdims bs is
    else if keepdims then 0 :: outIdx keepdims bs is
    else outIdx keepdims bs is
  | _, _ => []

/-- Row-major strides for elements of `es` bytes, as a newly allocated result has. -/
def rowMajor (es : Nat) : List Nat → List Int
  | [] => []
  | _ :: ns => ((es * ns.foldr (· * ·) 1 : Nat) : Int) :: rowMajor es ns

/-! ## Events -/

/-- The accumulations of a run. -/
def accsOf : List REv → List (Int × Int)
  | [] => []
  | .init _ :: l => accsOf l
  | .acc d s :: l => (d, s) :: accsOf l

/-- The initialisations of a run. -/
def initsOf : List REv → List Int
  | [] => []
  | .init d :: l => d :: initsOf l
  | .acc _ _ :: l => initsOf l

/-- Every accumulation is at an address initialised before, or in `S`. -/
def WellInit : List Int → List REv → Prop
  | _, [] => True
  | S, .init d :: l => WellInit (d :: S) l
  | S, .acc d _ :: l => d ∈ S ∧ WellInit S l

theorem accsOf_append (a b : List REv) : accsOf (a ++ b) = accsOf a ++ accsOf b := by
  induction a with
  | nil => rfl
  | cons x a ih => cases x <;> simp [accsOf, ih]

theorem initsOf_append (a b : List REv) : initsOf (a ++ b) = initsOf a ++ initsOf b := by
  induction a with
  | nil => rfl
  | cons x a ih => cases x <;> simp [initsOf, ih]

theorem WellInit.mono {l : List REv} : ∀ {S S' : List Int}, (∀ x ∈ S, x ∈ S') → WellInit S l → WellInit S' l := by
  induction l with
  | nil => intro _ _ _ _; trivial
  | cons x l ih =>
    intro S S' h hw
    cases x with
    | init d =>
      exact ih (fun y hy => by
        rcases List.mem_cons.1 hy with rfl | hy
        · simp
        · exact List.mem_cons_of_mem _ (h y hy)) hw
    | acc d s => exact ⟨h d hw.1, ih h hw.2⟩

theorem WellInit.append {b : List REv} : ∀ {a : List REv} {S : List Int}, WellInit S a →
    WellInit (initsOf a ++ S) b → WellInit S (a ++ b)
  | [], S, _, h => by simpa [initsOf] using h
  | .init d :: a, S, h1, h2 => by
    exact WellInit.append (a := a) h1 (h2.mono (by
      intro x hx
      simp only [initsOf, List.cons_append, List.mem_cons, List.mem_append] at hx ⊢
      tauto))
  | .acc d s :: a, S, h1, h2 => ⟨h1.1, WellInit.append (a := a) h1.2 h2⟩

theorem wellInit_accs {S : List Int} : ∀ {l : List REv}, initsOf l = [] → (∀ p ∈ accsOf l, p.1 ∈ S) → WellInit S l
  | [], _, _ => trivial
  | .init d :: l, h, _ => by simp [initsOf] at h
  | .acc d s :: l, h, h2 => ⟨h2 (d, s) (by simp [accsOf]), wellInit_accs (l := l) h (fun p hp => h2 p (by simp [accsOf, hp]))⟩

/-- Addresses that are never initialised. -/
theorem runEv_noinit {α β : Type} (op : α → β → α) (e : α) (src : Int → β) (a : Int) : ∀ (l : List REv) (mem : Int → α),
    a ∉ initsOf l →
    runEv op e src l mem a = ((accsOf l).filter fun p => decide (p.1 = a)).foldl (fun x p => op x (src p.2)) (mem a)
  | [], mem, _ => rfl
  | .init d :: l, mem, h => by
    simp only [initsOf, List.mem_cons, not_or] at h
    rw [runEv, runEv_noinit op e src a l _ h.2]
    simp [accsOf, h.1]
  | .acc d s :: l, mem, h => by
    rw [runEv, runEv_noinit op e src a l _ h]
    by_cases hd : d = a
    · simp [accsOf, hd]
    · simp [accsOf, hd, Ne.symm hd]

/-- Addresses that are initialised once, before anything is accumulated there. -/
theorem runEv_init {α β : Type} (op : α → β → α) (e : α) (src : Int → β) (a : Int) : ∀ (l : List REv) (mem : Int → α)
    (S : List Int), WellInit S l → a ∉ S → a ∈ initsOf l → (initsOf l).Nodup →
    runEv op e src l mem a = ((accsOf l).filter fun p => decide (p.1 = a)).foldl (fun x p => op x (src p.2)) e
  | [], mem, S, _, _, h, _ => by simp [initsOf] at h
  | .init d :: l, mem, S, hw, hS, hi, hn => by
    simp only [initsOf, List.nodup_cons] at hn
    by_cases hd : a = d
    · subst hd
      rw [runEv, runEv_noinit op e src a l _ hn.1]
      simp [accsOf]
    · have hi' : a ∈ initsOf l := by
        simp only [initsOf, List.mem_cons] at hi
        exact hi.resolve_left hd
      rw [runEv, runEv_init op e src a l _ (d :: S) hw (by simp [hd, hS]) hi' hn.2]
      simp [accsOf]
  | .acc d s :: l, mem, S, hw, hS, hi, hn => by
    have hd : d ≠ a := fun h => hS (h ▸ hw.1)
    rw [runEv, runEv_init op e src a l _ S hw.2 hS hi hn]
    simp [accsOf, hd]

/-! ## What the kernels do -/

/-- The accumulations of a reduction, in order. -/
def eList : List RLevel → Int → Int → List (Int × Int)
  | [], d, s => [(d, s)]
  | k :: ks, d, s => (List.range k.size).flatMap fun j : Nat => eList ks (d + (j : Int) * k.ds) (s + (j : Int) * k.src)

/-- The initialisations. -/
def dList : List RLevel → Int → List Int
  | [], d => [d]
  | k :: ks, d => if k.bc then (List.range k.size).flatMap fun j : Nat => dList ks (d + (j : Int) * k.dst) else dList ks d

theorem eList_sub : ∀ (ks : List RLevel) (d s : Int), ∀ p ∈ eList ks d s, p.1 ∈ dList ks d
  | [], d, s, p, h => by
    simp only [eList, List.mem_singleton] at h
    simp [dList, h]
  | k :: ks, d, s, p, h => by
    simp only [eList, List.mem_flatMap] at h
    obtain ⟨j, hj, hp⟩ := h
    have := eList_sub ks _ _ p hp
    cases hb : k.bc
    · simp only [RLevel.ds, hb, Bool.false_eq_true, if_false, Int.mul_zero, Int.add_zero] at this
      simpa [dList, hb] using this
    · simp only [RLevel.ds, hb, if_true] at this
      simp only [dList, hb, if_true, List.mem_flatMap]
      exact ⟨j, hj, this⟩

theorem rLoop_eq {body : Int → Int → List REv} {ds ss : Int} : ∀ (n : Nat) (d s : Int),
    rLoop body ds ss n d s = (List.range n).flatMap fun j : Nat => body (d + (j : Int) * ds) (s + (j : Int) * ss)
  | 0, _, _ => rfl
  | n + 1, d, s => by
    rw [rLoop, rLoop_eq n, List.range_succ_eq_map, List.flatMap_cons, List.flatMap_map]
    congr 1
    · simp
    · congr 1
      funext j
      congr 1 <;> push_cast <;> ring

theorem rLoopR_ok {body : Int → Int → Res (List REv)} {ds ss : Int} {P : Int → Int → List REv → Prop}
    (hb : ∀ d s, ∃ l, body d s = .ok l ∧ P d s l) : ∀ (n : Nat) (d s : Int),
    ∃ L : List (List REv), L.length = n ∧ rLoopR body ds ss n d s = .ok L.flatten ∧
      ∀ (j : Nat) l, L[j]? = some l → P (d + (j : Int) * ds) (s + (j : Int) * ss) l
  | 0, d, s => ⟨[], rfl, rfl, by simp⟩
  | n + 1, d, s => by
    obtain ⟨l, e, hp⟩ := hb d s
    obtain ⟨L, hl, e2, hL⟩ := rLoopR_ok hb n (d + ds) (s + ss)
    refine ⟨l :: L, by simp [hl], ?_, ?_⟩
    · rw [rLoopR, e, Res.bind_ok, e2, Res.bind_ok]; rfl
    · intro j l' hj
      cases j with
      | zero =>
        simp only [List.getElem?_cons_zero, Option.some.injEq] at hj
        subst hj
        simpa using hp
      | succ j =>
        have := hL j l' (by simpa using hj)
        have e1 : d + ds + (j : Int) * ds = d + ((j + 1 : Nat) : Int) * ds := by push_cast; ring
        have e2 : s + ss + (j : Int) * ss = s + ((j + 1 : Nat) : Int) * ss := by push_cast; ring
        rwa [e1, e2] at this

theorem leafAcc_eq : ∀ (n : Nat) (d ds s ss : Int),
    leafAcc n d ds s ss = (List.range n).map fun j : Nat => REv.acc (d + (j : Int) * ds) (s + (j : Int) * ss)
  | 0, _, _, _, _ => rfl
  | n + 1, d, ds, s, ss => by
    rw [leafAcc, leafAcc_eq n, List.range_succ_eq_map, List.map_cons, List.map_map]
    congr 1
    · simp
    · apply List.map_congr_left
      intro j _
      simp only [Function.comp]
      congr 1 <;> push_cast <;> ring

theorem leafInit_eq : ∀ (n : Nat) (d ds : Int),
    leafInit n d ds = (List.range n).map fun j : Nat => REv.init (d + (j : Int) * ds)
  | 0, _, _ => rfl
  | n + 1, d, ds => by
    rw [leafInit, leafInit_eq n, List.range_succ_eq_map, List.map_cons, List.map_map]
    congr 1
    · simp
    · apply List.map_congr_left
      intro j _
      simp only [Function.comp]
      congr 1; push_cast; ring

theorem accsOf_flatMap {ι : Type} (f : ι → List REv) : ∀ l : List ι, accsOf (l.flatMap f) = l.flatMap fun x => accsOf (f x)
  | [] => rfl
  | x :: l => by simp [accsOf_append, accsOf_flatMap f l]

theorem initsOf_flatMap {ι : Type} (f : ι → List REv) : ∀ l : List ι, initsOf (l.flatMap f) = l.flatMap fun x => initsOf (f x)
  | [] => rfl
  | x :: l => by simp [initsOf_append, initsOf_flatMap f l]

theorem accsOf_flatten : ∀ l : List (List REv), accsOf l.flatten = (l.map accsOf).flatten
  | [] => rfl
  | x :: l => by simp [accsOf_append, accsOf_flatten l]

theorem initsOf_flatten : ∀ l : List (List REv), initsOf l.flatten = (l.map initsOf).flatten
  | [] => rfl
  | x :: l => by simp [initsOf_append, initsOf_flatten l]

theorem accsOf_mapacc {ι : Type} (f g : ι → Int) : ∀ l : List ι,
    accsOf (l.map fun x => REv.acc (f x) (g x)) = l.map fun x => (f x, g x)
  | [] => rfl
  | x :: l => by simp [accsOf, accsOf_mapacc f g l]

theorem initsOf_mapacc {ι : Type} (f g : ι → Int) : ∀ l : List ι, initsOf (l.map fun x => REv.acc (f x) (g x)) = []
  | [] => rfl
  | x :: l => by simp [initsOf, initsOf_mapacc f g l]

theorem initsOf_mapinit {ι : Type} (f : ι → Int) : ∀ l : List ι, initsOf (l.map fun x => REv.init (f x)) = l.map f
  | [] => rfl
  | x :: l => by simp [initsOf, initsOf_mapinit f l]

theorem accsOf_mapinit {ι : Type} (f : ι → Int) : ∀ l : List ι, accsOf (l.map fun x => REv.init (f x)) = []
  | [] => rfl
  | x :: l => by simp [accsOf, accsOf_mapinit f l]

theorem accs_leaf (k : RLevel) (d s : Int) : accsOf (leafAcc k.size d k.ds s k.src) = eList [k] d s := by
  rw [leafAcc_eq, accsOf_mapacc]
  simp [eList, List.map_eq_flatMap]

theorem inits_leaf (n : Nat) (d ds s ss : Int) : initsOf (leafAcc n d ds s ss) = [] := by
  rw [leafAcc_eq, initsOf_mapacc]

theorem follow_spec : ∀ (ks : List RLevel), ks ≠ [] → ∀ (d ds s ss : Int) (n : Nat),
    accsOf (redFollow ks d ds s ss n) =
      ((List.range n).flatMap fun j : Nat => eList ks (d + (j : Int) * ds) (s + (j : Int) * ss)) ∧
    initsOf (redFollow ks d ds s ss n) = []
  | [], h, _, _, _, _, _ => absurd rfl h
  | [k], _, d, ds, s, ss, n => by
    rw [redFollow, rLoop_eq, accsOf_flatMap, initsOf_flatMap]
    simp only [accs_leaf, inits_leaf]
    simp
  | k :: k' :: ks, _, d, ds, s, ss, n => by
    rw [redFollow, rLoop_eq, accsOf_flatMap, initsOf_flatMap]
    have ih := fun d ds s ss n => follow_spec (k' :: ks) (by simp) d ds s ss n
    simp only [(ih _ _ _ _ _).1, (ih _ _ _ _ _).2]
    refine ⟨?_, by simp⟩
    rfl

/-- Levels on which the kernels behave: above the innermost, kept levels have a non-zero destination stride and
    reduced levels are not empty. -/
def GoodLevels : List RLevel → Prop
  | [] => True
  | [_] => True
  | k :: k' :: ks => (k.bc = true → k.dst ≠ 0) ∧ (k.bc = false → 1 ≤ k.size) ∧ GoodLevels (k' :: ks)

/-- What a first pass over `ks` must do. -/
def FirstOK (ks : List RLevel) (d s : Int) (l : List REv) : Prop :=
  accsOf l = eList ks d s ∧ initsOf l = dList ks d ∧ WellInit [] l

theorem first_inner (k : RLevel) (d s : Int) :
    FirstOK [k] d s (if k.bc then leafInit k.size d k.dst ++ leafAcc k.size d k.dst s k.src
      else .init d :: leafAcc k.size d 0 s k.src) := by
  cases hb : k.bc
  · have hds : k.ds = 0 := by simp [RLevel.ds, hb]
    simp only [Bool.false_eq_true, if_false]
    refine ⟨?_, ?_, ?_⟩
    · rw [accsOf, ← accs_leaf, hds]
    · rw [initsOf, inits_leaf]; simp [dList, hb]
    · show WellInit [d] _
      apply wellInit_accs (inits_leaf _ _ _ _ _)
      rw [leafAcc_eq, accsOf_mapacc]
      intro p hp
      obtain ⟨j, _, rfl⟩ := List.mem_map.1 hp
      simp
  · have hds : k.ds = k.dst := by simp [RLevel.ds, hb]
    simp only [if_true]
    have hi : initsOf (leafInit k.size d k.dst) = dList [k] d := by
      rw [leafInit_eq, initsOf_mapinit]; simp [dList, hb, List.map_eq_flatMap]
    have ha : accsOf (leafAcc k.size d k.dst s k.src) = eList [k] d s := by rw [← accs_leaf, hds]
    refine ⟨?_, ?_, ?_⟩
    · rw [accsOf_append, leafInit_eq, accsOf_mapinit, List.nil_append, ha]
    · rw [initsOf_append, inits_leaf, List.append_nil, hi]
    · apply WellInit.append
      · rw [leafInit_eq]
        have : ∀ (l : List Nat) (S : List Int), WellInit S (l.map fun j : Nat => REv.init (d + (j : Int) * k.dst)) := by
          intro l
          induction l with
          | nil => intro S; trivial
          | cons x l ih => intro S; exact ih _
        exact this _ _
      · apply wellInit_accs (inits_leaf _ _ _ _ _)
        rw [ha, hi]
        intro p hp
        rw [List.append_nil]
        exact eList_sub _ _ _ p hp

/-- A loop of first passes. -/
theorem loop_first (ks : List RLevel) (L : List (List REv)) (n : Nat) (hl : L.length = n) (d ds s ss : Int)
    (hL : ∀ (j : Nat) l, L[j]? = some l → FirstOK ks (d + (j : Int) * ds) (s + (j : Int) * ss) l) :
    accsOf L.flatten = ((List.range n).flatMap fun j : Nat => eList ks (d + (j : Int) * ds) (s + (j : Int) * ss)) ∧
    initsOf L.flatten = ((List.range n).flatMap fun j : Nat => dList ks (d + (j : Int) * ds)) ∧
    WellInit [] L.flatten := by
  have h1 : L.map accsOf = (List.range n).map fun j : Nat => eList ks (d + (j : Int) * ds) (s + (j : Int) * ss) := by
    apply List.ext_getElem?
    intro j
    rw [List.getElem?_map, List.getElem?_map]
    by_cases hj : j < n
    · rw [List.getElem?_eq_getElem (by omega), List.getElem?_range hj]
      have := (hL j _ (List.getElem?_eq_getElem (by omega))).1
      simp [this]
    · rw [List.getElem?_eq_none (by omega), List.getElem?_eq_none (by simp; omega)]; rfl
  have h2 : L.map initsOf = (List.range n).map fun j : Nat => dList ks (d + (j : Int) * ds) := by
    apply List.ext_getElem?
    intro j
    rw [List.getElem?_map, List.getElem?_map]
    by_cases hj : j < n
    · rw [List.getElem?_eq_getElem (by omega), List.getElem?_range hj]
      have := (hL j _ (List.getElem?_eq_getElem (by omega))).2.1
      simp [this]
    · rw [List.getElem?_eq_none (by omega), List.getElem?_eq_none (by simp; omega)]; rfl
  refine ⟨by rw [accsOf_flatten, h1]; rfl, by rw [initsOf_flatten, h2]; rfl, ?_⟩
  have : ∀ (L : List (List REv)) (S : List Int), (∀ l ∈ L, WellInit [] l) → WellInit S L.flatten := by
    intro L
    induction L with
    | nil => intro S _; trivial
    | cons x L ih =>
      intro S h
      rw [List.flatten_cons]
      exact WellInit.append ((h x (by simp)).mono (by simp)) (ih _ (fun l hl => h l (by simp [hl])))
  apply this
  intro l hl
  obtain ⟨j, hj⟩ := List.getElem?_of_mem hl
  exact (hL j l hj).2.2

theorem first_spec : ∀ (ks : List RLevel), ks ≠ [] → GoodLevels ks →
    (∀ d s, ∃ l, redFirst ks d s = .ok l ∧ FirstOK ks d s l) ∧
    (∀ d ds s ss n, ds ≠ 0 → ∃ l, redFirstStr ks d ds s ss n = .ok l ∧
      accsOf l = ((List.range n).flatMap fun j : Nat => eList ks (d + (j : Int) * ds) (s + (j : Int) * ss)) ∧
      initsOf l = ((List.range n).flatMap fun j : Nat => dList ks (d + (j : Int) * ds)) ∧ WellInit [] l)
  | [], h, _ => absurd rfl h
  | [k], _, _ => by
    constructor
    · intro d s
      refine ⟨_, ?_, first_inner k d s⟩
      rw [redFirst]
      split <;> rfl
    · intro d ds s ss n hds
      obtain ⟨L, hl, e, hL⟩ := rLoopR_ok (body := fun d s => .ok (if k.bc then
          leafInit k.size d k.dst ++ leafAcc k.size d k.dst s k.src
          else .init d :: leafAcc k.size d 0 s k.src)) (ds := ds) (ss := ss) (P := FirstOK [k])
        (fun d s => ⟨_, rfl, first_inner k d s⟩) n d s
      refine ⟨L.flatten, ?_, loop_first [k] L n hl d ds s ss hL⟩
      rw [← e, redFirstStr]
      cases k.bc <;> simp [hds]
  | k :: k' :: ks, _, hg => by
    obtain ⟨hg1, hg2, hg3⟩ := hg
    obtain ⟨ih1, ih2⟩ := first_spec (k' :: ks) (by simp) hg3
    -- one first pass
    have hone : ∀ d s, ∃ l, redFirst (k :: k' :: ks) d s = .ok l ∧ FirstOK (k :: k' :: ks) d s l := by
      intro d s
      cases hb : k.bc
      · obtain ⟨a, ea, ha1, ha2, ha3⟩ := ih1 d s
        have hn := hg2 hb
        have hds : k.ds = 0 := by simp [RLevel.ds, hb]
        refine ⟨a ++ (if k.size > 1 then redFollow (k' :: ks) d 0 (s + k.src) k.src (k.size - 1) else []), ?_, ?_⟩
        · rw [redFirst, hb]
          simp only [Bool.false_eq_true, if_false]
          rw [ea, Res.bind_ok]
          split <;> simp
        · have hacc : accsOf (if k.size > 1 then redFollow (k' :: ks) d 0 (s + k.src) k.src (k.size - 1) else []) =
              (List.range (k.size - 1)).flatMap fun j : Nat => eList (k' :: ks) d (s + ((j + 1 : Nat) : Int) * k.src) := by
            split
            · rw [(follow_spec (k' :: ks) (by simp) _ _ _ _ _).1]
              congr 1; funext j
              congr 1
              · ring
              · push_cast; ring
            · have : k.size - 1 = 0 := by omega
              rw [this]; rfl
          have hini : initsOf (if k.size > 1 then redFollow (k' :: ks) d 0 (s + k.src) k.src (k.size - 1) else []) = [] := by
            split
            · exact (follow_spec (k' :: ks) (by simp) _ _ _ _ _).2
            · rfl
          refine ⟨?_, ?_, ?_⟩
          · rw [accsOf_append, hacc, ha1]
            show _ = (List.range k.size).flatMap fun j : Nat => eList (k' :: ks) (d + (j : Int) * k.ds) (s + (j : Int) * k.src)
            obtain ⟨m, hm⟩ : ∃ m, k.size = m + 1 := ⟨k.size - 1, by omega⟩
            rw [hm, List.range_succ_eq_map, List.flatMap_cons, List.flatMap_map, hds]
            simp
          · rw [initsOf_append, hini, ha2, List.append_nil]
            show _ = dList (k :: k' :: ks) d
            rw [dList.eq_2 d k (k' :: ks), hb]; rfl
          · apply WellInit.append ha3
            apply wellInit_accs hini
            rw [hacc, ha2]
            intro p hp
            obtain ⟨j, _, hp⟩ := List.mem_flatMap.1 hp
            rw [List.append_nil]
            exact eList_sub _ _ _ p hp
      · obtain ⟨l, e, h1, h2, h3⟩ := ih2 d k.dst s k.src k.size (hg1 hb)
        have hds : k.ds = k.dst := by simp [RLevel.ds, hb]
        refine ⟨l, ?_, ?_, ?_, h3⟩
        · rw [redFirst, hb]; exact e
        · rw [h1, ← hds]; rfl
        · rw [h2, dList.eq_2 d k (k' :: ks), hb]; rfl
    refine ⟨hone, ?_⟩
    intro d ds s ss n hds
    obtain ⟨L, hl, e, hL⟩ := rLoopR_ok (body := fun d s => redFirst (k :: k' :: ks) d s) (ds := ds) (ss := ss)
      (P := FirstOK (k :: k' :: ks)) hone n d s
    refine ⟨L.flatten, ?_, loop_first (k :: k' :: ks) L n hl d ds s ss hL⟩
    rw [← e, redFirstStr]
    cases hb : k.bc
    · simp only [Bool.false_eq_true, if_false, hds]
      congr 1
      funext d s
      rw [redFirst, hb]; rfl
    · simp only [if_true, hds, if_false]
      congr 1
      funext d s
      rw [redFirst, hb]; rfl

/-! ## Indices -/

theorem dstOff_cons (st : Int) (sts : List Int) (j : Nat) (o : List Nat) :
    dstOff (st :: sts) (j :: o) = (j : Int) * st + dstOff sts o := by
  simp [dstOff]

theorem dstOff_nil (sts : List Int) : dstOff sts [] = 0 := by simp [dstOff]

/-- What instantiation must achieve. -/
def InstOK (keep : Bool) (bs : List Bool) (src : Dims) (strides : List Int) (ks : List RLevel) : Prop :=
  (∀ d s, eList ks d s = (gridIdx (src.map (·.1))).map fun idx =>
    (d + dstOff strides (outIdx keep bs idx), s + dstOff (src.map (·.2)) idx)) ∧
  (∀ d, dList ks d = (gridIdx (redShape keep bs (src.map (·.1)))).map fun o => d + dstOff strides o) ∧
  ks.map (·.bc) = bs ∧ ks.map (·.size) = src.map (·.1) ∧ ∀ k ∈ ks, k.bc = true → k.dst ∈ strides

theorem instOK_nil (keep : Bool) (strides : List Int) : InstOK keep [] [] strides [] := by
  refine ⟨fun d s => ?_, fun d => ?_, rfl, rfl, by simp⟩
  · simp [eList, gridIdx, outIdx, dstOff_nil]
  · simp [dList, gridIdx, redShape, dstOff_nil]

/-- Adding a kept dimension. -/
theorem instOK_kept {keep : Bool} {bs : List Bool} {src : Dims} {strides : List Int} {ks : List RLevel} {n : Nat}
    {ss st : Int} (h : InstOK keep bs src strides ks) :
    InstOK keep (true :: bs) ((n, ss) :: src) (st :: strides) (⟨true, n, st, ss⟩ :: ks) := by
  obtain ⟨h1, h2, h3, h4, h5⟩ := h
  refine ⟨fun d s => ?_, fun d => ?_, by simp [h3], by simp [h4], ?_⟩
  · simp only [eList, List.map_cons, gridIdx, List.map_flatMap, List.map_map, h1]
    congr 1
    funext j
    apply List.map_congr_left
    intro idx _
    simp only [Function.comp, outIdx, if_true, dstOff_cons, RLevel.ds, Prod.mk.injEq]
    constructor <;> ring
  · simp only [dList, if_true, List.map_cons, redShape, gridIdx, List.map_flatMap, List.map_map, h2]
    congr 1
    funext j
    apply List.map_congr_left
    intro idx _
    simp only [Function.comp, dstOff_cons]
    ring
  · intro k hk hb
    rcases List.mem_cons.1 hk with rfl | hk
    · simp
    · exact List.mem_cons_of_mem _ (h5 k hk hb)

/-- Adding a reduced dimension. -/
theorem instOK_reduced_keep {bs : List Bool} {src : Dims} {strides : List Int} {ks : List RLevel} {n : Nat}
    {ss st : Int} (h : InstOK true bs src strides ks) :
    InstOK true (false :: bs) ((n, ss) :: src) (st :: strides) (⟨false, n, 0, ss⟩ :: ks) := by
  obtain ⟨h1, h2, h3, h4, h5⟩ := h
  refine ⟨fun d s => ?_, fun d => ?_, by simp [h3], by simp [h4], ?_⟩
  · simp only [eList, List.map_cons, gridIdx, List.map_flatMap, List.map_map, h1]
    congr 1
    funext j
    apply List.map_congr_left
    intro idx _
    simp only [Function.comp, outIdx, if_true, Bool.false_eq_true, if_false, dstOff_cons, RLevel.ds, Prod.mk.injEq]
    constructor
    · push_cast; ring
    · ring
  · simp only [dList, if_true, Bool.false_eq_true, if_false, List.map_cons, redShape, gridIdx, List.map_flatMap,
      List.map_map, h2]
    simp [dstOff_cons]
  · intro k hk hb
    rcases List.mem_cons.1 hk with rfl | hk
    · simp at hb
    · exact List.mem_cons_of_mem _ (h5 k hk hb)

theorem instOK_reduced_drop {bs : List Bool} {src : Dims} {strides : List Int} {ks : List RLevel} {n : Nat}
    {ss : Int} (h : InstOK false bs src strides ks) :
    InstOK false (false :: bs) ((n, ss) :: src) strides (⟨false, n, 0, ss⟩ :: ks) := by
  obtain ⟨h1, h2, h3, h4, h5⟩ := h
  refine ⟨fun d s => ?_, fun d => ?_, by simp [h3], by simp [h4], ?_⟩
  · simp only [eList, List.map_cons, gridIdx, List.map_flatMap, List.map_map, h1]
    congr 1
    funext j
    apply List.map_congr_left
    intro idx _
    simp only [Function.comp, outIdx, Bool.false_eq_true, if_false, dstOff_cons, RLevel.ds, Prod.mk.injEq]
    constructor
    · ring
    · ring
  · simp only [dList, Bool.false_eq_true, if_false, List.map_cons, redShape, h2]
  · intro k hk hb
    rcases List.mem_cons.1 hk with rfl | hk
    · simp at hb
    · exact h5 k hk hb

theorem inst_keep : ∀ (bs : List Bool) (src : Dims) (dst : Dims), bs.length = src.length → dst.length = bs.length →
    ∃ ks, redInst true bs dst src = .ok ks ∧ InstOK true bs src (dst.map (·.2)) ks
  | [], [], dst, _, hd => by
    have : dst = [] := by simpa using hd
    subst this
    exact ⟨[], rfl, instOK_nil _ _⟩
  | [], _ :: _, _, h, _ => by simp at h
  | _ :: _, [], _, h, _ => by simp at h
  | b :: bs, (n, ss) :: src, dst, h, hd => by
    cases dst with
    | nil => simp at hd
    | cons x dst =>
      obtain ⟨m, st⟩ := x
      obtain ⟨ks, e, hk⟩ := inst_keep bs src dst (by simpa using h) (by simpa using hd)
      cases b
      · exact ⟨_, by simp [redInst, e], instOK_reduced_keep hk⟩
      · exact ⟨_, by simp [redInst, e], instOK_kept hk⟩

theorem inst_none : ∀ (bs : List Bool) (src : Dims) (dst : Dims), bs.length = src.length → (∀ b ∈ bs, b = false) →
    ∃ ks, redInst false bs dst src = .ok ks ∧ InstOK false bs src [] ks
  | [], [], dst, _, _ => ⟨[], rfl, instOK_nil _ _⟩
  | [], _ :: _, _, h, _ => by simp at h
  | _ :: _, [], _, h, _ => by simp at h
  | b :: bs, (n, ss) :: src, dst, h, hd => by
    obtain ⟨ks, e, hk⟩ := inst_none bs src dst (by simpa using h) (fun b hb => hd b (by simp [hb]))
    have : b = false := hd b (by simp)
    subst this
    exact ⟨_, by simp [redInst, e], instOK_reduced_drop hk⟩

theorem inst_one : ∀ (bs : List Bool) (src : Dims) (m : Nat) (st : Int), bs.length = src.length →
    bs.count true = 1 → ∃ ks, redInst false bs [(m, st)] src = .ok ks ∧ InstOK false bs src [st] ks
  | [], [], _, _, _, h => by simp at h
  | [], _ :: _, _, _, h, _ => by simp at h
  | _ :: _, [], _, _, h, _ => by simp at h
  | b :: bs, (n, ss) :: src, m, st, h, hd => by
    cases b
    · obtain ⟨ks, e, hk⟩ := inst_one bs src m st (by simpa using h) (by simpa using hd)
      exact ⟨_, by simp [redInst, e], instOK_reduced_drop hk⟩
    · obtain ⟨ks, e, hk⟩ := inst_none bs src [(m, st)] (by simpa using h) (by
        intro b hb
        have : bs.count true = 0 := by simpa using hd
        cases b
        · rfl
        · exact absurd hb (List.count_eq_zero.1 this))
      exact ⟨_, by simp [redInst, e], instOK_kept hk⟩

theorem redShape_len_drop : ∀ (bs : List Bool) (ns : List Nat), bs.length = ns.length →
    (redShape false bs ns).length = bs.count true
  | [], [], _ => rfl
  | [], _ :: _, h => by simp at h
  | _ :: _, [], h => by simp at h
  | b :: bs, n :: ns, h => by
    have := redShape_len_drop bs ns (by simpa using h)
    cases b <;> simp [redShape, this]

theorem redShape_len_keep : ∀ (bs : List Bool) (ns : List Nat), bs.length = ns.length →
    (redShape true bs ns).length = bs.length
  | [], [], _ => rfl
  | [], _ :: _, h => by simp at h
  | _ :: _, [], h => by simp at h
  | b :: bs, n :: ns, h => by
    have := redShape_len_keep bs ns (by simpa using h)
    cases b <;> simp [redShape, this]

theorem goodLevels_of : ∀ (ks : List RLevel), (∀ (i : Nat) k, ks[i]? = some k → i + 1 < ks.length →
    (k.bc = true → k.dst ≠ 0) ∧ (k.bc = false → 1 ≤ k.size)) → GoodLevels ks
  | [], _ => trivial
  | [_], _ => trivial
  | k :: k' :: ks, h => by
    obtain ⟨a, b⟩ := h 0 k rfl (by simp)
    refine ⟨a, b, goodLevels_of (k' :: ks) (fun i x hx hi => h (i + 1) x (by simpa using hx) (by simp at hi ⊢; omega))⟩

theorem outIdx_mem (keep : Bool) : ∀ (bs : List Bool) (ns : List Nat), bs.length = ns.length →
    ∀ idx ∈ gridIdx ns, outIdx keep bs idx ∈ gridIdx (redShape keep bs ns)
  | [], [], _, idx, h => by simp [gridIdx] at h; subst h; simp [outIdx, redShape, gridIdx]
  | [], _ :: _, h, _, _ => by simp at h
  | _ :: _, [], h, _, _ => by simp at h
  | b :: bs, n :: ns, h, idx, hi => by
    simp only [gridIdx, List.mem_flatMap, List.mem_map, List.mem_range] at hi
    obtain ⟨j, hj, is, his, rfl⟩ := hi
    have ih := outIdx_mem keep bs ns (by simpa using h) is his
    cases b <;> cases keep <;> simp [outIdx, redShape, gridIdx] <;> first | exact ih | exact ⟨hj, ih⟩

theorem keptDims_eq (axes : Option (List Int)) (nd : Nat) : redKept axes nd = keptDims axes nd := by
  unfold redKept keptDims
  apply List.map_congr_left
  intro k _
  cases axes with
  | none => rfl
  | some l => by_cases h : (k : Int) ∈ l <;> simp [h]

theorem resultShape_eq (keep : Bool) : ∀ (bs : List Bool) (ns : List Nat), redShape keep bs ns = resultShape keep bs ns
  | [], _ => by cases keep <;> simp [redShape, resultShape]
  | _ :: _, [] => by cases keep <;> simp [redShape, resultShape]
  | b :: bs, n :: ns => by
    have := resultShape_eq keep bs ns
    cases b <;> cases keep <;> simp_all [redShape, resultShape]

theorem resultIdx_eq (keep : Bool) : ∀ (bs : List Bool) (ns : List Nat), outIdx keep bs ns = resultIdx keep bs ns
  | [], _ => by cases keep <;> simp [outIdx, resultIdx]
  | _ :: _, [] => by cases keep <;> simp [outIdx, resultIdx]
  | b :: bs, n :: ns => by
    have := resultIdx_eq keep bs ns
    cases b <;> cases keep <;> simp_all [outIdx, resultIdx]

theorem reduction_fold_aux {α β : Type} (op : α → β → α) (e : α) (srcMem : Int → β) (mem : Int → α)
    (axes : Option (List Int)) (keepdims : Bool) (strides : List Nat → List Int) (src : Dims)
    (hsrc : src ≠ [])
    (hkeep : keepdims = true ∨ (redKept axes src.length).count true ≤ 1)
    (hne : ∀ (i n : Nat), i + 1 < src.length → (redKept axes src.length)[i]? = some false →
      (src.map (·.1))[i]? = some n → 1 ≤ n)
    (hst : ∀ sh, (strides sh).length = sh.length)
    (hnz : ∀ st ∈ strides (redShape keepdims (redKept axes src.length) (src.map (·.1))), st ≠ 0)
    (hdis : ((gridIdx (redShape keepdims (redKept axes src.length) (src.map (·.1)))).map
      (dstOff (strides (redShape keepdims (redKept axes src.length) (src.map (·.1)))))).Nodup) :
    let kept := redKept axes src.length
    let shape := redShape keepdims kept (src.map (·.1))
    ∃ evs, redApply axes keepdims strides src = .ok (shape, evs) ∧
      (∀ o ∈ gridIdx shape, runEv op e srcMem evs mem (dstOff (strides shape) o) =
        ((gridIdx (src.map (·.1))).filter fun idx => decide (outIdx keepdims kept idx = o)).foldl
          (fun x idx => op x (srcMem (dstOff (src.map (·.2)) idx))) e) ∧
      (∀ a, a ∉ (gridIdx shape).map (dstOff (strides shape)) → runEv op e srcMem evs mem a = mem a) ∧
      (∀ d s, REv.acc d s ∈ evs → ∃ idx ∈ gridIdx (src.map (·.1)), s = dstOff (src.map (·.2)) idx) := by
  intro kept shape
  have hlen : kept.length = src.length := by simp [kept, redKept]
  have hlen' : kept.length = (src.map (·.1)).length := by simp [hlen]
  obtain ⟨ks, eks, h1, h2, h3, h4, h5⟩ : ∃ ks, redInst keepdims kept (shape.zip (strides shape)) src = .ok ks ∧
      InstOK keepdims kept src (strides shape) ks := by
    cases hk : keepdims
    · have hc : kept.count true ≤ 1 := by
        rcases hkeep with h | h
        · rw [hk] at h; cases h
        · exact h
      have hl := redShape_len_drop kept (src.map (·.1)) hlen'
      have hsl : shape.length = kept.count true := by rw [← hl]; simp only [shape, hk]
      have hstl := hst shape
      by_cases h0 : kept.count true = 0
      · have e1 : strides shape = [] := by
          apply List.length_eq_zero_iff.1; omega
        rw [e1]
        exact inst_none kept src _ hlen (fun b hb => by
          cases b
          · rfl
          · exact absurd hb (List.count_eq_zero.1 h0))
      · obtain ⟨n, hn⟩ := List.length_eq_one_iff.1 (show shape.length = 1 by omega)
        obtain ⟨st, hst'⟩ := List.length_eq_one_iff.1 (show (strides shape).length = 1 by omega)
        rw [hst', hn]
        exact inst_one kept src n st hlen (by omega)
    · have hl := redShape_len_keep kept (src.map (·.1)) hlen'
      have hsl : shape.length = kept.length := by rw [← hl]; simp only [shape, hk]
      have := inst_keep kept src (shape.zip (strides shape)) hlen (by simp [hst, hsl])
      have e1 : (shape.zip (strides shape)).map (·.2) = strides shape := by
        apply List.map_snd_zip
        rw [hst]
      rw [e1] at this
      exact this
  have hksl : ks.length = src.length := by rw [← hlen, ← h3]; simp
  have hgood : GoodLevels ks := by
    apply goodLevels_of
    intro i k hk hi
    refine ⟨fun hb => hnz _ (h5 k (List.mem_of_getElem? hk) hb), fun hb => ?_⟩
    refine hne i k.size (by omega) ?_ ?_
    · show kept[i]? = some false
      rw [← h3, List.getElem?_map, hk]; simp [hb]
    · rw [← h4, List.getElem?_map, hk]; rfl
  obtain ⟨evs, eev, ha, hi, hw⟩ := (first_spec ks (by intro h; rw [h] at hksl; simp at hksl; exact hsrc (List.length_eq_zero_iff.1 hksl.symm)) hgood).1 0 0
  rw [h1] at ha
  rw [h2] at hi
  simp only [Int.zero_add] at ha hi
  have hi' : initsOf evs = (gridIdx shape).map (dstOff (strides shape)) := hi
  have hdis' : ((gridIdx shape).map (dstOff (strides shape))).Nodup := hdis
  refine ⟨evs, ?_, ?_, ?_, ?_⟩
  · unfold redApply
    rw [if_neg hsrc]
    show (redInst keepdims kept (shape.zip (strides shape)) src >>= _) = _
    rw [eks, Res.bind_ok, eev]
    rfl
  · intro o ho
    rw [runEv_init op e srcMem _ evs mem [] hw (by simp) (by rw [hi']; exact List.mem_map_of_mem ho) (by rw [hi']; exact hdis')]
    rw [ha, List.filter_map, List.foldl_map]
    congr 1
    apply List.filter_congr
    intro idx hidx
    simp only [Function.comp]
    have hm := outIdx_mem keepdims kept (src.map (·.1)) hlen' idx hidx
    have : dstOff (strides shape) (outIdx keepdims kept idx) = dstOff (strides shape) o ↔ outIdx keepdims kept idx = o :=
      ⟨fun h => List.inj_on_of_nodup_map hdis' hm ho h, fun h => by rw [h]⟩
    exact decide_eq_decide.2 this
  · intro a ha'
    rw [runEv_noinit op e srcMem a evs mem (by rw [hi']; exact ha')]
    have : ((accsOf evs).filter fun p => decide (p.1 = a)) = [] := by
      rw [List.filter_eq_nil_iff]
      intro p hp hpa
      rw [ha] at hp
      obtain ⟨idx, hidx, rfl⟩ := List.mem_map.1 hp
      apply ha'
      simp at hpa
      rw [← hpa]
      exact List.mem_map_of_mem (outIdx_mem keepdims kept (src.map (·.1)) hlen' idx hidx)
    rw [this]; rfl
  · intro d s hds
    have : (d, s) ∈ accsOf evs := by
      have hg : ∀ l : List REv, REv.acc d s ∈ l → (d, s) ∈ accsOf l := by
        intro l
        induction l with
        | nil => intro h; simp at h
        | cons x l ih =>
          intro h
          rcases List.mem_cons.1 h with rfl | h'
          · simp [accsOf]
          · cases x <;> simp [accsOf, ih h']
      exact hg evs hds
    rw [ha] at this
    obtain ⟨idx, hidx, he⟩ := List.mem_map.1 this
    exact ⟨idx, hidx, by simp only [Prod.mk.injEq] at he; exact he.2.symm⟩

/-- C52: reducing over a set of axes.  The result has the kept dimensions (reduced ones as size 1 with `keepdims`);
    the element at every index `o` of the result is the left fold, in row-major order and starting from the identity,
    over the elements whose index projects to `o`; nothing else is written, and only elements of the operand are
    read.  Restrictions, each shown necessary below: without `keepdims` at most one dimension is kept; a reduced
    dimension other than the last is not empty; the strides of the result are not zero. -/
theorem reduction_fold_partial {α β : Type} (op : α → β → α) (e : α) (srcMem : Int → β) (mem : Int → α)
    (axes : Option (List Int)) (keepdims : Bool) (strides : List Nat → List Int) (src : Dims)
    (kept : List Bool) (hkept : kept = keptDims axes src.length)
    (shape : List Nat) (hshape : shape = resultShape keepdims kept (src.map (·.1)))
    (hsrc : src ≠ [])
    (hkeep : keepdims = true ∨ kept.count true ≤ 1)
    (hne : ∀ (i n : Nat), i + 1 < src.length → kept[i]? = some false → (src.map (·.1))[i]? = some n → 1 ≤ n)
    (hst : ∀ sh, (strides sh).length = sh.length)
    (hnz : ∀ st ∈ strides shape, st ≠ 0)
    (hdis : ((gridIdx shape).map (dstOff (strides shape))).Nodup) :
    ∃ evs, redApply axes keepdims strides src = .ok (shape, evs) ∧
      (∀ o ∈ gridIdx shape, runEv op e srcMem evs mem (dstOff (strides shape) o) =
        ((gridIdx (src.map (·.1))).filter fun idx => decide (resultIdx keepdims kept idx = o)).foldl
          (fun x idx => op x (srcMem (dstOff (src.map (·.2)) idx))) e) ∧
      (∀ a, a ∉ (gridIdx shape).map (dstOff (strides shape)) → runEv op e srcMem evs mem a = mem a) ∧
      (∀ d s, REv.acc d s ∈ evs → ∃ idx ∈ gridIdx (src.map (·.1)), s = dstOff (src.map (·.2)) idx) := by
  rw [← keptDims_eq] at hkept
  rw [← resultShape_eq] at hshape
  simp only [← resultIdx_eq]
  subst hkept
  subst hshape
  exact reduction_fold_aux op e srcMem mem axes keepdims strides src hsrc hkeep hne hst hnz hdis

theorem rowMajor_len (es : Nat) : ∀ sh, (rowMajor es sh).length = sh.length
  | [] => rfl
  | _ :: sh => by simp [rowMajor, rowMajor_len es sh]

theorem rowMajor_bounds (es : Nat) : ∀ (sh : List Nat), ∀ o ∈ gridIdx sh, 0 ≤ dstOff (rowMajor es sh) o ∧
    dstOff (rowMajor es sh) o + es ≤ ((es * sh.foldr (· * ·) 1 : Nat) : Int)
  | [], o, h => by
    simp [gridIdx] at h; subst h; simp [rowMajor, dstOff]
  | n :: sh, o, h => by
    simp only [gridIdx, List.mem_flatMap, List.mem_map, List.mem_range] at h
    obtain ⟨j, hj, is, his, rfl⟩ := h
    obtain ⟨h1, h2⟩ := rowMajor_bounds es sh is his
    rw [rowMajor, dstOff_cons]
    simp only [List.foldr_cons]
    generalize hP : es * sh.foldr (· * ·) 1 = P at *
    have e1 : es * (n * sh.foldr (· * ·) 1) = n * P := by rw [← hP]; ring
    rw [e1]
    have hj' : ((j : Int) + 1) * P ≤ n * P := by
      have : ((j + 1) * P : Nat) ≤ n * P := Nat.mul_le_mul_right _ (by omega)
      have := Int.ofNat_le.2 this
      push_cast at this ⊢
      linarith
    have hj0 : (0 : Int) ≤ (j : Int) * P := by positivity
    push_cast
    constructor
    · linarith
    · linarith

theorem rowMajor_nodup (es : Nat) (he : 0 < es) : ∀ (sh : List Nat), ((gridIdx sh).map (dstOff (rowMajor es sh))).Nodup
  | [] => by simp [gridIdx]
  | n :: sh => by
    have ih := rowMajor_nodup es he sh
    have hb := rowMajor_bounds es sh
    simp only [gridIdx, List.map_flatMap, List.map_map]
    rw [List.nodup_flatMap]
    constructor
    · intro j _
      have e1 : ((gridIdx sh).map (dstOff (rowMajor es (n :: sh)) ∘ fun x => j :: x)) =
          ((gridIdx sh).map (dstOff (rowMajor es sh))).map (fun z => (j : Int) * ((es * sh.foldr (· * ·) 1 : Nat) : Int) + z) := by
        rw [List.map_map]
        apply List.map_congr_left
        intro x _
        simp only [Function.comp, rowMajor, dstOff_cons]
      rw [e1]
      exact ih.map (fun a b h => by simpa using h)
    · apply List.Pairwise.imp _ List.pairwise_lt_range
      intro j k hjk x hx hy
      simp only [List.mem_map, Function.comp, rowMajor, dstOff_cons] at hx hy
      obtain ⟨a, ha, ea⟩ := hx
      obtain ⟨b, hb', eb⟩ := hy
      obtain ⟨a1, a2⟩ := hb a ha
      obtain ⟨b1, b2⟩ := hb b hb'
      generalize es * sh.foldr (· * ·) 1 = P at *
      have : ((j : Int) + 1) * P ≤ k * P := by
        have : ((j + 1) * P : Nat) ≤ k * P := Nat.mul_le_mul_right _ (by omega)
        have := Int.ofNat_le.2 this
        push_cast at this ⊢
        linarith
      have he' : (0 : Int) < es := by exact_mod_cast he
      rw [← ea] at eb
      linarith

theorem rowMajor_ne_zero (es : Nat) (he : 0 < es) : ∀ (sh : List Nat), (∀ n ∈ sh.tail, 1 ≤ n) → ∀ st ∈ rowMajor es sh, st ≠ 0
  | [], _, st, h => by simp [rowMajor] at h
  | n :: sh, hs, st, h => by
    rw [rowMajor] at h
    rcases List.mem_cons.1 h with rfl | h
    · have : ∀ l : List Nat, (∀ n ∈ l, 1 ≤ n) → 0 < l.foldr (· * ·) 1 := by
        intro l
        induction l with
        | nil => intro _; simp
        | cons x l ih =>
          intro h
          exact Nat.mul_pos (h x (by simp)) (ih (fun n hn => h n (by simp [hn])))
      have := Nat.mul_pos he (this sh hs)
      omega
    · exact rowMajor_ne_zero es he sh (fun n hn => hs n (List.mem_of_mem_tail hn)) st h

/-- C52 for a freshly allocated result of elements of `es` bytes: no hypothesis on the layout of the result remains
    except that its dimensions after the first are not empty. -/
theorem reduction_fresh_partial {α β : Type} (op : α → β → α) (e : α) (srcMem : Int → β) (mem : Int → α)
    (axes : Option (List Int)) (keepdims : Bool) (es : Nat) (src : Dims)
    (kept : List Bool) (hkept : kept = keptDims axes src.length)
    (shape : List Nat) (hshape : shape = resultShape keepdims kept (src.map (·.1)))
    (hsrc : src ≠ []) (hes : 0 < es)
    (hkeep : keepdims = true ∨ kept.count true ≤ 1)
    (hne : ∀ (i n : Nat), i + 1 < src.length → kept[i]? = some false → (src.map (·.1))[i]? = some n → 1 ≤ n)
    (hsh : ∀ n ∈ shape.tail, 1 ≤ n) :
    ∃ evs, redApply axes keepdims (rowMajor es) src = .ok (shape, evs) ∧
      (∀ o ∈ gridIdx shape, runEv op e srcMem evs mem (dstOff (rowMajor es shape) o) =
        ((gridIdx (src.map (·.1))).filter fun idx => decide (resultIdx keepdims kept idx = o)).foldl
          (fun x idx => op x (srcMem (dstOff (src.map (·.2)) idx))) e) ∧
      (∀ a, a ∉ (gridIdx shape).map (dstOff (rowMajor es shape)) → runEv op e srcMem evs mem a = mem a) ∧
      (∀ d s, REv.acc d s ∈ evs → ∃ idx ∈ gridIdx (src.map (·.1)), s = dstOff (src.map (·.2)) idx) :=
  reduction_fold_partial op e srcMem mem axes keepdims (rowMajor es) src kept hkept shape hshape hsrc hkeep hne
    (rowMajor_len es) (rowMajor_ne_zero es hes shape hsh) (rowMajor_nodup es hes shape)

/-- The hypotheses are met by a `2 * 3 * 2` array reduced over axes 0 and 2 with `keepdims`, and by the sum over all
    axes of an array whose last dimension is empty. -/
example : keptDims (some [0, 2]) 3 = [false, true, false] ∧
    resultShape true [false, true, false] [2, 3, 2] = [1, 3, 1] ∧
    redApply (some [0, 2]) true (rowMajor 8) [(2, 6), (3, 2), (2, 1)] = .ok ([1, 3, 1],
      [.init 0, .acc 0 0, .acc 0 1, .init 8, .acc 8 2, .acc 8 3, .init 16, .acc 16 4, .acc 16 5,
       .acc 0 6, .acc 0 7, .acc 8 8, .acc 8 9, .acc 16 10, .acc 16 11]) := by decide
example : redApply none false (rowMajor 8) [(2, 8), (0, 8)] = .ok ([], [.init 0]) := by decide
/-- Axes that are negative or too large are ignored. -/
example : redApply (some [-1, 5]) false (rowMajor 8) [(2, 8)] = .ok ([2], [.init 0, .init 8, .acc 0 0, .acc 8 8]) := by
  decide

/-- C52 violated: without `keepdims`, two kept dimensions.  Reducing the middle axis of a `2 * 1 * 2` array: the four
    elements belong in addresses 0, 8, 16, 24; the innermost kernel reads the outer dimension's stride, so address 16
    is initialised again after it received the second element, address 32 is written outside the result, and
    address 8 is never written. -/
theorem reduction_two_kept_violated :
    redApply (some [1]) false (rowMajor 8) [(2, 2), (1, 2), (2, 1)] = .ok ([2, 2],
      [.init 0, .init 16, .acc 0 0, .acc 16 1, .init 16, .init 32, .acc 16 2, .acc 32 3]) ∧
    (gridIdx [2, 2]).map (dstOff (rowMajor 8 [2, 2])) = [0, 8, 16, 24] := by decide

/-- C52 violated: an empty reduced dimension that is not the last; elements of an array without elements are read. -/
theorem reduction_empty_outer_violated :
    redApply none false (rowMajor 8) [(0, 16), (2, 8)] = .ok ([], [.init 0, .acc 0 0, .acc 0 8]) ∧
    gridIdx [0, 2] = [] := by decide

/-- C52 violated: a result with two empty dimensions (so that its outer stride is 0) makes the loop run through all
    of `size_t`. -/
theorem reduction_empty_result_violated :
    redApply (some []) true (rowMajor 8) [(0, 0), (0, 8)] = .ub := by decide

/-- C52 violated: a destination with stride 0 in a kept dimension of size 1 above the innermost kept dimension: the
    elements of the first slab are never accumulated. -/
theorem reduction_zero_stride_violated :
    redApply (some [0]) true (fun _ => [16, 0, 8]) [(2, 16), (1, 16), (2, 8)] = .ok ([1, 1, 2],
      [.init 0, .init 8, .acc 0 16, .acc 8 24]) := by decide

/-! ## C68: ragged arrays -/

/-- The addresses of the elements of row `i` of a ragged array (`off` is the offset stored in the arrmeta). -/
def rowElems (vd : VarData) (off stride ss : Int) (i : Nat) : List Int :=
  (List.range (vd ((i : Int) * ss)).2).map fun j : Nat => (vd ((i : Int) * ss)).1 + off + (j : Int) * stride

theorem accs_row (n : Nat) (d s ss : Int) :
    accsOf (leafAcc n d 0 s ss) = (List.range n).map fun j : Nat => (d, s + (j : Int) * ss) := by
  rw [leafAcc_eq, accsOf_mapacc]; simp

/-- C68: reducing a `N * var` array completely folds over all elements of all rows in order, for a non-empty outer
    dimension and var data without offset. -/
theorem ragged_total_partial {α β : Type} (op : α → β → α) (e : α) (srcMem : Int → β) (mem : Int → α) (vd : VarData)
    (stride ss ds : Int) (n : Nat) (hn : 1 ≤ n) :
    runEv op e srcMem (redRagged false vd stride n ss ds) mem 0 =
      ((List.range n).flatMap (rowElems vd 0 stride ss)).foldl (fun x a => op x (srcMem a)) e ∧
    ∀ a, a ≠ 0 → runEv op e srcMem (redRagged false vd stride n ss ds) mem a = mem a := by
  have hacc : accsOf (redRagged false vd stride n ss ds) =
      ((List.range n).flatMap (rowElems vd 0 stride ss)).map fun a => ((0 : Int), a) := by
    obtain ⟨m, rfl⟩ : ∃ m, n = m + 1 := ⟨n - 1, by omega⟩
    have hrow : ∀ i : Nat, (rowElems vd 0 stride ss i).map (fun a => ((0 : Int), a)) =
        accsOf (leafAcc (vd ((i : Int) * ss)).2 0 0 (vd ((i : Int) * ss)).1 stride) := by
      intro i
      rw [accs_row, rowElems, List.map_map]
      apply List.map_congr_left
      intro j _
      simp
    unfold redRagged
    simp only [Bool.false_eq_true, if_false]
    rw [accsOf_append, List.map_flatMap, List.range_succ_eq_map, List.flatMap_cons, List.flatMap_map, hrow 0]
    congr 1
    · simp [redVarFirst, accsOf]
    · have : accsOf (if m + 1 > 1 then redVarFollow vd stride 0 0 ss ss (m + 1 - 1) else []) =
          accsOf (redVarFollow vd stride 0 0 ss ss m) := by
        split
        · rfl
        · have : m = 0 := by omega
          subst this; rfl
      rw [this, redVarFollow, rLoop_eq, accsOf_flatMap]
      congr 1
      funext j
      rw [hrow]
      have e1 : ss + (j : Int) * ss = ((j.succ : Nat) : Int) * ss := by push_cast; ring
      rw [e1]
      simp
  have hini : initsOf (redRagged false vd stride n ss ds) = [0] := by
    unfold redRagged
    simp only [Bool.false_eq_true, if_false]
    rw [initsOf_append, redVarFirst, initsOf, inits_leaf]
    have : initsOf (if n > 1 then redVarFollow vd stride 0 0 ss ss (n - 1) else []) = [] := by
      split
      · rw [redVarFollow, rLoop_eq, initsOf_flatMap]
        simp [inits_leaf]
      · rfl
    rw [this]; rfl
  have hw : WellInit [] (redRagged false vd stride n ss ds) := by
    have : ∃ l, redRagged false vd stride n ss ds = .init 0 :: l := ⟨_, rfl⟩
    obtain ⟨l, hl⟩ := this
    rw [hl] at hini hacc ⊢
    show WellInit [0] l
    apply wellInit_accs
    · simpa [initsOf] using hini
    · intro p hp
      have : p ∈ accsOf (.init 0 :: l) := hp
      rw [hacc] at this
      obtain ⟨a, _, rfl⟩ := List.mem_map.1 this
      simp
  constructor
  · rw [runEv_init op e srcMem 0 _ mem [] hw (by simp) (by rw [hini]; simp) (by rw [hini]; simp), hacc]
    rw [List.filter_eq_self.2 (by
      intro p hp
      obtain ⟨a, _, rfl⟩ := List.mem_map.1 hp
      simp), List.foldl_map]
  · intro a ha
    rw [runEv_noinit op e srcMem a _ mem (by rw [hini]; simpa using ha), hacc]
    rw [List.filter_eq_nil_iff.2 (by
      intro p hp
      obtain ⟨x, _, rfl⟩ := List.mem_map.1 hp
      simpa using Ne.symm ha)]
    rfl

/-- C68: reducing the var dimension of a `N * var` array folds every row into its own result element. -/
theorem ragged_rows_partial {α β : Type} (op : α → β → α) (e : α) (srcMem : Int → β) (mem : Int → α) (vd : VarData)
    (stride ss ds : Int) (n : Nat) (hds : ds ≠ 0) :
    (∀ i < n, runEv op e srcMem (redRagged true vd stride n ss ds) mem ((i : Int) * ds) =
      (rowElems vd 0 stride ss i).foldl (fun x a => op x (srcMem a)) e) ∧
    ∀ a, (∀ i : Nat, i < n → a ≠ (i : Int) * ds) → runEv op e srcMem (redRagged true vd stride n ss ds) mem a = mem a := by
  have hacc : accsOf (redRagged true vd stride n ss ds) =
      (List.range n).flatMap fun i : Nat => (rowElems vd 0 stride ss i).map fun a => ((i : Int) * ds, a) := by
    unfold redRagged redVarFirstStr
    simp only [if_true]
    rw [rLoop_eq, accsOf_flatMap]
    congr 1
    funext i
    simp only [redVarFirst, accsOf, accs_row, rowElems, List.map_map, Int.zero_add]
    apply List.map_congr_left
    intro j _
    simp
  have hini : initsOf (redRagged true vd stride n ss ds) = (List.range n).map fun i : Nat => (i : Int) * ds := by
    unfold redRagged redVarFirstStr
    simp only [if_true]
    rw [rLoop_eq, initsOf_flatMap, List.map_eq_flatMap]
    congr 1
    funext i
    simp [redVarFirst, initsOf, inits_leaf]
  have hinj : ∀ i j : Nat, (i : Int) * ds = (j : Int) * ds → i = j := by
    intro i j h
    have := Int.eq_of_mul_eq_mul_right hds h
    omega
  have hnd : ((List.range n).map fun i : Nat => (i : Int) * ds).Nodup :=
    List.nodup_range.map (fun i j h => hinj i j h)
  have hw : WellInit [] (redRagged true vd stride n ss ds) := by
    unfold redRagged redVarFirstStr
    simp only [if_true]
    rw [rLoop_eq]
    have : ∀ (l : List Nat) (S : List Int), WellInit S (l.flatMap fun j : Nat =>
        redVarFirst vd stride (0 + (j : Int) * ds) (0 + (j : Int) * ss)) := by
      intro l
      induction l with
      | nil => intro S; trivial
      | cons x l ih =>
        intro S
        rw [List.flatMap_cons]
        refine WellInit.append ?_ (ih _)
        show WellInit (_ :: S) _
        apply wellInit_accs (inits_leaf _ _ _ _ _)
        rw [accs_row]
        intro p hp
        obtain ⟨j, _, rfl⟩ := List.mem_map.1 hp
        simp
    exact this _ _
  constructor
  · intro i hi
    rw [runEv_init op e srcMem _ _ mem [] hw (by simp) (by
      rw [hini]; exact List.mem_map.2 ⟨i, List.mem_range.2 hi, rfl⟩) (by rw [hini]; exact hnd), hacc]
    have : ∀ (l : List Nat), l.Nodup → i ∈ l → ((l.flatMap fun i : Nat => (rowElems vd 0 stride ss i).map
        fun a => ((i : Int) * ds, a)).filter fun p => decide (p.1 = (i : Int) * ds)) =
        (rowElems vd 0 stride ss i).map fun a => ((i : Int) * ds, a) := by
      intro l hl him
      have hother : ∀ l : List Nat, i ∉ l → ((l.flatMap fun i : Nat => (rowElems vd 0 stride ss i).map
        fun a => ((i : Int) * ds, a)).filter fun p => decide (p.1 = (i : Int) * ds)) = [] := by
        intro l hl
        rw [List.filter_eq_nil_iff]
        intro p hp
        obtain ⟨k, hk, hp⟩ := List.mem_flatMap.1 hp
        obtain ⟨a, _, rfl⟩ := List.mem_map.1 hp
        simp only [decide_eq_true_eq]
        intro h
        exact hl (hinj _ _ h ▸ hk)
      obtain ⟨l1, l2, rfl⟩ := List.append_of_mem him
      have hl1 : i ∉ l1 ∧ i ∉ l2 := by
        rw [List.nodup_append] at hl
        obtain ⟨_, h2, h3⟩ := hl
        exact ⟨fun h => h3 i h i (by simp) rfl, (List.nodup_cons.1 h2).1⟩
      rw [List.flatMap_append, List.flatMap_cons, List.filter_append, List.filter_append, hother l1 hl1.1, hother l2 hl1.2,
        List.filter_eq_self.2 (by
          intro p hp
          obtain ⟨a, _, rfl⟩ := List.mem_map.1 hp
          simp)]
      simp
    rw [this _ List.nodup_range (List.mem_range.2 hi), List.foldl_map]
  · intro a ha
    rw [runEv_noinit op e srcMem a _ mem (by
      rw [hini]
      intro h
      obtain ⟨i, hi, rfl⟩ := List.mem_map.1 h
      exact ha i (List.mem_range.1 hi) rfl), hacc]
    rw [List.filter_eq_nil_iff.2 (by
      intro p hp
      obtain ⟨i, hi, hp⟩ := List.mem_flatMap.1 hp
      obtain ⟨x, _, rfl⟩ := List.mem_map.1 hp
      simpa using Ne.symm (ha i (List.mem_range.1 hi)))]
    rfl

/-- A concrete ragged array: rows of 2, 0 and 1 elements. -/
def exRagged : VarData := fun a => if a = 0 then (100, 2) else if a = 16 then (0, 0) else (200, 1)
example : redRagged true exRagged 4 3 16 8 = [.init 0, .acc 0 100, .acc 0 104, .init 8, .init 16, .acc 16 200] := by decide

/-- C68 violated: the arrmeta offset of a var dimension (indexing below a var dimension produces one) is ignored, so a
    reduction reads other elements. -/
theorem ragged_offset_violated :
    accsOf (redRagged true exRagged 4 1 16 8) = [(0, 100), (0, 104)] ∧ rowElems exRagged 4 4 16 0 = [104, 108] := by
  decide

/-- C68 violated: an outer dimension of size 0 still reads the (nonexistent) first row. -/
theorem ragged_empty_violated : redRagged false exRagged 4 0 16 8 = [.init 0, .acc 0 100, .acc 0 104] := by decide

/-- A scalar is reduced to the operation applied to the identity and it. -/
theorem reduction_scalar {α β : Type} (op : α → β → α) (e : α) (srcMem : Int → β) (mem : Int → α)
    (axes : Option (List Int)) (keepdims : Bool) (strides : List Nat → List Int) :
    ∃ evs, redApply axes keepdims strides [] = .ok ([], evs) ∧
      runEv op e srcMem evs mem 0 = op e (srcMem 0) ∧ ∀ a, a ≠ 0 → runEv op e srcMem evs mem a = mem a := by
  refine ⟨_, rfl, by simp [runEv], fun a ha => by simp [runEv, ha]⟩

end Dynd
