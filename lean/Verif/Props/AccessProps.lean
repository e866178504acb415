import Verif.Model.Access
/-
C100: read-only and immutable arrays.
-/
namespace Dynd

/-! ## Specification -/

/-- A history: operations one after the other; one that raises changes nothing. -/
inductive AHist : AState → List AccOp → AState → Prop where
  | nil (s : AState) : AHist s [] s
  | done (s t u : AState) (op : AccOp) (ops : List AccOp) : s.step op = .ok t → AHist t ops u → AHist s (op :: ops) u
  | raised (s u : AState) (e : Exc) (op : AccOp) (ops : List AccOp) : s.step op = .throw e → AHist s ops u → AHist s (op :: ops) u

/-- The array has elements in block `b`. -/
def AHandle.Sees (h : AHandle) (b : Nat) : Prop := ∃ i, (b, i) ∈ h.cells

/-- No array in the program may write to block `b`. -/
def WriteProtected (s : AState) (b : Nat) : Prop := ∀ h ∈ s.handles, h.Sees b → h.flags.write = false

/-- The values an array shows. -/
def AState.values (s : AState) (h : AHandle) : List Int := h.cells.map fun c => s.mem c.1 c.2

/-- The operations that write without looking at the flags. -/
def AccOp.Unchecked : AccOp → Prop
  | .assign _ _ | .sort _ _ => True
  | _ => False

/-- All cells are in existing blocks. -/
def AState.Valid (s : AState) : Prop := ∀ h ∈ s.handles, ∀ c ∈ h.cells, c.1 < s.nblocks

/-! ## Proofs -/

theorem pickCells_mem {cells : List (Nat × Nat)} {pick : List Nat} {c : Nat × Nat} (h : c ∈ pickCells cells pick) :
    c ∈ cells := by
  obtain ⟨i, _, hi⟩ := List.mem_filterMap.1 h
  exact List.mem_of_getElem? hi

theorem writeCells_other : ∀ (cs : List (Nat × Nat)) (vs : List Int) (mem : Nat → Nat → Int) (b : Nat),
    (∀ i, (b, i) ∉ cs) → writeCells mem cs vs b = mem b
  | [], _, _, _, _ => rfl
  | _ :: _, [], _, _, _ => rfl
  | c :: cs, v :: vs, mem, b, h => by
    rw [writeCells, writeCells_other cs vs _ b (fun i hi => h i (List.mem_cons_of_mem _ hi))]
    funext i
    rw [if_neg]
    rintro ⟨h1, h2⟩
    exact h i (by rw [h1, h2]; exact List.mem_cons_self ..)

theorem fresh_cells {s : AState} {f : AFlags} {vs : List Int} {h : AHandle} (hh : h ∈ (s.fresh f vs).handles) :
    h ∈ s.handles ∨ (h.flags = f ∧ ∀ c ∈ h.cells, c.1 = s.nblocks) := by
  simp only [AState.fresh, List.mem_append, List.mem_singleton] at hh
  rcases hh with hh | rfl
  · exact Or.inl hh
  · refine Or.inr ⟨rfl, ?_⟩
    intro c hc
    obtain ⟨i, _, rfl⟩ := List.mem_map.1 hc
    rfl

theorem getHandles_mem {l : List AHandle} : ∀ {hs : List Nat} {as : List AHandle}, getHandles l hs = some as →
    ∀ a ∈ as, a ∈ l
  | [], as, h => by
    obtain rfl : [] = as := by simpa [getHandles] using h
    simp
  | k :: hs, as, h => by
    rw [getHandles] at h
    cases hk : l[k]? with
    | none => rw [hk] at h; simp at h
    | some b =>
      cases hr : getHandles l hs with
      | none => rw [hk, hr] at h; simp at h
      | some bs =>
        rw [hk, hr] at h
        obtain rfl : b :: bs = as := by simpa using h
        intro a ha
        rcases List.mem_cons.1 ha with rfl | ha
        · exact List.mem_of_getElem? hk
        · exact getHandles_mem hr a ha

theorem inter_fold : ∀ (as : List AHandle) (f : AFlags), (f.write = false ∨ ∃ a ∈ as, a.flags.write = false) →
    (as.foldl (fun f b => f.inter b.flags) f).write = false
  | [], f, h => by
    rcases h with h | ⟨a, ha, _⟩
    · exact h
    · simp at ha
  | b :: as, f, h => by
    rw [List.foldl_cons]
    apply inter_fold as
    rcases h with h | ⟨a, ha, h⟩
    · left; simp [AFlags.inter, h]
    · rcases List.mem_cons.1 ha with rfl | ha
      · left; simp [AFlags.inter, h]
      · exact Or.inr ⟨a, ha, h⟩

/-- The handles an operation leaves are the old ones, one on a new block, or one whose cells and writability come
    from old ones. -/
theorem step_handles {s t : AState} {op : AccOp} (h : s.step op = .ok t) : s.nblocks ≤ t.nblocks ∧
    ∀ a ∈ t.handles, a ∈ s.handles ∨ (t.nblocks = s.nblocks + 1 ∧ ∀ c ∈ a.cells, c.1 = s.nblocks) ∨
      ∀ c ∈ a.cells, ∃ p ∈ s.handles, c ∈ p.cells ∧ (p.flags.write = false → a.flags.write = false) := by
  have hfresh : ∀ f vs, t = s.fresh f vs → s.nblocks ≤ t.nblocks ∧ ∀ a ∈ t.handles, a ∈ s.handles ∨
      (t.nblocks = s.nblocks + 1 ∧ ∀ c ∈ a.cells, c.1 = s.nblocks) ∨
      ∀ c ∈ a.cells, ∃ p ∈ s.handles, c ∈ p.cells ∧ (p.flags.write = false → a.flags.write = false) := by
    rintro f vs rfl
    refine ⟨Nat.le_succ _, fun a ha => ?_⟩
    rcases fresh_cells ha with ha | ⟨_, ha⟩
    · exact Or.inl ha
    · exact Or.inr (Or.inl ⟨rfl, ha⟩)
  cases op with
  | scalar v => exact hfresh _ _ (by simpa [AState.step] using h.symm)
  | list vs => exact hfresh _ _ (by simpa [AState.step] using h.symm)
  | empty f vs => exact hfresh _ _ (by simpa [AState.step] using h.symm)
  | tuple hs =>
    simp only [AState.step] at h
    cases hm : getHandles s.handles hs with
    | none => rw [hm] at h; simp at h
    | some l =>
      cases l with
      | nil => rw [hm] at h; simp at h
      | cons p ps =>
        rw [hm] at h
        simp only [Res.bind_eq_ok, Res.pure_eq, Res.ok.injEq] at h
        obtain ⟨_, hd, rfl⟩ := h
        refine ⟨Nat.le_refl _, fun a ha => ?_⟩
        simp only [List.mem_append, List.mem_singleton] at ha
        rcases ha with ha | rfl
        · exact Or.inl ha
        · refine Or.inr (Or.inr fun c hc => ?_)
          obtain ⟨q, hq, hcq⟩ := List.mem_flatMap.1 hc
          refine ⟨q, getHandles_mem hm q hq, hcq, fun hw => inter_fold ps p.flags ?_⟩
          rcases List.mem_cons.1 hq with rfl | hq
          · exact Or.inl hw
          · exact Or.inr ⟨q, hq, hw⟩
  | index k pick | reorder k pick | poke k i v | assign k vs | sort k vs | copy k f =>
    simp only [AState.step] at h
    cases hk : s.handles[k]? with
    | none => rw [hk] at h; simp at h
    | some p =>
      rw [hk] at h
      first
      | (obtain rfl : _ = t := by simpa using h
         refine ⟨Nat.le_refl _, fun a ha => ?_⟩
         simp only [List.mem_append, List.mem_singleton] at ha
         rcases ha with ha | rfl
         · exact Or.inl ha
         · exact Or.inr (Or.inr fun c hc => ⟨p, List.mem_of_getElem? hk, pickCells_mem hc, fun hw => hw⟩))
      | (simp only [Res.bind_eq_ok, Res.pure_eq, Res.ok.injEq] at h
         obtain ⟨_, _, rfl⟩ := h
         refine ⟨Nat.le_refl _, fun a ha => ?_⟩
         simp only [List.mem_append, List.mem_singleton] at ha
         rcases ha with ha | rfl
         · exact Or.inl ha
         · exact Or.inr (Or.inr fun c hc => ⟨p, List.mem_of_getElem? hk, pickCells_mem hc, fun hw => hw⟩))
      | exact hfresh _ _ (by simpa using h.symm)
      | (obtain rfl : _ = t := by simpa using h
         exact ⟨Nat.le_refl _, fun a ha => Or.inl ha⟩)
      | (simp only [Res.bind_eq_ok] at h
         obtain ⟨_, _, h⟩ := h
         cases hc : p.cells[i]? with
         | none => rw [hc] at h; simp at h
         | some c =>
           rw [hc] at h
           obtain rfl : _ = t := by simpa using h
           exact ⟨Nat.le_refl _, fun a ha => Or.inl ha⟩)

theorem step_valid {s t : AState} {op : AccOp} (h : s.step op = .ok t) (hv : s.Valid) : t.Valid := by
  obtain ⟨hn, hh⟩ := step_handles h
  intro a ha c hc
  rcases hh a ha with ha | ⟨he, ha⟩ | ha
  · exact Nat.lt_of_lt_of_le (hv a ha c hc) hn
  · rw [ha c hc, he]; exact Nat.lt_succ_self _
  · obtain ⟨p, hp, hcp, _⟩ := ha c hc
    exact Nat.lt_of_lt_of_le (hv p hp c hcp) hn

theorem step_protected {s t : AState} {op : AccOp} (h : s.step op = .ok t) {b : Nat} (hb : b < s.nblocks)
    (hp : WriteProtected s b) : WriteProtected t b := by
  obtain ⟨_, hh⟩ := step_handles h
  rintro a ha ⟨i, hi⟩
  rcases hh a ha with ha | ⟨_, ha⟩ | ha
  · exact hp a ha ⟨i, hi⟩
  · have := ha _ hi
    simp only at this
    omega
  · obtain ⟨p, hpm, hcp, hw⟩ := ha _ hi
    exact hw (hp p hpm ⟨i, hcp⟩)

theorem data_ok {a : AHandle} {u : Unit} (h : a.data = .ok u) : a.flags.write = true := by
  unfold AHandle.data at h
  split at h
  · assumption
  · simp at h

theorem step_mem {s t : AState} {op : AccOp} (h : s.step op = .ok t) (hop : ¬ op.Unchecked) {b : Nat} (hb : b < s.nblocks)
    (hp : WriteProtected s b) : t.mem b = s.mem b := by
  have hfresh : ∀ f vs, t = s.fresh f vs → t.mem b = s.mem b := by
    rintro f vs rfl
    funext i
    simp only [AState.fresh]
    rw [if_neg (by omega)]
  cases op with
  | scalar v => exact hfresh _ _ (by simpa [AState.step] using h.symm)
  | list vs => exact hfresh _ _ (by simpa [AState.step] using h.symm)
  | empty f vs => exact hfresh _ _ (by simpa [AState.step] using h.symm)
  | assign k vs => exact absurd trivial hop
  | sort k vs => exact absurd trivial hop
  | tuple hs =>
    simp only [AState.step] at h
    cases hm : getHandles s.handles hs with
    | none => rw [hm] at h; simp at h
    | some l =>
      cases l with
      | nil => rw [hm] at h; simp at h
      | cons p ps =>
        rw [hm] at h
        simp only [Res.bind_eq_ok, Res.pure_eq, Res.ok.injEq] at h
        obtain ⟨_, hd, rfl⟩ := h
        rfl
  | poke k i v =>
    simp only [AState.step] at h
    cases hk : s.handles[k]? with
    | none => rw [hk] at h; simp at h
    | some p =>
      rw [hk] at h
      simp only [Res.bind_eq_ok] at h
      obtain ⟨_, hd, h⟩ := h
      cases hc : p.cells[i]? with
      | none => rw [hc] at h; simp at h
      | some c =>
        rw [hc] at h
        obtain rfl : _ = t := by simpa using h
        refine writeCells_other _ _ _ _ ?_
        intro j hj
        rw [List.mem_singleton] at hj
        have := hp p (List.mem_of_getElem? hk) ⟨j, hj ▸ List.mem_of_getElem? hc⟩
        rw [data_ok hd] at this
        simp at this
  | index k pick | reorder k pick | copy k f =>
    simp only [AState.step] at h
    cases hk : s.handles[k]? with
    | none => rw [hk] at h; simp at h
    | some p =>
      rw [hk] at h
      first
      | exact hfresh _ _ (by simpa using h.symm)
      | (obtain rfl : _ = t := by simpa using h
         rfl)
      | (simp only [Res.bind_eq_ok, Res.pure_eq, Res.ok.injEq] at h
         obtain ⟨_, _, rfl⟩ := h
         rfl)

/-! ## Theorems -/

/-- If at some moment no array of the program may write to a memory block, then none ever will, and its contents
    never change — as long as nobody assigns to its arrays or sorts them. -/
theorem readonly_kept_partial (s u : AState) (ops : List AccOp) (b : Nat) (hb : b < s.nblocks) (hp : WriteProtected s b)
    (hops : ∀ op ∈ ops, ¬ op.Unchecked) (h : AHist s ops u) :
    WriteProtected u b ∧ ∀ i, u.mem b i = s.mem b i := by
  induction h with
  | nil s => exact ⟨hp, fun _ => rfl⟩
  | done s t u op ops hs _ ih =>
    have hb' := Nat.lt_of_lt_of_le hb (step_handles hs).1
    obtain ⟨h1, h2⟩ := ih hb' (step_protected hs hb hp) (fun op' ho => hops op' (List.mem_cons_of_mem _ ho))
    refine ⟨h1, fun i => ?_⟩
    rw [h2 i, step_mem hs (hops op (List.mem_cons_self ..)) hb hp]
  | raised s u e op ops _ _ ih => exact ih hb hp (fun op' ho => hops op' (List.mem_cons_of_mem _ ho))

/-- Scalars made from C++ values and copies asked for as read-only start out protected, with the right values. -/
theorem fresh_protected (s : AState) (hv : s.Valid) (f : AFlags) (hf : f.write = false) (vs : List Int) :
    WriteProtected (s.fresh f vs) s.nblocks ∧ ∀ i : Nat, i < vs.length → (s.fresh f vs).mem s.nblocks i = vs[i]?.getD 0 := by
  constructor
  · rintro a ha ⟨i, hi⟩
    rcases fresh_cells ha with ha | ⟨hfl, _⟩
    · exact absurd (hv a ha _ hi) (Nat.lt_irrefl _)
    · rw [hfl, hf]
  · intro i _
    simp [AState.fresh]

/-- A read-only copy: immutable, and showing the source's values. -/
theorem readonly_copy (s : AState) (k : Nat) (a : AHandle) (hk : s.handles[k]? = some a) :
    ∃ (t : AState) (c : AHandle), s.step (.copy k (some ⟨true, false, false⟩)) = .ok t ∧ t.handles = s.handles ++ [c] ∧
      c.flags = ⟨true, false, true⟩ ∧ t.values c = s.values a := by
  refine ⟨_, _, by simp only [AState.step, hk]; rfl, rfl, rfl, ?_⟩
  simp only [AState.values, AState.fresh, copyFlags, if_true, List.map_map, List.length_map]
  apply List.ext_getElem?
  intro i
  by_cases hi : i < a.cells.length
  · simp [List.getElem?_map, List.getElem?_range hi, hi]
  · have hi' : a.cells.length ≤ i := by omega
    simp [List.getElem?_eq_none, hi']

/-- A write through the data pointer is refused exactly if the array is not writable. -/
theorem poke_checked (s : AState) (k i : Nat) (v : Int) (a : AHandle) (hk : s.handles[k]? = some a) (hi : i < a.cells.length) :
    (a.flags.write = false → s.step (.poke k i v) = .throw .runtime) ∧
    (a.flags.write = true → ∃ t, s.step (.poke k i v) = .ok t ∧ (t.values a)[i]? = some v) := by
  constructor
  · intro hw
    simp [AState.step, hk, AHandle.data, hw]
  · intro hw
    have hc := List.getElem?_eq_getElem hi
    refine ⟨_, by simp only [AState.step, hk, AHandle.data, hw, if_true, Res.bind_ok, hc]; rfl, ?_⟩
    simp [AState.values, writeCells, hi]

/-- Assignment (also `+=`, `assign_na` and any callable with `dst`) and `sort` change arrays that are immutable. -/
theorem readonly_assign_violated (s : AState) (k : Nat) (a : AHandle) (hk : s.handles[k]? = some a) (b i : Nat)
    (hc : a.cells = [(b, i)]) (v : Int) :
    (∃ t, s.step (.assign k [v]) = .ok t ∧ t.values a = [v]) ∧ ∃ t, s.step (.sort k [v]) = .ok t ∧ t.values a = [v] := by
  constructor <;>
  · refine ⟨_, by simp only [AState.step, hk]; rfl, ?_⟩
    simp [AState.values, hc, writeCells]

/-- A read-only array cannot be transposed, reshaped or given a new axis, although that writes nothing. -/
theorem readonly_transpose_violated (s : AState) (k : Nat) (a : AHandle) (hk : s.handles[k]? = some a)
    (hw : a.flags.write = false) (pick : List Nat) : s.step (.reorder k pick) = .throw .runtime := by
  simp [AState.step, hk, AHandle.data, hw]

/-- Views of writable arrays: same flags, the selected elements. -/
theorem view_inherits (s : AState) (k : Nat) (a : AHandle) (hk : s.handles[k]? = some a) (pick : List Nat)
    (hpick : ∀ i ∈ pick, i < a.cells.length) (op : AccOp) (hop : op = .index k pick ∨ (op = .reorder k pick ∧ a.flags.write = true)) :
    ∃ (t : AState) (v : AHandle), s.step op = .ok t ∧ t.handles = s.handles ++ [v] ∧ v.flags = a.flags ∧
      t.mem = s.mem ∧ t.values v = pick.map fun i => (s.values a)[i]?.getD 0 := by
  have hval : ∀ (t : AState), t.mem = s.mem → ∀ v : AHandle, v.cells = pickCells a.cells pick →
      t.values v = pick.map fun i => (s.values a)[i]?.getD 0 := by
    intro t ht v hv
    simp only [AState.values, ht, hv]
    clear hop hv
    induction pick with
    | nil => rfl
    | cons i pick ih =>
      have hi := hpick i (List.mem_cons_self ..)
      have := ih (fun j hj => hpick j (List.mem_cons_of_mem _ hj))
      simp only [pickCells] at this ⊢
      rw [List.filterMap_cons_some (List.getElem?_eq_getElem hi), List.map_cons, this, List.map_cons]
      simp [hi]
  rcases hop with rfl | ⟨rfl, hw⟩
  · exact ⟨{ s with handles := s.handles ++ [⟨a.flags, pickCells a.cells pick⟩] }, ⟨a.flags, pickCells a.cells pick⟩,
      by simp only [AState.step, hk], rfl, rfl, rfl, hval _ rfl _ rfl⟩
  · exact ⟨{ s with handles := s.handles ++ [⟨a.flags, pickCells a.cells pick⟩] }, ⟨a.flags, pickCells a.cells pick⟩,
      by simp only [AState.step, hk, AHandle.data, hw, if_true, Res.bind_ok, Res.pure_eq], rfl, rfl, rfl, hval _ rfl _ rfl⟩

/-- A new scalar, and an array allocated without write access, are protected from the start. -/
theorem readonly_start (s : AState) (hv : s.Valid) (f : AFlags) (hf : f.write = false) (vs : List Int) (v : Int) :
    (∃ t, s.step (.empty f vs) = .ok t ∧ WriteProtected t s.nblocks ∧ ∀ i : Nat, i < vs.length → t.mem s.nblocks i = vs[i]?.getD 0) ∧
    ∃ t, s.step (.scalar v) = .ok t ∧ WriteProtected t s.nblocks ∧ t.mem s.nblocks 0 = v := by
  have h1 := fresh_protected s hv f hf vs
  have h2 := fresh_protected s hv ⟨true, false, true⟩ rfl [v]
  exact ⟨⟨_, rfl, h1.1, h1.2⟩, ⟨_, rfl, h2.1, h2.2 0 (by simp)⟩⟩

/-- The program `nd::array a = 7; b = a; c = a.eval_copy(read)`. -/
def exAccess : AState := ⟨[], 0, fun _ _ => 0⟩

example : WriteProtected (exAccess.fresh ⟨true, false, true⟩ [7]) 0 :=
  (fresh_protected exAccess (by intro h hh; simp [exAccess] at hh) _ rfl [7]).1

example : ∃ u, AHist (exAccess.fresh ⟨true, false, true⟩ [7]) [.index 0 [0], .poke 1 0 9, .copy 0 none, .poke 2 0 5] u := by
  refine ⟨_, .done _ _ _ _ _ rfl (.raised _ _ .runtime _ _ rfl (.done _ _ _ _ _ rfl (.done _ _ _ _ _ rfl (.nil _))))⟩

end Dynd
