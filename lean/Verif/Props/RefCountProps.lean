import Verif.Model.RefCount
import Verif.Props.RecordProps
import Mathlib.Data.List.Perm.Subperm
/-
Lifetimes of reference-counted blocks (C91).
-/
namespace Dynd

/-- The references held by a live block. -/
def refsOf : Option Blk → List Nat
  | none => []
  | some k => k.refs.filterMap id

/-- The block is live. -/
def Live (h : RHeap) (b : Nat) : Prop := ∃ k, h[b]? = some (some k)

/-- The number of references to block `b`: from the roots (pointers outside of blocks) and from members of live blocks. -/
def numRefs (h : RHeap) (roots : List Nat) (b : Nat) : Nat := roots.count b + (h.flatMap refsOf).count b

/-- The state of the heap with the given roots is as it should be. -/
structure RInv (h : RHeap) (roots : List Nat) : Prop where
  /-- the use count of a live block is the number of references to it, and there is one -/
  counts : ∀ (b : Nat) (k : Blk), h[b]? = some (some k) → k.count = (numRefs h roots b : Int) ∧ 0 < numRefs h roots b
  /-- there is no reference to a freed block -/
  dead : ∀ b, ¬ Live h b → numRefs h roots b = 0
  /-- members point to older blocks -/
  acyc : ∀ (b : Nat) (k : Blk), h[b]? = some (some k) → ∀ r ∈ k.refs.filterMap id, r < b

theorem flatMap_set_count (h : RHeap) (i : Nat) (o o' : Option Blk) (hi : h[i]? = some o) (x : Nat) :
    ((h.set i o').flatMap refsOf).count x + (refsOf o).count x = (h.flatMap refsOf).count x + (refsOf o').count x := by
  induction h generalizing i with
  | nil => simp at hi
  | cons a h ih =>
    cases i with
    | zero =>
      simp only [List.getElem?_cons_zero, Option.some.injEq] at hi
      subst hi
      simp only [List.set_cons_zero, List.flatMap_cons, List.count_append]
      omega
    | succ i =>
      simp only [List.getElem?_cons_succ] at hi
      have := ih i hi
      simp only [List.set_cons_succ, List.flatMap_cons, List.count_append]
      omega

theorem RInv.perm {h : RHeap} {r r' : List Nat} (hp : r.Perm r') (hi : RInv h r) : RInv h r' := by
  have e : ∀ b, numRefs h r b = numRefs h r' b := fun b => by unfold numRefs; rw [hp.count_eq]
  exact ⟨fun b k hb => by rw [← e]; exact hi.counts b k hb, fun b hb => by rw [← e]; exact hi.dead b hb, hi.acyc⟩

theorem RInv.live_of_root {h : RHeap} {roots : List Nat} (hi : RInv h roots) {b : Nat} (hb : b ∈ roots) : Live h b := by
  by_contra hd
  have := hi.dead b hd
  unfold numRefs at this
  have := List.count_pos_iff.2 hb
  omega

theorem count_flat_pos {h : RHeap} {b c : Nat} {k : Blk} (hc : h[c]? = some (some k)) (hm : some b ∈ k.refs) :
    0 < (h.flatMap refsOf).count b := by
  rw [List.count_pos_iff, List.mem_flatMap]
  exact ⟨some k, List.mem_of_getElem? hc, List.mem_filterMap.2 ⟨some b, hm, rfl⟩⟩

theorem RInv.live_of_member {h : RHeap} {roots : List Nat} (hi : RInv h roots) {b c : Nat} {k : Blk}
    (hc : h[c]? = some (some k)) (hm : some b ∈ k.refs) : Live h b := by
  by_contra hd
  have := hi.dead b hd
  unfold numRefs at this
  have := count_flat_pos hc hm
  omega

/-- Changing only the count of a live block. -/
theorem RInv.setCount {h : RHeap} {roots roots' : List Nat} {b : Nat} {k : Blk} (hb : h[b]? = some (some k)) (c : Int)
    (hi : RInv h roots) (hc : c = (numRefs h roots' b : Int)) (hpos : 0 < numRefs h roots' b)
    (hne : ∀ x, x ≠ b → numRefs h roots' x = numRefs h roots x) :
    RInv (h.set b (some { k with count := c })) roots' := by
  have hn : ∀ x, numRefs (h.set b (some { k with count := c })) roots' x = numRefs h roots' x := by
    intro x
    unfold numRefs
    have := flatMap_set_count h b (some k) (some { k with count := c }) hb x
    simp only [refsOf] at this
    omega
  have hlt := lt_of_some hb
  have hlive : ∀ x, Live (h.set b (some { k with count := c })) x ↔ Live h x := by
    intro x
    unfold Live
    by_cases hx : x = b
    · subst hx
      rw [List.getElem?_set_self hlt, hb]
      exact ⟨fun _ => ⟨_, rfl⟩, fun _ => ⟨_, rfl⟩⟩
    · rw [List.getElem?_set_ne (fun e => hx e.symm)]
  refine ⟨?_, ?_, ?_⟩
  · intro x k' hx
    rw [hn]
    by_cases hxb : x = b
    · subst hxb
      rw [List.getElem?_set_self hlt, Option.some.injEq, Option.some.injEq] at hx
      subst hx
      exact ⟨hc, hpos⟩
    · rw [List.getElem?_set_ne (fun e => hxb e.symm)] at hx
      rw [hne x hxb]
      exact hi.counts x k' hx
  · intro x hx
    rw [hlive] at hx
    rw [hn]
    have hxb : x ≠ b := fun e => hx (e ▸ ⟨k, hb⟩)
    rw [hne x hxb]
    exact hi.dead x hx
  · intro x k' hx
    by_cases hxb : x = b
    · subst hxb
      rw [List.getElem?_set_self hlt, Option.some.injEq, Option.some.injEq] at hx
      subst hx
      exact hi.acyc x k hb
    · rw [List.getElem?_set_ne (fun e => hxb e.symm)] at hx
      exact hi.acyc x k' hx

/-- `h'` results from `h` by changing counts and freeing blocks only. -/
def Shrinks (h h' : RHeap) : Prop :=
  h'.length = h.length ∧ ∀ (b : Nat) (k' : Blk), h'[b]? = some (some k') → ∃ k : Blk, h[b]? = some (some k) ∧ k'.refs = k.refs

theorem Shrinks.refl (h : RHeap) : Shrinks h h := ⟨rfl, fun _ k hk => ⟨k, hk, rfl⟩⟩

theorem Shrinks.trans {a b c : RHeap} (h1 : Shrinks a b) (h2 : Shrinks b c) : Shrinks a c := by
  refine ⟨h2.1.trans h1.1, fun x k hk => ?_⟩
  obtain ⟨k1, hk1, e1⟩ := h2.2 x k hk
  obtain ⟨k2, hk2, e2⟩ := h1.2 x k1 hk1
  exact ⟨k2, hk2, e1.trans e2⟩

theorem Shrinks.set {h : RHeap} {b : Nat} {k : Blk} (hb : h[b]? = some (some k)) (c : Int) :
    Shrinks h (h.set b (some { k with count := c })) := by
  refine ⟨by simp, fun x k' hx => ?_⟩
  by_cases hxb : x = b
  · subst hxb
    rw [List.getElem?_set_self (lt_of_some hb), Option.some.injEq, Option.some.injEq] at hx
    subst hx
    exact ⟨k, hb, rfl⟩
  · rw [List.getElem?_set_ne (fun e => hxb e.symm)] at hx
    exact ⟨k', hx, rfl⟩

theorem Shrinks.free {h : RHeap} {b : Nat} : Shrinks h (h.set b none) := by
  refine ⟨by simp, fun x k' hx => ?_⟩
  by_cases hxb : x = b
  · subst hxb
    rw [List.getElem?_set] at hx
    simp only [if_true] at hx
    split at hx <;> simp at hx
  · rw [List.getElem?_set_ne (fun e => hxb e.symm)] at hx
    exact ⟨k', hx, rfl⟩

theorem retain_ok {h : RHeap} {roots : List Nat} {b : Nat} (hi : RInv h roots) (hl : Live h b) :
    ∃ h', retain h b = .ok h' ∧ RInv h' (b :: roots) ∧ Shrinks h h' ∧ ∀ x, Live h x → Live h' x := by
  obtain ⟨k, hb⟩ := hl
  refine ⟨_, by unfold retain; rw [hb], hi.setCount hb _ ?_ ?_ ?_, .set hb _, ?_⟩
  · rw [(hi.counts b k hb).1]
    unfold numRefs
    rw [List.count_cons_self]
    omega
  · unfold numRefs
    rw [List.count_cons_self]
    omega
  · intro x hx
    unfold numRefs
    rw [List.count_cons_of_ne (fun e => hx e.symm)]
  · rintro x ⟨k', hx⟩
    by_cases hxb : x = b
    · subst hxb
      exact ⟨_, List.getElem?_set_self (lt_of_some hb)⟩
    · exact ⟨k', by rw [List.getElem?_set_ne (fun e => hxb e.symm)]; exact hx⟩

mutual
/-- Releasing a reference that is there works, and leaves a heap in order without it. -/
theorem release_ok : ∀ (f : Nat) (h : RHeap) (b : Nat) (roots : List Nat), b < f → RInv h (b :: roots) →
    ∃ h', release f h b = .ok h' ∧ RInv h' roots ∧ Shrinks h h'
  | 0, _, _, _, hf, _ => absurd hf (Nat.not_lt_zero _)
  | f + 1, h, b, roots, hf, hi => by
    obtain ⟨k, hb⟩ := hi.live_of_root List.mem_cons_self
    obtain ⟨hc, hp⟩ := hi.counts b k hb
    have hn : numRefs h (b :: roots) b = numRefs h roots b + 1 := by
      unfold numRefs; rw [List.count_cons_self]; omega
    have hne : ∀ x, x ≠ b → numRefs h roots x = numRefs h (b :: roots) x := by
      intro x hx
      unfold numRefs
      rw [List.count_cons_of_ne (fun e => hx e.symm)]
    unfold release
    rw [hb]
    simp only
    by_cases h1 : k.count - 1 = 0
    · rw [if_pos h1]
      have hz : numRefs h roots b = 0 := by omega
      have hlt := lt_of_some hb
      have hrefs := hi.acyc b k hb
      have hself : (k.refs.filterMap id).count b = 0 := by
        rw [List.count_eq_zero]
        intro hm
        exact Nat.lt_irrefl _ (hrefs b hm)
      have hnew : ∀ x, numRefs (h.set b none) (k.refs.filterMap id ++ roots) x = numRefs h roots x := by
        intro x
        unfold numRefs
        have := flatMap_set_count h b (some k) none hb x
        simp only [refsOf, List.count_nil] at this
        rw [List.count_append]
        omega
      have hi' : RInv (h.set b none) (k.refs.filterMap id ++ roots) := by
        refine ⟨?_, ?_, ?_⟩
        · intro x k' hx
          by_cases hxb : x = b
          · subst hxb
            rw [List.getElem?_set_self hlt] at hx
            cases hx
          · rw [List.getElem?_set_ne (fun e => hxb e.symm)] at hx
            rw [hnew, hne x hxb]
            exact hi.counts x k' hx
        · intro x hx
          rw [hnew]
          by_cases hxb : x = b
          · rw [hxb]; exact hz
          · rw [hne x hxb]
            refine hi.dead x fun ⟨k', hk'⟩ => hx ⟨k', ?_⟩
            rw [List.getElem?_set_ne (fun e => hxb e.symm)]; exact hk'
        · intro x k' hx
          by_cases hxb : x = b
          · subst hxb
            rw [List.getElem?_set_self hlt] at hx
            cases hx
          · rw [List.getElem?_set_ne (fun e => hxb e.symm)] at hx
            exact hi.acyc x k' hx
      obtain ⟨h', e1, e2, e3⟩ := releaseList_ok f k.refs (h.set b none) roots
        (fun r hr => by have := hrefs r hr; omega) hi'
      exact ⟨h', e1, e2, Shrinks.free.trans e3⟩
    · rw [if_neg h1]
      refine ⟨_, rfl, hi.setCount hb _ ?_ ?_ hne, .set hb _⟩
      · omega
      · omega
/-- The same for the members of a destroyed block. -/
theorem releaseList_ok : ∀ (f : Nat) (rs : List (Option Nat)) (h : RHeap) (roots : List Nat),
    (∀ r ∈ rs.filterMap id, r < f) → RInv h (rs.filterMap id ++ roots) →
    ∃ h', releaseList (release f) rs h = .ok h' ∧ RInv h' roots ∧ Shrinks h h'
  | _, [], h, _, _, hi => ⟨h, rfl, hi, .refl h⟩
  | f, none :: rs, h, roots, hr, hi => releaseList_ok f rs h roots hr hi
  | f, some r :: rs, h, roots, hr, hi => by
    obtain ⟨h1, e1, i1, s1⟩ := release_ok f h r (rs.filterMap id ++ roots) (hr r List.mem_cons_self) hi
    obtain ⟨h2, e2, i2, s2⟩ := releaseList_ok f rs h1 roots (fun x hx => hr x (List.mem_cons_of_mem _ hx)) i1
    refine ⟨h2, ?_, i2, s1.trans s2⟩
    unfold releaseList
    rw [e1]
    exact e2
end

/-- A block is in use: some root points to it, or a member of a block in use does. -/
inductive InUse (h : RHeap) (roots : List Nat) : Nat → Prop where
  | root {b : Nat} (hb : b ∈ roots) : InUse h roots b
  | member {b c : Nat} {k : Blk} (hc : InUse h roots c) (hk : h[c]? = some (some k)) (hm : some b ∈ k.refs) : InUse h roots b

/-- In a heap in order, exactly the blocks in use are live. -/
theorem RInv.live_iff_inUse {h : RHeap} {roots : List Nat} (hi : RInv h roots) (b : Nat) : Live h b ↔ InUse h roots b := by
  constructor
  · have key : ∀ n b, h.length - b ≤ n → Live h b → InUse h roots b := by
      intro n
      induction n with
      | zero =>
        rintro b hn ⟨k, hk⟩
        have := lt_of_some hk
        omega
      | succ n ih =>
        rintro b hn ⟨k, hk⟩
        have hp := (hi.counts b k hk).2
        unfold numRefs at hp
        by_cases hr : b ∈ roots
        · exact .root hr
        · have h0 := List.count_eq_zero.2 hr
          have : 0 < (h.flatMap refsOf).count b := by omega
          rw [List.count_pos_iff, List.mem_flatMap] at this
          obtain ⟨o, ho, hm⟩ := this
          cases o with
          | none => cases hm
          | some k' =>
            obtain ⟨c, hc⟩ := List.getElem?_of_mem ho
            have hlt := hi.acyc c k' hc b hm
            have hcl := lt_of_some hc
            obtain ⟨o, ho, e⟩ := List.mem_filterMap.1 hm
            simp only [id] at e
            subst e
            exact .member (ih c (by omega) ⟨k', hc⟩) hc ho
    exact key _ b (Nat.le_refl _)
  · intro hu
    induction hu with
    | root hb => exact hi.live_of_root hb
    | member _ hk hm _ => exact hi.live_of_member hk hm

/-- The roots of a program state: the pointers held by its variables. -/
def RState.roots (s : RState) : List Nat := s.vars.filterMap id

/-- Some other pointer refers to the block of variable `v` as well. -/
def NotLast (s : RState) (v : Nat) : Prop :=
  ∀ b, s.vars[v]? = some (some b) →
    (∃ w, w ≠ v ∧ s.vars[w]? = some (some b)) ∨ ∃ (c : Nat) (k : Blk), s.heap[c]? = some (some k) ∧ some b ∈ k.refs

/-- The operations a program may perform in a state: existing variables and members; members are made to point to older
    blocks only; and an assignment whose source is the destination, or inside the block the destination points to, is made
    only if the destination is not the last pointer to its block. -/
def Allowed (s : RState) : PtrOp → Prop
  | .default => True
  | .make ms => ∀ m ∈ ms, m < s.vars.length
  | .copy src => src < s.vars.length
  | .move src => src < s.vars.length
  | .destroy v => v < s.vars.length
  | .assign v src => v < s.vars.length ∧ src < s.vars.length ∧ (v = src → NotLast s v)
  | .assignMember v w i => v < s.vars.length ∧
      (∃ (b : Nat) (k : Blk), s.vars[w]? = some (some b) ∧ s.heap[b]? = some (some k) ∧ i < k.refs.length) ∧ (v = w → NotLast s v)
  | .moveAssign v src => v < s.vars.length ∧ src < s.vars.length
  | .assignRaw v src => v < s.vars.length ∧ src < s.vars.length ∧ (v = src → NotLast s v)
  | .swap v w => v < s.vars.length ∧ w < s.vars.length
  | .setMember v i src => src < s.vars.length ∧ ∃ (b : Nat) (k : Blk), s.vars[v]? = some (some b) ∧
      s.heap[b]? = some (some k) ∧ i < k.refs.length ∧ ∀ r, s.vars[src]? = some (some r) → r < b

/-- States a program can get into. -/
inductive PtrReach : RState → Prop where
  | start : PtrReach ⟨[], []⟩
  | step {s s' : RState} {op : PtrOp} (h : PtrReach s) (ha : Allowed s op) (hs : ptrStep s op = .ok s') : PtrReach s'
  | view {s s' : RState} {v : Nat} {rest : List (Option Nat)} (h : PtrReach s) (hr : ∀ b, some b ∈ rest → Live s.heap b)
      (hs : makeView s v rest = .ok s') : PtrReach s'

theorem vars_perm {vars : List (Option Nat)} {v : Nat} {p : Option Nat} (h : vars[v]? = some p) :
    (vars.filterMap id).Perm (p.toList ++ (vars.set v none).filterMap id) := by
  induction vars generalizing v with
  | nil => simp at h
  | cons a vars ih =>
    cases v with
    | zero =>
      simp only [List.getElem?_cons_zero, Option.some.injEq] at h
      subst h
      cases a <;> simp
    | succ v =>
      simp only [List.getElem?_cons_succ] at h
      have := ih h
      cases a with
      | none => simpa using this
      | some x =>
        simp only [List.set_cons_succ, List.filterMap_cons, id]
        refine (this.cons x).trans ?_
        cases p with
        | none => simp
        | some y => simpa using List.Perm.swap y x _

theorem set_perm {vars : List (Option Nat)} {v : Nat} {q : Option Nat} (h : v < vars.length) :
    ((vars.set v q).filterMap id).Perm (q.toList ++ (vars.set v none).filterMap id) := by
  have := vars_perm (vars := vars.set v q) (v := v) (p := q) (List.getElem?_set_self h)
  rwa [List.set_set] at this

theorem mem_set_none {vars : List (Option Nat)} {v w b : Nat} (hw : vars[w]? = some (some b)) (hne : w ≠ v) :
    b ∈ (vars.set v none).filterMap id := by
  refine List.mem_filterMap.2 ⟨some b, ?_, rfl⟩
  refine List.mem_of_getElem? (i := w) ?_
  rw [List.getElem?_set_ne (fun e => hne e.symm)]
  exact hw

theorem roots_lt {h : RHeap} {roots : List Nat} (hi : RInv h roots) {b : Nat} (hb : b ∈ roots) : b < h.length := by
  obtain ⟨k, hk⟩ := hi.live_of_root hb
  exact lt_of_some hk

theorem releasePtr_ok {h : RHeap} {p : Option Nat} {roots : List Nat} (hi : RInv h (p.toList ++ roots)) :
    ∃ h', releasePtr h p = .ok h' ∧ RInv h' roots ∧ Shrinks h h' := by
  cases p with
  | none => exact ⟨h, rfl, hi, .refl h⟩
  | some b =>
    have hlt := roots_lt hi (b := b) (by simp)
    exact release_ok (h.length + 1) h b roots (by omega) hi

theorem retainPtr_ok {h : RHeap} {p : Option Nat} {roots : List Nat} (hi : RInv h roots) (hl : ∀ b, p = some b → Live h b) :
    ∃ h', retainPtr h p = .ok h' ∧ RInv h' (p.toList ++ roots) ∧ Shrinks h h' ∧ ∀ x, Live h x → Live h' x := by
  cases p with
  | none => exact ⟨h, rfl, hi, .refl h, fun _ hx => hx⟩
  | some b => exact retain_ok hi (hl b rfl)

theorem retainAll_ok {ps : List (Option Nat)} {h : RHeap} {roots : List Nat} (hi : RInv h roots)
    (hl : ∀ b, some b ∈ ps → Live h b) :
    ∃ h', retainAll ps h = .ok h' ∧ RInv h' (ps.filterMap id ++ roots) ∧ Shrinks h h' ∧ ∀ x, Live h x → Live h' x := by
  induction ps generalizing h roots with
  | nil => exact ⟨h, rfl, hi, .refl h, fun _ hx => hx⟩
  | cons p ps ih =>
    obtain ⟨h1, e1, i1, s1, l1⟩ := retainPtr_ok (p := p) hi (fun b e => hl b (by rw [e]; exact List.mem_cons_self))
    obtain ⟨h2, e2, i2, s2, l2⟩ := ih i1 (fun b hb => l1 b (hl b (List.mem_cons_of_mem _ hb)))
    refine ⟨h2, by unfold retainAll; rw [e1]; exact e2, i2.perm ?_, s1.trans s2, fun x hx => l2 x (l1 x hx)⟩
    cases p with
    | none => simp
    | some b => simp [List.perm_middle]

/-- A new block whose members were retained before, with the pointer that adopts it. -/
theorem RInv.make {h : RHeap} {ps : List (Option Nat)} {roots : List Nat} (hi : RInv h (ps.filterMap id ++ roots)) :
    RInv (h ++ [some ⟨1, ps⟩]) (h.length :: roots) := by
  have hn : ∀ x, x ≠ h.length → numRefs (h ++ [some ⟨1, ps⟩]) (h.length :: roots) x = numRefs h (ps.filterMap id ++ roots) x := by
    intro x hx
    unfold numRefs
    rw [List.count_cons_of_ne (fun e => hx e.symm), List.flatMap_append, List.count_append, List.count_append]
    simp only [List.flatMap_cons, List.flatMap_nil, List.append_nil, refsOf]
    omega
  have hnew : numRefs (h ++ [some ⟨1, ps⟩]) (h.length :: roots) h.length = 1 := by
    have h0 := hi.dead h.length (fun ⟨k, hk⟩ => Nat.lt_irrefl _ (lt_of_some hk))
    unfold numRefs at h0 ⊢
    rw [List.count_append] at h0
    rw [List.count_cons_self, List.flatMap_append, List.count_append]
    simp only [List.flatMap_cons, List.flatMap_nil, List.append_nil, refsOf]
    omega
  have hget : ∀ x k, (h ++ [some (⟨1, ps⟩ : Blk)])[x]? = some (some k) →
      (x < h.length ∧ h[x]? = some (some k)) ∨ (x = h.length ∧ k = ⟨1, ps⟩) := by
    intro x k hx
    by_cases hlt : x < h.length
    · rw [List.getElem?_append_left hlt] at hx
      exact .inl ⟨hlt, hx⟩
    · have hxe : x = h.length := by
        have := lt_of_some hx
        simp only [List.length_append, List.length_singleton] at this
        omega
      subst hxe
      rw [List.getElem?_append_right (Nat.le_refl _), Nat.sub_self] at hx
      simp only [List.getElem?_cons_zero, Option.some.injEq] at hx
      exact .inr ⟨rfl, hx.symm⟩
  refine ⟨?_, ?_, ?_⟩
  · intro x k hx
    rcases hget x k hx with ⟨hlt, hx⟩ | ⟨rfl, rfl⟩
    · rw [hn x (by omega)]
      exact hi.counts x k hx
    · rw [hnew]
      exact ⟨rfl, Nat.one_pos⟩
  · intro x hx
    by_cases hxe : x = h.length
    · subst hxe
      exact absurd ⟨⟨1, ps⟩, by rw [List.getElem?_append_right (Nat.le_refl _), Nat.sub_self]; rfl⟩ hx
    · rw [hn x hxe]
      refine hi.dead x fun ⟨k, hk⟩ => hx ⟨k, ?_⟩
      rw [List.getElem?_append_left (lt_of_some hk)]
      exact hk
  · intro x k hx
    rcases hget x k hx with ⟨hlt, hx⟩ | ⟨rfl, rfl⟩
    · exact hi.acyc x k hx
    · intro r hr
      exact roots_lt hi (List.mem_append_left _ hr)

theorem readVars_ok {vars : List (Option Nat)} {ms : List Nat} (h : ∀ m ∈ ms, m < vars.length) :
    ∃ ps, readVars vars ms = .ok ps ∧ ∀ p ∈ ps, p ∈ vars := by
  induction ms with
  | nil => exact ⟨[], rfl, by simp⟩
  | cons m ms ih =>
    obtain ⟨ps, e, hp⟩ := ih (fun x hx => h x (List.mem_cons_of_mem _ hx))
    obtain ⟨p, hm⟩ := some_of_lt (h m List.mem_cons_self)
    refine ⟨p :: ps, by unfold readVars; rw [hm, e]; rfl, fun x hx => ?_⟩
    rcases List.mem_cons.1 hx with rfl | hx
    · exact List.mem_of_getElem? hm
    · exact hp x hx

/-- Releasing one of several references does not free the block. -/
theorem release_keeps {f : Nat} {h h' : RHeap} {b : Nat} {roots : List Nat} (hi : RInv h (b :: roots))
    (hm : 0 < numRefs h roots b) (hr : release (f + 1) h b = .ok h') :
    ∃ k k', h[b]? = some (some k) ∧ h'[b]? = some (some k') ∧ k'.refs = k.refs := by
  obtain ⟨k, hb⟩ := hi.live_of_root List.mem_cons_self
  obtain ⟨hc, -⟩ := hi.counts b k hb
  have hn : numRefs h (b :: roots) b = numRefs h roots b + 1 := by
    unfold numRefs; rw [List.count_cons_self]; omega
  unfold release at hr
  rw [hb] at hr
  simp only at hr
  rw [if_neg (by omega)] at hr
  simp only [Res.ok.injEq] at hr
  subst hr
  exact ⟨k, _, hb, List.getElem?_set_self (lt_of_some hb), rfl⟩

theorem notLast_pos {s : RState} {v b : Nat} (hn : NotLast s v) (hv : s.vars[v]? = some (some b)) :
    0 < numRefs s.heap ((s.vars.set v none).filterMap id) b := by
  unfold numRefs
  rcases hn b hv with ⟨w, hne, hw⟩ | ⟨c, k, hc, hm⟩
  · have := List.count_pos_iff.2 (mem_set_none hw hne)
    omega
  · have := count_flat_pos hc hm
    omega

/-- The heap with other members in block `b`. -/
def updRefs (h : RHeap) (b : Nat) (R : List (Option Nat)) : RHeap :=
  match h[b]? with
  | some (some k) => h.set b (some { k with refs := R })
  | _ => h

theorem updRefs_live {h : RHeap} {b : Nat} {k : Blk} {R : List (Option Nat)} (hb : h[b]? = some (some k)) :
    updRefs h b R = h.set b (some { k with refs := R }) := by
  unfold updRefs; rw [hb]

theorem updRefs_length {h : RHeap} {b : Nat} {R : List (Option Nat)} : (updRefs h b R).length = h.length := by
  unfold updRefs; split <;> simp

theorem updRefs_ne {h : RHeap} {b x : Nat} {R : List (Option Nat)} (hx : x ≠ b) : (updRefs h b R)[x]? = h[x]? := by
  unfold updRefs
  split
  · rw [List.getElem?_set_ne (fun e => hx e.symm)]
  · rfl

theorem updRefs_set_ne {h : RHeap} {b x : Nat} {R : List (Option Nat)} {o : Option Blk} (hx : x ≠ b) :
    updRefs (h.set x o) b R = (updRefs h b R).set x o := by
  unfold updRefs
  rw [List.getElem?_set_ne hx]
  cases hb : h[b]? with
  | none => rfl
  | some k =>
    cases k with
    | none => rfl
    | some k => exact List.set_comm _ _ hx

theorem updRefs_set_self {h : RHeap} {b : Nat} {k k' : Blk} {R : List (Option Nat)} (hb : h[b]? = some (some k)) :
    updRefs (h.set b (some k')) b R = (updRefs h b R).set b (some { k' with refs := R }) := by
  rw [updRefs_live (List.getElem?_set_self (lt_of_some hb)), updRefs_live hb, List.set_set, List.set_set]

theorem updRefs_updRefs {h : RHeap} {b : Nat} {k : Blk} {R R' : List (Option Nat)} (hb : h[b]? = some (some k)) :
    updRefs (updRefs h b R) b R' = updRefs h b R' := by
  rw [updRefs_live hb, updRefs_set_self hb, updRefs_live hb, List.set_set]

theorem updRefs_same {h : RHeap} {b : Nat} {k : Blk} (hb : h[b]? = some (some k)) : updRefs h b k.refs = h := by
  rw [updRefs_live hb]
  refine List.ext_getElem? fun x => ?_
  by_cases hx : x = b
  · subst hx
    rw [List.getElem?_set_self (lt_of_some hb), hb]
  · rw [List.getElem?_set_ne (fun e => hx e.symm)]

theorem RInv.updRefs {h : RHeap} {b : Nat} {k : Blk} {R : List (Option Nat)} {roots roots' : List Nat} (hi : RInv h roots)
    (hb : h[b]? = some (some k))
    (hc : ∀ x, roots'.count x + (R.filterMap id).count x = roots.count x + (k.refs.filterMap id).count x)
    (hr : ∀ r ∈ R.filterMap id, r < b) : RInv (updRefs h b R) roots' := by
  have hlt := lt_of_some hb
  rw [updRefs_live hb]
  have hn : ∀ x, numRefs (h.set b (some { k with refs := R })) roots' x = numRefs h roots x := by
    intro x
    unfold numRefs
    have := flatMap_set_count h b (some k) (some { k with refs := R }) hb x
    simp only [refsOf] at this
    have := hc x
    omega
  refine ⟨?_, ?_, ?_⟩
  · intro x k' hx
    rw [hn]
    by_cases hxb : x = b
    · subst hxb
      rw [List.getElem?_set_self hlt, Option.some.injEq, Option.some.injEq] at hx
      subst hx
      exact hi.counts x k hb
    · rw [List.getElem?_set_ne (fun e => hxb e.symm)] at hx
      exact hi.counts x k' hx
  · intro x hx
    rw [hn]
    refine hi.dead x fun ⟨k', hk'⟩ => hx ?_
    by_cases hxb : x = b
    · subst hxb
      exact ⟨_, List.getElem?_set_self hlt⟩
    · exact ⟨k', by rw [List.getElem?_set_ne (fun e => hxb e.symm)]; exact hk'⟩
  · intro x k' hx
    by_cases hxb : x = b
    · subst hxb
      rw [List.getElem?_set_self hlt, Option.some.injEq, Option.some.injEq] at hx
      subst hx
      exact hr
    · rw [List.getElem?_set_ne (fun e => hxb e.symm)] at hx
      exact hi.acyc x k' hx

mutual
theorem release_shrinks : ∀ (f : Nat) (h h' : RHeap) (x : Nat), release f h x = .ok h' → Shrinks h h'
  | 0, _, _, _, e => by cases e
  | f + 1, h, h', x, e => by
    unfold release at e
    cases hx : h[x]? with
    | none => rw [hx] at e; cases e
    | some o =>
      cases o with
      | none => rw [hx] at e; cases e
      | some k =>
        rw [hx] at e
        simp only at e
        by_cases h1 : k.count - 1 = 0
        · rw [if_pos h1] at e
          exact Shrinks.free.trans (releaseList_shrinks f k.refs _ _ e)
        · rw [if_neg h1] at e
          simp only [Res.ok.injEq] at e
          subst e
          exact .set hx _
theorem releaseList_shrinks : ∀ (f : Nat) (rs : List (Option Nat)) (h h' : RHeap),
    releaseList (release f) rs h = .ok h' → Shrinks h h'
  | _, [], h, h', e => by cases e; exact .refl h
  | f, none :: rs, h, h', e => releaseList_shrinks f rs h h' e
  | f, some r :: rs, h, h', e => by
    unfold releaseList at e
    rw [Res.bind_eq_ok] at e
    obtain ⟨h1, e1, e2⟩ := e
    exact (release_shrinks f h h1 r e1).trans (releaseList_shrinks f rs h1 h' e2)
end

theorem Shrinks.live {h h' : RHeap} (hs : Shrinks h h') {b : Nat} (hl : Live h' b) : Live h b := by
  obtain ⟨k, hk⟩ := hl
  obtain ⟨k', hk', -⟩ := hs.2 b k hk
  exact ⟨k', hk'⟩

mutual
/-- Releases that do not free block `b` do not look at its members. -/
theorem release_sim (b : Nat) (R : List (Option Nat)) : ∀ (f : Nat) (h h' : RHeap) (x : Nat), release f h x = .ok h' →
    Live h' b → release f (updRefs h b R) x = .ok (updRefs h' b R)
  | 0, _, _, _, e, _ => by cases e
  | f + 1, h, h', x, e, hl => by
    unfold release at e ⊢
    cases hx : h[x]? with
    | none => rw [hx] at e; cases e
    | some o =>
      cases o with
      | none => rw [hx] at e; cases e
      | some k =>
        rw [hx] at e
        simp only at e
        by_cases hxb : x = b
        · subst hxb
          by_cases h1 : k.count - 1 = 0
          · rw [if_pos h1] at e
            have := (releaseList_shrinks f k.refs _ _ e).live hl
            obtain ⟨k', hk'⟩ := this
            rw [List.getElem?_set_self (lt_of_some hx)] at hk'
            cases hk'
          · rw [if_neg h1] at e
            simp only [Res.ok.injEq] at e
            subst e
            rw [updRefs_live hx, List.getElem?_set_self (lt_of_some hx)]
            simp only
            rw [if_neg h1, updRefs_set_self hx, updRefs_live hx]
        · rw [updRefs_ne hxb, hx]
          simp only
          by_cases h1 : k.count - 1 = 0
          · rw [if_pos h1] at e ⊢
            rw [← updRefs_set_ne hxb]
            exact releaseList_sim b R f k.refs _ _ e hl
          · rw [if_neg h1] at e ⊢
            simp only [Res.ok.injEq] at e
            subst e
            rw [updRefs_set_ne hxb]
theorem releaseList_sim (b : Nat) (R : List (Option Nat)) : ∀ (f : Nat) (rs : List (Option Nat)) (h h' : RHeap),
    releaseList (release f) rs h = .ok h' → Live h' b →
    releaseList (release f) rs (updRefs h b R) = .ok (updRefs h' b R)
  | _, [], h, h', e, _ => by cases e; rfl
  | f, none :: rs, h, h', e, hl => releaseList_sim b R f rs h h' e hl
  | f, some r :: rs, h, h', e, hl => by
    unfold releaseList at e ⊢
    rw [Res.bind_eq_ok] at e
    obtain ⟨h1, e1, e2⟩ := e
    rw [release_sim b R f h h1 r e1 ((releaseList_shrinks f rs h1 h' e2).live hl)]
    exact releaseList_sim b R f rs h1 h' e2 hl
end

theorem releasePtr_sim (b : Nat) (R : List (Option Nat)) {h h' : RHeap} {p : Option Nat} (e : releasePtr h p = .ok h')
    (hl : Live h' b) : releasePtr (updRefs h b R) p = .ok (updRefs h' b R) := by
  cases p with
  | none => cases e; rfl
  | some x =>
    unfold releasePtr at e ⊢
    rw [updRefs_length]
    exact release_sim b R _ h h' x e hl

theorem retainPtr_sim (b : Nat) (R : List (Option Nat)) {h h' : RHeap} {p : Option Nat} (e : retainPtr h p = .ok h') :
    retainPtr (updRefs h b R) p = .ok (updRefs h' b R) := by
  cases p with
  | none => cases e; rfl
  | some x =>
    simp only [retainPtr, retain] at e ⊢
    cases hx : h[x]? with
    | none => rw [hx] at e; cases e
    | some o =>
      cases o with
      | none => rw [hx] at e; cases e
      | some k =>
        rw [hx] at e
        simp only [Res.ok.injEq] at e
        subst e
        by_cases hxb : x = b
        · subst hxb
          rw [updRefs_live hx, List.getElem?_set_self (lt_of_some hx)]
          simp only
          rw [updRefs_set_self hx, updRefs_live hx]
        · rw [updRefs_ne hxb, hx]
          simp only
          rw [updRefs_set_ne hxb]

theorem filterMap_set {R : List (Option Nat)} {i : Nat} {p q : Option Nat} (hp : R[i]? = some p) (x : Nat) :
    ((R.set i q).filterMap id).count x + p.toList.count x = (R.filterMap id).count x + q.toList.count x := by
  have h1 := (vars_perm hp).count_eq x
  have h2 := (set_perm (vars := R) (v := i) (q := q) (lt_of_some hp)).count_eq x
  rw [List.count_append] at h1 h2
  omega

/-- Operation `op` from `s` to `s'` revived no freed block, and no member of an old block changed except by `op` itself. -/
def Kept (s s' : RState) (op : PtrOp) : Prop :=
  ∀ (b : Nat) (k' : Blk), b < s.heap.length → s'.heap[b]? = some (some k') → ∃ k : Blk, s.heap[b]? = some (some k) ∧
    (k'.refs = k.refs ∨ ∃ v i src, op = .setMember v i src ∧ s.vars[v]? = some (some b))

theorem Shrinks.kept {s s' : RState} (h : Shrinks s.heap s'.heap) (op : PtrOp) : Kept s s' op := by
  intro b k' _ hk'
  obtain ⟨k, hk, e⟩ := h.2 b k' hk'
  exact ⟨k, hk, .inl e⟩

/-- **C91 (each operation).**  In a state in order, every allowed operation is well-defined — it touches no freed block —
    and leaves the state in order. -/
theorem ptrStep_ok {s : RState} {op : PtrOp} (hi : RInv s.heap s.roots) (ha : Allowed s op) :
    ∃ s', ptrStep s op = .ok s' ∧ RInv s'.heap s'.roots ∧
      Kept s s' op ∧ s.heap.length ≤ s'.heap.length := by
  have hroot : ∀ {v b : Nat}, s.vars[v]? = some (some b) → b ∈ s.roots := fun h =>
    List.mem_filterMap.2 ⟨_, List.mem_of_getElem? h, rfl⟩
  have hlive : ∀ {v : Nat} {p : Option Nat}, s.vars[v]? = some p → ∀ b, p = some b → Live s.heap b := by
    intro v p h b e
    subst e
    exact hi.live_of_root (hroot h)
  have hroots' : ∀ {v : Nat} {p : Option Nat}, s.vars[v]? = some p →
      RInv s.heap (p.toList ++ (s.vars.set v none).filterMap id) := fun h => hi.perm (vars_perm h)
  -- the common part of the two copy assignments
  have hassign : ∀ (v : Nat) (p q : Option Nat) (h1 : RHeap), s.vars[v]? = some p → releasePtr s.heap p = .ok h1 →
      RInv h1 ((s.vars.set v none).filterMap id) → Shrinks s.heap h1 → (∀ b, q = some b → Live h1 b) →
      ∃ s', (do let h ← retainPtr h1 q; .ok ⟨h, s.vars.set v q⟩ : Res RState) = .ok s' ∧ RInv s'.heap s'.roots ∧
        (∀ op, Kept s s' op) ∧ s.heap.length ≤ s'.heap.length := by
    intro v p q h1 hv e1 i1 s1 hq
    obtain ⟨h2, e2, i2, s2, -⟩ := retainPtr_ok (p := q) i1 hq
    refine ⟨⟨h2, s.vars.set v q⟩, by rw [e2]; rfl, i2.perm (set_perm (lt_of_some hv)).symm,
      (s1.trans s2).kept, Nat.le_of_eq (s1.trans s2).1.symm⟩
  cases op with
  | default =>
    refine ⟨⟨s.heap, s.vars ++ [none]⟩, rfl, ?_, (Shrinks.refl _).kept _, Nat.le_refl _⟩
    have : (⟨s.heap, s.vars ++ [none]⟩ : RState).roots = s.roots := by
      simp [RState.roots]
    rw [this]; exact hi
  | make ms =>
    obtain ⟨ps, e, hp⟩ := readVars_ok (vars := s.vars) (ms := ms) ha
    have hps : ∀ b, some b ∈ ps → Live s.heap b := fun b hb =>
      hi.live_of_root (List.mem_filterMap.2 ⟨_, hp _ hb, rfl⟩)
    obtain ⟨h1, e1, i1, s1, l1⟩ := retainAll_ok (ps := ps) hi hps
    refine ⟨⟨h1 ++ [some ⟨1, ps⟩], s.vars ++ [some h1.length]⟩, by simp [ptrStep, e, e1], ?_, ?_, ?_⟩
    · refine (RInv.make i1).perm ?_
      simp only [RState.roots, List.filterMap_append]
      exact (List.perm_append_comm (l₁ := [h1.length]))
    · intro b k' hb hk
      simp only at hk
      rw [List.getElem?_append_left (by rw [s1.1]; exact hb)] at hk
      obtain ⟨k, hk, e⟩ := s1.2 b k' hk
      exact ⟨k, hk, .inl e⟩
    · simp only [List.length_append]; rw [s1.1]; omega
  | copy src =>
    obtain ⟨p, hp⟩ := some_of_lt (show src < s.vars.length from ha)
    obtain ⟨h1, e1, i1, s1, -⟩ := retainPtr_ok (p := p) hi (hlive hp)
    refine ⟨⟨h1, s.vars ++ [p]⟩, by simp [ptrStep, hp, e1], i1.perm ?_, s1.kept _,
      Nat.le_of_eq s1.1.symm⟩
    simp only [RState.roots, List.filterMap_append]
    cases p with
    | none => simp
    | some b => exact (List.perm_append_comm (l₁ := [b]))
  | move src =>
    obtain ⟨p, hp⟩ := some_of_lt (show src < s.vars.length from ha)
    refine ⟨⟨s.heap, s.vars.set src none ++ [p]⟩, by simp [ptrStep, hp], (hroots' hp).perm ?_, (Shrinks.refl _).kept _, Nat.le_refl _⟩
    simp only [RState.roots, List.filterMap_append]
    cases p with
    | none => simp
    | some b => exact (List.perm_append_comm (l₁ := [b]))
  | destroy v =>
    obtain ⟨p, hp⟩ := some_of_lt (show v < s.vars.length from ha)
    obtain ⟨h1, e1, i1, s1⟩ := releasePtr_ok (hroots' hp)
    exact ⟨⟨h1, s.vars.set v none⟩, by simp [ptrStep, hp, e1], i1, s1.kept _, Nat.le_of_eq s1.1.symm⟩
  | assign v src =>
    obtain ⟨hv, hsrc, hself⟩ := ha
    obtain ⟨p, hp⟩ := some_of_lt hv
    obtain ⟨q, hq⟩ := some_of_lt hsrc
    obtain ⟨h1, e1, i1, s1⟩ := releasePtr_ok (hroots' hp)
    obtain ⟨s', e, r1, r2, r3⟩ := hassign v p q h1 hp e1 i1 s1 (by
      intro b hb
      subst hb
      by_cases hvs : v = src
      · subst hvs
        rw [hp, Option.some.injEq] at hq
        subst hq
        obtain ⟨k, k', -, hk', -⟩ := release_keeps (hroots' hp) (notLast_pos (hself rfl) hp) e1
        exact ⟨k', hk'⟩
      · exact i1.live_of_root (mem_set_none hq (fun e => hvs e.symm)))
    refine ⟨s', ?_, r1, r2 _, r3⟩
    simp only [ptrStep, hp, e1, Res.bind_ok, hq]
    exact e
  | assignMember v w i =>
    obtain ⟨hv, ⟨b, k, hw, hb, hik⟩, hself⟩ := ha
    obtain ⟨p, hp⟩ := some_of_lt hv
    obtain ⟨q, hq⟩ := some_of_lt hik
    obtain ⟨h1, e1, i1, s1⟩ := releasePtr_ok (hroots' hp)
    have hk' : ∃ k', h1[b]? = some (some k') ∧ k'.refs = k.refs := by
      by_cases hvw : v = w
      · subst hvw
        rw [hp, Option.some.injEq] at hw
        subst hw
        obtain ⟨k0, k', h0, hk', er⟩ := release_keeps (hroots' hp) (notLast_pos (hself rfl) hp) e1
        rw [hb] at h0
        cases h0
        exact ⟨k', hk', er⟩
      · obtain ⟨k', hk'⟩ := i1.live_of_root (mem_set_none hw (fun e => hvw e.symm))
        obtain ⟨k0, h0, er⟩ := s1.2 b k' hk'
        rw [hb] at h0
        cases h0
        exact ⟨k', hk', er⟩
    obtain ⟨k', hk', er⟩ := hk'
    rw [← er] at hq
    obtain ⟨s', e, r1, r2, r3⟩ := hassign v p q h1 hp e1 i1 s1 (by
      intro c hc
      subst hc
      exact i1.live_of_member hk' (List.mem_of_getElem? hq))
    refine ⟨s', ?_, r1, r2 _, r3⟩
    simp only [ptrStep, hp, e1, Res.bind_ok, hw, hk', hq]
    exact e
  | moveAssign v src =>
    obtain ⟨hv, hsrc⟩ := ha
    obtain ⟨p, hp⟩ := some_of_lt hv
    obtain ⟨q, hq⟩ := some_of_lt hsrc
    obtain ⟨h1, e1, i1, s1⟩ := releasePtr_ok (hroots' hp)
    refine ⟨⟨h1, (s.vars.set v q).set src none⟩, by simp [ptrStep, hp, e1, hq], i1.perm ?_, s1.kept _,
      Nat.le_of_eq s1.1.symm⟩
    simp only [RState.roots]
    by_cases hvs : v = src
    · subst hvs; rw [List.set_set]
    · have h3 := set_perm (vars := s.vars.set src none) (v := v) (q := q) (by simpa using hv)
      have h4 := vars_perm (vars := s.vars.set v none) (v := src) (p := q)
        (by rw [List.getElem?_set_ne hvs]; exact hq)
      have h5 : (s.vars.set v q).set src none = (s.vars.set src none).set v q := List.set_comm _ _ hvs
      have h6 : (s.vars.set v none).set src none = (s.vars.set src none).set v none := List.set_comm _ _ hvs
      rw [h5]
      rw [h6] at h4
      exact h4.trans h3.symm
  | assignRaw v src =>
    obtain ⟨hv, hsrc, hself⟩ := ha
    obtain ⟨p, hp⟩ := some_of_lt hv
    obtain ⟨q, hq⟩ := some_of_lt hsrc
    obtain ⟨h1, e1, i1, s1⟩ := releasePtr_ok (hroots' hp)
    obtain ⟨s', e, r1, r2, r3⟩ := hassign v p q h1 hp e1 i1 s1 (by
      intro b hb
      subst hb
      by_cases hvs : v = src
      · subst hvs
        rw [hp, Option.some.injEq] at hq
        subst hq
        obtain ⟨k, k', -, hk', -⟩ := release_keeps (hroots' hp) (notLast_pos (hself rfl) hp) e1
        exact ⟨k', hk'⟩
      · exact i1.live_of_root (mem_set_none hq (fun e => hvs e.symm)))
    refine ⟨s', ?_, r1, r2 _, r3⟩
    simp only [ptrStep, hp, hq, e1, Res.bind_ok]
    exact e
  | swap v w =>
    obtain ⟨hv, hw⟩ := ha
    obtain ⟨p, hp⟩ := some_of_lt hv
    obtain ⟨q, hq⟩ := some_of_lt hw
    refine ⟨⟨s.heap, (s.vars.set v q).set w p⟩, by simp [ptrStep, hp, hq], hi.perm ?_, (Shrinks.refl _).kept _, Nat.le_refl _⟩
    simp only [RState.roots]
    by_cases hvw : v = w
    · subst hvw
      rw [hp, Option.some.injEq] at hq
      subst hq
      rw [List.set_set]
      refine (vars_perm hp).trans (set_perm hv).symm
    · have h1 := vars_perm hp
      have h2 := vars_perm (vars := s.vars.set v none) (v := w) (p := q) (by rw [List.getElem?_set_ne hvw]; exact hq)
      have h3 := set_perm (vars := s.vars.set v q) (v := w) (q := p) (by simpa using hw)
      have h4 := set_perm (vars := s.vars.set w none) (v := v) (q := q) (by simpa using hv)
      rw [List.set_comm _ _ hvw] at h3
      rw [List.set_comm _ _ (fun e => hvw e.symm)] at h4
      have h5 : ((s.vars.set v q).set w none) = ((s.vars.set w none).set v q) := List.set_comm _ _ hvw
      have h6 := set_perm (vars := s.vars.set v q) (v := w) (q := p) (by simpa using hw)
      rw [h5] at h6
      rw [List.set_comm _ _ (fun e => hvw e.symm)] at h4
      refine (h1.trans (h2.append_left _)).trans ?_
      refine List.Perm.trans ?_ (h6.trans ((set_perm (vars := s.vars.set w none) (v := v) (q := q) (by simpa using hv)).append_left _)).symm
      rw [List.set_comm _ _ hvw]
  | setMember v i src =>
    obtain ⟨hsrc, b, k, hv, hb, hik, hold⟩ := ha
    obtain ⟨q, hq⟩ := some_of_lt hsrc
    obtain ⟨p, hp⟩ := some_of_lt hik
    have hacyc := hi.acyc b k hb
    have i0 : RInv (updRefs s.heap b (k.refs.set i none)) (p.toList ++ s.roots) := by
      refine hi.updRefs hb (fun x => ?_) (fun r hr => ?_)
      · have := filterMap_set (q := none) hp x
        rw [List.count_append]
        simp only [Option.toList_none, List.count_nil] at this
        omega
      · refine hacyc r ?_
        exact (vars_perm hp).mem_iff.2 (List.mem_append_right _ hr)
    obtain ⟨h1, e1, i1, s1⟩ := releasePtr_ok i0
    obtain ⟨k1, hk1⟩ := i1.live_of_root (hroot hv)
    obtain ⟨h2, e2, i2, s2, l2⟩ := retainPtr_ok (p := q) i1 (by
      intro c hc
      subst hc
      exact i1.live_of_root (hroot hq))
    obtain ⟨k2, hk2⟩ := l2 b ⟨k1, hk1⟩
    have hk2r : k2.refs = k.refs.set i none := by
      obtain ⟨k3, hk3, er⟩ := (s1.trans s2).2 b k2 hk2
      rw [updRefs_live hb, List.getElem?_set_self (lt_of_some hb)] at hk3
      simp only [Option.some.injEq] at hk3
      rw [er, ← hk3]
    have f1 := releasePtr_sim b k.refs e1 ⟨k1, hk1⟩
    rw [updRefs_updRefs hb, updRefs_same hb] at f1
    have f2 := retainPtr_sim b k.refs e2
    refine ⟨⟨updRefs h2 b (k.refs.set i q), s.vars⟩, ?_, ?_, ?_, ?_⟩
    · simp only [ptrStep, hv, hb, hp, f1, Res.bind_ok, hq, f2]
      rw [updRefs_live hk2, List.getElem?_set_self (lt_of_some hk2)]
      simp only
      rw [List.set_set, updRefs_live hk2]
    · refine i2.updRefs hk2 (fun x => ?_) (fun r hr => ?_)
      · rw [hk2r]
        have h3 := filterMap_set (q := none) hp x
        have h4 := filterMap_set (q := q) hp x
        simp only [Option.toList_none, List.count_nil] at h3
        rw [List.count_append]
        show s.roots.count x + _ = _
        omega
      · have hr' := (set_perm (vars := k.refs) (v := i) (q := q) hik).mem_iff.1 hr
        rcases List.mem_append.1 hr' with hr' | hr'
        · cases q with
          | none => cases hr'
          | some c =>
            simp only [Option.toList_some, List.mem_singleton] at hr'
            subst hr'
            exact hold r hq
        · exact hacyc r ((vars_perm hp).mem_iff.2 (List.mem_append_right _ hr'))
    · intro x k' _ hk'
      by_cases hxb : x = b
      · subst hxb; exact ⟨k, hb, .inr ⟨v, i, src, rfl, hv⟩⟩
      · simp only at hk'
        rw [updRefs_ne hxb] at hk'
        obtain ⟨k3, hk3, e⟩ := (s1.trans s2).2 x k' hk'
        rw [updRefs_ne hxb] at hk3
        exact ⟨k3, hk3, .inl e⟩
    · simp only [updRefs_length]
      rw [(s1.trans s2).1, updRefs_length]

/-- A view of an array through a live pointer can be made, and leaves the state in order. -/
theorem makeView_ok {s : RState} {v b : Nat} {rest : List (Option Nat)} (hi : RInv s.heap s.roots)
    (hv : s.vars[v]? = some (some b)) (hr : ∀ b, some b ∈ rest → Live s.heap b) :
    ∃ s' d, makeView s v rest = .ok s' ∧ RInv s'.heap s'.roots ∧ dataBlock s.heap b = .ok d ∧
      s'.vars = s.vars ++ [some s.heap.length] ∧ dataBlock s'.heap s.heap.length = .ok d := by
  have hroot : b ∈ s.roots := List.mem_filterMap.2 ⟨_, List.mem_of_getElem? hv, rfl⟩
  obtain ⟨k, hb⟩ := hi.live_of_root hroot
  obtain ⟨d, hd, hl⟩ : ∃ d, dataBlock s.heap b = .ok d ∧ Live s.heap d := by
    unfold dataBlock
    rw [hb]
    simp only
    cases h0 : k.refs[0]? with
    | none => exact ⟨b, rfl, k, hb⟩
    | some o =>
      cases o with
      | none => exact ⟨b, rfl, k, hb⟩
      | some o => exact ⟨o, rfl, hi.live_of_member hb (List.mem_of_getElem? h0)⟩
  obtain ⟨h1, e1, i1, s1, -⟩ := retainAll_ok (ps := some d :: rest) hi (by
    intro x hx
    rcases List.mem_cons.1 hx with h | h
    · cases h; exact hl
    · exact hr x h)
  refine ⟨⟨h1 ++ [some ⟨1, some d :: rest⟩], s.vars ++ [some h1.length]⟩, d, ?_, ?_, hd, ?_, ?_⟩
  · unfold makeView
    rw [hv]
    simp only [hd, Res.bind_ok, e1]
  · refine (RInv.make i1).perm ?_
    simp only [RState.roots, List.filterMap_append]
    exact (List.perm_append_comm (l₁ := [h1.length]))
  · simp only [s1.1]
  · unfold dataBlock
    simp only
    rw [← s1.1, List.getElem?_append_right (Nat.le_refl _), Nat.sub_self]
    rfl

/-- Every state a program can get into is in order. -/
theorem PtrReach.inv {s : RState} (h : PtrReach s) : RInv s.heap s.roots := by
  induction h with
  | start =>
    refine ⟨fun b k h => by simp at h, fun b _ => by simp [numRefs, RState.roots], fun b k h => by simp at h⟩
  | step _ ha hs ih =>
    obtain ⟨s1, e, i, -⟩ := ptrStep_ok ih ha
    rw [hs] at e
    cases e
    exact i
  | @view s s' v rest _ hr hs ih =>
    cases hv : s.vars[v]? with
    | none => unfold makeView at hs; rw [hv] at hs; cases hs
    | some p =>
      cases p with
      | none => unfold makeView at hs; rw [hv] at hs; cases hs
      | some b =>
        obtain ⟨s1, d, e, i, -⟩ := makeView_ok ih hv hr
        rw [hs] at e
        cases e
        exact i

/-- **C91 (no use after free).**  In every history of allowed operations, each one is well-defined: it touches live blocks
    only, and the next state is reachable again. -/
theorem pointers_never_touch_freed {s : RState} {op : PtrOp} (h : PtrReach s) (ha : Allowed s op) :
    ∃ s', ptrStep s op = .ok s' ∧ PtrReach s' := by
  obtain ⟨s', e, -⟩ := ptrStep_ok h.inv ha
  exact ⟨s', e, .step h ha e⟩

/-- **C91 (use counts).**  In every reachable state the use count of a block is the number of pointers to it, in variables and
    in live blocks; and a block is live exactly if a chain of pointers from a variable leads to it. -/
theorem pointers_count_exact {s : RState} (h : PtrReach s) (b : Nat) :
    (Live s.heap b ↔ InUse s.heap s.roots b) ∧
      ∀ k : Blk, s.heap[b]? = some (some k) →
        k.count = ((s.vars.count (some b) : Nat) : Int) +
          (((s.heap.flatMap fun o => (o.map Blk.refs).getD []).count (some b) : Nat) : Int) := by
  refine ⟨h.inv.live_iff_inUse b, fun k hk => ?_⟩
  rw [(h.inv.counts b k hk).1]
  have key : ∀ l : List (Option Nat), (l.filterMap id).count b = l.count (some b) := by
    intro l
    induction l with
    | nil => rfl
    | cons a l ih =>
      cases a with
      | none =>
        rw [List.filterMap_cons_none rfl, List.count_cons_of_ne (by simp), ih]
      | some x =>
        rw [List.filterMap_cons_some (f := id) (b := x) rfl, List.count_cons, List.count_cons, ih]
        simp
  have key2 : ∀ l : RHeap, (l.flatMap refsOf).count b = (l.flatMap fun o => (o.map Blk.refs).getD []).count (some b) := by
    intro l
    induction l with
    | nil => rfl
    | cons a l ih =>
      simp only [List.flatMap_cons, List.count_append, ih]
      congr 1
      cases a with
      | none => rfl
      | some k => exact key k.refs
  unfold numRefs RState.roots
  rw [key, key2]
  push_cast
  rfl

/-- **C91 (no leak).**  When no variable holds a pointer any more, every block has been freed. -/
theorem pointers_no_leak {s : RState} (h : PtrReach s) (hv : ∀ p ∈ s.vars, p = none) (b : Nat) : ¬ Live s.heap b := by
  rw [h.inv.live_iff_inUse]
  have hr : s.roots = [] := by
    unfold RState.roots
    rw [List.filterMap_eq_nil_iff]
    intro p hp
    exact hv p hp
  rw [hr]
  intro hu
  induction hu with
  | root hb => cases hb
  | member _ _ _ ih => exact ih

/-- **C91 (freed once).**  An operation revives no freed block, and changes the members of no block other than the one a
    `v->member = …` names; so a block is freed at most once in any history. -/
theorem pointers_freed_once {s s' : RState} {op : PtrOp} (h : PtrReach s) (ha : Allowed s op) (hs : ptrStep s op = .ok s')
    {b : Nat} (hb : b < s.heap.length) :
    (¬ Live s.heap b → ¬ Live s'.heap b) ∧
      ∀ k' : Blk, s'.heap[b]? = some (some k') → (∀ v i src, op = .setMember v i src → s.vars[v]? ≠ some (some b)) →
        ∃ k : Blk, s.heap[b]? = some (some k) ∧ k'.refs = k.refs := by
  obtain ⟨s1, e, -, hk, -⟩ := ptrStep_ok h.inv ha
  rw [hs] at e
  cases e
  refine ⟨?_, ?_⟩
  · rintro hd ⟨k', hk'⟩
    obtain ⟨k, hk, -⟩ := hk b k' hb hk'
    exact hd ⟨k, hk⟩
  · intro k' hk' hno
    obtain ⟨k, hk0, hor⟩ := hk b k' hb hk'
    rcases hor with e | ⟨v, i, src, e, hv⟩
    · exact ⟨k, hk0, e⟩
    · exact absurd hv (hno v i src e)

/-- **C91 (views).**  A view can always be made of a live array, and shares its data block: the one the array itself uses.
    However long the chain of views, the view refers to the block that holds the data. -/
theorem view_shares_data {s : RState} {v b : Nat} {rest : List (Option Nat)} (h : PtrReach s)
    (hv : s.vars[v]? = some (some b)) (hr : ∀ b, some b ∈ rest → Live s.heap b) :
    ∃ s' d, makeView s v rest = .ok s' ∧ PtrReach s' ∧ s'.vars = s.vars ++ [some s.heap.length] ∧
      dataBlock s.heap b = .ok d ∧ dataBlock s'.heap s.heap.length = .ok d := by
  obtain ⟨s', d, e, -, hd, hvs, hd'⟩ := makeView_ok h.inv hv hr
  exact ⟨s', d, e, .view h hr e, hvs, hd, hd'⟩

/-- **C91 (views keep data alive).**  In every reachable state, the data block of a live array is live — whatever happened
    to the array the view was taken of. -/
theorem view_data_lives {s : RState} {b : Nat} (h : PtrReach s) (hb : Live s.heap b) :
    ∃ d, dataBlock s.heap b = .ok d ∧ Live s.heap d := by
  obtain ⟨k, hb⟩ := hb
  unfold dataBlock
  rw [hb]
  simp only
  cases h0 : k.refs[0]? with
  | none => exact ⟨b, rfl, k, hb⟩
  | some o =>
    cases o with
    | none => exact ⟨b, rfl, k, hb⟩
    | some o => exact ⟨o, rfl, h.inv.live_of_member hb (List.mem_of_getElem? h0)⟩

/-- **C91 (views keep their data block).**  No operation other than an assignment to a member of a view's own block changes
    which block holds the data of a view that is still live. -/
theorem view_data_fixed {s s' : RState} {op : PtrOp} (h : PtrReach s) (ha : Allowed s op) (hs : ptrStep s op = .ok s')
    {b : Nat} (hb : Live s.heap b) (hb' : Live s'.heap b)
    (hno : ∀ v i src, op = .setMember v i src → s.vars[v]? ≠ some (some b)) : dataBlock s'.heap b = dataBlock s.heap b := by
  obtain ⟨k', hk'⟩ := hb'
  obtain ⟨k0, hk0⟩ := hb
  obtain ⟨k, hk, e⟩ := (pointers_freed_once h ha hs (lt_of_some hk0)).2 k' hk' hno
  unfold dataBlock
  rw [hk', hk]
  simp only [e]

/-! ### What goes wrong -/

/-- **C91 fails for self-assignment**: `p = p` where `p` is the last pointer to its block retains a freed block, in every
    reachable state (/repo/include/dynd/config.hpp:283-296: release before retain, with no check). -/
theorem self_assign_last_violated {s : RState} {v b : Nat} (h : PtrReach s) (hv : s.vars[v]? = some (some b))
    (hl : ¬ NotLast s v) : ptrStep s (.assign v v) = .ub ∧ ptrStep s (.assignRaw v v) = .ub := by
  have hi := h.inv.perm (vars_perm hv)
  have hn : numRefs s.heap ((s.vars.set v none).filterMap id) b = 0 := by
    by_contra hne
    apply hl
    intro b' hb'
    rw [hv] at hb'
    cases hb'
    unfold numRefs at hne
    by_cases h1 : b ∈ (s.vars.set v none).filterMap id
    · left
      obtain ⟨o, ho, e⟩ := List.mem_filterMap.1 h1
      simp only [id] at e
      subst e
      obtain ⟨w, hw⟩ := List.getElem?_of_mem ho
      by_cases hwv : w = v
      · subst hwv
        rw [List.getElem?_set_self (lt_of_some hv)] at hw
        cases hw
      · rw [List.getElem?_set_ne (fun e => hwv e.symm)] at hw
        exact ⟨w, hwv, hw⟩
    · right
      have h0 := List.count_eq_zero.2 h1
      have : 0 < (s.heap.flatMap refsOf).count b := by omega
      rw [List.count_pos_iff, List.mem_flatMap] at this
      obtain ⟨o, ho, hm⟩ := this
      cases o with
      | none => cases hm
      | some k' =>
        obtain ⟨c, hc⟩ := List.getElem?_of_mem ho
        obtain ⟨o, ho, e⟩ := List.mem_filterMap.1 hm
        simp only [id] at e
        subst e
        exact ⟨c, k', hc, ho⟩
  obtain ⟨h1, e1, i1, s1⟩ := releasePtr_ok hi
  have hdead : ¬ Live h1 b := by
    rintro ⟨k1, hk1⟩
    obtain ⟨k, hb⟩ := hi.live_of_root (b := b) (by simp)
    have hc := (hi.counts b k hb).1
    have hc1 : k.count - 1 = 0 := by
      have : numRefs s.heap ((some b).toList ++ (s.vars.set v none).filterMap id) b =
          numRefs s.heap ((s.vars.set v none).filterMap id) b + 1 := by
        unfold numRefs
        simp only [Option.toList_some, List.singleton_append, List.count_cons_self]
        omega
      omega
    simp only [releasePtr, release, hb] at e1
    rw [if_pos hc1] at e1
    obtain ⟨k2, hk2⟩ := (releaseList_shrinks _ _ _ _ e1).live ⟨k1, hk1⟩
    rw [List.getElem?_set_self (lt_of_some hb)] at hk2
    cases hk2
  have hr : retainPtr h1 (some b) = .ub := by
    show retain h1 b = .ub
    unfold retain
    cases hx : h1[b]? with
    | none => rfl
    | some o =>
      cases o with
      | none => rfl
      | some k => exact absurd ⟨k, hx⟩ hdead
  constructor
  · simp only [ptrStep, hv, e1, Res.bind_ok, hr]
    rfl
  · simp only [ptrStep, hv, e1, Res.bind_ok, hr]
    rfl

/-- **C91 fails for `p = p->member`**: walking down a chain of blocks with the only pointer to its head frees the head, whose
    member is then read. -/
theorem assign_own_member_violated :
    ∃ s, PtrReach s ∧ s.vars[2]? = some (some 1) ∧ s.heap[1]? = some (some ⟨1, [some 0]⟩) ∧
      ptrStep s (.assignMember 2 2 0) = .ub := by
  refine ⟨⟨[some ⟨1, []⟩, some ⟨1, [some 0]⟩], [none, none, some 1]⟩, ?_, rfl, rfl, by decide⟩
  have h1 : PtrReach ⟨[some ⟨1, []⟩], [some 0]⟩ := .step (op := .make []) .start (by simp [Allowed]) (by decide)
  have h2 : PtrReach ⟨[some ⟨1, []⟩], [some 0, none]⟩ := .step (op := .default) h1 trivial (by decide)
  have h3 : PtrReach ⟨[some ⟨2, []⟩, some ⟨1, [some 0]⟩], [some 0, none, some 1]⟩ :=
    .step (op := .make [0]) h2 (by simp [Allowed]) (by decide)
  exact .step (op := .destroy 0) h3 (by simp [Allowed]) (by decide)

/-- **Comparison of intrusive pointers is inverted**: `p != q` holds exactly if they are equal. -/
theorem pointer_not_equal_violated (p q : Option Nat) : ptrNotEqual p q = true ↔ p = q := by
  simp [ptrNotEqual]

/-- Non-vacuity: an array, a view of it, a view of the view; the array and the first view are dropped, the data block lives on
    with the second view, and goes with it. -/
example : ∃ s, PtrReach s ∧ s.vars = [none, none, none, some 2] ∧
    s.heap = [some ⟨1, [none]⟩, none, some ⟨1, [some 0]⟩] ∧
    ptrStep s (.destroy 3) = .ok ⟨[none, none, none], [none, none, none, none]⟩ := by
  refine ⟨⟨[some ⟨1, [none]⟩, none, some ⟨1, [some 0]⟩], [none, none, none, some 2]⟩, ?_, rfl, rfl, by decide⟩
  have h0 : PtrReach ⟨[], [none]⟩ := .step (op := .default) .start trivial (by decide)
  have h1 : PtrReach ⟨[some ⟨1, [none]⟩], [none, some 0]⟩ := .step (op := .make [0]) h0 (by simp [Allowed]) (by decide)
  have h2 : PtrReach ⟨[some ⟨2, [none]⟩, some ⟨1, [some 0]⟩], [none, some 0, some 1]⟩ :=
    .view (v := 1) (rest := []) h1 (by simp) (by decide)
  have h3 : PtrReach ⟨[some ⟨3, [none]⟩, some ⟨1, [some 0]⟩, some ⟨1, [some 0]⟩], [none, some 0, some 1, some 2]⟩ :=
    .view (v := 2) (rest := []) h2 (by simp) (by decide)
  have h4 : PtrReach ⟨[some ⟨2, [none]⟩, some ⟨1, [some 0]⟩, some ⟨1, [some 0]⟩], [none, none, some 1, some 2]⟩ :=
    .step (op := .destroy 1) h3 (by simp [Allowed]) (by decide)
  exact .step (op := .destroy 2) h4 (by simp [Allowed]) (by decide)

/-! ### Threads (C92) -/

/-- States threads can get into, in any schedule. -/
inductive CReach : CState → Prop where
  | start : CReach ⟨[], [], []⟩
  | step {s s' : CState} (h : CReach s) (hs : CStep s s') : CReach s'

/-- All references to block `b`: held by threads, in live blocks, and those whose release has begun. -/
def totalRefs (s : CState) (b : Nat) : Nat :=
  s.tokens.count b + (s.heap.flatMap refsOf).count b + s.acts.count (.decr b)

structure CInv (s : CState) : Prop where
  counts : ∀ (b : Nat) (k : Blk), s.heap[b]? = some (some k) → k.count = (totalRefs s b : Int) ∧
    s.acts.count (.del b) = if totalRefs s b = 0 then 1 else 0
  dead : ∀ b, ¬ Live s.heap b → totalRefs s b = 0 ∧ s.acts.count (.del b) = 0
  acyc : ∀ (b : Nat) (k : Blk), s.heap[b]? = some (some k) → ∀ r ∈ k.refs.filterMap id, r < b

theorem live_set_some {h : RHeap} {b x : Nat} {k k' : Blk} (hb : h[b]? = some (some k)) :
    Live (h.set b (some k')) x ↔ Live h x := by
  unfold Live
  by_cases hx : x = b
  · subst hx
    rw [List.getElem?_set_self (lt_of_some hb), hb]
    exact ⟨fun _ => ⟨_, rfl⟩, fun _ => ⟨_, rfl⟩⟩
  · rw [List.getElem?_set_ne (fun e => hx e.symm)]

theorem acyc_setCount {h : RHeap} {b : Nat} {k : Blk} (hb : h[b]? = some (some k)) (c : Int)
    (ha : ∀ (b : Nat) (k : Blk), h[b]? = some (some k) → ∀ r ∈ k.refs.filterMap id, r < b) :
    ∀ (x : Nat) (k' : Blk), (h.set b (some { k with count := c }))[x]? = some (some k') → ∀ r ∈ k'.refs.filterMap id, r < x := by
  intro x k' hx
  by_cases hxb : x = b
  · subst hxb
    rw [List.getElem?_set_self (lt_of_some hb), Option.some.injEq, Option.some.injEq] at hx
    subst hx
    exact ha x k hb
  · rw [List.getElem?_set_ne (fun e => hxb e.symm)] at hx
    exact ha x k' hx

theorem flat_setCount {h : RHeap} {b : Nat} {k : Blk} (hb : h[b]? = some (some k)) (c : Int) (x : Nat) :
    ((h.set b (some { k with count := c })).flatMap refsOf).count x = (h.flatMap refsOf).count x := by
  have := flatMap_set_count h b (some k) (some { k with count := c }) hb x
  simp only [refsOf] at this
  omega

theorem CInv.retain {h : RHeap} {b : Nat} {k : Blk} {ts : List Nat} {as : List RAct} (hi : CInv ⟨h, ts, as⟩)
    (hb : h[b]? = some (some k)) (hp : 0 < totalRefs ⟨h, ts, as⟩ b) :
    CInv ⟨h.set b (some { k with count := k.count + 1 }), b :: ts, as⟩ := by
  have hn : ∀ x, totalRefs ⟨h.set b (some { k with count := k.count + 1 }), b :: ts, as⟩ x =
      totalRefs ⟨h, ts, as⟩ x + if x = b then 1 else 0 := by
    intro x
    unfold totalRefs
    simp only
    rw [flat_setCount hb]
    by_cases hx : x = b
    · subst hx
      rw [List.count_cons_self, if_pos rfl]
      omega
    · rw [List.count_cons_of_ne (fun e => hx e.symm), if_neg hx]
      omega
  refine ⟨?_, ?_, acyc_setCount hb _ hi.acyc⟩
  · intro x k' hx
    rw [hn]
    simp only at hx
    by_cases hxb : x = b
    · subst hxb
      rw [List.getElem?_set_self (lt_of_some hb), Option.some.injEq, Option.some.injEq] at hx
      subst hx
      obtain ⟨h1, h2⟩ := hi.counts x k hb
      simp only at h1 h2
      rw [if_pos rfl, if_neg (by omega)]
      rw [if_neg (by omega)] at h2
      refine ⟨?_, h2⟩
      show k.count + 1 = _
      omega
    · rw [List.getElem?_set_ne (fun e => hxb e.symm)] at hx
      rw [if_neg hxb]
      exact hi.counts x k' hx
  · intro x hx
    simp only at hx
    rw [live_set_some hb] at hx
    have hxb : x ≠ b := fun e => hx (e ▸ ⟨k, hb⟩)
    rw [hn, if_neg hxb]
    exact hi.dead x hx

theorem CInv.step {s s' : CState} (hi : CInv s) (hs : CStep s s') : CInv s' := by
  cases hs with
  | @retain h b k ts as hb ht =>
    refine hi.retain hb ?_
    unfold totalRefs
    have := List.count_pos_iff.2 ht
    simp only
    omega
  | @retainMember h c b kc k ts as hc ht hm hb =>
    refine hi.retain hb ?_
    unfold totalRefs
    have := count_flat_pos hc hm
    simp only
    omega
  | @make h rs ts as =>
    have hfm : (rs.map some).filterMap id = rs := by simp
    have hdead := hi.dead h.length (fun ⟨k, hk⟩ => Nat.lt_irrefl _ (lt_of_some hk))
    have hn : ∀ x, totalRefs ⟨h ++ [some ⟨1, rs.map some⟩], h.length :: ts, as⟩ x =
        totalRefs ⟨h, rs ++ ts, as⟩ x + if x = h.length then 1 else 0 := by
      intro x
      unfold totalRefs
      simp only [List.flatMap_append, List.count_append, List.flatMap_cons, List.flatMap_nil, List.append_nil, refsOf, hfm]
      by_cases hx : x = h.length
      · subst hx
        rw [List.count_cons_self, if_pos rfl]
        omega
      · rw [List.count_cons_of_ne (fun e => hx e.symm), if_neg hx]
        omega
    have hget : ∀ x k, (h ++ [some (⟨1, rs.map some⟩ : Blk)])[x]? = some (some k) →
        (x < h.length ∧ h[x]? = some (some k)) ∨ (x = h.length ∧ k = ⟨1, rs.map some⟩) := by
      intro x k hx
      by_cases hlt : x < h.length
      · rw [List.getElem?_append_left hlt] at hx
        exact .inl ⟨hlt, hx⟩
      · have hxe : x = h.length := by
          have := lt_of_some hx
          simp only [List.length_append, List.length_singleton] at this
          omega
        subst hxe
        rw [List.getElem?_append_right (Nat.le_refl _), Nat.sub_self] at hx
        simp only [List.getElem?_cons_zero, Option.some.injEq] at hx
        exact .inr ⟨rfl, hx.symm⟩
    refine ⟨?_, ?_, ?_⟩
    · intro x k hx
      rw [hn]
      rcases hget x k hx with ⟨hlt, hx⟩ | ⟨rfl, rfl⟩
      · rw [if_neg (by omega)]
        exact hi.counts x k hx
      · rw [if_pos rfl, hdead.1]
        exact ⟨rfl, hdead.2⟩
    · intro x hx
      rw [hn]
      have hxe : x ≠ h.length := by
        intro e
        subst e
        exact hx ⟨⟨1, rs.map some⟩, by simp only; rw [List.getElem?_append_right (Nat.le_refl _), Nat.sub_self]; rfl⟩
      rw [if_neg hxe]
      refine hi.dead x fun ⟨k, hk⟩ => hx ⟨k, ?_⟩
      simp only at hk ⊢
      rw [List.getElem?_append_left (lt_of_some hk)]
      exact hk
    · intro x k hx
      rcases hget x k hx with ⟨hlt, hx⟩ | ⟨rfl, rfl⟩
      · exact hi.acyc x k hx
      · intro r hr
        simp only [hfm] at hr
        have : Live h r := by
          by_contra hd
          have := (hi.dead r hd).1
          unfold totalRefs at this
          simp only [List.count_append] at this
          have := List.count_pos_iff.2 hr
          omega
        obtain ⟨k, hk⟩ := this
        exact lt_of_some hk
  | @reorder h ts ts' as as' ht ha =>
    have hn : ∀ x, totalRefs ⟨h, ts', as'⟩ x = totalRefs ⟨h, ts, as⟩ x := by
      intro x
      unfold totalRefs
      simp only [ht.count_eq, ha.count_eq]
    refine ⟨fun x k hx => ?_, fun x hx => ?_, hi.acyc⟩
    · rw [hn, ← ha.count_eq]; exact hi.counts x k hx
    · rw [hn, ← ha.count_eq]; exact hi.dead x hx
  | @drop h b ts as =>
    have hn : ∀ x, totalRefs ⟨h, ts, .decr b :: as⟩ x = totalRefs ⟨h, b :: ts, as⟩ x := by
      intro x
      unfold totalRefs
      simp only [List.count_cons]
      by_cases hx : b = x
      · subst hx; simp; omega
      · simp [hx]
    have hd : ∀ x, (RAct.decr b :: as).count (.del x) = as.count (.del x) := by
      intro x
      rw [List.count_cons_of_ne (by simp)]
    refine ⟨fun x k hx => ?_, fun x hx => ?_, hi.acyc⟩
    · rw [hn, hd]; exact hi.counts x k hx
    · rw [hn, hd]; exact hi.dead x hx
  | work hw =>
    cases hw with
    | @decr h b k ts as hb =>
      obtain ⟨hc, hdel⟩ := hi.counts b k hb
      have hn : ∀ x, totalRefs ⟨h.set b (some { k with count := k.count - 1 }), ts,
          if k.count - 1 = 0 then .del b :: as else as⟩ x + (if x = b then 1 else 0) =
          totalRefs ⟨h, ts, .decr b :: as⟩ x := by
        intro x
        unfold totalRefs
        simp only
        rw [flat_setCount hb]
        have : (if k.count - 1 = 0 then RAct.del b :: as else as).count (.decr x) = as.count (.decr x) := by
          by_cases h1 : k.count - 1 = 0
          · rw [if_pos h1, List.count_cons_of_ne (by simp)]
          · rw [if_neg h1]
        rw [this]
        by_cases hx : x = b
        · subst hx
          rw [List.count_cons_self, if_pos rfl]
          omega
        · rw [List.count_cons_of_ne (by simp; exact fun e => hx e.symm), if_neg hx]
          omega
      have hdx : ∀ x, x ≠ b → (if k.count - 1 = 0 then RAct.del b :: as else as).count (.del x) =
          (RAct.decr b :: as).count (.del x) := by
        intro x hx
        rw [List.count_cons_of_ne (b := RAct.decr b) (by simp)]
        by_cases h1 : k.count - 1 = 0
        · rw [if_pos h1, List.count_cons_of_ne (by simp; exact fun e => hx e.symm)]
        · rw [if_neg h1]
      refine ⟨?_, ?_, acyc_setCount hb _ hi.acyc⟩
      · intro x k' hx
        have hnx := hn x
        simp only at hx ⊢
        by_cases hxb : x = b
        · subst hxb
          rw [List.getElem?_set_self (lt_of_some hb), Option.some.injEq, Option.some.injEq] at hx
          subst hx
          rw [if_pos rfl] at hnx
          rw [if_neg (by omega)] at hdel
          simp only at hdel ⊢
          rw [List.count_cons_of_ne (by simp)] at hdel
          refine ⟨by omega, ?_⟩
          by_cases h1 : k.count - 1 = 0
          · have h2 : totalRefs ⟨h.set x (some { k with count := k.count - 1 }), ts,
                if k.count - 1 = 0 then .del x :: as else as⟩ x = 0 := by omega
            rw [if_pos h2, if_pos h1, List.count_cons_self, hdel]
          · have h2 : ¬ totalRefs ⟨h.set x (some { k with count := k.count - 1 }), ts,
                if k.count - 1 = 0 then .del x :: as else as⟩ x = 0 := by omega
            rw [if_neg h2, if_neg h1, hdel]
        · rw [List.getElem?_set_ne (fun e => hxb e.symm)] at hx
          rw [if_neg hxb, Nat.add_zero] at hnx
          rw [hnx, hdx x hxb]
          exact hi.counts x k' hx
      · intro x hx
        have hnx := hn x
        simp only at hx ⊢
        rw [live_set_some hb] at hx
        have hxb : x ≠ b := fun e => hx (e ▸ ⟨k, hb⟩)
        rw [if_neg hxb, Nat.add_zero] at hnx
        rw [hnx, hdx x hxb]
        exact hi.dead x hx
    | @del h b k ts as hb =>
      obtain ⟨hc, hdel⟩ := hi.counts b k hb
      simp only [List.count_cons_self] at hdel
      have hz : totalRefs ⟨h, ts, .del b :: as⟩ b = 0 := by
        by_contra hne
        rw [if_neg hne] at hdel
        omega
      rw [if_pos hz] at hdel
      have hcd : ∀ (l : List Nat) (x : Nat), (l.map RAct.decr).count (.decr x) = l.count x ∧ (l.map RAct.decr).count (.del x) = 0 := by
        intro l x
        induction l with
        | nil => exact ⟨rfl, rfl⟩
        | cons a l ih =>
          refine ⟨?_, ?_⟩
          · rw [List.map_cons, List.count_cons, List.count_cons, ih.1]
            simp
          · rw [List.map_cons, List.count_cons_of_ne (by simp), ih.2]
      have hn : ∀ x, totalRefs ⟨h.set b none, ts, (k.refs.filterMap id).map .decr ++ as⟩ x =
          totalRefs ⟨h, ts, .del b :: as⟩ x := by
        intro x
        unfold totalRefs
        simp only
        have := flatMap_set_count h b (some k) none hb x
        simp only [refsOf, List.count_nil] at this
        rw [List.count_append, (hcd _ x).1, List.count_cons_of_ne (by simp)]
        omega
      have hdx : ∀ x, ((k.refs.filterMap id).map RAct.decr ++ as).count (.del x) = as.count (.del x) := by
        intro x
        rw [List.count_append, (hcd _ x).2, Nat.zero_add]
      refine ⟨?_, ?_, ?_⟩
      · intro x k' hx
        simp only at hx ⊢
        have hxb : x ≠ b := by
          intro e
          subst e
          rw [List.getElem?_set_self (lt_of_some hb)] at hx
          cases hx
        rw [List.getElem?_set_ne (fun e => hxb e.symm)] at hx
        rw [hn, hdx]
        have := hi.counts x k' hx
        simp only at this
        rwa [List.count_cons_of_ne (by simp; exact fun e => hxb e.symm)] at this
      · intro x hx
        simp only at hx ⊢
        rw [hn, hdx]
        by_cases hxb : x = b
        · subst hxb
          exact ⟨hz, by omega⟩
        · have : ¬ Live h x := by
            rintro ⟨k', hk'⟩
            exact hx ⟨k', by rw [List.getElem?_set_ne (fun e => hxb e.symm)]; exact hk'⟩
          have := hi.dead x this
          simp only at this
          rwa [List.count_cons_of_ne (by simp; exact fun e => hxb e.symm)] at this
      · intro x k' hx
        simp only at hx
        have hxb : x ≠ b := by
          intro e
          subst e
          rw [List.getElem?_set_self (lt_of_some hb)] at hx
          cases hx
        rw [List.getElem?_set_ne (fun e => hxb e.symm)] at hx
        exact hi.acyc x k' hx

theorem CReach.inv {s : CState} (h : CReach s) : CInv s := by
  induction h with
  | start => exact ⟨fun b k h => by simp at h, fun b _ => by simp [totalRefs], fun b k h => by simp at h⟩
  | step _ hs ih => exact ih.step hs

/-- **C92 (no use after free in any schedule).**  Whatever the interleaving, no thread gets to touch a freed block: not
    through a pointer it holds, not through a member of a block it holds, not in a decrement, not in a deletion; and no block
    is deleted twice. -/
theorem threads_never_touch_freed {s : CState} (h : CReach s) : ¬ s.Bad ∧ ∀ b, s.acts.count (.del b) ≤ 1 := by
  have hi := h.inv
  have hlive : ∀ b, 0 < totalRefs s b → Live s.heap b := by
    intro b hb
    by_contra hd
    have := (hi.dead b hd).1
    omega
  constructor
  · rintro (⟨b, hb, hd⟩ | ⟨c, b, k, hc, hk, hm, hd⟩ | ⟨b, hb, hd⟩ | ⟨b, hb, hd⟩)
    · obtain ⟨k, hk⟩ := hlive b (by unfold totalRefs; have := List.count_pos_iff.2 hb; omega)
      exact hd k hk
    · obtain ⟨k, hk⟩ := hlive b (by unfold totalRefs; have := count_flat_pos hk hm; omega)
      exact hd k hk
    · obtain ⟨k, hk⟩ := hlive b (by unfold totalRefs; have := List.count_pos_iff.2 hb; omega)
      exact hd k hk
    · have : ¬ Live s.heap b := fun ⟨k, hk⟩ => hd k hk
      have := (hi.dead b this).2
      have := List.count_pos_iff.2 hb
      omega
  · intro b
    by_cases hl : Live s.heap b
    · obtain ⟨k, hk⟩ := hl
      have := (hi.counts b k hk).2
      split_ifs at this <;> omega
    · have := (hi.dead b hl).2
      omega

/-- **C92 (held blocks live).**  A block a thread holds a pointer to is live and is not being deleted. -/
theorem threads_held_live {s : CState} {b : Nat} (h : CReach s) (hb : b ∈ s.tokens) : Live s.heap b ∧ .del b ∉ s.acts := by
  have hp : 0 < totalRefs s b := by unfold totalRefs; have := List.count_pos_iff.2 hb; omega
  have hl : Live s.heap b := by
    by_contra hd
    have := (h.inv.dead b hd).1
    omega
  refine ⟨hl, ?_⟩
  obtain ⟨k, hk⟩ := hl
  have := (h.inv.counts b k hk).2
  rw [if_neg (by omega)] at this
  exact List.count_eq_zero.1 this

/-- **C92 (no leak in any schedule).**  When all threads have dropped their pointers and all releases are done, every block has
    been freed. -/
theorem threads_no_leak {s : CState} (h : CReach s) (ht : s.tokens = []) (ha : s.acts = []) (b : Nat) : ¬ Live s.heap b := by
  have hi := h.inv
  have key : ∀ n b, s.heap.length - b ≤ n → ¬ Live s.heap b := by
    intro n
    induction n with
    | zero =>
      rintro b hn ⟨k, hk⟩
      have := lt_of_some hk
      omega
    | succ n ih =>
      rintro b hn ⟨k, hk⟩
      have hd := (hi.counts b k hk).2
      rw [ha, List.count_nil] at hd
      have hp : 0 < totalRefs s b := by
        by_contra hne
        rw [if_pos (by omega)] at hd
        omega
      unfold totalRefs at hp
      rw [ht, ha, List.count_nil, List.count_nil, Nat.zero_add, Nat.add_zero, List.count_pos_iff, List.mem_flatMap] at hp
      obtain ⟨o, ho, hm⟩ := hp
      cases o with
      | none => cases hm
      | some k' =>
        obtain ⟨c, hc⟩ := List.getElem?_of_mem ho
        have hlt := hi.acyc c k' hc b hm
        have hcl := lt_of_some hc
        exact ih c (by omega) ⟨k', hc⟩
  exact key _ b (Nat.le_refl _)

/-- What the releases in progress still have to do, at most. -/
def workLeft (s : CState) : Nat :=
  2 * (s.heap.flatMap refsOf).length + (s.acts.map fun a => match a with | .decr _ => 2 | .del _ => 1).sum

theorem flatMap_set_length (h : RHeap) (i : Nat) (o o' : Option Blk) (hi : h[i]? = some o) :
    ((h.set i o').flatMap refsOf).length + (refsOf o).length = (h.flatMap refsOf).length + (refsOf o').length := by
  induction h generalizing i with
  | nil => simp at hi
  | cons a h ih =>
    cases i with
    | zero =>
      simp only [List.getElem?_cons_zero, Option.some.injEq] at hi
      subst hi
      simp only [List.set_cons_zero, List.flatMap_cons, List.length_append]
      omega
    | succ i =>
      simp only [List.getElem?_cons_succ] at hi
      have := ih i hi
      simp only [List.set_cons_succ, List.flatMap_cons, List.length_append]
      omega

/-- **C92 (releases finish).**  In every reachable state, releases in progress can go on, whichever thread is next; each of
    their steps brings them closer to the end; so every schedule that runs them ends, with none left. -/
theorem threads_releases_finish {s : CState} (h : CReach s) :
    (∀ a ∈ s.acts, ∃ as s', s.acts.Perm (a :: as) ∧ CWork ⟨s.heap, s.tokens, a :: as⟩ s') ∧
      (∀ s', CWork s s' → workLeft s' < workLeft s ∧ s'.tokens = s.tokens) := by
  constructor
  · intro a ha
    obtain ⟨l, r, e⟩ := List.append_of_mem ha
    have hp : s.acts.Perm (a :: (l ++ r)) := by rw [e]; exact List.perm_middle
    have hb := (threads_never_touch_freed h).1
    cases a with
    | decr b =>
      by_cases hl : Live s.heap b
      · obtain ⟨k, hk⟩ := hl
        exact ⟨_, _, hp, .decr hk⟩
      · exact absurd (.inr (.inr (.inl ⟨b, ha, fun k hk => hl ⟨k, hk⟩⟩))) hb
    | del b =>
      by_cases hl : Live s.heap b
      · obtain ⟨k, hk⟩ := hl
        exact ⟨_, _, hp, .del hk⟩
      · exact absurd (.inr (.inr (.inr ⟨b, ha, fun k hk => hl ⟨k, hk⟩⟩))) hb
  · intro s' hw
    cases hw with
    | @decr hp b k ts as hb =>
      refine ⟨?_, rfl⟩
      unfold workLeft
      simp only
      have := flatMap_set_length hp b (some k) (some { k with count := k.count - 1 }) hb
      simp only [refsOf] at this
      by_cases h1 : k.count - 1 = 0
      · rw [if_pos h1]
        simp only [List.map_cons, List.sum_cons]
        omega
      · rw [if_neg h1]
        simp only [List.map_cons, List.sum_cons]
        omega
    | @del hp b k ts as hb =>
      refine ⟨?_, rfl⟩
      unfold workLeft
      simp only
      have := flatMap_set_length hp b (some k) none hb
      simp only [refsOf, List.length_nil] at this
      have hs : ∀ l : List Nat, ((l.map RAct.decr).map fun a => match a with | .decr _ => 2 | .del _ => 1).sum = 2 * l.length := by
        intro l
        induction l with
        | nil => rfl
        | cons x l ih => simp only [List.map_cons, List.sum_cons, ih, List.length_cons]; omega
      rw [List.map_append, List.sum_append, hs]
      simp only [List.map_cons, List.sum_cons]
      omega

/-- **C92 (freed once).**  No step revives a freed block. -/
theorem threads_freed_once {s s' : CState} (hs : CStep s s') {b : Nat} (hb : b < s.heap.length) (hd : ¬ Live s.heap b) :
    ¬ Live s'.heap b := by
  cases hs with
  | retain hk _ => rw [live_set_some hk]; exact hd
  | retainMember _ _ _ hk => rw [live_set_some hk]; exact hd
  | make =>
    rintro ⟨k, hk⟩
    simp only at hk hb
    rw [List.getElem?_append_left hb] at hk
    exact hd ⟨k, hk⟩
  | reorder => exact hd
  | drop => exact hd
  | work hw =>
    cases hw with
    | decr hk => rw [live_set_some hk]; exact hd
    | del hk => exact fun hl => hd (Shrinks.free.live hl)

/-- Non-vacuity: two threads hold pointers to a block with one member; they drop them in an interleaved way. -/
example : ∃ s, CReach s ∧ s.tokens = [] ∧ s.acts = [.del 1] ∧ s.heap = [some ⟨1, []⟩, some ⟨0, [some 0]⟩] ∧
    ∃ s', CReach s' ∧ s'.acts = [] ∧ s'.heap = [none, none] := by
  have h1 : CReach ⟨[some ⟨1, []⟩], [0], []⟩ := .step .start (.make (rs := []))
  have h2 : CReach ⟨[some ⟨1, []⟩, some ⟨1, [some 0]⟩], [1], []⟩ := .step h1 (.make (rs := [0]) (ts := []))
  have h3 : CReach ⟨[some ⟨1, []⟩, some ⟨2, [some 0]⟩], [1, 1], []⟩ := .step h2 (.retain (b := 1) (ts := [1]) (k := ⟨1, [some 0]⟩) rfl (List.mem_singleton.2 rfl))
  have h4 : CReach ⟨[some ⟨1, []⟩, some ⟨2, [some 0]⟩], [1], [.decr 1]⟩ := .step h3 .drop
  have h5 : CReach ⟨[some ⟨1, []⟩, some ⟨2, [some 0]⟩], [], [.decr 1, .decr 1]⟩ := .step h4 .drop
  have h6 : CReach ⟨[some ⟨1, []⟩, some ⟨1, [some 0]⟩], [], [.decr 1]⟩ := .step h5 (.work (.decr (k := ⟨2, [some 0]⟩) rfl))
  have h7 : CReach ⟨[some ⟨1, []⟩, some ⟨0, [some 0]⟩], [], [.del 1]⟩ := .step h6 (.work (.decr (k := ⟨1, [some 0]⟩) rfl))
  have h8 : CReach ⟨[some ⟨1, []⟩, none], [], [.decr 0]⟩ := .step h7 (.work (.del (k := ⟨0, [some 0]⟩) rfl))
  have h9 : CReach ⟨[some ⟨0, []⟩, none], [], [.del 0]⟩ := .step h8 (.work (.decr (k := ⟨1, []⟩) rfl))
  have h10 : CReach ⟨[none, none], [], []⟩ := .step h9 (.work (.del (k := ⟨0, []⟩) rfl))
  exact ⟨_, h7, rfl, rfl, rfl, _, h10, rfl, rfl⟩

end Dynd
