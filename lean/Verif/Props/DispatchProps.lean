import Verif.Model.Dispatch
import Mathlib.Data.List.Basic
import Mathlib.Data.List.Perm.Basic
import Mathlib.Data.List.Perm.Subperm
import Mathlib.Data.List.Nodup
/-
Property theorems C42, C43, C65: overload ordering and multiple dispatch.
-/
namespace Dynd
open Res

/-! ## Specification -/

/-- There is a non-empty path from `a` to `b` along edges (`edges[a]` lists the successors of `a`). -/
inductive Path (edges : List (List Nat)) : Nat → Nat → Prop
  | one {a b : Nat} {es : List Nat} : edges[a]? = some es → b ∈ es → Path edges a b
  | more {a b c : Nat} {es : List Nat} : Path edges a b → edges[b]? = some es → c ∈ es → Path edges a c

/-- The graph has a cycle. -/
def Cyclic (edges : List (List Nat)) : Prop := ∃ a, Path edges a a

/-- Every successor of a listed vertex comes later in the list. -/
def EdgesForward (edges : List (List Nat)) (order : List Nat) : Prop :=
  ∀ a v b, order = a ++ v :: b → ∀ es, edges[v]? = some es → ∀ w ∈ es, w ∈ b

/-! ## Topological sort -/

theorem Path.trans {edges : List (List Nat)} {a b c : Nat} (h : Path edges a b) (h' : Path edges b c) :
    Path edges a c := by
  induction h' with
  | one h1 h2 => exact .more h h1 h2
  | more _ h1 h2 ih => exact .more ih h1 h2

/-- Number of unmarked vertices. -/
def whites : List Nat → Nat
  | [] => 0
  | m :: ms => (if m = 0 then 1 else 0) + whites ms

theorem whites_set : ∀ {ms : List Nat} {i m v : Nat}, ms[i]? = some m → v ≠ 0 →
    whites (ms.set i v) + (if m = 0 then 1 else 0) = whites ms
  | [], i, m, v, h, _ => by simp at h
  | a :: ms, i, m, v, h, hv => by
    cases i with
    | zero =>
      simp only [List.getElem?_cons_zero, Option.some.injEq] at h
      subst h
      simp only [List.set_cons_zero, whites, if_neg hv]; omega
    | succ i =>
      simp only [List.getElem?_cons_succ] at h
      simp only [List.set_cons_succ, whites]
      have := whites_set h hv
      omega

theorem whites_le : ∀ (ms : List Nat), whites ms ≤ ms.length
  | [] => by simp [whites]
  | m :: ms => by
    have := whites_le ms
    simp only [whites, List.length_cons]
    split <;> omega

/-- Invariant: `out` lists the finished vertices in their final order. -/
structure TInv {α : Type} (verts : List α) (edges : List (List Nat)) (s : TState α) (out : List Nat) : Prop where
  len : s.marks.length = verts.length
  small : ∀ (v m : Nat), s.marks[v]? = some m → m ≤ 2
  nodup : out.Nodup
  done : ∀ v : Nat, s.marks[v]? = some 2 ↔ v ∈ out
  fwd : EdgesForward edges out
  rlen : s.res.length = verts.length
  rest : s.res.drop (verts.length - out.length) = out.map (fun v => verts[v]?)
  pos : s.pos = verts.length - 1 - out.length

theorem TInv.lt {α : Type} {verts : List α} {edges : List (List Nat)} {s : TState α} {out : List Nat}
    (h : TInv verts edges s out) {v : Nat} (hv : v ∈ out) : v < verts.length := by
  have := (List.getElem?_eq_some_iff.1 ((h.done v).2 hv)).1
  rw [h.len] at this; exact this

theorem nodup_lt_length {out : List Nat} {n i : Nat} (hn : out.Nodup) (hl : ∀ v ∈ out, v < n) (hi : i < n)
    (hni : i ∉ out) : out.length < n := by
  have h1 : (i :: out).Nodup := List.nodup_cons.2 ⟨hni, hn⟩
  have h2 : (i :: out) ⊆ List.range n := by
    intro v hv
    rcases List.mem_cons.1 hv with rfl | hv
    · exact List.mem_range.2 hi
    · exact List.mem_range.2 (hl v hv)
  have h3 : ∀ (l1 l2 : List Nat), l1.Nodup → l1 ⊆ l2 → l1.length ≤ l2.length := by
    intro l1
    induction l1 with
    | nil => intro _ _ _; simp
    | cons x xs ih =>
      intro l2 hnd hsub
      have hx : x ∈ l2 := hsub (by simp)
      have := ih (l2.erase x) (List.nodup_cons.1 hnd).2 (fun y hy => by
        have hyx : y ≠ x := fun e => (List.nodup_cons.1 hnd).1 (e ▸ hy)
        exact (List.mem_erase_of_ne hyx).2 (hsub (by simp [hy])))
      rw [List.length_erase_of_mem hx] at this
      have hpos : 0 < l2.length := List.length_pos_of_mem hx
      simp only [List.length_cons]; omega
  have := h3 _ _ h1 h2
  simp at this; omega

/-- Outcome of visiting from state `s` (finished list `out`), guaranteeing that the targets `T` get finished. -/
def VisitPost {α : Type} (verts : List α) (edges : List (List Nat)) (s : TState α) (out : List Nat)
    (T : List Nat) (r : Res (TState α)) : Prop :=
  (∃ s' pre, r = .ok s' ∧ TInv verts edges s' (pre ++ out) ∧ (∀ t ∈ T, t ∈ pre ++ out) ∧
    (∀ g : Nat, s'.marks[g]? = some 1 ↔ s.marks[g]? = some 1) ∧ whites s'.marks ≤ whites s.marks) ∨
  (r = .throw .notDag ∧ Cyclic edges)

theorem forEach_spec {α : Type} {verts : List α} {edges : List (List Nat)} {f : Nat → TState α → Res (TState α)}
    {W : Nat} {P : (Nat → Prop) → Nat → Prop}
    (hf : ∀ (i : Nat) (s : TState α) (out : List Nat), TInv verts edges s out → P (fun g : Nat => s.marks[g]? = some 1) i → whites s.marks ≤ W →
      VisitPost verts edges s out [i] (f i s)) :
    ∀ (js : List Nat) (s : TState α) (out : List Nat), TInv verts edges s out →
      (∀ j ∈ js, P (fun g : Nat => s.marks[g]? = some 1) j) → whites s.marks ≤ W →
      VisitPost verts edges s out js (forEach f js s)
  | [], s, out, hi, _, _ => Or.inl ⟨s, [], rfl, hi, by simp, fun _ => Iff.rfl, Nat.le_refl _⟩
  | j :: js, s, out, hi, hp, hw => by
    rcases hf j s out hi (hp j (by simp)) hw with ⟨s', pre, e, h1, h2, h3, h4⟩ | ⟨e, hc⟩
    · have hg : (fun g : Nat => s'.marks[g]? = some 1) = (fun g : Nat => s.marks[g]? = some 1) := by
        funext g; exact propext (h3 g)
      rcases forEach_spec hf js s' (pre ++ out) h1 (fun k hk => by rw [hg]; exact hp k (by simp [hk])) (by omega) with
        ⟨s'', pre', e', g1, g2, g3, g4⟩ | ⟨e', hc⟩
      · left
        refine ⟨s'', pre' ++ pre, by simp [forEach, e, e'], by rw [List.append_assoc]; exact g1, ?_,
          fun g => (g3 g).trans (h3 g), by omega⟩
        intro t ht
        rw [List.append_assoc]
        rcases List.mem_cons.1 ht with rfl | ht
        · exact List.mem_append_right _ (h2 t (by simp))
        · exact g2 t ht
      · right; exact ⟨by simp [forEach, e, e'], hc⟩
    · right; exact ⟨by simp [forEach, e], hc⟩

theorem topoVisit_spec {α : Type} {verts : List α} {edges : List (List Nat)} (hel : edges.length = verts.length)
    (hin : ∀ (i : Nat) es, edges[i]? = some es → ∀ j ∈ es, j < verts.length) :
    ∀ (fuel i : Nat) (s : TState α) (out : List Nat), TInv verts edges s out → i < verts.length →
      (∀ g : Nat, s.marks[g]? = some 1 → Path edges g i) → whites s.marks < fuel →
      VisitPost verts edges s out [i] (topoVisit verts edges fuel i s)
  | 0, _, _, _, _, _, _, h => absurd h (by omega)
  | fuel + 1, i, s, out, hI, hi, hg, hw => by
    have hm : ∃ m, s.marks[i]? = some m := ⟨_, List.getElem?_eq_getElem (by rw [hI.len]; exact hi)⟩
    have he : ∃ es, edges[i]? = some es := ⟨_, List.getElem?_eq_getElem (by rw [hel]; exact hi)⟩
    have hv : ∃ v, verts[i]? = some v := ⟨_, List.getElem?_eq_getElem hi⟩
    obtain ⟨m, hm⟩ := hm
    obtain ⟨es, he⟩ := he
    obtain ⟨v, hv⟩ := hv
    simp only [topoVisit, hm, he, hv]
    by_cases h1 : m = 1
    · subst h1
      rw [if_pos rfl]
      exact Or.inr ⟨rfl, i, hg i hm⟩
    · rw [if_neg h1]
      by_cases h2 : m = 2
      · subst h2
        rw [if_pos rfl]
        exact Or.inl ⟨s, [], rfl, hI, by simpa using (hI.done i).1 hm, fun _ => Iff.rfl, Nat.le_refl _⟩
      · rw [if_neg h2]
        have h0 : m = 0 := by have := hI.small i m hm; omega
        subst h0
        -- state with i temporarily marked
        have hlt : i < s.marks.length := by rw [hI.len]; exact hi
        have hget : ∀ (c g : Nat), (s.marks.set i c)[g]? = if g = i then some c else s.marks[g]? := by
          intro c g
          rw [List.getElem?_set]
          by_cases hgi : g = i
          · subst hgi; simp [hlt]
          · rw [if_neg hgi, if_neg (fun e => hgi e.symm)]
        have hI1 : TInv verts edges { s with marks := s.marks.set i 1 } out := by
          refine ⟨by simp [hI.len], ?_, hI.nodup, ?_, hI.fwd, hI.rlen, hI.rest, hI.pos⟩
          · intro v m hvm
            simp only [hget] at hvm
            by_cases hvi : v = i
            · rw [if_pos hvi, Option.some.injEq] at hvm; omega
            · rw [if_neg hvi] at hvm; exact hI.small v m hvm
          · intro v
            simp only [hget]
            by_cases hvi : v = i
            · rw [if_pos hvi]
              constructor
              · intro h; simp at h
              · intro h; rw [hvi] at h; have := (hI.done i).2 h; rw [hm] at this; simp at this
            · rw [if_neg hvi]; exact hI.done v
        have hws := whites_set (v := 1) hm (by omega)
        simp only [if_true] at hws
        have hrec := forEach_spec (verts := verts) (edges := edges) (W := fuel - 1)
          (P := fun gray j => j < verts.length ∧ ∀ g, gray g → Path edges g j)
          (f := fun j t => topoVisit verts edges fuel j t)
          (fun j t out' hJ hP hW => topoVisit_spec hel hin fuel j t out' hJ hP.1 hP.2 (by
            have : fuel ≠ 0 := by omega
            omega)) es
          { s with marks := s.marks.set i 1 } out hI1
          (fun j hj => ⟨hin i es he j hj, fun g hgr => by
            simp only [hget] at hgr
            by_cases hgi : g = i
            · rw [hgi]; exact .one he hj
            · rw [if_neg hgi] at hgr; exact .more (hg g hgr) he hj⟩)
          (by simp only; omega)
        rcases hrec with ⟨s1, pre, e, g1, g2, g3, g4⟩ | ⟨e, hc⟩
        · left
          simp only at g3 g4
          rw [e, bind_ok]
          have hmi : s1.marks[i]? = some 1 := (g3 i).2 (by rw [hget, if_pos rfl])
          have hlt1 : i < s1.marks.length := by rw [g1.len]; exact hi
          have hget1 : ∀ (c g : Nat), (s1.marks.set i c)[g]? = if g = i then some c else s1.marks[g]? := by
            intro c g
            rw [List.getElem?_set]
            by_cases hgi : g = i
            · subst hgi; simp [hlt1]
            · rw [if_neg hgi, if_neg (fun e => hgi e.symm)]
          have hni : i ∉ pre ++ out := by
            intro h; have := (g1.done i).2 h; rw [hmi] at this; simp at this
          have hlen := nodup_lt_length g1.nodup (fun v hv => g1.lt hv) hi hni
          refine ⟨_, i :: pre, rfl, ?_, by simp, ?_, ?_⟩
          · refine ⟨by simp [g1.len], ?_, ?_, ?_, ?_, by simp [g1.rlen], ?_, ?_⟩
            · intro v m hvm
              simp only [hget1] at hvm
              by_cases hvi : v = i
              · rw [if_pos hvi, Option.some.injEq] at hvm; omega
              · rw [if_neg hvi] at hvm; exact g1.small v m hvm
            · exact List.nodup_cons.2 ⟨hni, g1.nodup⟩
            · intro v
              simp only [hget1, List.cons_append, List.mem_cons]
              by_cases hvi : v = i
              · simp [hvi]
              · rw [if_neg hvi, g1.done v]; simp [hvi]
            · intro a w b hab es' hes' x hx
              cases a with
              | nil =>
                simp only [List.nil_append, List.cons_append, List.cons.injEq] at hab
                obtain ⟨rfl, rfl⟩ := hab
                rw [he, Option.some.injEq] at hes'
                subst hes'
                exact g2 x hx
              | cons a0 a =>
                simp only [List.cons_append, List.cons.injEq] at hab
                exact g1.fwd a w b hab.2 es' hes' x hx
            · simp only [List.cons_append, List.length_cons, List.map_cons]
              rw [g1.pos]
              have e1 : verts.length - 1 - (pre ++ out).length = verts.length - ((pre ++ out).length + 1) := by omega
              have hlt2 : verts.length - ((pre ++ out).length + 1) < s1.res.length := by rw [g1.rlen]; omega
              rw [e1, List.drop_eq_getElem_cons (by rw [List.length_set]; exact hlt2), List.getElem_set_self, hv,
                List.drop_set_of_lt (by omega)]
              congr 1
              have e2 : verts.length - ((pre ++ out).length + 1) + 1 = verts.length - (pre ++ out).length := by omega
              rw [e2]
              exact g1.rest
            · simp only [g1.pos, List.cons_append, List.length_cons]; omega
          · intro g
            simp only [hget1]
            by_cases hgi : g = i
            · rw [if_pos hgi, hgi, hm]; simp
            · rw [if_neg hgi, g3 g, hget, if_neg hgi]
          · have := whites_set (v := 2) hmi (by omega)
            simp only at this ⊢
            simp at this
            omega
        · right
          rw [e]; exact ⟨rfl, hc⟩

theorem range_perm_of {out : List Nat} {n : Nat} (hn : out.Nodup) (hl : ∀ v ∈ out, v < n) (ha : ∀ v < n, v ∈ out) :
    out.Perm (List.range n) := by
  rw [List.perm_ext_iff_of_nodup hn List.nodup_range]
  intro v
  rw [List.mem_range]
  exact ⟨hl v, ha v⟩

theorem not_cyclic_of_forward {edges : List (List Nat)} {order : List Nat}
    (hn : order.Nodup) (hin : ∀ v, (∃ es, edges[v]? = some es) → v ∈ order)
    (hf : EdgesForward edges order) : ¬ Cyclic edges := by
  -- along a path, the target is in every suffix following the source
  have key : ∀ {a b : Nat}, Path edges a b → ∀ x y, order = x ++ a :: y → b ∈ y := by
    intro a b h
    induction h with
    | one h1 h2 => intro x y e; exact hf x _ y e _ h1 _ h2
    | @more b c es h h1 h2 ih =>
      intro x y e
      obtain ⟨y1, y2, ey⟩ := List.append_of_mem (ih x y e)
      have := hf (x ++ a :: y1) b y2 (by rw [e, ey]; simp) _ h1 _ h2
      rw [ey]; simp [this]
  rintro ⟨a, h⟩
  have ha : ∃ es, edges[a]? = some es := by
    have first : ∀ {x y : Nat}, Path edges x y → ∃ es, edges[x]? = some es := by
      intro x y h
      induction h with
      | one h1 _ => exact ⟨_, h1⟩
      | more _ _ _ ih => exact ih
    exact first h
  obtain ⟨x, y, e⟩ := List.append_of_mem (hin a ha)
  have := key h x y e
  rw [e] at hn
  have h2 := (List.nodup_append.1 hn).2.1
  exact (List.nodup_cons.1 h2).1 this

/-- C42: `topological_sort` on any graph whose edges stay in range.  If the graph has no cycle it succeeds and
    the output is a rearrangement of the vertices in which every edge goes forward; if it has a cycle it
    raises; it never runs into undefined behaviour.  (`order` gives the vertex numbers in output order.) -/
theorem topo_sort_exact {α : Type} (verts : List α) (edges : List (List Nat)) (out : List (Option α))
    (h0 : verts ≠ []) (hel : edges.length = verts.length) (hol : out.length = verts.length)
    (hin : ∀ (i : Nat) es, edges[i]? = some es → ∀ j ∈ es, j < verts.length) :
    (¬ Cyclic edges → ∃ order : List Nat, order.Perm (List.range verts.length) ∧ EdgesForward edges order ∧
      topoSort verts edges out = .ok (order.map (fun v => verts[v]?))) ∧
    (Cyclic edges → topoSort verts edges out = .throw .notDag) := by
  have hI : TInv verts edges { marks := List.replicate verts.length 0, res := out, pos := verts.length - 1 } [] := by
    refine ⟨by simp, ?_, List.nodup_nil, ?_, ?_, hol, ?_, by simp⟩
    · intro v m h
      simp only [List.getElem?_replicate] at h
      split at h
      · rw [Option.some.injEq] at h; omega
      · simp at h
    · intro v
      simp only [List.getElem?_replicate]
      split <;> simp
    · intro a v b h; simp at h
    · simp [hol]
  have hw : whites (List.replicate verts.length 0) ≤ verts.length := by
    have := whites_le (List.replicate verts.length 0); simpa using this
  have hs := forEach_spec (verts := verts) (edges := edges) (W := verts.length)
    (P := fun gray j => j < verts.length ∧ ∀ g, ¬ gray g)
    (f := fun i t => topoVisit verts edges (verts.length + 1) i t)
    (fun j t out' hJ hP hW => topoVisit_spec hel hin _ j t out' hJ hP.1 (fun g hg => absurd hg (hP.2 g)) (by omega))
    (List.range verts.length) _ [] hI
    (fun j hj => ⟨List.mem_range.1 hj, fun g h => by
      simp only [List.getElem?_replicate] at h
      split at h <;> simp at h⟩) hw
  have hlen : verts.length ≠ 0 := by
    intro h; exact h0 (List.eq_nil_of_length_eq_zero h)
  unfold topoSort
  rw [if_neg hlen]
  rcases hs with ⟨s', pre, e, g1, g2, g3, g4⟩ | ⟨e, hc⟩
  · rw [List.append_nil] at g1 g2
    have hp := range_perm_of g1.nodup (fun v hv => g1.lt hv) (fun v hv => g2 v (List.mem_range.2 hv))
    have hac : ¬ Cyclic edges := not_cyclic_of_forward g1.nodup (fun v ⟨es, hes⟩ => by
      apply g2
      rw [List.mem_range, ← hel]
      exact (List.getElem?_eq_some_iff.1 hes).1) g1.fwd
    refine ⟨fun _ => ⟨pre, hp, g1.fwd, ?_⟩, fun hc => absurd hc hac⟩
    rw [e, bind_ok, pure_eq]
    have hpl : pre.length = verts.length := by rw [hp.length_eq]; simp
    have hr := g1.rest
    rw [hpl, Nat.sub_self, List.drop_zero] at hr
    rw [hr]
  · refine ⟨fun h => absurd hc h, fun _ => ?_⟩
    rw [e]; rfl

/-- The graph of the unit test, and a cyclic one. -/
example : topoSort [10, 11, 12, 13, 14, 15] [[], [], [3], [1], [0, 1], [0, 2]] (List.replicate 6 none)
    = .ok [some 15, some 14, some 12, some 13, some 11, some 10] := by decide
example : topoSort [10, 11] [[1], [0]] [none, none] = .throw .notDag := by decide

/-- An empty overload set moves the output iterator before the beginning (undefined behaviour). -/
theorem topo_sort_empty_violated : topoSort ([] : List Nat) [] [] = .ub := rfl

/-! ## Building the edges -/

/-- `b` is listed as successor of `a`. -/
def HasE (es : List (List Nat)) (a b : Nat) : Prop := ∃ l, es[a]? = some l ∧ b ∈ l

/-- The signature number `a` is strictly more specific than number `b`. -/
def SigE {T : Type} (m : T → T → Bool) (sigs : List (List T)) (a b : Nat) : Prop :=
  ∃ u v, sigs[a]? = some u ∧ sigs[b]? = some v ∧ edge m u v = true

theorem edge_iff {T : Type} {m : T → T → Bool} {u v : List T} :
    edge m u v = true ↔ supercedes m u v = true ∧ supercedes m v u = false := by
  unfold edge
  cases supercedes m u v <;> cases supercedes m v u <;> simp

theorem edge_irrefl {T : Type} {m : T → T → Bool} {u : List T} : edge m u u = false := by
  rw [Bool.eq_false_iff]; intro h; rw [edge_iff] at h; rw [h.1] at h; simp at h

theorem edge_asymm {T : Type} {m : T → T → Bool} {u v : List T} (h : edge m u v = true) : edge m v u = false := by
  rw [Bool.eq_false_iff]; intro h'
  rw [edge_iff] at h h'
  rw [h.1] at h'; simp at h'

theorem hasE_modify {es : List (List Nat)} {i j a b : Nat} (hi : i < es.length) :
    HasE (es.modify i (· ++ [j])) a b ↔ HasE es a b ∨ (a = i ∧ b = j) := by
  unfold HasE
  rw [List.getElem?_modify]
  by_cases h : i = a
  · subst h
    rw [List.getElem?_eq_getElem hi]
    simp
  · have h' : a ≠ i := fun e => h e.symm
    simp [h, h']

/-- Specification: `u` is at least as specific as `v`, i.e. at every position the pattern of `v` matches the
    type of `u` (`m p c` means that pattern `p` matches `c`). -/
def AtLeast {T : Type} (m : T → T → Bool) (u v : List T) : Prop :=
  ∀ (i : Nat) a b, u[i]? = some a → v[i]? = some b → m b a = true

/-- Specification: `u` is strictly more specific than `v`. -/
def Strictly {T : Type} (m : T → T → Bool) (u v : List T) : Prop := AtLeast m u v ∧ ¬ AtLeast m v u

/-- Specification: at every position one of the two types matches the other. -/
def Comparable {T : Type} (m : T → T → Bool) (u v : List T) : Prop :=
  ∀ (i : Nat) a b, u[i]? = some a → v[i]? = some b → m a b = true ∨ m b a = true

theorem supercedes_iff {T : Type} {m : T → T → Bool} : ∀ {u v : List T}, supercedes m u v = true ↔ AtLeast m u v
  | [], v => by simp [supercedes, AtLeast]
  | _ :: _, [] => by simp [supercedes, AtLeast]
  | x :: u, y :: v => by
    simp only [supercedes, Bool.and_eq_true]
    rw [supercedes_iff (u := u)]
    constructor
    · rintro ⟨h1, h2⟩ i a b ha hb
      cases i with
      | zero => simp at ha hb; subst ha; subst hb; exact h1
      | succ i => exact h2 i a b (by simpa using ha) (by simpa using hb)
    · intro h
      exact ⟨h 0 x y rfl rfl, fun i a b ha hb => h (i + 1) a b (by simpa using ha) (by simpa using hb)⟩

theorem consistent_iff {T : Type} {m : T → T → Bool} : ∀ {u v : List T}, consistent m u v = true ↔ Comparable m u v
  | [], v => by simp [consistent, Comparable]
  | _ :: _, [] => by simp [consistent, Comparable]
  | x :: u, y :: v => by
    simp only [consistent, Bool.and_eq_true, Bool.or_eq_true]
    rw [consistent_iff (u := u)]
    constructor
    · rintro ⟨h1, h2⟩ i a b ha hb
      cases i with
      | zero => simp at ha hb; subst ha; subst hb; exact h1
      | succ i => exact h2 i a b (by simpa using ha) (by simpa using hb)
    · intro h
      exact ⟨h 0 x y rfl rfl, fun i a b ha hb => h (i + 1) a b (by simpa using ha) (by simpa using hb)⟩

theorem supercedes_false_iff {T : Type} {m : T → T → Bool} {u v : List T} :
    supercedes m u v = false ↔ ¬ AtLeast m u v := by
  rw [← supercedes_iff]; simp

theorem edge_strictly {T : Type} {m : T → T → Bool} {u v : List T} : edge m u v = true ↔ Strictly m u v := by
  rw [edge_iff, supercedes_iff, supercedes_false_iff]; rfl

theorem edge_false_iff {T : Type} {m : T → T → Bool} {u v : List T} : edge m u v = false ↔ ¬ Strictly m u v := by
  rw [← edge_strictly]; simp

theorem ambiguous_iff {T : Type} {m : T → T → Bool} {u v : List T} :
    ambiguous m u v = true ↔ Comparable m u v ∧ ¬ AtLeast m u v ∧ ¬ AtLeast m v u := by
  rw [← consistent_iff, ← supercedes_iff, ← supercedes_iff]
  simp [ambiguous]

/-- Specification: a pair of signatures that can overlap while neither is more specific, with no overload
    at least as specific as both. -/
def Unresolved {T : Type} (m : T → T → Bool) (sigs : List (List T)) (i j : Nat) : Prop :=
  ∃ u v, sigs[i]? = some u ∧ sigs[j]? = some v ∧ Comparable m u v ∧ ¬ AtLeast m u v ∧ ¬ AtLeast m v u ∧
    ∀ k ∈ sigs, ¬ (AtLeast m k u ∧ AtLeast m k v)

theorem edgeStep_spec {T : Type} {m : T → T → Bool} {sigs : List (List T)} {es : List (List Nat)} {i j : Nat}
    (hi : i < sigs.length) (hj : j < sigs.length) (hl : es.length = sigs.length) :
    (Unresolved m sigs i j ∧ edgeStep m sigs es i j = .throw .runtime) ∨
    (¬ Unresolved m sigs i j ∧ ∃ es', edgeStep m sigs es i j = .ok es' ∧ es'.length = es.length ∧
      ∀ a b, HasE es' a b ↔ HasE es a b ∨ (a = i ∧ b = j ∧ SigE m sigs i j) ∨ (a = j ∧ b = i ∧ SigE m sigs j i)) := by
  have e1 := List.getElem?_eq_getElem hi
  have e2 := List.getElem?_eq_getElem hj
  have hS : ∀ a b u v, sigs[a]? = some u → sigs[b]? = some v → (SigE m sigs a b ↔ edge m u v = true) := by
    intro a b u v ha hb
    unfold SigE
    rw [ha, hb]; simp
  have hU : Unresolved m sigs i j ↔ (ambiguous m sigs[i] sigs[j] && !(sigs.any fun k => supercedes m k sigs[i] && supercedes m k sigs[j])) = true := by
    unfold Unresolved
    rw [e1, e2, Bool.and_eq_true, ambiguous_iff]
    simp [List.any_eq_false, supercedes_false_iff, and_assoc, supercedes_iff]
  simp only [edgeStep, e1, e2]
  by_cases hu : Unresolved m sigs i j
  · left
    exact ⟨hu, if_pos (hU.1 hu)⟩
  · right
    refine ⟨hu, ?_⟩
    rw [if_neg (fun h => hu (hU.2 h))]
    rw [hS i j _ _ e1 e2, hS j i _ _ e2 e1]
    by_cases c1 : edge m sigs[i] sigs[j] = true
    · rw [if_pos c1]
      refine ⟨_, rfl, by simp, fun a b => ?_⟩
      rw [hasE_modify (by omega)]
      simp [c1, edge_asymm c1]
    · rw [if_neg c1]
      by_cases c2 : edge m sigs[j] sigs[i] = true
      · rw [if_pos c2]
        refine ⟨_, rfl, by simp, fun a b => ?_⟩
        rw [hasE_modify (by omega)]
        simp [c1, c2]
      · rw [if_neg c2]
        exact ⟨es, rfl, rfl, fun a b => by simp [c1, c2]⟩

theorem inner_spec {T : Type} {m : T → T → Bool} {sigs : List (List T)} {i : Nat} (hi : i < sigs.length) :
    ∀ (js : List Nat) (es : List (List Nat)), (∀ j ∈ js, j < sigs.length) → es.length = sigs.length →
    ((∃ j ∈ js, i < j ∧ Unresolved m sigs i j) ∧ buildEdges.inner m sigs i js es = .throw .runtime) ∨
    ((∀ j ∈ js, i < j → ¬ Unresolved m sigs i j) ∧ ∃ es', buildEdges.inner m sigs i js es = .ok es' ∧
      es'.length = es.length ∧
      ∀ a b, HasE es' a b ↔ HasE es a b ∨ ∃ j ∈ js, i < j ∧
        ((a = i ∧ b = j ∧ SigE m sigs i j) ∨ (a = j ∧ b = i ∧ SigE m sigs j i)))
  | [], es, _, _ => Or.inr ⟨by simp, es, rfl, rfl, by simp⟩
  | j :: js, es, hj, hl => by
    have hj0 := hj j (by simp)
    have hjs : ∀ j ∈ js, j < sigs.length := fun k hk => hj k (by simp [hk])
    by_cases hij : i < j
    · rcases edgeStep_spec hi hj0 hl with ⟨hu, e⟩ | ⟨hu, es', e, hl', hE⟩
      · left
        refine ⟨⟨j, by simp, hij, hu⟩, ?_⟩
        simp [buildEdges.inner, hij, e]
      · rcases inner_spec hi js es' hjs (by omega) with ⟨⟨k, hk, h1, h2⟩, e'⟩ | ⟨hn, es'', e', hl'', hE'⟩
        · left
          exact ⟨⟨k, by simp [hk], h1, h2⟩, by simp [buildEdges.inner, hij, e, e']⟩
        · right
          refine ⟨?_, es'', by simp [buildEdges.inner, hij, e, e'], by omega, fun a b => ?_⟩
          · intro k hk h1
            rcases List.mem_cons.1 hk with rfl | hk
            · exact hu
            · exact hn k hk h1
          · rw [hE', hE]
            simp only [List.mem_cons, exists_eq_or_imp]
            simp only [hij, true_and, or_assoc]
    · rcases inner_spec hi js es hjs hl with ⟨⟨k, hk, h1, h2⟩, e'⟩ | ⟨hn, es'', e', hl'', hE'⟩
      · left
        exact ⟨⟨k, by simp [hk], h1, h2⟩, by simp [buildEdges.inner, hij, e']⟩
      · right
        refine ⟨?_, es'', by simp [buildEdges.inner, hij, e'], by omega, fun a b => ?_⟩
        · intro k hk h1
          rcases List.mem_cons.1 hk with rfl | hk
          · exact absurd h1 hij
          · exact hn k hk h1
        · rw [hE']
          simp only [List.mem_cons, exists_eq_or_imp]
          simp only [hij, false_and, false_or]

theorem outer_spec {T : Type} {m : T → T → Bool} {sigs : List (List T)} :
    ∀ (is : List Nat) (es : List (List Nat)), (∀ i ∈ is, i < sigs.length) → es.length = sigs.length →
    ((∃ i ∈ is, ∃ j < sigs.length, i < j ∧ Unresolved m sigs i j) ∧ buildEdges.forEach' m sigs is es = .throw .runtime) ∨
    ((∀ i ∈ is, ∀ j < sigs.length, i < j → ¬ Unresolved m sigs i j) ∧ ∃ es', buildEdges.forEach' m sigs is es = .ok es' ∧
      es'.length = es.length ∧
      ∀ a b, HasE es' a b ↔ HasE es a b ∨ ∃ i ∈ is, ∃ j < sigs.length, i < j ∧
        ((a = i ∧ b = j ∧ SigE m sigs i j) ∨ (a = j ∧ b = i ∧ SigE m sigs j i)))
  | [], es, _, _ => Or.inr ⟨by simp, es, rfl, rfl, by simp⟩
  | i :: is, es, hi, hl => by
    have hi0 := hi i (by simp)
    have his : ∀ i ∈ is, i < sigs.length := fun k hk => hi k (by simp [hk])
    rcases inner_spec (m := m) hi0 (List.range sigs.length) es (fun j hj => List.mem_range.1 hj) hl with
      ⟨⟨j, hj, h1, h2⟩, e⟩ | ⟨hn, es', e, hl', hE⟩
    · left
      exact ⟨⟨i, by simp, j, List.mem_range.1 hj, h1, h2⟩, by simp [buildEdges.forEach', e]⟩
    · rcases outer_spec is es' his (by omega) with ⟨⟨k, hk, h1⟩, e'⟩ | ⟨hn', es'', e', hl'', hE'⟩
      · left
        exact ⟨⟨k, by simp [hk], h1⟩, by simp [buildEdges.forEach', e, e']⟩
      · right
        refine ⟨?_, es'', by simp [buildEdges.forEach', e, e'], by omega, fun a b => ?_⟩
        · intro k hk j hj h1
          rcases List.mem_cons.1 hk with rfl | hk
          · exact hn j (List.mem_range.2 hj) h1
          · exact hn' k hk j hj h1
        · rw [hE', hE]
          simp only [List.mem_cons, exists_eq_or_imp, List.mem_range]
          simp only [or_assoc]

/-- The edges computed by `assign` are exactly the "strictly more specific" pairs, and `assign` raises in this
    phase exactly when some pair of overloads is ambiguous and unresolved. -/
theorem buildEdges_spec {T : Type} (m : T → T → Bool) (sigs : List (List T)) :
    ((∃ i j, i < j ∧ Unresolved m sigs i j) ∧ buildEdges m sigs = .throw .runtime) ∨
    ((∀ i j, i < j → ¬ Unresolved m sigs i j) ∧ ∃ es, buildEdges m sigs = .ok es ∧ es.length = sigs.length ∧
      ∀ a b, HasE es a b ↔ SigE m sigs a b) := by
  have lt_of : ∀ {i j : Nat}, Unresolved m sigs i j → i < sigs.length ∧ j < sigs.length := by
    rintro i j ⟨u, v, h1, h2, _⟩
    exact ⟨(List.getElem?_eq_some_iff.1 h1).1, (List.getElem?_eq_some_iff.1 h2).1⟩
  rcases outer_spec (m := m) (sigs := sigs) (List.range sigs.length) (List.replicate sigs.length [])
    (fun i hi => List.mem_range.1 hi) (by simp) with ⟨⟨i, _, j, _, h1, h2⟩, e⟩ | ⟨hn, es, e, hl, hE⟩
  · left; exact ⟨⟨i, j, h1, h2⟩, e⟩
  · right
    refine ⟨fun i j hij hu => hn i (List.mem_range.2 (lt_of hu).1) j (lt_of hu).2 hij hu, es, e, by simpa using hl, ?_⟩
    intro a b
    rw [hE]
    have hno : ¬ HasE (List.replicate sigs.length []) a b := by
      rintro ⟨l, h1, h2⟩
      rw [List.getElem?_replicate] at h1
      split at h1
      · rw [Option.some.injEq] at h1; subst h1; simp at h2
      · simp at h1
    constructor
    · rintro (h | ⟨i, _, j, _, _, ⟨rfl, rfl, h⟩ | ⟨rfl, rfl, h⟩⟩)
      · exact absurd h hno
      · exact h
      · exact h
    · intro h
      right
      obtain ⟨u, v, h1, h2, h3⟩ := h
      have la := (List.getElem?_eq_some_iff.1 h1).1
      have lb := (List.getElem?_eq_some_iff.1 h2).1
      rcases Nat.lt_trichotomy a b with hab | rfl | hab
      · exact ⟨a, List.mem_range.2 la, b, lb, hab, Or.inl ⟨rfl, rfl, u, v, h1, h2, h3⟩⟩
      · rw [h1, Option.some.injEq] at h2
        subst h2
        rw [edge_irrefl] at h3; simp at h3
      · exact ⟨b, List.mem_range.2 lb, a, la, hab, Or.inr ⟨rfl, rfl, u, v, h1, h2, h3⟩⟩

/-! ## Assigning and inserting overloads -/

/-- The children are proper callables, in an order where no later one is strictly more specific than an
    earlier one, and they are exactly the registered overloads. -/
def OrderedE {T F : Type} (m : T → T → Bool) (sig : F → List T) (fs : List F) (ch : List (Option F)) : Prop :=
  ∃ gs : List F, ch = gs.map some ∧ gs.Perm fs ∧ gs.Pairwise (fun g f => edge m (sig f) (sig g) = false)

/-- Specification: the children are proper callables, in an order where no later one is strictly more specific
    than an earlier one, and they are exactly the registered overloads. -/
def Ordered {T F : Type} (m : T → T → Bool) (sig : F → List T) (fs : List F) (ch : List (Option F)) : Prop :=
  ∃ gs : List F, ch = gs.map some ∧ gs.Perm fs ∧ gs.Pairwise (fun g f => ¬ Strictly m (sig f) (sig g))

theorem ordered_iff {T F : Type} {m : T → T → Bool} {sig : F → List T} {fs : List F} {ch : List (Option F)} :
    OrderedE m sig fs ch ↔ Ordered m sig fs ch := by
  simp only [OrderedE, Ordered, edge_false_iff]

theorem resizeChildren_length {F : Type} (ch : List (Option F)) (n : Nat) : (resizeChildren ch n).length = n := by
  simp [resizeChildren]; omega

theorem filterMap_map_some {F : Type} (l : List F) : (l.map some).filterMap id = l := by
  induction l with
  | nil => rfl
  | cons a l ih => simp

theorem assign_orderedE {T F : Type} {m : T → T → Bool} {sig : F → List T} {ch ch' : List (Option F)} {fs : List F}
    (h0 : fs ≠ []) (h : dispAssign m sig ch fs = (ch', .ok ())) : OrderedE m sig fs ch' := by
  unfold dispAssign at h
  simp only at h
  rcases buildEdges_spec m (fs.map sig) with ⟨_, e⟩ | ⟨_, es, e, hl, hE⟩
  · rw [e] at h; simp at h
  · rw [e] at h
    simp only at h
    have hin : ∀ (i : Nat) l, es[i]? = some l → ∀ j ∈ l, j < fs.length := by
      intro i l hi j hj
      obtain ⟨u, v, h1, h2, h3⟩ := (hE i j).1 ⟨l, hi, hj⟩
      have := (List.getElem?_eq_some_iff.1 h2).1
      simpa using this
    have ht := topo_sort_exact fs es (resizeChildren ch fs.length) h0 (by simpa using hl) (resizeChildren_length _ _) hin
    by_cases hc : Cyclic es
    · rw [ht.2 hc] at h; simp at h
    · obtain ⟨order, hp, hf, ho⟩ := ht.1 hc
      rw [ho] at h
      simp only [Prod.mk.injEq, and_true] at h
      have hr : (List.range fs.length).map (fun v => fs[v]?) = fs.map some := by
        apply List.ext_getElem?
        intro i
        rw [List.getElem?_map, List.getElem?_map]
        by_cases hi : i < fs.length
        · rw [List.getElem?_range hi]; simp [List.getElem?_eq_getElem hi]
        · rw [List.getElem?_eq_none (by simpa using hi), List.getElem?_eq_none (by simpa using hi)]; rfl
      have hcp : ch'.Perm (fs.map some) := by
        rw [← h, ← hr]; exact hp.map _
      have hall : ∀ x ∈ ch', ∃ g, x = some g := by
        intro x hx
        obtain ⟨g, _, e⟩ := List.mem_map.1 (hcp.subset hx)
        exact ⟨g, e.symm⟩
      have hsome : ∀ (l : List (Option F)), (∀ x ∈ l, ∃ g, x = some g) → l = (l.filterMap id).map some := by
        intro l
        induction l with
        | nil => intro _; rfl
        | cons x l ih =>
          intro hx
          obtain ⟨g, rfl⟩ := hx x (by simp)
          have := ih (fun y hy => hx y (by simp [hy]))
          change some g :: l = some g :: (l.filterMap id).map some
          rw [← this]
      have hgs := hsome ch' hall
      refine ⟨ch'.filterMap id, hgs, ?_, ?_⟩
      · have := hcp.filterMap id
        rwa [filterMap_map_some] at this
      · -- order is sorted
        have hnd : order.Nodup := hp.nodup_iff.2 List.nodup_range
        have hpw : order.Pairwise (fun v w => ¬ HasE es w v) := by
          have gen : ∀ (l p : List Nat), order = p ++ l → l.Pairwise (fun v w => ¬ HasE es w v) := by
            intro l
            induction l with
            | nil => intro _ _; exact List.Pairwise.nil
            | cons v l ih =>
              intro p hpl
              refine List.Pairwise.cons (fun w hw hE' => ?_) (ih (p ++ [v]) (by simp [hpl]))
              obtain ⟨l1, l2, rfl⟩ := List.append_of_mem hw
              obtain ⟨x, hx1, hx2⟩ := hE'
              have := hf (p ++ v :: l1) w l2 (by simp [hpl]) x hx1 v hx2
              rw [hpl] at hnd
              have h2 := (List.nodup_append.1 hnd).2.1
              exact (List.nodup_cons.1 h2).1 (by simp [this])
          exact gen order [] rfl
        have hpw2 : ch'.Pairwise (fun x y => ∀ g f, x = some g → y = some f → edge m (sig f) (sig g) = false) := by
          rw [← h, List.pairwise_map]
          refine hpw.imp (fun {v w} hvw g f hg hf' => ?_)
          rw [Bool.eq_false_iff]
          intro he
          exact hvw ((hE w v).2 ⟨sig f, sig g, by rw [List.getElem?_map, hf']; rfl,
            by rw [List.getElem?_map, hg]; rfl, he⟩)
        rw [hgs, List.pairwise_map] at hpw2
        exact hpw2.imp (fun hxy => hxy _ _ rfl rfl)

/-- Dispatchers reachable by `assign` and any number of successful `insert`s; `fs` are the overloads
    registered so far. -/
inductive DispReach {T F : Type} (m : T → T → Bool) (sig : F → List T) : List F → List (Option F) → Prop
  | assign {ch0 ch : List (Option F)} {fs : List F} : fs ≠ [] → dispAssign m sig ch0 fs = (ch, .ok ()) →
      DispReach m sig fs ch
  | insert {fs : List F} {f : F} {ch ch' : List (Option F)} : DispReach m sig fs ch →
      dispInsert m sig ch f = (ch', .ok ()) → DispReach m sig (fs ++ [f]) ch'

theorem dispatcher_orderedE {T F : Type} {m : T → T → Bool} {sig : F → List T} {fs : List F} {ch : List (Option F)}
    (h : DispReach m sig fs ch) : OrderedE m sig fs ch := by
  induction h with
  | assign h0 h => exact assign_orderedE h0 h
  | @insert fs f ch ch' _ hi ih =>
    obtain ⟨gs, rfl, hp, _⟩ := ih
    unfold dispInsert at hi
    have hall : (gs.map some).all Option.isSome = true := by simp
    rw [if_pos hall, filterMap_map_some] at hi
    obtain ⟨gs', e, hp', hw⟩ := assign_orderedE (by simp) hi
    exact ⟨gs', e, hp'.trans (hp.append_right [f]), hw⟩

/-- C42: whenever `assign` succeeds, the children are a rearrangement of the given overloads in which every
    strictly more specific signature comes first. -/
theorem assign_ordered {T F : Type} {m : T → T → Bool} {sig : F → List T} {ch ch' : List (Option F)} {fs : List F}
    (h0 : fs ≠ []) (h : dispAssign m sig ch fs = (ch', .ok ())) : Ordered m sig fs ch' :=
  ordered_iff.1 (assign_orderedE h0 h)

/-- C42 over histories: after any sequence of successful registrations the overload list is a correctly
    ordered rearrangement of everything registered. -/
theorem dispatcher_ordered {T F : Type} {m : T → T → Bool} {sig : F → List T} {fs : List F} {ch : List (Option F)}
    (h : DispReach m sig fs ch) : Ordered m sig fs ch :=
  ordered_iff.1 (dispatcher_orderedE h)

theorem dispatch_most_specificE {T F : Type} {m : T → T → Bool} {sig : F → List T} {fs : List F}
    {ch : List (Option F)} (h : DispReach m sig fs ch) (args : List T) :
    (∃ f, dispCall m sig args ch = .ok f ∧ f ∈ fs ∧ supercedes m args (sig f) = true ∧
      ∀ g ∈ fs, supercedes m args (sig g) = true → edge m (sig g) (sig f) = false) ∨
    (dispCall m sig args ch = .throw .outOfRange ∧ ∀ g ∈ fs, supercedes m args (sig g) = false) := by
  obtain ⟨gs, rfl, hp, hw⟩ := dispatcher_orderedE h
  have gen : ∀ gs : List F, gs.Pairwise (fun g f => edge m (sig f) (sig g) = false) →
      (∃ f, dispCall m sig args (gs.map some) = .ok f ∧ f ∈ gs ∧ supercedes m args (sig f) = true ∧
        ∀ g ∈ gs, supercedes m args (sig g) = true → edge m (sig g) (sig f) = false) ∨
      (dispCall m sig args (gs.map some) = .throw .outOfRange ∧ ∀ g ∈ gs, supercedes m args (sig g) = false) := by
    intro gs
    induction gs with
    | nil => intro _; right; simp [dispCall]
    | cons f gs ih =>
      intro hw
      obtain ⟨h1, h2⟩ := List.pairwise_cons.1 hw
      by_cases hs : supercedes m args (sig f) = true
      · left
        refine ⟨f, by simp [dispCall, hs], by simp, hs, fun g hg _ => ?_⟩
        rcases List.mem_cons.1 hg with rfl | hg
        · exact edge_irrefl
        · exact h1 g hg
      · rcases ih h2 with ⟨f', e, hm, hs', hx⟩ | ⟨e, hn⟩
        · left
          refine ⟨f', by simp [dispCall, hs, e], by simp [hm], hs', fun g hg hgs => ?_⟩
          rcases List.mem_cons.1 hg with rfl | hg
          · exact absurd hgs hs
          · exact hx g hg hgs
        · right
          refine ⟨by simp [dispCall, hs, e], fun g hg => ?_⟩
          rcases List.mem_cons.1 hg with rfl | hg
          · simpa using hs
          · exact hn g hg
  rcases gen gs hw with ⟨f, e, hm, hs, hx⟩ | ⟨e, hn⟩
  · left; exact ⟨f, e, hp.subset hm, hs, fun g hg => hx g (hp.symm.subset hg)⟩
  · right; exact ⟨e, fun g hg => hn g (hp.symm.subset hg)⟩

/-- C43: on a dispatcher reached by any history of successful registrations, a call selects a registered
    overload whose signature matches the arguments and that no matching overload strictly supersedes; it raises
    `out_of_range` exactly when no registered overload matches; it never misbehaves. -/
theorem dispatch_most_specific {T F : Type} {m : T → T → Bool} {sig : F → List T} {fs : List F}
    {ch : List (Option F)} (h : DispReach m sig fs ch) (args : List T) :
    (∃ f, dispCall m sig args ch = .ok f ∧ f ∈ fs ∧ AtLeast m args (sig f) ∧
      ∀ g ∈ fs, AtLeast m args (sig g) → ¬ Strictly m (sig g) (sig f)) ∨
    (dispCall m sig args ch = .throw .outOfRange ∧ ∀ g ∈ fs, ¬ AtLeast m args (sig g)) := by
  have := dispatch_most_specificE h args
  simpa only [edge_false_iff, supercedes_iff, supercedes_false_iff] using this

/-! ## When registration succeeds -/

theorem supercedes_trans {T : Type} {m : T → T → Bool} (ht : ∀ a b c, m a b = true → m b c = true → m a c = true) :
    ∀ {u v w : List T}, u.length = v.length → v.length = w.length → supercedes m u v = true →
      supercedes m v w = true → supercedes m u w = true
  | [], [], [], _, _, _, _ => rfl
  | a :: u, b :: v, c :: w, h1, h2, h3, h4 => by
    simp only [supercedes, Bool.and_eq_true] at h3 h4 ⊢
    simp only [List.length_cons, Nat.add_right_cancel_iff] at h1 h2
    exact ⟨ht c b a h4.1 h3.1, supercedes_trans ht h1 h2 h3.2 h4.2⟩

/-- C42/C43: with a transitive matching relation and signatures of one length, registering a non-empty set of
    overloads succeeds exactly when no pair of them is ambiguous without a resolving overload; otherwise it
    raises. -/
theorem assign_succeeds_iff {T F : Type} {m : T → T → Bool} {sig : F → List T} {ch : List (Option F)} {fs : List F}
    {N : Nat} (h0 : fs ≠ []) (hN : ∀ f ∈ fs, (sig f).length = N)
    (ht : ∀ a b c, m a b = true → m b c = true → m a c = true) :
    ((dispAssign m sig ch fs).2 = .ok () ↔ ∀ i j, i < j → ¬ Unresolved m (fs.map sig) i j) ∧
    (∀ i j, i < j → Unresolved m (fs.map sig) i j → (dispAssign m sig ch fs).2 = .throw .runtime) := by
  unfold dispAssign
  simp only
  rcases buildEdges_spec m (fs.map sig) with ⟨⟨i, j, hij, hu⟩, e⟩ | ⟨hn, es, e, hl, hE⟩
  · rw [e]
    simp only [reduceCtorEq, false_iff]
    exact ⟨fun h => h i j hij hu, fun _ _ _ _ => trivial⟩
  · rw [e]
    simp only
    have hin : ∀ (i : Nat) l, es[i]? = some l → ∀ j ∈ l, j < fs.length := by
      intro i l hi j hj
      obtain ⟨u, v, h1, h2, h3⟩ := (hE i j).1 ⟨l, hi, hj⟩
      have := (List.getElem?_eq_some_iff.1 h2).1
      simpa using this
    have htopo := topo_sort_exact fs es (resizeChildren ch fs.length) h0 (by simpa using hl) (resizeChildren_length _ _) hin
    have hlen : ∀ {a : Nat} {u : List T}, (fs.map sig)[a]? = some u → u.length = N := by
      intro a u ha
      obtain ⟨f, hf, rfl⟩ := List.mem_map.1 (List.mem_of_getElem? ha)
      exact hN f hf
    have hpath : ∀ {a b : Nat}, Path es a b → SigE m (fs.map sig) a b := by
      intro a b h
      induction h with
      | one h1 h2 => exact (hE _ _).1 ⟨_, h1, h2⟩
      | @more b c l _ h1 h2 ih =>
        obtain ⟨u, v, e1, e2, e3⟩ := ih
        obtain ⟨v', w, e4, e5, e6⟩ := (hE _ _).1 ⟨_, h1, h2⟩
        rw [e2, Option.some.injEq] at e4
        subst e4
        rw [edge_iff] at e3 e6
        refine ⟨u, w, e1, e5, edge_iff.2 ⟨?_, ?_⟩⟩
        · exact supercedes_trans ht ((hlen e1).trans (hlen e2).symm) ((hlen e2).trans (hlen e5).symm) e3.1 e6.1
        · rw [Bool.eq_false_iff]
          intro hwu
          have := supercedes_trans ht ((hlen e2).trans (hlen e5).symm) ((hlen e5).trans (hlen e1).symm) e6.1 hwu
          rw [e3.2] at this; simp at this
    have hac : ¬ Cyclic es := by
      rintro ⟨a, h⟩
      obtain ⟨u, v, e1, e2, e3⟩ := hpath h
      rw [e1, Option.some.injEq] at e2
      subst e2
      rw [edge_irrefl] at e3; simp at e3
    obtain ⟨order, _, _, ho⟩ := htopo.1 hac
    rw [ho]
    simp only [true_iff]
    exact ⟨hn, fun i j hij hu => absurd hu (hn i j hij)⟩

/-! ## Instances and violations -/

/-- A fragment of the type hierarchy: `Scalar`, `Int`, `int32`, `int64`. -/
inductive K4 where
  | scalar | int | i32 | i64
  deriving DecidableEq, Repr

/-- `pattern.match(candidate)` on the fragment: a kind matches itself, its subkinds and the concrete types
    of the kind; a concrete type matches itself. -/
def K4.matches : K4 → K4 → Bool
  | .scalar, _ => true
  | .int, .scalar => false
  | .int, _ => true
  | a, b => a == b

theorem K4.trans : ∀ a b c : K4, K4.matches a b = true → K4.matches b c = true → K4.matches a c = true := by
  intro a b c; cases a <;> cases b <;> cases c <;> decide

/-- A binary function with the overloads `(Scalar, Scalar)`, `(int32, Int)`, `(Int, int32)`, `(int32, int32)`:
    registration succeeds and `(int32, int32)` arguments select the last one, `(int32, int64)` the second. -/
example :
    let fs : List (List K4) := [[.scalar, .scalar], [.i32, .int], [.int, .i32], [.i32, .i32]]
    let ch := (dispAssign K4.matches id [] fs).1
    (dispAssign K4.matches id [] fs).2 = .ok () ∧
    dispCall K4.matches id [.i32, .i32] ch = .ok [.i32, .i32] ∧
    dispCall K4.matches id [.i32, .i64] ch = .ok [.i32, .int] ∧
    dispCall K4.matches id [.i64, .i64] ch = .ok [.scalar, .scalar] := by decide

/-- Without the resolving overload registration raises. -/
example : (dispAssign K4.matches id [] [[K4.i32, .int], [.int, .i32]]).2 = .throw .runtime := by decide

/-- C65 violated: a rejected overload damages the dispatcher.  After `(Int, int32)` is registered, inserting the
    ambiguous `(int32, Int)` raises, as documented, but leaves a null child behind: a later call that matches
    nothing dereferences it instead of raising `out_of_range`, and so does registering anything else. -/
theorem rejected_overload_violated :
    let ch := (dispAssign K4.matches id [] [[K4.int, .i32]]).1
    let r := dispInsert K4.matches id ch [K4.i32, .int]
    ch = [some [.int, .i32]] ∧ r.2 = .throw .runtime ∧ r.1 = [some [.int, .i32], none] ∧
    dispCall K4.matches id [.i64, .i64] ch = .throw .outOfRange ∧
    dispCall K4.matches id [.i64, .i64] r.1 = .ub ∧
    (dispInsert K4.matches id r.1 [.i64, .i64]).2 = .ub := by decide

/-- C65, partial (missing: calls that matched nothing before, see above): every call that matched before an
    overload was rejected as ambiguous still selects the same overload afterwards. -/
theorem rejected_overload_partial {T F : Type} {m : T → T → Bool} {sig : F → List T} {fs : List F}
    {ch ch' : List (Option F)} {f g : F} (h : DispReach m sig fs ch)
    (hi : dispInsert m sig ch f = (ch', .throw .runtime)) (args : List T) (hc : dispCall m sig args ch = .ok g) :
    dispCall m sig args ch' = .ok g := by
  obtain ⟨gs, rfl, hp, _⟩ := dispatcher_orderedE h
  unfold dispInsert at hi
  have hall : (gs.map some).all Option.isSome = true := by simp
  rw [if_pos hall, filterMap_map_some] at hi
  have hch : ch' = gs.map some ++ [none] := by
    have hr : resizeChildren (gs.map some) (gs ++ [f]).length = gs.map some ++ [none] := by
      unfold resizeChildren
      rw [List.take_of_length_le (by simp)]
      simp
    unfold dispAssign at hi
    simp only [hr] at hi
    split at hi
    · split at hi <;> simp at hi <;> exact hi.1.symm
    · simp at hi; exact hi.1.symm
    · simp at hi
  have gen : ∀ l : List (Option F), dispCall m sig args l = .ok g → dispCall m sig args (l ++ [none]) = .ok g := by
    intro l
    induction l with
    | nil => intro h; simp [dispCall] at h
    | cons x l ih =>
      intro h
      cases x with
      | none => simp [dispCall] at h
      | some f =>
        simp only [dispCall, List.cons_append] at h ⊢
        split at h
        · rw [if_pos (by assumption)]; exact h
        · rw [if_neg (by assumption)]; exact ih h
  rw [hch]; exact gen _ hc

/-- The ambiguity check does not make selection independent of the registration order: `(Int, Scalar)` and
    `(Scalar, Int)` are accepted because `(int32, int32)` supersedes both, but on `(int64, int64)` arguments the
    choice between them depends on the order in which they were registered. -/
theorem registration_order_violated :
    let a : List (List K4) := [[.int, .scalar], [.scalar, .int], [.i32, .i32]]
    let b : List (List K4) := [[.scalar, .int], [.int, .scalar], [.i32, .i32]]
    let ca := dispAssign K4.matches id [] a
    let cb := dispAssign K4.matches id [] b
    ca.2 = .ok () ∧ cb.2 = .ok () ∧
    dispCall K4.matches id [.i64, .i64] ca.1 ≠ dispCall K4.matches id [.i64, .i64] cb.1 := by decide

/-- Selection is independent of the registration order (up to equivalent signatures) whenever the matching
    overloads have a most specific one. -/
theorem registration_order_partial {T F : Type} {m : T → T → Bool} {sig : F → List T} {fs : List F}
    {ch : List (Option F)} {args : List T} {best f : F} (h : DispReach m sig fs ch) (hb : best ∈ fs)
    (hbm : AtLeast m args (sig best))
    (hbest : ∀ g ∈ fs, AtLeast m args (sig g) → AtLeast m (sig best) (sig g))
    (hf : dispCall m sig args ch = .ok f) :
    AtLeast m (sig best) (sig f) ∧ AtLeast m (sig f) (sig best) := by
  rcases dispatch_most_specific h args with ⟨f', e, hm, hs, hx⟩ | ⟨e, _⟩
  · rw [hf, Res.ok.injEq] at e
    subst e
    have h1 := hbest f hm hs
    refine ⟨h1, ?_⟩
    have := hx best hb hbm
    unfold Strictly at this
    by_contra hc
    exact this ⟨h1, hc⟩
  · rw [hf] at e; simp at e

end Dynd
