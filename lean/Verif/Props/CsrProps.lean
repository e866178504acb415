/-
C116: a sparse graph described by the arrmeta of `dense(tuple(size_t, sparse(...)))`, whatever the layout, is read as
the graph it describes; the example algorithm computes its distances, and the grid the example builds is the grid.
-/
import Verif.Model.Csr
import Mathlib.Tactic.Ring
import Mathlib.Tactic.SplitIfs
import Mathlib.Tactic.ByContra

namespace Dynd

/-! ## Specification -/

/-- A walk of `k` edges from `s`. -/
inductive Walk (adj : Nat → List Nat) (s : Nat) : Nat → Nat → Prop
  | nil : Walk adj s 0 s
  | step {k v w : Nat} : Walk adj s k v → w ∈ adj v → Walk adj s (k + 1) w

/-- The number of edges of a shortest walk. -/
def HopDist (adj : Nat → List Nat) (s v k : Nat) : Prop := Walk adj s k v ∧ ∀ j, Walk adj s j v → k ≤ j

/-- Where the arrmeta says the data of node `v` is (addresses wrap around). -/
def nodeAt (A : GMeta) (base v : Nat) : Nat := (base + v * A.nodeStride) % 2 ^ 64
/-- Where entry `k` of the row pointers is. -/
def ptrAt (A : GMeta) (base k : Nat) : Nat := (base + A.topoOff + k * A.indptrStride) % 2 ^ 64
/-- Where entry `k` of the indices is. -/
def idxAt (A : GMeta) (base k : Nat) : Nat := (base + A.topoOff + A.indicesOff + k * A.indicesStride) % 2 ^ 64

/-- The buffer holds the graph `adj` in the layout given by the arrmeta: row `v` is the indices from entry `v` of the row
    pointers to the next; the words of the nodes are their own; the indices of a row are at increasing addresses. -/
structure IsCsr (A : GMeta) (m : GMem) (adj : Nat → List Nat) : Prop where
  nodes : ∀ v < A.numNodes, m.In (nodeAt A m.base v)
  few : A.numNodes < 2 ^ 64 - 1
  inj : ∀ v < A.numNodes, ∀ w < A.numNodes, nodeAt A m.base v = nodeAt A m.base w → v = w
  aligned : A.indicesStride % 8 = 0 ∧ A.indicesStride ≠ 0 ∧ A.indicesStride < 2 ^ 64
  rows : ∀ v < A.numNodes, m.In (ptrAt A m.base v) ∧ m.In (ptrAt A m.base (v + 1)) ∧
    m.w (ptrAt A m.base v) ≤ m.w (ptrAt A m.base (v + 1)) ∧
    (∀ k, m.w (ptrAt A m.base v) ≤ k → k < m.w (ptrAt A m.base (v + 1)) → m.In (idxAt A m.base k) ∧
      idxAt A m.base (k + 1) = idxAt A m.base k + A.indicesStride) ∧
    adj v = (List.range' (m.w (ptrAt A m.base v)) (m.w (ptrAt A m.base (v + 1)) - m.w (ptrAt A m.base v))).map
      fun k => m.w (idxAt A m.base k)
  inside : ∀ v < A.numNodes, ∀ w ∈ adj v, w < A.numNodes
  apart : ∀ v < A.numNodes, ∀ u < A.numNodes, nodeAt A m.base v ≠ ptrAt A m.base u ∧
    nodeAt A m.base v ≠ ptrAt A m.base (u + 1) ∧
    ∀ k, m.w (ptrAt A m.base u) ≤ k → k < m.w (ptrAt A m.base (u + 1)) → nodeAt A m.base v ≠ idxAt A m.base k

/-! ## The distances -/

theorem u64_u64_add (a b : Nat) : u64 (a + u64 b) = (a + b) % 2 ^ 64 := by unfold u64; omega

theorem gNode_eq (A : GMeta) (base v : Nat) : gNode A base v = nodeAt A base v := by
  unfold gNode gAdd nodeAt; exact u64_u64_add _ _

/-- The same buffer except for the words of the nodes. -/
structure SameTopo (A : GMeta) (m0 m : GMem) : Prop where
  base : m.base = m0.base
  lo : m.lo = m0.lo
  size : m.size = m0.size
  w : ∀ a, (∀ v < A.numNodes, a ≠ nodeAt A m0.base v) → m.w a = m0.w a

theorem SameTopo.refl (A : GMeta) (m : GMem) : SameTopo A m m := ⟨rfl, rfl, rfl, fun _ _ => rfl⟩

theorem SameTopo.inBuf {A : GMeta} {m0 m : GMem} (h : SameTopo A m0 m) (a : Nat) : m.In a ↔ m0.In a := by
  unfold GMem.In; rw [h.lo, h.size]

/-- A write to the data of a node. -/
theorem node_write {A : GMeta} {m0 m : GMem} {adj : Nat → List Nat} (hc : IsCsr A m0 adj) (h : SameTopo A m0 m)
    {v : Nat} (hv : v < A.numNodes) (x : Nat) :
    ∃ m', gWrite m (nodeAt A m.base v) x = .ok m' ∧ SameTopo A m0 m' ∧ m'.w (nodeAt A m0.base v) = x ∧
      ∀ u < A.numNodes, u ≠ v → m'.w (nodeAt A m0.base u) = m.w (nodeAt A m0.base u) := by
  have hin : m.In (nodeAt A m.base v) := by
    rw [h.base]; exact (h.inBuf _).2 (hc.nodes v hv)
  unfold gWrite
  rw [if_pos hin]
  refine ⟨_, rfl, ⟨h.base, h.lo, h.size, fun a ha => ?_⟩, ?_, fun u hu hne => ?_⟩
  · simp only
    rw [if_neg (by rw [h.base]; exact ha v hv)]
    exact h.w a ha
  · simp only [h.base, if_true]
  · simp only
    rw [if_neg]
    rw [h.base]
    intro he
    exact hne (hc.inj u hu v hv he)

theorem node_read {A : GMeta} {m0 m : GMem} {adj : Nat → List Nat} (hc : IsCsr A m0 adj) (h : SameTopo A m0 m)
    {v : Nat} (hv : v < A.numNodes) : gRead m (gNode A m.base v) = .ok (m.w (nodeAt A m0.base v)) := by
  rw [gNode_eq, h.base]
  unfold gRead
  rw [if_pos ((h.inBuf _).2 (hc.nodes v hv))]

theorem ptr_same {A : GMeta} {m0 m : GMem} {adj : Nat → List Nat} (hc : IsCsr A m0 adj) (h : SameTopo A m0 m)
    {u : Nat} (hu : u < A.numNodes) : m.w (ptrAt A m0.base u) = m0.w (ptrAt A m0.base u) ∧
    m.w (ptrAt A m0.base (u + 1)) = m0.w (ptrAt A m0.base (u + 1)) :=
  ⟨h.w _ fun v hv => ((hc.apart v hv u hu).1).symm, h.w _ fun v hv => ((hc.apart v hv u hu).2.1).symm⟩

/-- `neighbors` gives the ends of the row. -/
theorem neighbors_eq {A : GMeta} {m0 m : GMem} {adj : Nat → List Nat} (hc : IsCsr A m0 adj) (h : SameTopo A m0 m)
    {u : Nat} (hu : u < A.numNodes) : gNeighbors A m u = .ok (idxAt A m0.base (m0.w (ptrAt A m0.base u)),
      idxAt A m0.base (m0.w (ptrAt A m0.base (u + 1))), A.indicesStride / 8) := by
  obtain ⟨r1, r2, -, -, -⟩ := hc.rows u hu
  obtain ⟨p1, p2⟩ := ptr_same hc h hu
  have e1 : gAdd (gAdd m.base A.topoOff) (u64 (A.indptrStride * u)) = ptrAt A m0.base u := by
    rw [h.base]; unfold gAdd ptrAt u64; rw [Nat.mul_comm]; omega
  have e2 : gAdd (ptrAt A m0.base u) A.indptrStride = ptrAt A m0.base (u + 1) := by
    unfold gAdd ptrAt u64; rw [Nat.add_mul]; omega
  have e3 : ∀ k, gAdd (gAdd (gAdd m.base A.topoOff) A.indicesOff) (u64 (k * A.indicesStride)) = idxAt A m0.base k := by
    intro k; rw [h.base]; unfold gAdd idxAt u64; omega
  unfold gNeighbors
  simp only [e1, e2, e3]
  unfold gRead
  rw [if_pos ((h.inBuf _).2 r1), if_pos ((h.inBuf _).2 r2), p1, p2]
  simp only [Res.bind_ok]
  rw [if_neg (by simp [hc.aligned.1])]
  rfl

/-- How many nodes below `n` have no distance yet. -/
def unreached (f : Nat → Nat) : Nat → Nat
  | 0 => 0
  | n + 1 => unreached f n + if f n = 2 ^ 64 - 1 then 1 else 0

theorem unreached_congr {f g : Nat → Nat} {n : Nat} (h : ∀ v < n, f v = g v) : unreached f n = unreached g n := by
  induction n with
  | zero => rfl
  | succ n ih => simp only [unreached]; rw [ih fun v hv => h v (by omega), h n (by omega)]

theorem unreached_set {f g : Nat → Nat} {n w : Nat} (hw : w < n) (h1 : f w = 2 ^ 64 - 1) (h2 : g w ≠ 2 ^ 64 - 1)
    (h : ∀ v < n, v ≠ w → g v = f v) : unreached f n = unreached g n + 1 := by
  induction n with
  | zero => omega
  | succ n ih =>
    simp only [unreached]
    by_cases he : w = n
    · subst he
      rw [if_pos h1, if_neg h2, unreached_congr fun v hv => (h v (by omega) (by omega)).symm]
    · rw [ih (by omega) (fun v hv hne => h v (by omega) hne), h n (by omega) (by omega)]
      omega

theorem unreached_all {f : Nat → Nat} {n s : Nat} (hs : s < n) (h0 : f s = 0)
    (h : ∀ v < n, v ≠ s → f v = 2 ^ 64 - 1) : unreached f n = n - 1 := by
  have key : ∀ k ≤ n, unreached f k = if s < k then k - 1 else k := by
    intro k hk
    induction k with
    | zero => rfl
    | succ k ih =>
      simp only [unreached]
      rw [ih (by omega)]
      by_cases he : k = s
      · subst he; rw [h0]; simp
      · rw [h k (by omega) he]
        split_ifs <;> omega
  rw [key n (Nat.le_refl _), if_pos hs]

/-- What holds between two rounds; `D` is the distance of the last node taken from the queue, `u` that node while its
    edges are being followed. -/
structure DInv (A : GMeta) (m0 : GMem) (adj : Nat → List Nat) (s : Nat) (m : GMem) (q : List QEntry) : Prop where
  same : SameTopo A m0 m
  source : m.w (nodeAt A m0.base s) = 0
  sound : ∀ v < A.numNodes, m.w (nodeAt A m0.base v) ≠ 2 ^ 64 - 1 → Walk adj s (m.w (nodeAt A m0.base v)) v ∧
    m.w (nodeAt A m0.base v) + unreached (fun v => m.w (nodeAt A m0.base v)) A.numNodes < A.numNodes
  queued : ∀ e ∈ q, e.id < A.numNodes ∧ e.key = m.w (nodeAt A m0.base e.id) ∧ e.key ≠ 2 ^ 64 - 1

theorem heapCheck_ok {A : GMeta} {m0 m : GMem} {adj : Nat → List Nat} (hc : IsCsr A m0 adj) (h : SameTopo A m0 m)
    {q : List QEntry} (hq : ∀ e ∈ q, e.id < A.numNodes ∧ e.key = m.w (nodeAt A m0.base e.id)) :
    heapCheck A m q = .ok () := by
  induction q with
  | nil => rfl
  | cons e q ih =>
    obtain ⟨h1, h2⟩ := hq e (by simp)
    unfold heapCheck
    rw [node_read hc h h1]
    simp only [Res.bind_ok]
    rw [if_pos h2.symm]
    exact ih fun e he => hq e (by simp [he])

theorem qPush_ok {A : GMeta} {m0 m : GMem} {adj : Nat → List Nat} (hc : IsCsr A m0 adj) (h : SameTopo A m0 m)
    {q : List QEntry} (hq : ∀ e ∈ q, e.id < A.numNodes ∧ e.key = m.w (nodeAt A m0.base e.id)) {v : Nat}
    (hv : v < A.numNodes) : qPush A m q v = .ok (⟨v, m.w (nodeAt A m0.base v)⟩ :: q) := by
  unfold qPush
  rw [heapCheck_ok hc h hq, node_read hc h hv]
  rfl

theorem exists_min : ∀ q : List QEntry, q ≠ [] → ∃ e ∈ q, ∀ x ∈ q, e.key ≤ x.key
  | [], h => absurd rfl h
  | [e], _ => ⟨e, by simp, by simp⟩
  | e :: f :: q, _ => by
    obtain ⟨g, hg, hm⟩ := exists_min (f :: q) (by simp)
    by_cases hk : e.key ≤ g.key
    · refine ⟨e, by simp, fun x hx => ?_⟩
      rcases List.mem_cons.1 hx with rfl | hx
      · exact Nat.le_refl _
      · exact Nat.le_trans hk (hm x hx)
    · refine ⟨g, List.mem_cons_of_mem _ hg, fun x hx => ?_⟩
      rcases List.mem_cons.1 hx with rfl | hx
      · omega
      · exact hm x hx

theorem qPop_ok {A : GMeta} {m0 m : GMem} {adj : Nat → List Nat} (hc : IsCsr A m0 adj) (h : SameTopo A m0 m)
    {q : List QEntry} (hq : ∀ e ∈ q, e.id < A.numNodes ∧ e.key = m.w (nodeAt A m0.base e.id)) (hne : q ≠ [])
    (pick : Nat) : ∃ e ∈ q, qPop A m pick q = .ok (e, q.erase e) ∧ ∀ x ∈ q, e.key ≤ x.key := by
  unfold qPop
  rw [heapCheck_ok hc h hq]
  simp only [Res.bind_ok]
  generalize hcd : (q.filter fun e => q.all fun x => decide (e.key ≤ x.key)) = c
  obtain ⟨e0, he0, hm0⟩ := exists_min q hne
  have hmem : e0 ∈ c := by
    rw [← hcd, List.mem_filter]
    exact ⟨he0, by simpa using hm0⟩
  have hpos : 0 < c.length := List.length_pos_of_mem hmem
  have hlt := Nat.mod_lt pick hpos
  rw [List.getElem?_eq_getElem hlt]
  have hin : c[pick % c.length] ∈ c := List.getElem_mem hlt
  generalize c[pick % c.length] = e at hin
  rw [← hcd, List.mem_filter] at hin
  exact ⟨e, hin.1, rfl, by simpa using hin.2⟩

/-- What holds while the edges of `u` (at distance `D`) are followed. -/
structure EInv (A : GMeta) (m0 : GMem) (adj : Nat → List Nat) (s u D M : Nat) (m : GMem) (q : List QEntry) : Prop
    extends DInv A m0 adj s m q where
  ulen : u < A.numNodes
  uval : m.w (nodeAt A m0.base u) = D
  high : ∀ v < A.numNodes, m.w (nodeAt A m0.base v) ≠ 2 ^ 64 - 1 → m.w (nodeAt A m0.base v) ≤ D + 1
  low : ∀ e ∈ q, D ≤ e.key
  closed : ∀ v < A.numNodes, v ≠ u → m.w (nodeAt A m0.base v) ≠ 2 ^ 64 - 1 → (∀ e ∈ q, e.id ≠ v) →
    ∀ w ∈ adj v, m.w (nodeAt A m0.base w) ≤ m.w (nodeAt A m0.base v) + 1
  few : q.length + unreached (fun v => m.w (nodeAt A m0.base v)) A.numNodes ≤ M

/-- Following one edge. -/
theorem edge_step {A : GMeta} {m0 : GMem} {adj : Nat → List Nat} {s u D M w : Nat} {m : GMem} {q : List QEntry}
    (hc : IsCsr A m0 adj) (h : EInv A m0 adj s u D M m q) (hw : w ∈ adj u)
    (hgt : D + 1 < m.w (nodeAt A m0.base w)) :
    ∃ m', gWrite m (gNode A m.base w) (D + 1) = .ok m' ∧
      qPush A m' q w = .ok (⟨w, D + 1⟩ :: q) ∧ EInv A m0 adj s u D M m' (⟨w, D + 1⟩ :: q) ∧
      m'.w (nodeAt A m0.base w) = D + 1 ∧ (∀ v < A.numNodes, m'.w (nodeAt A m0.base v) ≤ m.w (nodeAt A m0.base v)) := by
  have hwn : w < A.numNodes := hc.inside u h.ulen w hw
  have hinf : m.w (nodeAt A m0.base w) = 2 ^ 64 - 1 := by
    by_contra hne
    have := h.high w hwn hne
    omega
  obtain ⟨m', hm', hs', hx, hoth⟩ := node_write hc h.same hwn (D + 1)
  have hfew := hc.few
  have hD := (h.sound u h.ulen (by rw [h.uval]; omega))
  rw [h.uval] at hD
  have hDlt : D + 1 ≠ 2 ^ 64 - 1 := by omega
  have hun : unreached (fun v => m.w (nodeAt A m0.base v)) A.numNodes =
      unreached (fun v => m'.w (nodeAt A m0.base v)) A.numNodes + 1 :=
    unreached_set hwn hinf (by simp only [hx]; exact hDlt) (fun v hv hne => hoth v hv hne)
  have hqne : ∀ e ∈ q, e.id ≠ w := by
    intro e he heq
    obtain ⟨q1, q2, q3⟩ := h.queued e he
    rw [heq, hinf] at q2
    exact q3 q2
  have hq' : ∀ e ∈ q, e.id < A.numNodes ∧ e.key = m'.w (nodeAt A m0.base e.id) := by
    intro e he
    obtain ⟨q1, q2, q3⟩ := h.queued e he
    exact ⟨q1, by rw [hoth e.id q1 (hqne e he)]; exact q2⟩
  have hle : ∀ v < A.numNodes, m'.w (nodeAt A m0.base v) ≤ m.w (nodeAt A m0.base v) := by
    intro v hv
    by_cases hvw : v = w
    · subst hvw; rw [hx]; omega
    · rw [hoth v hv hvw]
  have huw : u ≠ w := by
    intro he; rw [← he, h.uval] at hinf; omega
  refine ⟨m', by rw [gNode_eq]; exact hm', ?_, ?_, hx, hle⟩
  · rw [qPush_ok hc hs' hq' hwn, hx]
  · have hsw : s < A.numNodes → s ≠ w := by
      intro _ he
      have := h.source
      rw [he, hinf] at this
      omega
    have hsrc : m'.w (nodeAt A m0.base s) = 0 := by
      by_cases hsn : s < A.numNodes
      · rw [hoth s hsn (hsw hsn)]; exact h.source
      · have : nodeAt A m0.base s ≠ nodeAt A m0.base w := by
          intro he
          have h1 := h.source
          rw [he, hinf] at h1
          omega
        unfold gWrite at hm'
        split_ifs at hm' with hin
        simp only [Res.ok.injEq] at hm'
        rw [← hm']
        simp only
        rw [if_neg (by rw [h.same.base]; exact this)]
        exact h.source
    refine ⟨⟨hs', hsrc, fun v hv hne => ?_, fun e he => ?_⟩, h.ulen, ?_, fun v hv hne => ?_, fun e he => ?_,
      fun v hv hvu hne hnq x hx' => ?_, ?_⟩
    · by_cases hvw : v = w
      · subst hvw
        rw [hx]
        exact ⟨Walk.step hD.1 hw, by omega⟩
      · rw [hoth v hv hvw] at hne ⊢
        obtain ⟨a1, a2⟩ := h.sound v hv hne
        exact ⟨a1, by omega⟩
    · rcases List.mem_cons.1 he with rfl | he
      · exact ⟨hwn, hx.symm, hDlt⟩
      · exact ⟨(hq' e he).1, (hq' e he).2, (h.queued e he).2.2⟩
    · rw [hoth u h.ulen huw]; exact h.uval
    · by_cases hvw : v = w
      · subst hvw; rw [hx]
      · rw [hoth v hv hvw] at hne ⊢
        exact h.high v hv hne
    · rcases List.mem_cons.1 he with rfl | he
      · simp only; omega
      · exact h.low e he
    · have hvw : v ≠ w := by
        rintro rfl
        exact hnq ⟨v, D + 1⟩ (by simp) rfl
      rw [hoth v hv hvw] at hne ⊢
      have := h.closed v hv hvu hne (fun e he => hnq e (by simp [he])) x hx'
      exact Nat.le_trans (hle x (hc.inside v hv x hx')) this
    · have := h.few
      simp only [List.length_cons]
      omega

theorem idx_span {A : GMeta} {m0 : GMem} {adj : Nat → List Nat} (hc : IsCsr A m0 adj) {u : Nat} (hu : u < A.numNodes)
    {k n : Nat} (h1 : m0.w (ptrAt A m0.base u) ≤ k) (h2 : k + n = m0.w (ptrAt A m0.base (u + 1))) :
    idxAt A m0.base (k + n) = idxAt A m0.base k + n * A.indicesStride := by
  obtain ⟨-, -, -, r, -⟩ := hc.rows u hu
  have key : ∀ i ≤ n, idxAt A m0.base (k + i) = idxAt A m0.base k + i * A.indicesStride := by
    intro i hi
    induction i with
    | zero => simp
    | succ i ih =>
      have := (r (k + i) (by omega) (by omega)).2
      rw [← Nat.add_assoc, this, ih (by omega), Nat.add_mul]; omega
  exact key n (Nat.le_refl _)

/-- The inner loop from entry `k` of the row on. -/
theorem edges_ok {A : GMeta} {m0 : GMem} {adj : Nat → List Nat} {s u D M : Nat} (hc : IsCsr A m0 adj)
    (n : Nat) : ∀ (k fuel : Nat) (m : GMem) (q : List QEntry), EInv A m0 adj s u D M m q →
    m0.w (ptrAt A m0.base u) ≤ k → k + n = m0.w (ptrAt A m0.base (u + 1)) → n < fuel →
    (∀ j, m0.w (ptrAt A m0.base u) ≤ j → j < k →
      m.w (nodeAt A m0.base (m0.w (idxAt A m0.base j))) ≤ D + 1) →
    ∃ m' q', ssspEdges A fuel (idxAt A m0.base k) (idxAt A m0.base (k + n)) (A.indicesStride / 8) (D + 1) (m, q) =
      .ok (m', q') ∧ EInv A m0 adj s u D M m' q' ∧
      ∀ w ∈ adj u, m'.w (nodeAt A m0.base w) ≤ D + 1 := by
  induction n with
  | zero =>
    intro k fuel m q h h1 h2 hf hd
    cases fuel with
    | zero => omega
    | succ fuel =>
      obtain ⟨-, -, -, -, r5⟩ := hc.rows u h.ulen
      refine ⟨m, q, ?_, h, fun w hw => ?_⟩
      · unfold ssspEdges
        rw [if_neg (by simp)]
      · rw [r5] at hw
        obtain ⟨j, hj, rfl⟩ := List.mem_map.1 hw
        rw [List.mem_range'_1] at hj
        exact hd j hj.1 (by omega)
  | succ n ih =>
    intro k fuel m q h h1 h2 hf hd
    cases fuel with
    | zero => omega
    | succ fuel =>
      obtain ⟨-, -, -, r4, r5⟩ := hc.rows u h.ulen
      obtain ⟨r6, r7⟩ := r4 k h1 (by omega)
      have hspan := idx_span hc h.ulen (n := n + 1) h1 (by omega)
      obtain ⟨al1, al2, al3⟩ := hc.aligned
      have hlt : idxAt A m0.base k < idxAt A m0.base (k + (n + 1)) := by
        rw [hspan]
        have : 0 < (n + 1) * A.indicesStride := Nat.mul_pos (by omega) (by omega)
        omega
      have hstep : gAdd (idxAt A m0.base k) (u64 (A.indicesStride / 8 * 8)) = idxAt A m0.base (k + 1) := by
        have e : A.indicesStride / 8 * 8 = A.indicesStride := by omega
        rw [e, r7]
        have : idxAt A m0.base (k + 1) < 2 ^ 64 := Nat.mod_lt _ (by omega)
        unfold gAdd u64; omega
      have hw : m0.w (idxAt A m0.base k) ∈ adj u := by
        rw [r5]
        exact List.mem_map.2 ⟨k, List.mem_range'_1.2 ⟨h1, by omega⟩, rfl⟩
      have hrd : ∀ m' : GMem, SameTopo A m0 m' → gRead m' (idxAt A m0.base k) = .ok (m0.w (idxAt A m0.base k)) := by
        intro m' hs
        unfold gRead
        rw [if_pos ((hs.inBuf _).2 r6)]
        rw [hs.w _ fun v hv => ((hc.apart v hv u h.ulen).2.2 k h1 (by omega)).symm]
      have hwn := hc.inside u h.ulen _ hw
      have hnext : k + (n + 1) = k + 1 + n := by omega
      unfold ssspEdges
      rw [if_pos hlt]
      simp only [hrd m h.same, Res.bind_ok, node_read hc h.same hwn]
      by_cases hgt : D + 1 < m.w (nodeAt A m0.base (m0.w (idxAt A m0.base k)))
      · rw [if_pos hgt]
        obtain ⟨m', e1, e2, h', e3, e4⟩ := edge_step hc h hw hgt
        rw [e1]
        simp only [Res.bind_ok, hrd m' h'.same, e2, hstep]
        rw [hnext]
        refine ih (k + 1) fuel m' _ h' (by omega) (by omega) (by omega) fun j j1 j2 => ?_
        by_cases hjk : j = k
        · subst hjk; rw [e3]
        · have hjn : m0.w (idxAt A m0.base j) < A.numNodes := by
            refine hc.inside u h.ulen _ ?_
            rw [r5]
            exact List.mem_map.2 ⟨j, List.mem_range'_1.2 ⟨j1, by omega⟩, rfl⟩
          exact Nat.le_trans (e4 _ hjn) (hd j j1 (by omega))
      · rw [if_neg hgt, hstep, hnext]
        refine ih (k + 1) fuel m q h (by omega) (by omega) (by omega) fun j j1 j2 => ?_
        by_cases hjk : j = k
        · subst hjk; omega
        · exact hd j j1 (by omega)

/-- What holds between two rounds of the outer loop. -/
structure LInv (A : GMeta) (m0 : GMem) (adj : Nat → List Nat) (s M : Nat) (m : GMem) (q : List QEntry) : Prop
    extends DInv A m0 adj s m q where
  order : ∀ e ∈ q, ∀ v < A.numNodes, m.w (nodeAt A m0.base v) ≠ 2 ^ 64 - 1 → m.w (nodeAt A m0.base v) ≤ e.key + 1
  closed : ∀ v < A.numNodes, m.w (nodeAt A m0.base v) ≠ 2 ^ 64 - 1 → (∀ e ∈ q, e.id ≠ v) →
    ∀ w ∈ adj v, m.w (nodeAt A m0.base w) ≤ m.w (nodeAt A m0.base v) + 1
  few : q.length + unreached (fun v => m.w (nodeAt A m0.base v)) A.numNodes ≤ M

theorem loop_ok {A : GMeta} {m0 : GMem} {adj : Nat → List Nat} {s : Nat} (hc : IsCsr A m0 adj) (pick : Nat → Nat) :
    ∀ (fuel : Nat) (m : GMem) (q : List QEntry) (M : Nat), LInv A m0 adj s M m q → M < fuel →
    ∃ m' M', ssspLoop A pick fuel (m, q) = .ok m' ∧ LInv A m0 adj s M' m' [] := by
  intro fuel
  induction fuel with
  | zero => intro m q M h hM; omega
  | succ fuel ih =>
    intro m q M h hM
    by_cases hq0 : q = []
    · subst hq0
      exact ⟨m, M, by unfold ssspLoop; rw [if_pos rfl], h⟩
    · have hkeys : ∀ e ∈ q, e.id < A.numNodes ∧ e.key = m.w (nodeAt A m0.base e.id) :=
        fun e he => ⟨(h.queued e he).1, (h.queued e he).2.1⟩
      obtain ⟨e, he, hpop, hmin⟩ := qPop_ok hc h.same hkeys hq0 (pick fuel)
      obtain ⟨k1, k2, k3⟩ := h.queued e he
      have hsub : ∀ x ∈ q.erase e, x ∈ q := fun x hx => List.mem_of_mem_erase hx
      have hlen : (q.erase e).length + 1 = q.length := by
        rw [List.length_erase_of_mem he]
        have := List.length_pos_of_mem he
        omega
      have hE : EInv A m0 adj s e.id e.key (M - 1) m (q.erase e) := by
        refine ⟨⟨h.same, h.source, h.sound, fun x hx => h.queued x (hsub x hx)⟩, k1, k2.symm,
          fun v hv hne => h.order e he v hv hne, fun x hx => hmin x (hsub x hx), fun v hv hvu hne hnq => ?_, ?_⟩
        · refine h.closed v hv hne fun x hx hxv => ?_
          by_cases hxe : x = e
          · subst hxe; exact hvu hxv.symm
          · exact hnq x ((List.mem_erase_of_ne hxe).2 hx) hxv
        · have := h.few; omega
      obtain ⟨-, -, r3, -, -⟩ := hc.rows e.id k1
      have hk : e.key + 1 < 2 ^ 64 := by
        have h1 := h.sound e.id k1 (by rw [← k2]; exact k3)
        have h2 := hc.few
        rw [← k2] at h1
        omega
      obtain ⟨n, hn⟩ : ∃ n, m0.w (ptrAt A m0.base e.id) + n = m0.w (ptrAt A m0.base (e.id + 1)) :=
        ⟨_, Nat.add_sub_cancel' r3⟩
      have hspan := idx_span hc k1 (k := m0.w (ptrAt A m0.base e.id)) (Nat.le_refl _) hn
      have hfuel : n < idxAt A m0.base (m0.w (ptrAt A m0.base e.id) + n) -
          idxAt A m0.base (m0.w (ptrAt A m0.base e.id)) + 1 := by
        have : n * 1 ≤ n * A.indicesStride := Nat.mul_le_mul_left n (by have := hc.aligned.2.1; omega)
        rw [hspan]; omega
      obtain ⟨m', q', e1, hE', e2⟩ := edges_ok hc n _ _ m _ hE (Nat.le_refl _) hn hfuel (by omega)
      have hL : LInv A m0 adj s (M - 1) m' q' := by
        refine ⟨hE'.toDInv, fun x hx v hv hne => ?_, fun v hv hne hnq => ?_, hE'.few⟩
        · have := hE'.high v hv hne
          have := hE'.low x hx
          omega
        · by_cases hvu : v = e.id
          · subst hvu
            intro w hw
            rw [hE'.uval]
            exact e2 w hw
          · exact hE'.closed v hv hvu hne hnq
      obtain ⟨m'', M'', e3, h''⟩ := ih m' q' (M - 1) hL (by
        have := h.few
        have := List.length_pos_of_mem he
        omega)
      refine ⟨m'', M'', ?_, h''⟩
      unfold ssspLoop
      rw [if_neg hq0, hpop]
      simp only [Res.bind_ok, neighbors_eq hc h.same k1, node_read hc h.same k1, ← k2]
      rw [show u64 (e.key + 1) = e.key + 1 by unfold u64; omega, ← hn, e1]
      exact e3

theorem init_ok {A : GMeta} {m0 : GMem} {adj : Nat → List Nat} (hc : IsCsr A m0 adj) :
    ∃ m, ssspInit A m0 = .ok m ∧ SameTopo A m0 m ∧
      ∀ v < A.numNodes, m.w (nodeAt A m0.base v) = 2 ^ 64 - 1 := by
  unfold ssspInit
  have key : ∀ n ≤ A.numNodes, ∃ m, gFor (fun id m => gWrite m (gNode A m.base id) 18446744073709551615) n m0 = .ok m ∧
      SameTopo A m0 m ∧ ∀ v < n, m.w (nodeAt A m0.base v) = 2 ^ 64 - 1 := by
    intro n hn
    induction n with
    | zero => exact ⟨m0, rfl, SameTopo.refl A m0, by omega⟩
    | succ n ih =>
      obtain ⟨m, e1, e2, e3⟩ := ih (by omega)
      obtain ⟨m', f1, f2, f3, f4⟩ := node_write hc e2 (show n < A.numNodes by omega) 18446744073709551615
      refine ⟨m', ?_, f2, fun v hv => ?_⟩
      · unfold gFor
        rw [e1]
        simp only [Res.bind_ok, gNode_eq]
        exact f1
      · by_cases hvn : v = n
        · subst hvn; exact f3
        · rw [f4 v (by omega) hvn]; exact e3 v (by omega)
  exact key _ (Nat.le_refl _)

/-- **C116** (distances): on any graph in any layout, whatever the order among nodes of equal distance, the algorithm
    ends without undefined behaviour (in particular the order of the queue never changes under it), gives every
    node the number of edges of a shortest walk from the source, the others the largest `size_t`, and changes nothing
    else. -/
theorem sssp_exact (A : GMeta) (m : GMem) (adj : Nat → List Nat) (hc : IsCsr A m adj) (s : Nat) (hs : s < A.numNodes)
    (pick : Nat → Nat) (fuel : Nat) (hf : A.numNodes < fuel) :
    ∃ m', sssp A pick fuel m s = .ok m' ∧
      (∀ v < A.numNodes, HopDist adj s v (m'.w (nodeAt A m.base v)) ∨
        ((∀ k, ¬ Walk adj s k v) ∧ m'.w (nodeAt A m.base v) = 2 ^ 64 - 1)) ∧
      m'.base = m.base ∧ m'.lo = m.lo ∧ m'.size = m.size ∧
      (∀ a, (∀ v < A.numNodes, a ≠ nodeAt A m.base v) → m'.w a = m.w a) := by
  obtain ⟨m1, e1, e2, e3⟩ := init_ok hc
  obtain ⟨m2, f1, f2, f3, f4⟩ := node_write hc e2 hs 0
  have hpush := qPush_ok hc f2 (q := []) (by simp) hs
  rw [f3] at hpush
  have hun : unreached (fun v => m2.w (nodeAt A m.base v)) A.numNodes = A.numNodes - 1 :=
    unreached_all hs f3 fun v hv hne => by rw [f4 v hv hne]; exact e3 v hv
  have hfin : ∀ v < A.numNodes, m2.w (nodeAt A m.base v) ≠ 2 ^ 64 - 1 → v = s := by
    intro v hv hne
    by_contra hvs
    exact hne (by rw [f4 v hv hvs]; exact e3 v hv)
  have hL : LInv A m adj s A.numNodes m2 [⟨s, 0⟩] := by
    refine ⟨⟨f2, f3, fun v hv hne => ?_, fun e he => ?_⟩, fun e he v hv hne => ?_, fun v hv hne hnq => ?_, ?_⟩
    · have := hfin v hv hne
      subst this
      rw [f3, hun]
      exact ⟨Walk.nil, by omega⟩
    · rw [List.mem_singleton] at he
      subst he
      exact ⟨hs, f3.symm, (by decide : (0 : Nat) ≠ 2 ^ 64 - 1)⟩
    · rw [hfin v hv hne, f3]; omega
    · exact absurd (hfin v hv hne).symm (hnq ⟨s, 0⟩ (by simp))
    · rw [hun]; simp only [List.length_singleton]; omega
  obtain ⟨m', M', g1, g2⟩ := loop_ok hc pick fuel m2 _ _ hL hf
  refine ⟨m', ?_, fun v hv => ?_, g2.same.base, g2.same.lo, g2.same.size, g2.same.w⟩
  · unfold sssp
    rw [e1]
    simp only [Res.bind_ok, gNode_eq]
    rw [f1]
    simp only [Res.bind_ok]
    rw [hpush]
    exact g1
  · have hfew := hc.few
    have low : ∀ k v, Walk adj s k v → v < A.numNodes ∧ m'.w (nodeAt A m.base v) ≤ k ∧
        m'.w (nodeAt A m.base v) ≠ 2 ^ 64 - 1 := by
      intro k v hk
      induction hk with
      | nil => exact ⟨hs, by rw [g2.source], by rw [g2.source]; decide⟩
      | @step k v w _ hw ih =>
        obtain ⟨i1, i2, i3⟩ := ih
        have hw' := g2.closed v i1 i3 (by simp) w hw
        have hb := (g2.sound v i1 i3).2
        exact ⟨hc.inside v i1 w hw, by omega, by omega⟩
    by_cases hv' : m'.w (nodeAt A m.base v) = 2 ^ 64 - 1
    · right
      exact ⟨fun k hk => (low k v hk).2.2 hv', hv'⟩
    · left
      exact ⟨(g2.sound v hv hv').1, fun j hj => (low j v hj).2.1⟩

/-! ## The grid -/

/-- The neighbours of node `v` of the grid with sides of length `side`: above, below, left, right. -/
def gridAdj (side v : Nat) : List Nat :=
  (if v / side ≠ 0 then [v - side] else []) ++ (if v / side + 1 < side then [v + side] else []) ++
  (if v % side ≠ 0 then [v - 1] else []) ++ (if v % side + 1 < side then [v + 1] else [])

/-- The edges of the nodes before `t`. -/
def edgesBefore (side : Nat) : Nat → Nat
  | 0 => 0
  | t + 1 => edgesBefore side t + (gridAdj side t).length

theorem edgesBefore_mono {side a b : Nat} (h : a ≤ b) : edgesBefore side a ≤ edgesBefore side b := by
  induction b with
  | zero => rw [show a = 0 by omega]
  | succ b ih =>
    by_cases hab : a = b + 1
    · rw [hab]
    · have := ih (by omega)
      simp only [edgesBefore]; omega

theorem cell_div {side i j : Nat} (hj : j < side) : (i * side + j) / side = i ∧ (i * side + j) % side = j := by
  rw [Nat.mul_comm]
  refine ⟨?_, ?_⟩
  · rw [Nat.mul_add_div (by omega), Nat.div_eq_of_lt hj]; omega
  · rw [Nat.mul_add_mod, Nat.mod_eq_of_lt hj]

theorem gridAdj_cell {side i j : Nat} (hj : j < side) : gridAdj side (i * side + j) =
    (if i ≠ 0 then [i * side + j - side] else []) ++ (if i + 1 < side then [i * side + j + side] else []) ++
    (if j ≠ 0 then [i * side + j - 1] else []) ++ (if j + 1 < side then [i * side + j + 1] else []) := by
  obtain ⟨h1, h2⟩ := cell_div (i := i) hj
  unfold gridAdj
  rw [h1, h2]

theorem edgesBefore_row {side i : Nat} (j : Nat) (hj : j ≤ side) : edgesBefore side (i * side + j) =
    edgesBefore side (i * side) + j * ((if i ≠ 0 then 1 else 0) + if i + 1 < side then 1 else 0) + (j - 1) +
      (if j < side then j else side - 1) := by
  induction j with
  | zero => simp; omega
  | succ j ih =>
    rw [← Nat.add_assoc]
    simp only [edgesBefore]
    rw [ih (by omega), gridAdj_cell (show j < side by omega), Nat.add_mul]
    simp only [List.length_append]
    split_ifs <;> simp only [List.length_singleton, List.length_nil] <;> omega

theorem edgesBefore_rows {side : Nat} (i : Nat) (hi : i ≤ side) : edgesBefore side (i * side) =
    2 * (i * (side - 1)) + side * (i - 1) + (if i < side then side * i else side * (side - 1)) := by
  induction i with
  | zero => simp [edgesBefore]; omega
  | succ i ih =>
    rw [Nat.add_mul, Nat.one_mul, edgesBefore_row side (Nat.le_refl _), ih (by omega)]
    obtain ⟨k, rfl⟩ : ∃ k, side = k + 1 := ⟨side - 1, by omega⟩
    rw [if_neg (by omega : ¬ k + 1 < k + 1), if_pos (by omega : i < k + 1)]
    cases i with
    | zero =>
      simp only [ne_eq, not_true_eq_false, if_false]
      split_ifs <;> simp <;> first | omega | (cases k <;> omega)
    | succ i =>
      simp only [ne_eq, Nat.succ_ne_zero, not_false_eq_true, if_true]
      split_ifs with h
      · simp only [Nat.add_sub_cancel]; ring
      · have : k = i + 1 := by omega
        subst this
        simp only [Nat.add_sub_cancel]; ring

theorem edgesBefore_all (side : Nat) (h : side ≠ 0) : edgesBefore side (side * side) = side * (side - 1) * 4 := by
  rw [edgesBefore_rows side (Nat.le_refl _), if_neg (by omega)]
  ring

theorem gWrite_ok {m : GMem} {a : Nat} (v : Nat) (h : m.In a) : ∃ m', gWrite m a v = .ok m' ∧ m'.base = m.base ∧
    m'.lo = m.lo ∧ m'.size = m.size ∧ ∀ x, m'.w x = if x = a then v else m.w x := by
  unfold gWrite
  rw [if_pos h]
  exact ⟨_, rfl, rfl, rfl, rfl, fun _ => rfl⟩

/-- What holds between the four edges of a node: `l` are those written so far. -/
structure PutInv (m1 : GMem) (pe p0 v0 c0 : Nat) (l : List Nat) (t : GMem × Nat × Nat) : Prop where
  base : t.1.base = m1.base
  lo : t.1.lo = m1.lo
  size : t.1.size = m1.size
  ptr : t.2.2 = p0 + 8 * l.length
  count : t.2.1 = c0 + l.length
  stop : t.1.w pe = v0 + l.length
  out : ∀ (r : Nat) (h : r < l.length), t.1.w (p0 + 8 * r) = l[r]
  rest : ∀ a, a ≠ pe → (∀ r < l.length, a ≠ p0 + 8 * r) → t.1.w a = m1.w a

theorem gridPut_ok {F : GFull} (hF : F.indicesStride = 8) {m1 : GMem} {pe p0 v0 c0 : Nat} {l : List Nat}
    {t : GMem × Nat × Nat} (h : PutInv m1 pe p0 v0 c0 l t) (c : Prop) [Decidable c] (v : Nat) (hv : v < 2 ^ 64)
    (hpe : m1.In pe) (hp : c → m1.In (p0 + 8 * l.length)) (hlt : pe < p0) (hb : m1.lo + m1.size < 2 ^ 64)
    (hv0 : v0 + l.length + 1 < 2 ^ 64) (hc0 : c0 + l.length + 1 < 2 ^ 64) :
    ∃ t', gridPut F pe (decide c) v t = .ok t' ∧ PutInv m1 pe p0 v0 c0 (l ++ if c then [v] else []) t' := by
  unfold gridPut
  by_cases hc : c
  · simp only [hc, decide_true, if_true]
    have hin : ∀ m' : GMem, m'.lo = m1.lo → m'.size = m1.size → ∀ a, m'.In a ↔ m1.In a := by
      intro m' h1 h2 a; unfold GMem.In; rw [h1, h2]
    have hpp := hp hc
    have hbnd : p0 + 8 * l.length + 8 < 2 ^ 64 := by obtain ⟨_, h2, _⟩ := hpp; omega
    obtain ⟨m2, e1, b2, l2, s2, w2⟩ := gWrite_ok (m := t.1) (a := t.2.2) (u64 v) (by
      rw [h.ptr]; exact (hin _ h.lo h.size _).2 hpp)
    rw [e1]
    simp only [Res.bind_ok]
    rw [h.ptr, show u64 v = v by unfold u64; omega] at w2
    have hb2 := b2.trans h.base
    have hl2 := l2.trans h.lo
    have hs2 := s2.trans h.size
    have e2 : gRead m2 pe = .ok (v0 + l.length) := by
      unfold gRead
      rw [if_pos ((hin _ hl2 hs2 _).2 hpe), w2, if_neg (by omega), h.stop]
    rw [e2]
    simp only [Res.bind_ok]
    obtain ⟨m3, e4, b3, l3, s3, w3⟩ := gWrite_ok (m := m2) (a := pe) (u64 (v0 + l.length + 1)) ((hin _ hl2 hs2 _).2 hpe)
    rw [e4]
    simp only [Res.bind_ok]
    refine ⟨_, rfl, ?_⟩
    have e3 : u64 (v0 + l.length + 1) = v0 + l.length + 1 := by unfold u64; omega
    refine ⟨b3.trans hb2, l3.trans hl2, s3.trans hs2, ?_, ?_, ?_, fun r hr => ?_, fun a ha hr => ?_⟩
    · simp only [h.ptr, hF, List.length_append, List.length_singleton]
      unfold gAdd u64; omega
    · simp only [h.count, List.length_append, List.length_singleton]
      unfold u64; omega
    · simp only [w3, if_true, e3, List.length_append, List.length_singleton]
      omega
    · simp only [List.length_append, List.length_singleton] at hr
      simp only [w3]
      rw [if_neg (by omega), w2]
      by_cases hrl : r = l.length
      · subst hrl
        rw [if_pos rfl]
        simp
      · rw [if_neg (by omega), h.out r (by omega), List.getElem_append_left]
    · simp only [List.length_append, List.length_singleton] at hr
      simp only [w3]
      rw [if_neg ha, w2, if_neg (hr l.length (by omega))]
      exact h.rest a ha fun r hr' => hr r (by omega)
  · simp only [hc, decide_false, if_false]
    exact ⟨t, rfl, by simpa using h⟩

/-- The grid up to node `t`. -/
structure GridInv (side base : Nat) (t : Nat) (s : GMem × Nat) : Prop where
  place : s.1.base = base
  lo : s.1.lo = base
  size : s.1.size = gridSize side
  count : s.2 = edgesBefore side t
  ptrs : ∀ k ≤ t, s.1.w (base + side * side * 24 + k * 8) = edgesBefore side k
  idx : ∀ v < t, ∀ (r : Nat) (h : r < (gridAdj side v).length),
    s.1.w (base + side * side * 24 + (side * side + 1) * 8 + (edgesBefore side v + r) * 8) = (gridAdj side v)[r]
  rest : ∀ a < base + side * side * 24, s.1.w a = 0

/-- The buffer `make_grid` asks for, and that it lies in the address space. -/
def GridFits (side base : Nat) : Prop :=
  base + (side * side * 24 + (side * side + 1) * 8 + side * (side - 1) * 4 * 8) < 2 ^ 64

theorem grid_consts {side base : Nat} (hf : GridFits side base) (hs : side ≠ 0) :
    (gridFull side).numNodes = side * side ∧ (gridFull side).nodeStride = 24 ∧
    (gridFull side).topoOff = side * side * 24 ∧ (gridFull side).indptrStride = 8 ∧
    (gridFull side).indicesOff = (side * side + 1) * 8 ∧ (gridFull side).indicesStride = 8 ∧
    gridSize side = side * side * 24 + (side * side + 1) * 8 + side * (side - 1) * 4 * 8 := by
  unfold GridFits at hf
  unfold gridFull gridSize u64
  simp only
  generalize side * side = n at *
  generalize side * (side - 1) * 4 = e at *
  have h1 : n % 18446744073709551616 = n := by omega
  have h2 : e % 18446744073709551616 = e := by omega
  rw [h1, h2]
  refine ⟨by trivial, by trivial, by omega, by trivial, by omega, by trivial, by omega⟩

set_option maxHeartbeats 2000000 in
theorem gridCell_ok {side base i j : Nat} (hf : GridFits side base) (hi : i < side) (hj : j < side)
    {s : GMem × Nat} (h : GridInv side base (i * side + j) s) :
    ∃ s', gridCell (gridFull side) side i j s = .ok s' ∧ GridInv side base (i * side + (j + 1)) s' := by
  have hs : side ≠ 0 := by omega
  obtain ⟨c1, c2, c3, c4, c5, c6, c7⟩ := grid_consts hf hs
  obtain ⟨d1, d2⟩ := cell_div (i := i) hj
  have hadj := gridAdj_cell (i := i) hj
  have hid : i * side + j + 1 ≤ side * side := by
    have : (i + 1) * side ≤ side * side := Nat.mul_le_mul_right _ hi
    rw [Nat.add_mul] at this
    omega
  have hE : edgesBefore side (i * side + j) + (gridAdj side (i * side + j)).length ≤ side * (side - 1) * 4 := by
    rw [← edgesBefore_all side hs]
    exact edgesBefore_mono hid
  have hup : i ≠ 0 → side ≤ i * side := fun h0 => Nat.le_mul_of_pos_left side (by omega)
  have hdown : i + 1 < side → i * side + j + side < side * side := by
    intro h1
    have : (i + 2) * side ≤ side * side := Nat.mul_le_mul_right _ h1
    rw [Nat.add_mul] at this
    omega
  have hsub : (i - 1) * side = i * side - side := by rw [Nat.sub_mul, Nat.one_mul]
  have hadd : (i + 1) * side = i * side + side := by rw [Nat.add_mul, Nat.one_mul]
  obtain ⟨m, ec⟩ := s
  obtain ⟨hb, hlo, hsz, hcnt, hptr, hidx, hrest⟩ := h
  simp only at hb hlo hsz hcnt hptr hidx hrest
  unfold GridFits at hf
  unfold gridCell
  simp only [c3, c4, c5, c6, hb, hsub, hadd]
  have hj1 : i * side + (j + 1) = i * side + j + 1 := by omega
  rw [hj1]
  generalize hn : side * side = n at *
  generalize hee : side * (side - 1) * 4 = ee at *
  generalize hx : i * side = x at *
  have q0 : u64 (x + j) = x + j := by unfold u64; omega
  rw [q0]
  have q1 : gAdd base (u64 (n * 24 + 8 * (x + j))) = base + n * 24 + (x + j) * 8 := by unfold gAdd u64; omega
  have q2 : gAdd base (u64 (n * 24 + 8 * (x + j + 1))) = base + n * 24 + (x + j + 1) * 8 := by unfold gAdd u64; omega
  have q3 : gAdd base (u64 (n * 24 + (n + 1) * 8 + ec * 8)) =
      base + n * 24 + (n + 1) * 8 + edgesBefore side (x + j) * 8 := by
    rw [hcnt]; unfold gAdd u64; omega
  rw [q1, q2, q3]
  generalize hpe : base + n * 24 + (x + j + 1) * 8 = pe
  generalize hp0 : base + n * 24 + (n + 1) * 8 + edgesBefore side (x + j) * 8 = p0
  have hIn : ∀ a, m.In a ↔ base ≤ a ∧ a + 8 ≤ base + (n * 24 + (n + 1) * 8 + ee * 8) ∧ (a - base) % 8 = 0 := by
    intro a; unfold GMem.In; rw [hlo, hsz, c7]
  have r1 : gRead m (base + n * 24 + (x + j) * 8) = .ok (edgesBefore side (x + j)) := by
    unfold gRead
    rw [if_pos ((hIn _).2 (by omega)), hptr _ (Nat.le_refl _)]
  have hpeIn : m.In pe := (hIn _).2 (by omega)
  obtain ⟨m1, w1, b1, l1, s1, v1⟩ := gWrite_ok (edgesBefore side (x + j)) hpeIn
  rw [r1]
  simp only [Res.bind_ok]
  rw [w1]
  simp only [Res.bind_ok]
  have m1b : m1.base = base := b1.trans hb
  have m1l : m1.lo = base := l1.trans hlo
  have m1s : m1.size = n * 24 + (n + 1) * 8 + ee * 8 := s1.trans (hsz.trans c7)
  have m1w : ∀ a, a ≠ pe → m1.w a = m.w a := by intro a ha; rw [v1, if_neg ha]
  have hIn1 : ∀ a, m1.In a ↔ base ≤ a ∧ a + 8 ≤ base + (n * 24 + (n + 1) * 8 + ee * 8) ∧ (a - base) % 8 = 0 := by
    intro a; unfold GMem.In; rw [m1l, m1s]
  have hp1 : m1.In pe := (hIn1 _).2 (by omega)
  have i0 : PutInv m1 pe p0 (edgesBefore side (x + j)) ec [] (m1, ec, p0) := by
    refine ⟨rfl, rfl, rfl, rfl, rfl, ?_, fun r hr => by simp at hr, fun _ _ _ => rfl⟩
    simp only [v1, if_true, List.length_nil, Nat.add_zero]
  have hlen := congrArg List.length hadj
  simp only [List.length_append] at hlen
  have hlen' : ∀ (c : Prop) [Decidable c] (v : Nat), (if c then [v] else ([] : List Nat)).length = if c then 1 else 0 := by
    intro c _ v; split_ifs <;> rfl
  simp only [hlen'] at hlen
  have hbb : m1.lo + m1.size < 2 ^ 64 := by rw [m1l, m1s]; omega
  have hle4 : (gridAdj side (x + j)).length ≤ 4 := by rw [hlen]; split_ifs <;> omega
  obtain ⟨t1, a1, i1⟩ := gridPut_ok c6 i0 (i ≠ 0) (x - side + j) (by omega) hp1
    (fun hc => (hIn1 _).2 (by simp only [if_pos hc] at hlen; simp only [List.length_nil]; omega)) (by omega) hbb
    (by simp only [List.length_nil]; omega) (by simp only [List.length_nil]; omega)
  obtain ⟨t2, a2, i2⟩ := gridPut_ok c6 i1 (i + 1 < side) (x + side + j)
    (by by_cases hc : i + 1 < side <;> omega) hp1
    (fun hc => (hIn1 _).2 (by
      simp only [if_pos hc] at hlen; simp only [List.length_append, hlen', List.length_nil]; split_ifs at hlen ⊢ <;> omega))
    (by omega) hbb (by simp only [List.length_append, hlen', List.length_nil]; split_ifs <;> omega)
    (by simp only [List.length_append, hlen', List.length_nil]; split_ifs <;> omega)
  obtain ⟨t3, a3, i3⟩ := gridPut_ok c6 i2 (j ≠ 0) (x + (j - 1)) (by omega) hp1
    (fun hc => (hIn1 _).2 (by
      simp only [if_pos hc] at hlen; simp only [List.length_append, hlen', List.length_nil]; split_ifs at hlen ⊢ <;> omega))
    (by omega) hbb (by simp only [List.length_append, hlen', List.length_nil]; split_ifs <;> omega)
    (by simp only [List.length_append, hlen', List.length_nil]; split_ifs <;> omega)
  obtain ⟨t4, a4, i4⟩ := gridPut_ok c6 i3 (j + 1 < side) (x + j + 1) (by omega) hp1
    (fun hc => (hIn1 _).2 (by
      simp only [if_pos hc] at hlen; simp only [List.length_append, hlen', List.length_nil]; split_ifs at hlen ⊢ <;> omega))
    (by omega) hbb (by simp only [List.length_append, hlen', List.length_nil]; split_ifs <;> omega)
    (by simp only [List.length_append, hlen', List.length_nil]; split_ifs <;> omega)
  have hl : (((([] : List Nat) ++ if i ≠ 0 then [x - side + j] else []) ++ if i + 1 < side then [x + side + j] else []) ++
      if j ≠ 0 then [x + (j - 1)] else []) ++ (if j + 1 < side then [x + j + 1] else []) = gridAdj side (x + j) := by
    rw [hadj, List.nil_append]
    congr 1
    · congr 1
      · congr 1
        · by_cases hc : i ≠ 0
          · rw [if_pos hc, if_pos hc]
            have := hup hc
            congr 1; omega
          · rw [if_neg hc, if_neg hc]
        · rw [show x + side + j = x + j + side by omega]
      · by_cases hc : j ≠ 0
        · rw [if_pos hc, if_pos hc]; congr 1; omega
        · rw [if_neg hc, if_neg hc]
  rw [hl] at i4
  refine ⟨(t4.1, t4.2.1), ?_, ?_⟩
  · rw [a1]
    simp only [Res.bind_ok]
    rw [a2]
    simp only [Res.bind_ok]
    rw [a3]
    simp only [Res.bind_ok]
    rw [a4]
    rfl
  · refine ⟨by rw [← m1b]; exact i4.base, by rw [← m1l]; exact i4.lo, by rw [c7, ← m1s]; exact i4.size, ?_, fun k hk => ?_, fun v hv r hr => ?_,
      fun a ha => ?_⟩
    · simp only [edgesBefore]; rw [i4.count, hcnt]
    · rw [hn]
      by_cases hkt : k = x + j + 1
      · subst hkt
        rw [hpe]
        simp only [edgesBefore]
        exact i4.stop
      · rw [i4.rest _ (by omega) (fun r _ => by omega), m1w _ (by omega)]
        exact hptr k (by omega)
    · rw [hn]
      by_cases hvt : v = x + j
      · subst hvt
        rw [show base + n * 24 + (n + 1) * 8 + (edgesBefore side (x + j) + r) * 8 = p0 + 8 * r by omega]
        exact i4.out r hr
      · have hle := edgesBefore_mono (side := side) (show v + 1 ≤ x + j by omega)
        simp only [edgesBefore] at hle
        rw [i4.rest _ (by omega) (fun r' _ => by omega), m1w _ (by omega)]
        exact hidx v (by omega) r hr
    · rw [hn] at ha
      rw [i4.rest _ (by omega) (fun r' _ => by omega), m1w _ (by omega)]
      exact hrest a ha

theorem gridRow_ok {side base i : Nat} (hf : GridFits side base) (hi : i < side) {s : GMem × Nat}
    (h : GridInv side base (i * side) s) (n : Nat) (hn : n ≤ side) :
    ∃ s', gFor (fun j s => gridCell (gridFull side) side i j s) n s = .ok s' ∧ GridInv side base (i * side + n) s' := by
  induction n with
  | zero => exact ⟨s, rfl, h⟩
  | succ n ih =>
    obtain ⟨s1, e1, h1⟩ := ih (by omega)
    obtain ⟨s2, e2, h2⟩ := gridCell_ok hf hi (show n < side by omega) h1
    refine ⟨s2, ?_, h2⟩
    unfold gFor
    rw [e1]
    exact e2

theorem gridRows_ok {side base : Nat} (hf : GridFits side base) (n : Nat) (hn : n ≤ side) (s : GMem × Nat)
    (h : GridInv side base 0 s) :
    ∃ s', gFor (fun i s => gFor (fun j s => gridCell (gridFull side) side i j s) side s) n s = .ok s' ∧
      GridInv side base (n * side) s' := by
  induction n with
  | zero => exact ⟨s, rfl, by rw [Nat.zero_mul]; exact h⟩
  | succ n ih =>
    obtain ⟨s1, e1, h1⟩ := ih (by omega)
    obtain ⟨s2, e2, h2⟩ := gridRow_ok hf (show n < side by omega) h1 side (Nat.le_refl _)
    refine ⟨s2, ?_, by rw [Nat.add_mul, Nat.one_mul]; exact h2⟩
    unfold gFor
    rw [e1]
    exact e2

theorem grid_addr {side base : Nat} (hf : GridFits side base) (hs : side ≠ 0) :
    (∀ v < side * side, nodeAt (gSelect (gridFull side)) base v = base + v * 24) ∧
    (∀ k ≤ side * side, ptrAt (gSelect (gridFull side)) base k = base + side * side * 24 + k * 8) ∧
    (∀ k ≤ side * (side - 1) * 4, idxAt (gSelect (gridFull side)) base k =
      base + side * side * 24 + (side * side + 1) * 8 + k * 8) := by
  obtain ⟨c1, c2, c3, c4, c5, c6, c7⟩ := grid_consts hf hs
  unfold GridFits at hf
  unfold nodeAt ptrAt idxAt gSelect
  simp only [c1, c2, c3, c4, c5, c6]
  generalize side * side = n at *
  generalize side * (side - 1) * 4 = e at *
  refine ⟨fun v hv => by omega, fun k hk => by omega, fun k hk => by omega⟩

theorem gridAdj_lt {side v w : Nat} (hv : v < side * side) (hw : w ∈ gridAdj side v) : w < side * side := by
  have hs : 0 < side := by
    rcases Nat.eq_zero_or_pos side with h | h
    · subst h; omega
    · exact h
  obtain ⟨i, j, hj, rfl⟩ : ∃ i j, j < side ∧ v = i * side + j :=
    ⟨v / side, v % side, Nat.mod_lt _ hs, by rw [Nat.mul_comm]; exact (Nat.div_add_mod v side).symm⟩
  have hi : i < side := by
    rcases Nat.lt_or_ge i side with h | h
    · exact h
    · have := Nat.mul_le_mul_right side h; omega
  have hrow : (i + 1) * side ≤ side * side := Nat.mul_le_mul_right _ hi
  rw [Nat.add_mul] at hrow
  rw [gridAdj_cell hj] at hw
  simp only [List.mem_append] at hw
  rcases hw with ((hw | hw) | hw) | hw <;> split_ifs at hw with hc <;> simp only [List.mem_singleton, List.not_mem_nil] at hw
  · omega
  · have : (i + 2) * side ≤ side * side := Nat.mul_le_mul_right _ hc
    rw [Nat.add_mul] at this
    omega
  · omega
  · omega

/-- **C116** (grid): the buffer `make_grid` fills is the grid, for every side length that fits the address space; the
    selection of one field of the nodes describes the same graph. -/
theorem make_grid_exact (side base : Nat) (hs : side ≠ 0) (hf : GridFits side base) :
    ∃ F m, makeGrid side base = .ok (F, m) ∧ m.base = base ∧
      (gSelect F).numNodes = side * side ∧ IsCsr (gSelect F) m (gridAdj side) := by
  have h0 : GridInv side base 0 (⟨base, base, gridSize side, fun _ => 0⟩, 0) := by
    refine ⟨rfl, rfl, rfl, rfl, fun k hk => ?_, fun v hv => by omega, fun _ _ => rfl⟩
    rw [show k = 0 by omega]; rfl
  obtain ⟨⟨m, ec⟩, e1, h1⟩ := gridRows_ok hf side (Nat.le_refl _) _ h0
  obtain ⟨c1, c2, c3, c4, c5, c6, c7⟩ := grid_consts hf hs
  obtain ⟨g1, g2, g3⟩ := grid_addr hf hs
  have hmk : makeGrid side base = .ok (gridFull side, m) := by
    unfold makeGrid
    rw [if_neg hs]
    simp only []
    rw [e1]
    rfl
  obtain ⟨hb, hlo, hsz, -, hptr, hidx, -⟩ := h1
  simp only at hb hlo hsz hptr hidx
  have hn : (gSelect (gridFull side)).numNodes = side * side := c1
  have hst : (gSelect (gridFull side)).indicesStride = 8 := c6
  have hall := edgesBefore_all side hs
  have hIn : ∀ a, m.In a ↔ base ≤ a ∧
      a + 8 ≤ base + (side * side * 24 + (side * side + 1) * 8 + side * (side - 1) * 4 * 8) ∧ (a - base) % 8 = 0 := by
    intro a; unfold GMem.In; rw [hlo, hsz, c7]
  have hP : ∀ v < side * side, m.w (ptrAt (gSelect (gridFull side)) base v) = edgesBefore side v ∧
      m.w (ptrAt (gSelect (gridFull side)) base (v + 1)) = edgesBefore side (v + 1) ∧
      edgesBefore side (v + 1) ≤ side * (side - 1) * 4 := by
    intro v hv
    rw [g2 v (by omega), g2 (v + 1) (by omega), ← hall]
    exact ⟨hptr v (by omega), hptr (v + 1) (by omega), edgesBefore_mono hv⟩
  refine ⟨_, m, hmk, hb, hn, ⟨?_, ?_, ?_, ?_, ?_, ?_, ?_⟩⟩
  all_goals try rw [hn]
  all_goals try rw [hb]
  · intro v hv
    rw [g1 v hv]
    exact (hIn _).2 (by omega)
  · unfold GridFits at hf; omega
  · intro v hv w hw
    rw [g1 v hv, g1 w hw]; omega
  · rw [hst]; decide
  · intro v hv
    obtain ⟨p1, p2, p3⟩ := hP v hv
    have hd : edgesBefore side (v + 1) = edgesBefore side v + (gridAdj side v).length := rfl
    rw [p1, p2]
    refine ⟨?_, ?_, by omega, fun k k1 k2 => ?_, ?_⟩
    · rw [g2 v (by omega)]; exact (hIn _).2 (by omega)
    · rw [g2 (v + 1) (by omega)]; exact (hIn _).2 (by omega)
    · rw [g3 k (by omega), g3 (k + 1) (by omega), hst]
      exact ⟨(hIn _).2 (by omega), by omega⟩
    · refine List.ext_getElem (by simp [hd]) fun r r1 r2 => ?_
      simp only [List.getElem_map, List.getElem_range', Nat.one_mul]
      rw [g3 _ (by omega)]
      exact (hidx v hv r r1).symm
  · intro v hv w hw
    exact gridAdj_lt hv hw
  · intro v hv u hu
    obtain ⟨p1, p2, p3⟩ := hP u hu
    rw [g1 v hv, g2 u (by omega), g2 (u + 1) (by omega)]
    refine ⟨by omega, by omega, fun k k1 k2 => ?_⟩
    rw [← g2 (u + 1) (by omega), p2] at k2
    rw [g3 k (by omega)]
    omega

/-- **C116** (grid): the neighbours of a cell of the grid are the cells at distance one, each once. -/
theorem gridAdj_cells (side i j i' j' : Nat) (hi : i < side) (hj : j < side) (hj' : j' < side) :
    (i' * side + j' ∈ gridAdj side (i * side + j) ↔
      i' < side ∧ ((i' = i ∧ (j' + 1 = j ∨ j' = j + 1)) ∨ (j' = j ∧ (i' + 1 = i ∨ i' = i + 1)))) ∧
    (gridAdj side (i * side + j)).Nodup := by
  have hinj : ∀ a b c d : Nat, b < side → d < side → (a * side + b = c * side + d ↔ a = c ∧ b = d) := by
    intro a b c d hb hd
    constructor
    · intro h
      obtain ⟨h1, h2⟩ := cell_div (i := a) hb
      obtain ⟨h3, h4⟩ := cell_div (i := c) hd
      rw [h] at h1 h2
      omega
    · rintro ⟨rfl, rfl⟩; rfl
  rw [gridAdj_cell hj]
  have u1 : i ≠ 0 → i * side + j - side = (i - 1) * side + j := by
    intro h
    have : side ≤ i * side := Nat.le_mul_of_pos_left side (by omega)
    rw [Nat.sub_mul]; omega
  have u2 : i * side + j + side = (i + 1) * side + j := by rw [Nat.add_mul]; omega
  have u3 : j ≠ 0 → i * side + j - 1 = i * side + (j - 1) := by intro h; omega
  have u4 : i * side + j + 1 = i * side + (j + 1) := by omega
  constructor
  · simp only [List.mem_append]
    by_cases h1 : i ≠ 0 <;> by_cases h2 : i + 1 < side <;> by_cases h3 : j ≠ 0 <;> by_cases h4 : j + 1 < side <;>
      simp only [h1, h2, h3, h4, if_true, if_false, List.mem_singleton, List.not_mem_nil, ne_eq, not_false_eq_true,
        not_true_eq_false, false_or, or_false, u1, u2, u3, u4] <;>
      (try rw [hinj i' j' (i - 1) j hj' hj]) <;> (try rw [hinj i' j' (i + 1) j hj' hj]) <;>
      (try rw [hinj i' j' i (j - 1) hj' (by omega)]) <;> (try rw [hinj i' j' i (j + 1) hj' (by omega)]) <;> (first | omega | (rw [false_iff]; omega))
  · have hs : 0 < side := by omega
    split_ifs <;> simp <;> omega

/-- A node of the grid is a cell. -/
theorem cell_of {side v : Nat} (hv : v < side * side) : ∃ i j, i < side ∧ j < side ∧ v = i * side + j := by
  have hs : 0 < side := by
    rcases Nat.eq_zero_or_pos side with h | h
    · subst h; omega
    · exact h
  refine ⟨v / side, v % side, (Nat.div_lt_iff_lt_mul hs).2 hv, Nat.mod_lt _ hs, ?_⟩
  rw [Nat.mul_comm]; exact (Nat.div_add_mod v side).symm

theorem cell_lt {side i j : Nat} (hi : i < side) (hj : j < side) : i * side + j < side * side := by
  have hrow : (i + 1) * side ≤ side * side := Nat.mul_le_mul_right _ hi
  rw [Nat.add_mul] at hrow
  omega

/-- **C116** (grid): the distance from the corner is the sum of the coordinates. -/
theorem grid_distance (side i j : Nat) (hi : i < side) (hj : j < side) :
    HopDist (gridAdj side) 0 (i * side + j) (i + j) := by
  have hs : 0 < side := by omega
  have low : ∀ k v, Walk (gridAdj side) 0 k v → ∃ a b, a < side ∧ b < side ∧ v = a * side + b ∧ a + b ≤ k := by
    intro k v h
    induction h with
    | nil => exact ⟨0, 0, hs, hs, by omega, by omega⟩
    | @step k v w _ hw ih =>
      obtain ⟨a, b, ha, hb, rfl, hk⟩ := ih
      obtain ⟨c, d, hc, hd, rfl⟩ := cell_of (gridAdj_lt (cell_lt ha hb) hw)
      have := ((gridAdj_cells side a b c d ha hb hd).1.1 hw).2
      exact ⟨c, d, hc, hd, rfl, by omega⟩
  have right : ∀ b < side, Walk (gridAdj side) 0 b (0 * side + b) := by
    intro b hb
    induction b with
    | zero => rw [Nat.zero_mul]; exact Walk.nil
    | succ b ih =>
      exact Walk.step (ih (by omega)) ((gridAdj_cells side 0 b 0 (b + 1) hs (by omega) hb).1.2 ⟨hs, by omega⟩)
  have down : ∀ a < side, Walk (gridAdj side) 0 (a + j) (a * side + j) := by
    intro a ha
    induction a with
    | zero => rw [Nat.zero_add]; exact right j hj
    | succ a ih =>
      rw [show a + 1 + j = a + j + 1 by omega]
      exact Walk.step (ih (by omega)) ((gridAdj_cells side a j (a + 1) j (by omega) hj hj).1.2 ⟨ha, by omega⟩)
  refine ⟨down i hi, fun k hk => ?_⟩
  obtain ⟨a, b, ha, hb, e, hle⟩ := low k _ hk
  obtain ⟨h1, h2⟩ := cell_div (i := i) hj
  obtain ⟨h3, h4⟩ := cell_div (i := a) hb
  rw [e] at h1 h2
  omega

theorem gFor_unit {f : Nat → Unit → Res Unit} {n : Nat} (h : ∀ i < n, f i () = .ok ()) : gFor f n () = .ok () := by
  induction n with
  | zero => rfl
  | succ n ih =>
    unfold gFor
    rw [ih fun i hi => h i (by omega)]
    exact h n (by omega)

/-- **C116** (the example): for every side length that fits, every place of the buffer and every order among equals, the
    program runs to its end and its check of all the distances passes. -/
theorem sparse_example_exact (side base fuel : Nat) (pick : Nat → Nat) (hs : side ≠ 0) (hf : GridFits side base)
    (hfu : side * side < fuel) : sparseMain side base fuel pick = .ok () := by
  obtain ⟨F, m, e1, hb, hn, hc⟩ := make_grid_exact side base hs hf
  have hpos : 0 < side * side := Nat.mul_pos (by omega) (by omega)
  obtain ⟨m', e2, hd, hb', hl', hsz, -⟩ := sssp_exact (gSelect F) m (gridAdj side) hc 0 (by rw [hn]; exact hpos) pick fuel
    (by rw [hn]; exact hfu)
  unfold sparseMain
  rw [e1]
  simp only [Res.bind_ok]
  rw [e2]
  simp only [Res.bind_ok]
  unfold verifyGrid
  have hlt : side * side < 2 ^ 64 := by unfold GridFits at hf; omega
  have hsl : side ≤ side * side := Nat.le_mul_of_pos_left side (by omega)
  have hu : u64 (side * side) = side * side := by unfold u64; omega
  rw [if_neg (by rw [hn, hu]; simp)]
  refine gFor_unit fun i hi => gFor_unit fun j hj => ?_
  have hcell := cell_lt hi hj
  have hu2 : u64 (i * side + j) = i * side + j := by unfold u64; omega
  have hrd : gRead m' (gNode (gSelect F) m'.base (i * side + j)) =
      .ok (m'.w (nodeAt (gSelect F) m.base (i * side + j))) := by
    rw [gNode_eq, hb']
    unfold gRead
    rw [if_pos]
    have := hc.nodes (i * side + j) (by rw [hn]; exact hcell)
    unfold GMem.In at this ⊢
    rw [hl', hsz]; exact this
  rw [hu2, hrd]
  simp only [Res.bind_ok]
  have hg := grid_distance side i j hi hj
  have hval : m'.w (nodeAt (gSelect F) m.base (i * side + j)) = i + j := by
    rcases hd (i * side + j) (by rw [hn]; exact hcell) with h | h
    · exact Nat.le_antisymm (h.2 _ hg.1) (hg.2 _ h.1)
    · exact absurd hg.1 (h.1 _)
  have hij : i + j < 2 ^ 64 := by
    by_cases h1 : side = 1
    · subst h1; omega
    · have : 2 * side ≤ side * side := Nat.mul_le_mul_right _ (by omega)
      omega
  rw [if_neg (by rw [hval]; unfold u64; simp; omega)]
  rfl

/-! Concrete cases: the grid of the example fits; a graph in another layout (nodes and row pointers interleaved, indices
    before them), with an edge 0 → 2, 2 → 1 and an unreachable node. -/

example : GridFits 10000 0x7f0000000000 := by unfold GridFits; decide

def exCsrMeta : GMeta :=
  { numNodes := 4, nodeStride := 16, rowEntries := 2, topoOff := 8, logical := 4, indptrStride := 16,
    indicesOff := 18446744073709551616 - 24, indicesStride := 8, dataOff := 0, dataStride := 0, emptyEntries := 0 }

/-- Two words of indices at 1000 and 1008, then node 0, row pointer 0, node 1, ...; the base pointer is at node 0. -/
def exCsrMem : GMem :=
  { base := 1016, lo := 1000, size := 96, w := fun a => if a = 1000 then 2 else if a = 1008 then 1 else if a = 1040 then 1
      else if a = 1056 then 1 else if a = 1072 then 2 else if a = 1088 then 2 else 0 }

def exCsrAdj (v : Nat) : List Nat := if v = 0 then [2] else if v = 2 then [1] else []

example : IsCsr exCsrMeta exCsrMem exCsrAdj := by
  refine ⟨?_, by decide, ?_, by decide, ?_, ?_, ?_⟩
  · decide
  · decide
  · intro v hv
    have hv4 : v < 4 := hv
    clear hv
    have hc : v = 0 ∨ v = 1 ∨ v = 2 ∨ v = 3 := by omega
    clear hv4
    rcases hc with rfl | rfl | rfl | rfl
    · refine ⟨by decide, by decide, by decide, fun k k1 k2 => ?_, by decide⟩
      have : k = 0 := by
        have : k < 1 := k2
        omega
      subst this; decide
    · refine ⟨by decide, by decide, by decide, fun k k1 k2 => ?_, by decide⟩
      have h1 : 1 ≤ k := k1
      have h2 : k < 1 := k2
      omega
    · refine ⟨by decide, by decide, by decide, fun k k1 k2 => ?_, by decide⟩
      have h1 : 1 ≤ k := k1
      have h2 : k < 2 := k2
      have : k = 1 := by omega
      subst this; decide
    · refine ⟨by decide, by decide, by decide, fun k k1 k2 => ?_, by decide⟩
      have h1 : 2 ≤ k := k1
      have h2 : k < 2 := k2
      omega
  · decide
  · intro v hv u hu
    have hv4 : v < 4 := hv
    have hu4 : u < 4 := hu
    have e1 : nodeAt exCsrMeta exCsrMem.base v = 1016 + v * 16 := by
      unfold nodeAt exCsrMeta exCsrMem; simp only; omega
    have e2 : ∀ k ≤ 4, ptrAt exCsrMeta exCsrMem.base k = 1024 + k * 16 := by
      intro k hk; unfold ptrAt exCsrMeta exCsrMem; simp only; omega
    refine ⟨by rw [e1, e2 u (by omega)]; omega, by rw [e1, e2 (u + 1) (by omega)]; omega, fun k k1 k2 => ?_⟩
    have h2 : k < 2 := by
      refine Nat.lt_of_lt_of_le k2 ?_
      rw [e2 (u + 1) (by omega)]
      unfold exCsrMem; simp only
      split_ifs <;> omega
    have e3 : idxAt exCsrMeta exCsrMem.base k = 1000 + k * 8 := by
      unfold idxAt exCsrMeta exCsrMem; simp only; omega
    rw [e1, e3]; omega

def exBackMeta : GMeta :=
  { exCsrMeta with numNodes := 2, nodeStride := 8, topoOff := 16, indptrStride := 8, indicesOff := 40, indicesStride := 18446744073709551608 }

def exBackMem : GMem :=
  { base := 1000, lo := 1000, size := 64, w := fun a => if a = 1024 then 2 else if a = 1048 then 1 else 0 }

/-- The indices of a row stored backwards (a stride of -8) are not followed, the first address being above the last: the
    order of addresses is part of what `IsCsr` asks for. -/
theorem reversed_indices_ignored : gNeighbors exBackMeta exBackMem 0 = .ok (1056, 1040, 2305843009213693951) ∧
    (∀ fuel nd s, ssspEdges exBackMeta (fuel + 1) 1056 1040 2305843009213693951 nd s = .ok s) := by
  refine ⟨by decide, fun fuel nd s => ?_⟩
  unfold ssspEdges
  rw [if_neg (by omega)]

end Dynd
