/-
Sparse graphs described by the arrmeta of `dense(tuple(node data, sparse(edge data)))`: examples/abi_sparse.cpp over
include/dynd/abi/types/sparse.h and dense.h.  Words of the data buffer by address; `size_t` arithmetic modulo 2^64, where
the reduction is written once for a whole expression.

Not modelled: the types attached to the arrays and the header of the descriptor (see Abi and AbiCount), reference counts
(the example leaks on purpose), `malloc` returning null (not tested by the code).  `std::priority_queue` is modelled by
its contract: a bag whose top is an element of highest priority, as long as the order of the elements in it does not
change while they are in it; anything else is undefined.
-/
import Verif.Model.Half

namespace Dynd

/-- The data buffer: where it starts, its size in bytes, and its words by address; `base` is the base pointer of the
    array, which need not be the start. -/
structure GMem where
  base : Nat
  lo : Nat
  size : Nat
  w : Nat → Nat

/-- An aligned `size_t` inside the buffer. -/
def GMem.In (m : GMem) (a : Nat) : Prop := m.lo ≤ a ∧ a + 8 ≤ m.lo + m.size ∧ (a - m.lo) % 8 = 0

instance (m : GMem) (a : Nat) : Decidable (m.In a) := by unfold GMem.In; infer_instance

/-- Reading a word of the buffer. -/
def gRead (m : GMem) (a : Nat) : Res Nat := if m.In a then .ok (m.w a) else .ub

/-- Writing a word of the buffer. -/
def gWrite (m : GMem) (a v : Nat) : Res GMem :=
  if m.In a then .ok { m with w := fun x => if x = a then v else m.w x } else .ub

/-- `wraparound_pointer_add`.  /repo/examples/abi_sparse.cpp:168-170. -/
def gAdd (p o : Nat) : Nat := u64 (p + o)

/-- `full_arrmeta` without `indptr_outer_stride`, which is neither written nor read.  abi_sparse.cpp:62-89. -/
structure GFull where
  numNodes : Nat
  nodeStride : Nat
  rowEntries : Nat
  topoOff : Nat
  nodeEntries : Nat
  float1 : Nat
  float2 : Nat
  logical : Nat
  indptrStride : Nat
  indicesOff : Nat
  indicesStride : Nat
  dataOff : Nat
  dataStride : Nat
  emptyEntries : Nat
  deriving DecidableEq, Repr

/-- `sliced_arrmeta`, likewise.  abi_sparse.cpp:95-108. -/
structure GMeta where
  numNodes : Nat
  nodeStride : Nat
  rowEntries : Nat
  topoOff : Nat
  logical : Nat
  indptrStride : Nat
  indicesOff : Nat
  indicesStride : Nat
  dataOff : Nat
  dataStride : Nat
  emptyEntries : Nat
  deriving DecidableEq, Repr

/-- The arrmeta made by `select_node_data_entry`; the base pointer is that of the array.  abi_sparse.cpp:121-159. -/
def gSelect (f : GFull) : GMeta :=
  { numNodes := f.numNodes, nodeStride := f.nodeStride, rowEntries := f.rowEntries, topoOff := f.topoOff,
    logical := f.logical, indptrStride := f.indptrStride, indicesOff := f.indicesOff, indicesStride := f.indicesStride,
    dataOff := f.dataOff, dataStride := f.dataStride, emptyEntries := f.emptyEntries }

/-- The address of `node_data(array, id)`.  abi_sparse.cpp:176-181. -/
def gNode (A : GMeta) (base id : Nat) : Nat := gAdd base (u64 (id * A.nodeStride))

/-- `neighbors(array, id)`: first and last pointer and the step in words.  abi_sparse.cpp:219-232. -/
def gNeighbors (A : GMeta) (m : GMem) (id : Nat) : Res (Nat × Nat × Nat) := do
  let indptr := gAdd m.base A.topoOff
  let node := gAdd indptr (u64 (A.indptrStride * id))
  let start ← gRead m node
  let stop ← gRead m (gAdd node A.indptrStride)
  let idx := gAdd indptr A.indicesOff
  let first := gAdd idx (u64 (start * A.indicesStride))
  let last := gAdd idx (u64 (stop * A.indicesStride))
  if A.indicesStride % 8 ≠ 0 then .throw .runtime      -- assert
  else pure (first, last, A.indicesStride / 8)

/-- One of the four edges of a grid node, written if `c`; the state is the memory, the edge counter and the pointer into
    the indices, `pe` the address of the row's end.  abi_sparse.cpp:307-312 (and 313-318, 319-324, 325-330). -/
def gridPut (F : GFull) (pe : Nat) (c : Bool) (v : Nat) (s : GMem × Nat × Nat) : Res (GMem × Nat × Nat) :=
  if c then do
    let m ← gWrite s.1 s.2.2 (u64 v)
    let e ← gRead m pe
    let m ← gWrite m pe (u64 (e + 1))
    pure (m, u64 (s.2.1 + 1), gAdd s.2.2 F.indicesStride)
  else pure s

/-- The body of the loops of `make_grid`.  abi_sparse.cpp:302-331. -/
def gridCell (F : GFull) (side i j : Nat) (s : GMem × Nat) : Res (GMem × Nat) := do
  let id := u64 (i * side + j)
  let ps := gAdd s.1.base (u64 (F.topoOff + F.indptrStride * id))
  let pe := gAdd s.1.base (u64 (F.topoOff + F.indptrStride * (id + 1)))
  let p := gAdd s.1.base (u64 (F.topoOff + F.indicesOff + s.2 * F.indicesStride))
  let v ← gRead s.1 ps
  let m ← gWrite s.1 pe v
  let t ← gridPut F pe (decide (i ≠ 0)) ((i - 1) * side + j) (m, s.2, p)
  let t ← gridPut F pe (decide (i + 1 < side)) ((i + 1) * side + j) t
  let t ← gridPut F pe (decide (j ≠ 0)) (i * side + (j - 1)) t
  let t ← gridPut F pe (decide (j + 1 < side)) (i * side + (j + 1)) t
  pure (t.1, t.2.1)

/-- `for (j = 0; j < n; j++)`. -/
def gFor {α : Type} (f : Nat → α → Res α) : Nat → α → Res α
  | 0, s => .ok s
  | n + 1, s => do let s ← gFor f n s; f n s

/-- The arrmeta `make_grid` writes.  abi_sparse.cpp:262-268, 280-293. -/
def gridFull (side : Nat) : GFull :=
  let nodes := u64 (side * side)
  let edges := u64 (side * (side - 1) * 4)
  let topo := u64 (nodes * 24)
  let idx := u64 ((nodes + 1) * 8)
  { numNodes := nodes, nodeStride := 24, rowEntries := 2, topoOff := topo, nodeEntries := 3, float1 := 8, float2 := 16,
    logical := nodes, indptrStride := 8, indicesOff := idx, indicesStride := 8, dataOff := u64 (idx + edges * 8),
    dataStride := 0, emptyEntries := 0 }

/-- The size of the buffer.  abi_sparse.cpp:262-269. -/
def gridSize (side : Nat) : Nat :=
  let nodes := u64 (side * side)
  let edges := u64 (side * (side - 1) * 4)
  u64 ((nodes + 1) * 8 + edges * 8 + nodes * 24)

/-- `make_grid(side)` in a buffer `malloc` gives at `base`; the first statement is an `assert`.
    abi_sparse.cpp:243-334. -/
def makeGrid (side base : Nat) : Res (GFull × GMem) :=
  if side = 0 then .throw .runtime
  else do
    let F := gridFull side
    let m : GMem := { base := base, lo := base, size := gridSize side, w := fun _ => 0 }
    let s ← gFor (fun i s => gFor (fun j s => gridCell F side i j s) side s) side (m, 0)
    pure (F, s.1)

/-- The first loop of `sssp`.  abi_sparse.cpp:345-347. -/
def ssspInit (A : GMeta) (m : GMem) : Res GMem :=
  gFor (fun id m => gWrite m (gNode A m.base id) 18446744073709551615) A.numNodes m

/-- An element of the queue, with its priority when it was put in. -/
structure QEntry where
  id : Nat
  key : Nat
  deriving DecidableEq, Repr

/-- The contract of the heap algorithms: every element must still have the priority it was inserted with. -/
def heapCheck (A : GMeta) (m : GMem) : List QEntry → Res Unit
  | [] => .ok ()
  | e :: q => do
    let v ← gRead m (gNode A m.base e.id)
    if v = e.key then heapCheck A m q else .ub

/-- `queue.push(id)`.  abi_sparse.cpp:351, 361. -/
def qPush (A : GMeta) (m : GMem) (q : List QEntry) (id : Nat) : Res (List QEntry) := do
  heapCheck A m q
  let k ← gRead m (gNode A m.base id)
  pure (⟨id, k⟩ :: q)

/-- `queue.top()` and `queue.pop()`: an element of smallest distance; `pick` decides between several.
    abi_sparse.cpp:349-350, 353-354. -/
def qPop (A : GMeta) (m : GMem) (pick : Nat) (q : List QEntry) : Res (QEntry × List QEntry) := do
  heapCheck A m q
  let c := q.filter fun e => q.all fun x => decide (e.key ≤ x.key)
  match c[pick % c.length]? with
  | none => .ub
  | some e => .ok (e, q.erase e)

/-- The inner loop: `begin`, `end`, the step and the new distance.  abi_sparse.cpp:357-364. -/
def ssspEdges (A : GMeta) : Nat → Nat → Nat → Nat → Nat → GMem × List QEntry → Res (GMem × List QEntry)
  | 0, _, _, _, _, _ => .ub
  | fuel + 1, p, last, step, nd, s =>
    if p < last then do
      let n ← gRead s.1 p
      let a := gNode A s.1.base n
      let v ← gRead s.1 a
      if v > nd then do
        let m ← gWrite s.1 a nd
        let n' ← gRead m p
        let q ← qPush A m s.2 n'
        ssspEdges A fuel (gAdd p (u64 (step * 8))) last step nd (m, q)
      else ssspEdges A fuel (gAdd p (u64 (step * 8))) last step nd s
    else .ok s

/-- The outer loop; `pick` resolves ties.  abi_sparse.cpp:352-365. -/
def ssspLoop (A : GMeta) (pick : Nat → Nat) : Nat → GMem × List QEntry → Res GMem
  | 0, _ => .ub
  | fuel + 1, (m, q) =>
    if q = [] then .ok m
    else do
      let (e, q) ← qPop A m (pick fuel) q
      let (p, last, step) ← gNeighbors A m e.id
      let d ← gRead m (gNode A m.base e.id)
      let s ← ssspEdges A (last - p + 1) p last step (u64 (d + 1)) (m, q)
      ssspLoop A pick fuel s

/-- `sssp(array, source)`.  abi_sparse.cpp:341-366. -/
def sssp (A : GMeta) (pick : Nat → Nat) (fuel : Nat) (m : GMem) (source : Nat) : Res GMem := do
  let m ← ssspInit A m
  let m ← gWrite m (gNode A m.base source) 0
  let q ← qPush A m [] source
  ssspLoop A pick fuel (m, q)

/-- `verify_grid_sssp`: `abort` is modelled as an exception.  abi_sparse.cpp:368-381. -/
def verifyGrid (A : GMeta) (m : GMem) (side : Nat) : Res Unit :=
  if u64 (side * side) ≠ A.numNodes then .throw .runtime
  else gFor (fun i _ => gFor (fun j _ => do
    let v ← gRead m (gNode A m.base (u64 (i * side + j)))
    if v ≠ u64 (i + j) then .throw .runtime else pure ()) side ()) side ()

/-- `main` with any side length.  abi_sparse.cpp:454-465. -/
def sparseMain (side base fuel : Nat) (pick : Nat → Nat) : Res Unit := do
  let (F, m) ← makeGrid side base
  let A := gSelect F
  let m ← sssp A pick fuel m 0
  verifyGrid A m side

end Dynd
