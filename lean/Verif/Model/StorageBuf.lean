import Verif.Model.Basic
import Verif.Model.MemBlock
/-
The growing buffer behind `kernel_builder` and `call_graph`.
-/
namespace Dynd

/-- State of a `storagebuf`: /repo/include/dynd/storagebuf.hpp:18-27.  `data` is the content of the memory `m_data`
    points to (`none` = NULL pointer; a byte is `none` when indeterminate), `static` says that this memory is
    `m_static_data`. -/
structure SBuf where
  data : Option (List MByte)
  cap : Nat
  size : Nat
  static : Bool
  deriving DecidableEq

/-- Storing bytes at an offset of a piece of memory; out of bounds is undefined behaviour. -/
def poke (l : List MByte) (off : Nat) (bs : List MByte) : Res (List MByte) :=
  if off + bs.length ≤ l.length then .ok (l.take off ++ bs ++ l.drop (off + bs.length)) else .ub

/-- `storagebuf()`: storagebuf.hpp:32-34 (`set` is `memset`, storagebuf.hpp:97). -/
def SBuf.init : SBuf := { data := some (List.replicate 128 (some 0)), cap := 128, size := 0, static := true }

/-- `aligned_size(size)`: storagebuf.hpp:114-116. -/
def alignedSize (size : Nat) : Nat := ((size + 7) % 2 ^ 64) &&& (2 ^ 64 - 8)

/-- `realloc(m_data, old, new)` when the allocator succeeds: storagebuf.hpp:75-87.  From the static buffer the old
    bytes are copied by hand; `std::realloc` keeps the common prefix, and behaves as `malloc` on a NULL pointer. -/
def SBuf.realloc (s : SBuf) (old new : Nat) : Res (List MByte) :=
  match s.data with
  | none => .ok (List.replicate new none)
  | some l =>
    if s.static then
      (if old ≤ l.length then poke (List.replicate new none) 0 (l.take old) else .ub)
    else .ok (l.take new ++ List.replicate (new - l.length) none)

/-- `reserve(requested_capacity)`: storagebuf.hpp:52-71.  `okA` is the outcome of the allocation.  The call of
    `destroy()` on failure (which runs kernel destructors) has no effect on the fields and is not modelled. -/
def SBuf.reserve (s : SBuf) (okA : Bool) (req : Nat) : SBuf × Res Unit :=
  if s.cap < req then
    match i64 (s.cap * 3) with
    | .ok c3 =>
      let grown := c3.toNat / 2
      let req := if req < grown then grown else req
      if okA then
        match s.realloc s.cap req with
        | .ok l =>
          match poke l s.cap (List.replicate (req - s.cap) (some 0)) with
          | .ok l' => ({ s with data := some l', cap := req, static := false }, .ok ())
          | .throw e => (s, .throw e)
          | .ub => (s, .ub)
        | .throw e => (s, .throw e)
        | .ub => (s, .ub)
      else ({ s with data := none, static := false }, .throw .badAlloc)
    | .throw e => (s, .throw e)
    | .ub => (s, .ub)
  else (s, .ok ())

/-- The allocating part of `emplace_back<KernelType>` and `emplace_back(size_t)`: the offset of the new slot.
    storagebuf.hpp:126-128, 145-146.  `m_size` is advanced before the allocation. -/
def SBuf.emplace (s : SBuf) (okA : Bool) (total : Nat) : SBuf × Res Nat :=
  let off := s.size
  let s1 := { s with size := s.size + total }
  match s1.reserve okA s1.size with
  | (s2, .ok _) => (s2, .ok off)
  | (s2, .throw e) => (s2, .throw e)
  | (s2, .ub) => (s2, .ub)

/-- Writing through `get_at(offset)`: storagebuf.hpp:105-109; a NULL buffer is undefined behaviour. -/
def SBuf.write (s : SBuf) (off : Nat) (bs : List MByte) : Res SBuf :=
  match s.data with
  | none => .ub
  | some l => do
    let l' ← poke l off bs
    pure { s with data := some l' }

/-- `emplace_back<KernelType>(args...)` where `sizeof(KernelType) = sz` and the constructor stores `bs` at the start
    of the slot: storagebuf.hpp:121-131. -/
def SBuf.push (s : SBuf) (okA : Bool) (sz : Nat) (bs : List MByte) : SBuf × Res Nat :=
  match s.emplace okA (alignedSize sz) with
  | (s1, .ok off) =>
    match s1.write off bs with
    | .ok s2 => (s2, .ok off)
    | .throw e => (s1, .throw e)
    | .ub => (s1, .ub)
  | r => r

/-- Operations during kernel construction. -/
inductive KOp where
  /-- append a kernel of `sz` bytes whose constructor stores `bs` -/
  | push (sz : Nat) (bs : List MByte)
  /-- store `bs` at position `pos` of the `i`-th kernel built so far (`kb.get_at<K>(offset)->field = ...`) -/
  | write (i pos : Nat) (bs : List MByte)

/-- Running the operations, all allocations succeeding; the offsets of the kernels are remembered by the client.
    /repo/include/dynd/kernels/kernel_builder.hpp:35-43. -/
def runK : SBuf → List Nat → List KOp → Res (SBuf × List Nat)
  | s, offs, [] => .ok (s, offs)
  | s, offs, .push sz bs :: ops =>
    match s.push true sz bs with
    | (s', .ok off) => runK s' (offs ++ [off]) ops
    | (_, .throw e) => .throw e
    | (_, .ub) => .ub
  | s, offs, .write i pos bs :: ops =>
    match offs[i]? with
    | some off => do
      let s' ← s.write (off + pos) bs
      runK s' offs ops
    | none => .ub

/-! ## call_graph -/

/-- Little-endian bytes of a `size_t` field. -/
def sizeBytesLE : Nat → Nat → List MByte
  | 0, _ => []
  | n + 1, v => some (UInt8.ofNat (v % 256)) :: sizeBytesLE n (v / 256)

/-- Reading such a field; indeterminate bytes are undefined behaviour. -/
def readLE : List MByte → Res Nat
  | [] => .ok 0
  | none :: _ => .ub
  | some b :: rest => do
    let r ← readLE rest
    pure (b.toNat + 256 * r)

/-- The bytes `call_node::init<ClosureType>` stores in a fresh slot: two function pointers (16 bytes, arbitrary),
    `data_size`, and the closure.  /repo/include/dynd/callables/call.hpp:23-48. -/
def nodeBytes (fns : List MByte) (closureSize : Nat) (closure : List MByte) : List MByte :=
  fns ++ sizeBytesLE 8 (alignedSize 24 + alignedSize closureSize) ++ closure

/-- `call_graph::emplace_back(closure)`: storagebuf.hpp:133-143, /repo/include/dynd/callables/call_graph.hpp:27-36. -/
def SBuf.pushNode (s : SBuf) (okA : Bool) (fns : List MByte) (closureSize : Nat) (closure : List MByte) :
    SBuf × Res Nat :=
  match s.emplace okA (alignedSize 24 + alignedSize closureSize) with
  | (s1, .ok off) =>
    match s1.write off (nodeBytes fns closureSize closure) with
    | .ok s2 => (s2, .ok off)
    | .throw e => (s1, .throw e)
    | .ub => (s1, .ub)
  | r => r

/-- `node->data_size` of the node at an offset: the third 8-byte field. -/
def SBuf.dataSizeAt (s : SBuf) (off : Nat) : Res Nat :=
  match s.data with
  | none => .ub
  | some l => if off + 24 ≤ l.length then readLE ((l.drop (off + 16)).take 8) else .ub

/-- `~call_graph()`: the offsets of the nodes destroyed.  /repo/include/dynd/callables/call_graph.hpp:18-25.
    `fuel` bounds the iterations (exhausted: the loop does not end). -/
def SBuf.walk (s : SBuf) : Nat → Nat → Res (List Nat)
  | 0, _ => .ub
  | fuel + 1, off =>
    if off ≠ s.size then do
      let d ← s.dataSizeAt off
      let rest ← s.walk fuel (off + d)
      pure (off :: rest)
    else .ok []

/-- Advancing `m_call` of a kernel builder `k` times from the first node: kernel_builder.hpp:38-39, 45. -/
def SBuf.advance (s : SBuf) : Nat → Nat → Res Nat
  | 0, off => .ok off
  | k + 1, off => do
    let d ← s.dataSizeAt off
    s.advance k (off + d)

/-- A closure to append: size, the bytes of its function pointers, its content. -/
structure CNode where
  fns : List MByte
  size : Nat
  bytes : List MByte

/-- Building a call graph, all allocations succeeding. -/
def buildGraph : SBuf → List CNode → Res (SBuf × List Nat)
  | s, [] => .ok (s, [])
  | s, n :: ns =>
    match s.pushNode true n.fns n.size n.bytes with
    | (s', .ok off) => do
      let (s'', offs) ← buildGraph s' ns
      pure (s'', off :: offs)
    | (_, .throw e) => .throw e
    | (_, .ub) => .ub

end Dynd
