import Verif.Model.Basic
import Verif.Model.Struct
/-
Memory blocks handing out memory for variable-sized data.
-/
namespace Dynd

/-- A byte of memory; `none` is an indeterminate value (fresh `malloc` memory). -/
abbrev MByte := Option UInt8

/-- State of `pod_memory_block` / `zeroinit_memory_block` together with the memory.
    /repo/include/dynd/memblock/pod_memory_block.hpp:17-25, zeroinit_memory_block.hpp:23-31.
    `handles` are the `malloc`ed pieces (address, size) recorded in `m_memory_handles`; pointers are machine
    addresses (0 = NULL); `mem` is the content of every address. -/
structure MBlock where
  dsize : Nat
  align : Nat
  total : Int
  handles : List (Nat × Nat)
  beginp : Nat
  curp : Nat
  endp : Nat
  mem : Nat → MByte

/-- The `n` bytes at `p` lie inside one of the pieces. -/
def inRegion (hs : List (Nat × Nat)) (p n : Nat) : Bool :=
  hs.any fun r => decide (r.1 ≤ p ∧ p + n ≤ r.1 + r.2)

/-- `memset(p, 0, n)`; writing outside the pieces is undefined behaviour (a negative `n` is a huge `size_t`). -/
def memZero (s : MBlock) (p : Nat) (n : Int) : Res MBlock :=
  if n < 0 then .ub
  else if inRegion s.handles p n.toNat then
    .ok { s with mem := fun q => if p ≤ q ∧ q < p + n.toNat then some 0 else s.mem q }
  else .ub

/-- `memcpy(dst, src, n)`; accesses outside the pieces and overlapping ranges are undefined behaviour. -/
def memCopy (s : MBlock) (dst src : Nat) (n : Int) : Res MBlock :=
  if n < 0 then .ub
  else if inRegion s.handles dst n.toNat && inRegion s.handles src n.toNat
      && decide (n = 0 ∨ dst + n.toNat ≤ src ∨ src + n.toNat ≤ dst) then
    .ok { s with mem := fun q => if dst ≤ q ∧ q < dst + n.toNat then s.mem (src + (q - dst)) else s.mem q }
  else .ub

/-- `intptr_t size_bytes = count * data_size` (wrapping `size_t` product converted to signed):
    pod_memory_block.hpp:61. -/
def sizeBytes (dsize count : Nat) : Int :=
  if count * dsize % 2 ^ 64 < 2 ^ 63 then ((count * dsize % 2 ^ 64 : Nat) : Int)
  else ((count * dsize % 2 ^ 64 : Nat) : Int) - 2 ^ 64

/-- Pointer addition on machine addresses. -/
def ptrAdd (p : Nat) (n : Int) : Nat := (((p : Int) + n) % 2 ^ 64).toNat

/-- `append_memory(capacity_bytes)`: pod_memory_block.hpp:46-58, zeroinit_memory_block.hpp:50-62.  `mal n` is the
    outcome of `malloc(n)`.  On failure `m_memory_begin` has already been overwritten with NULL. -/
def appendMemory (mal : Nat → Option Nat) (s : MBlock) (cap : Int) : MBlock × Res Unit :=
  match mal (cap % 2 ^ 64).toNat with
  | none => ({ s with beginp := 0 }, .throw .badAlloc)
  | some a =>
    ({ s with handles := s.handles ++ [(a, (cap % 2 ^ 64).toNat)], beginp := a, curp := a,
              endp := a + (cap % 2 ^ 64).toNat, total := s.total + cap,
              mem := fun q => if a ≤ q ∧ q < a + (cap % 2 ^ 64).toNat then none else s.mem q }, .ok ())

/-- Constructor: pod_memory_block.hpp:27-33, zeroinit_memory_block.hpp:34-38. -/
def mbInit (mal : Nat → Option Nat) (dsize align : Nat) (cap : Int) : MBlock × Res Unit :=
  appendMemory mal ⟨dsize, align, 0, [], 0, 0, 0, fun _ => none⟩ cap

/-- End of `alloc`: set the current pointer and, in the zero-initialising block, clear the memory.
    pod_memory_block.hpp:77-81, zeroinit_memory_block.hpp:80-87. -/
def mbFinish (zero : Bool) (s : MBlock) (b e : Nat) : MBlock × Res Nat :=
  if zero then
    match memZero { s with curp := e } b ((e : Int) - b) with
    | .ok s' => (s', .ok b)
    | .throw x => ({ s with curp := e }, .throw x)
    | .ub => ({ s with curp := e }, .ub)
  else ({ s with curp := e }, .ok b)

/-- `alloc(count)`: pod_memory_block.hpp:60-83 (`zero = false`), zeroinit_memory_block.hpp:64-89 (`zero = true`). -/
def mbAlloc (zero : Bool) (mal : Nat → Option Nat) (s : MBlock) (count : Nat) : MBlock × Res Nat :=
  let sz := sizeBytes s.dsize count
  let b := incToAlignment s.curp s.align
  let e := ptrAdd b sz
  if e > s.endp then
    let s1 := { s with total := s.total - ((s.endp : Int) - s.curp) }
    match appendMemory mal s1 (max s1.total sz) with
    | (s2, .ok ()) => mbFinish zero s2 s2.beginp (ptrAdd s2.beginp sz)
    | (s2, .throw x) => (s2, .throw x)
    | (s2, .ub) => (s2, .ub)
  else mbFinish zero s b e

/-- `pod_memory_block::resize(inout_begin, count)`: pod_memory_block.hpp:85-116.  `inout_end` aliases
    `m_memory_current`, so the number of bytes to copy is computed from the value `append_memory` has just
    stored there. -/
def podResize (mal : Nat → Option Nat) (s : MBlock) (p : Nat) (count : Nat) : MBlock × Res Nat :=
  let sz := sizeBytes s.dsize count
  let e := ptrAdd p sz
  if e ≤ s.endp then ({ s with curp := e }, .ok p)
  else
    match appendMemory mal s (max s.total sz) with
    | (s1, .ok ()) =>
      match memCopy s1 s1.beginp p ((s1.curp : Int) - p) with
      | .ok s2 => ({ s2 with curp := ptrAdd s2.beginp sz, total := s2.total - ((s.curp : Int) - p) }, .ok s2.beginp)
      | .throw x => (s1, .throw x)
      | .ub => (s1, .ub)
    | (s1, .throw x) => (s1, .throw x)
    | (s1, .ub) => (s1, .ub)

/-- `zeroinit_memory_block::resize(inout_begin, count)`: zeroinit_memory_block.hpp:91-128.  When it fits,
    `m_memory_current` (aliased by `*inout_end`) is overwritten before the test that decides how much to clear. -/
def zeroResize (mal : Nat → Option Nat) (s : MBlock) (p : Nat) (count : Nat) : MBlock × Res Nat :=
  let sz := sizeBytes s.dsize count
  let e := ptrAdd p sz
  if e ≤ s.endp then
    let s1 := { s with curp := e }
    if e > s1.curp then
      match memZero s1 s1.curp ((e : Int) - s1.curp) with
      | .ok s2 => ({ s2 with curp := e }, .ok p)
      | .throw x => (s1, .throw x)
      | .ub => (s1, .ub)
    else (s1, .ok p)
  else
    let oldSize : Int := (s.curp : Int) - p
    match appendMemory mal s (max s.total sz) with
    | (s1, .ok ()) =>
      match memCopy s1 s1.beginp p oldSize with
      | .ok s2 =>
        match memZero { s2 with curp := ptrAdd s2.beginp sz } (ptrAdd s2.beginp oldSize) (sz - oldSize) with
        | .ok s3 => ({ s3 with total := s3.total - oldSize }, .ok s3.beginp)
        | .throw x => (s2, .throw x)
        | .ub => (s2, .ub)
      | .throw x => (s1, .throw x)
      | .ub => (s1, .ub)
    | (s1, .throw x) => (s1, .throw x)
    | (s1, .ub) => (s1, .ub)

/-- `finalize()`: pod_memory_block.hpp:118-126, zeroinit_memory_block.hpp:130-137. -/
def mbFinalize (s : MBlock) : MBlock :=
  { s with total := if s.curp < s.endp then s.total - ((s.endp : Int) - s.curp) else s.total,
           beginp := 0, curp := 0, endp := 0 }

/-- `reset()`: pod_memory_block.hpp:128-143, zeroinit_memory_block.hpp:139-153: all pieces but the last are
    freed. -/
def mbReset (s : MBlock) : MBlock :=
  { s with handles := s.handles.drop (s.handles.length - 1), curp := s.beginp,
           total := (s.endp : Int) - s.beginp }

/-! ## Blocks of objects -/

/-- `memory_chunk`: /repo/include/dynd/memblock/objectarray_memory_block.hpp:17-20. -/
structure OChunk where
  addr : Nat
  used : Nat
  cap : Nat
  deriving DecidableEq, Repr

/-- State of `objectarray_memory_block` with the memory: objectarray_memory_block.hpp:34-43.  `vcap` is the
    capacity of the `std::vector` of chunks (pushing beyond it moves the vector and invalidates pointers into
    it).  Destructor calls on elements are not modelled. -/
structure OBlock where
  stride : Nat
  total : Nat
  chunks : List OChunk
  vcap : Nat
  mem : Nat → MByte

/-- The owned pieces. -/
def OBlock.regions (s : OBlock) : List (Nat × Nat) := s.chunks.map fun c => (c.addr, s.stride * c.cap)

/-- `memset(p, 0, n)` in an object block. -/
def OBlock.zero (s : OBlock) (p n : Nat) : Res OBlock :=
  if inRegion s.regions p n then
    .ok { s with mem := fun q => if p ≤ q ∧ q < p + n then some 0 else s.mem q }
  else .ub

/-- `append_memory(count)`: objectarray_memory_block.hpp:71-84. -/
def OBlock.append (mal : Nat → Option Nat) (s : OBlock) (count : Nat) : Res OBlock :=
  match mal (s.stride * count) with
  | none => .throw .badAlloc
  | some a =>
    .ok { s with chunks := s.chunks ++ [⟨a, 0, count⟩], total := s.total + count,
                 vcap := if s.chunks.length < s.vcap then s.vcap else 2 * s.vcap,
                 mem := fun q => if a ≤ q ∧ q < a + s.stride * count then none else s.mem q }

/-- Apply `f` to the last chunk. -/
def modLast (f : OChunk → OChunk) : List OChunk → List OChunk
  | [] => []
  | [c] => [f c]
  | c :: cs => c :: modLast f cs

/-- `alloc(count)`: objectarray_memory_block.hpp:86-108, for types whose data is zero-initialised. -/
def OBlock.alloc (mal : Nat → Option Nat) (s : OBlock) (count : Nat) : Res (OBlock × Nat) := do
  let mc ← match s.chunks.getLast? with | some c => .ok c | none => .ub
  let s ← if mc.cap - mc.used < count then s.append mal (max s.total count) else .ok s
  let mc ← match s.chunks.getLast? with | some c => .ok c | none => .ub
  let result := mc.addr + s.stride * mc.used
  let s ← ({ s with chunks := modLast (fun c => { c with used := c.used + count }) s.chunks }).zero result
    (s.stride * count)
  pure (s, result)

/-- The part of `resize` that moves the allocation to a new chunk: objectarray_memory_block.hpp:116-135.  The
    pointer `mc` into the vector dangles if `push_back` moved the vector.  Only `previous_count` bytes are
    copied. -/
def OBlock.move (mal : Nat → Option Nat) (s : OBlock) (mc : OChunk) (prev prevCount count : Nat) : Res (OBlock × Nat) := do
  let s1 ← s.append mal (max s.total count)
  let nc ← match s1.chunks.getLast? with | some c => .ok c | none => .ub
  if prevCount > 0 then
    if s.chunks.length < s.vcap then
      if inRegion s1.regions nc.addr prevCount && inRegion s1.regions prev prevCount then
        let mem' := fun q => if nc.addr ≤ q ∧ q < nc.addr + prevCount then s1.mem (prev + (q - nc.addr)) else s1.mem q
        let old := modLast (fun c => { c with used := c.used - prevCount }) s.chunks
        let old' := if prev = mc.addr then old.dropLast else old
        pure ({ s1 with mem := mem', chunks := old' ++ [{ nc with used := count }] }, nc.addr)
      else .ub
    else .ub
  else pure ({ s1 with chunks := s.chunks ++ [{ nc with used := count }] }, nc.addr)

/-- `resize(previous_allocated, count)`: objectarray_memory_block.hpp:110-162.  The clearing of the new part
    (lines 146-151) starts at `mc->memory + m_stride * previous_count`. -/
def OBlock.resize (mal : Nat → Option Nat) (s : OBlock) (prev count : Nat) : Res (OBlock × Nat) := do
  let mc ← match s.chunks.getLast? with | some c => .ok c | none => .ub
  if s.stride = 0 then .ub
  else do
    let prevIndex := (prev - mc.addr) / s.stride
    let prevCount := mc.used - prevIndex
    let (s, result) ←
      if mc.cap - prevIndex < count then s.move mal mc prev prevCount count
      else pure ({ s with chunks := modLast (fun c => { c with used := c.used + count - prevCount }) s.chunks }, prev)
    let mc ← match s.chunks.getLast? with | some c => .ok c | none => .ub
    let s ← if prevCount < count then s.zero (mc.addr + s.stride * prevCount) (s.stride * (count - prevCount)) else .ok s
    pure (s, result)

/-- Constructor with an initial chunk of `count` elements: objectarray_memory_block.hpp:46-59. -/
def OBlock.init (mal : Nat → Option Nat) (stride count : Nat) : Res OBlock :=
  OBlock.append mal ⟨stride, 0, [], 1, fun _ => none⟩ count

end Dynd
