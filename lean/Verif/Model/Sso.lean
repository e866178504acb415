import Verif.Model.Basic
/-
Byte strings with small-string optimisation (`nd::bytes` with `pad = 0`, `nd::string` with `pad = 1`).
The in-object representation is the 16 raw bytes of the object (little endian, so the last byte is the top byte of
`m_size`); the heap representation is the capacity word, the size and the data bytes of the buffer.  Bytes obtained from
`new char[]` are indeterminate: they come from an arbitrary `junk`.  Allocation failure is not modelled.
-/
namespace Dynd

/-- `sso_bytestring`: /repo/include/dynd/types/sso_bytestring.hpp:21-67.  `heap` is the case `m_size < 0`. -/
inductive SBytes
  | inl (raw : List Nat)
  | heap (cap size : Nat) (buf : List Nat)
  deriving Repr, DecidableEq

namespace SBytes

/-- `sso_capacity`: sso_bytestring.hpp:35. -/
def ssoCap (pad : Nat) : Nat := 15 - pad

/-- `size`: sso_bytestring.hpp:29-30, 45, 103. -/
def size : SBytes → Nat
  | inl raw => raw.getD 15 0
  | heap _ size _ => size

/-- `capacity`: sso_bytestring.hpp:52-53, 106. -/
def capacity (pad : Nat) : SBytes → Nat
  | inl _ => ssoCap pad
  | heap cap _ _ => cap

/-- The bytes at `data()`: sso_bytestring.hpp:108-109. -/
def mem : SBytes → List Nat
  | inl raw => raw
  | heap _ _ buf => buf

/-- The bytes `[begin(), end())`: sso_bytestring.hpp:204-207. -/
def contents (s : SBytes) : List Nat := s.mem.take s.size

/-- Default constructor: sso_bytestring.hpp:72. -/
def empty : SBytes := inl (List.replicate 16 0)

/-- `sso_assign`: sso_bytestring.hpp:37-42 (size, data, zero fill of the rest of the first 15 bytes). -/
def ssoAssign (data : List Nat) : SBytes := inl (data ++ List.replicate (15 - data.length) 0 ++ [data.length])

/-- `heap_assign`: sso_bytestring.hpp:58-67. -/
def heapAssign (pad : Nat) (data : List Nat) : SBytes :=
  heap data.length data.length (data ++ (if pad ≠ 0 then [0] else []))

/-- Constructors from bytes and copy constructor: sso_bytestring.hpp:74-80, 89-95. -/
def ofBytes (pad : Nat) (data : List Nat) : SBytes :=
  if data.length ≤ ssoCap pad then ssoAssign data else heapAssign pad data

/-- `memcpy` into a buffer; past its end is undefined. -/
def poke (buf : List Nat) (k : Nat) (data : List Nat) : Res (List Nat) :=
  if k + data.length ≤ buf.length then .ok (buf.take k ++ data ++ buf.drop (k + data.length)) else .ub

/-- `memcpy` out of a buffer; past its end is undefined. -/
def peek (buf : List Nat) (n : Nat) : Res (List Nat) :=
  if n ≤ buf.length then .ok (buf.take n) else .ub

/-- Writing the NUL terminator `if (NulPadding) heapdata[size] = 0`: sso_bytestring.hpp:122-124, 195-197. -/
def terminate (pad : Nat) (buf : List Nat) (n : Nat) : Res (List Nat) := if pad ≠ 0 then poke buf n [0] else .ok buf

/-- `assign`: sso_bytestring.hpp:112-133 (source not inside the object). -/
def assign (pad : Nat) (s : SBytes) (data : List Nat) : Res SBytes :=
  match s with
  | inl _ => if data.length ≤ ssoCap pad then .ok (ssoAssign data) else .ok (heapAssign pad data)
  | heap cap _ buf =>
    if data.length ≤ cap then do
      let b ← poke buf 0 data
      let b ← terminate pad b data.length
      pure (heap cap data.length b)
    else .ok (heapAssign pad data)

/-- `reserve`: sso_bytestring.hpp:168-181. -/
def reserve (pad : Nat) (junk : Nat → Nat) (s : SBytes) (n : Nat) : Res SBytes :=
  if s.capacity pad < n then do
    let fresh := (List.range (n + pad)).map junk
    let d ← peek s.mem (s.size + pad)
    let b ← poke fresh 0 d
    pure (heap n s.size b)
  else .ok s

/-- `reserve_grow`: sso_bytestring.hpp:184. -/
def reserveGrow (pad : Nat) (junk : Nat → Nat) (s : SBytes) (n : Nat) : Res SBytes :=
  reserve pad junk s (max n (s.capacity pad * 3 / 2))

/-- `resize`: sso_bytestring.hpp:187-200.  In the in-object case the new size is OR-ed into the old one. -/
def resize (pad : Nat) (junk : Nat → Nat) (s : SBytes) (n : Nat) : Res SBytes := do
  match ← reserve pad junk s n with
  | inl raw => do
    let raw ← poke raw 15 [raw.getD 15 0 ||| n]
    let raw ← poke raw n (List.replicate (15 - n) 0)
    pure (inl raw)
  | heap cap _ buf => do
    let b ← terminate pad buf n
    pure (heap cap n b)

/-- `resize_grow`: sso_bytestring.hpp:203-208. -/
def resizeGrow (pad : Nat) (junk : Nat → Nat) (s : SBytes) (n : Nat) : Res SBytes := do
  let s ← reserveGrow pad junk s n
  resize pad junk s n

/-- Writing through `data()`. -/
def pokeData (s : SBytes) (k : Nat) (data : List Nat) : Res SBytes :=
  match s with
  | inl raw => do let r ← poke raw k data; pure (inl r)
  | heap cap size buf => do let b ← poke buf k data; pure (heap cap size b)

/-- `append`: sso_bytestring.hpp:152-156 (source not inside the object). -/
def append (pad : Nat) (junk : Nat → Nat) (s : SBytes) (data : List Nat) : Res SBytes := do
  let old := s.size
  let s ← resizeGrow pad junk s (old + data.length)
  s.pokeData old data

/-- `memcmp(a, b, n) == 0`. -/
def cmpEq (a b : List Nat) (n : Nat) : Res Bool := do
  let x ← peek a n
  let y ← peek b n
  pure (decide (x = y))

/-- `operator==`: sso_bytestring.hpp:219-222. -/
def eq (s t : SBytes) : Res Bool :=
  if s.size = t.size then cmpEq s.mem t.mem s.size else .ok false

end SBytes

/-- The operations of the string classes on a set of string objects named by numbers. -/
inductive SOp
  | construct (i : Nat) (data : List Nat)
  | assign (i : Nat) (data : List Nat)
  | copy (i j : Nat)
  | move (i j : Nat)
  | clear (i : Nat)
  | reserve (i n : Nat)
  | resize (i n : Nat)
  | append (i : Nat) (data : List Nat)
  | appendFrom (i j : Nat)
  | plus (k i j : Nat)

/-- Replace one object. -/
def setObj {α : Type} (m : Nat → α) (i : Nat) (x : α) : Nat → α := fun k => if k = i then x else m k

/-- One operation.  Destroying and re-constructing an object: sso_bytestring.hpp:89-101; `operator=` (copy): 135-138; (move): 140-150, where
    the source is cleared; `clear`: 158-164; `operator+=`: /repo/include/dynd/bytes.hpp:63-66 (string.hpp alike), where appending an
    object to itself reads its buffer after it was released or overwritten; `operator+`: bytes.hpp:55-61.
    Copy-assigning an object to itself copies a buffer onto itself (`memcpy` with equal pointers), taken as a no-op. -/
def SOp.run (pad : Nat) (junk : Nat → Nat) (m : Nat → SBytes) : SOp → Res (Nat → SBytes)
  | .construct i data => .ok (setObj m i (SBytes.ofBytes pad data))
  | .assign i data => do let s ← (m i).assign pad data; pure (setObj m i s)
  | .copy i j => if i = j then .ok m else do let s ← (m i).assign pad (m j).contents; pure (setObj m i s)
  | .move i j => .ok (setObj (setObj m i (m j)) j SBytes.empty)
  | .clear i => .ok (setObj m i SBytes.empty)
  | .reserve i n => do let s ← (m i).reserve pad junk n; pure (setObj m i s)
  | .resize i n => do let s ← (m i).resize pad junk n; pure (setObj m i s)
  | .append i data => do let s ← (m i).append pad junk data; pure (setObj m i s)
  | .appendFrom i j => if i = j then .ub else do let s ← (m i).append pad junk (m j).contents; pure (setObj m i s)
  | .plus k i j => do
    let r ← SBytes.resize pad junk SBytes.empty ((m i).size + (m j).size)
    let r ← r.pokeData 0 (m i).contents
    let r ← r.pokeData (m i).size (m j).contents
    pure (setObj m k r)

/-- A history of operations. -/
def runOps (pad : Nat) (junk : Nat → Nat) (m : Nat → SBytes) : List SOp → Res (Nat → SBytes)
  | [] => .ok m
  | o :: os => do let m ← o.run pad junk m; runOps pad junk m os

end Dynd
