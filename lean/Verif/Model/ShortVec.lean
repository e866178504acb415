import Verif.Model.Basic
/-
Model of `shortvector` and `multi_shortvector` (/repo/include/dynd/shortvector.hpp), the vectors of dimensions and strides
(`dimvector`) that keep up to `staticN` elements inside the object and longer ones on the heap, without knowing their own
size.

Objects and heap arrays are numbered in order of creation and numbers are never reused, so that a use of freed memory or of
a destroyed object is visible.  Elements are `none` while indeterminate.  `T` is trivially copyable (`memcpy`).
-/
namespace Dynd

/-- A pointer to the first element of a storage: the `m_shortdata` of an object, or a heap array. -/
inductive SvPtr where
  | short (o : Nat)
  | heap (b : Nat)
  deriving DecidableEq, Repr

/-- The fields of `shortvector` (/repo/include/dynd/shortvector.hpp:26-27). -/
structure SvObj (T : Type) where
  data : SvPtr
  shortdata : List (Option T)
  deriving DecidableEq, Repr

/-- All objects and all heap arrays; `none` = destroyed / freed. -/
structure SvState (T : Type) where
  objs : List (Option (SvObj T))
  heap : List (Option (List (Option T)))
  deriving DecidableEq, Repr

section
variable {T : Type}

/-- The object. -/
def svObj (s : SvState T) (o : Nat) : Res (SvObj T) :=
  match s.objs[o]? with
  | some (some x) => .ok x
  | _ => .ub

/-- `m_data = p`. -/
def svSetData (s : SvState T) (o : Nat) (p : SvPtr) : Res (SvState T) := do
  let x ← svObj s o
  .ok { s with objs := s.objs.set o (some { x with data := p }) }

/-- `delete[] p`. -/
def svDelete (s : SvState T) : SvPtr → Res (SvState T)
  | .short _ => .ub
  | .heap b =>
    match s.heap[b]? with
    | some (some _) => .ok { s with heap := s.heap.set b none }
    | _ => .ub

/-- The elements stored at a pointer. -/
def svElems (s : SvState T) : SvPtr → Res (List (Option T))
  | .short o => do
    let x ← svObj s o
    .ok x.shortdata
  | .heap b =>
    match s.heap[b]? with
    | some (some l) => .ok l
    | _ => .ub

/-- Overwriting the storage at a pointer. -/
def svStore (s : SvState T) (p : SvPtr) (l : List (Option T)) : Res (SvState T) :=
  match p with
  | .short o => do
    let x ← svObj s o
    .ok { s with objs := s.objs.set o (some { x with shortdata := l }) }
  | .heap b =>
    match s.heap[b]? with
    | some (some _) => .ok { s with heap := s.heap.set b (some l) }
    | _ => .ub

/-- Writing `n` elements from outside to the start of a storage: `memcpy(p, data, n * sizeof(T))`. -/
def svPut (s : SvState T) (p : SvPtr) (l : List (Option T)) : Res (SvState T) := do
  let d ← svElems s p
  if l.length ≤ d.length then svStore s p (l ++ d.drop l.length) else .ub

/-- `memcpy(p, q, n * sizeof(T))` between storages; source and destination must not overlap (they both start at the
    beginning of a storage, so they overlap exactly if the pointers are equal, unless nothing is copied). -/
def svCopy (s : SvState T) (p q : SvPtr) (n : Nat) : Res (SvState T) := do
  let l ← svElems s q
  if n ≤ l.length ∧ (n = 0 ∨ p ≠ q) then svPut s p (l.take n) else .ub

/-- `new T[n]`. -/
def svNew (s : SvState T) (n : Nat) : SvState T × SvPtr :=
  ({ s with heap := s.heap ++ [some (List.replicate n none)] }, .heap s.heap.length)

/-- `if (m_data != m_shortdata) delete[] m_data;` (/repo/include/dynd/shortvector.hpp:40-42, 91-93, 108-110). -/
def svFree (s : SvState T) (o : Nat) : Res (SvState T) := do
  let x ← svObj s o
  if x.data ≠ .short o then svDelete s x.data else .ok s

/-- `(size <= staticN) ? m_shortdata : new T[size]` stored in `m_data` (/repo/include/dynd/shortvector.hpp:43-47, 57-71). -/
def svAlloc (N : Nat) (s : SvState T) (o n : Nat) : Res (SvState T) :=
  if n ≤ N then svSetData s o (.short o)
  else
    let (s, p) := svNew s n
    svSetData s o p

/-- `init(size)` (/repo/include/dynd/shortvector.hpp:39-48). -/
def svInit (N : Nat) (s : SvState T) (o n : Nat) : Res (SvState T) := do
  let s ← svFree s o
  svAlloc N s o n

/-- A new object with `m_data == m_shortdata` (/repo/include/dynd/shortvector.hpp:34-36). -/
def svFresh (N : Nat) (s : SvState T) : SvState T :=
  { s with objs := s.objs ++ [some ⟨.short s.objs.length, List.replicate N none⟩] }

/-- Taking over the contents of `src`: the common part of move construction and move assignment
    (/repo/include/dynd/shortvector.hpp:74-84 and 94-102). -/
def svTake (N : Nat) (s : SvState T) (o src : Nat) : Res (SvState T) := do
  let y ← svObj s src
  if y.data = .short src then do
    let s ← svCopy s (.short o) (.short src) N
    svSetData s o (.short o)
  else do
    let s ← svSetData s o y.data
    svSetData s src (.short src)

/-- `swap` (/repo/include/dynd/shortvector.hpp:113-136). -/
def svSwap (N : Nat) (s : SvState T) (o w : Nat) : Res (SvState T) := do
  let x ← svObj s o
  let y ← svObj s w
  let s ← svSetData s o y.data
  let s ← svSetData s w x.data
  let x ← svObj s o
  if x.data = .short w then do
    let s ← svSetData s o (.short o)
    let y ← svObj s w
    if y.data = .short o then do
      let s ← svSetData s w (.short w)
      let tmp ← svElems s (.short o)
      let s ← svCopy s (.short o) (.short w) N
      svPut s (.short w) tmp
    else svCopy s (.short o) (.short w) N
  else do
    let y ← svObj s w
    if y.data = .short o then do
      let s ← svSetData s w (.short w)
      svCopy s (.short w) (.short o) N
    else .ok s

/-- Operations on short vectors; objects are numbered in order of construction. -/
inductive SvOp (T : Type) where
  /-- `shortvector()` -/
  | default
  /-- `shortvector(size)` -/
  | create (n : Nat)
  /-- `shortvector(size, rhs)` -/
  | createFrom (n src : Nat)
  /-- `shortvector(size, data)` with data outside of short vectors -/
  | createData (l : List T)
  /-- move constructor -/
  | moveNew (src : Nat)
  /-- `init(size)` -/
  | init (o n : Nat)
  /-- `init(size, data)` with data outside of short vectors -/
  | initData (o : Nat) (l : List T)
  /-- `init(size, src.get())` -/
  | initFrom (o n src : Nat)
  /-- move assignment -/
  | moveAssign (o src : Nat)
  /-- `swap` -/
  | swap (o w : Nat)
  /-- `v[i] = x` -/
  | write (o i : Nat) (x : T)
  /-- destructor -/
  | destroy (o : Nat)
  deriving DecidableEq, Repr

/-- One operation. -/
def svStep (N : Nat) (s : SvState T) : SvOp T → Res (SvState T)
  | .default => .ok (svFresh N s)
  | .create n => svAlloc N (svFresh N s) s.objs.length n
  | .createFrom n src => do
    let s' ← svAlloc N (svFresh N s) s.objs.length n
    let x ← svObj s' s.objs.length
    let y ← svObj s' src
    svCopy s' x.data y.data n
  | .createData l => do
    let s' ← svAlloc N (svFresh N s) s.objs.length l.length
    let x ← svObj s' s.objs.length
    svPut s' x.data (l.map some)
  | .moveNew src => svTake N (svFresh N s) s.objs.length src
  | .init o n => svInit N s o n
  | .initData o l => do
    let s ← svInit N s o l.length
    let x ← svObj s o
    svPut s x.data (l.map some)
  | .initFrom o n src => do
    let y ← svObj s src
    let s ← svInit N s o n
    let x ← svObj s o
    svCopy s x.data y.data n
  | .moveAssign o src =>
    if o ≠ src then do
      let s ← svFree s o
      svTake N s o src
    else .ok s
  | .swap o w => svSwap N s o w
  | .write o i x => do
    let y ← svObj s o
    let l ← svElems s y.data
    if i < l.length then svStore s y.data (l.set i (some x)) else .ub
  | .destroy o => do
    let s ← svFree s o
    .ok { s with objs := s.objs.set o none }

/-- A history. -/
def svRun (N : Nat) : List (SvOp T) → SvState T → Res (SvState T)
  | [], s => .ok s
  | op :: ops, s => do
    let s' ← svStep N s op
    svRun N ops s'

/-- `v[i]` (/repo/include/dynd/shortvector.hpp:148-154): reading an indeterminate element is undefined. -/
def svGet (s : SvState T) (o i : Nat) : Res T := do
  let y ← svObj s o
  let l ← svElems s y.data
  match l[i]? with
  | some (some x) => .ok x
  | _ => .ub

/-! ### multi_shortvector -/

/-- The storage a `multi_shortvector` uses. -/
inductive MsvPtr where
  | static
  | heap (b : Nat)
  deriving DecidableEq, Repr

/-- A `multi_shortvector<T, M, staticN>` (/repo/include/dynd/shortvector.hpp:174-177), with the heap arrays it has ever
    allocated: `vecs` are `m_shortvectors` (storage and offset; `none` = not set), `static` is `m_static_data`, `alloc` is
    `m_alloc_data`. -/
structure MsvState (T : Type) where
  vecs : List (Option (MsvPtr × Nat))
  static : List (Option T)
  alloc : Option Nat
  heap : List (Option (List (Option T)))
  deriving DecidableEq, Repr

/-- The default constructor (/repo/include/dynd/shortvector.hpp:199-201). -/
def msvNew (M N : Nat) : MsvState T := ⟨List.replicate M none, List.replicate (N * M) none, none, []⟩

/-- `internal_init` (/repo/include/dynd/shortvector.hpp:179-195) for `n >= 0`. -/
def msvInternalInit (M N n : Nat) (s : MsvState T) : MsvState T :=
  if n ≤ N then
    let n := if n = 0 then 1 else n
    { s with vecs := (List.range M).map fun i => some (.static, i * n) }
  else
    { s with alloc := some s.heap.length, heap := s.heap ++ [some (List.replicate (n * M) none)],
             vecs := (List.range M).map fun i => some (.heap s.heap.length, i * n) }

/-- `delete[] m_alloc_data` (null is fine). -/
def msvFree (s : MsvState T) : Res (MsvState T) :=
  match s.alloc with
  | none => .ok s
  | some b =>
    match s.heap[b]? with
    | some (some _) => .ok { s with heap := s.heap.set b none }
    | _ => .ub

/-- `init` (/repo/include/dynd/shortvector.hpp:213-218): `m_alloc_data` keeps its value. -/
def msvInit (M N n : Nat) (s : MsvState T) : Res (MsvState T) := do
  let s ← msvFree s
  .ok (msvInternalInit M N n s)

/-- `get(i, j) = x` (/repo/include/dynd/shortvector.hpp:236-238). -/
def msvWrite (s : MsvState T) (i j : Nat) (x : T) : Res (MsvState T) :=
  match s.vecs[i]? with
  | some (some (.static, off)) =>
    if off + j < s.static.length then .ok { s with static := s.static.set (off + j) (some x) } else .ub
  | some (some (.heap b, off)) =>
    match s.heap[b]? with
    | some (some l) => if off + j < l.length then .ok { s with heap := s.heap.set b (some (l.set (off + j) (some x))) } else .ub
    | _ => .ub
  | _ => .ub

/-- `get(i, j)`. -/
def msvGet (s : MsvState T) (i j : Nat) : Res T :=
  match s.vecs[i]? with
  | some (some (.static, off)) =>
    match s.static[off + j]? with
    | some (some x) => .ok x
    | _ => .ub
  | some (some (.heap b, off)) =>
    match s.heap[b]? with
    | some (some l) =>
      match l[off + j]? with
      | some (some x) => .ok x
      | _ => .ub
    | _ => .ub
  | _ => .ub

/-- The destructor (/repo/include/dynd/shortvector.hpp:208-211). -/
def msvDestroy (s : MsvState T) : Res (List (Option (List (Option T)))) := do
  let s ← msvFree s
  .ok s.heap

end
end Dynd
