import Verif.Model.Basic
/-
Construction of an array from nested C++ containers (initializer lists, `std::vector`): the type chosen and the
kernels that copy the values into the new buffer.
-/
namespace Dynd

/-- A nested container: the elements of the innermost containers are leaves. -/
inductive VTree (α : Type) where
  | leaf (a : α)
  | node (l : List (VTree α))

/-- One dimension of the shape: a size, or `none` for `-1`. -/
abbrev CDims := List (Option Nat)

/-- Comparing two shapes entry by entry: entries that differ become `-1`.
    /repo/include/dynd/type.hpp:1022-1026. -/
def joinDims : CDims → CDims → CDims
  | a :: as, b :: bs => (if a = b then a else none) :: joinDims as bs
  | _, _ => []

/-- `container_traits<…, NDim>::shape`; the first argument is the number of dimensions.  An empty container with more
    than one dimension is dereferenced.  /repo/include/dynd/type.hpp:1011-1029, 1046. -/
def treeShape {α : Type} : Nat → VTree α → Res CDims
  | 0, _ => .ub
  | _ + 1, .leaf _ => .ub
  | 1, .node l => .ok [some l.length]
  | _ + 2, .node [] => .ub
  | k + 2, .node (c :: cs) => do
    let first ← treeShape (k + 1) c
    let rest ← cs.foldlM (fun acc c' => do
      let next ← treeShape (k + 1) c'
      pure (joinDims acc next)) first
    pure (some (cs.length + 1) :: rest)

/-- Size of an element with the remaining dimensions `dims`, the innermost elements taking `es` bytes; a var
    dimension's data is a pointer and a size.  Default arrmeta: the stride of a fixed dimension is the size of its
    elements.  /repo/src/dynd/types/fixed_dim_type.cpp:239-250, include/dynd/types/var_dim_type.hpp. -/
def elemSize (es : Nat) : CDims → Nat
  | [] => es
  | some n :: rest => n * elemSize es rest
  | none :: _ => 16

/-- What a place in memory holds: an element, or the data of a var dimension (block and number of elements). -/
inductive ICell (α : Type) where
  | val (a : α)
  | var (block size : Nat)

/-- Memory: blocks with their sizes in bytes, and what is stored at (block, offset). -/
structure IMem (α : Type) where
  sizes : List Nat
  cells : Nat → Nat → Option (ICell α)

/-- A write of `w` bytes. -/
def IMem.write {α : Type} (m : IMem α) (b off w : Nat) (c : ICell α) : Res (IMem α) :=
  match m.sizes[b]? with
  | some n => if off + w ≤ n then
      .ok { m with cells := fun b' o' => if b' = b ∧ o' = off then some c else m.cells b' o' }
    else .ub
  | none => .ub

/-- A new block. -/
def IMem.alloc {α : Type} (m : IMem α) (n : Nat) : IMem α := { m with sizes := m.sizes ++ [n] }

/-- `contiguous`: `n` values one after the other, the address advancing by `adv`.
    /repo/include/dynd/kernels/init_kernel.hpp:44-49, 156-161, 203-208. -/
def initSeq {α : Type} (one : Nat → VTree α → IMem α → Res (IMem α)) (adv : VTree α → Nat) :
    Nat → Nat → List (VTree α) → IMem α → Res (IMem α)
  | 0, _, _, m => .ok m
  | _ + 1, _, [], _ => .ub
  | n + 1, off, v :: vs, m => do
    let m ← one off v m
    initSeq one adv n (off + adv v) vs m

/-- `size()` of a container. -/
def VTree.count {α : Type} : VTree α → Nat
  | .leaf _ => 0
  | .node l => l.length

/-- By how much the address advances from one value to the next: the value's size for elements, `size() * stride`
    for containers in a fixed dimension, the size of the var data in a var dimension.
    init_kernel.hpp:47, 159, 206. -/
def initAdv {α : Type} (es : Nat) (rest : CDims) (v : VTree α) : Nat :=
  match rest with
  | [] => es
  | some _ :: r => v.count * elemSize es r
  | none :: _ => 16

/-- `single`.  Fixed dimensions: init_kernel.hpp:154; a var dimension is supported for innermost initializer lists
    only (196-201, 224-270); elsewhere its arrmeta is read as that of a fixed dimension.  `vec`: the containers are
    `std::vector`, which always use the fixed kernel (290-292). -/
def initTree {α : Type} (vec : Bool) (es : Nat) : CDims → Nat → Nat → VTree α → IMem α → Res (IMem α)
  | [], b, off, .leaf a, m => m.write b off es (.val a)
  | some n :: rest, b, off, .node l, m => initSeq (fun o v m => initTree vec es rest b o v m) (initAdv es rest) n off l m
  | none :: rest, b, off, .node l, m =>
    if vec || !rest.isEmpty then .ub
    else do
      let nb := m.sizes.length
      let m := m.alloc (l.length * elemSize es rest)
      let m ← m.write b off 16 (.var nb l.length)
      initSeq (fun o v m => initTree vec es rest nb o v m) (initAdv es rest) l.length 0 l m
  | _, _, _, _, _ => .ub

/-- `nd::array(values)`: the shape, the buffer, the values.  /repo/include/dynd/buffer.hpp:23-27, 76-94,
    include/dynd/type.hpp:995-1009. -/
def arrayFromTree {α : Type} (vec : Bool) (es ndim : Nat) (t : VTree α) : Res (CDims × IMem α) := do
  let dims ← treeShape ndim t
  let m ← initTree vec es dims 0 0 t { sizes := [elemSize es dims], cells := fun _ _ => none }
  pure (dims, m)

end Dynd
