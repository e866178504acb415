import Verif.Model.Basic
/-
Access flags of arrays: how views inherit them, which operations look at them.
-/
namespace Dynd

/-- The access flags.  /repo/include/dynd/memblock/buffer_memory_block.hpp:18-31. -/
structure AFlags where
  read : Bool
  write : Bool
  immutable : Bool
  deriving DecidableEq, Repr

/-- `readwrite_access_flags`, `default_access_flags`. -/
def AFlags.rw : AFlags := ⟨true, true, false⟩

/-- The intersection of two sets of flags.  /repo/src/dynd/array.cpp:931. -/
def AFlags.inter (f g : AFlags) : AFlags := ⟨f.read && g.read, f.write && g.write, f.immutable && g.immutable⟩

/-- An array handle: flags and the places (memory block, position) of its elements, in order.
    Simplification: the type, the arrmeta and the data pointer together are the list of places. -/
structure AHandle where
  flags : AFlags
  cells : List (Nat × Nat)
  deriving Repr

/-- The arrays a program holds, and the memory (block, position ↦ value). -/
structure AState where
  handles : List AHandle
  nblocks : Nat
  mem : Nat → Nat → Int

/-- Operations on arrays. -/
inductive AccOp where
  /-- `nd::array(v)`, a scalar. -/
  | scalar (v : Int)
  /-- `nd::array({…})`, at least one dimension. -/
  | list (vs : List Int)
  /-- `nd::empty(tp, flags)`; `vs` is whatever the memory holds. -/
  | empty (f : AFlags) (vs : List Int)
  /-- Indexing, `storage`, `view`, `replace_dtype`, shallow copies: `pick` lists which elements, in which order. -/
  | index (h : Nat) (pick : List Nat)
  /-- `permute`, `transpose`, `rotate`, `new_axis`, `reshape`, `view_scalars`. -/
  | reorder (h : Nat) (pick : List Nat)
  /-- `combine_into_tuple`. -/
  | tuple (hs : List Nat)
  /-- A write through `a.data()`. -/
  | poke (h k : Nat) (v : Int)
  /-- `assign`, `assign_na`, `vals() =`, `+=`, `/=`, a callable called with `dst`. -/
  | assign (h : Nat) (vs : List Int)
  /-- `nd::sort(a)`; `vs` are the sorted values. -/
  | sort (h : Nat) (vs : List Int)
  /-- `eval_copy(access_flags)`; `none` for the default argument 0. -/
  | copy (h : Nat) (f : Option AFlags)

/-- A new block holding `vs`, and an array of it. -/
def AState.fresh (s : AState) (f : AFlags) (vs : List Int) : AState :=
  { handles := s.handles ++ [⟨f, (List.range vs.length).map fun i => (s.nblocks, i)⟩]
    nblocks := s.nblocks + 1
    mem := fun b i => if b = s.nblocks then vs[i]?.getD 0 else s.mem b i }

/-- The elements `pick` of the cells. -/
def pickCells (cells : List (Nat × Nat)) (pick : List Nat) : List (Nat × Nat) := pick.filterMap fun i => cells[i]?

/-- Writing values to places, one after the other. -/
def writeCells (mem : Nat → Nat → Int) : List (Nat × Nat) → List Int → Nat → Nat → Int
  | c :: cs, v :: vs => writeCells (fun b i => if b = c.1 ∧ i = c.2 then v else mem b i) cs vs
  | _, _ => mem

/-- The arrays with the given numbers. -/
def getHandles (l : List AHandle) : List Nat → Option (List AHandle)
  | [] => some []
  | h :: hs => match l[h]?, getHandles l hs with
    | some a, some as => some (a :: as)
    | _, _ => none

/-- `buffer::data()`.  /repo/include/dynd/buffer.hpp:123-129. -/
def AHandle.data (h : AHandle) : Res Unit := if h.flags.write then .ok () else .throw .runtime

/-- The flags of the result of `eval_copy`.  /repo/src/dynd/array.cpp:243-247. -/
def copyFlags (f : Option AFlags) : AFlags :=
  match f with
  | none => .rw
  | some f => if f = ⟨true, false, false⟩ then ⟨true, false, true⟩ else f

/-- One operation.
    scalar, list: /repo/include/dynd/buffer.hpp:23-33, 56-94 (the values are stored through `m_data`, not `data()`).
    empty: /repo/include/dynd/array.hpp:785-802.  index: /repo/src/dynd/array.cpp:71-80, 128-150, 1158-1168,
    src/dynd/view.cpp:350-353.  reorder: array.cpp:533, 630, 712, 728, 885.  tuple: array.cpp:921-966.
    assign: array.cpp:152-156, include/dynd/kernels/base_strided_kernel.hpp:47-53, 72-74 (`const_cast` of `cdata()`).
    sort: kernels/sort_kernel.hpp, base_strided_kernel.hpp:50.  copy: array.cpp:243-258. -/
def AState.step (s : AState) : AccOp → Res AState
  | .scalar v => .ok (s.fresh ⟨true, false, true⟩ [v])
  | .list vs => .ok (s.fresh .rw vs)
  | .empty f vs => .ok (s.fresh f vs)
  | .index h pick => match s.handles[h]? with
    | some a => .ok { s with handles := s.handles ++ [⟨a.flags, pickCells a.cells pick⟩] }
    | none => .ub
  | .reorder h pick => match s.handles[h]? with
    | some a => do
      a.data
      pure { s with handles := s.handles ++ [⟨a.flags, pickCells a.cells pick⟩] }
    | none => .ub
  | .tuple hs => match getHandles s.handles hs with
    | some (a :: as) => do
      let f := as.foldl (fun f b => f.inter b.flags) a.flags
      let res : AHandle := ⟨f, (a :: as).flatMap AHandle.cells⟩
      res.data
      pure { s with handles := s.handles ++ [res] }
    | _ => .ub
  | .poke h k v => match s.handles[h]? with
    | some a => do
      a.data
      match a.cells[k]? with
      | some c => pure { s with mem := writeCells s.mem [c] [v] }
      | none => .ub
    | none => .ub
  | .assign h vs => match s.handles[h]? with
    | some a => .ok { s with mem := writeCells s.mem a.cells vs }
    | none => .ub
  | .sort h vs => match s.handles[h]? with
    | some a => .ok { s with mem := writeCells s.mem a.cells vs }
    | none => .ub
  | .copy h f => match s.handles[h]? with
    | some a => .ok (s.fresh (copyFlags f) (a.cells.map fun c => s.mem c.1 c.2))
    | none => .ub

end Dynd
