/-
Assignment and equality of records (tuples and structs): `nd::assign`, `nd::equal`, `nd::not_equal` on
`ndt::tuple_type` and `ndt::struct_type` operands.

The model has two stages, like the code: *resolution/instantiation* computes, from the types and the arrmeta, which
child kernel is built for every field and at which data offsets it will run; *execution* runs the children over the
data.  The kernels of the fields are arbitrary (a parameter): they see the bytes of their own source and destination
field.
-/
import Verif.Model.Struct

namespace Dynd

/-- What record assignment and comparison read of an `ndt::tuple_type` / `ndt::struct_type`: field names (structs),
    field types (an arbitrary type `τ`), and the arrmeta offset of every field.
    /repo/include/dynd/types/tuple_type.hpp:23-70, struct_type.hpp:24-60. -/
structure RecTy (τ : Type) where
  names : List String
  types : List τ
  arrOffs : List Nat

/-- Reading element `i` of a C++ array or vector: out of bounds is undefined behaviour. -/
def rdAt {β : Type} (l : List β) (i : Nat) : Res β :=
  match l[i]? with
  | some x => .ok x
  | none => .ub

/-- Run `f 0 … f (n-1)` in order and collect the results (a `for` loop filling an array). -/
def forN {β : Type} (f : Nat → Res β) : Nat → Res (List β)
  | 0 => .ok []
  | n + 1 => do
    let l ← forN f n
    let x ← f n
    pure (l ++ [x])

/-- One `tuple_unary_op_item` together with the child kernel it refers to: the data offsets, the field types the child
    was resolved for and the arrmeta offsets (relative to the record's arrmeta) it was instantiated with.
    /repo/include/dynd/kernels/tuple_assignment_kernels.hpp:14-18. -/
structure Item (τ : Type) where
  dstOff : Nat
  srcOff : Nat
  dstTy : τ
  srcTy : τ
  dstArr : Nat
  srcArr : Nat

/-- The capacity of the `std::array<…, 8>` locals the offsets are copied into
    (/repo/include/dynd/callables/assign_callable.hpp:690-691, 744-746; equal_callable.hpp:40, 94): writing to index 8
    is undefined behaviour. -/
def recCap : Nat := 8

/-- `assign_callable<tuple_type, tuple_type>::resolve` and the instantiation it enqueues
    (/repo/include/dynd/callables/assign_callable.hpp:680-735).  `dd`, `sd` are the data offsets stored in the
    destination's and the source's arrmeta. -/
def assignTuple {τ : Type} (d s : RecTy τ) (dd sd : List Nat) : Res (List (Item τ)) :=
  if d.types.length ≠ s.types.length then .throw .typeError
  else if recCap < d.types.length then .ub
  else forN (fun i => do
    let so ← rdAt s.arrOffs i
    let dO ← rdAt d.arrOffs i
    let a ← rdAt dd i
    let b ← rdAt sd i
    let dt ← rdAt d.types i
    let st ← rdAt s.types i
    pure ⟨a, b, dt, st, dO, so⟩) d.types.length

/-- The field matching of `assign_callable<struct_type, struct_type>::resolve`
    (/repo/include/dynd/callables/assign_callable.hpp:759-775): `src_permutation[i]`. -/
def matchFields {τ : Type} (d s : RecTy τ) : Res (List Nat) :=
  forN (fun i => do
    let n ← rdAt d.names i
    let k := getFieldIndex s.names n
    if k < 0 then .throw .runtime else pure k.toNat) d.types.length

/-- `assign_callable<struct_type, struct_type>::resolve` and the instantiation it enqueues
    (/repo/include/dynd/callables/assign_callable.hpp:738-823).  The loop that matches the fields writes `std::array`
    elements at `i` as it goes; in the model, when there are more than eight fields, an unknown name among the first nine
    throws before the out-of-bounds store, otherwise the behaviour is undefined.  The source arrmeta offset is looked up as
    `src_fields_arrmeta_offsets[src_i]` although that array is already in destination order. -/
def assignStruct {τ : Type} (d s : RecTy τ) (dd sd : List Nat) : Res (List (Item τ)) :=
  if d.types.length ≠ s.types.length then .throw .runtime
  else if recCap < d.types.length then
    match matchFields ⟨d.names, d.types.take (recCap + 1), d.arrOffs⟩ s with
    | .throw e => .throw e
    | _ => .ub
  else do
    let perm ← matchFields d s
    let srcTys ← forN (fun i => do let k ← rdAt perm i; rdAt s.types k) d.types.length
    let srcArrs ← forN (fun i => do let k ← rdAt perm i; rdAt s.arrOffs k) d.types.length
    forN (fun i => do
      let k ← rdAt perm i
      let b ← rdAt sd k
      let so ← rdAt srcArrs k
      let dO ← rdAt d.arrOffs i
      let a ← rdAt dd i
      let dt ← rdAt d.types i
      let st ← rdAt srcTys i
      pure ⟨a, b, dt, st, dO, so⟩) d.types.length

/-- Byte-addressed memory. -/
abbrev ByteMem := Nat → Nat

/-- The `n` bytes at address `a`. -/
def ByteMem.read (m : ByteMem) (a n : Nat) : List Nat := (List.range n).map (fun i => m (a + i))

/-- Store the bytes `bs` at address `a`. -/
def ByteMem.write (m : ByteMem) (a : Nat) (bs : List Nat) : ByteMem :=
  fun x => if a ≤ x then (match bs[x - a]? with | some b => b | none => m x) else m x

/-- A child kernel as seen by its parent: sizes of the destination and source field, and its effect: from the old
    bytes of the destination field and the bytes of the source field to the new bytes of the destination field, and
    whether it threw (the bytes are then what it left behind). -/
structure FieldCk where
  dsz : Nat
  ssz : Nat
  run : List Nat → List Nat → List Nat × Option Exc

/-- One call of a child at absolute addresses. -/
structure Job where
  dst : Nat
  src : Nat
  ck : FieldCk

/-- Run child calls in order, stopping at the first one that throws. -/
def runJobs : List Job → ByteMem → ByteMem × Option Exc
  | [], m => (m, none)
  | j :: js, m =>
    let r := j.ck.run (m.read j.dst j.ck.dsz) (m.read j.src j.ck.ssz)
    let m' := m.write j.dst r.1
    match r.2 with
    | some e => (m', some e)
    | none => runJobs js m'

/-- `tuple_unary_op_ck::single(dst, src)` (/repo/include/dynd/kernels/tuple_assignment_kernels.hpp:29-43): the child
    of every field, at the item's offsets.  `mk` builds a child kernel from an item.  (For zero fields the code forms
    `&m_fields[0]` of an empty vector without using it; this is not counted as undefined behaviour.) -/
def recordJobs {τ : Type} (mk : Item τ → FieldCk) (items : List (Item τ)) (dst src : Nat) : List Job :=
  items.map (fun it => ⟨dst + it.dstOff, src + it.srcOff, mk it⟩)

/-- `base_strided_kernel<…, 1>::strided` (/repo/include/dynd/kernels/base_strided_kernel.hpp:57-67) around
    `tuple_unary_op_ck::single`: one record after the other; strides are non-negative in this model. -/
def recordJobsStrided {τ : Type} (mk : Item τ → FieldCk) (items : List (Item τ)) :
    (dst dstStride src srcStride count : Nat) → List Job
  | _, _, _, _, 0 => []
  | dst, ds, src, ss, n + 1 => recordJobs mk items dst src ++ recordJobsStrided mk items (dst + ds) ds (src + ss) ss n

/-- Kernel requests (/repo/include/dynd/kernels/kernel_prefix.hpp:26-36). -/
def reqCall : Nat := 0
/-- `kernel_request_single`. -/
def reqSingle : Nat := 1
/-- `kernel_request_strided`. -/
def reqStrided : Nat := 3
/-- `kernel_request_data_only`. -/
def reqDataOnly : Nat := 1

/-- Which function `base_strided_kernel::init` installs
    (/repo/include/dynd/kernels/base_strided_kernel.hpp:24-43). -/
inductive Installed where
  | call | single | strided
  deriving DecidableEq, Repr

/-- `base_strided_kernel::init`. -/
def initStrided (req : Nat) : Res Installed :=
  if req = reqCall then .ok .call
  else if req = reqSingle then .ok .single
  else if req = reqStrided then .ok .strided
  else .throw .invalidArg

/-- One field comparison of a record comparison: data offsets, types, and the arrmeta both child operands get
    (an offset into the arrmeta of the *first* operand). -/
structure CmpItem (τ : Type) where
  off0 : Nat
  off1 : Nat
  ty0 : τ
  ty1 : τ
  arr : Nat

/-- `equal_callable<tuple_type, tuple_type>::resolve` / `<struct_type, struct_type>` and the `not_equal` versions,
    with the instantiation they enqueue (/repo/include/dynd/callables/equal_callable.hpp:33-139,
    not_equal_callable.hpp:33-139): the field count and the arrmeta come from the first operand only, names are never
    looked at.  Result: the function of this kernel, the function installed in the children, the field comparisons. -/
def compareRecords {τ : Type} (a b : RecTy τ) (ad bd : List Nat) (req : Nat) :
    Res (Installed × List (Installed × CmpItem τ)) :=
  if recCap < a.types.length then .ub
  else do
    let self ← initStrided req
    let cs ← forN (fun i => do
      let arr ← rdAt a.arrOffs i
      let t0 ← rdAt a.types i
      let t1 ← rdAt b.types i
      let o0 ← rdAt ad i
      let o1 ← rdAt bd i
      let ci ← initStrided (req ||| reqDataOnly)
      pure (ci, (⟨o0, o1, t0, t1, arr⟩ : CmpItem τ))) a.types.length
    pure (self, cs)

/-- `equal_kernel<tuple_type, tuple_type>::single` (`stop = false`, /repo/include/dynd/kernels/equal_kernel.hpp:52-69)
    and `not_equal_kernel<…>::single` (`stop = true`, not_equal_kernel.hpp:52-69): the children are called through a
    `kernel_single_t` pointer whatever function was installed; the first child result equal to `stop` decides.
    `cmp` is the outcome of the child built for a field comparison. -/
def compareLoop {τ : Type} (cmp : CmpItem τ → Res Bool) (stop : Bool) : List (Installed × CmpItem τ) → Res Bool
  | [] => .ok (!stop)
  | (f, it) :: rest =>
    if f = .single then do
      let r ← cmp it
      if r = stop then .ok stop else compareLoop cmp stop rest
    else .ub

/-- Calling a compiled record comparison on one pair of records (`call` and `single` requests) or on the elements of
    arrays (`strided`), element `e` having field outcomes `cmp e`. -/
def compareRun {τ : Type} (cmp : Nat → CmpItem τ → Res Bool) (stop : Bool)
    (k : Installed × List (Installed × CmpItem τ)) (count : Nat) : Res (List Bool) :=
  forN (fun e => compareLoop (cmp e) stop k.2) (if k.1 = .strided then count else 1)

end Dynd
