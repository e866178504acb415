import Verif.Model.Index
/-
Shapes, strides, axis permutations, contiguity, broadcasting of shapes, axis permutation of views.
Strides and sizes are mathematical integers; the only overflow modelled is `intptr_abs(INT64_MIN)`.
-/
namespace Dynd

/-- Loop of `shape_can_broadcast` after aligning at the right: /repo/src/dynd/shape_tools.cpp:20-26. -/
def canBroadcastLoop : List Int → List Int → Bool
  | _, [] => true
  | [], _ :: _ => false
  | d :: ds, s :: ss => if s ≠ 1 ∧ s ≠ d then false else canBroadcastLoop ds ss

/-- `shape_can_broadcast`: /repo/src/dynd/shape_tools.cpp:15-31. -/
def shapeCanBroadcast (dst src : List Int) : Bool :=
  if dst.length ≥ src.length then canBroadcastLoop (dst.drop (dst.length - src.length)) src else false

/-- Loop of `is_valid_perm`: /repo/include/dynd/shape_tools.hpp:155-164; `flags` is the `char` buffer, an
    access outside it is undefined behaviour. -/
def isValidPermLoop (size : Int) : List Bool → List Int → Res Bool
  | _, [] => .ok true
  | flags, v :: perm =>
    if v ≥ 0 ∧ v < size then
      match flags[v.toNat]? with
      | none => .ub
      | some f => if !f then isValidPermLoop size (flags.set v.toNat true) perm else .ok false
    else .ok false

/-- `is_valid_perm(size, perm)`: /repo/include/dynd/shape_tools.hpp:150-165; `perm` holds `size` entries. -/
def isValidPerm (perm : List Int) : Res Bool :=
  isValidPermLoop perm.length (List.replicate perm.length false) perm

/-- `abs_intptr_compare`: /repo/src/dynd/shape_tools.cpp:37-44. -/
def absLess (s : Nat → Int) (i j : Nat) : Bool := decide ((s i).natAbs < (s j).natAbs)

/-- `strides_to_axis_perm`: /repo/src/dynd/shape_tools.cpp:48-121.  `srt cmp l` stands for
    `std::sort` on `l` with comparator `cmp` (its contract is a hypothesis of the theorems).
    `intptr_abs(INT64_MIN)` is signed overflow. -/
def stridesToAxisPerm (srt : (Nat → Nat → Bool) → List Nat → List Nat) (ndim : Nat) (s : Nat → Int) :
    Res (List Nat) :=
  let a := fun i => (s i).natAbs
  if ndim ≥ 2 ∧ ∃ i < ndim, s i = i64Min then .ub else
  match ndim with
  | 0 => .ok []
  | 1 => .ok [0]
  | 2 => if a 0 ≥ a 1 then .ok [1, 0] else .ok [0, 1]
  | 3 =>
    if a 0 ≥ a 1 then
      if a 1 ≥ a 2 then .ok [2, 1, 0]
      else if a 0 ≥ a 2 then .ok [1, 2, 0]
      else .ok [1, 0, 2]
    else
      if a 1 ≥ a 2 then
        if a 0 ≥ a 2 then .ok [2, 0, 1]
        else .ok [0, 2, 1]
      else .ok [0, 1, 2]
  | n => .ok (srt (absLess s) (List.range n).reverse)

/-- `axis_perm_to_strides`: /repo/src/dynd/shape_tools.cpp:123-134, including its second assignment
    (`out_strides[i_perm] = dim_size;`).  Axes not listed keep the value of `out`. -/
def axisPermToStrides (shape : Nat → Int) : List Nat → Int → (Nat → Int) → (Nat → Int)
  | [], _, out => out
  | p :: ps, esize, out =>
    let out1 := fun i => if i = p then (if shape p > 1 then esize else 0) else out i
    let out2 := fun i => if i = p then shape p else out1 i
    axisPermToStrides shape ps (esize * shape p) out2

/-- `compare_strides`: /repo/src/dynd/shape_tools.cpp:141-164.  Result: (ambiguous, lessthan), both
    carried through the loop.  Simplification: no stride is INT64_MIN. -/
def compareStrides (i j : Nat) : List (Nat → Int) → Bool → Bool → Bool × Bool
  | [], amb, lt => (amb, lt)
  | op :: ops, amb, lt =>
    if op i ≠ 0 ∧ op j ≠ 0 then
      if (op i).natAbs ≤ (op j).natAbs then (false, true)
      else if amb then compareStrides i j ops false false
      else compareStrides i j ops amb lt
    else compareStrides i j ops amb lt

/-- Inner loop of the insertion sort: /repo/src/dynd/shape_tools.cpp:207-223.  The first argument is the
    part of the permutation still to the left, nearest first; `ipos` is the insertion position. -/
def findInsertPos (cmp : Nat → Nat → Bool × Bool) (x : Nat) : List Nat → Nat → Nat
  | [], ipos => ipos
  | p :: rest, ipos =>
    match cmp p x with
    | (true, _) => findInsertPos cmp x rest ipos
    | (false, false) => findInsertPos cmp x rest rest.length
    | (false, true) => ipos

/-- Outer loop: /repo/src/dynd/shape_tools.cpp:202-231; the element shifting is a list insertion. -/
def insertAxes (cmp : Nat → Nat → Bool × Bool) : List Nat → List Nat → List Nat
  | pre, [] => pre
  | pre, x :: rest =>
    let ipos := findInsertPos cmp x pre.reverse pre.length
    insertAxes cmp (pre.take ipos ++ x :: pre.drop ipos) rest

/-- `multistrides_to_axis_perm`: /repo/src/dynd/shape_tools.cpp:166-235. -/
def multistridesToAxisPerm (ndim : Nat) (ops : List (Nat → Int)) : List Nat :=
  match ndim with
  | 0 => []
  | 1 => [0]
  | 2 =>
    let (amb, lt) := compareStrides 0 1 ops true false
    if amb || !lt then [1, 0] else [0, 1]
  | n => insertAxes (fun i j => compareStrides i j ops true false) [n - 1] (List.range (n - 1)).reverse

/-- `strides_are_f_contiguous`: /repo/include/dynd/shape_tools.hpp:179-190, dims as (size, stride). -/
def stridesAreFContiguous : Int → List (Int × Int) → Bool
  | _, [] => true
  | esize, (n, s) :: dims => if n ≠ 1 ∧ s ≠ esize then false else stridesAreFContiguous (esize * n) dims

/-- `strides_are_c_contiguous`: /repo/include/dynd/shape_tools.hpp:166-177: the same loop from the last
    dimension to the first. -/
def stridesAreCContiguous (esize : Int) (dims : List (Int × Int)) : Bool :=
  stridesAreFContiguous esize dims.reverse

/-- `fixed_dim_type::get_default_data_size`: /repo/src/dynd/types/fixed_dim_type.cpp:17-23. -/
def defaultDataSize (esize : Int) : List Int → Int
  | [] => esize
  | n :: shape => n * defaultDataSize esize shape

/-- `fixed_dim_type::arrmeta_default_construct`: /repo/src/dynd/types/fixed_dim_type.cpp:239-250. -/
def defaultDims (esize : Int) : List Int → List (Int × Int)
  | [] => []
  | n :: shape => (n, defaultDataSize esize shape) :: defaultDims esize shape

/-- `fixed_dim_type::is_c_contiguous`: /repo/src/dynd/types/fixed_dim_type.cpp:33-44 (builtin element). -/
def typeIsCContiguous (esize : Int) : List (Int × Int) → Bool
  | [] => true
  | (_, s) :: dims =>
    if defaultDataSize esize (dims.map Prod.fst) = s then typeIsCContiguous esize dims else false

/-- `broadcast_to_shape`, second loop: /repo/src/dynd/array.cpp:1065-1074. -/
def broadcastLoop : List Int → List (Int × Int) → Res (List Int)
  | _, [] => .ok []
  | [], _ :: _ => .ub
  | d :: ds, (n, s) :: ss =>
    if n = 1 then do let r ← broadcastLoop ds ss; pure (0 :: r)
    else if n = d then do let r ← broadcastLoop ds ss; pure (s :: r)
    else .throw .broadcast

/-- `broadcast_to_shape`: /repo/src/dynd/array.cpp:1048-1080; returns the output strides. -/
def broadcastToShape (dst : List Int) (src : List (Int × Int)) : Res (List Int) :=
  if src.length > dst.length then .throw .broadcast
  else do
    let r ← broadcastLoop (dst.drop (dst.length - src.length)) src
    pure (List.replicate (dst.length - src.length) 0 ++ r)

/-- One axis of `incremental_broadcast`: /repo/src/dynd/array.cpp:1089-1101 (-1 means variable-sized). -/
def incrBroadcast1 (out sh : Int) : Res Int :=
  if sh ≠ 1 then
    if sh = -1 then (if out = 1 then .ok (-1) else .ok out)
    else if out = 1 ∨ out = -1 then .ok sh
    else if sh ≠ out then .throw .broadcast
    else .ok out
  else .ok out

/-- Loop of `incremental_broadcast` on the aligned part. -/
def incrBroadcastLoop : List Int → List Int → Res (List Int)
  | out, [] => .ok out
  | [], _ :: _ => .ub
  | o :: os, s :: ss => do
    let a ← incrBroadcast1 o s
    let r ← incrBroadcastLoop os ss
    pure (a :: r)

/-- `incremental_broadcast`: /repo/src/dynd/array.cpp:1082-1103. -/
def incrementalBroadcast (out shape : List Int) : Res (List Int) :=
  if out.length < shape.length then .throw .broadcast
  else do
    let r ← incrBroadcastLoop (out.drop (out.length - shape.length)) shape
    pure (out.take (out.length - shape.length) ++ r)

/-- One axis of `broadcast_input_shapes`: /repo/src/dynd/array.cpp:1010-1032 (negative = variable). -/
def broadcastAxis (iter size : Int) : Res Int :=
  if iter = 1 then .ok size
  else if size < 0 then (if iter > 0 then .ok (-iter) else .ok (-1))
  else if iter ≥ 0 then (if size ≠ 1 ∧ iter ≠ size then .throw .broadcast else .ok iter)
  else if iter = -1 ∧ size > 0 then .ok (-size)
  else if size > 1 ∧ iter ≠ -size then .throw .broadcast
  else .ok iter

/-- Inner loop over the axes of one input, right aligned. -/
def broadcastAxes : List Int → List Int → Res (List Int)
  | it, [] => .ok it
  | [], _ :: _ => .ub
  | o :: os, s :: ss => do
    let a ← broadcastAxis o s
    let r ← broadcastAxes os ss
    pure (a :: r)

/-- One input of `broadcast_input_shapes`: /repo/src/dynd/array.cpp:1005-1034. -/
def broadcastInput (it shape : List Int) : Res (List Int) := do
  let r ← broadcastAxes (it.drop (it.length - shape.length)) shape
  pure (it.take (it.length - shape.length) ++ r)

/-- Loop over the inputs. -/
def broadcastInputs : List Int → List (List Int) → Res (List Int)
  | it, [] => .ok it
  | it, s :: ss => do
    let it' ← broadcastInput it s
    broadcastInputs it' ss

/-- `broadcast_input_shapes`, shape part: /repo/src/dynd/array.cpp:985-1034; the axis permutation part
    (always C order) is the list `(List.range undim).reverse`. -/
def broadcastInputShapes (inputs : List (List Int)) : Res (List Int) :=
  let undim := inputs.foldl (fun m s => max m s.length) 0
  broadcastInputs (List.replicate undim 1) inputs

/-- Largest axis reached by the interval of mutually permuted axes starting at `i`:
    /repo/src/dynd/array.cpp:460-467 (the `while` loop; `fuel` bounds `ndim - loop_i`). -/
def permInterval (axes : List Nat) : Nat → Nat → Nat → Nat
  | 0, _, maxI => maxI
  | fuel + 1, loopI, maxI =>
    if loopI ≤ maxI ∧ loopI < axes.length then
      permInterval axes fuel (loopI + 1) (max maxI (axes.getD loopI 0))
    else maxI

/-- Outcome of `permute_type_dims`: transformed shape, `was_transformed`, and the arrmeta it edits in place. -/
structure PermOut where
  shape : List Int
  was : Bool
  amd : List (Int × Int)
  deriving DecidableEq, Repr

/-- `permute_type_dims`: /repo/src/dynd/array.cpp:436-500 on an array all of whose dimensions are fixed
    (`shape` is the type the function is called on, `off` its arrmeta offset in dimensions, `i` is
    `pdd->i`).  The call on the child goes through `fixed_dim_type::transform_child_types`
    (/repo/src/dynd/types/fixed_dim_type.cpp:56-68), which re-adds one dimension and passes the offset
    plus one.  `fuel` bounds the recursion, which strictly increases `i`. -/
def permuteTypeDims (axes : List Nat) : Nat → List Int → Nat → Nat → List (Int × Int) → Res PermOut
  | 0, _, _, _, _ => .ub
  | fuel + 1, shape, off, i, m =>
    if axes.getD i 0 = i then
      if i = axes.length - 1 then .ok ⟨shape, false, m⟩
      else
        match shape with
        | [] => .ub
        | n :: sub => do
          let r ← permuteTypeDims axes fuel sub (off + 1) (i + 1) m
          if r.was then pure ⟨n :: r.shape, true, r.amd⟩ else pure ⟨shape, false, r.amd⟩
    else
      let maxI := permInterval axes axes.length (i + 1) (axes.getD i 0)
      let permNdim := maxI - i + 1
      if shape.length < permNdim then .throw .invalidArg
      else do
        let sub ←
          (if maxI < axes.length - 1 then
            match shape with
            | [] => .ub
            | n :: rest => do
              let r ← permuteTypeDims axes fuel rest (off + permNdim + 1) (maxI + 1) m
              if r.was then pure (⟨n :: r.shape, true, r.amd⟩ : PermOut) else pure ⟨shape, false, r.amd⟩
          else .ok ⟨shape.drop permNdim, false, m⟩)
        if sub.amd.length < off + permNdim then .ub
        else
          let src := (sub.amd.drop off).take permNdim
          let idxs := (axes.drop i).take permNdim
          let newMeta := idxs.map (fun a => src.getD (a - i) (0, 0))
          let newShape := idxs.map (fun a => shape.getD (a - i) 0)
          pure ⟨newShape ++ sub.shape, true, sub.amd.take off ++ newMeta ++ sub.amd.drop (off + permNdim)⟩

/-- `nd::array::permute`: /repo/src/dynd/array.cpp:503-537 on a fixed-dimension array.  The final
    `arrmeta_copy_construct` copies one (size, stride) record per dimension of the transformed type. -/
def View.permute (v : View) (axes : List Int) : Res View :=
  if axes.length > v.dims.length then .throw .invalidArg
  else do
    let good ← isValidPerm axes
    if !good then .throw .invalidArg
    else do
      let r ← permuteTypeDims (axes.map Int.toNat) (axes.length + 1) (v.dims.map Prod.fst) 0 0 v.dims
      if r.amd.length < r.shape.length then .ub
      else pure ⟨v.off, List.zipWith (fun n d => (n, d.2)) r.shape r.amd⟩

/-- `nd::array::transpose`: /repo/src/dynd/array.cpp:569-577. -/
def View.transpose (v : View) : Res View :=
  v.permute ((List.range v.dims.length).reverse.map Int.ofNat)

/-- Axes built by `nd::array::rotate`: /repo/src/dynd/array.cpp:539-567. -/
def rotateAxes (to' from' : Nat) : List Nat :=
  if from' < to' then
    List.range from' ++ (List.range (to' - from')).map (fun k => from' + k + 1) ++ [from']
  else if from' > to' then
    List.range to' ++ [from'] ++ (List.range (from' - to')).map (fun k => to' + k)
  else []

/-- `nd::array::rotate`: /repo/src/dynd/array.cpp:539-567. -/
def View.rotate (v : View) (to' from' : Nat) : Res View :=
  if to' = from' then .ok v else v.permute ((rotateAxes to' from').map Int.ofNat)

/-- `nd::array::new_axis(i, new_ndim)`: /repo/src/dynd/array.cpp:627-651. -/
def View.newAxis (v : View) (i newNdim : Nat) : View :=
  ⟨v.off, v.dims.take i ++ List.replicate newNdim (1, 0) ++ v.dims.drop i⟩

/-- `classify_strided_axis_order`: /repo/src/dynd/shape_tools.cpp:473-524 on nested fixed dimensions
    given by their strides (outermost first); `none`/`c`/`f`/`neither`. -/
inductive AxisOrder | none | c | f | neither
  deriving DecidableEq, Repr

def classifyStrided (cur : Int) : List Int → AxisOrder
  | [] => .none
  | e :: rest =>
    let est := e.natAbs
    if est ≠ 0 then
      let aoc := classifyStrided cur rest
      if cur > est then (if aoc = .none ∨ aoc = .c then .c else .neither)
      else (if aoc = .none ∨ aoc = .f then .f else .neither)
    else classifyStrided cur rest

/-- `fixed_dim_type::classify_axis_order`: /repo/src/dynd/types/fixed_dim_type.cpp:205-219. -/
def classifyAxisOrder : List Int → AxisOrder
  | [] => .none
  | [_] => .none
  | s :: rest => if s ≠ 0 then classifyStrided s.natAbs rest else classifyAxisOrder rest

end Dynd
