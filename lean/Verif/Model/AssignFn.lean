/-
The assignment function `nd::assign`: its table of overloads (`make_assign`), the choice of an overload for a pair
of types, the resolution into a call graph and the instantiation of the call graph into a tree of kernels.

Simplifications: resolution is modelled for a destination type that is not symbolic (`dst_tp.is_symbolic()` in
/repo/include/dynd/callables/base_dispatch_callable.hpp:24 is false); of a kernel only its identity (the template
instantiated and its parameters) is kept, not its code; array metadata is not modelled here (C20, C46, C59).
-/
import Verif.Model.TypeMatch
import Verif.Model.Dispatch

namespace Dynd

/-- `p.match(c)` as the dispatcher uses it (/repo/include/dynd/dispatcher.hpp:32-52).  `same` is the identity
    shortcut of `type::match`, see `matchTy`.  Matching never fails for the signatures of this table. -/
def tyMatch (same : List Nat → Bool) (p c : Ty) : Bool :=
  match matchFresh same p c with
  | .ok r => r.1
  | _ => false

/-- `assign_error_mode`.  /repo/include/dynd/config.hpp:770-782. -/
inductive AMode where
  | nocheck | overflow | fractional | inexact | default
  deriving DecidableEq, Repr

/-- The overloads of `nd::assign`.  /repo/src/dynd/assignment.cpp:31-118.  `user d s` is an overload added later
    with `overload` (/repo/include/dynd/callables/multidispatch_callable.hpp:44-46). -/
inductive AEntry where
  | num (d s : BTy)
  | strStr | bytesBytes | fbFb | fsFs | charStr | strChar | typeType | fsInt32 | fsStr
  | intStr (w : Wd)
  | strFs | boolStr | optToVal | optOpt | valOpt | optStr | optFloat | strType | typeStr | ptrPtr | f32Str | f64Str
  | tupTup | structStruct | elwSD | elwDS | elwDD
  | user (d s : Ty)
  deriving Repr

/-- `func_ptr(ret type, args)`: destination and source type of the overload's signature
    (/repo/src/dynd/assignment.cpp:19-21), taken from the constructors in
    /repo/include/dynd/callables/assign_callable.hpp:19-28 (numbers, `string`, `bytes`, `type`), 73-78 (bool ← string),
    120-125 (fixed_bytes), 140-145 (`int_to_string_assign_callable`: integer ← any string), 180-185
    (`string_to_int_assign_callable`: fixed_string ← integer), 217-221, 245-249, 274-279, 327-332, 354-359, 378-383,
    409-414, 434-439, 456-461, 485-490 (pointer[Any]), 511-516 (option[Any]), 558-563, 597-602, 669-674, 733-738
    (`(...)`, `{...}`), 832-837 (Scalar ← option[Any]), 953-957 (Any ← Scalar) and
    /repo/src/dynd/assignment.cpp:101-115 (the three elwise overloads).  Defaults of `make_type`:
    option_type.hpp:78, pointer_type.hpp:39 (Any), char_type.hpp:25 (utf32), bytes_type.hpp:26 (alignment 1). -/
def AEntry.sig : AEntry → List Ty
  | .num d s => [.prim d, .prim s]
  | .strStr => [.leaf .string, .leaf .string]
  | .bytesBytes => [.leaf (.bytes 1), .leaf (.bytes 1)]
  | .fbFb => [.kind .fixedBytes, .kind .fixedBytes]
  | .fsFs => [.kind .fixedString, .kind .fixedString]
  | .charStr => [.leaf (.char 4), .leaf .string]
  | .strChar => [.leaf .string, .leaf (.char 4)]
  | .typeType => [.leaf .typeT, .leaf .typeT]
  | .fsInt32 => [.kind .fixedString, .prim (.int .w32)]
  | .fsStr => [.kind .fixedString, .leaf .string]
  | .intStr w => [.prim (.int w), .kind .string]
  | .strFs => [.leaf .string, .kind .fixedString]
  | .boolStr => [.prim .bool, .leaf .string]
  | .optToVal => [.kind .scalar, .option (.kind .any)]
  | .optOpt => [.option (.kind .any), .option (.kind .any)]
  | .valOpt => [.kind .any, .kind .scalar]
  | .optStr => [.option (.kind .any), .leaf .string]
  | .optFloat => [.option (.kind .any), .kind .float]
  | .strType => [.leaf .string, .leaf .typeT]
  | .typeStr => [.leaf .typeT, .leaf .string]
  | .ptrPtr => [.pointer (.kind .any), .pointer (.kind .any)]
  | .f32Str => [.prim (.flt .f32), .leaf .string]
  | .f64Str => [.prim (.flt .f64), .leaf .string]
  | .tupTup => [.tuple [] true, .tuple [] true]
  | .structStruct => [.struct [] [] true, .struct [] [] true]
  | .elwSD => [.kind .scalar, .dimKind (.kind .any)]
  | .elwDS => [.dimKind (.kind .any), .kind .scalar]
  | .elwDD => [.dimKind (.kind .any), .dimKind (.kind .any)]
  | .user d s => [d, s]

/-- `numeric_types`.  /repo/src/dynd/assignment.cpp:30-32. -/
def numericTypes : List BTy :=
  [.bool, .int .w8, .int .w16, .int .w32, .int .w64, .int .w128, .uint .w8, .uint .w16, .uint .w32, .uint .w64,
   .uint .w128, .flt .f32, .flt .f64, .cplx .c32, .cplx .c64]

/-- `callable::make_all<..., numeric_types, numeric_types>`: the outer product, first type major.
    /repo/include/dynd/callable.hpp:143-151, /repo/include/dynd/type_sequence.hpp:88-121. -/
def numericPairs : List AEntry := numericTypes.flatMap fun d => numericTypes.map fun s => .num d s

/-- The `dispatcher.insert` calls of `make_assign`, in order; each call inserts one overload or an initializer list.
    /repo/src/dynd/assignment.cpp:41-115. -/
def assignInserts : List (List AEntry) :=
  [[.strStr], [.bytesBytes], [.fbFb], [.fsFs], [.fsFs], [.charStr], [.fsFs], [.strChar], [.typeType], [.fsInt32],
   [.fsFs], [.fsStr], [.intStr .w32], [.strStr], [.strFs], [.boolStr], [.optToVal, .optOpt, .valOpt], [.optStr],
   [.optFloat], [.strType], [.typeStr], [.ptrPtr], [.intStr .w8], [.intStr .w16], [.intStr .w32], [.intStr .w64],
   [.f32Str], [.f64Str], [.tupTup], [.structStruct], [.elwSD, .elwDS, .elwDD]]

/-- `dispatcher::insert(begin, end)`: the old children followed by the new ones are sorted again.
    /repo/include/dynd/dispatcher.hpp:233-243. -/
def insertAll (same : List Nat → Bool) (ch : List (Option AEntry)) (fs : List AEntry) : Res (List (Option AEntry)) :=
  if ch.all Option.isSome then
    match dispAssign (tyMatch same) AEntry.sig ch (ch.filterMap id ++ fs) with
    | (r, .ok _) => .ok r
    | (_, .throw e) => .throw e
    | (_, .ub) => .ub
  else .ub

/-- a sequence of `insert` calls -/
def insertSeq (same : List Nat → Bool) : List (List AEntry) → List (Option AEntry) → Res (List (Option AEntry))
  | [], ch => .ok ch
  | fs :: rest, ch => do
    let ch' ← insertAll same ch fs
    insertSeq same rest ch'

/-- `make_assign()`: the children of the dispatcher of `nd::assign` in the order they are tried.
    /repo/src/dynd/assignment.cpp:29-118. -/
def makeAssign (same : List Nat → Bool) : Res (List (Option AEntry)) := do
  let ch ← insertAll same [] numericPairs
  insertSeq same assignInserts ch

/-- Nodes of the call graph: the closure pushed by `resolve`, named after the kernel it emplaces.  `live = false`:
    the closure reads a `src_tp` array that no longer exists when it runs.  `elw` records whether the destination
    and the source dimension are `var` and whether the source is broadcast.  `record` records for every field of the
    destination which field of the source is read. -/
inductive ANode where
  | cast (d s : BTy) (m : AMode)
  | copyString (m : AMode) | copyBytes (m : AMode) | copyType (m : AMode)
  | fsFromFs (live : Bool) (m : AMode) | fsFromStr (m : AMode) | charFromStr (m : AMode) | strFromChar (m : AMode)
  | strFromFs (m : AMode)
  | parseInt (w : Wd) (m : AMode)
  | parseBool (live : Bool) (m : AMode) | parseF32 (live : Bool) (m : AMode) | parseF64 (m : AMode)
  | typeFromStr | strFromType
  | isNa (t : Ty) | assignNa (t : Ty)
  | optCopy | optCheck | optBoolFromStr | optNumFromStr (t : BTy) | forward | optFromStr
  | record (perm : List Nat) | ptrCopy
  | elw (dstVar srcVar bcast : Bool)
  deriving Repr

/-- The keyword argument `error_mode` as the overloads receive it: `none` is a null `kwds` pointer, `some none` a
    missing value. -/
abbrev AKwds := Option (Option AMode)

/-- `kwds[0].is_na() ? assign_error_default : kwds[0].as<...>()`, with (`nullOk`) or without the test
    `kwds == NULL ||` before it.  /repo/include/dynd/callables/assign_callable.hpp:34-35, 84, 151, 230-231, 256. -/
def modeOf (nullOk : Bool) : AKwds → Res AMode
  | none => if nullOk then .ok .default else .ub
  | some none => .ok .default
  | some (some m) => .ok m

/-- `case assign_error_default: case assign_error_nocheck:` share a kernel.
    /repo/include/dynd/callables/assign_callable.hpp:36-62. -/
def effMode : AMode → AMode
  | .default => .nocheck
  | m => m

/-- The value types `is_na` and `assign_na` have an overload for (`option[T]`); another option type is rejected by
    their dispatchers (/repo/include/dynd/dispatcher.hpp:281-289).  /repo/src/dynd/option.cpp:27-69.  Simplification:
    the overloads for arrays (`option[Fixed * Any]`, `Fixed * Any`, `var * Any`) are left out. -/
def naTypes : List Ty :=
  [.prim .bool, .prim (.int .w8), .prim (.int .w16), .prim (.int .w32), .prim (.int .w64), .prim (.int .w128),
   .prim (.uint .w32), .prim (.flt .f32), .prim (.flt .f64), .prim (.cplx .c32), .prim (.cplx .c64), .prim .void,
   .leaf (.bytes 1), .leaf .string]

/-- `is_na->resolve(option[t])`: one node.  /repo/include/dynd/callables/default_instantiable_callable.hpp:21-31. -/
def resolveIsNa (t : Ty) : Res (List ANode) :=
  if naTypes.any (tyEq t) then .ok [.isNa t] else .throw .outOfRange

/-- `assign_na->resolve(option[t])`. -/
def resolveAssignNa (t : Ty) : Res (List ANode) :=
  if naTypes.any (tyEq t) then .ok [.assignNa t] else .throw .outOfRange

/-- The switch on the value type of `option[t] ← string`.
    /repo/include/dynd/callables/assign_callable.hpp:609-655. -/
def optStrNode : Ty → ANode
  | .prim .bool => .optBoolFromStr
  | .prim (.int w) => .optNumFromStr (.int w)
  | .prim (.flt .f16) => .optNumFromStr (.flt .f16)
  | .prim (.flt .f32) => .optNumFromStr (.flt .f32)
  | .prim (.flt .f64) => .optNumFromStr (.flt .f64)
  | .leaf .string => .forward
  | _ => .optFromStr

/-- `get_id() == option_id ? value type : the type itself`.
    /repo/include/dynd/callables/assign_callable.hpp:963-967. -/
def unOption : Ty → Ty
  | .option t => t
  | t => t

/-- The loop resolving the fields one after the other.
    /repo/include/dynd/callables/assign_callable.hpp:725-727, 819-821. -/
def resolveFields (f : Ty → Ty → Res (List ANode)) : List Ty → List Ty → Res (List ANode)
  | [], _ => .ok []
  | _ :: _, [] => .ub
  | d :: ds, s :: ss => do
    let a ← f d s
    let b ← resolveFields f ds ss
    pure (a ++ b)

/-- `get_field_index`: the first field of that name.  /repo/src/dynd/types/struct_type.cpp:62-72. -/
def fieldIndex (n : String) : List String → Option Nat
  | [] => none
  | a :: l => if a = n then some 0 else (fieldIndex n l).map (· + 1)

/-- "Match up the fields": source type and source index of every destination field; writing entry 8 of the
    `std::array<..., 8>`s is undefined.  /repo/include/dynd/callables/assign_callable.hpp:758-773. -/
def matchStruct (sn : List String) (ss : List Ty) : Nat → List String → Res (List (Nat × Ty))
  | _, [] => .ok []
  | i, n :: ns =>
    match fieldIndex n sn with
    | none => .throw .runtime
    | some k =>
      if i ≥ 8 then .ub else
      match ss[k]? with
      | none => .ub
      | some t => do
        let r ← matchStruct sn ss (i + 1) ns
        pure ((k, t) :: r)

/-- `get_dim_size()` of a dimension type without metadata and data.  /repo/src/dynd/types/fixed_dim_type.cpp:170-172,
    var_dim_type.cpp:229-235.  `none`: not a dimension (`extended<base_dim_type>` of another class). -/
def dimSizeOf : Ty → Option (Int × Ty × Bool)
  | .fixedDim n el => some (n, el, false)
  | .varDim el => some (-1, el, true)
  | _ => none

/-- The dimensions one after the other: `elwise_dispatch_callable<1>::resolve` chooses the class (lines 44-97) and
    `base_elwise_callable<1>::resolve` pushes the node (lines 43-125); after the last of the `k` dimensions the child
    `f` is resolved on the element types.  /repo/include/dynd/callables/elwise_dispatch_callable.hpp:32-108,
    base_elwise_callable.hpp:43-125, elwise_callable.hpp:49-206.  The three classes are told apart by the kinds of
    the destination and source dimension; a destination that is not a dimension cannot occur at the first level
    chosen by `resolveElw` unless it is an option around dimensions (undefined: cast to the wrong class). -/
def resolveDims (f : Ty → Ty → Res (List ANode)) : Nat → Ty → Ty → Res (List ANode)
  | 0, d, s => f d s
  | k + 1, d, s =>
    match dimSizeOf d with
    | none => .ub
    | some (n, de, dv) =>
      let srcVar := match s with | .varDim _ => true | _ => false
      if decide (s.ndim < k + 1) then do
        let r ← resolveDims f k de s
        pure (.elw dv srcVar true :: r)
      else
        match dimSizeOf s with
        | none => .ub
        | some (m, se, _) =>
          if m ≠ 1 ∧ m ≠ -1 ∧ n ≠ -1 ∧ n ≠ m then .throw .runtime
          else do
            let r ← resolveDims f k de se
            pure (.elw dv srcVar (m == 1) :: r)

/-- `elwise_entry_callable::resolve` with `assign` itself as the child (signature Any ← Any, no dimensions of its
    own).  /repo/include/dynd/callables/elwise_entry_callable.hpp:33-84. -/
def resolveElw (f : Ty → Ty → Res (List ANode)) (d s : Ty) : Res (List ANode) :=
  if d.ndim < s.ndim then .throw .broadcast
  else resolveDims f d.ndim d s

/-- `assign->resolve(dst, src)`: the nodes pushed onto the call graph.  `fuel` bounds the depth of the recursion;
    running out of it is a stack overflow.  `live`: the array `src_tp` outlives the resolution.
    /repo/include/dynd/callables/base_dispatch_callable.hpp:19-26 and the `resolve` functions of
    /repo/include/dynd/callables/assign_callable.hpp: 30-67, 80-115, 127-134, 147-173, 187-211, 223-241, 251-270,
    281-301, 334-351, 361-374, 385-404, 416-430, 441-452, 463-481, 492-505, 518-552, 565-575, 604-662, 676-730,
    740-824, 839-865, 959-972. -/
def resolveA (same : List Nat → Bool) (tbl : List (Option AEntry)) (kw : AKwds) : Nat → Bool → Ty → Ty → Res (List ANode)
  | 0, _, _, _ => .ub
  | fuel + 1, live, dst, src => do
    let e ← dispCall (tyMatch same) AEntry.sig [dst, src] tbl
    match e with
    | .num d s => do let m ← modeOf true kw; pure [.cast d s (effMode m)]
    | .strStr => do let m ← modeOf true kw; pure [.copyString (effMode m)]
    | .bytesBytes => do let m ← modeOf true kw; pure [.copyBytes (effMode m)]
    | .typeType => do let m ← modeOf true kw; pure [.copyType (effMode m)]
    | .boolStr => do let m ← modeOf false kw; pure [.parseBool live (effMode m)]
    | .fbFb => .throw .runtime
    | .intStr w => do let m ← modeOf false kw; pure [.parseInt w m]
    | .fsInt32 => .ok [.parseInt .w32 .default]
    | .f64Str => do let m ← modeOf true kw; pure [.parseF64 m]
    | .f32Str => do let m ← modeOf false kw; pure [.parseF32 live m]
    | .fsStr => do let m ← modeOf false kw; pure [.fsFromStr m]
    | .fsFs => do let m ← modeOf false kw; pure [.fsFromFs live m]
    | .strChar => do let m ← modeOf false kw; pure [.strFromChar m]
    | .typeStr => .ok [.typeFromStr]
    | .strFs => do let m ← modeOf false kw; pure [.strFromFs m]
    | .strType => .ok [.strFromType]
    | .charStr => do let m ← modeOf false kw; pure [.charFromStr m]
    | .ptrPtr => .ok [.ptrCopy]
    | .optOpt =>
      match dst, src with
      | .option d, .option s => do
        let a ← resolveIsNa s
        let b ← resolveAssignNa d
        let v ← resolveA same tbl kw fuel true d s
        pure (.optCopy :: (a ++ b ++ v))
      | _, _ => .ub
    | .optFloat =>
      match dst with
      | .option d => do
        let a ← resolveIsNa src
        let b ← resolveAssignNa d
        let v ← resolveA same tbl kw fuel false d src
        pure (.optCopy :: (a ++ b ++ v))
      | _ => .ub
    | .optStr =>
      match dst with
      | .option d => do
        let _ ← modeOf false kw
        let v ← resolveA same tbl kw fuel live d src
        let b ← resolveAssignNa d
        pure (optStrNode d :: (v ++ b))
      | _ => .ub
    | .tupTup =>
      match dst, src with
      | .tuple ds _, .tuple ss _ =>
        if ds.length ≠ ss.length then .throw .typeError
        else if ds.length > 8 then .ub
        else do
          let r ← resolveFields (resolveA same tbl kw fuel true) ds ss
          pure (.record (List.range ds.length) :: r)
      | _, _ => .ub
    | .structStruct =>
      match dst, src with
      | .struct dn ds _, .struct sn ss _ =>
        if ds.length ≠ ss.length then .throw .runtime
        else do
          let fs ← matchStruct sn ss 0 dn
          let r ← resolveFields (resolveA same tbl kw fuel false) ds (fs.map (·.2))
          pure (.record (fs.map (·.1)) :: r)
      | _, _ => .ub
    | .optToVal =>
      match src with
      | .option s => do
        let a ← resolveIsNa s
        let v ← resolveA same tbl kw fuel true dst s
        pure (.optCheck :: (a ++ v))
      | _ => .ub
    | .valOpt => resolveA same tbl kw fuel false (unOption dst) (unOption src)
    | .elwSD | .elwDS | .elwDD => resolveElw (resolveA same tbl kw fuel false) dst src
    | .user _ _ => .throw .unmodelled

/-- How many times the closure of a node calls `kb(...)` after emplacing its kernel: see the closures cited at
    `resolveA`; `elw`: /repo/include/dynd/callables/elwise_callable.hpp:88, 138, 202; `ptrCopy`:
    assign_callable.hpp:497-502. -/
def ANode.arity : ANode → Nat
  | .optCopy => 3
  | .optCheck => 2
  | .optFromStr => 2
  | .record perm => perm.length
  | .ptrCopy => 1
  | .elw _ _ _ => 1
  | _ => 0

/-- Does the closure read only memory that still exists? -/
def ANode.alive : ANode → Bool
  | .fsFromFs l _ => l
  | .parseBool l _ => l
  | .parseF32 l _ => l
  | _ => true

/-- The kernels built, as a tree. -/
inductive KTree where
  | mk (n : ANode) (kids : List KTree)

/-- `n` calls of `kb(...)` -/
def instKids (f : List ANode → Res (KTree × List ANode)) : Nat → List ANode → Res (List KTree × List ANode)
  | 0, rest => .ok ([], rest)
  | n + 1, rest => do
    let a ← f rest
    let b ← instKids f n a.2
    pure (a.1 :: b.1, b.2)

/-- `kernel_builder::operator()`: the current node's closure emplaces its kernel, which advances to the next node
    (`emplace_back`), and then builds its children with further calls; past the last node there is nothing.  The
    closure of `option[string] ← string` (`forward`) calls `kb(...)` without emplacing a kernel, so the current node
    is still the same.  /repo/include/dynd/kernels/kernel_builder.hpp:33-49,
    /repo/include/dynd/callables/assign_callable.hpp:631-635. -/
def instA : Nat → List ANode → Res (KTree × List ANode)
  | 0, _ => .ub
  | _ + 1, [] => .ub
  | fuel + 1, n :: rest =>
    if n.alive then
      match n with
      | .forward => instA fuel (.forward :: rest)
      | _ => do
        let r ← instKids (instA fuel) n.arity rest
        pure (.mk n r.1, r.2)
    else .ub

/-- The call of `nd::assign` with given types up to the point where the kernel is run: the resolution and the
    instantiation.  /repo/src/dynd/callables/base_callable.cpp:51-62. -/
def assignKernel (same : List Nat → Bool) (tbl : List (Option AEntry)) (kw : AKwds) (fuel : Nat) (dst src : Ty) :
    Res KTree := do
  let ns ← resolveA same tbl kw fuel true dst src
  let r ← instA fuel ns
  pure r.1

end Dynd
