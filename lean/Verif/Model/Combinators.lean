import Verif.Model.Functional
/-
Functions built from C++ functions (`nd::functional::apply`) and the combinators `constant`, `left_compound`,
`right_compound`, `forward_na`, the state-inserting wrapper of `elwise`, and the loops of `elwise` over fixed
dimensions: the flat call graph written by `resolve`, the kernels instantiated from it for a kernel request, and the
`call`, `single` and `strided` entries of the kernels.
-/
namespace Dynd

/-- The kernel requests.  /repo/include/dynd/kernels/kernel_prefix.hpp:26-38. -/
inductive CbReq where
  | call | single | strided
  deriving DecidableEq, Repr

/-- `kernreq | kernel_request_data_only`: 0|1 = 1, 1|1 = 1, 3|1 = 3.  kernel_prefix.hpp:30-37. -/
def CbReq.dataOnly : CbReq → CbReq
  | .call => .single
  | .single => .single
  | .strided => .strided

/-- How a C++ function hands back its result: returned, not at all (`void`), or through a `return_wrapper` reference
    that is its first parameter.  /repo/include/dynd/kernels/apply_callable_kernel.hpp:44-113. -/
inductive CbRet where
  | value | nothing | wrapper
  deriving DecidableEq, Repr

/-- Memory of values together with everything else the C++ functions may change (captured state, globals). -/
structure CbWorld (V σ : Type) where
  mem : VMem V
  st : σ

/-- A C++ function: the values of its parameters (the old content of the result first, for a `return_wrapper`), then
    keywords; it may throw or change its state. -/
abbrev CbCode (V σ : Type) := List V → σ → Res (V × σ)

/-- What a user builds.  `constant` carries the address of the constant's data; `state` the number of arguments
    without the state, the state's position and the address of the state; `elw` one fixed dimension of an elementwise
    application (as instantiated by `elwInst`); `forwardNa` the positions of the arguments that may be missing, the
    `is_na` tests and the missing result.  /repo/src/dynd/functional.cpp:67-130, /repo/include/dynd/functional.hpp. -/
inductive CbFn (V σ : Type) where
  | apply (ret : CbRet) (narg : Nat) (kwds : List V) (f : CbCode V σ)
  | constant (data : Int)
  | left (child : CbFn V σ)
  | right (child : CbFn V σ)
  | forwardNa (tests : List (Nat × (V → Bool))) (na : V) (child : CbFn V σ)
  | state (narg i : Nat) (cell : Int) (child : CbFn V σ)
  | elw (lv : ELevel) (child : CbFn V σ)

/-- An entry of the call graph: the closures given to `cg.emplace_back`. -/
inductive CbNode (V σ : Type) where
  | apply (ret : CbRet) (narg : Nat) (kwds : List V) (f : CbCode V σ)
  | constant (data : Int)
  | assign
  | left
  | right
  | forwardNa (is : List Nat)
  | isNa (test : V → Bool)
  | assignNa (na : V)
  | state (narg i : Nat) (cell : Int)
  | elw (lv : ELevel)

/-- `resolve`: every callable appends its closure, then resolves its children in a fixed order.
    apply_callable_callable.hpp:27-40, constant_callable.hpp:27-44, compound_callable.hpp:23-64,
    forward_na_callable.hpp:25-74, state_callable.hpp:25-55, base_elwise_callable.hpp:104-112. -/
def cbResolve {V σ : Type} : CbFn V σ → List (CbNode V σ)
  | .apply ret narg kwds f => [.apply ret narg kwds f]
  | .constant data => [.constant data, .assign]
  | .left c => .left :: cbResolve c
  | .right c => .right :: cbResolve c
  | .forwardNa tests na c =>
    .forwardNa (tests.map (·.1)) :: (cbResolve c ++ (tests.map fun t => .isNa t.2) ++ [.assignNa na])
  | .state narg i cell c => .state narg i cell :: cbResolve c
  | .elw lv c => .elw lv :: cbResolve c

/-- An instantiated kernel, with the request that chose its function pointer.  The `is_na` and `assign_na` kernels of
    `forward_na`, always instantiated and called as single, are represented by what they compute; the same for the
    `assign` child of `constant`, whose source and destination types are equal (it copies). -/
inductive CbKernel (V σ : Type) where
  | apply (r : CbReq) (ret : CbRet) (narg : Nat) (kwds : List V) (f : CbCode V σ)
  | constant (r : CbReq) (data : Int) (child : CbReq)
  | left (r : CbReq) (child : CbKernel V σ)
  | right (r : CbReq) (child : CbKernel V σ)
  | forwardNa (r : CbReq) (tests : List (Nat × (V → Bool))) (na : V) (child : CbKernel V σ)
  | state (r : CbReq) (narg i : Nat) (cell : Int) (child : CbKernel V σ)
  | elw (r : CbReq) (lv : ELevel) (child : CbKernel V σ)

/-- The request a kernel was made for: its function pointer.  base_strided_kernel.hpp:22-42. -/
def CbKernel.req {V σ : Type} : CbKernel V σ → CbReq
  | .apply r .. => r
  | .constant r .. => r
  | .left r _ => r
  | .right r _ => r
  | .forwardNa r .. => r
  | .state r .. => r
  | .elw r .. => r

/-- The `is_na` kernels of `forward_na`, one for each listed argument: forward_na_callable.hpp:36-41. -/
def cbTakeNa {V σ : Type} : List Nat → List (CbNode V σ) → Res (List (Nat × (V → Bool)) × List (CbNode V σ))
  | [], rest => .ok ([], rest)
  | i :: is, .isNa t :: rest => do
    let (ts, rest) ← cbTakeNa is rest
    pure ((i, t) :: ts, rest)
  | _ :: _, _ => .ub

/-- `kernel_builder::operator()`: the next closure of the call graph makes its kernel and asks for its children.
    An exhausted or mismatched graph is undefined.
    /repo/include/dynd/kernels/kernel_builder.hpp:34-48 and the closures cited at `cbResolve`; elwise asks for strided
    children (elwise_callable.hpp:88), forward_na for single ones. -/
def cbInst {V σ : Type} : Nat → CbReq → List (CbNode V σ) → Res (CbKernel V σ × List (CbNode V σ))
  | 0, _, _ => .ub
  | _ + 1, _, [] => .ub
  | fuel + 1, r, n :: rest =>
    match n with
    | .apply ret narg kwds f => .ok (.apply r ret narg kwds f, rest)
    | .constant data =>
      match rest with
      | .assign :: rest => .ok (.constant r data r.dataOnly, rest)
      | _ => .ub
    | .left => do
      let (c, rest) ← cbInst fuel r.dataOnly rest
      pure (.left r c, rest)
    | .right => do
      let (c, rest) ← cbInst fuel r.dataOnly rest
      pure (.right r c, rest)
    | .forwardNa is => do
      let (c, rest) ← cbInst fuel .single rest
      let (ts, rest) ← cbTakeNa is rest
      match rest with
      | .assignNa na :: rest => pure (.forwardNa r ts na c, rest)
      | _ => .ub
    | .state narg i cell => do
      let (c, rest) ← cbInst fuel r.dataOnly rest
      pure (.state r narg i cell c, rest)
    | .elw lv => do
      let (c, rest) ← cbInst fuel .strided rest
      pure (.elw r lv c, rest)
    | .assign => .ub
    | .isNa _ => .ub
    | .assignNa _ => .ub

/-- The member functions `single` and `strided` of a kernel. -/
structure CbMethods (V σ : Type) where
  single : Int → List Int → CbWorld V σ → Res (CbWorld V σ)
  strided : Int → Int → List Int → List Int → Nat → CbWorld V σ → Res (CbWorld V σ)

/-- The default `strided`: `single`, then every pointer is advanced by its stride.
    base_strided_kernel.hpp:57-67 (and 79-86 without arguments). -/
def cbLoop {V σ : Type} (one : Int → List Int → CbWorld V σ → Res (CbWorld V σ)) (ds : Int) (ss : List Int) :
    Nat → Int → List Int → CbWorld V σ → Res (CbWorld V σ)
  | 0, _, _, w => .ok w
  | n + 1, dst, src, w => do
    let w ← one dst src w
    cbLoop one ds ss n (dst + ds) (List.zipWith (· + ·) src ss) w

/-- Writing the result. -/
def CbWorld.put {V σ : Type} (w : CbWorld V σ) (a : Int) (v : V) : CbWorld V σ := { w with mem := w.mem.put a v }

/-- `single` of the kernels made by `apply`: arguments `src[0] … src[N-1]`, then the keywords.
    apply_callable_kernel.hpp:66-68, 88-90, 109-112; apply_function_kernel.hpp:31-33, 49-51;
    apply_member_function_kernel.hpp:34-36, 59-61. -/
def cbApply {V σ : Type} (ret : CbRet) (narg : Nat) (kwds : List V) (f : CbCode V σ) (dst : Int) (src : List Int)
    (w : CbWorld V σ) : Res (CbWorld V σ) :=
  if src.length < narg then .ub
  else
    let args := (src.take narg).map w.mem
    match ret with
    | .value => do
      let (v, st) ← f (args ++ kwds) w.st
      pure { mem := w.mem.put dst v, st := st }
    | .nothing => do
      let (_, st) ← f (args ++ kwds) w.st
      pure { w with st := st }
    | .wrapper => do
      let (v, st) ← f (w.mem dst :: args ++ kwds) w.st
      pure { mem := w.mem.put dst v, st := st }

/-- The loop of `forward_na_kernel::single`.  forward_na_kernel.hpp:17-32. -/
def cbForward {V σ : Type} (child : Res (CbWorld V σ)) (na : V) (dst : Int) (src : List Int) (w : CbWorld V σ) :
    List (Nat × (V → Bool)) → Res (CbWorld V σ)
  | [] => child
  | (i, t) :: ts =>
    match src[i]? with
    | none => .ub
    | some a => if t (w.mem a) then .ok (w.put dst na) else cbForward child na dst src w ts

/-- The argument pointers (or strides) of the child of a state-inserting kernel: `x` at position `i`.
    /repo/include/dynd/kernels/state_kernel.hpp:27-52. -/
def cbInsert (narg i : Nat) (x : Int) (src : List Int) : Res (List Int) :=
  if src.length < narg ∨ narg < i then .ub else .ok (src.take i ++ x :: (src.take narg).drop i)


/-- `kernel_prefix::single`: the function pointer is called as a single kernel; it must be one.
    kernel_prefix.hpp:86. -/
def CbMethods.asSingle {V σ : Type} (m : CbMethods V σ) (r : CbReq) (dst : Int) (src : List Int) (w : CbWorld V σ) :
    Res (CbWorld V σ) :=
  if r = .single then m.single dst src w else .ub

/-- `kernel_prefix::strided`.  kernel_prefix.hpp:88-90. -/
def CbMethods.asStrided {V σ : Type} (m : CbMethods V σ) (r : CbReq) (dst ds : Int) (src ss : List Int) (n : Nat)
    (w : CbWorld V σ) : Res (CbWorld V σ) :=
  if r = .strided then m.strided dst ds src ss n w else .ub

/-- The member functions of a kernel.  compound_kernel.hpp:19-62, constant_kernel.hpp:19-32, state_kernel.hpp:27-52,
    forward_na_kernel.hpp:17-32, elwise_kernel.hpp:44-50 with the default `strided`. -/
def cbMethods {V σ : Type} : CbKernel V σ → CbMethods V σ
  | .apply _ ret narg kwds f =>
    let one := cbApply ret narg kwds f
    { single := one, strided := fun dst ds src ss n w => cbLoop one ds (ss.take narg) n dst (src.take narg) w }
  | .constant _ data child =>
    { single := fun dst _ w => if child = .single then .ok (w.put dst (w.mem data)) else .ub
      strided := fun dst ds _ _ n w =>
        if child = .strided then
          cbLoop (fun d s w => match s with | [a] => .ok (w.put d (w.mem a)) | _ => .ub) ds [0] n dst [data] w
        else .ub }
  | .left _ c =>
    { single := fun dst src w => match src with
        | s :: _ => (cbMethods c).asSingle c.req dst [dst, s] w
        | [] => .ub
      strided := fun dst ds src ss n w => match src, ss with
        | s :: _, t :: _ => (cbMethods c).asStrided c.req dst ds [dst, s] [ds, t] n w
        | _, _ => .ub }
  | .right _ c =>
    { single := fun dst src w => match src with
        | s :: _ => (cbMethods c).asSingle c.req dst [s, dst] w
        | [] => .ub
      strided := fun dst ds src ss n w => match src, ss with
        | s :: _, t :: _ => (cbMethods c).asStrided c.req dst ds [s, dst] [t, ds] n w
        | _, _ => .ub }
  | .forwardNa _ tests na c =>
    let one := fun dst src w => cbForward ((cbMethods c).asSingle c.req dst src w) na dst src w tests
    { single := one, strided := fun dst ds src ss n w => cbLoop one ds (ss.take 2) n dst (src.take 2) w }
  | .state _ narg i cell c =>
    { single := fun dst src w => do
        let src ← cbInsert narg i cell src
        (cbMethods c).asSingle c.req dst src w
      strided := fun dst ds src ss n w => do
        let src ← cbInsert narg i cell src
        let ss ← cbInsert narg i 0 ss
        (cbMethods c).asStrided c.req dst ds src ss n w }
  | .elw _ lv c =>
    let one := fun dst src w => (cbMethods c).asStrided c.req dst lv.dstStride src lv.srcStride lv.size w
    let N := lv.srcStride.length
    { single := one, strided := fun dst ds src ss n w => cbLoop one ds (ss.take N) n dst (src.take N) w }

/-- A call of the function on raw pointers: `resolve`, instantiate for a single kernel, call it.
    /repo/src/dynd/callables/base_callable.cpp:52-64. -/
def cbRunSingle {V σ : Type} (f : CbFn V σ) (dst : Int) (src : List Int) (w : CbWorld V σ) : Res (CbWorld V σ) := do
  let g := cbResolve f
  let (k, _) ← cbInst g.length .single g
  (cbMethods k).asSingle k.req dst src w

/-- The same for a strided kernel, as an enclosing loop asks for it. -/
def cbRunStrided {V σ : Type} (f : CbFn V σ) (dst ds : Int) (src ss : List Int) (n : Nat) (w : CbWorld V σ) :
    Res (CbWorld V σ) := do
  let g := cbResolve f
  let (k, _) ← cbInst g.length .strided g
  (cbMethods k).asStrided k.req dst ds src ss n w

/-- A call on arrays: the kernel is instantiated with `kernel_request_call`; its `call` collects the data pointers and
    calls its own `single`.  base_callable.cpp:66-80, base_strided_kernel.hpp:47-53, 72-74. -/
def cbRunCall {V σ : Type} (f : CbFn V σ) (dst : Int) (src : List Int) (w : CbWorld V σ) : Res (CbWorld V σ) := do
  let g := cbResolve f
  let (k, _) ← cbInst g.length .call g
  if k.req = .call then (cbMethods k).single dst src w else .ub

/-! ## The declared parameters of compound functions -/

/-- `left_compound`: the declared parameter types and the types its child is resolved with, for a child with the given
    parameters and return type; `none` is the null type that `resize(1)` adds to an empty list.
    /repo/src/dynd/functional.cpp:69-76, compound_callable.hpp:35. -/
def leftCompoundTypes {T : Type} (params : List T) (ret : T) : List (Option T) × List (Option T) :=
  match params with
  | [] => ([none], [some ret, none])
  | a :: _ => ([some a], [some ret, some a])

/-- `right_compound`: `erase(begin())`, undefined on an empty list; the child is resolved with the first argument's
    type and the return type.  functional.cpp:78-85, compound_callable.hpp:61. -/
def rightCompoundTypes {T : Type} (params : List T) (ret : T) : Res (List (Option T) × List (Option T)) :=
  match params with
  | [] => .ub
  | [_] => .ub
  | _ :: b :: rest => .ok ((b :: rest).map some, [some b, some ret])

end Dynd
