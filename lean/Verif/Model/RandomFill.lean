/-
`nd::random::uniform` and `nd::rand`: the call with the optional keywords `a`, `b` and a destination, its resolution by
elwise with no arguments, the choice of the distribution, and the run over the destination.

Simplifications: the distributions of the C++ library, the generator and the floating-point numbers are parameters
(`Rng`), with the preconditions of the distributions, which are undefined behaviour when they do not hold; `a` and `b`
are given by keyword; expression types as the type of `a` or `b` are left out; memory is that of `UnaryOps`.
-/
import Verif.Model.UnaryOps
import Verif.Model.TypeMatch

namespace Dynd

/-- a bound or an element: of an integer, a real or a complex type -/
inductive RVal (F : Type) where
  | int (n : Int)
  | real (x : F)
  | cplx (re im : F)
  deriving Repr

/-- The C++ library: `std::uniform_int_distribution<T>(a, b)` and `std::uniform_real_distribution<T>(a, b)` applied to
    a generator; when the latter may be constructed (`a ≤ b` and `b - a` not above the largest number); in which order
    the arguments of a constructor are evaluated. -/
structure Rng (F G : Type) where
  int : BTy → Int → Int → G → Int × G
  real : FW → F → F → G → F × G
  realOk : FW → F → F → Bool
  zero : F
  one : F
  imagFirst : Bool

/-- the types `make_all` instantiates.  /repo/src/dynd/random.cpp:37-38. -/
def randTypes : List BTy :=
  [.int .w32, .int .w64, .uint .w32, .uint .w64, .flt .f32, .flt .f64, .cplx .c32, .cplx .c64]

/-- The table of overloads of `uniform`, looked at by the return type.  /repo/src/dynd/random.cpp:18-21, 31-38. -/
def makeUniform (same : List Nat → Bool) : Res (List (Option UEntry)) := uInserts same [randTypes.map .num] []

/-- The type of `uniform`: `(a: ?R, b: ?R) -> Dims... * R`.  /repo/src/dynd/random.cpp:32-35,
    /repo/src/dynd/functional.cpp:87-111. -/
def randSig : CallSig Ty :=
  { pos := [], posVariadic := false,
    kwds := [(.option (.typevar "R"), "a"), (.option (.typevar "R"), "b")], kwdVariadic := false,
    ret := .ellipsis "Dims" (.typevar "R") }

/-- An array as it occurs in a call of `uniform`: a value of type `t`, a missing value of type `t`, a type object, the
    destination. -/
inductive RArg (F : Type) where
  | val (t : Ty) (v : RVal F)
  | na (t : Ty)
  | tp (t : Ty)
  | dst (t : Ty)
  deriving Repr

/-- `array::get_type` -/
def RArg.typeOf {F : Type} : RArg F → Ty
  | .val t _ | .na t | .dst t => t
  | .tp _ => .leaf .typeT

/-- the value type of an option -/
def optValue : Ty → Option Ty
  | .option t => some t
  | _ => none

/-- `assign_na({{"dst_tp", t}})`: the overloads of `assign_na` are looked at by the return type, and their types are
    those of `is_na`.  /repo/src/dynd/option.cpp:17-20, 29-46. -/
def makeNa {F : Type} (same : List Nat → Bool) (t : Ty) : Res (RArg F) := do
  let tbl ← makeIsNa same
  let _ ← dispCall (tyMatch same) UEntry.sig [t] tbl
  pure (.na t)

/-- `substitute` of the keyword's type and `assign_na`.  /repo/src/dynd/callable.cpp:163-167. -/
def naOf {F : Type} (same : List Nat → Bool) (t : Ty) (σ : Env) : Res (RArg F) := do
  let u ← substTy false σ t
  makeNa same (if u.symbolic then .option (.prim .void) else u)

/-- `nd::empty(value.as<ndt::type>())`.  /repo/include/dynd/callable.hpp:25-29, /repo/src/dynd/array.cpp. -/
def emptyArg {F : Type} : RArg F → Res (RArg F)
  | .tp t => if t.symbolic then .throw .typeError else .ok (.dst t)
  | _ => .throw .typeError

/-- what `callable::call` uses of types and arrays -/
def randOps (F : Type) (same : List Nat → Bool) : CallOps Ty (RArg F) Env :=
  { typeOf := RArg.typeOf, valueType := id, optionValue := optValue, matchTy := matchTy same, naFor := naOf same,
    emptyOf := emptyArg, noVars := Env.empty }

/-! ### Resolution -/

/-- `elwise_dispatch_callable<0>::resolve`.  /repo/include/dynd/callables/elwise_dispatch_callable.hpp:43-93. -/
def elwClass0 (dst : Ty) : ElwClass :=
  if dst.variadicDims || isFixedId dst then .ff
  else if dst.variadicDims || isVarId dst then .vf
  else .fv

/-- One dimension after the other, then the child.
    /repo/include/dynd/callables/base_elwise_callable.hpp:43-122 with N = 0.  `none` for the size or the element of
    something that is no array dimension. -/
def resolveDims0 {X : Type} (f : Ty → Res X) : Nat → Ty → Res (List ElwClass × X)
  | 0, _ => .ub
  | k + 1, dst =>
    match dimSizeOf dst with
    | none => .ub
    | some (_, el, _) => do
      let e ← (if k = 0 then do let x ← f el; pure ([], x) else resolveDims0 f k el)
      pure (elwClass0 dst :: e.1, e.2)

/-- `elwise_entry_callable::resolve` with no arguments; the child's return type has no dimensions.
    /repo/include/dynd/callables/elwise_entry_callable.hpp:33-84. -/
def resolveElw0 {X : Type} (f : Ty → Res X) (cret : Ty) (dst : Ty) : Res (List ElwClass × X) :=
  let k := if dst.variadicDims then 0 else dst.ndim
  if k = 0 then do let x ← f (if dst.variadicDims then cret else dst); pure ([], x)
  else resolveDims0 f k dst

/-- the largest value of an integer type -/
def intMax : BTy → Int
  | .int w => 2 ^ (8 * w.size - 1) - 1
  | .uint w => 2 ^ (8 * w.size) - 1
  | _ => 0

/-- `a` when it is missing.  /repo/include/dynd/callables/uniform_callable.hpp:42-44, 86-88, 130-132. -/
def defaultLow {F G : Type} (r : Rng F G) : BTy → RVal F
  | .flt _ => .real r.zero
  | .cplx _ => .cplx r.zero r.zero
  | _ => .int 0

/-- `b` when it is missing.  /repo/include/dynd/callables/uniform_callable.hpp:49-51, 93-95, 137-139. -/
def defaultHigh {F G : Type} (r : Rng F G) (b : BTy) : RVal F :=
  match b with
  | .flt _ => .real r.one
  | .cplx _ => .cplx r.one r.one
  | b => .int (intMax b)

/-- `kwds[i].is_na() ? default : kwds[i].as<ReturnType>()`: a value is of the type itself.
    /repo/include/dynd/callables/uniform_callable.hpp:41-54. -/
def boundOf {F : Type} (dflt : RVal F) : Option (RArg F) → Res (RVal F)
  | some (.val _ v) => .ok v
  | some (.na _) => .ok dflt
  | _ => .ub

/-- `multidispatch_callable<1>::resolve` and `uniform_callable::resolve`: the type drawn and the bounds.
    /repo/include/dynd/callables/base_dispatch_callable.hpp:19-26, uniform_callable.hpp:33-63. -/
def resolveUniform {F G : Type} (r : Rng F G) (same : List Nat → Bool) (kwds : List (Option (RArg F))) (dst : Ty) :
    Res (BTy × RVal F × RVal F) := do
  let tbl ← makeUniform same
  let e ← dispCall (tyMatch same) UEntry.sig [dst] tbl
  match e with
  | .num b => do
    let lo ← boundOf (defaultLow r b) kwds[0]?.join
    let hi ← boundOf (defaultHigh r b) kwds[1]?.join
    pure (b, lo, hi)
  | _ => .ub

/-! ### The kernels -/

/-- The constructor of the kernel constructs the distributions; their preconditions.
    /repo/include/dynd/kernels/uniform_kernel.hpp:38, 50, 64-65. -/
def distOk {F G : Type} (r : Rng F G) : BTy → RVal F → RVal F → Bool
  | .int _, .int a, .int b | .uint _, .int a, .int b => decide (a ≤ b)
  | .flt w, .real a, .real b => r.realOk w a b
  | .cplx w, .cplx a a', .cplx b b' =>
    let w' := match w with | .c32 => FW.f32 | .c64 => FW.f64
    r.realOk w' a b && r.realOk w' a' b'
  | _, _, _ => false

/-- `single` of the kernel: the value drawn and the generator afterwards.
    /repo/include/dynd/kernels/uniform_kernel.hpp:40, 52, 67-69. -/
def drawOne {F G : Type} (r : Rng F G) : BTy → RVal F → RVal F → G → Res (RVal F × G)
  | .int w, .int a, .int b, g => .ok (.int (r.int (.int w) a b g).1, (r.int (.int w) a b g).2)
  | .uint w, .int a, .int b, g => .ok (.int (r.int (.uint w) a b g).1, (r.int (.uint w) a b g).2)
  | .flt w, .real a, .real b, g => .ok (.real (r.real w a b g).1, (r.real w a b g).2)
  | .cplx w, .cplx a a', .cplx b b', g =>
    let w' := match w with | .c32 => FW.f32 | .c64 => FW.f64
    if r.imagFirst then
      let i := r.real w' a' b' g
      let x := r.real w' a b i.2
      .ok (.cplx x.1 i.1, x.2)
    else
      let x := r.real w' a b g
      let i := r.real w' a' b' x.2
      .ok (.cplx x.1 i.1, i.2)
  | _, _, _, _ => .ub

/-- What a kernel for one dimension holds.  /repo/include/dynd/kernels/elwise_kernel.hpp:50-57, 307-324. -/
inductive RndLevel where
  | ff (size : Nat) (ds : Int)
  | vf (ds doff : Int)
  deriving DecidableEq, Repr

/-- The closures of the elwise nodes.  Metadata read as that of another kind of dimension is undefined.
    /repo/include/dynd/callables/elwise_callable.hpp:53-89, 103-138, 162-204. -/
def inst0 : List ElwClass → List UMeta → Res (List RndLevel)
  | [], _ => .ok []
  | .ff :: r, .fixed n ds :: dm => do
    let x ← inst0 r dm
    pure (.ff n ds :: x)
  | .vf :: r, .var ds doff :: dm => do
    let x ← inst0 r dm
    pure (.vf ds doff :: x)
  | _, _ => .ub

/-- memory and generator -/
abbrev FillState (V G : Type) := UDst V × G

/-- a strided call of a kernel.  /repo/include/dynd/kernels/base_strided_kernel.hpp:71-87, elwise_kernel.hpp:67-77. -/
def rndLoop {S : Type} (body : Int → S → Res S) : Nat → Int → Int → S → Res S
  | 0, _, _, m => .ok m
  | n + 1, ds, d, m => do
    let m' ← body d m
    rndLoop body n ds (d + ds) m'

/-- `single` of the kernels.  A `var` dimension that has no memory yet gets one element.
    /repo/include/dynd/kernels/elwise_kernel.hpp:61-65, 328-356. -/
def run0 {V G : Type} (draw : G → Res (V × G)) : List RndLevel → Int → FillState V G → Res (FillState V G)
  | [], d, m => do
    let x ← draw m.2
    pure ({ m.1 with cells := putAt m.1.cells d x.1 }, x.2)
  | .ff n ds :: r, d, m => rndLoop (run0 draw r) n ds d m
  | .vf ds doff :: r, d, m =>
    match m.1.recs d with
    | some (b, n) => rndLoop (run0 draw r) n (if n ≤ 1 then 0 else ds) (b + doff) m
    | none =>
      if doff ≠ 0 then .throw .runtime
      else rndLoop (run0 draw r) 1 0 m.1.next
        ({ m.1 with recs := putAt m.1.recs d (m.1.next, 1), next := m.1.next + ds }, m.2)

/-! ### The call -/

/-- `uniform({}, kws)`: the binding, the resolution, the kernels; `run` gets the type of the destination.
    /repo/src/dynd/callable.cpp:73-189, /repo/src/dynd/callables/base_callable.cpp:33-50, 66-78. -/
def randResolve {F G : Type} (r : Rng F G) (same : List Nat → Bool) (kws : List (String × Option (RArg F))) :
    Res (Ty × List ElwClass × BTy × RVal F × RVal F) := do
  let o ← bindCall (randOps F same) randSig [] kws
  let x ← resolveElw0 (resolveUniform r same o.kwds) (.typevar "R") o.dstTp
  pure (o.dstTp, x.1, x.2.1, x.2.2.1, x.2.2.2)

/-- building and running the kernels for a destination with metadata `dm` at `d` -/
def randRun {F G : Type} (r : Rng F G) (x : Ty × List ElwClass × BTy × RVal F × RVal F) (dm : List UMeta) (d : Int)
    (m : FillState (RVal F) G) : Res (FillState (RVal F) G) := do
  let l ← inst0 x.2.1 dm
  if distOk r x.2.2.1 x.2.2.2.1 x.2.2.2.2 then run0 (drawOne r x.2.2.1 x.2.2.2.1 x.2.2.2.2) l d m else .ub

/-- the keywords of a call, those not given left out -/
def randKws {F : Type} (a b : Option (Ty × RVal F)) (last : List (String × Option (RArg F))) :
    List (String × Option (RArg F)) :=
  (match a with | some x => [("a", some (RArg.val x.1 x.2))] | none => []) ++
    ((match b with | some x => [("b", some (RArg.val x.1 x.2))] | none => []) ++ last)

/-- `uniform({}, {{"a", a}, {"b", b}, {"dst_tp", t}})`: `nd::empty` of the type at address `base`, zeroed, and the run.
    `sz`: the size of an element.  /repo/include/dynd/callable.hpp:25-29, /repo/src/dynd/callable.cpp:73-189. -/
def randNew {F G : Type} (r : Rng F G) (same : List Nat → Bool) (sz : Nat) (a b : Option (Ty × RVal F)) (t : Ty)
    (base : Int) (g : G) : Res (Ty × List UMeta × FillState (RVal F) G) := do
  let x ← randResolve r same (randKws a b [("dst_tp", some (.tp t))])
  let dm := freshMeta sz (dimsOf x.1)
  let m ← randRun r x dm base
    ({ cells := fun _ => none, recs := fun _ => none, next := base + dataSize sz (dimsOf x.1) }, g)
  pure (x.1, dm, m)

/-- `nd::rand(tp)`.  /repo/include/dynd/random.hpp:21. -/
def ndRand {F G : Type} (r : Rng F G) (same : List Nat → Bool) (sz : Nat) (t : Ty) (base : Int) (g : G) :
    Res (Ty × List UMeta × FillState (RVal F) G) := randNew r same sz none none t base g

/-- `uniform({}, {{"a", a}, {"b", b}, {"dst", x}})` for an array `x` of type `t` with metadata `dm` at `d`. -/
def randInto {F G : Type} (r : Rng F G) (same : List Nat → Bool) (a b : Option (Ty × RVal F)) (t : Ty)
    (dm : List UMeta) (d : Int) (m : FillState (RVal F) G) : Res (FillState (RVal F) G) := do
  let x ← randResolve r same (randKws a b [("dst", some (.dst t))])
  randRun r x dm d m

/-- `uniform({}, {{"a", a}, {"b", b}})` with no destination, up to the allocation of the result. -/
def randNoDst {F G : Type} (r : Rng F G) (same : List Nat → Bool) (a b : Option (Ty × RVal F)) :
    Res (Ty × List ElwClass × BTy × RVal F × RVal F) := randResolve r same (randKws a b [])

end Dynd
