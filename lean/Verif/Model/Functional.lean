import Verif.Model.Elwise
/-
Higher-order callables: `nd::functional::outer`, `nd::functional::compose`, `nd::functional::where` (and the index
given by elementwise application to a child that asks for it).
-/
namespace Dynd

/-! ## outer -/

/-- The loop that steps over scalar arguments: `i` is the index of the head of the list.
    /repo/include/dynd/callables/outer_entry_callable.hpp:63-65, outer_callable.hpp:63-65. -/
def skipScalars : Nat → List (List Nat) → Nat
  | i, [] => i
  | i, [] :: rest => skipScalars (i + 1) rest
  | i, (_ :: _) :: _ => i

/-- Type resolution from the argument `i` on: for each level the index of the argument whose outermost dimension is
    iterated, and the shape of the result.  Arguments with fixed dimensions only.  The fuel bounds the number of
    levels.  /repo/include/dynd/callables/outer_callable.hpp:27-78, through the dispatch of
    outer_entry_callable.hpp:31-42. -/
def outerLevels : Nat → Nat → List (List Nat) → Res (List Nat × List Nat)
  | 0, i, shapes => if i < shapes.length then .ub else .ok ([], [])
  | f + 1, i, shapes =>
    if i < shapes.length then
      match shapes[i]? with
      | some (n :: rest) => do
        let els := shapes.set i rest
        let (lv, sh) ← outerLevels f (skipScalars i (els.drop i)) els
        pure (i :: lv, n :: sh)
      | _ => .ub
    else .ok ([], [])

/-- `outer_entry_callable::resolve` and the dispatch on the number of arguments: an array of 4 entries, the first
    null.  outer_entry_callable.hpp:22-42, 56-69. -/
def outerResolve (shapes : List (List Nat)) : Res (List Nat × List Nat) :=
  let i := skipScalars 0 shapes
  if i < shapes.length then
    if shapes.length < 4 then outerLevels ((shapes.map List.length).sum) i shapes else .ub
  else .ok ([], [])

/-- Instantiating the kernels: size and stride of the result from its arrmeta, the stride of the iterated argument
    from its arrmeta, zero for the others.
    /repo/include/dynd/kernels/outer_kernel.hpp:19-30, outer_callable.hpp:34-49. -/
def outerInst : List Nat → Dims → List Dims → Res (List ELevel)
  | [], _, _ => .ok []
  | _ :: _, [], _ => .ub
  | i :: lv, (n, ds) :: dst, srcs =>
    match srcs[i]? with
    | some ((_, st) :: rest) => do
      let ks ← outerInst lv dst (srcs.set i rest)
      pure ({ size := n, dstStride := ds, srcStride := (List.replicate srcs.length 0).set i st } :: ks)
    | _ => .ub

/-- A call of `outer(f)` into a destination described by `dst`; the kernel runs like `elwise`'s
    (outer_kernel.hpp:34-38).  The destination's sizes are not compared with the arguments':
    /repo/src/dynd/callables/base_callable.cpp:52-64. -/
def outerApplyTo (dst : Dims) (args : List Dims) : Res (List (Int × List Int)) := do
  let (lv, _) ← outerResolve (args.map (·.map (·.1)))
  let ks ← outerInst lv dst args
  pure (elwRun ks 0 (args.map fun _ => 0))

/-- A call of `outer(f)` that allocates its result, laid out with the strides `strides shape`:
    base_callable.cpp:14-31. -/
def outerApply (strides : List Nat → List Int) (args : List Dims) : Res (List Nat × List (Int × List Int)) := do
  let (_, shape) ← outerResolve (args.map (·.map (·.1)))
  let calls ← outerApplyTo (shape.zip (strides shape)) args
  pure (shape, calls)

/-! ## compose -/

/-- `DYND_BUFFER_CHUNK_SIZE`: /repo/include/dynd/config.hpp. -/
def composeChunk : Nat := 128

/-- What `compose` refuses: the numbers of arguments of the two callables, and whether the buffer type is missing.
    /repo/src/dynd/functional.cpp:39-53. -/
def composeMake (narg1 narg2 : Nat) (noBuffer : Bool) : Res Unit :=
  if narg1 ≠ 1 then .throw .runtime
  else if narg2 ≠ 1 then .throw .invalidArg
  else if noBuffer then .throw .runtime
  else .ok ()

/-- A memory of values addressed by integers. -/
abbrev VMem (V : Type) := Int → V

/-- Writing one value. -/
def VMem.put {V : Type} (m : VMem V) (a : Int) (v : V) : VMem V := fun b => if b = a then v else m b

/-- `strided` of the first child: results into the buffer, from position `i`.
    /repo/include/dynd/kernels/base_strided_kernel.hpp:57-67. -/
def composeFirst {V W : Type} (f : V → W) (m : VMem V) (ss : Int) : Nat → Nat → Int → List W → Res (List W)
  | 0, _, _, buf => .ok buf
  | c + 1, i, s, buf => if i < buf.length then composeFirst f m ss c (i + 1) (s + ss) (buf.set i (f (m s))) else .ub

/-- `strided` of the second child: from the buffer into the destination. -/
def composeSecond {V W : Type} (g : W → V) (buf : List W) (ds : Int) : Nat → Nat → Int → VMem V → Res (VMem V)
  | 0, _, _, m => .ok m
  | c + 1, i, d, m =>
    match buf[i]? with
    | some w => composeSecond g buf ds c (i + 1) (d + ds) (m.put d (g w))
    | none => .ub

/-- One chunk: compose_kernel.hpp:75-76, 84-85. -/
def composeStep {V W : Type} (f : V → W) (g : W → V) (c : Nat) (d ds s ss : Int) (buf : List W) (m : VMem V) :
    Res (List W × VMem V) := do
  let buf ← composeFirst f m ss c 0 s buf
  let m ← composeSecond g buf ds c 0 d m
  pure (buf, m)

/-- The loop over the remaining chunks, `prev` being the size of the last one.  `reset` is what
    `reset_strided_buffer_array` does to the buffer.  compose_kernel.hpp:78-87. -/
def cmpLoop {V W : Type} (f : V → W) (g : W → V) (reset : List W → List W) :
    Nat → Nat → Nat → Int → Int → Int → Int → List W → VMem V → Res (VMem V)
  | 0, count, _, _, _, _, _, _, m => if count = 0 then .ok m else .ub
  | fuel + 1, count, prev, d, ds, s, ss, buf, m =>
    if count = 0 then .ok m
    else do
      let s := s + (prev : Int) * ss
      let d := d + (prev : Int) * ds
      let c := min count composeChunk
      let (buf, m) ← composeStep f g c d ds s ss (reset buf) m
      cmpLoop f g reset fuel (count - c) c d ds s ss buf m

/-- `compose_kernel::strided`: /repo/include/dynd/kernels/compose_kernel.hpp:57-88.  `buf` is the freshly made buffer
    of 128 elements; source and destination are addressed in the same memory. -/
def composeInMem {V W : Type} (f : V → W) (g : W → V) (reset : List W → List W) (buf : List W) (count : Nat)
    (d ds s ss : Int) (m : VMem V) : Res (VMem V) := do
  let c := min count composeChunk
  let (buf, m) ← composeStep f g c d ds s ss buf m
  cmpLoop f g reset count (count - c) c d ds s ss buf m

/-! ## where, and the index of an elementwise call -/

/-- The levels of an elementwise application whose result is not lifted (`res_ignore`), one argument: `sh` are the
    sizes in the argument's type, the size of a level is read from the argument's arrmeta, which is not advanced past
    a dimension of size 1.
    /repo/include/dynd/callables/elwise_callable.hpp:55-86, base_elwise_callable.hpp:58-72. -/
def ignoreInst : List Nat → Dims → Res (List (Nat × Int))
  | [], _ => .ok []
  | _ :: _, [] => .ub
  | n :: sh, (sz, st) :: rest => do
    if n = 1 then do
      let ls ← ignoreInst sh ((sz, st) :: rest)
      pure ((sz, 0) :: ls)
    else do
      let ls ← ignoreInst sh rest
      pure ((sz, st) :: ls)

/-- The loop of one level: `body` at successive addresses, the entry `k` of the index array being the loop variable.
    /repo/include/dynd/kernels/base_strided_kernel.hpp:57-67 with `begin` of elwise_callable.hpp:24-35 and
    /repo/include/dynd/kernels/where_kernel.hpp:49-52. -/
def indexLoop (body : List Nat → Int → List Nat × List (List Nat × Int)) (k : Nat) (st : Int) :
    Nat → Nat → List Nat → Int → List Nat × List (List Nat × Int)
  | 0, i, idx, _ => (idx.set k i, [])
  | c + 1, i, idx, s =>
    let (idx1, calls1) := body (idx.set k i) s
    let (idx2, calls2) := indexLoop body k st c (i + 1) idx1 (s + st)
    (idx2, calls1 ++ calls2)

/-- Running the levels: the child is called with the index array and the address of its argument.  The level `k` of
    the loops writes the entry `k`: the kernel below the first one has its address (the first has `no_traits`).
    /repo/include/dynd/callables/elwise_dispatch_callable.hpp:80-90, elwise_callable.hpp:24-35. -/
def indexRun : List (Nat × Int) → Nat → List Nat → Int → List Nat × List (List Nat × Int)
  | [], _, idx, s => (idx, [(idx, s)])
  | (n, st) :: ls, k, idx, s => indexLoop (indexRun ls (k + 1)) k st n 0 idx s

/-- The calls of the child of an elementwise application with index, on one argument with dimensions `arg`: index
    array and address.  The index array is made in elwise_entry_callable.hpp:65-76. -/
def indexApply (arg : Dims) : Res (List (List Nat × Int)) := do
  let ls ← ignoreInst (arg.map (·.1)) arg
  pure (indexRun ls 0 (List.replicate arg.length 0) 0).2

/-- The destination of `where` and the kernel's `capacity`: the entries of `data` are those for which there is
    memory. -/
structure WhereDst where
  size : Nat
  data : List Nat
  capacity : Nat
  deriving DecidableEq, Repr

/-- One element: where_kernel.hpp:26-47.  `fresh` is the content of newly allocated memory. -/
def whereSingle (fresh : Nat) (p : Int → Bool) (dst : WhereDst) (call : List Nat × Int) : Res WhereDst :=
  if p call.2 then
    let dst :=
      if dst.size = 0 then { dst with capacity := 1, data := [fresh] }
      else if dst.size = dst.capacity then
        { dst with capacity := dst.size + 1, data := dst.data.take (dst.size + 1) ++
          List.replicate (dst.size + 1 - dst.data.length) fresh }
      else dst
    match call.1 with
    | [] => .ub
    | i :: _ => if dst.size < dst.data.length then .ok { dst with size := dst.size + 1, data := dst.data.set dst.size i } else .ub
  else .ok dst

def whereCalls (fresh : Nat) (p : Int → Bool) : List (List Nat × Int) → WhereDst → Res WhereDst
  | [], dst => .ok dst
  | c :: cs, dst => do
    let dst ← whereSingle fresh p dst c
    whereCalls fresh p cs dst

/-- `where(f)(a)` into a destination holding `old`: functional.cpp:199.  `p` is `f` on the element at an address. -/
def whereTo (fresh : Nat) (p : Int → Bool) (old : List Nat) (arg : Dims) : Res (List Nat) := do
  let calls ← indexApply arg
  let d ← whereCalls fresh p calls { size := old.length, data := old, capacity := 0 }
  pure (d.data.take d.size)

/-- `where(f)(a)`, the result being a new, empty array. -/
def whereApply (fresh : Nat) (p : Int → Bool) (arg : Dims) : Res (List Nat) := whereTo fresh p [] arg

end Dynd
