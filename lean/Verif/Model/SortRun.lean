/-
`nd::sort(a)` and `nd::binary_search(a, v)` as they are called: the check of the arguments, the choice of the comparison
for the element type, the kernels built from the array metadata, and the run on memory.

Simplifications: the destination of `binary_search` is not given by the caller; the elements of an array to be sorted are
opaque cells (an element is moved as a whole: `value_bytes` copies its bytes), a missing optional value is its own
cell value; an option inside an option is not modelled; `std::sort` is a parameter, and undefined when its comparison is
not a strict weak order on the elements.
-/
import Verif.Model.Operators
import Verif.Model.UnaryOps
import Verif.Model.Stats
import Verif.Model.Kernels
import Verif.Model.Bool1

namespace Dynd

/-! ### sort -/

/-- What an element of an array holds: an integer (0 or 1 for a boolean), the bits of a floating point number, the bytes
    of a string as `char`s, a missing value. -/
inductive SElem where
  | int (v : Int)
  | flt (p : Nat)
  | str (cs : List Int)
  | na
  deriving DecidableEq, Repr

/-- The comparison kernels of `nd::less` for two operands of one type: what they write to their result.
    /repo/include/dynd/kernels/less_kernel.hpp:23-31, /repo/include/dynd/types/string_type.hpp:45-47. -/
def lessCell : OTree → SElem → SElem → Res Int
  | .mk (.kern (.flt .f32) (.flt .f32)) [], .flt a, .flt b => .ok (b1Make (lessF .single a b))
  | .mk (.kern (.flt .f64) (.flt .f64)) [], .flt a, .flt b => .ok (b1Make (lessF .double a b))
  | .mk (.kern _ _) [], .int a, .int b => .ok (b1Make (decide (a < b)))
  | .mk .eqStr [], .str a, .str b => .ok (b1Make (lexLess a b))
  | _, _, _ => .ub

/-- The same with `forward_na` around it: a missing operand makes `assign_na`, resolved for `option[bool]`, write 2
    whatever the result is stored in.  /repo/include/dynd/kernels/forward_na_kernel.hpp:18-36,
    /repo/include/dynd/kernels/assign_na_kernel.hpp:22-25. -/
def lessOpt : OTree → SElem → SElem → Res Int
  | .mk (.forwardNa i0 i1) (k :: _), a, b =>
    if i0 && a = .na then .ok 2 else if i1 && b = .na then .ok 2 else lessCell k a b
  | k, a, b => lessCell k a b

/-- What `std::sort` asks of a comparison on the elements it is given ([alg.sorting]/4). -/
def strictWeakOn (less : SElem → SElem → Bool) (xs : List SElem) : Bool :=
  xs.all fun a => xs.all fun b => (!(less a b) || !(less b a)) && xs.all fun c => less a b || less b c || !(less a c)

/-- the elements of a strided dimension -/
def gatherCells (mem : Int → Option SElem) (stride : Int) : Nat → Int → Res (List SElem)
  | 0, _ => .ok []
  | n + 1, a =>
    match mem a with
    | none => .ub
    | some x => do
      let r ← gatherCells mem stride n (a + stride)
      pure (x :: r)

/-- writing them back -/
def scatterCells (stride : Int) : List SElem → Int → (Int → Option SElem) → Int → Option SElem
  | [], _, mem => mem
  | x :: xs, a, mem => scatterCells stride xs (a + stride) (putAt mem a x)

/-- the comparison has no result -/
def cellFails : Res Int → Bool
  | .ok _ => false
  | _ => true

/-- The result of the comparison as `std::sort` sees it.  /repo/include/dynd/kernels/sort_kernel.hpp:33-37,
    /repo/include/dynd/bool1.hpp:22. -/
def cellBool : Res Int → Bool
  | .ok v => b1Bool v
  | _ => false

/-- `sort_kernel::single`; the comparison converts the `bool1` its child wrote to `bool`.
    /repo/include/dynd/kernels/sort_kernel.hpp:27-38, /repo/include/dynd/bool1.hpp:22. -/
def sortCells (srt : (SElem → SElem → Bool) → List SElem → List SElem) (less : SElem → SElem → Res Int) (n : Nat)
    (stride base : Int) (mem : Int → Option SElem) : Res (Int → Option SElem) := do
  let xs ← gatherCells mem stride n base
  if n < 2 then pure mem
  else if xs.any fun a => xs.any fun b => cellFails (less a b) then .ub
  else if strictWeakOn (fun a b => cellBool (less a b)) xs then do
    let ys ← sortKernel srt (fun a b => cellBool (less a b)) stride xs
    pure (scatterCells stride ys base mem)
  else .ub

/-- `sort_callable::resolve`: the element type of a fixed dimension (`extended<fixed_dim_type>()` of another type is
    undefined), then `less` on two elements with a `bool1` as its result.  Its own node comes first.
    /repo/include/dynd/callables/sort_callable.hpp:20-40. -/
def resolveSort (same : List Nat → Bool) (tbl : List (Option OEntry)) (fuel : Nat) : Ty → Res (List ONode)
  | .fixedDim _ el => do
    let r ← resolveOp same (fun _ _ => .bool) tbl fuel 2 (.prim .bool) el el
    pure r.1
  | _ => .ub

/-- `nd::sort(a)`: the argument is matched against `Fixed * Scalar`, the call is resolved, the kernel takes size and
    stride from the metadata of the array and is run on its data.
    /repo/src/dynd/callable.cpp:57-71, 96-102, /repo/src/dynd/callables/base_callable.cpp:33-48,
    /repo/include/dynd/callables/sort_callable.hpp:17-18, 25-34, base_strided_kernel.hpp:50-56. -/
def sortCall (same : List Nat → Bool) (tbl : List (Option OEntry)) (fuel : Nat)
    (srt : (SElem → SElem → Bool) → List SElem → List SElem) (a : Ty) (sm : List UMeta) (base : Int)
    (mem : Int → Option SElem) : Res (Int → Option SElem) :=
  if tyMatch same (.fixedDimKind (.kind .scalar)) a then do
    let ns ← resolveSort same tbl fuel a
    let k ← instO fuel ns
    match sm with
    | .fixed n s :: _ => sortCells srt (lessOpt k.1) n s base mem
    | _ => .ub
  else .throw .invalidArg

/-! ### binary_search -/

/-- The overloads of `total_order`.  /repo/src/dynd/total_order.cpp:17-19. -/
inductive TOEntry where
  | str | i32 | bool
  deriving DecidableEq, Repr

/-- Their argument types.  /repo/include/dynd/callables/total_order_callable.hpp:17-19. -/
def TOEntry.sig : TOEntry → List Ty
  | .str => [.leaf .string, .leaf .string]
  | .i32 => [.prim (.int .w32), .prim (.int .w32)]
  | .bool => [.prim .bool, .prim .bool]

/-- `make_total_order`.  /repo/src/dynd/total_order.cpp:13-20, /repo/include/dynd/dispatcher.hpp:150-174. -/
def makeTotal (same : List Nat → Bool) : Res (List (Option TOEntry)) :=
  match dispAssign (tyMatch same) TOEntry.sig [] [.str, .i32, .bool] with
  | (r, .ok _) => .ok r
  | (_, .throw e) => .throw e
  | (_, .ub) => .ub

/-- Memory: bytes, and the strings at the addresses of string objects.  `none`: not part of an object. -/
structure EMem where
  byte : Int → Option Nat
  str : Int → Option (List Int)

/-- a number of `w` bytes, the least first -/
def EMem.num (m : EMem) : Int → Nat → Option Nat
  | _, 0 => some 0
  | a, w + 1 =>
    match m.byte a, m.num (a + 1) w with
    | some b, some r => some (b + 256 * r)
    | _, _ => none

/-- `total_order_kernel::single` on two addresses: does the first element come before the second?
    /repo/include/dynd/kernels/total_order_kernel.hpp:19-41. -/
def orderAt (m : EMem) : TOEntry → Int → Int → Res Bool
  | .i32, a, b =>
    match m.num a 4, m.num b 4 with
    | some x, some y =>
      .ok (decide ((if x < 2 ^ 31 then (x : Int) else x - 2 ^ 32) < (if y < 2 ^ 31 then (y : Int) else y - 2 ^ 32)))
    | _, _ => .ub
  | .bool, a, b =>
    match m.byte a, m.byte b with
    | some x, some y => .ok (x == 0 && y != 0)
    | _, _ => .ub
  | .str, a, b =>
    match m.str a, m.str b with
    | some x, some y => .ok (lexLess x y)
    | _, _ => .ub

/-- `binary_search_kernel::single`; `fuel` bounds the iterations of the loop.
    /repo/include/dynd/kernels/binary_search_kernel.hpp:19-52. -/
def searchAt (m : EMem) (e : TOEntry) (base stride key : Int) : Nat → Int → Int → Res Int
  | 0, _, _ => .ub
  | fuel + 1, first, last =>
    if first < last then do
      let trial := first + (last - first).tdiv 2
      let c0 ← orderAt m e key (base + trial * stride)
      if c0 then searchAt m e base stride key fuel first trial
      else do
        let c1 ← orderAt m e (base + trial * stride) key
        if c1 then searchAt m e base stride key fuel (trial + 1) last
        else pure trial
    else .ok (-1)

/-- `binary_search_callable::resolve`: the comparison for two elements of the array.  The type of the value searched for
    is not looked at.  /repo/include/dynd/callables/binary_search_callable.hpp:22-45,
    /repo/include/dynd/callables/base_dispatch_callable.hpp:19-26. -/
def resolveSearch (same : List Nat → Bool) (tbl : List (Option TOEntry)) : Ty → Res TOEntry
  | .fixedDim _ el => dispCall (tyMatch same) TOEntry.sig [el, el] tbl
  | _ => .throw .unmodelled

/-- `nd::binary_search(a, v)` with `v` at address `key`: the arguments are matched against `Fixed * Scalar` and `Scalar`,
    the kernel takes size and stride from the metadata of the array.
    /repo/src/dynd/callable.cpp:57-71, 96-102, /repo/include/dynd/callables/binary_search_callable.hpp:17-20, 26-35. -/
def searchCall (same : List Nat → Bool) (tbl : List (Option TOEntry)) (a : Ty) (sm : List UMeta) (base : Int) (v : Ty)
    (key : Int) (m : EMem) : Res Int :=
  if tyMatch same (.fixedDimKind (.kind .scalar)) a && tyMatch same (.kind .scalar) v then do
    let e ← resolveSearch same tbl a
    match sm with
    | .fixed n s :: _ => searchAt m e base s key (n + 1) 0 n
    | _ => .ub
  else .throw .invalidArg

/-- `categorical_type::get_value_from_category`: `binary_search` is called on the sorted categories without the check of
    the arguments; `i2v` are the codes of the sorted positions.  /repo/src/dynd/types/categorical_type.cpp:264-282. -/
def categoryCode (same : List Nat → Bool) (tbl : List (Option TOEntry)) (cat : Ty) (n : Nat) (stride base key : Int)
    (m : EMem) (i2v : List Nat) : Res Nat := do
  let e ← resolveSearch same tbl (.fixedDim n cat)
  let i ← searchAt m e base stride key (n + 1) 0 n
  if i < 0 then .throw .runtime
  else match i2v[i.toNat]? with
    | some v => .ok (v % 2 ^ 32)
    | none => .ub

end Dynd
