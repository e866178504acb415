import Verif.Model.Basic
import Verif.Model.Index
/-
Small kernels: take, binary search, range, byte swapping.
Strided operands are represented by the list of their elements (addressing is covered by the view model);
reading past the end of such a list is undefined behaviour.
-/
namespace Dynd

/-! ## take -/

/-- The loop skipping a run of mask bytes that are zero (`stop = false`) or nonzero (`stop = true`): positions in
    the mask; returns the position at which it stopped.
    /repo/include/dynd/kernels/take_kernel.hpp:36-42.  `fuel` bounds the iterations. -/
def maskRun (nonzero : Bool) (mask : List UInt8) (n : Nat) : Nat → Nat → Res Nat
  | 0, _ => .ub
  | fuel + 1, i =>
    if i < n then
      match mask[i]? with
      | some b => if (b != 0) = nonzero then maskRun nonzero mask n fuel (i + 1) else .ok i
      | none => .ub
    else .ok i

/-- `child_fn(child, dst_ptr, dst_stride, &src0, &src0_stride, count)`: copy `count` elements from position `s`
    behind the elements written so far; the destination has room for `n` elements.
    /repo/include/dynd/kernels/take_kernel.hpp:44-49. -/
def copyRun {α : Type} (src : List α) (s count n : Nat) (dst : List α) : Res (List α) :=
  if s + count ≤ src.length ∧ dst.length + count ≤ n then .ok (dst ++ (src.drop s).take count) else .ub

/-- The outer loop of `masked_take_ck::single`: /repo/include/dynd/kernels/take_kernel.hpp:34-51. -/
def maskLoop {α : Type} (src : List α) (mask : List UInt8) (n : Nat) : Nat → Nat → Nat → List α → Res (List α)
  | 0, _, _, _ => .ub
  | fuel + 1, i, s, dst =>
    if i < n then do
      let i1 ← maskRun false mask n (n + 1) i
      let s1 := s + (i1 - i)
      let i2 ← maskRun true mask n (n + 1) i1
      if i2 > i1 then do
        let dst' ← copyRun src s1 (i2 - i1) n dst
        maskLoop src mask n fuel i2 (s1 + (i2 - i1)) dst'
      else maskLoop src mask n fuel i2 s1 dst
    else .ok dst

/-- `take(a, mask)`: the size check of /repo/include/dynd/callables/take_dispatch_callable.hpp:49-55 and
    `masked_take_ck::single`, /repo/include/dynd/kernels/take_kernel.hpp:21-56; the result is the content of the
    var dimension after shrinking it to the number of elements written. -/
def maskedTake {α : Type} (src : List α) (mask : List UInt8) : Res (List α) :=
  if src.length ≠ mask.length then .throw .invalidArg
  else maskLoop src mask src.length (src.length + 1) 0 0 []

/-- `indexed_take_ck::single`: /repo/include/dynd/kernels/take_kernel.hpp:68-86; the indices are processed in
    order. -/
def indexedTake {α : Type} (src : List α) : List Int → Res (List α)
  | [] => .ok []
  | ix :: rest => do
    let i ← applySingleIndex ix src.length
    let x ← if 0 ≤ i then (match src[i.toNat]? with | some x => .ok x | none => .ub) else .ub
    let xs ← indexedTake src rest
    pure (x :: xs)

/-! ## binary_search -/

/-- `binary_search_kernel::single`: /repo/include/dynd/kernels/binary_search_kernel.hpp:19-52; `less` is the child
    kernel (`total_order`). -/
def bsearchLoop {α : Type} (less : α → α → Bool) (arr : List α) (key : α) : Nat → Nat → Nat → Res Int
  | 0, _, _ => .ub
  | fuel + 1, first, last =>
    if first < last then
      match arr[first + (last - first) / 2]? with
      | none => .ub
      | some x =>
        if less key x then bsearchLoop less arr key fuel first (first + (last - first) / 2)
        else if less x key then bsearchLoop less arr key fuel (first + (last - first) / 2 + 1) last
        else .ok (first + (last - first) / 2 : Nat)
    else .ok (-1)

/-- `binary_search(arr, key)`. -/
def binarySearch {α : Type} (less : α → α → Bool) (arr : List α) (key : α) : Res Int :=
  bsearchLoop less arr key (arr.length + 1) 0 arr.length

/-- `std::lexicographical_compare`, the order used for strings:
    /repo/include/dynd/kernels/total_order_kernel.hpp:33-41. -/
def lexLess : List Int → List Int → Bool
  | _, [] => false
  | [], _ :: _ => true
  | a :: as, b :: bs => if a < b then true else if b < a then false else lexLess as bs

/-! ## range -/

/-- Signed arithmetic in a `w`-bit integer type: overflow is undefined behaviour. -/
def sint (w : Nat) (x : Int) : Res Int := if -(2 ^ (w - 1) : Int) ≤ x ∧ x < 2 ^ (w - 1) then .ok x else .ub

/-- `kwds[i].as<ReturnElementType>()` on a possibly missing argument: converting NA raises. -/
def asGiven : Option Int → Res Int
  | some x => .ok x
  | none => .throw .overflow

/-- Interpretation of the keyword arguments: /repo/include/dynd/callables/range_callable.hpp:37-58. -/
def rangeArgs (start stop step : Option Int) : Res (Int × Int × Int) :=
  match start with
  | none => do
    let b ← asGiven stop
    let s ← asGiven step
    pure (0, b, s)
  | some a =>
    if stop.isNone && step.isNone then pure (0, a, 1)
    else if step.isNone then do
      let b ← asGiven stop
      pure (a, b, 1)
    else do
      let b ← asGiven stop
      let s ← asGiven step
      pure (a, b, s)

/-- Size of the result: /repo/include/dynd/callables/range_callable.hpp:70-86.  `/` truncates. -/
def rangeSize (w : Nat) (start stop step : Int) : Res Nat :=
  if step > 0 then
    if stop ≤ start then .ok 0
    else do
      let d ← sint w (stop - start)
      let d ← sint w (d + step)
      let d ← sint w (d - 1)
      pure (d.tdiv step).toNat
  else if step < 0 then
    if stop ≥ start then .ok 0
    else do
      let d ← sint w (stop - start)
      let d ← sint w (d + step)
      let d ← sint w (d + 1)
      pure (d.tdiv step).toNat
  else .throw .runtime

/-- `range_kernel::single`: /repo/include/dynd/kernels/range_kernel.hpp:26-31. -/
def rangeFill (w : Nat) (start step : Int) (size : Nat) : Nat → Nat → Res (List Int)
  | 0, i => if i < size then .ub else .ok []
  | fuel + 1, i =>
    if i < size then do
      let c ← sint w i
      let m ← sint w (c * step)
      let x ← sint w (start + m)
      let xs ← rangeFill w start step size fuel (i + 1)
      pure (x :: xs)
    else .ok []

/-- `nd::range({}, {{"start", ...}, {"stop", ...}, {"step", ...}})` for a `w`-bit signed integer type. -/
def rangeInt (w : Nat) (start stop step : Option Int) : Res (List Int) := do
  let (a, b, s) ← rangeArgs start stop step
  let n ← rangeSize w a b s
  rangeFill w a s n n 0

/-! ## byteswap -/

/-- `std::swap(dst[i], dst[j])`. -/
def swapAt {α : Type} (l : List α) (i j : Nat) : Res (List α) :=
  match l[i]?, l[j]? with
  | some x, some y => .ok ((l.set i y).set j x)
  | _, _ => .ub

/-- `for (j = 0; j < m; ++j) std::swap(dst[lo + j], dst[hi - j - 1])`: the loops of
    /repo/include/dynd/kernels/byteswap_kernels.hpp:53-55, 80-85. -/
def swapLoop {α : Type} (lo hi : Nat) : Nat → List α → Res (List α)
  | 0, l => .ok l
  | m + 1, l => do
    let l' ← swapLoop lo hi m l
    swapAt l' (lo + m) (hi - m - 1)

/-- `for (j = 0; j < m; ++j) dst[off + j] = src[hi - j - 1]`: the copying loops of
    /repo/include/dynd/kernels/byteswap_kernels.hpp:58-60, 88-93, reading `m` bytes downwards from `hi`. -/
def copyDown {α : Type} (src : List α) (hi : Nat) : Nat → Res (List α)
  | 0 => .ok []
  | m + 1 => do
    let l ← copyDown src hi m
    match (if m + 1 ≤ hi then src[hi - m - 1]? else none) with
    | some x => pure (l ++ [x])
    | none => .ub

/-- `byteswap_ck::single` in place / copying, on the bytes of one element.
    /repo/include/dynd/kernels/byteswap_kernels.hpp:47-62. -/
def byteswapInPlace {α : Type} (l : List α) : Res (List α) := swapLoop 0 l.length (l.length / 2) l

/-- see `byteswapInPlace`. -/
def byteswapCopy {α : Type} (src : List α) : Res (List α) := copyDown src src.length src.length

/-- `pairwise_byteswap_ck::single` in place: /repo/include/dynd/kernels/byteswap_kernels.hpp:78-86. -/
def pairswapInPlace {α : Type} (l : List α) : Res (List α) := do
  let l1 ← swapLoop 0 (l.length / 2) (l.length / 4) l
  swapLoop (l.length / 2) l.length (l.length / 4) l1

/-- `pairwise_byteswap_ck::single` copying: /repo/include/dynd/kernels/byteswap_kernels.hpp:87-94; the first
    `2 * (data_size / 2)` bytes of the destination. -/
def pairswapCopy {α : Type} (src : List α) : Res (List α) := do
  let a ← copyDown src (src.length / 2) (src.length / 2)
  let b ← copyDown src src.length (src.length / 2)
  pure (a ++ b)

/-- `byteswap_value(uint16_t)` (promoted to `int`, converted back): byteswap_kernels.hpp:16. -/
def byteswap16 (v : Nat) : Nat := (((v &&& 0xff) <<< 8) ||| (v >>> 8)) % 2 ^ 16

/-- `byteswap_value(uint32_t)`: byteswap_kernels.hpp:21-24. -/
def byteswap32 (v : Nat) : Nat :=
  ((((v &&& 0xff) <<< 24) % 2 ^ 32 ||| (((v &&& 0xff00) <<< 8) % 2 ^ 32)) ||| ((v &&& 0xff0000) >>> 8)) ||| (v >>> 24)

/-- `byteswap_value(uint64_t)`: byteswap_kernels.hpp:29-34. -/
def byteswap64 (v : Nat) : Nat :=
  ((((((((v &&& 0xff) <<< 56) % 2 ^ 64 ||| (((v &&& 0xff00) <<< 40) % 2 ^ 64)) ||| (((v &&& 0xff0000) <<< 24) % 2 ^ 64)) |||
    (((v &&& 0xff000000) <<< 8) % 2 ^ 64)) ||| ((v &&& 0xff00000000) >>> 8)) ||| ((v &&& 0xff0000000000) >>> 24)) |||
    ((v &&& 0xff000000000000) >>> 40)) ||| (v >>> 56)

end Dynd
