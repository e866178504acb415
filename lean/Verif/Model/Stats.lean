/-
Element kernels of the built-in reductions (`nd::sum`, `nd::min`, `nd::max`, `nd::all`), `nd::sort`, and the chunked
loop of `functional::compose`.  The traversal of a reduction is in `Model/Reduction.lean`.
-/
import Verif.Model.Arith
import Verif.Model.Reduction

namespace Dynd

/-- `sum_kernel<T>::single` for an integer type: `dst = dst + src`, computed in the promoted type and converted back.
    /repo/include/dynd/kernels/sum_kernel.hpp:14-19; `strided` (21-29) performs the same step per element. -/
def sumStep (t : IntTy) (d s : Int) : Res Int := do
  let r ← arithInt .add t t d s
  pure (t.cast r)

/-- The state of an integer sum: the accumulated value, unless an addition was undefined. -/
def sumAcc (t : IntTy) (d : Res Int) (s : Int) : Res Int := d >>= fun x => sumStep t x s

/-- The identity of `nd::sum`: `[] { return 0; }`.  It is stored as an `int`: for elements of another size the bytes of
    the result differ (Model/ReduceRun.lean).  /repo/src/dynd/sum.cpp:24-25. -/
def sumInit : Res Int := .ok 0

/-- `min_kernel<T>::single` for an integer type.  /repo/include/dynd/kernels/min_kernel.hpp:18-22; `strided` 24-35. -/
def minStep (d s : Int) : Int := if s < d then s else d
/-- `max_kernel<T>::single` for an integer type.  /repo/include/dynd/kernels/max_kernel.hpp:19-23; `strided` 25-35. -/
def maxStep (d s : Int) : Int := if s > d then s else d

/-- The identity of `nd::min`: `std::numeric_limits<T>::max()`.  /repo/src/dynd/statistics.cpp:47-51,
    /repo/include/dynd/kernels/limits/max_kernel.hpp:16-18. -/
def minInit (t : IntTy) : Int := t.max
/-- The identity of `nd::max`: `std::numeric_limits<T>::lowest()`.  /repo/src/dynd/statistics.cpp:32-36,
    /repo/include/dynd/kernels/limits/min_kernel.hpp:16-18. -/
def maxInit (t : IntTy) : Int := t.min

/-- Bit pattern of the largest finite number of a format. -/
def Fmt.maxPat (F : Fmt) : Nat := F.pack 0 (F.expMax - 1) (2 ^ F.m - 1)
/-- Bit pattern of the smallest finite number of a format (`std::numeric_limits<F>::lowest()`). -/
def Fmt.lowestPat (F : Fmt) : Nat := F.pack 1 (F.expMax - 1) (2 ^ F.m - 1)

/-- `min_kernel<F>::single` on bit patterns of a floating point format.
    /repo/include/dynd/kernels/min_kernel.hpp:18-22. -/
def minStepF (F : Fmt) (d s : Nat) : Nat := if (F.decode s).lt (F.decode d) then s else d
/-- `max_kernel<F>::single`.  /repo/include/dynd/kernels/max_kernel.hpp:19-23. -/
def maxStepF (F : Fmt) (d s : Nat) : Nat := if (F.decode d).lt (F.decode s) then s else d

/-- `all_kernel::single`.  /repo/include/dynd/kernels/all_kernel.hpp:14-17; identity `true`: /repo/src/dynd/logic.cpp. -/
def allStep (d s : Bool) : Bool := d && s

/-! ## sort -/

/-- `strided_iterator`: data pointer and stride.  /repo/include/dynd/bytes.hpp:99-195. -/
structure SIter where
  data : Int
  stride : Int
  deriving DecidableEq, Repr

/-- `operator+(strided_iterator, ptrdiff_t)`.  bytes.hpp:185-188. -/
def SIter.add (i : SIter) (n : Int) : SIter := ⟨i.data + n * i.stride, i.stride⟩
/-- `operator-(strided_iterator)`: C++ division of the byte distance by the stride (undefined for stride 0).
    bytes.hpp:169. -/
def SIter.sub (i j : SIter) : Res Int := if i.stride = 0 then .ub else .ok ((i.data - j.data).tdiv i.stride)
/-- `operator<`: compares the data pointers.  bytes.hpp:157. -/
def SIter.lt (i j : SIter) : Bool := decide (i.data < j.data)
/-- `operator==`.  bytes.hpp:161. -/
def SIter.eq (i j : SIter) : Bool := decide (i.data = j.data)
/-- `operator++`.  bytes.hpp:119-123. -/
def SIter.inc (i : SIter) : SIter := ⟨i.data + i.stride, i.stride⟩
/-- `operator--`.  bytes.hpp:138-142. -/
def SIter.dec (i : SIter) : SIter := ⟨i.data - i.stride, i.stride⟩

/-- `sort_kernel::single`: `std::sort` over the elements of a strided dimension (`srt` is the library's algorithm, which
    this model takes as given) with the child `nd::less` as comparison.  A negative stride makes `last < first`: the
    iterators are not a valid random access range, undefined behaviour as soon as there are two elements; with stride
    0 the range is empty.  /repo/include/dynd/kernels/sort_kernel.hpp:27-38. -/
def sortKernel {α : Type} (srt : (α → α → Bool) → List α → List α) (less : α → α → Bool) (stride : Int)
    (elems : List α) : Res (List α) :=
  if stride < 0 ∧ 2 ≤ elems.length then .ub
  else if stride = 0 then .ok elems
  else .ok (srt less elems)

/-- `nd::less` on floating point bit patterns of one type, the child of `nd::sort`. -/
def lessF (F : Fmt) (x y : Nat) : Bool := cmpFloat F F .lt x y

/-! ## compose -/

/-- `DYND_BUFFER_CHUNK_SIZE`.  /repo/include/dynd/config.hpp:33. -/
def chunkSize : Nat := 128

/-- The strided function of a child writing `n` buffer elements from index 0. -/
def fillBuf {α β : Type} (f : α → Res β) (S : Int → α) (ss : Int) : Nat → Int → Nat → (Nat → β) → Res (Nat → β)
  | 0, _, _, B => .ok B
  | n + 1, src, i, B => do
    let v ← f (S src)
    fillBuf f S ss n (src + ss) (i + 1) (fun k => if k = i then v else B k)

/-- The strided function of a child reading `n` buffer elements from index 0. -/
def drainBuf {β γ : Type} (g : β → Res γ) (B : Nat → β) (ds : Int) : Nat → Nat → Int → (Int → γ) → Res (Int → γ)
  | 0, _, _, D => .ok D
  | n + 1, i, dst, D => do
    let v ← g (B i)
    drainBuf g B ds n (i + 1) (dst + ds) (fun a => if a = dst then v else D a)

/-- `compose_kernel::strided`: the two child kernels alternate on chunks of at most 128 elements through a buffer.
    Source and destination are separate memories here (no aliasing); the reset of the buffer between chunks
    (`reset_strided_buffer_array`) is not observable because every used buffer element is overwritten.
    /repo/include/dynd/kernels/compose_kernel.hpp:62-92.  `fuel` bounds the `while (count)` loop. -/
def composeLoop {α β γ : Type} (f : α → Res β) (g : β → Res γ) (S : Int → α) (ds ss : Int) :
    (fuel count : Nat) → Int → Int → (Nat → β) → (Int → γ) → Res (Int → γ)
  | 0, _, _, _, _, _ => .ub
  | fuel + 1, count, dst, src, B, D => do
    let c := min count chunkSize
    let B' ← fillBuf f S ss c src 0 B
    let D' ← drainBuf g B' ds c 0 dst D
    if count - c = 0 then .ok D'
    else composeLoop f g S ds ss fuel (count - c) (dst + c * ds) (src + c * ss) B' D'

/-- `compose_kernel::strided`. -/
def composeStrided {α β γ : Type} (f : α → Res β) (g : β → Res γ) (S : Int → α) (ds ss : Int) (count : Nat)
    (dst src : Int) (B : Nat → β) (D : Int → γ) : Res (Int → γ) :=
  composeLoop f g S ds ss (count + 1) count dst src B D

end Dynd
