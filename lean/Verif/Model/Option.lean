/-
Missing values: `is_na`, `assign_na` and the strided option assignment kernels
(`include/dynd/kernels/is_na_kernel.hpp`, `assign_na_kernel.hpp`, `assignment_kernels.hpp`).
-/
import Verif.Model.Ints
import Verif.Model.Half
import Verif.Model.Sso
import Verif.Props.Ieee

namespace Dynd

/-- The value types of `option[T]` with an implemented NA: /repo/src/dynd/option.cpp and the specialisations in
    is_na_kernel.hpp.  (`pointer` raises "not yet implemented" in both directions and is left out.) -/
inductive OptTy where
  | bool
  | int (t : IntTy)
  | flt (F : Fmt)
  | cplx (F : Fmt)
  | void
  | bytes
  | string
  deriving DecidableEq

/-- The stored contents of an option value of each type. -/
def OptTy.Rep : OptTy → Type
  | .bool => Nat            -- one byte
  | .int _ => Int
  | .flt _ => Nat           -- the bits
  | .cplx _ => Nat × Nat    -- the bits of the two parts
  | .void => Unit
  | .bytes => SBytes
  | .string => SBytes

/-- `DYND_FLOAT32_NA_AS_UINT`, `DYND_FLOAT64_NA_AS_UINT`. /repo/include/dynd/types/option_type.hpp:19-20. -/
def naBits (F : Fmt) : Nat := if F = Fmt.single then 0x7f8007a2 else 0x7ff00000000007a2

/-- `isnan` on the bits. -/
def fmtIsNan (F : Fmt) (b : Nat) : Bool := decide (F.ex b = F.expMax) && decide (F.sig b ≠ 0)

/-- `begin() == NULL` for `bytes`/`string`: `begin()` is the address of the object itself or of a `new char[]` buffer,
    never null. /repo/include/dynd/types/sso_bytestring.hpp:108-109, 204. -/
def SBytes.beginIsNull : SBytes → Bool
  | .inl _ => false
  | .heap _ _ _ => false

/-- `is_na_kernel<T>::single`. /repo/include/dynd/kernels/is_na_kernel.hpp:19-172. -/
def isNa : (t : OptTy) → t.Rep → Bool
  | .bool, (b : Nat) => decide (b > 1)
  | .int t, (v : Int) => if t.signed then decide (v = t.min) else decide (v = t.max)
  | .flt F, (b : Nat) => fmtIsNan F b
  | .cplx F, (re, im) => decide (re = naBits F) && decide (im = naBits F)
  | .void, _ => true
  | .bytes, s => SBytes.beginIsNull s
  | .string, s => SBytes.beginIsNull s

/-- `assign_na_kernel<T>::single`, given the previous contents (`clear()` releases the buffer of a byte string).
    /repo/include/dynd/kernels/assign_na_kernel.hpp:18-149, sso_bytestring.hpp:158-164. -/
def assignNaOp : (t : OptTy) → t.Rep → t.Rep
  | .bool, _ => (2 : Nat)
  | .int t, _ => if t.signed then t.min else t.max
  | .flt F, _ => naBits F
  | .cplx F, _ => (naBits F, naBits F)
  | .void, _ => ()
  | .bytes, _ => SBytes.empty
  | .string, _ => SBytes.empty

/-- `assign_na_builtin`, used by the JSON and CSV readers: no case for the unsigned types, which are left unchanged.
    /repo/src/dynd/types/option_type.cpp:13-51. -/
def assignNaBuiltin : (t : OptTy) → t.Rep → t.Rep
  | .bool, _ => (2 : Nat)
  | .int t, (old : Int) => if t.signed then t.min else old
  | .flt F, _ => naBits F
  | .cplx F, _ => (naBits F, naBits F)
  | .void, old => old
  | .bytes, old => old
  | .string, old => old

/-- `is_avail_builtin`, used by printing and JSON output: of the unsigned types only `uint32` has a case, the others are
    never available. /repo/src/dynd/types/option_type.cpp:53-82. -/
def isAvailBuiltin : (t : OptTy) → t.Rep → Bool
  | .bool, (b : Nat) => decide (b ≤ 1)
  | .int t, (v : Int) => if t.signed then decide (v ≠ t.min) else decide (t.bits = 32) && decide (v ≠ t.max)
  | .flt F, (b : Nat) => !fmtIsNan F b
  | .cplx F, (re, im) => decide (re ≠ naBits F) || decide (im ≠ naBits F)
  | .void, _ => false
  | .bytes, _ => false
  | .string, _ => false

/-! ### strided kernels

`S`, `D` are the contents of one source and one destination element; memory maps an address to the element stored
there.  The children are given by their effect on one element: `isNaF`, `conv` (the value assignment, which may raise)
and `na` (what `assign_na` stores). -/

section
variable {S D : Type} (isNaF : S → Bool) (conv : S → Res D) (na : D) (srcMem : Int → S)

/-- store at an address -/
def store (m : Int → D) (a : Int) (v : D) : Int → D := fun x => if x = a then v else m x

/-- Strided value assignment: `base_strided_kernel::strided`, one `single` call per element.
    /repo/include/dynd/kernels/base_kernel.hpp (strided wrapper). -/
def valueAssign : Nat → (Int → D) → Int → Int → Int → Int → Res (Int → D)
  | 0, m, _, _, _, _ => .ok m
  | n + 1, m, dst, ds, src, ss => do
    let v ← conv (srcMem src)
    valueAssign n (store m dst v) (dst + ds) ds (src + ss) ss

/-- Strided `assign_na`. /repo/include/dynd/kernels/assign_na_kernel.hpp. -/
def naAssign : Nat → (Int → D) → Int → Int → (Int → D)
  | 0, m, _, _ => m
  | n + 1, m, dst, ds => naAssign n (store m dst na) (dst + ds) ds

/-- Strided `is_na` into the `missing` buffer. /repo/include/dynd/kernels/is_na_kernel.hpp. -/
def isNaStrided : Nat → Int → Int → List Bool
  | 0, _, _ => []
  | n + 1, src, ss => isNaF (srcMem src) :: isNaStrided n (src + ss) ss

/-- `memchr(ptr, v, n)` on the `missing` buffer: index of the first occurrence. -/
def memchrB (v : Bool) : List Bool → Option Nat
  | [] => none
  | b :: r => if b = v then some 0 else (memchrB v r).map (· + 1)

/-- The `do … while (chunk_size > 0)` loop over runs; returns memory, `dst`, and the amount added to the pointer
    array `src` (line "src += chunk_size * src_stride[0]").
    /repo/include/dynd/kernels/assignment_kernels.hpp:801-833. -/
def optRuns : Nat → (Int → D) → Int → Int → Int → Int → List Bool → Res ((Int → D) × Int × Int)
  | 0, _, _, _, _, _, _ => .ub
  | fuel + 1, m, dst, ds, sc, ss, miss =>
    match memchrB true miss with
    | none => do
      let m ← valueAssign conv srcMem miss.length m dst ds sc ss
      pure (m, dst + miss.length * ds, miss.length * ss)
    | some k => do
      let m ← valueAssign conv srcMem k m dst ds sc ss
      let dst := dst + k * ds
      let sc := sc + k * ss
      let miss := miss.drop k
      match memchrB false miss with
      | none => pure (naAssign na miss.length m dst ds, dst + miss.length * ds, 0)
      | some j =>
        let m := naAssign na j m dst ds
        let dst := dst + j * ds
        let sc := sc + j * ss
        let miss := miss.drop j
        if miss.length > 0 then optRuns fuel m dst ds sc ss miss else pure (m, dst, 0)

/-- The chunk loop of `assignment_kernel<option, option>::strided`.  `shift` is how far the array pointer `src` has been
    moved away from the argument array: reading `src[0]` there is undefined.
    /repo/include/dynd/kernels/assignment_kernels.hpp:783-835 (`DYND_BUFFER_CHUNK_SIZE` = `chunk`). -/
def optChunks (chunk : Nat) : Nat → (Int → D) → Int → Int → Int → Int → Int → Nat → Res (Int → D)
  | 0, _, _, _, _, _, _, _ => .ub
  | fuel + 1, m, dst, ds, src0, ss, shift, count =>
    if count > 0 then
      let c := min count chunk
      if shift ≠ 0 then .ub
      else do
        let miss := isNaStrided isNaF srcMem c src0 ss
        let r ← optRuns conv na srcMem (c + 1) m dst ds src0 ss miss
        optChunks chunk fuel r.1 r.2.1 ds src0 ss (shift + r.2.2) (count - c)
    else pure m

/-- `assignment_kernel<option, option>::strided`. -/
def optAssignStrided (m : Int → D) (dst ds src ss : Int) (count : Nat) : Res (Int → D) :=
  optChunks isNaF conv na srcMem 128 (count + 1) m dst ds src ss 0 count

/-- `assignment_kernel<option, option>::single`. /repo/include/dynd/kernels/assignment_kernels.hpp:762-781. -/
def optAssignSingle (m : Int → D) (dst src : Int) : Res (Int → D) :=
  if isNaF (srcMem src) then .ok (store m dst na)
  else do
    let v ← conv (srcMem src)
    pure (store m dst v)

/-- The chunk loop of `option_to_value_ck::strided`. /repo/include/dynd/kernels/assignment_kernels.hpp:914-937. -/
def optToValueChunks (chunk : Nat) : Nat → (Int → D) → Int → Int → Int → Int → Nat → Res (Int → D)
  | 0, _, _, _, _, _, _ => .ub
  | fuel + 1, m, dst, ds, src, ss, count =>
    if count > 0 then
      let c := min count chunk
      if (isNaStrided isNaF srcMem c src ss).any (·) then .throw .overflow
      else do
        let m ← valueAssign conv srcMem c m dst ds src ss
        optToValueChunks chunk fuel m (dst + c * ds) ds (src + c * ss) ss (count - c)
    else pure m

/-- `option_to_value_ck::strided`. -/
def optToValueStrided (m : Int → D) (dst ds src ss : Int) (count : Nat) : Res (Int → D) :=
  optToValueChunks isNaF conv srcMem 128 (count + 1) m dst ds src ss count
end

end Dynd
