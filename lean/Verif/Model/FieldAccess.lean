/-
Fields by name: `array::p`, `nd::access`, `nd::field_access`, over `array::at_array` with the `apply_linear_index`
functions of `fixed_dim_type`, `var_dim_type` and `struct_type`.

Simplifications: the binding of the two arguments of `access` is that of C90; the array of the resolved type that is
allocated and then replaced by the result is left out; branches of `apply_linear_index` no call of `p` reaches (an index
on a pointer, a range of fields) are `.ub`; every scalar type, and every type without arrmeta, is a `leaf`.
-/
import Verif.Model.RaggedIdx
import Verif.Model.Struct

namespace Dynd

/-- A type: scalars, dimensions, pointers, structs with the names and types of their fields. -/
inductive FTy where
  | leaf (id : Nat)
  | fixed (n : Int) (e : FTy)
  | var (e : FTy)
  | ptr (e : FTy)
  | record (fs : List (String × FTy))

/-- The arrmeta: of a struct, the offset of each field, and the arrmeta of each.
    /repo/include/dynd/types/struct_type.hpp:95-110, fixed_dim_type.hpp, var_dim_type.hpp, pointer_type.hpp. -/
inductive FMeta where
  | leaf
  | fixed (n stride : Int) (m : FMeta)
  | var (blk : Option Nat) (stride offset : Int) (m : FMeta)
  | ptr (blk : Option Nat) (offset : Int) (m : FMeta)
  | record (offs : List Int) (ms : List FMeta)

mutual
/-- `arrmeta_copy_construct`: a missing block becomes the embedded one.
    /repo/src/dynd/types/struct_type.cpp:348-363, var_dim_type.cpp:345-356, pointer_type.cpp:180-193. -/
def FMeta.fill (emb : Nat) : FMeta → FMeta
  | .leaf => .leaf
  | .fixed n s m => .fixed n s (m.fill emb)
  | .var b s o m => .var (some (b.getD emb)) s o (m.fill emb)
  | .ptr b o m => .ptr (some (b.getD emb)) o (m.fill emb)
  | .record offs ms => .record offs (fillMetas emb ms)
/-- the arrmeta of the fields -/
def fillMetas (emb : Nat) : List FMeta → List FMeta
  | [] => []
  | m :: ms => m.fill emb :: fillMetas emb ms
end

/-- `get_ndim`: a pointer has the dimensions of its target.  /repo/include/dynd/types/base_dim_type.hpp:27-30,
    /repo/src/dynd/types/pointer_type.cpp:17-24. -/
def FTy.ndims : FTy → Nat
  | .fixed _ e | .var e => e.ndims + 1
  | .ptr e => e.ndims
  | _ => 0

/-- `get_type_at_dimension`: /repo/src/dynd/types/fixed_dim_type.cpp, var_dim_type.cpp, pointer_type.cpp:112-121. -/
def FTy.typeAt : FTy → Nat → FTy
  | t, 0 => t
  | .fixed _ e, n + 1 => e.typeAt n
  | .var e, n + 1 => e.typeAt n
  | .ptr e, n + 1 => .ptr (e.typeAt (n + 1))
  | t, _ + 1 => t

/-- `get_dtype`: /repo/include/dynd/type.hpp. -/
def FTy.dtype (t : FTy) : FTy := t.typeAt t.ndims

/-- The type of the result: fixed_dim_type.cpp:73-89, var_dim_type.cpp:58-112, struct_type.cpp:193-224; type.cpp:217-229 for
    builtin types. -/
def fIdxTy : List IRange → FTy → Bool → Res FTy
  | [], t, _ => .ok t
  | r :: rs, .fixed n e, lead => do
    let l ← applySingleLinearIndex r n
    if l.remove then fIdxTy rs e lead
    else do
      let e' ← fIdxTy rs e false
      pure (.fixed l.size e')
  | r :: rs, .var e, lead =>
    if r.step = 0 then
      if lead then fIdxTy rs e true
      else do
        let e' ← fIdxTy rs e false
        pure (.ptr e')
    else if r.isNop then do
      let e' ← fIdxTy rs e false
      pure (.var e')
    else .throw .runtime
  | r :: rs, .record fs, lead => do
    let l ← applySingleLinearIndex r fs.length
    if l.remove then
      match fs[l.start.toNat]? with
      | some f => fIdxTy rs f.2 lead
      | none => .ub
    else .ub
  | _ :: _, .leaf _, _ => .throw .tooManyIndices
  | _ :: _, .ptr _, _ => .ub

/-- What the arrmeta version leaves: the returned offset, the arrmeta written, `*inout_data` and `inout_dataref`. -/
structure FOut where
  off : Int
  out : FMeta
  data : Int
  ref : Nat

/-- Arrmeta version: fixed_dim_type.cpp:91-142, var_dim_type.cpp:114-200, struct_type.cpp:226-282.  A builtin type has no
    arrmeta and is not called; offsets do not overflow. -/
def fIdxMeta (mem : QMem) (emb : Nat) : List IRange → FTy → FMeta → Bool → Int → Nat → Res FOut
  | [], _, m, _, d, ref => .ok ⟨0, m.fill emb, d, ref⟩
  | r :: rs, .fixed n e, .fixed _ s m, lead, d, ref => do
    let l ← applySingleLinearIndex r n
    if l.remove then
      if lead then fIdxMeta mem emb rs e m true (d + s * l.start) ref
      else do
        let c ← fIdxMeta mem emb rs e m false d ref
        pure ⟨s * l.start + c.off, c.out, d, ref⟩
    else do
      let c ← fIdxMeta mem emb rs e m false d ref
      pure ⟨s * l.start + c.off, .fixed l.size (s * l.stride) c.out, d, ref⟩
  | r :: rs, .var e, .var b s o m, lead, d, ref =>
    if lead then do
      let l ← applySingleLinearIndex r (mem.size d)
      if l.remove then fIdxMeta mem emb rs e m true (mem.ptr d + o + l.start * s) (b.getD emb)
      else if r.isNop then do
        let c ← fIdxMeta mem emb rs e m false d ref
        pure ⟨0, .var (some (b.getD emb)) s (o + c.off) c.out, d, ref⟩
      else .throw .runtime
    else if r.step = 0 then do
      let c ← fIdxMeta mem emb rs e m false d ref
      pure ⟨0, .ptr (some (b.getD emb)) (r.start * s + c.off) c.out, d, ref⟩
    else if r.isNop then do
      let c ← fIdxMeta mem emb rs e m false d ref
      pure ⟨0, .var (some (b.getD emb)) s (o + c.off) c.out, d, ref⟩
    else .throw .runtime
  | r :: rs, .record fs, .record offs ms, lead, d, ref => do
    let l ← applySingleLinearIndex r fs.length
    if l.remove then
      match fs[l.start.toNat]?, offs[l.start.toNat]?, ms[l.start.toNat]? with
      | some f, some o, some m =>
        if lead then fIdxMeta mem emb rs f.2 m true (d + o) ref
        else do
          let c ← fIdxMeta mem emb rs f.2 m false d ref
          pure ⟨o + c.off, c.out, d, ref⟩
      | _, _, _ => .ub
    else .ub
  | _, _, _, _, _, _ => .ub

/-- An array: type, arrmeta, address of the data, owner of the data if it is not the array itself, its own block, its
    access flags. -/
structure FArr where
  ty : FTy
  mt : FMeta
  data : Int
  owner : Option Nat
  self : Nat
  flags : Nat

/-- `is_indexable()`: base_dim_type.hpp:27, struct_type.hpp:54, pointer_type.hpp:41, type.hpp:368. -/
def FTy.indexable : FTy → Bool
  | .leaf _ => false
  | .ptr e => e.indexable
  | _ => true

/-- `array::at_array(nindices, indices)`: array.cpp:127-150.  `fresh` is the block of the result. -/
def fAtArray (mem : QMem) (a : FArr) (idx : List IRange) (fresh : Nat) : Res FArr :=
  if a.ty.indexable then do
    let t ← fIdxTy idx a.ty true
    let o ← fIdxMeta mem a.self idx a.ty a.mt true a.data (a.owner.getD a.self)
    pure ⟨t, o.out.fill o.ref, o.data + o.off, some o.ref, fresh, a.flags⟩
  else if idx = [] then .ok a
  else .throw .tooManyIndices

/-- `get_array_field_kernel::helper`: the full range for each dimension, then the field.
    /repo/include/dynd/kernels/field_access_kernel.hpp:38-50. -/
def getArrayField (mem : QMem) (a : FArr) (i : Int) (fresh : Nat) : Res FArr :=
  if a.ty.ndims = 0 then fAtArray mem a [IRange.single i] fresh
  else fAtArray mem a (List.replicate a.ty.ndims IRange.full ++ [IRange.single i]) fresh

/-- `nd::access(a, name)`: `get_array_field_callable::resolve` and its kernel.
    /repo/src/dynd/access.cpp:18-36, /repo/include/dynd/callables/field_access_callable.hpp:51-76. -/
def ndAccess (mem : QMem) (a : FArr) (name : String) (fresh : Nat) : Res FArr :=
  match a.ty.dtype with
  | .record fs =>
    let i := getFieldIndex (fs.map Prod.fst) name
    if i < 0 then .throw .invalidArg else getArrayField mem a i fresh
  | _ => .throw .invalidArg

/-- The text a `const char *` stands for: up to the first NUL. -/
def cText (s : String) : String := String.ofList (s.toList.takeWhile (· ≠ '\x00'))

/-- `array::p(const std::string &)`, which hands on `name.c_str()`.  /repo/src/dynd/array.cpp:158-160. -/
def FArr.p (mem : QMem) (a : FArr) (name : String) (fresh : Nat) : Res FArr := ndAccess mem a (cText name) fresh

/-- `nd::field_access(a, name)`: type, arrmeta and address handed to the assignment that makes the copy.  `-1` for a name
    that is not found is used as an index.  /repo/include/dynd/callables/field_access_callable.hpp:16-46,
    /repo/include/dynd/kernels/field_access_kernel.hpp:15-27. -/
def fieldSource (a : FArr) (name : String) : Res (FTy × FMeta × Int) :=
  match a.ty with
  | .record fs =>
    let i := getFieldIndex (fs.map Prod.fst) name
    if i < 0 then .ub
    else match a.mt with
      | .record offs ms =>
        match fs[i.toNat]?, offs[i.toNat]?, ms[i.toNat]? with
        | some f, some o, some m => .ok (f.2, m, a.data + o)
        | _, _, _ => .ub
      | _ => .ub
  | _ => .throw .invalidArg

end Dynd
