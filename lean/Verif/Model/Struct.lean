import Verif.Model.Index
/-
Data layout and indexing of nested fixed dimensions / tuples / structs.
Struct types lay out and index their fields exactly as tuple types do (struct_type duplicates the code of
tuple_type), so one constructor `tup` models both; field names are modelled separately.
-/
namespace Dynd

/-- Concrete types with a fixed layout: scalars (builtin types; size and alignment), fixed dimensions
    (/repo/include/dynd/types/fixed_dim_type.hpp:21-40) and tuples/structs
    (/repo/include/dynd/types/tuple_type.hpp:71-95, /repo/include/dynd/types/struct_type.hpp:41-52).
    Not modelled here: var dimensions, pointers, options (an option has its value type's layout,
    /repo/include/dynd/types/option_type.hpp:79-90), symbolic types. -/
inductive LTy where
  | scalar (size al : Nat)
  | dim (n : Nat) (el : LTy)
  | tup (fs : List LTy)

/-- `inc_to_alignment(offset, alignment)`: /repo/include/dynd/type.hpp:24-26, in `size_t` (64 bit)
    arithmetic; `(size_t)(-(ptrdiff_t)alignment)` is `2^64 - alignment`. -/
def incToAlignment (offset al : Nat) : Nat := ((offset + al - 1) % 2 ^ 64) &&& (2 ^ 64 - al)

mutual
/-- `get_data_alignment()`: scalars store it, a fixed dimension takes its element's
    (/repo/include/dynd/types/fixed_dim_type.hpp:31), tuple/struct: see `alignLoop`. -/
def LTy.align : LTy → Nat
  | .scalar _ al => al
  | .dim _ e => e.align
  | .tup fs => alignLoop 1 fs
/-- Accumulation of `m_data_alignment` in the constructors, with its `(uint8_t)` cast:
    /repo/include/dynd/types/tuple_type.hpp:101-107, /repo/include/dynd/types/struct_type.hpp:57-63. -/
def alignLoop (m : Nat) : List LTy → Nat
  | [] => m
  | f :: fs => alignLoop (if f.align > m then f.align % 256 else m) fs
end

mutual
/-- `get_default_data_size()`: /repo/src/dynd/types/fixed_dim_type.cpp:17-23,
    /repo/src/dynd/types/tuple_type.cpp:47-63, /repo/src/dynd/types/struct_type.cpp:58-74. -/
def LTy.dsize : LTy → Nat
  | .scalar s _ => s
  | .dim n e => (n * e.dsize) % 2 ^ 64
  | .tup fs => incToAlignment (sizeLoop 0 fs) (alignLoop 1 fs)
/-- The loop of `get_default_data_size()`: /repo/src/dynd/types/tuple_type.cpp:52-60. -/
def sizeLoop (s : Nat) : List LTy → Nat
  | [] => s
  | f :: fs => sizeLoop ((incToAlignment s f.align + f.dsize) % 2 ^ 64) fs
end

/-- Loop of `fill_default_data_offsets`: /repo/include/dynd/types/tuple_type.hpp:204-208. -/
def fillOffsetsLoop (offs : Nat) (prev : LTy) : List LTy → List Nat
  | [] => []
  | f :: fs =>
    let o := incToAlignment ((offs + prev.dsize) % 2 ^ 64) f.align
    o :: fillOffsetsLoop o f fs

/-- `fill_default_data_offsets`: /repo/include/dynd/types/tuple_type.hpp:200-210,
    /repo/include/dynd/types/struct_type.hpp:186-196. -/
def fillOffsets : List LTy → List Nat
  | [] => []
  | f :: fs => 0 :: fillOffsetsLoop 0 f fs

/-- Arrmeta: nothing for a scalar; (dim_size, stride) for a fixed dimension; a byte offset and the
    field's arrmeta per field for tuple/struct. -/
inductive LMeta where
  | leaf
  | dim (n : Int) (stride : Int) (el : LMeta)
  | tup (fs : List (Int × LMeta))

/-- Attach the offsets to the field arrmetas. -/
def zipOffs : List Nat → List LMeta → List (Int × LMeta)
  | o :: os, m :: ms => ((o : Int), m) :: zipOffs os ms
  | _, _ => []

mutual
/-- `arrmeta_default_construct`: /repo/src/dynd/types/fixed_dim_type.cpp:239-250,
    /repo/src/dynd/types/tuple_type.cpp:268-294. -/
def LTy.defMeta : LTy → LMeta
  | .scalar _ _ => .leaf
  | .dim n e => .dim n e.dsize e.defMeta
  | .tup fs => .tup (zipOffs (fillOffsets fs) (defMetas fs))
/-- The per-field loop of `arrmeta_default_construct`. -/
def defMetas : List LTy → List LMeta
  | [] => []
  | f :: fs => f.defMeta :: defMetas fs
end

/-- Vector access; outside the vector it is undefined behaviour. -/
def getI {α : Type} (l : List α) (i : Int) : Res α :=
  if 0 ≤ i then match l[i.toNat]? with
    | some a => .ok a
    | none => .ub
  else .ub

/-- The loop `for (i = 0; i < n; ++i) out[i] = f(i)`. -/
def tabulate {α : Type} (f : Nat → Res α) : Nat → Res (List α)
  | 0 => .ok []
  | n + 1 => do
    let xs ← tabulate f n
    let x ← f n
    pure (xs ++ [x])

/-- `is_builtin()` of the modelled types. -/
def LTy.isScalar : LTy → Bool
  | .scalar _ _ => true
  | _ => false

/-- Type version of `apply_linear_index`: /repo/src/dynd/types/fixed_dim_type.cpp:73-89,
    /repo/src/dynd/types/tuple_type.cpp:103-130, /repo/src/dynd/types/struct_type.cpp:193-227;
    builtin types raise `too_many_indices` (/repo/src/dynd/type.cpp:217-226). -/
def idxTy : List IRange → LTy → Res LTy
  | [], t => .ok t
  | _ :: _, .scalar _ _ => .throw .tooManyIndices
  | r :: rs, .dim n e => do
    let l ← applySingleLinearIndex r n
    let e' ← idxTy rs e
    if l.remove then pure e' else pure (.dim l.size.toNat e')
  | r :: rs, .tup fs => do
    let l ← applySingleLinearIndex r fs.length
    if l.remove then do
      let f ← getI fs l.start
      idxTy rs f
    else if rs.isEmpty && l.start == 0 && l.stride == 1 && l.size == (fs.length : Int) then pure (.tup fs)
    else do
      let out ← tabulate (fun i => do
        let f ← getI fs (l.start + i * l.stride)
        idxTy rs f) l.size.toNat
      pure (.tup out)

/-- Arrmeta version of `apply_linear_index` (self type, its arrmeta, result type): byte offset to add to the
    data pointer and output arrmeta.  /repo/src/dynd/types/fixed_dim_type.cpp:91-142,
    /repo/src/dynd/types/tuple_type.cpp:132-184, /repo/src/dynd/types/struct_type.cpp:229-282.
    The leading-dimension variant adds the same offsets to the data pointer itself and is merged.
    Note that a sliced tuple continues with the *result's* field type `ft` (as written).
    Offsets are mathematical integers. -/
def idxMeta : List IRange → LTy → LMeta → LTy → Res (Int × LMeta)
  | [], _, m, _ => .ok (0, m)
  | r :: rs, .dim n e, .dim _ s me, rt => do
    let l ← applySingleLinearIndex r n
    if l.remove then
      if e.isScalar then pure (s * l.start, .leaf)
      else do
        let (o, m') ← idxMeta rs e me rt
        pure (s * l.start + o, m')
    else if e.isScalar then pure (s * l.start, .dim l.size (s * l.stride) .leaf)
    else match rt with
      | .dim _ re => do
        let (o, m') ← idxMeta rs e me re
        pure (s * l.start + o, .dim l.size (s * l.stride) m')
      | _ => .ub
  | r :: rs, .tup fs, .tup ms, rt => do
    let l ← applySingleLinearIndex r fs.length
    if l.remove then do
      let f ← getI fs l.start
      let (o, mf) ← getI ms l.start
      if f.isScalar then pure (o, .leaf)
      else do
        let (o2, m') ← idxMeta rs f mf rt
        pure (o + o2, m')
    else match rt with
      | .tup rfs => do
        let out ← tabulate (fun i => do
          let (o, mf) ← getI ms (l.start + i * l.stride)
          let ft ← getI rfs i
          if ft.isScalar then pure (o, LMeta.leaf)
          else do
            let (o2, m') ← idxMeta rs ft mf ft
            pure (o + o2, m')) l.size.toNat
        pure (0, .tup out)
      | _ => .ub
  | _ :: _, .scalar _ _, _, _ => .throw .tooManyIndices
  | _ :: _, _, _, _ => .ub

/-- An array: type, arrmeta, data pointer offset. -/
structure SArr where
  ty : LTy
  md : LMeta
  off : Int

/-- `nd::array::at_array`: type version first, then the arrmeta version
    (/repo/src/dynd/array.cpp:127-150). -/
def SArr.index (a : SArr) (idx : List IRange) : Res SArr := do
  let rt ← idxTy idx a.ty
  let (o, m) ← idxMeta idx a.ty a.md rt
  pure ⟨rt, m, a.off + o⟩

/-- `struct_type::get_field_index(name)`: /repo/src/dynd/types/struct_type.cpp:28-35 (`std::find` from index `i`). -/
def getFieldIndexFrom (i : Nat) (name : String) : List String → Int
  | [] => -1
  | n :: ns => if n = name then (i : Int) else getFieldIndexFrom (i + 1) name ns

/-- `struct_type::get_field_index(name)`: /repo/src/dynd/types/struct_type.cpp:28-35. -/
def getFieldIndex (names : List String) (name : String) : Int := getFieldIndexFrom 0 name names

end Dynd
