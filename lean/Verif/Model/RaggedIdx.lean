import Verif.Model.Index
/-
Indexing arrays with variable-size dimensions and pointers: `array::at_array` with the `apply_linear_index` functions of
`fixed_dim_type`, `var_dim_type` and `pointer_type`.
-/
namespace Dynd

/-- A type: its dimensions and pointers from outside in, ending in a builtin scalar. -/
inductive QDim where
  | fixed (n : Int)
  | var
  | ptr
  deriving Repr, DecidableEq

/-- The arrmeta of one of them: `fixed_dim_type_arrmeta`, `var_dim_type::metadata_type`, `pointer_type_arrmeta`. -/
inductive QMeta where
  | fixed (n stride : Int)
  | var (blk : Option Nat) (stride offset : Int)
  | ptr (blk : Option Nat) (offset : Int)
  deriving Repr, DecidableEq

/-- Data memory: the pointer stored at an address (the `begin` of a variable-size dimension too), and the `size` stored
    next to it. -/
structure QMem where
  ptr : Int → Int
  size : Int → Int

/-- `arrmeta_copy_construct` of one level: var_dim_type.cpp:345-356, pointer_type.cpp:180-193, fixed_dim_type.cpp (copied). -/
def QMeta.fill (emb : Nat) : QMeta → QMeta
  | .fixed n s => .fixed n s
  | .var b s o => .var (some (b.getD emb)) s o
  | .ptr b o => .ptr (some (b.getD emb)) o

/-- Type version: fixed_dim_type.cpp:73-89, var_dim_type.cpp:58-112, pointer_type.cpp:59-71; type.cpp:217-229 for builtin
    types. -/
def qIdxTy : List QDim → List IRange → Bool → Res (List QDim)
  | [], [], _ => .ok []
  | [], _ :: _, _ => .throw .tooManyIndices
  | d :: e, [], _ => .ok (d :: e)
  | .fixed n :: e, r :: rs, lead => do
    let l ← applySingleLinearIndex r n
    if l.remove then qIdxTy e rs lead
    else do
      let e' ← qIdxTy e rs false
      pure (.fixed l.size :: e')
  | .var :: e, r :: rs, lead =>
    if r.step = 0 then
      if lead then qIdxTy e rs true
      else do
        let e' ← qIdxTy e rs false
        pure (.ptr :: e')
    else if r.isNop then do
      let e' ← qIdxTy e rs false
      pure (.var :: e')
    else .throw .runtime
  | .ptr :: e, r :: rs, lead => do
    let e' ← qIdxTy e (r :: rs) lead
    pure (.ptr :: e')

/-- What the arrmeta version leaves: the returned offset, the arrmeta written, `*inout_data` and `inout_dataref`. -/
structure QOut where
  off : Int
  metas : List QMeta
  data : Int
  ref : Nat
  deriving Repr, DecidableEq

/-- Arrmeta version: fixed_dim_type.cpp:91-142, var_dim_type.cpp:114-200, pointer_type.cpp:73-95.  `rt` is the result type;
    writing arrmeta of one kind where the result type has none or another kind is undefined.  Offsets do not overflow. -/
def qIdxMeta (mem : QMem) (emb : Nat) : List QDim → List QMeta → List IRange → List QDim → Bool → Int → Nat → Res QOut
  | [], _, _, _, _, d, ref => .ok ⟨0, [], d, ref⟩
  | .fixed n :: e, .fixed n' s :: ms, idx, rt, lead, d, ref =>
    match idx with
    | [] => .ok ⟨0, (QMeta.fixed n' s :: ms).map (QMeta.fill emb), d, ref⟩
    | r :: rs => do
      let l ← applySingleLinearIndex r n
      if l.remove then
        if e = [] then .ok ⟨s * l.start, [], d, ref⟩
        else if lead then qIdxMeta mem emb e ms rs rt true (d + s * l.start) ref
        else do
          let c ← qIdxMeta mem emb e ms rs rt false d ref
          pure ⟨s * l.start + c.off, c.metas, d, ref⟩
      else match rt with
        | .fixed _ :: re => do
          let c ← qIdxMeta mem emb e ms rs re false d ref
          pure ⟨s * l.start + c.off, .fixed l.size (s * l.stride) :: c.metas, d, ref⟩
        | _ => .ub
  | .var :: e, .var b s o :: ms, idx, rt, lead, d, ref =>
    match idx with
    | [] => .ok ⟨0, (QMeta.var b s o :: ms).map (QMeta.fill emb), d, ref⟩
    | r :: rs =>
      if lead then do
        let l ← applySingleLinearIndex r (mem.size d)
        if l.remove then
          qIdxMeta mem emb e ms rs rt true (mem.ptr d + o + l.start * s) (b.getD emb)
        else if r.isNop then match rt with
          | .var :: re => do
            let c ← qIdxMeta mem emb e ms rs re false d ref
            pure ⟨0, .var (some (b.getD emb)) s (o + c.off) :: c.metas, d, ref⟩
          | _ => .ub
        else .throw .runtime
      else if r.step = 0 then match rt with
        | .ptr :: re => do
          let c ← qIdxMeta mem emb e ms rs re false d ref
          pure ⟨0, .ptr (some (b.getD emb)) (r.start * s + c.off) :: c.metas, d, ref⟩
        | _ => .ub
      else if r.isNop then match rt with
        | .var :: re => do
          let c ← qIdxMeta mem emb e ms rs re false d ref
          pure ⟨0, .var (some (b.getD emb)) s (o + c.off) :: c.metas, d, ref⟩
        | _ => .ub
      else .throw .runtime
  | .ptr :: e, .ptr b o :: ms, idx, rt, _, d, ref =>
    match rt with
    | .ptr :: re => do
      let c ← qIdxMeta mem emb e ms idx re false d ref
      pure ⟨0, .ptr b (o + c.off) :: c.metas, d, ref⟩
    | _ => .ub
  | _ :: _, _, _, _, _, _, _ => .ub

/-- An array: type, arrmeta, address of the data, owner of the data if it is not the array itself, its own block. -/
structure QArr where
  dims : List QDim
  metas : List QMeta
  data : Int
  owner : Option Nat
  self : Nat
  deriving Repr, DecidableEq

/-- `is_indexable()`: base_dim_type.hpp:27, pointer_type.hpp:41 (the flags of the target are taken over), type.hpp:368. -/
def qIndexable : List QDim → Bool
  | [] => false
  | .ptr :: e => qIndexable e
  | _ :: _ => true

/-- `array::at_array(nindices, indices, collapse_leading)`: array.cpp:127-150.  `fresh` is the block of the result. -/
def qAtArray (mem : QMem) (a : QArr) (idx : List IRange) (collapse : Bool) (fresh : Nat) : Res QArr :=
  if qIndexable a.dims then do
    let t ← qIdxTy a.dims idx collapse
    let o ← qIdxMeta mem a.self a.dims a.metas idx t collapse a.data (a.owner.getD a.self)
    pure ⟨t, o.metas.map (QMeta.fill o.ref), o.data + o.off, some o.ref, fresh⟩
  else if idx = [] then .ok a
  else .throw .tooManyIndices

/-- `array::operator()(i0, ...)`, `array::at`: array.hpp:166-190. -/
def qCall (mem : QMem) (a : QArr) (idx : List IRange) (fresh : Nat) : Res QArr := qAtArray mem a idx true fresh

/-- The array that `array::vals_at(i0, ...)` assigns to or reads: array.hpp:519-533. -/
def qValsAt (mem : QMem) (a : QArr) (idx : List IRange) (fresh : Nat) : Res QArr := qAtArray mem a idx false fresh

end Dynd
