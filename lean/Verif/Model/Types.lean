/-
The type objects of libdynd (`ndt::type` and the classes under `src/dynd/types`): the syntax of types,
equality, the number of dimensions, the inherited flags and `get_type_at_dimension`.

Simplifications: memory-space types (CUDA), expression/adapt types, `typevar_constructed` and `State` are not
modelled; a categorical type is represented by an identity number (its `operator==` compares the category
arrays).  Reference counts and the pointer identity of type objects are not part of the syntax.
-/
import Verif.Model.Basic
import Verif.Model.Promote

namespace Dynd

/-- Non-builtin types without type arguments inside, compared by their parameters.
    /repo/src/dynd/types/bytes_type.cpp:83-92, fixed_bytes_type.cpp:58-70, string_type.cpp:105-116,
    fixed_string_type.cpp:120-132, char_type.cpp:58-67, type_type.cpp:23, categorical_type.cpp:344-357. -/
inductive LeafTy where
  | bytes (align : Nat) | fixedBytes (size align : Nat) | string | fixedString (size enc : Nat) | char (enc : Nat)
  | typeT | categorical (ident : Nat)
  deriving DecidableEq, Repr

/-- The kind types "Any", "Scalar", "Bool", ....  /repo/include/dynd/types/type_id.hpp:17-84,
    /repo/src/dynd/type_registry.cpp:34-95. -/
inductive Kind where
  | any | scalar | bool | int | uint | float | complex | bytes | string | fixedBytes | fixedString | categorical
  deriving DecidableEq, Repr

/-- Types.  `struct` keeps the field names and the field types in two vectors, as the class does
    (/repo/include/dynd/types/struct_type.hpp:37-41); dimension sizes are `intptr_t`. -/
inductive Ty where
  | prim (b : BTy)
  | leaf (l : LeafTy)
  | kind (k : Kind)
  | fixedDim (n : Int) (el : Ty)
  | fixedDimKind (el : Ty)
  | varDim (el : Ty)
  | dimKind (el : Ty)
  | pointer (t : Ty)
  | option (t : Ty)
  | tuple (ts : List Ty) (variadic : Bool)
  | struct (names : List String) (ts : List Ty) (variadic : Bool)
  | callable (ret pos kwd : Ty)
  | typevar (name : String)
  | typevarDim (name : String) (el : Ty)
  | ellipsis (name : String) (el : Ty)
  | powDimsym (base : Ty) (exponent : String) (el : Ty)
  | dimFragment (tags : List Int)
  deriving Repr

mutual
/-- `type::operator==` and the `operator==` of the type classes.
    /repo/include/dynd/type.hpp: operator==; /repo/src/dynd/types/fixed_dim_type.cpp:233-237,
    fixed_dim_kind_type.cpp:92-95, var_dim_type.cpp:299-308, dim_kind_type.cpp:55-58, pointer_type.cpp:157-166,
    option_type.cpp:143-152, tuple_type.cpp:245-255, struct_type.cpp:159-169, callable_type.cpp:143-152,
    typevar_type.cpp:52-61, typevar_dim_type.cpp:44-53, ellipsis_dim_type.cpp:47-56, pow_dimsym_type.cpp:67-76,
    dim_fragment_type.cpp:187-197.  The comparison of the data alignments of tuples and structs is left out: the
    alignment is computed from the field types (tuple_type.hpp:103-115). -/
def tyEq : Ty → Ty → Bool
  | .prim a, .prim b => a = b
  | .leaf a, .leaf b => a = b
  | .kind a, .kind b => a = b
  | .fixedDim n a, .fixedDim m b => n == m && tyEq a b
  | .fixedDimKind a, .fixedDimKind b => tyEq a b
  | .varDim a, .varDim b => tyEq a b
  | .dimKind a, .dimKind b => tyEq a b
  | .pointer a, .pointer b => tyEq a b
  | .option a, .option b => tyEq a b
  | .tuple as v, .tuple bs w => tyEqs as bs && v == w
  | .struct ns as v, .struct ms bs w => tyEqs as bs && ns == ms && v == w
  | .callable r p k, .callable r' p' k' => tyEq r r' && tyEq p p' && tyEq k k'
  | .typevar a, .typevar b => a == b
  | .typevarDim a e, .typevarDim b f => a == b && tyEq e f
  | .ellipsis a e, .ellipsis b f => a == b && tyEq e f
  | .powDimsym b x e, .powDimsym b' x' e' => x == x' && tyEq b b' && tyEq e e'
  | .dimFragment a, .dimFragment b => a == b
  | _, _ => false
/-- `std::vector<type>::operator==` -/
def tyEqs : List Ty → List Ty → Bool
  | [], [] => true
  | a :: as, b :: bs => tyEq a b && tyEqs as bs
  | _, _ => false
end

/-- `get_ndim()`.  /repo/include/dynd/type.hpp:450-456, base_dim_type.hpp:28 (`1 + element_tp.get_ndim()`),
    option_type.hpp:81, pointer_type.hpp:42 (0), dim_fragment_type.hpp:35. -/
def Ty.ndim : Ty → Nat
  | .fixedDim _ el | .fixedDimKind el | .varDim el | .dimKind el => el.ndim + 1
  | .typevarDim _ el | .ellipsis _ el | .powDimsym _ _ el => el.ndim + 1
  | .option t => t.ndim
  | .dimFragment tags => tags.length
  | _ => 0

/-- `type_flag_variadic`.  /repo/include/dynd/types/any_kind_type.hpp:16, ellipsis_dim_type.hpp:23,
    fixed_dim_type.hpp:35, fixed_dim_kind_type.hpp:156, var_dim_type.hpp:38, dim_kind_type.cpp:16,
    option_type.hpp:80, pointer_type.hpp:41. -/
def Ty.variadicDims : Ty → Bool
  | .kind .any => true
  | .ellipsis _ _ => true
  | .fixedDim _ el | .fixedDimKind el | .varDim el | .dimKind el => el.variadicDims
  | .option t | .pointer t => t.variadicDims
  | _ => false

/-- `is_scalar()`.  /repo/include/dynd/types/base_type.hpp:164. -/
def Ty.isScalar (t : Ty) : Bool := t.ndim == 0 && !t.variadicDims

mutual
/-- `is_symbolic()`: the flag `type_flag_symbolic` and its inheritance.  Kinds and symbolic dimensions set it,
    dimensions, options, pointers, tuples and structs inherit it, a callable does not.
    /repo/include/dynd/types/typevar_type.hpp:27, tuple_type.hpp:98,117, struct_type.hpp:54, option_type.hpp:80,
    pointer_type.hpp:41, fixed_dim_type.hpp:35, var_dim_type.hpp:38, callable_type.hpp:29,56-58. -/
def Ty.symbolic : Ty → Bool
  | .prim _ | .leaf _ => false
  | .kind _ | .fixedDimKind _ | .dimKind _ | .typevar _ | .typevarDim _ _ | .ellipsis _ _ | .powDimsym _ _ _
  | .dimFragment _ => true
  | .fixedDim _ el | .varDim el => el.symbolic
  | .pointer t | .option t => t.symbolic
  | .tuple ts v => v || anySymbolic ts
  | .struct _ ts v => v || anySymbolic ts
  | .callable _ _ _ => false
/-- some field is symbolic -/
def anySymbolic : List Ty → Bool
  | [] => false
  | t :: ts => t.symbolic || anySymbolic ts
end

/-- `get_type_at_dimension(NULL, i)`.  /repo/src/dynd/types/fixed_dim_type.cpp:159-168,
    fixed_dim_kind_type.cpp:58-65, var_dim_type.cpp:218-227, dim_kind_type.cpp:38-45, typevar_dim_type.cpp:55-62,
    ellipsis_dim_type.cpp:58-67, pointer_type.cpp:112-121, option_type.cpp:127-133, any_kind_type.cpp:30-36,
    base_type.cpp:89-97, type.hpp:501-509. -/
def Ty.atDim : Ty → Nat → Res Ty
  | t, 0 => .ok t
  | .fixedDim _ el, i + 1 | .fixedDimKind el, i + 1 | .varDim el, i + 1 | .dimKind el, i + 1
  | .typevarDim _ el, i + 1 => el.atDim i
  | .ellipsis _ el, i + 1 => if i + 1 ≤ el.ndim then el.atDim i else el.atDim el.ndim
  | .pointer t, i + 1 => do
    let r ← t.atDim (i + 1)
    pure (.pointer r)
  | .option t, i + 1 => t.atDim (i + 1)
  | .kind .any, _ + 1 => .ok (.kind .any)
  | _, _ + 1 => .throw .tooManyIndices

/-- `get_base_id() == k` for the kinds whose matchers use it.  /repo/src/dynd/type_registry.cpp:34-95. -/
def Ty.baseIs (k : Kind) : Ty → Bool
  | .prim .bool => k = .bool
  | .prim (.int _) => k = .int
  | .prim (.uint _) => k = .uint
  | .prim (.flt _) => k = .float
  | .prim (.cplx _) => k = .complex
  | .leaf (.bytes _) => k = .bytes
  | .leaf (.fixedBytes _ _) => k = .fixedBytes
  | .kind .fixedBytes => k = .bytes
  | _ => false

end Dynd
