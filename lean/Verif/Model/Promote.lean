/-
Arithmetic type promotion and `is_lossless_assignment` (`src/dynd/type_promotion.cpp`, `src/dynd/type.cpp`).
-/
import Verif.Model.Basic

namespace Dynd

/-- Integer widths. -/
inductive Wd where | w8 | w16 | w32 | w64 | w128
  deriving DecidableEq, Repr
/-- Floating point formats, in the order of their type ids (/repo/include/dynd/types/type_id.hpp:50-53). -/
inductive FW where | f16 | f32 | f64 | f128
  deriving DecidableEq, Repr
/-- Complex formats. -/
inductive CW where | c32 | c64
  deriving DecidableEq, Repr

/-- The builtin types. /repo/include/dynd/types/type_id.hpp:19-63 (the uninitialised type is left out). -/
inductive BTy where
  | void | bool | int (w : Wd) | uint (w : Wd) | flt (f : FW) | cplx (c : CW)
  deriving DecidableEq, Repr

/-- size in bytes -/
def Wd.size : Wd → Nat | .w8 => 1 | .w16 => 2 | .w32 => 4 | .w64 => 8 | .w128 => 16
/-- size in bytes -/
def FW.size : FW → Nat | .f16 => 2 | .f32 => 4 | .f64 => 8 | .f128 => 16
/-- size in bytes -/
def CW.size : CW → Nat | .c32 => 8 | .c64 => 16

/-- `max` of two float type ids. -/
def FW.max (a b : FW) : FW := if a.size ≤ b.size then b else a

/-- Promotion of two builtin types. /repo/src/dynd/type_promotion.cpp:44-184 (`sizeof(int)` = 4). -/
def promoteB : BTy → BTy → Res BTy
  | .void, b => .ok b
  | .bool, .void => .ok .bool
  | .bool, .bool => .ok (.int .w32)
  | .bool, .int w => .ok (if w.size ≥ 4 then .int w else .int .w32)
  | .bool, .uint w => .ok (if w.size ≥ 4 then .uint w else .int .w32)
  | .bool, .flt f => .ok (if f ≠ .f16 then .flt f else .flt .f32)
  | .bool, .cplx c => .ok (.cplx c)
  | .int v, .void => .ok (.int v)
  | .int v, .bool => .ok (if v.size ≥ 4 then .int v else .int .w32)
  | .int v, .int w =>
    .ok (if v.size < 4 ∧ w.size < 4 then .int .w32 else if v.size ≥ w.size then .int v else .int w)
  | .int v, .uint w =>
    .ok (if v.size < 4 ∧ w.size < 4 then .int .w32 else if v.size > w.size then .int v else .uint w)
  | .int _, .flt f => .ok (if f ≠ .f16 then .flt f else .flt .f32)
  | .int _, .cplx c => .ok (.cplx c)
  | .uint v, .void => .ok (.uint v)
  | .uint v, .bool => .ok (if v.size ≥ 4 then .uint v else .int .w32)
  | .uint v, .int w =>
    .ok (if v.size < 4 ∧ w.size < 4 then .int .w32 else if v.size ≥ w.size then .uint v else .int w)
  | .uint v, .uint w =>
    .ok (if v.size < 4 ∧ w.size < 4 then .int .w32 else if v.size ≥ w.size then .uint v else .uint w)
  | .uint _, .flt f => .ok (if f ≠ .f16 then .flt f else .flt .f32)
  | .uint _, .cplx c => .ok (.cplx c)
  | .flt f, .void => .ok (.flt f)
  | .flt f, .bool => .ok (.flt f)
  | .flt f, .int _ => .ok (.flt f)
  | .flt f, .uint _ => .ok (.flt f)
  | .flt f, .flt g => .ok (.flt (FW.max (FW.max f g) .f32))
  | .flt f, .cplx c => .ok (if f = .f64 ∧ c = .c32 then .cplx .c64 else .cplx c)
  | .cplx c, .void => .ok (.cplx c)
  | .cplx c, .flt f => .ok (if c = .c32 ∧ f = .f64 then .cplx .c64 else .cplx c)
  | .cplx c, .bool => .ok (.cplx c)
  | .cplx c, .int _ => .ok (.cplx c)
  | .cplx c, .uint _ => .ok (.cplx c)
  | .cplx c, .cplx d => .ok (if c.size ≥ d.size then .cplx c else .cplx d)

/-- Value types as seen by promotion.  `other` stands for any further type that is neither a string, option, dimension
    nor `type` (bytes, tuple, struct, pointer, ...).  Expression types are reduced to their value type first
    (`value_type()`), which is not modelled. -/
inductive PTy where
  | b (t : BTy)
  | string
  | fixedString (n enc : Nat)
  | char
  | typ
  | option (t : PTy)
  | varDim (t : PTy)
  | fixedDim (n : Nat) (t : PTy)
  | fixedDimKind (t : PTy)
  | other (n : Nat)
  deriving DecidableEq

namespace PTy
/-- `get_id() == option_id` -/
def isOption : PTy → Bool | option _ => true | _ => false
/-- `string` or `fixed_string` -/
def isStr : PTy → Bool | string => true | fixedString _ _ => true | _ => false
/-- `get_base_id() == string_kind_id`: `string` and `char`, not `fixed_string` (/repo/src/dynd/type_registry.cpp:66-69). -/
def baseStr : PTy → Bool | string => true | char => true | _ => false
/-- `get_base_id() == dim_kind_id`: `var` and the symbolic `Fixed`, not `fixed[n]` (/repo/src/dynd/type_registry.cpp:72-74);
    with the element type. -/
def dimElem : PTy → Option PTy | varDim t => some t | fixedDimKind t => some t | _ => none
/-- `get_id() == var_dim_id` -/
def isVar : PTy → Bool | varDim _ => true | _ => false
end PTy

/-- The `option_type` constructor refuses an option value type. /repo/include/dynd/types/option_type.hpp:79-90. -/
def mkOption (t : PTy) : Res PTy := if t.isOption then .throw .typeError else .ok (.option t)

/-- The tail of `promote_types_arithmetic` for pairs without option. /repo/src/dynd/type_promotion.cpp:207-224, 233-236
    (everything but the dimension case, which recurses). -/
def promoteRest (a b : PTy) : Res PTy :=
  if a = .typ ∧ b.baseStr then .ok a
  else if a.baseStr ∧ b = .typ then .ok b
  else if a = .b .void then .ok b
  else if b = .b .void then .ok a
  else .throw .typeError

/-- `promote_types_arithmetic`. /repo/src/dynd/type_promotion.cpp:37-237. -/
def promote : PTy → PTy → Res PTy
  | .b s, .b t => do let r ← promoteB s t; pure (.b r)
  | .option s, .option t => do let r ← promote s t; mkOption r
  | .option s, b => do let r ← promote s b; mkOption r
  | a, .option t => do let r ← promote a t; mkOption r
  | .varDim s, .varDim t => do let r ← promote s t; pure (.varDim r)
  | .varDim s, .fixedDimKind t => do let r ← promote s t; pure (.varDim r)
  | .fixedDimKind s, .varDim t => do let r ← promote s t; pure (.varDim r)
  | a, b => if a.isStr ∧ b.isStr then .ok .string else promoteRest a b
termination_by a b => sizeOf a + sizeOf b

/-- `is_lossless_assignment(dst, src)` on builtin types; the `void` combinations raise.
    /repo/src/dynd/type.cpp:849-967. -/
def isLossless : BTy → BTy → Res Bool
  | .void, _ => .throw .runtime
  | _, .void => .throw .runtime
  | _, .bool => .ok true
  | .bool, .int _ => .ok false
  | .int d, .int s => .ok (decide (d.size ≥ s.size))
  | .uint _, .int _ => .ok false
  | .flt d, .int s => .ok (decide (d.size > s.size))
  | .cplx d, .int s => .ok (decide (d.size > 2 * s.size))
  | .bool, .uint _ => .ok false
  | .int d, .uint s => .ok (decide (d.size > s.size))
  | .uint d, .uint s => .ok (decide (d.size ≥ s.size))
  | .flt d, .uint s => .ok (decide (d.size > s.size))
  | .cplx d, .uint s => .ok (decide (d.size > 2 * s.size))
  | .bool, .flt _ => .ok false
  | .int _, .flt _ => .ok false
  | .uint _, .flt _ => .ok false
  | .flt d, .flt s => .ok (decide (d.size ≥ s.size))
  | .cplx d, .flt s => .ok (decide (d.size ≥ 2 * s.size))
  | .cplx d, .cplx s => .ok (decide (d.size ≥ s.size))
  | _, .cplx _ => .ok false

end Dynd
