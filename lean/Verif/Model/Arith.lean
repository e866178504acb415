/-
Comparison and arithmetic on builtin numbers: `nd::equal` … `nd::greater_equal`, `nd::add` … `nd::right_shift`,
`nd::minus`, `nd::divide`, `nd::mod`, `nd::compound_add`, `nd::compound_div`, and the propagation of missing values
through two-argument callables.

The element kernels are C++ expressions on builtin operands, so what is modelled here is the code of the kernel
together with the language rules it relies on (integral promotion, usual arithmetic conversions, overflow).  Not
modelled: `bool1`, complex and 128-bit operands, the arithmetic (as opposed to comparison) of floating point numbers.
-/
import Verif.Model.FloatCast

namespace Dynd

/-- Integral promotion [conv.prom]: a type narrower than `int` becomes `int` (which holds all its values). -/
def IntTy.promote (t : IntTy) : IntTy := if t.bits < 32 then ⟨32, true⟩ else t

/-- The usual arithmetic conversions [expr]/10 on integer types; also `std::common_type` of two different types.
    With equal signedness the wider type; otherwise the unsigned one unless the signed one is wider. -/
def IntTy.common (a b : IntTy) : IntTy :=
  let p := a.promote
  let q := b.promote
  if p.signed = q.signed then (if p.bits < q.bits then q else p)
  else if p.signed then (if p.bits ≤ q.bits then q else p)
  else (if q.bits ≤ p.bits then p else q)

/-- The six comparison callables. -/
inductive Cmp where
  | eq | ne | lt | le | gt | ge
  deriving DecidableEq, Repr

/-- The C++ operator of the kernel on integers of one type. -/
def Cmp.onInt : Cmp → Int → Int → Bool
  | .eq, x, y => decide (x = y)
  | .ne, x, y => decide (x ≠ y)
  | .lt, x, y => decide (x < y)
  | .le, x, y => decide (x ≤ y)
  | .gt, x, y => decide (x > y)
  | .ge, x, y => decide (x ≥ y)

/-- The comparison kernels for integer element types: same type → direct comparison, else both operands are cast to
    `std::common_type`.  /repo/include/dynd/kernels/equal_kernel.hpp:14-29, not_equal_kernel.hpp:14-30,
    less_kernel.hpp:14-30, less_equal_kernel.hpp:13-29, greater_kernel.hpp:15-31, greater_equal_kernel.hpp:15-31;
    registered for all pairs in comparison_common.hpp:20-39. -/
def cmpInt (op : Cmp) (a b : IntTy) (x y : Int) : Bool :=
  if a = b then op.onInt x y else op.onInt ((a.common b).cast x) ((a.common b).cast y)

/-- The C++ operators on floating point operands of one type. -/
def Cmp.onFV : Cmp → FV → FV → Bool
  | .eq, x, y => x.eq y
  | .ne, x, y => !x.eq y
  | .lt, x, y => x.lt y
  | .le, x, y => x.lt y || x.eq y
  | .gt, x, y => y.lt x
  | .ge, x, y => y.lt x || x.eq y

/-- Integer against floating point: `std::common_type<Int, F>` is `F`, the integer is converted (rounding to nearest).
    Same kernels as `cmpInt`. -/
def cmpIntFloat (F : Fmt) (op : Cmp) (x : Int) (y : Nat) : Bool := op.onFV (.fin (F.ofInt x)) (F.decode y)
/-- Floating point against integer. -/
def cmpFloatInt (F : Fmt) (op : Cmp) (x : Nat) (y : Int) : Bool := op.onFV (F.decode x) (.fin (F.ofInt y))

/-- Two floating point types: the wider is the common type, and the conversion to it is `Fmt.convert`. -/
def cmpFloat (F G : Fmt) (op : Cmp) (x y : Nat) : Bool :=
  if F = G then op.onFV (F.decode x) (F.decode y)
  else if F.m < G.m then op.onFV (F.convert G x) (G.decode y)
  else op.onFV (F.decode x) (G.convert F y)

/-! ## arithmetic -/

/-- The value of an arithmetic expression of integer type `c` with mathematical value `x`: reduced modulo `2^bits`
    when unsigned, undefined on overflow when signed ([expr]/4, [basic.fundamental]/4). -/
def IntTy.arith (c : IntTy) (x : Int) : Res Int :=
  if c.signed then (if c.Has x then .ok x else .ub) else .ok (c.cast x)

/-- `+`, `-`, `*` -/
inductive AOp where
  | add | sub | mul
  deriving DecidableEq, Repr
/-- The mathematical operation. -/
def AOp.eval : AOp → Int → Int → Int
  | .add, x, y => x + y
  | .sub, x, y => x - y
  | .mul, x, y => x * y

/-- `inline_add`, `inline_subtract`, `inline_multiply`: `return a OP b;`.
    /repo/include/dynd/kernels/arithmetic.hpp:112-121.  The result type is that of the expression. -/
def arithInt (op : AOp) (a b : IntTy) (x y : Int) : Res Int :=
  (a.common b).arith (op.eval ((a.common b).cast x) ((a.common b).cast y))

/-- `inline_minus`: `return -a;`. /repo/include/dynd/kernels/arithmetic.hpp:96-107. -/
def negInt (a : IntTy) (x : Int) : Res Int := a.promote.arith (-x)

/-- Value representation of an integer: its residue modulo `2^bits`. -/
def IntTy.repr (c : IntTy) (x : Int) : Nat := (x % ((2 ^ c.bits : Nat) : Int)).toNat

/-- `&`, `|`, `^` -/
inductive BOp where
  | and | or | xor
  deriving DecidableEq, Repr
/-- On bit patterns. -/
def BOp.onNat : BOp → Nat → Nat → Nat
  | .and, x, y => x &&& y
  | .or, x, y => x ||| y
  | .xor, x, y => x ^^^ y

/-- `inline_bitwise_and`, `_or`, `_xor`. /repo/include/dynd/kernels/arithmetic.hpp:122-132. -/
def bitInt (op : BOp) (a b : IntTy) (x y : Int) : Int :=
  let c := a.common b
  c.cast (op.onNat (c.repr x) (c.repr y))

/-- `inline_bitwise_not`: `return ~a;`. /repo/include/dynd/kernels/arithmetic.hpp:107. -/
def notInt (a : IntTy) (x : Int) : Int := a.promote.cast ((2 ^ a.promote.bits - 1 - a.promote.repr x : Nat) : Int)

/-- `inline_left_shift`: `a << b` ([expr.shift], C++14: the type is that of the promoted left operand; undefined for a
    count that is negative or not below the width, for a negative left operand, and when the result does not fit the
    corresponding unsigned type).  /repo/include/dynd/kernels/arithmetic.hpp:133. -/
def shlInt (a : IntTy) (x y : Int) : Res Int :=
  let c := a.promote
  if y < 0 ∨ (c.bits : Int) ≤ y then .ub
  else if c.signed then
    if x < 0 ∨ ((2 ^ c.bits : Nat) : Int) ≤ x * (2 ^ y.toNat : Nat) then .ub else .ok (c.cast (x * (2 ^ y.toNat : Nat)))
  else .ok (c.cast (x * (2 ^ y.toNat : Nat)))

/-- `inline_right_shift`: `a >> b` (arithmetic shift on all supported compilers).
    /repo/include/dynd/kernels/arithmetic.hpp:134. -/
def shrInt (a : IntTy) (x y : Int) : Res Int :=
  if y < 0 ∨ (a.promote.bits : Int) ≤ y then .ub else .ok (x / (2 ^ y.toNat : Nat))

/-- What the two operands of `/` and `%` can be (`bool1` and complex are not modelled). -/
inductive NumTy where
  | int (t : IntTy)
  | flt (F : Fmt)
  deriving DecidableEq, Repr
/-- `is_signed_integral<T>` -/
def NumTy.isSignedIntegral : NumTy → Bool
  | .int t => t.signed
  | .flt _ => false
/-- `is_unsigned_integral<T>`: /repo/include/dynd/config.hpp:744-747. -/
def NumTy.isUnsignedIntegral : NumTy → Bool
  | .int t => !t.signed
  | .flt _ => false

/-- `needs_zero_check<Arg0Type, Arg1Type>()`, with the second occurrence of `Arg0Type` in the last disjunct as in the
    source.  /repo/include/dynd/kernels/arithmetic.hpp:165-171. -/
def needsZeroCheck (a b : NumTy) : Bool :=
  (a.isSignedIntegral || a.isUnsignedIntegral) && (b.isSignedIntegral || a.isUnsignedIntegral)

/-- `/`, `%` -/
inductive DOp where
  | div | mod
  deriving DecidableEq, Repr
/-- Truncated division and its remainder. -/
def DOp.eval : DOp → Int → Int → Int
  | .div, x, y => x.tdiv y
  | .mod, x, y => x.tmod y

/-- The C++ expression `a OP b` on integers ([expr.mul]/4): undefined when the divisor is zero or the quotient is not
    representable. -/
def rawDiv (op : DOp) (a b : IntTy) (x y : Int) : Res Int :=
  let c := a.common b
  if c.cast y = 0 then .ub
  else if ¬ c.Has ((c.cast x).tdiv (c.cast y)) then .ub
  else .ok (op.eval (c.cast x) (c.cast y))

/-- `inline_divide`, `inline_mod` on integers. /repo/include/dynd/kernels/arithmetic.hpp:173-203. -/
def divInt (op : DOp) (a b : IntTy) (x y : Int) : Res Int :=
  if needsZeroCheck (.int a) (.int b) then
    if y = 0 then .throw .zeroDiv else rawDiv op a b x y
  else rawDiv op a b x y

/-- Whether `inline_divide<Int, F>` raises for this divisor.  /repo/include/dynd/kernels/arithmetic.hpp:173-203. -/
def divIntFloatRaises (a : IntTy) (F : Fmt) (y : Nat) : Bool :=
  needsZeroCheck (.int a) (.flt F) && (F.decode y).eq (.fin 0)

/-- `compound_add_kernel<Dst, Src>::single` on integers: `dst += src` or `dst = static_cast<Dst>(dst + src)`; the two
    instances compute the same value.  /repo/include/dynd/kernels/compound_add_kernel.hpp:19-62. -/
def compoundAdd (d s : IntTy) (x y : Int) : Res Int := do
  let r ← arithInt .add d s x y
  pure (d.cast r)

/-- `compound_div_kernel<Dst, Src>::single` on integers: no test for zero.
    /repo/include/dynd/kernels/compound_div_kernel.hpp:18-62. -/
def compoundDiv (d s : IntTy) (x y : Int) : Res Int := do
  let r ← rawDiv .div d s x y
  pure (d.cast r)

/-- `compound_add_kernel::strided` / `compound_div_kernel::strided` over `count` elements of a memory:
    read destination and source, write the destination, advance both.  Memory is a function from addresses to
    elements (element-granular: two addresses are equal or disjoint).
    /repo/include/dynd/kernels/compound_add_kernel.hpp:27-37, 51-61; compound_div_kernel.hpp:27-37, 51-61. -/
def compoundStrided (f : Int → Int → Res Int) (ds ss : Int) : Nat → (Int → Int) → Int → Int → Res (Int → Int)
  | 0, m, _, _ => .ok m
  | n + 1, m, dst, src => do
    let v ← f (m dst) (m src)
    compoundStrided f ds ss n (fun a => if a = dst then v else m a) (dst + ds) (src + ss)

/-! ## missing values -/

/-- The loop of `forward_na_kernel<I...>::single`: the first listed argument that is missing makes the result
    missing, otherwise the child is called on all arguments.
    /repo/include/dynd/kernels/forward_na_kernel.hpp:17-32. -/
def forwardNa {α β : Type} (isNa : Nat → α → Bool) (na : β) (child : List α → Res β) : List Nat → List α → Res β
  | [], args => child args
  | i :: is, args =>
    match args[i]? with
    | none => .ub
    | some x => if isNa i x then .ok na else forwardNa isNa na child is args

end Dynd
