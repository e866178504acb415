import Verif.Model.Basic
/-
`dynd::bool1`: /repo/include/dynd/bool1.hpp.  The value is the stored `char`, taken to be signed (as on x86), as an integer
between -128 and 127.
-/
namespace Dynd

/-- Conversion of an `int` to `char`: wraps around. -/
def toChar (x : Int) : Int := (x + 128) % 256 - 128

/-- `operator bool`: bool1.hpp:22. -/
def b1Bool (m : Int) : Bool := m ≠ 0

/-- `explicit bool1(bool)`: bool1.hpp:20; also `operator=(bool)`: 24-27. -/
def b1Make (b : Bool) : Int := if b then 1 else 0

/-- Operations with a `bool1` result: bool1.hpp:24-59. -/
inductive B1Op where
  /-- `x = b` -/
  | assign (b : Bool)
  /-- `x = +x`, `x = -x`, `x = !x`, `x = ~x` -/
  | plus | minus | not | compl
  /-- `x = x && y`, `x = x || y` -/
  | land (y : Int) | lor (y : Int)
  /-- `x += y`, `x -= y`, `x *= y`, `x /= y` -/
  | add (y : Int) | sub (y : Int) | mul (y : Int) | div (y : Int)

/-- One operation on the stored value: bool1.hpp:24-59. -/
def b1Step (m : Int) : B1Op → Res Int
  | .assign b => .ok (b1Make b)
  | .plus => .ok m
  | .minus => .ok m
  | .not => .ok (b1Make (m = 0))
  | .compl => .ok (b1Make (m = 0))
  | .land y => .ok (b1Make (m ≠ 0 ∧ y ≠ 0))
  | .lor y => .ok (b1Make (m ≠ 0 ∨ y ≠ 0))
  | .add y => .ok (toChar (m + y))
  | .sub y => .ok (toChar (m - y))
  | .mul y => .ok (toChar (m * y))
  | .div y => if y = 0 then .ub else .ok (toChar (m.tdiv y))

/-- A history of operations. -/
def b1Run (m : Int) : List B1Op → Res Int
  | [] => .ok m
  | op :: ops => do
    let m ← b1Step m op
    b1Run m ops

/-- `operator+`, `-`, `*`, `/` with `int` results: bool1.hpp:70-76. -/
inductive B1Arith where
  | add | sub | mul | div

def b1Arith (x y : Int) : B1Arith → Res Int
  | .add => .ok (x + y)
  | .sub => .ok (x - y)
  | .mul => .ok (x * y)
  | .div => if y = 0 then .ub else .ok (x.tdiv y)

inductive B1Cmp where
  | lt | le | eq | ne | ge | gt

/-- Comparison of two integers. -/
def cmpInts (c : B1Cmp) (x y : Int) : Bool :=
  match c with
  | .lt => x < y
  | .le => x ≤ y
  | .eq => x = y
  | .ne => x ≠ y
  | .ge => x ≥ y
  | .gt => x > y

/-- Comparison of two `bool1`: bool1.hpp:136, 148, 160, 172, 184, 196 (both are converted to `bool`). -/
def b1Cmp (c : B1Cmp) (x y : Int) : Bool := cmpInts c (b1Make (b1Bool x)) (b1Make (b1Bool y))

/-- Comparison of a `bool1` with an integer: bool1.hpp:138-146, 150-158, 162-170, 174-182, 186-194, 198-206 (`static_cast<T>` goes through `operator bool`). -/
def b1CmpInt (c : B1Cmp) (x n : Int) : Bool := cmpInts c (b1Make (b1Bool x)) n
def b1IntCmp (c : B1Cmp) (n x : Int) : Bool := cmpInts c n (b1Make (b1Bool x))

/-- `operator<<`: bool1.hpp:208. -/
def b1Print (x : Int) : Nat := if b1Bool x then 49 else 48

/-- Whether an optional value with this byte is there: `is_avail_builtin`, /repo/src/dynd/types/option_type.cpp:56-57. -/
def b1Avail (m : Int) : Bool := m % 256 ≤ 1

end Dynd
