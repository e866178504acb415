/-
C121, specification: what an assignment between arrays does.
-/
import Verif.Model.CopyRun
import Verif.Props.BinaryCall

namespace Dynd

/-! ### What is stored -/

/-- a function of the address along a dimension, from address `a` in steps of `st`, in order; the first error ends it -/
def alongRes {A B : Type} (f : Int → A → Res B) (st : Int) : Int → List A → Res (List B)
  | _, [] => .ok []
  | a, x :: xs => do
    let y ← f a x
    let ys ← alongRes f st (a + st) xs
    pure (y :: ys)

/-- The value of the destination after assigning the value `u` of a source of `k` dimensions, element by element.  `recs`
    are the records of `var` dimensions that the destination has.  A source with fewer dimensions is taken as a list of
    one; the source's size must be 1 (then it is repeated) or that of the destination, which is fixed by the metadata or
    by the record; a `var` dimension of the destination without a record takes the size of the source. -/
def fillWith {α β : Type} (op : α → Res β) : (Int → Option (Int × Nat)) → List UMeta → Nat → Int → NestVal α → Res (NestVal β)
  | _, [], _, _, .elem x => do let y ← op x; pure (.elem y)
  | _, [], _, _, .list _ => .ub
  | recs, .fixed n st :: r, k, a, u =>
    let xs := if k ≤ r.length then [u] else u.items
    if xs.length = 1 ∨ xs.length = n then do
      let ys ← alongRes (fillWith op recs r (min k r.length)) st a (stretch n xs)
      pure (.list ys)
    else .throw .broadcast
  | recs, .var st o :: r, k, a, u =>
    let xs := if k ≤ r.length then [u] else u.items
    match recs a with
    | some (b, n) =>
      if xs.length = 1 ∨ xs.length = n then do
        let ys ← alongRes (fillWith op recs r (min k r.length)) st (b + o) (stretch n xs)
        pure (.list ys)
      else .throw .broadcast
    | none =>
      if o ≠ 0 then .throw .runtime
      else do
        let ys ← alongRes (fillWith op (fun _ => none) r (min k r.length)) 0 0 xs
        pure (.list ys)

/-! ### The places of the destination -/

/-- the places of `n` elements `st` apart -/
def alongPlaces (f : Int → List Int) (st : Int) : Nat → Int → List Int
  | 0, _ => []
  | n + 1, a => f a ++ alongPlaces f st n (a + st)

/-- the addresses of the scalar elements -/
def cellsAt (recs : Int → Option (Int × Nat)) : List UMeta → Int → List Int
  | [], a => [a]
  | .fixed n st :: r, a => alongPlaces (cellsAt recs r) st n a
  | .var st o :: r, a =>
    match recs a with
    | some (b, n) => alongPlaces (cellsAt recs r) st n (b + o)
    | none => []

/-- the addresses of the records of `var` dimensions -/
def recsAt (recs : Int → Option (Int × Nat)) : List UMeta → Int → List Int
  | [], _ => []
  | .fixed n st :: r, a => alongPlaces (recsAt recs r) st n a
  | .var st o :: r, a =>
    a :: match recs a with
      | some (b, n) => alongPlaces (recsAt recs r) st n (b + o)
      | none => []

/-- all of `n` elements `st` apart -/
def alongAll (P : Int → Prop) (st : Int) : Nat → Int → Prop
  | 0, _ => True
  | n + 1, a => P a ∧ alongAll P st n (a + st)

/-- Below a `var` dimension without a record the metadata is that of a new array (element size `sz`). -/
def NewBelow (sz : Nat) (recs : Int → Option (Int × Nat)) : List UMeta → Int → Prop
  | [], _ => True
  | .fixed n st :: r, a => alongAll (NewBelow sz recs r) st n a
  | .var st o :: r, a =>
    match recs a with
    | some (b, n) => alongAll (NewBelow sz recs r) st n (b + o)
    | none => ∃ ds, r = freshMeta sz ds ∧ st = dataSize sz ds

/-- A destination: no two of its elements share memory, and free memory lies behind it. -/
structure Ready {β : Type} (sz : Nat) (dm : List UMeta) (d : Int) (m : UDst β) : Prop where
  cells : (cellsAt m.recs dm d).Nodup
  recs : (recsAt m.recs dm d).Nodup
  cellsBelow : ∀ a ∈ cellsAt m.recs dm d, a < m.next
  recsBelow : ∀ a ∈ recsAt m.recs dm d, a < m.next
  free : ∀ a, m.next ≤ a → m.recs a = none
  new : NewBelow sz m.recs dm d

/-- The destination has the value `v`, and nothing else that was there before has changed. -/
structure Stores {β : Type} (dm : List UMeta) (d : Int) (m m' : UDst β) (v : NestVal β) : Prop where
  next : m.next ≤ m'.next
  free : ∀ a, m'.next ≤ a → m'.recs a = none
  cells : ∀ a, a < m.next → a ∉ cellsAt m.recs dm d → m'.cells a = m.cells a
  recs : ∀ a, a < m.next → a ∉ recsAt m.recs dm d ∨ (m.recs a).isSome → m'.recs a = m.recs a
  value : ∀ (cells : Int → Option β) (recs : Int → Option (Int × Nat)),
    (∀ a, a ∈ cellsAt m.recs dm d ∨ (m.next ≤ a ∧ a < m'.next) → cells a = m'.cells a) →
    (∀ a, a ∈ recsAt m.recs dm d ∨ (m.next ≤ a ∧ a < m'.next) → recs a = m'.recs a) →
    viewArr cells recs dm d = some v

/-- the outcome is the value, or the same error -/
def Gives {β : Type} (dm : List UMeta) (d : Int) (m : UDst β) : Res (NestVal β) → Res (UDst β) → Prop
  | .ok v, r => ∃ m', r = .ok m' ∧ Stores dm d m m' v
  | .throw e, r => r = .throw e
  | .ub, r => r = .ub

/-! ### The pairs of arrays -/

/-- The sizes may fit; `none` is `var`. -/
inductive SizeMay : Option Nat → Option Nat → Prop
  | same (n : Nat) : SizeMay (some n) (some n)
  | one (n : Nat) : SizeMay (some n) (some 1)
  | toVar (q : Option Nat) : SizeMay none q
  | fromVar (p : Option Nat) : SizeMay p none

/-- `CopyFits a b`: an array of dimensions `b` is assigned correctly to one of dimensions `a`.  `Below q p b`: below a source
    dimension of size 1, or a fixed one that goes to `var`, there are only dimensions of size 1.  A source that is
    repeated as a whole does not begin with `var`. -/
inductive CopyFits : List (Option Nat) → List (Option Nat) → Prop
  | nil : CopyFits [] []
  | both (p q : Option Nat) {a b : List (Option Nat)} : a.length = b.length → SizeMay p q → Below q p b → CopyFits a b →
      CopyFits (p :: a) (q :: b)
  | rep (p : Option Nat) {a b : List (Option Nat)} : b.length ≤ a.length → b.head? ≠ some none → CopyFits a b →
      CopyFits (p :: a) b

end Dynd
