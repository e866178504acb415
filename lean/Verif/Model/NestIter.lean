import Verif.Model.Basic
/-
The iterators over nested containers, `dynd::begin<N>(c)` and `dynd::end<N>(c)`: include/dynd/iterator.hpp.
`iterator` and `const_iterator` (iterator.hpp:22-150 and 152-287) have the same code.
-/
namespace Dynd

/-! ### C arrays: `T c[d₀][d₁]...`, one block of memory; addresses in units of `sizeof(T)` -/

/-- `sizeof(T[d₀][d₁]...) / sizeof(T)` -/
def extent : List Nat → Nat
  | [] => 1
  | d :: ds => d * extent ds

/-- One level of an iterator: `m_current` and `m_end`.  iterator.hpp:28-29, 80-81. -/
structure ItLvl where
  cur : Nat
  stop : Nat
  deriving Repr, DecidableEq

/-- `begin<N>(c)` for an array with the given extents at address `a`: iterator.hpp:83-93, 138-142 (and 31-34 for N = 1).
    `std::begin(c)` is the address of the first element, `std::end(c)` the address after the last one, `*begin` the array
    at that address.  Outermost level first. -/
def cBegin : List Nat → Nat → List ItLvl
  | [], _ => []
  | [d], a => [⟨a, a + d⟩]
  | d :: ds, a => ⟨a, a + d * extent ds⟩ :: cBegin ds a

/-- The constructor from `std::end(c)`: iterator.hpp:95-102, 144-148 (and 36 for N = 1); `*std::prev(end)` is the last
    element, whose end is taken in turn. -/
def cEnd : List Nat → Nat → List ItLvl
  | [], _ => []
  | [_], e => [⟨e, e⟩]
  | _ :: ds, e => ⟨e, e⟩ :: cEnd ds (e - extent ds + extent ds)

/-- `operator++`: iterator.hpp:43-48, 109-119. -/
def cNext : List Nat → List ItLvl → List ItLvl
  | [_], [l] => [⟨l.cur + 1, l.stop⟩]
  | _ :: ds, l :: r =>
    match cNext ds r with
    | [] => [l]
    | b :: r' =>
      if b.cur = b.stop then
        ⟨l.cur + extent ds, l.stop⟩ :: ⟨l.cur + extent ds, l.cur + extent ds + extent ds⟩ :: r'
      else l :: b :: r'
  | _, its => its

/-- `operator*`: the address the innermost level is at.  iterator.hpp:57. -/
def cDeref : List ItLvl → Nat
  | [] => 0
  | [l] => l.cur
  | _ :: r => cDeref r

/-- `operator==`: iterator.hpp:59-62, 128-131. -/
def cIterEq : List ItLvl → List ItLvl → Bool
  | [], [] => true
  | l :: r, l' :: r' => decide (l.cur = l'.cur) && cIterEq r r'
  | _, _ => false

/-- `operator!=`: iterator.hpp:64-67, 133-136. -/
def cIterNe : List ItLvl → List ItLvl → Bool
  | [], [] => false
  | l :: r, l' :: r' => decide (l.cur ≠ l'.cur) || cIterNe r r'
  | _, _ => false

/-- `it++`: the value before, and the iterator afterwards.  iterator.hpp:50-55, 121-126. -/
def cPostInc (ds : List Nat) (it : List ItLvl) : List ItLvl × List ItLvl := (it, cNext ds it)

/-- `for (auto it = begin<N>(c); it != end<N>(c); it++) visit(*it)`: the addresses visited.  `fuel` bounds the loop. -/
def cWalk (ds : List Nat) (e : List ItLvl) : Nat → List ItLvl → Res (List Nat)
  | 0, _ => .ub
  | f + 1, it =>
    if cIterNe it e then do
      let (old, it') := cPostInc ds it
      let r ← cWalk ds e f it'
      pure (cDeref old :: r)
    else .ok []

/-! ### Containers of containers, such as `std::vector<std::vector<T>>` -/

/-- A container of containers, `N` deep, of values. -/
inductive NCont (α : Type) where
  | val (a : α)
  | node (cs : List (NCont α))

/-- The container (or value) at a position, positions given from the outside. -/
def NCont.at? {α : Type} : NCont α → List Nat → Option (NCont α)
  | c, [] => some c
  | .val _, _ :: _ => none
  | .node cs, i :: p => match cs[i]? with
    | none => none
    | some c => c.at? p

/-- `c.size()`; for something that is not a container there is none. -/
def NCont.size? {α : Type} : NCont α → Option Nat
  | .val _ => none
  | .node cs => some cs.length

/-- One level: an iterator of the container standing at position `path` of the outermost one, at place `idx`; `m_end` is
    the end of the container at `epath`, which has `eidx` elements. -/
structure VLvl where
  path : List Nat
  idx : Nat
  epath : List Nat
  eidx : Nat
  deriving Repr, DecidableEq

/-- `*it` as a container: its position and size.  Dereferencing the end is undefined. -/
def derefCont {α : Type} (root : NCont α) (path : List Nat) (idx : Nat) : Res (List Nat × Nat) :=
  match root.at? (path ++ [idx]) with
  | none => .ub
  | some c => match c.size? with
    | none => .ub
    | some n => .ok (path ++ [idx], n)

/-- `begin<N>(c)` where `c` stands at `path` and has `n` elements: iterator.hpp:83-93, 138-142. -/
def vBegin {α : Type} (root : NCont α) : Nat → List Nat → Nat → Res (List VLvl)
  | 0, _, _ => .ok []
  | 1, path, n => .ok [⟨path, 0, path, n⟩]
  | N + 1, path, n => do
    let (p', n') ← derefCont root path 0
    let r ← vBegin root N p' n'
    pure (⟨path, 0, path, n⟩ :: r)

/-- `end<N>(c)`: iterator.hpp:95-102, 144-148; `std::prev` of the end of an empty container is undefined. -/
def vEnd {α : Type} (root : NCont α) : Nat → List Nat → Nat → Res (List VLvl)
  | 0, _, _ => .ok []
  | 1, path, n => .ok [⟨path, n, path, n⟩]
  | N + 1, path, n =>
    if n = 0 then .ub else do
    let (p', n') ← derefCont root path (n - 1)
    let r ← vEnd root N p' n'
    pure (⟨path, n, path, n⟩ :: r)

/-- `operator++`: iterator.hpp:43-48, 109-119.  Going past the end is undefined. -/
def vNext {α : Type} (root : NCont α) : List VLvl → Res (List VLvl)
  | [] => .ok []
  | [l] => if l.path = l.epath ∧ l.idx = l.eidx then .ub else .ok [{ l with idx := l.idx + 1 }]
  | l :: r => do
    match ← vNext root r with
    | [] => pure [l]
    | b :: r' =>
      if b.path = b.epath ∧ b.idx = b.eidx then do
        let (p', n') ← derefCont root l.path (l.idx + 1)
        pure ({ l with idx := l.idx + 1 } :: ⟨p', 0, p', n'⟩ :: r')
      else pure (l :: b :: r')

/-- `operator*`: iterator.hpp:57. -/
def vDeref {α : Type} (root : NCont α) : List VLvl → Res α
  | [] => .ub
  | [l] => match root.at? (l.path ++ [l.idx]) with
    | some (.val a) => .ok a
    | _ => .ub
  | _ :: r => vDeref root r

/-- `operator!=`: iterator.hpp:64-67, 133-136. -/
def vNe : List VLvl → List VLvl → Bool
  | [], [] => false
  | l :: r, l' :: r' => decide (¬ (l.path = l'.path ∧ l.idx = l'.idx)) || vNe r r'
  | _, _ => false

/-- The loop `for (auto it = begin<N>(c); it != end<N>(c); ++it) visit(*it)`. -/
def vWalk {α : Type} (root : NCont α) (e : List VLvl) : Nat → List VLvl → Res (List α)
  | 0, _ => .ub
  | f + 1, it =>
    if vNe it e then do
      let x ← vDeref root it
      let it' ← vNext root it
      let r ← vWalk root e f it'
      pure (x :: r)
    else .ok []

/-- All of it, for `N` levels. -/
def vLoop {α : Type} (root : NCont α) (N fuel : Nat) : Res (List α) :=
  match root.size? with
  | none => .ub
  | some n => do
    let b ← vBegin root N [] n
    let e ← vEnd root N [] n
    vWalk root e fuel b

end Dynd
