import Verif.Model.Basic
/-
Multiple dispatch: topological sorting of overloads and selection of an overload.
-/
namespace Dynd

/-- State of `topological_sort`: the markers (0 = unmarked, 1 = temporarily marked, 2 = marked), the output
    sequence (`none` = an element not written yet / null), and the output iterator as a position.
    /repo/include/dynd/dispatcher.hpp:61-72, 97-107. -/
structure TState (α : Type) where
  marks : List Nat
  res : List (Option α)
  pos : Nat

/-- A loop `for (auto j : js) f(j)` over a state. -/
def forEach {σ : Type} (f : Nat → σ → Res σ) : List Nat → σ → Res σ
  | [], s => .ok s
  | j :: js, s => do
    let s' ← f j s
    forEach f js s'

/-- `topological_sort_visit`: /repo/include/dynd/dispatcher.hpp:74-93.  Recursion depth is bounded by `fuel`;
    running out of fuel is undefined behaviour (stack overflow).  Accesses outside the arrays are undefined.
    `if (res != res_begin) --res` is the truncated subtraction on `pos`. -/
def topoVisit {α : Type} (verts : List α) (edges : List (List Nat)) : Nat → Nat → TState α → Res (TState α)
  | 0, _, _ => .ub
  | fuel + 1, i, s =>
    match s.marks[i]?, edges[i]?, verts[i]? with
    | some m, some es, some v =>
      if m = 1 then .throw .notDag
      else if m = 2 then .ok s
      else do
        let s1 ← forEach (fun j t => topoVisit verts edges fuel j t) es { s with marks := s.marks.set i 1 }
        pure { marks := s1.marks.set i 2, res := s1.res.set s1.pos (some v), pos := s1.pos - 1 }
    | _, _, _ => .ub

/-- `topological_sort(begin, end, edges, res)`: /repo/include/dynd/dispatcher.hpp:95-107; `out` is the previous
    content of the output.  For an empty input the iterator is moved before the beginning (undefined). -/
def topoSort {α : Type} (verts : List α) (edges : List (List Nat)) (out : List (Option α)) : Res (List (Option α)) :=
  if verts.length = 0 then .ub
  else do
    let s ← forEach (fun i t => topoVisit verts edges (verts.length + 1) i t) (List.range verts.length)
      { marks := List.replicate verts.length 0, res := out, pos := verts.length - 1 }
    pure s.res

/-- `supercedes(lhs, rhs)`: every `rhs[i].match(lhs[i])`; /repo/include/dynd/dispatcher.hpp:43-52.
    `m p c` stands for `p.match(c)`. -/
def supercedes {T : Type} (m : T → T → Bool) : List T → List T → Bool
  | l :: ls, r :: rs => m r l && supercedes m ls rs
  | _, _ => true

/-- `consistent(lhs, rhs)`: /repo/include/dynd/dispatcher.hpp:32-41. -/
def consistent {T : Type} (m : T → T → Bool) : List T → List T → Bool
  | l :: ls, r :: rs => (m l r || m r l) && consistent m ls rs
  | _, _ => true

/-- `ambiguous(lhs, rhs)`: /repo/include/dynd/dispatcher.hpp:54-57. -/
def ambiguous {T : Type} (m : T → T → Bool) (l r : List T) : Bool :=
  consistent m l r && !(supercedes m l r || supercedes m r l)

/-- `dispatcher::edge(u, v)`: /repo/include/dynd/dispatcher.hpp:304-313. -/
def edge {T : Type} (m : T → T → Bool) (u v : List T) : Bool :=
  if supercedes m u v then (if supercedes m v u then false else true) else false

/-- Body of the double loop of `dispatcher::assign` for the pair `(i, j)`:
    /repo/include/dynd/dispatcher.hpp:188-222. -/
def edgeStep {T : Type} (m : T → T → Bool) (sigs : List (List T)) (edges : List (List Nat)) (i j : Nat) :
    Res (List (List Nat)) :=
  match sigs[i]?, sigs[j]? with
  | some u, some v =>
    if ambiguous m u v && !(sigs.any fun k => supercedes m k u && supercedes m k v) then .throw .runtime
    else if edge m u v then .ok (edges.modify i (· ++ [j]))
    else if edge m v u then .ok (edges.modify j (· ++ [i]))
    else .ok edges
  | _, _ => .ub

/-- The double loop `for i, for j > i`: /repo/include/dynd/dispatcher.hpp:180-224. -/
def buildEdges {T : Type} (m : T → T → Bool) (sigs : List (List T)) : Res (List (List Nat)) :=
  forEach' (List.range sigs.length) (List.replicate sigs.length [])
where
  /-- inner loop -/
  inner (i : Nat) : List Nat → List (List Nat) → Res (List (List Nat))
    | [], es => .ok es
    | j :: js, es => do
      let es' ← if i < j then edgeStep m sigs es i j else .ok es
      inner i js es'
  /-- outer loop -/
  forEach' : List Nat → List (List Nat) → Res (List (List Nat))
    | [], es => .ok es
    | i :: is, es => do
      let es' ← inner i (List.range sigs.length) es
      forEach' is es'

/-- `std::vector::resize` on the children: new entries are null callables. -/
def resizeChildren {F : Type} (ch : List (Option F)) (n : Nat) : List (Option F) :=
  ch.take n ++ List.replicate (n - ch.length) none

/-- `dispatcher::assign(begin, end)` on a dispatcher whose children are `ch`: the children afterwards and the
    outcome.  /repo/include/dynd/dispatcher.hpp:176-229.  `sig f` stands for `m_dispatch` of the callable.
    The resize happens before the checks.  When the sort throws, the partially overwritten children are
    represented by the resized ones. -/
def dispAssign {T F : Type} (m : T → T → Bool) (sig : F → List T) (ch : List (Option F)) (fs : List F) :
    List (Option F) × Res Unit :=
  let ch' := resizeChildren ch fs.length
  match buildEdges m (fs.map sig) with
  | .ok edges =>
    match topoSort fs edges ch' with
    | .ok r => (r, .ok ())
    | .throw e => (ch', .throw e)
    | .ub => (ch', .ub)
  | .throw e => (ch', .throw e)
  | .ub => (ch', .ub)

/-- `dispatcher::insert(f)`: /repo/include/dynd/dispatcher.hpp:233-241.  A null child among the vertices is
    dereferenced by `assign` (undefined behaviour). -/
def dispInsert {T F : Type} (m : T → T → Bool) (sig : F → List T) (ch : List (Option F)) (f : F) :
    List (Option F) × Res Unit :=
  if ch.all Option.isSome then dispAssign m sig ch (ch.filterMap id ++ [f]) else (ch, .ub)

/-- `dispatcher::operator()`: /repo/include/dynd/dispatcher.hpp:254-289: the first child whose signature is
    superceded by the arguments; `std::out_of_range` if there is none; a null child is dereferenced. -/
def dispCall {T F : Type} (m : T → T → Bool) (sig : F → List T) (args : List T) : List (Option F) → Res F
  | [] => .throw .outOfRange
  | none :: _ => .ub
  | some f :: cs => if supercedes m args (sig f) then .ok f else dispCall m sig args cs

end Dynd
