import Verif.Model.Basic
import Verif.Model.Kernels
/-
Categorical types.  Category values are elements of a type `α`; the comparison and copy kernels are parameters,
`none` standing for a kernel whose function pointer is NULL (calling it is undefined behaviour).
-/
namespace Dynd

/-- A categorical type: /repo/include/dynd/types/categorical_type.hpp:23-33.  `cats` is `m_categories`, `i2v` is
    `m_category_index_to_value`, `v2i` is `m_value_to_category_index`, `storage` the size in bytes of
    `m_storage_type`. -/
structure Cat (α : Type) where
  cats : List α
  i2v : List Nat
  v2i : List Nat
  storage : Nat

/-- Calling the comparison kernel: /repo/src/dynd/types/categorical_type.cpp:50-56. -/
def callLess {α : Type} (less : Option (α → α → Bool)) (a b : α) : Res Bool :=
  match less with
  | some f => .ok (f a b)
  | none => .ub

/-- `uniques.find(x) == uniques.end()`, negated: whether an equivalent element is in the `std::set` (kept as the
    sorted list of its elements).  An empty set is not compared against.  categorical_type.cpp:178. -/
def setHas {α : Type} (less : Option (α → α → Bool)) : List α → α → Res Bool
  | [], _ => .ok false
  | y :: ys, x => do
    if ← callLess less y x then setHas less ys x
    else if ← callLess less x y then pure false
    else pure true

/-- `uniques.insert(x)` for an element not in the set: categorical_type.cpp:179. -/
def setIns {α : Type} (less : Option (α → α → Bool)) : List α → α → Res (List α)
  | [], x => .ok [x]
  | y :: ys, x => do
    if ← callLess less y x then do
      let r ← setIns less ys x
      pure (y :: r)
    else pure (x :: y :: ys)

/-- The loop collecting the unique categories: categorical_type.cpp:174-188. -/
def catUniques {α : Type} (less : Option (α → α → Bool)) : List α → List α → Res (List α)
  | u, [] => .ok u
  | u, c :: cs => do
    if ← setHas less u c then .throw .runtime
    else do
      let u' ← setIns less u c
      catUniques less u' cs

/-- Comparison of two category indices: `sorter::operator()`, categorical_type.cpp:33-39.  Only indices of categories
    are ever compared; the value for other indices (which come last) is irrelevant. -/
def sorterLess {α : Type} (less : α → α → Bool) (cs : List α) (i j : Nat) : Bool :=
  match cs[i]?, cs[j]? with
  | some a, some b => less a b
  | some _, none => true
  | none, _ => false

/-- `std::sort` of the indices: categorical_type.cpp:192-194; `srt` stands for `std::sort`.  Fewer than two elements
    are not compared. -/
def sortIndices {α : Type} (srt : (Nat → Nat → Bool) → List Nat → List Nat) (less : Option (α → α → Bool))
    (cs : List α) : Res (List Nat) :=
  match less with
  | some f => .ok (srt (sorterLess f cs) (List.range cs.length))
  | none => if cs.length ≤ 1 then .ok (List.range cs.length) else .ub

/-- `v2i[i2v[i]] = i` for every `i`: categorical_type.cpp:197-200; the array initially holds arbitrary values. -/
def invertLoop : List Nat → Nat → List Nat → Res (List Nat)
  | [], _, v2i => .ok v2i
  | p :: ps, i, v2i => if p < v2i.length then invertLoop ps (i + 1) (v2i.set p i) else .ub

/-- `make_sorted_categories`: copies every unique element with the copy kernel: categorical_type.cpp:113-129. -/
def copyCats {α : Type} (copy : Option (α → α)) : List α → Res (List α)
  | [] => .ok []
  | c :: cs =>
    match copy with
    | none => .ub
    | some f => do
      let r ← copyCats copy cs
      pure (f c :: r)

/-- Size of the storage integer: categorical_type.cpp:205-212. -/
def catStorage (count : Nat) : Nat := if count ≤ 256 then 1 else if count ≤ 65536 then 2 else 4

/-- The constructor for an array of categories that is not known to be sorted: categorical_type.cpp:146-202, with
    the kernels as parameters. `junk` is the initial content of the index array. -/
def catNew {α : Type} (less : Option (α → α → Bool)) (copy : Option (α → α))
    (srt : (Nat → Nat → Bool) → List Nat → List Nat) (junk : List Nat) (cs : List α) : Res (Cat α) := do
  let u ← catUniques less [] cs
  let i2v ← sortIndices srt less cs
  let v2i ← invertLoop i2v 0 (junk.take cs.length ++ List.replicate (cs.length - junk.length) 0)
  let cats ← copyCats copy u
  pure { cats := cats, i2v := i2v, v2i := v2i, storage := catStorage cs.length }

/-- The constructor the library uses: `nd::kernel_builder k; fn = k.get()->get_function()` on an empty builder, whose
    buffer is zero, gives NULL kernels (the code filling them in is commented out).
    categorical_type.cpp:115-118, 163-164. -/
def catCtor {α : Type} (srt : (Nat → Nat → Bool) → List Nat → List Nat) (junk : List Nat) (cs : List α) : Res (Cat α) :=
  catNew none none srt junk cs

/-- The constructor for categories known to be sorted: categorical_type.cpp:135-145. -/
def catPresorted {α : Type} (cs : List α) : Cat α :=
  { cats := cs, i2v := List.range cs.length, v2i := List.range cs.length, storage := catStorage cs.length }

/-- The loop of `factor_categorical`: categorical_type.cpp:398-404. -/
def factorLoop {α : Type} (less : Option (α → α → Bool)) : List α → List α → Res (List α)
  | u, [] => .ok u
  | u, c :: cs => do
    if ← setHas less u c then factorLoop less u cs
    else do
      let u' ← setIns less u c
      factorLoop less u' cs

/-- `factor_categorical(values)` with the kernels as parameters: categorical_type.cpp:382-410. -/
def factorCategorical {α : Type} (less : Option (α → α → Bool)) (copy : Option (α → α)) (values : List α) :
    Res (Cat α) := do
  let u ← factorLoop less [] values
  let cats ← copyCats copy u
  pure (catPresorted cats)

/-- `get_value_from_category(category)`: categorical_type.cpp:277-292, 294-316.  `less` is the order used by
    `binary_search`. -/
def catEncode {α : Type} (less : α → α → Bool) (t : Cat α) (c : α) : Res Nat := do
  let i ← binarySearch less t.cats c
  if i < 0 then .throw .runtime
  else match t.i2v[i.toNat]? with
    | some v => .ok (v % 2 ^ 32)
    | none => .ub

/-- `get_category_data_from_value(value)`: categorical_type.hpp:61-68. -/
def catDecode {α : Type} (t : Cat α) (v : Nat) : Res α :=
  if v ≥ t.cats.length then .throw .runtime
  else match t.v2i[v]? with
    | some i => (match t.cats[i]? with | some c => .ok c | none => .ub)
    | none => .ub

end Dynd
