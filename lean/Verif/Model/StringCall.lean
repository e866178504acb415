/-
The string functions as they are called: `nd::string_find`, `string_rfind`, `string_contains`, `string_count`,
`string_startswith`, `string_endswith` and `string_concatenation` on arrays of strings.  The functions on two strings
are those of `Search`; here: the check of the arguments against the type `(Dims... * string, Dims... * string) ->
Dims... * R` of the lifted function, and the resolution.  The run is that of the two-argument operators (`BinaryRun`).

Simplifications: a stored string is the list of its bytes (C19 has the representation), and a string allocated for the
result is empty; the arguments are concrete types.  Of `string_replace`, which has three arguments, only the check of
the arguments is modelled, of `string_split` nothing.  What an array of dimensions that was not initialised holds is a
parameter (`junk`), read as some number.
-/
import Verif.Model.BinaryRun
import Verif.Model.TypeMatch
import Verif.Model.Search

namespace Dynd

/-- the callables with two strings as arguments.  /repo/src/dynd/string.cpp:22-37. -/
inductive StrFn where
  | concat | count | find | rfind | startswith | endswith | contains
  deriving DecidableEq, Repr

/-- the result of a call on two strings -/
inductive StrOut where
  | str (s : List Nat)
  | num (n : Int)
  | bool (b : Bool)
  deriving DecidableEq, Repr

/-- `get_ret_type()`; `intptr_t` is `int64`.  /repo/include/dynd/callables/string_concat_callable.hpp:16-18,
    string_count_callable.hpp:17-18, string_find_callable.hpp:17-18, string_rfind_callable.hpp:17-18,
    string_startswith_callable.hpp:17-18, string_endswith_callable.hpp:17-18, string_contains_callable.hpp:17-18. -/
def StrFn.ret : StrFn → Ty
  | .concat => .leaf .string
  | .count | .find | .rfind => .prim (.int .w64)
  | .startswith | .endswith | .contains => .prim .bool

/-- `single` of the kernels.  /repo/include/dynd/kernels/string_concat_kernel.hpp:16-19, string_count_kernel.hpp:14-20,
    string_find_kernel.hpp, string_rfind_kernel.hpp, string_startswith_kernel.hpp, string_endswith_kernel.hpp,
    string_contains_kernel.hpp:16-22. -/
def strKernel : StrFn → List Nat → List Nat → Res StrOut
  | .concat, x, y => do let r ← stringConcat [x, y]; pure (.str r)
  | .count, x, y => do let r ← stringCount x y; pure (.num r)
  | .find, x, y => do let r ← stringFind x y; pure (.num r)
  | .rfind, x, y => do let r ← stringRfind x y; pure (.num r)
  | .startswith, x, y => do let r ← stringStartswith x y; pure (.bool r)
  | .endswith, x, y => do let r ← stringEndswith x y; pure (.bool r)
  | .contains, x, y => do let r ← stringContains x y; pure (.bool r)

/-- what the kernel built from the nodes does to two strings -/
def strOp (f : StrFn) : OTree → List Nat → List Nat → Res StrOut
  | .mk .lifted _, x, y => strKernel f x y
  | _, _, _ => .ub

/-! ### The arguments against `Dims... * string` -/

/-- `dim_fragment_type::broadcast_with_type` on concrete types; `none`: the null type.  When the new type has more
    dimensions than the fragment, `dimvector shape(ndim)` holds whatever the memory held, and
    `broadcast_tagged_dims_from_type` does not write every slot.  /repo/src/dynd/types/dim_fragment_type.cpp:38-68, 83-113,
    /repo/include/dynd/shortvector.hpp:57-61. -/
def growFragment (junk : Nat → Int) (tags : List Int) (ndim : Nat) (t : Ty) : Res (Option (List Int)) :=
  if ndim = 0 then .ok (some tags)
  else if tags.length < ndim then do
    let lead ← taggedDims (ndim - tags.length) t
    let r ← bcastTagged lead.2 tags ((List.range tags.length).map fun i => some (junk i))
    match r with
    | none => pure none
    | some slots =>
      let shape ← readSlots (lead.1.map some ++ slots)
      pure (some shape)
  else do
    let k := tags.length - ndim
    let r ← bcastTagged t (tags.drop k) ((tags.drop k).map some)
    match r with
    | none => pure none
    | some slots =>
      let shape ← readSlots ((tags.take k).map some ++ slots)
      pure (some shape)

/-- `string_type` matches itself alone.  /repo/src/dynd/types/base_type.cpp:197-207. -/
def isString : Ty → Bool
  | .leaf .string => true
  | _ => false

/-- `check_arg`: one argument against `Dims... * string`; `frag`: the value of the type variable `Dims`.  Result: whether
    it matches, and the new value.  /repo/src/dynd/callable.cpp:57-71, /repo/src/dynd/types/ellipsis_dim_type.cpp:91-143. -/
def matchDims (junk : Nat → Int) (frag : Option (List Int)) (t : Ty) : Res (Bool × Option (List Int)) :=
  if t.ndim = 0 then .ok (isString t, some (frag.getD []))
  else do
    let f ← (match frag with
      | none => do
        let r ← taggedDims t.ndim t
        pure (some r.1)
      | some tags => growFragment junk tags t.ndim t : Res (Option (List Int)))
    match f with
    | none => pure (false, frag)
    | some tags => do
      let el ← t.atDim t.ndim
      pure (isString el, some tags)

/-- the arguments one after the other; `i`: the number of the argument.
    /repo/src/dynd/callable.cpp:84-102. -/
def checkDims (junk : Nat → Nat → Int) : Nat → Option (List Int) → List Ty → Res Bool
  | _, _, [] => .ok true
  | i, frag, t :: ts => do
    let r ← matchDims (junk i) frag t
    if r.1 then checkDims junk (i + 1) r.2 ts else pure false

/-- A call `f(a, b)`: the check, then `elwise_entry_callable::resolve` with the function on two strings as child, which
    pushes its kernel and returns its own result type.  /repo/src/dynd/callable.cpp:73-102,
    /repo/include/dynd/callables/elwise_entry_callable.hpp:33-84, default_instantiable_callable.hpp:21-31,
    base_elwise_callable.hpp:44-131. -/
def resolveStr (junk : Nat → Nat → Int) (f : StrFn) (a b : Ty) : Res (List ONode × Ty) := do
  let ok ← checkDims junk 0 none [a, b]
  if ok then resolveElw2 (fun _ _ _ => .ok ([.lifted], f.ret)) 2 (.ellipsis "Dims" f.ret) a b
  else .throw .invalidArg

end Dynd
