/-
`dst.assign(src)` on arrays, from the nodes of the call graph (C117) to the changed memory: the instantiation of the
nodes with the array metadata of destination and source, and the run of the kernels.

Simplifications: as in `UnaryOps` and `BinaryRun`: memory is a map from addresses to scalar elements and one from
addresses to the records (begin, size) of `var` dimensions; source and destination are apart; what the kernel below
the array dimensions does with an element (a value or an exception) is a parameter; elements that are tuples or structs
are not modelled here.
-/
import Verif.Model.BinaryRun
import Verif.Model.AssignFn

namespace Dynd

/-- The kernels for one dimension: `ff` size, destination and source stride; `vf` destination stride and offset; `fv`
    size and destination stride.  /repo/include/dynd/kernels/elwise_kernel.hpp:39-45, 90-92, 189-192. -/
inductive CpLevel where
  | ff (size : Nat) (ds ss : Int)
  | vf (ds doff : Int) (s : BSrc)
  | fv (size : Nat) (ds : Int) (s : BSrc)
  deriving DecidableEq, Repr

/-- The closures of the elwise nodes, then the kernels of the elements.  The class follows from the kinds of the
    destination and the source dimension, see `resolveDims`.
    /repo/include/dynd/callables/elwise_callable.hpp:53-89, 106-140, 161-204. -/
def instCp (fuel : Nat) : List ANode → List UMeta → Option (List UMeta) → Res (List CpLevel × KTree)
  | .elw false false b :: r, .fixed n ds :: dm, p => do
    let x ← instSrcF b p
    let y ← instCp fuel r dm x.2
    pure (.ff n ds x.1 :: y.1, y.2)
  | .elw true v b :: r, .var ds doff :: dm, p => do
    let x ← instSrcV b v p
    let y ← instCp fuel r dm x.2
    pure (.vf ds doff x.1 :: y.1, y.2)
  | .elw false true b :: r, .fixed n ds :: dm, p => do
    let x ← instSrcV b true p
    let y ← instCp fuel r dm x.2
    pure (.fv n ds x.1 :: y.1, y.2)
  | .elw _ _ _ :: _, _, _ => .ub
  | .record _ :: _, _, _ => .throw .unmodelled
  | ns, _, _ => do
    let k ← instA fuel ns
    pure ([], k.1)

/-- `single` of the kernels.  A destination record that is there fixes the size; otherwise the source does, and memory is
    taken.  /repo/include/dynd/kernels/elwise_kernel.hpp:47-55, 105-135, 214-309. -/
def runCp {α β : Type} (op : α → Res β) (src : USrc α) : List CpLevel → Int → Int → UDst β → Res (UDst β)
  | [], d, s, m =>
    match src.cells s with
    | some x => do
      let y ← op x
      pure { m with cells := putAt m.cells d y }
    | none => .ub
  | .ff n ds ss :: r, d, s, m => uLoop (runCp op src r) n ds ss d s m
  | .fv n ds k :: r, d, s, m => do
    let x ← openSrc src k s
    match ← fitFixed n [x] with
    | [t] => uLoop (runCp op src r) n ds t d x.base m
    | _ => .ub
  | .vf ds doff k :: r, d, s, m => do
    let x ← openSrc src k s
    match m.recs d with
    | some (b, n) =>
      match ← fitVar n [x] with
      | [t] => uLoop (runCp op src r) n (if n ≤ 1 then 0 else ds) t (b + doff) x.base m
      | _ => .ub
    | none =>
      if doff ≠ 0 then .throw .runtime
      else do
        let j ← joinVar 1 [x]
        match j.2 with
        | [t] =>
          uLoop (runCp op src r) j.1 (if j.1 ≤ 1 then 0 else ds) t m.next x.base
            { m with recs := putAt m.recs d (m.next, j.1), next := m.next + j.1 * ds }
        | _ => .ub

/-- `nd::assign` with the destination given (metadata `dm`, at address `d` of the memory `m`): the resolved nodes `r`, the
    kernels, the run.  /repo/src/dynd/callables/base_callable.cpp:52-80, /repo/src/dynd/array.cpp:152-154. -/
def assignRun {α β : Type} (fuel : Nat) (r : Res (List ANode)) (op : KTree → α → Res β) (src : USrc α) (sm : List UMeta)
    (s : Int) (dm : List UMeta) (d : Int) (m : UDst β) : Res (UDst β) := do
  let ns ← r
  let l ← instCp fuel ns dm (some sm)
  runCp (op l.2) src l.1 d s m

end Dynd
