/-
`format_datashape` (src/dynd/types/datashape_formatter.cpp): the description of a type, or of an array with the sizes of
its var dimensions where they are visible.  Texts are lists of bytes as in `Datashape.lean`.
-/
import Verif.Model.Datashape

namespace Dynd

/-- The data of an array as the formatter walks it: dimensions with their elements, the fields of a struct; anything
    else is not looked at.  A var dimension may not be initialised (`begin == NULL`).  Simplification: pointers and
    arrmeta offsets are replaced by the tree they address (/repo/src/dynd/types/datashape_formatter.cpp:25-39, 63-88). -/
inductive DVal where
  | leaf
  | record (fs : List DVal)
  | fixed (es : List DVal)
  | var (es : Option (List DVal))

mutual
/-- `format_datashape`.  `ml` is `multiline`, `ind` the indentation, `am` says that `arrmeta` is not null, the last
    argument is the data (`none` for null).
    /repo/src/dynd/types/datashape_formatter.cpp:19-47 (struct; the variadic flag is not looked at), 49-97 (dimensions),
    99-127 (strings, complex numbers), 129-153 (the switch). -/
def fmtTy (ml : Bool) (ind : List Nat) : Ty → Bool → Option DVal → Res (List Nat)
  | .struct ns ts _, am, d => do
    let fs ← (match if am then d else none with
      | none => .ok none
      | some (.record fs) => .ok (some fs)
      | some _ => .ub)
    let b ← fmtFields ml ind ns ts am fs
    pure ((if ml then str "{\n" else str "{") ++ b ++ ind ++ str "}")
  | .fixedDim n el, am, d =>
    if el.symbolic then do
      let e ← fmtTy ml ind el false none
      pure (str "Fixed * " ++ e)
    else do
      let c ← (match if n = 1 then d else none with
        | none => .ok none
        | some (.fixed (v :: _)) => .ok (some v)
        | some _ => .ub)
      let e ← fmtTy ml ind el am c
      pure (printInt n ++ str " * " ++ e)
  | .varDim el, am, d =>
    match if am then d else none with
    | none => do
      let e ← fmtTy ml ind el am none
      pure (str "var * " ++ e)
    | some (.var none) => do
      let e ← fmtTy ml ind el am none
      pure (str "var * " ++ e)
    | some (.var (some es)) => do
      let e ← fmtTy ml ind el am (if es.length = 1 then es.head? else none)
      pure (printInt es.length ++ str " * " ++ e)
    | some _ => .ub
  | .leaf .string, _, _ => .ok (str "string")
  | .leaf (.fixedString _ _), _, _ => .ok (str "string")
  | t, _, _ => printTy t
/-- the loop over the fields of a struct.  /repo/src/dynd/types/datashape_formatter.cpp:32-45. -/
def fmtFields (ml : Bool) (ind : List Nat) : List String → List Ty → Bool → Option (List DVal) → Res (List Nat)
  | _, [], _, _ => .ok []
  | [], _ :: _, _, _ => .ub
  | nm :: nms, t :: ts, am, fs => do
    let (d, fs') ← (match fs with
      | none => .ok (none, none)
      | some (v :: vs) => .ok (some v, some vs)
      | some [] => .ub)
    let e ← fmtTy ml (if ml then ind ++ str "  " else ind) t am d
    let r ← fmtFields ml ind nms ts am fs'
    pure ((if ml then ind ++ str "  " else []) ++ str nm ++ str ": " ++ e
      ++ (if ml then str ",\n" else if ts.isEmpty then [] else str ", ") ++ r)
end

/-- `format_datashape(tp, prefix, multiline)`.  /repo/src/dynd/types/datashape_formatter.cpp:160-165. -/
def formatType (pre : List Nat) (ml : Bool) (t : Ty) : Res (List Nat) := do
  let x ← fmtTy ml [] t false none
  pure (pre ++ x)

/-- `format_datashape(o, tp, arrmeta, data, multiline)`.  /repo/src/dynd/types/datashape_formatter.cpp:155-158. -/
def formatArray (ml : Bool) (t : Ty) (v : DVal) : Res (List Nat) := fmtTy ml [] t true (some v)

end Dynd
