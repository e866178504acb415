import Verif.Model.Datashape
import Verif.Model.Escape
/-
Printing an array (`operator<<`): the `print_data` functions and `strided_array_summarized`.
Texts are lists of bytes (10 is a newline, 32 a space, 44 a comma).
-/
namespace Dynd

/-- `line_count`: /repo/src/dynd/type.cpp:622-624. -/
def lineCount (s : List Nat) : Nat := 1 + s.count 10

/-- `summarize_stats`: type.cpp:626-629, on (`num_rows`, `max_num_cols`). -/
def summarizeStats (s : List Nat) (st : Nat × Nat) : Nat × Nat := (st.1 + lineCount s, max st.2 s.length)

/-- The rest of a line, newline included, and what follows it: type.cpp:636-638. -/
def takeLine : List Nat → List Nat × List Nat
  | [] => ([], [])
  | c :: s => if c = 10 then ([c], s) else (c :: (takeLine s).1, (takeLine s).2)

/-- The loop of `print_indented`: type.cpp:635-643.  `first`: the indentation is left out.  (Every step consumes a
    character: `fuel` is the length of the text.) -/
def indentLoop (indent : List Nat) : Nat → Bool → List Nat → List Nat
  | 0, _, _ => []
  | _ + 1, _, [] => []
  | f + 1, first, c :: s =>
    (if first then [] else indent) ++ (takeLine (c :: s)).1 ++ indentLoop indent f false (takeLine (c :: s)).2

/-- `print_indented`: type.cpp:631-644. -/
def printIndented (indent : List Nat) (s : List Nat) (skipFirst : Bool) : List Nat := indentLoop indent s.length skipFirst s

/-- One more text at the end of `leading` or `trailing`, with the statistics: type.cpp:656-659, 663-666. -/
def pushText (s : List Nat) (l : List (List Nat)) (st : Nat × Nat) : List (List Nat) × (Nat × Nat) := (l ++ [s], summarizeStats s st)

/-- The loop for the leading texts: type.cpp:655-660 (`leading_count` is 7).  `ts` are the texts of the elements.
    Simplification: all elements are printed before, although those not shown never are. -/
def leadLoop (ts : List (List Nat)) : Nat → Nat → List (List Nat) → Nat × Nat → Nat × List (List Nat) × (Nat × Nat)
  | 0, ilead, l, st => (ilead, l, st)
  | f + 1, ilead, l, st =>
    if ilead < 7 ∧ ilead < ts.length then
      let (l, st) := pushText (ts.getD ilead []) l st
      leadLoop ts f (ilead + 1) l st
    else (ilead, l, st)

/-- The loop for the trailing texts: type.cpp:662-667. -/
def trailLoop (ts : List (List Nat)) : Nat → Nat → List (List Nat) → Nat × Nat → List (List Nat) × (Nat × Nat)
  | 0, _, l, st => (l, st)
  | f + 1, itrail, l, st =>
    if itrail < ts.length then
      let (l, st) := pushText (ts.getD itrail []) l st
      trailLoop ts f (itrail + 1) l st
    else (l, st)

/-- Trimming: type.cpp:673-686 (`row_threshold` is 10).  Every step shortens `leading` or `trailing`, or moves a text
    from one to the other. -/
def trimLoop : Nat → List (List Nat) → List (List Nat) → Nat → Res (List (List Nat) × List (List Nat))
  | 0, _, _, _ => .ub
  | f + 1, lead, trail, rows =>
    if rows > 10 ∧ (trail.length > 1 ∨ lead.length > 1) then
      let (trail, rows) := if trail.length > 1 then (trail.tail, rows - lineCount (trail.headD [])) else (trail, rows)
      if rows > 10 ∧ lead.length > 1 then
        if trail = [] then trimLoop f lead.dropLast [lead.getLastD []] rows
        else trimLoop f lead.dropLast trail (rows - lineCount (lead.getLastD []))
      else trimLoop f lead trail rows
    else .ok (lead, trail)

/-- Printing one text per row: type.cpp:687-707. -/
def rowsText (n : Nat) (lead trail : List (List Nat)) : Res (List Nat) :=
  match lead with
  | [] => .ub
  | t :: ls =>
    .ok (str "[" ++ printIndented (str " ") t true ++ ls.flatMap (fun t => str ",\n" ++ printIndented (str " ") t false) ++
      (if lead.length ≠ n then
        (if n > lead.length + trail.length then str ",\n ...\n" else []) ++
        (match trail with
         | [] => []
         | u :: us => printIndented (str " ") u false ++ us.flatMap (fun t => str ",\n" ++ printIndented (str " ") t false))
       else []) ++ str "]")

/-- Getting more texts: type.cpp:712-725 (`packing_cols * row_threshold` is 750).  `ilead` and `itrail` as there; every
    step advances `ilead`. -/
def fillLoop (ts : List (List Nat)) :
    Nat → Int → Int → List (List Nat) → List (List Nat) → Nat × Nat → Res (List (List Nat) × List (List Nat) × Nat)
  | 0, _, _, _, _, _ => .ub
  | f + 1, ilead, itrail, lead, trail, st =>
    if ilead ≤ itrail ∧ (st.2 + 2) * (lead.length + trail.length) < 750 then
      let (lead, st) := pushText (ts.getD ilead.toNat []) lead st
      let ilead := ilead + 1
      if ilead ≤ itrail then
        let t := ts.getD itrail.toNat []
        fillLoop ts f ilead (itrail - 1) lead (t :: trail) (summarizeStats t st)
      else fillLoop ts f ilead itrail lead trail st
    else .ok (lead, trail, st.2)

/-- `setw(w) << t`. -/
def setw (w : Nat) (t : List Nat) : List Nat := List.replicate (w - t.length) 32 ++ t

/-- The loops over the rows of the grid: type.cpp:744-754 and 759-768, over the texts that remain. -/
def gridRows (perRow w : Nat) : Nat → List Nat → List (List Nat) → List Nat
  | 0, _, _ => []
  | _ + 1, _, [] => []
  | f + 1, opener, t :: ts =>
    opener ++ setw w t ++ (ts.take (perRow - 1)).flatMap (fun t => str ", " ++ setw w t) ++
      (if (ts.drop (perRow - 1)).length > 1 then str ",\n" else []) ++
      gridRows perRow w f (str " ") (ts.drop (perRow - 1))

/-- Dropping partial rows: type.cpp:728-740.  The remainder by 0 is undefined. -/
def dropPartial (n perRow : Nat) (lead trail : List (List Nat)) : Res (List (List Nat) × List (List Nat)) :=
  if lead.length + trail.length = n then .ok (lead ++ trail, [])
  else if perRow = 0 ∧ (lead.length > 0 ∨ trail.length > 0) then .ub
  else .ok (if lead.length > perRow ∧ lead.length % perRow ≠ 0 then lead.take (lead.length / perRow * perRow) else lead,
    if trail.length > perRow ∧ trail.length % perRow ≠ 0 then trail.drop (trail.length % perRow) else trail)

/-- Printing a grid: type.cpp:708-771 (`packing_cols` is 75). -/
def gridText (ts : List (List Nat)) (ilead itrail : Int) (lead trail : List (List Nat)) (st : Nat × Nat) : Res (List Nat) := do
  let (lead, trail, w) ← fillLoop ts (ts.length + 1) ilead itrail lead trail st
  let perRow := 75 / (w + 2)
  let (lead, trail) ← dropPartial ts.length perRow lead trail
  pure ((if lead = [] then str "[" else gridRows perRow w lead.length (str "[") lead) ++
    (if lead.length ≠ ts.length then str ",\n ...\n" ++ gridRows perRow w trail.length (str " ") trail else []) ++ str "]")

/-- `strided_array_summarized`: type.cpp:646-772, given the texts of the elements. -/
def summarized (ts : List (List Nat)) : Res (List Nat) := do
  let (ilead, lead, st) := leadLoop ts 7 0 [] (0, 0)
  let (trail, st) := trailLoop ts 3 (max (ts.length - 3) (ilead + 1)) [] st
  let itrail : Int := (ts.length : Int) - trail.length - 1
  if st.1 > lead.length + trail.length ∨ st.2 > 30 then do
    let (lead, trail) ← trimLoop (lead.length + trail.length + 2) lead trail st.1
    rowsText ts.length lead trail
  else gridText ts ilead itrail lead trail st

/-- `hexadecimal_print_summarized(o, data, size, 80)`: type.cpp:602-620. -/
def hexSummarized (b : List Nat) : List Nat :=
  if b.length * 2 ≤ 80 then b.flatMap hexByte
  else (b.take 19).flatMap hexByte ++ str " ... " ++ (b.drop (b.length - 1)).flatMap hexByte

/-- The value types of an option that printing may meet. -/
inductive OptKind where
  | bool | int8 | int16 | int32 | int64 | int128 | uint8 | uint16 | uint32 | uint64 | uint128
  | float16 | float32 | float64 | complex64 | complex128 | string | bytes | char | type | tuple | struct | dim
deriving DecidableEq

/-- The value types with a case in `is_avail_builtin`: /repo/src/dynd/types/option_type.cpp:53-83.  (All others: false.) -/
def availKnown : OptKind → Bool
  | .bool | .int8 | .int16 | .int32 | .uint32 | .int64 | .int128 | .float32 | .float64 | .complex64 | .complex128 => true
  | _ => false

/-- An array's data as printing walks it. -/
inductive PVal where
  /-- a scalar other than those below: the text of its own printing (builtin types, strings: C16, C26) -/
  | scalar (t : List Nat)
  | bytes (b : List Nat)
  | fixedBytes (b : List Nat)
  /-- an optional value: its value type, whether it is missing, its value otherwise -/
  | opt (k : OptKind) (missing : Bool) (v : PVal)
  /-- a fixed or variable-size dimension -/
  | dim (es : List PVal)
  /-- a tuple or struct -/
  | fields (es : List PVal)
  | pointer (v : PVal)

mutual
/-- `print_data`: type.cpp:839-845, fixed_dim_type.cpp:25-29, var_dim_type.cpp:18-23, tuple_type.cpp:16-26,
    struct_type.cpp:16-26, option_type.cpp:53-83, 89-95, pointer_type.cpp:15-19, bytes_type.cpp:35-43,
    fixed_bytes_type.cpp:24-27. -/
def printVal : PVal → Res (List Nat)
  | .scalar t => .ok t
  | .bytes b => .ok (if b = [] then str "NULL" else hexSummarized b)
  | .fixedBytes b => .ok (hexSummarized b)
  | .opt k missing v => if availKnown k && !missing then printVal v else .ok (str "NA")
  | .dim es => do
    let ts ← printVals es
    summarized ts
  | .fields es => do
    let ts ← printVals es
    pure (str "[" ++ (match ts with
      | [] => []
      | t :: ts => t ++ ts.flatMap (fun t => str ", " ++ t)) ++ str "]")
  | .pointer v => printVal v
def printVals : List PVal → Res (List (List Nat))
  | [] => .ok []
  | e :: es => do
    let t ← printVal e
    let ts ← printVals es
    pure (t :: ts)
end

/-- `operator<<(ostream, array)`: array.cpp:745-761.  `ty` is the text of the type. -/
def printArray (builtin : Bool) (v : PVal) (ty : List Nat) : Res (List Nat) := do
  let t ← printVal v
  pure (str "array(" ++ (if builtin then t else printIndented (str "      ") t true) ++ str ",\n      type=\"" ++ ty ++ str "\")")

end Dynd
