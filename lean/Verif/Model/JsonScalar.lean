import Verif.Model.Json
/-
Reading one scalar from JSON text with `nd::json::parse`: `/repo/include/dynd/parse.hpp`,
`/repo/include/dynd/kernels/parse_kernel.hpp`, `/repo/src/dynd/parse.cpp`.  (A second implementation beside
`parse_json`; it does not share its code.)
-/
namespace Dynd

/-- `_parse_na`: the text left after the missing value.  /repo/include/dynd/kernels/parse_kernel.hpp:73-100. -/
def parseNaK (s : List Nat) : Option (List Nat) :=
  match s with
  | [] => some []
  | [a, b] => if a = 78 ∧ b = 65 then some [] else none
  | [a, b, _] => if a = 78 ∧ b = 65 then some (s.drop 2) else none
  | a :: b :: c :: d :: _ =>
    if (a = 78 ∨ a = 110) ∧ (b = 85 ∨ b = 117) ∧ (c = 76 ∨ c = 108) ∧ (d = 76 ∨ d = 108) then some (s.drop 4)
    else if a = 78 ∧ b = 111 ∧ c = 110 ∧ d = 101 then some (s.drop 4)
    else if a = 78 ∧ b = 65 then some (s.drop 2)
    else none
  | _ => none

/-- `parse_kernel<int…>`: `_parse_number`, the same text as `json::parse_number`, then `dynd::parse<T>`.
    parse_kernel.hpp:16-71, 102-116. -/
def intK (t : IntTy) (s : List Nat) : Res (JVal × List Nat) :=
  match jNumber s with
  | none => .throw .runtime
  | some (n, r) => do
    let x ← parseInt t n
    pure (.int x, r)

/-- `parse_kernel<bool>`: `json::parse_bool`, /repo/src/dynd/parse_util.cpp:380-412. -/
def boolK (s : List Nat) : Res (JVal × List Nat) :=
  match jTok litTrue s with
  | some r => .ok (.bool 1, r)
  | none =>
  match jTok litFalse s with
  | some r => .ok (.bool 0, r)
  | none =>
  match jNumber s with
  | some (n, r) =>
    if n = [48] then .ok (.bool 0, r)
    else if n = [49] then .ok (.bool 1, r)
    else .throw .invalidArg
  | none => do
    match ← parseDoublequote s with
    | some (i, esc, r) =>
      let i ← if esc then unescape i else pure i
      let b ← parseBool i
      pure (.bool (boolByte b), r)
    | none => .throw .invalidArg

/-- `parse_kernel<string>`: the unescaped copy is computed and dropped, the text between the quotes is stored.
    parse_kernel.hpp:126-169. -/
def strK (s : List Nat) : Res (JVal × List Nat) := do
  match ← parseDoublequote (jWs s) with
  | some (i, _, r) =>
    let _ ← unescape i
    pure (.str i, r)
  | none => .throw .parse

/-- The scalar entries of the dispatcher of `dynamic_parse`: /repo/src/dynd/parse.cpp:28-47.  Other types have no entry;
    the entries for structs and dimensions build no kernel (parse_callable.hpp:70-, the code is commented out) and calling
    them runs an uninitialised function pointer. -/
def scalarK : JTy → List Nat → Res (JVal × List Nat)
  | .bool, s => boolK s
  | .int t, s => if t.bits ≤ 64 then intK t s else .throw .outOfRange
  | .string, s => strK s
  | .tuple _, _ => .throw .outOfRange
  | .option _, _ => .throw .outOfRange
  | _, _ => .ub

/-- What the `assign_na` dispatcher stores (`none`: no entry, so that resolving the call raises; for `int128` the entry
    exists but `dynamic_parse` has none).
    /repo/src/dynd/option.cpp:27-45, /repo/include/dynd/kernels/assign_na_kernel.hpp:18-60, 145-149. -/
def naK : JTy → Option JVal
  | .bool => some (.bool 2)
  | .int t =>
    if 64 < t.bits then none else if t.signed then some (.int t.min) else if t.bits = 32 then some (.int t.max) else none
  | .string => some (.str [])
  | _ => none

/-- `dynamic_parse` on a type: parse.cpp:28-47; `parse_kernel<option_type>`, parse_kernel.hpp:206-228 and
    parse_callable.hpp:25-47 (both children are resolved before anything is read). -/
def dynParse : JTy → List Nat → Res (JVal × List Nat)
  | .option t, s =>
    match naK t with
    | none => .throw .outOfRange
    | some v =>
      match parseNaK s with
      | some r => .ok (v, r)
      | none => scalarK t s
  | t, s => scalarK t s

/-- `nd::json::parse(tp, begin, end)`: /repo/include/dynd/parse.hpp:24-39. -/
def jsonParse (t : JTy) (s : List Nat) : Res JVal := do
  let (v, r) ← dynParse t (jWs s)
  if jWs r = [] then pure v else .throw .parse

end Dynd
