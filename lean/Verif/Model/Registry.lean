import Verif.Model.Basic
/-
The type registry: `new_id`, `lookup_id_by_name`, `register_known_type_id_constructor`, and what the datashape parser
does with a name.
-/
namespace Dynd

/-- `id_info`.  Types, constructors and argument parsers are represented by numbers; `none` is the null type or null
    pointer.  /repo/include/dynd/type_registry.hpp:37-72. -/
structure RegInfo where
  name : String
  base : Nat
  single : Option Nat
  ctor : Option Nat
  parser : Option Nat
  deriving DecidableEq, Repr

/-- The static vector `infos`.  /repo/src/dynd/type_registry.cpp:34-101. -/
abbrev TReg := List RegInfo

/-- The number standing for `&default_parse_type_args`. -/
def defaultParser : Nat := 0

/-- `new_id`.  /repo/src/dynd/type_registry.cpp:128-136. -/
def newId (r : TReg) (name : String) (base : Nat) : Nat × TReg := (r.length, r ++ [⟨name, base, none, none, none⟩])

/-- The loop of `lookup_id_by_name` from position `i` on. -/
def lookupFrom (name : String) : Nat → TReg → Option (Nat × RegInfo)
  | _, [] => none
  | i, x :: r => if x.name = name then some (i, x) else lookupFrom name (i + 1) r

/-- `lookup_id_by_name`; `none` is `{uninitialized_id, nullptr}`.  /repo/src/dynd/type_registry.cpp:138-147. -/
def lookupName (r : TReg) (name : String) : Option (Nat × RegInfo) := lookupFrom name 0 r

/-- `register_known_type_id_constructor`: the outcome and the registry afterwards (also if it throws).
    /repo/src/dynd/type_registry.cpp:149-171. -/
def registerId (r : TReg) (id : Nat) (single ctor parser : Option Nat) : Res Unit × TReg :=
  match r[id]? with
  | none => (.throw .outOfRange, r)
  | some ii =>
    if ii.single ≠ none ∨ ii.ctor ≠ none ∨ ii.parser ≠ none then (.throw .runtime, r)
    else
      let ii := { ii with single := single }
      match ctor with
      | some c => (.ok (), r.set id { ii with ctor := some c, parser := some (parser.getD defaultParser) })
      | none =>
        match parser with
        | some _ => (.throw .runtime, r.set id ii)
        | none => (.ok (), r.set id ii)

/-- What the datashape parser makes of a name. -/
inductive NameUse where
  /-- This type. -/
  | type (t : Nat)
  /-- The argument parser `f` is called with this id. -/
  | parseArgs (id f : Nat)
  /-- The constructor `f` is called with this id, no arguments and the element type. -/
  | dimension (id f : Nat)
  /-- A type variable of this name. -/
  | typevar
  deriving DecidableEq, Repr

/-- What follows the name. -/
inductive NameCtx where
  /-- `name *`. -/
  | star
  /-- `name [`. -/
  | bracket
  /-- Something else. -/
  | plain
  deriving DecidableEq, Repr

/-- The parser at a name: `builtin` is the table of builtin names, `upper` says that it begins with a capital letter.
    /repo/src/dynd/types/datashape_parser.cpp:715-799 (powers, ellipses, `complex` and `State` left out; after a type
    variable, `[` begins its argument). -/
def useName (builtin : String → Option Nat) (r : TReg) (upper : Bool) (name : String) : NameCtx → Res NameUse
  | .star => match lookupName r name with
    | some (0, _) | none => if upper then .ok .typevar else .throw .parse
    | some (id, ii) => match ii.ctor with
      | some f => .ok (.dimension id f)
      | none => .throw .parse
  | ctx => match builtin name with
    | some t => .ok (.type t)
    | none => match lookupName r name with
      | some (0, _) | none => if upper then .ok .typevar else .throw .parse
      | some (id, ii) =>
        if ctx = .bracket then match ii.parser with
          | some f => .ok (.parseArgs id f)
          | none => .throw .parse
        else match ii.single with
          | some t => .ok (.type t)
          | none => .throw .parse

/-- Calls that change the registry. -/
inductive RegOp where
  | new (name : String) (base : Nat)
  | register (id : Nat) (single ctor parser : Option Nat)

/-- One call. -/
def regStep (r : TReg) : RegOp → TReg
  | .new n b => (newId r n b).2
  | .register id s c p => (registerId r id s c p).2

/-- Any sequence of calls. -/
def regRun (r : TReg) (ops : List RegOp) : TReg := ops.foldl regStep r

end Dynd
