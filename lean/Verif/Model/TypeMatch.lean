/-
Type pattern matching (`ndt::type::match`, the `match` functions of the type classes) and substitution of type
variables (`ndt::substitute`).
-/
import Verif.Model.Types

namespace Dynd

/-- `std::map<std::string, ndt::type> tp_vars`; an absent entry and a null entry are not distinguished
    (`tp_vars[name]` creates a null entry, which the code treats as "not seen yet"). -/
abbrev Env := String → Option Ty

/-- no bindings -/
def Env.empty : Env := fun _ => none
/-- `tp_vars[s] = t` -/
def Env.set (σ : Env) (s : String) (t : Ty) : Env := fun x => if x = s then some t else σ x

/-- One dimension of a type as a tag of a dim fragment: -2 `Fixed`, -1 `var`, n `fixed[n]`.
    /repo/src/dynd/types/dim_fragment_type.cpp:17-31. -/
def dimTag : Ty → Option (Int × Ty)
  | .fixedDimKind el => some (-2, el)
  | .fixedDim n el => some (n, el)
  | .varDim el => some (-1, el)
  | _ => none

/-- `get_tagged_dims_from_type`: the tags of the leading dimensions and the remaining type.
    /repo/src/dynd/types/dim_fragment_type.cpp:14-36. -/
def taggedDims : Nat → Ty → Res (List Int × Ty)
  | 0, t => .ok ([], t)
  | k + 1, t =>
    match dimTag t with
    | none => .throw .typeError
    | some (tag, el) => do
      let r ← taggedDims k el
      pure (tag :: r.1, r.2)

/-- One slot of `broadcast_tagged_dims_from_type`: the old tag, the tag of the type's dimension, what the output
    slot held before (`none`: uninitialised memory) ↦ what it holds after, or `none` if they do not broadcast.
    /repo/src/dynd/types/dim_fragment_type.cpp:42-64. -/
def bcastSlot (old new : Int) (slot : Option Int) : Option (Option Int) :=
  if new = -2 then some (if old < 0 then some (-2) else slot)
  else if new = -1 then some slot
  else if old < 0 ∨ old = 1 then some (some new)
  else if old ≠ new ∧ new ≠ 1 then none
  else some slot

/-- `broadcast_tagged_dims_from_type` over the slots.  /repo/src/dynd/types/dim_fragment_type.cpp:38-68. -/
def bcastTagged : Ty → List Int → List (Option Int) → Res (Option (List (Option Int)))
  | t, old :: olds, slot :: slots =>
    match dimTag t with
    | none => .throw .typeError
    | some (tag, el) =>
      match bcastSlot old tag slot with
      | none => .ok none
      | some s => do
        let r ← bcastTagged el olds slots
        pure (r.map (s :: ·))
  | _, _, _ => .ok (some [])

/-- Reading the slots as numbers: an uninitialised slot is an indeterminate value.
    /repo/include/dynd/shortvector.hpp:57-61. -/
def readSlots : List (Option Int) → Res (List Int)
  | [] => .ok []
  | none :: _ => .ub
  | some x :: l => do
    let r ← readSlots l
    pure (x :: r)

/-- `dim_fragment_type::broadcast_with_type(ndim, tp)`; `none` = the null type (no broadcast).
    /repo/src/dynd/types/dim_fragment_type.cpp:83-113.  `dimvector shape(n)` does not initialise the elements:
    in the first case only the leading ones are filled in before broadcasting. -/
def bcastFragment (tags : List Int) (ndim : Nat) (t : Ty) : Res (Option (List Int)) :=
  if ndim = 0 then .ok (some tags)
  else if tags.length < ndim then do
    let lead ← taggedDims (ndim - tags.length) t
    let r ← bcastTagged lead.2 tags (List.replicate tags.length none)
    match r with
    | none => pure none
    | some slots =>
      let shape ← readSlots (lead.1.map some ++ slots)
      pure (some shape)
  else do
    let k := tags.length - ndim
    let r ← bcastTagged t (tags.drop k) ((tags.drop k).map some)
    match r with
    | none => pure none
    | some slots =>
      let shape ← readSlots ((tags.take k).map some ++ slots)
      pure (some shape)

/-- Does a candidate match a kind type?  /repo/include/dynd/types/any_kind_type.hpp:37, bool_kind_type.hpp:17-19,
    bytes_kind_type.hpp:17-19, string_kind_type.hpp:17-20, /repo/src/dynd/types/scalar_kind_type.cpp:16-20,
    int_kind_type.cpp:11-13, uint_kind_type.cpp:12-14, float_kind_type.cpp:11-13, complex_kind_type.cpp:11-13,
    fixed_bytes_kind_type.cpp:90-93, fixed_string_kind_type.cpp:96-99, categorical_kind_type.cpp:86-89. -/
def matchKind : Kind → Ty → Bool
  | .any, _ => true
  | .scalar, c => c.isScalar
  | .bool, c => c.baseIs .bool
  | .int, c => c.baseIs .int
  | .uint, c => c.baseIs .uint
  | .float, c => c.baseIs .float
  | .complex, c => c.baseIs .complex
  | .bytes, c => c.baseIs .bytes
  | .string, .leaf .string | .string, .leaf (.fixedString _ _) => true
  | .string, .kind .fixedString | .string, .kind .string => true
  | .string, _ => false
  | .fixedBytes, .leaf (.fixedBytes _ _) | .fixedBytes, .kind .fixedBytes => true
  | .fixedBytes, _ => false
  | .fixedString, .leaf (.fixedString _ _) | .fixedString, .kind .fixedString => true
  | .fixedString, _ => false
  | .categorical, .leaf (.categorical _) | .categorical, .kind .categorical => true
  | .categorical, _ => false

/-- `std::equal(m_field_names.begin(), m_field_names.end(), candidate_names.begin())`: reading past the end of
    the candidate's names is undefined.  /repo/src/dynd/types/struct_type.cpp:302. -/
def prefixNames : List String → List String → Res Bool
  | [], _ => .ok true
  | _ :: _, [] => .ub
  | a :: as, b :: bs => if a = b then prefixNames as bs else .ok false

/-- The field-count test of tuples and structs.  /repo/src/dynd/types/tuple_type.cpp:398-399,
    struct_type.cpp:298-299. -/
def countsMatch (n : Nat) (variadic : Bool) (m : Nat) (candVariadic : Bool) : Bool :=
  (n == m && !candVariadic) || (decide (m ≥ n) && variadic)

/-- Stripping `k` dimensions for a `Fixed ** k` base.  /repo/src/dynd/types/pow_dimsym_type.cpp:190-202. -/
def stripFixedKind : Nat → Ty → Option Ty
  | 0, t => some t
  | k + 1, .fixedDimKind el => stripFixedKind k el
  | k + 1, .fixedDim _ el => stripFixedKind k el
  | _ + 1, _ => none

/-- Stripping `k` dimensions for an `n ** k` base.  /repo/src/dynd/types/pow_dimsym_type.cpp:203-214. -/
def stripFixed (n : Int) : Nat → Ty → Option Ty
  | 0, t => some t
  | k + 1, .fixedDim m el => if m = n then stripFixed n k el else none
  | _ + 1, _ => none

/-- Stripping `k` dimensions for a `var ** k` base: a dimension that is not `var` is skipped over silently.
    /repo/src/dynd/types/pow_dimsym_type.cpp:215-221. -/
def stripVar : Nat → Ty → Ty
  | 0, t => t
  | k + 1, .varDim el => stripVar k el
  | k + 1, t => stripVar k t

/-- The base type dispatch of `pow_dimsym_type::match`: the type that is left for the element pattern.
    /repo/src/dynd/types/pow_dimsym_type.cpp:187-224. -/
def stripPow (base : Ty) (k : Nat) (c : Ty) : Option Ty :=
  match base with
  | .fixedDimKind _ => stripFixedKind k c
  | .fixedDim n _ => stripFixed n k c
  | .varDim _ => some (stripVar k c)
  | _ => none

/-- The exponent of a dimension power: bound to the number `k` of dimensions left for it, or compared with it.
    /repo/src/dynd/types/pow_dimsym_type.cpp:145-162. -/
def powExponent (σ : Env) (x : String) (k : Int) : Option Int × Env :=
  match σ x with
  | none => (some k, σ.set x (.fixedDim k (.prim .void)))
  | some (.fixedDim n _) => (if n = k then some n else none, σ)
  | some _ => (none, σ)

/-- The base of a dimension power: a dimension variable is bound to the candidate or replaced by its value.
    /repo/src/dynd/types/pow_dimsym_type.cpp:169-186. -/
def powBase (σ : Env) (base c : Ty) : Option Ty × Env :=
  match base with
  | .typevarDim y _ =>
    match σ y with
    | none => (some c, σ.set y c)
    | some (.dimFragment _) => (none, σ)
    | some t => (if t.ndim > 0 then some t else none, σ)
  | b => (some b, σ)

/-- "Make sure the type matches previous instances of the type var": the type ids are equal, and the sizes of
    fixed dimensions.  /repo/src/dynd/types/typevar_dim_type.cpp:98-110. -/
def sameDimId : Ty → Ty → Bool
  | .fixedDim n _, .fixedDim m _ => n == m
  | .fixedDimKind _, .fixedDimKind _ | .varDim _, .varDim _ | .dimKind _, .dimKind _ => true
  | .option _, .option _ | .pointer _, .pointer _ => true
  | .typevarDim _ _, .typevarDim _ _ | .ellipsis _ _, .ellipsis _ _ | .powDimsym _ _ _, .powDimsym _ _ _ => true
  | .dimFragment _, .dimFragment _ => true
  | .kind .any, .kind .any => true
  | _, _ => false

mutual
/-- `type::match` and the `match` functions of the classes.  `same q` says whether the pattern and the candidate
    at position `q` of the pattern are the *same object*: the shortcut `m_ptr == other.m_ptr` can only fire when
    they are equal.  The result is the boolean together with the bindings left in `tp_vars` (also on failure).
    /repo/src/dynd/type.cpp:213-215 (shortcut), base_type.cpp:197-205 (default: equality),
    fixed_dim_type.cpp:511-519, fixed_dim_kind_type.cpp:147-156, base_dim_type.cpp:21-28 (var_dim, dim_fragment),
    dim_kind_type.cpp:19-21, pointer_type.cpp:228-231, option_type.cpp:200-206, tuple_type.cpp:390-411,
    struct_type.cpp:290-317, callable_type.cpp:187-208, typevar_type.cpp:76-92, typevar_dim_type.cpp:85-113,
    ellipsis_dim_type.cpp:91-152, pow_dimsym_type.cpp:99-226. -/
def matchTy (same : List Nat → Bool) : Ty → Ty → Env → Res (Bool × Env)
  | .prim b, c, σ => .ok (tyEq (.prim b) c, σ)
  | .leaf l, c, σ => .ok (tyEq (.leaf l) c, σ)
  | .kind k, c, σ =>
    if same [] && tyEq (.kind k) c then .ok (true, σ) else .ok (matchKind k c, σ)
  | .fixedDim n el, c, σ =>
    if same [] && tyEq (.fixedDim n el) c then .ok (true, σ) else
    match c with
    | .fixedDim m el' => if n = m then matchTy (fun q => same (0 :: q)) el el' σ else .ok (false, σ)
    | _ => .ok (false, σ)
  | .fixedDimKind el, c, σ =>
    if same [] && tyEq (.fixedDimKind el) c then .ok (true, σ) else
    match c with
    | .fixedDimKind el' => matchTy (fun q => same (0 :: q)) el el' σ
    | .fixedDim _ el' => matchTy (fun q => same (0 :: q)) el el' σ
    | _ => .ok (false, σ)
  | .varDim el, c, σ =>
    if same [] && tyEq (.varDim el) c then .ok (true, σ) else
    match c with
    | .varDim el' => matchTy (fun q => same (0 :: q)) el el' σ
    | _ => .ok (false, σ)
  | .dimKind el, c, σ =>
    if same [] && tyEq (.dimKind el) c then .ok (true, σ) else
    if c.ndim > 0 then do
      let c' ← c.atDim 1
      let r ← matchTy (fun q => same (0 :: q)) el c' Env.empty
      pure (r.1, σ)
    else .ok (false, σ)
  | .pointer t, c, σ =>
    if same [] && tyEq (.pointer t) c then .ok (true, σ) else
    match c with
    | .pointer t' => matchTy (fun q => same (0 :: q)) t t' σ
    | _ => .ok (false, σ)
  | .option t, c, σ =>
    if same [] && tyEq (.option t) c then .ok (true, σ) else
    match c with
    | .option t' => matchTy (fun q => same (0 :: q)) t t' σ
    | _ => .ok (false, σ)
  | .tuple ts v, c, σ =>
    if same [] && tyEq (.tuple ts v) c then .ok (true, σ) else
    match c with
    | .tuple cs w =>
      if countsMatch ts.length v cs.length w then matchTys (fun q => same (0 :: q)) ts cs σ else .ok (false, σ)
    | _ => .ok (false, σ)
  | .struct ns ts v, c, σ =>
    if same [] && tyEq (.struct ns ts v) c then .ok (true, σ) else
    match c with
    | .struct ms cs w =>
      if countsMatch ts.length v cs.length w then
        match prefixNames ns ms with
        | .ok true => matchTys (fun q => same (0 :: q)) ts cs σ
        | .ok false => .ok (false, σ)
        | .throw e => .throw e
        | .ub => .ub
      else .ok (false, σ)
    | _ => .ok (false, σ)
  | .callable r p k, c, σ =>
    if same [] && tyEq (.callable r p k) c then .ok (true, σ) else
    match c with
    | .callable r' p' k' => do
      let a ← matchTy (fun q => same (0 :: q)) r r' σ
      if a.1 then
        let b ← matchTy (fun q => same (1 :: q)) p p' a.2
        if b.1 then matchTy (fun q => same (2 :: q)) k k' b.2 else pure (false, b.2)
      else pure (false, a.2)
    | _ => .ok (false, σ)
  | .typevar s, c, σ =>
    if same [] && tyEq (.typevar s) c then .ok (true, σ) else
    if c.ndim > 0 ∨ tyEq c (.kind .any) then .ok (false, σ) else
    match σ s with
    | none => .ok (true, σ.set s c)
    | some t => .ok (tyEq c t, σ)
  | .typevarDim s el, c, σ =>
    if same [] && tyEq (.typevarDim s el) c then .ok (true, σ) else
    if c.isScalar then .ok (false, σ) else
    match σ s with
    | none => do
      let c' ← c.atDim 1
      matchTy (fun q => same (0 :: q)) el c' (σ.set s c)
    | some t =>
      if sameDimId c t then do
        let c' ← c.atDim 1
        matchTy (fun q => same (0 :: q)) el c' σ
      else .ok (false, σ)
  | .ellipsis s el, c, σ =>
    if same [] && tyEq (.ellipsis s el) c then .ok (true, σ) else
    if tyEq c (.kind .any) then .ok (true, σ) else
    if c.ndim = 0 then
      if s = "" then matchTy (fun q => same (0 :: q)) el c σ else
      match σ s with
      | none => matchTy (fun q => same (0 :: q)) el c (σ.set s (.dimFragment []))
      | some (.dimFragment _) => matchTy (fun q => same (0 :: q)) el c σ
      | some _ => .ok (false, σ)
    else
    match c with
    | .ellipsis _ el' => matchTy (fun q => same (0 :: q)) el el' σ
    | _ =>
      if c.ndim ≥ el.ndim then
        let m := c.ndim - el.ndim
        if s = "" then do
          let c' ← c.atDim m
          matchTy (fun q => same (0 :: q)) el c' σ
        else
        match σ s with
        | none => do
          let frag ← taggedDims m c
          let c' ← c.atDim m
          matchTy (fun q => same (0 :: q)) el c' (σ.set s (.dimFragment frag.1))
        | some (.dimFragment tags) => do
          let r ← bcastFragment tags m c
          match r with
          | none => pure (false, σ)
          | some tags' => do
            let c' ← c.atDim m
            matchTy (fun q => same (0 :: q)) el c' (σ.set s (.dimFragment tags'))
        | some _ => .ok (false, σ)
      else .ok (false, σ)
  | .powDimsym base x el, c, σ =>
    if same [] && tyEq (.powDimsym base x el) c then .ok (true, σ) else
    let rest := fun (σ : Env) =>
      match powExponent σ x ((c.ndim : Int) - (el.ndim : Int)) with
      | (none, σ) => Res.ok (false, σ)
      | (some n, σ) =>
        if n = 0 then matchTy (fun q => same (0 :: q)) el c σ
        else if n < 0 then Res.ok (false, σ)
        else
          match powBase σ base c with
          | (none, σ) => Res.ok (false, σ)
          | (some b, σ) =>
            match stripPow b n.toNat c with
            | none => Res.ok (false, σ)
            | some c' => matchTy (fun q => same (0 :: q)) el c' σ
    match c with
    | .powDimsym base' x' el' => do
      let a ← matchTy (fun q => same (1 :: q)) base base' σ
      if a.1 then
        let b ← matchTy (fun q => same (0 :: q)) el el' a.2
        match b.2 x' with
        | none => pure (true, b.2.set x' (.typevarDim x' (.prim .void)))
        | some (.typevarDim y _) => pure (y == x', b.2)
        | some _ => pure (false, b.2)
      else rest a.2
    | _ =>
      if c.ndim = 0 then
        if el.ndim = 0 then
          match σ x with
          | none => matchTy (fun q => same (0 :: q)) el c (σ.set x (.fixedDim 0 (.prim .void)))
          | some (.fixedDim n _) => if n ≠ 0 then .ok (false, σ) else matchTy (fun q => same (0 :: q)) el c σ
          | some _ => .ok (false, σ)
        else .ok (false, σ)
      else rest σ
  | .dimFragment _, c, σ =>
    match c with
    | .dimFragment _ => .ok (true, σ)
    | _ => .ok (false, σ)
/-- The loop over the fields of a tuple or struct.  /repo/src/dynd/types/tuple_type.cpp:401-407,
    struct_type.cpp:307-313. -/
def matchTys (same : List Nat → Bool) : List Ty → List Ty → Env → Res (Bool × Env)
  | [], _, σ => .ok (true, σ)
  | _ :: _, [], _ => .ub
  | t :: ts, c :: cs, σ => do
    let a ← matchTy (fun q => same (0 :: q)) t c σ
    if a.1 then matchTys (fun q => same (1 :: q)) ts cs a.2 else pure (false, a.2)
end

/-- `type::match(candidate_tp)`: matching with a fresh variable map.  /repo/include/dynd/type.hpp:245-248. -/
def matchFresh (same : List Nat → Bool) (p c : Ty) : Res (Bool × Env) := matchTy same p c Env.empty

/-- `dim_fragment_type::apply_to_dtype`.  /repo/src/dynd/types/dim_fragment_type.cpp:115-137. -/
def applyFragment : List Int → Ty → Ty
  | [], t => t
  | tag :: tags, t =>
    if tag = -1 then .varDim (applyFragment tags t)
    else if tag = -2 then .fixedDimKind (applyFragment tags t)
    else .fixedDim tag (applyFragment tags t)

/-- `k` times the dimension `base` in front of `t`.  /repo/src/dynd/types/substitute_typevars.cpp:285-330 (the
    loops after "Substitute the element type, then apply the exponent"). -/
def applyPow (concrete : Bool) (base : Ty) : Nat → Ty → Res Ty
  | 0, t => .ok t
  | k + 1, t =>
    match base with
    | .fixedDimKind _ =>
      if concrete then .throw .invalidArg else do let r ← applyPow concrete base k t; pure (.fixedDimKind r)
    | .fixedDim n _ => do let r ← applyPow concrete base k t; pure (.fixedDim n r)
    | .varDim _ => do let r ← applyPow concrete base k t; pure (.varDim r)
    | .typevarDim y _ => do let r ← applyPow concrete base k t; pure (.typevarDim y r)
    | _ => .throw .invalidArg

mutual
/-- `ndt::substitute` and `internal_substitute`: a type that is not symbolic (and not a callable) is returned as
    it is.  /repo/include/dynd/types/substitute_typevars.hpp:27-39, /repo/src/dynd/types/substitute_typevars.cpp:106-391.
    The variadic flag of tuples and structs is not passed on (lines 135-143).  Callables go through
    `get_type_constructor_args` (/repo/src/dynd/types/callable_type.cpp:224-242), which with keyword arguments
    returns a null buffer (the assignments go to a shadowing local) that is then dereferenced; without keyword
    arguments the keyword struct is the empty one. -/
def substTy (concrete : Bool) (σ : Env) : Ty → Res Ty
  | .prim b => .ok (.prim b)
  | .leaf l => .ok (.leaf l)
  | .kind .any => if concrete then .throw .invalidArg else .ok (.kind .any)
  | .kind .scalar => if concrete then .throw .invalidArg else .ok (.kind .scalar)
  | .kind _ => .throw .runtime
  | .pointer t => if (Ty.pointer t).symbolic then do let r ← substTy concrete σ t; pure (.pointer r)
    else .ok (.pointer t)
  | .fixedDimKind el =>
    if concrete then .throw .invalidArg else do let r ← substTy concrete σ el; pure (.fixedDimKind r)
  | .fixedDim n el => if (Ty.fixedDim n el).symbolic then do let r ← substTy concrete σ el; pure (.fixedDim n r)
    else .ok (.fixedDim n el)
  | .varDim el => if (Ty.varDim el).symbolic then do let r ← substTy concrete σ el; pure (.varDim r)
    else .ok (.varDim el)
  | .dimKind _ => .throw .runtime
  | .struct ns ts v => if (Ty.struct ns ts v).symbolic then do let rs ← substTys concrete σ ts; pure (.struct ns rs false)
    else .ok (.struct ns ts v)
  | .tuple ts v => if (Ty.tuple ts v).symbolic then do let rs ← substTys concrete σ ts; pure (.tuple rs false)
    else .ok (.tuple ts v)
  | .option t => if (Ty.option t).symbolic then do let r ← substTy concrete σ t; pure (.option r)
    else .ok (.option t)
  | .callable r p k =>
    match k with
    | .struct _ [] _ => do
      let r' ← substTy concrete σ r
      let p' ← substTy concrete σ p
      pure (.callable r' p' (.struct [] [] false))
    | _ => .ub
  | .typevar s =>
    match σ s with
    | some t =>
      if t.ndim ≠ 0 then .throw .invalidArg
      else if !concrete || !t.symbolic then .ok t else .throw .invalidArg
    | none => if concrete then .throw .invalidArg else .ok (.typevar s)
  | .typevarDim s el =>
    match σ s with
    | some t =>
      if t.ndim = 0 then .throw .invalidArg
      else if !concrete || !t.symbolic then
        match t with
        | .fixedDimKind _ => do let r ← substTy concrete σ el; pure (.fixedDimKind r)
        | .fixedDim n _ => do let r ← substTy concrete σ el; pure (.fixedDim n r)
        | .varDim _ => do let r ← substTy concrete σ el; pure (.varDim r)
        | _ => .throw .invalidArg
      else .throw .invalidArg
    | none =>
      if concrete then .throw .invalidArg else do let r ← substTy concrete σ el; pure (.typevarDim s r)
  | .powDimsym base x el => do
    -- (exponent, exponent name)
    let e : Int × String ← (match σ x with
      | none => Res.ok (-1, x)
      | some (.fixedDim n _) => Res.ok (n, x)
      | some (.typevarDim y _) => if concrete then Res.throw .invalidArg else Res.ok (-1, y)
      | some _ => Res.throw .invalidArg)
    if e.1 = 0 then substTy concrete σ el else do
      let b ← (match base with
        | .typevarDim y _ =>
          match σ y with
          | none => if concrete then Res.throw .invalidArg else Res.ok base
          | some (.dimFragment _) => Res.throw .invalidArg
          | some t => if t.ndim > 0 then Res.ok t else Res.throw .invalidArg
        | b => Res.ok b)
      let r ← substTy concrete σ el
      if e.1 < 0 then pure (.powDimsym b e.2 r) else applyPow concrete b e.1.toNat r
  | .ellipsis s el =>
    if s = "" then .throw .invalidArg else
    match σ s with
    | some (.dimFragment tags) => do let r ← substTy concrete σ el; pure (applyFragment tags r)
    | some _ => .throw .invalidArg
    | none => if concrete then .throw .invalidArg else do let r ← substTy concrete σ el; pure (.ellipsis s r)
  | .dimFragment _ => .throw .runtime
/-- `substitute_type_array`.  /repo/src/dynd/types/substitute_typevars.cpp:26-36. -/
def substTys (concrete : Bool) (σ : Env) : List Ty → Res (List Ty)
  | [] => .ok []
  | t :: ts => do
    let r ← substTy concrete σ t
    let rs ← substTys concrete σ ts
    pure (r :: rs)
end

end Dynd
