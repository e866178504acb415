import Verif.Model.Basic
/-
Model of the calling convention of callables: `nd::callable::call`, which binds the positional and keyword arguments of
a call to the parameters in the callable's signature before handing them to the callable.
Types, arrays, type-variable maps, pattern matching and creation of missing values are parameters (`CallOps`), so the
model holds for any type system; the concrete pattern matcher is modelled in `Verif.Model.TypeMatch`.
-/
namespace Dynd

/-- The signature of a callable: `ndt::callable_type` (/repo/include/dynd/types/callable_type.hpp:16-24): a positional
    tuple, a keyword struct (type and name of each keyword), both possibly variadic, and the return type. -/
structure CallSig (T : Type) where
  pos : List T
  posVariadic : Bool
  kwds : List (T × String)
  kwdVariadic : Bool
  ret : T

/-- The operations on types and arrays `callable::call` uses.  `matchTy p c vars` is `ndt::type::match` (result and
    updated type variables); `optionValue` is the value type when the type's id is `option_id`, and `none` otherwise;
    `naFor t vars` is `ndt::substitute` + `assign_na({{"dst_tp", …}})` (/repo/src/dynd/callable.cpp:163-167); `emptyOf v`
    is `nd::empty(value.as<ndt::type>())` (/repo/include/dynd/callable.hpp:27). -/
structure CallOps (T A V : Type) where
  typeOf : A → T
  valueType : T → T
  optionValue : T → Option T
  matchTy : T → T → V → Res (Bool × V)
  naFor : T → V → Res A
  emptyOf : A → Res A
  noVars : V

/-- What is handed to `base_callable::call` (/repo/src/dynd/callable.cpp:181-188): the first `narg` arguments, the array
    of keyword values with the count passed along, the destination (null when it is to be allocated), the destination
    type and the type variables. -/
structure CallOut (T A V : Type) where
  args : List (Option A)
  kwds : List (Option A)
  nkwd : Nat
  dst : Option A
  dstTp : T
  vars : V
  deriving DecidableEq

section
variable {T A V : Type} (ops : CallOps T A V)

/-- `struct_type::get_field_index` (/repo/src/dynd/types/struct_type.cpp:28-35) through `callable_type::get_kwd_index`
    (/repo/include/dynd/types/callable_type.hpp:101-103): `std::find` on the names; `none` stands for `-1`. -/
def kwdIndex : List (T × String) → String → Option Nat
  | [], _ => none
  | (_, n) :: ks, name => if n = name then some 0 else (kwdIndex ks name).map (· + 1)

/-- Indices of the optional keywords: constructor of `callable_type`
    (/repo/include/dynd/types/callable_type.hpp:46-50). -/
def optionKwdIndices : List (T × String) → Nat → List Nat
  | [], _ => []
  | (t, _) :: ks, i => if (ops.optionValue t).isSome then i :: optionKwdIndices ks (i + 1) else optionKwdIndices ks (i + 1)

/-- The positional loop for a callable whose positional tuple is not variadic, with `detail::check_arg`
    (/repo/src/dynd/callable.cpp:57-71 and 96-102): each declared argument is matched against the type given.  Reading
    the type of a null array is undefined. -/
def checkArgs : List T → List (Option A) → V → Res V
  | [], _, vars => .ok vars
  | _ :: _, [], _ => .ub
  | _ :: _, none :: _, _ => .ub
  | t :: ts, some a :: as, vars => do
    let (b, vars') ← ops.matchTy t (ops.typeOf a) vars
    if b then checkArgs ts as vars' else .throw .invalidArg

/-- The positional loop for a variadic callable (/repo/src/dynd/callable.cpp:88-94): `check_arg` returns immediately, the
    types are read only. -/
def readArgs : List (Option A) → Res Unit
  | [] => .ok ()
  | none :: _ => .ub
  | some _ :: as => readArgs as

/-- The extra positional arguments written to the first keyword slots (/repo/src/dynd/callable.cpp:109-111). -/
def putExtras : List (Option A) → Nat → List (Option A) → Res (List (Option A))
  | [], _, slots => .ok slots
  | a :: as, j, slots => if j < slots.length then putExtras as (j + 1) (slots.set j a) else .ub

/-- The keyword loop (/repo/src/dynd/callable.cpp:117-150) with `detail::is_special_kwd`
    (/repo/include/dynd/callable.hpp:25-35): keywords in call order; state: the slots, the destination, the type
    variables. -/
def bindKwds (sig : CallSig T) : List (String × Option A) → List (Option A) → Option A → V →
    Res (List (Option A) × Option A × V)
  | [], slots, dst, vars => .ok (slots, dst, vars)
  | (name, v) :: ks, slots, dst, vars =>
    match kwdIndex sig.kwds name with
    | none =>
      if name = "dst_tp" then
        match v with
        | none => .ub
        | some a => do
          let d ← ops.emptyOf a
          bindKwds sig ks slots (some d) vars
      else if name = "dst" then bindKwds sig ks slots v vars
      else .throw .invalidArg
    | some k =>
      match slots[k]?, sig.kwds[k]? with
      | some none, some (t, _) =>
        match v with
        | none => .ub
        | some a => do
          let expected := (ops.optionValue t).getD t
          let (b, vars') ← ops.matchTy expected (ops.valueType (ops.typeOf a)) vars
          if b then bindKwds sig ks (slots.set k (some a)) dst vars' else .throw .invalidArg
      | some (some _), some _ => .throw .invalidArg
      | _, _ => .ub

/-- The loop over the optional keywords (/repo/src/dynd/callable.cpp:161-170): missing values for those not given, each
    counted in `nkwd`. -/
def fillLeftOut (sig : CallSig T) (vars : V) : List Nat → List (Option A) → Nat → Res (List (Option A) × Nat)
  | [], slots, nkwd => .ok (slots, nkwd)
  | j :: js, slots, nkwd =>
    match slots[j]?, sig.kwds[j]? with
    | some none, some (t, _) => do
      let a ← ops.naFor t vars
      fillLeftOut sig vars js (slots.set j (some a)) (nkwd + 1)
    | some (some _), some _ => fillLeftOut sig vars js slots nkwd
    | _, _ => .ub

/-- Validation of the destination (/repo/src/dynd/callable.cpp:152-160). -/
def checkDst (sig : CallSig T) (dst : Option A) (vars : V) : Res V :=
  match dst with
  | none => .ok vars
  | some d => do
    let (b, vars') ← ops.matchTy sig.ret (ops.typeOf d) vars
    if b then .ok vars' else .throw .invalidArg

/-- `nd::callable::call` up to the call of the callable itself (/repo/src/dynd/callable.cpp:73-189).  Null arrays are
    `none`.  Simplified: allocation failures are not modelled; the values `args_tp`/`args_arrmeta` are functions of the
    arguments and are left out. -/
def bindCall (sig : CallSig T) (args : List (Option A)) (kws : List (String × Option A)) : Res (CallOut T A V) := do
  if sig.posVariadic = false ∧ args.length < sig.pos.length then .throw .invalidArg else
  let empty : List (Option A) := List.replicate (args.length + sig.kwds.length) none
  let (narg, extras, vars) ← (if sig.posVariadic then (do
      readArgs args
      .ok (args.length, [], ops.noVars))
    else (do
      let vars ← checkArgs ops sig.pos args ops.noVars
      if sig.kwdVariadic = false ∧ args.length - sig.pos.length > sig.kwds.length then .throw .invalidArg else
      .ok (sig.pos.length, args.drop sig.pos.length, vars)) : Res (Nat × List (Option A) × V))
  let slots ← putExtras extras 0 empty
  let (slots, dst, vars) ← bindKwds ops sig kws slots none vars
  let vars ← checkDst ops sig dst vars
  let (slots, nkwd) ← fillLeftOut ops sig vars (optionKwdIndices ops sig.kwds 0) slots (extras.length + kws.length)
  if nkwd < sig.kwds.length then .throw .invalidArg else
  .ok { args := args.take narg, kwds := slots, nkwd := nkwd, dst := dst,
        dstTp := (match dst with | none => sig.ret | some d => ops.typeOf d), vars := vars }

end
end Dynd
