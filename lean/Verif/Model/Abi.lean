import Verif.Model.Basic
/-
The C interface to types: src/dynd/abi and include/dynd/abi.  Types are buffers of 8-byte words that point to each other.

Layouts, in words (all fields are pointers or `size_t`):
* `dynd_buffer` (metadata.h:12-23): 0 `resource.release`, 1 `allocated.base_ptr`, 2 `allocated.size`;
* `dynd_type` (type.h:58-69, refcount.h:22-25): 0 `refcount.refcount`, 1 `refcount.resource.release`,
  2 `header.allocated.base_ptr`, 3 `header.allocated.size`, 4 `header.vtable`, 5 `header.constructor`, then the typemeta
  (`dynd_type_metadata(&t->header)`, type.h:71, is word 6).
-/
namespace Dynd

/-- The kinds of types, one vtable and one constructor object each. -/
inductive AbiKind where
  | primitive | dense | sparse | tuple
  deriving Repr, DecidableEq

/-- The functions stored in `release` fields. -/
inductive AbiFn where
  | never     -- dynd_abi_resource_never_release, resource.cpp:6-8
  | mallocd   -- dynd_release_malloc_allocated, metadata.c:13-15
  deriving Repr, DecidableEq

/-- What a word of memory holds. -/
inductive AbiWord where
  | undef
  | num (n : Nat)
  | ptr (block off : Nat)
  | fn (f : AbiFn)
  | vtable (k : AbiKind)
  | ctor (k : AbiKind)
  deriving Repr, DecidableEq

/-- An allocated block; `heap` if it came from `malloc`. -/
structure AbiBlock where
  words : List AbiWord
  heap : Bool
  freed : Bool
  deriving Repr, DecidableEq

/-- Memory: blocks by number. -/
abbrev AbiMem := List AbiBlock

/-- Reading a word; anything outside or freed is undefined. -/
def abiRead (m : AbiMem) (b off : Nat) : Res AbiWord :=
  match m[b]? with
  | none => .ub
  | some blk => if blk.freed then .ub else match blk.words[off]? with
    | none => .ub
    | some w => .ok w

/-- Writing a word. -/
def abiWrite (m : AbiMem) (b off : Nat) (w : AbiWord) : Res AbiMem :=
  match m[b]? with
  | none => .ub
  | some blk => if blk.freed then .ub else
    if off < blk.words.length then .ok (m.set b { blk with words := blk.words.set off w }) else .ub

/-- `dynd_malloc_buffer(8 * n)`: metadata.c:5-11.  `avail` is whether `malloc` succeeds; its result is not tested. -/
def mallocBuffer (avail : Bool) (m : AbiMem) (n : Nat) : Res (AbiMem × Nat) :=
  if avail then do
    let b := m.length
    let m := m ++ [⟨List.replicate n .undef, true, false⟩]
    let m ← abiWrite m b 0 (.fn .mallocd)
    let m ← abiWrite m b 1 (.ptr b 0)
    let m ← abiWrite m b 2 (.num (8 * n))
    pure (m, b)
  else .ub

/-- the children copied one after the other: tuple.cpp:70-74 -/
def copyParams (m : AbiMem) (b : Nat) : Nat → List Nat → Res AbiMem
  | _, [] => .ok m
  | off, p :: ps => do
    let m ← abiWrite m b off (.ptr p 0)
    copyParams m b (off + 1) ps

/-- `make_tuple`: tuple.cpp:60-78.  Types are given by their blocks. -/
def makeTuple (avail : Bool) (m : AbiMem) (ps : List Nat) : Res (AbiMem × Nat) := do
  let (m, b) ← mallocBuffer avail m (7 + ps.length)
  let m ← abiWrite m b 0 (.num 1)
  let m ← abiWrite m b 4 (.vtable .tuple)
  let m ← abiWrite m b 5 (.ctor .tuple)
  let m ← abiWrite m b 6 (.num ps.length)
  let m ← copyParams m b 7 ps
  pure (m, b)

/-- `make_dense` and `make_sparse`: dense.cpp:55-74, sparse.cpp:55-74, with `assert` compiled out: the first parameter is
    taken, whatever their number. -/
def makeUnary (k : AbiKind) (avail : Bool) (m : AbiMem) (ps : List Nat) : Res (AbiMem × Nat) := do
  let (m, b) ← mallocBuffer avail m 7
  let m ← abiWrite m b 0 (.num 1)
  let m ← abiWrite m b 4 (.vtable k)
  let m ← abiWrite m b 5 (.ctor k)
  match ps with
  | [] => .ub
  | p :: _ => do
    let m ← abiWrite m b 6 (.ptr p 0)
    pure (m, b)

/-- `constructor->header.vtable->entries.make(...)`.  `dynd_type_make_primitive` is a zeroed object without a vtable
    (primitive.cpp:41-43). -/
def abiMake (k : AbiKind) (avail : Bool) (m : AbiMem) (ps : List Nat) : Res (AbiMem × Nat) :=
  match k with
  | .primitive => .ub
  | .dense => makeUnary .dense avail m ps
  | .sparse => makeUnary .sparse avail m ps
  | .tuple => makeTuple avail m ps

/-- A builtin primitive type, a static object: primitive.cpp:45-60. -/
def primBlock (b size align : Nat) : AbiBlock :=
  ⟨[.num 1, .fn .never, .ptr b 0, .num 64, .vtable .primitive, .ctor .primitive, .num size, .num align], false, false⟩

/-- reading a range of pointers -/
def readPtrs (m : AbiMem) (b : Nat) : Nat → Nat → Res (List Nat)
  | _, 0 => .ok []
  | off, n + 1 => do
    match ← abiRead m b off with
    | .ptr p 0 => do
      let r ← readPtrs m b (off + 1) n
      pure (p :: r)
    | _ => .ub

/-- `vtable->entries.parameters(&t->header)`, with the pointers in the range read: tuple.cpp:10-15, dense.cpp:9-16,
    sparse.cpp:9-16, primitive.cpp:31 (`dynd_type_range_empty`). -/
def abiParameters (m : AbiMem) (t : Nat) : Res (List Nat) := do
  match ← abiRead m t 4 with
  | .vtable .primitive => .ok []
  | .vtable .dense => readPtrs m t 6 1
  | .vtable .sparse => readPtrs m t 6 1
  | .vtable .tuple => do
    match ← abiRead m t 6 with
    | .num n => readPtrs m t 7 n
    | _ => .ub
  | _ => .ub

/-- the loop over the children: tuple.cpp:23-27 -/
def maxAlignLoop (al : Nat → Res Nat) : Nat → List Nat → Res Nat
  | acc, [] => .ok acc
  | acc, p :: ps => do
    let c ← al p
    maxAlignLoop al (if c > acc then c else acc) ps

/-- `vtable->entries.alignment(&t->header)`: primitive.cpp:18-20, dense.cpp:18-21, sparse.cpp:18-21, tuple.cpp:17-29.
    `fuel` bounds the depth of the recursion. -/
def abiAlignment (m : AbiMem) : Nat → Nat → Res Nat
  | 0, _ => .ub
  | f + 1, t => do
    match ← abiRead m t 4 with
    | .vtable .primitive => do
      match ← abiRead m t 7 with
      | .num n => .ok n
      | _ => .ub
    | .vtable .dense => do
      match ← abiRead m t 6 with
      | .ptr p 0 => abiAlignment m f p
      | _ => .ub
    | .vtable .sparse => do
      match ← abiRead m t 6 with
      | .ptr p 0 => abiAlignment m f p
      | _ => .ub
    | .vtable .tuple => do
      let ps ← abiParameters m t
      maxAlignLoop (abiAlignment m f) 1 ps
    | _ => .ub

/-- `dynd_incref`: refcount.h:28-30. -/
def abiIncref (m : AbiMem) (t : Nat) : Res AbiMem := do
  match ← abiRead m t 0 with
  | .num n => abiWrite m t 0 (.num (n + 1))
  | _ => .ub

/-- `free(p)`: only the start of a heap block may be freed, once. -/
def abiFree (m : AbiMem) (b off : Nat) : Res AbiMem :=
  match m[b]? with
  | none => .ub
  | some blk => if off = 0 ∧ blk.heap = true ∧ blk.freed = false then .ok (m.set b { blk with freed := true }) else .ub

/-- `release(resource)`, where the field holds `w` and `resource` is at `(b, off)`: resource.cpp:6-8 (the assertion raises
    here), metadata.c:13-15.  Calling anything that is not a function is undefined. -/
def abiRelease (m : AbiMem) (w : AbiWord) (b off : Nat) : Res AbiMem :=
  match w with
  | .fn .never => .throw .runtime
  | .fn .mallocd => abiFree m b off
  | _ => .ub

/-- `dynd_decref`: refcount.h:33-39. -/
def abiDecref (m : AbiMem) (t : Nat) : Res AbiMem := do
  match ← abiRead m t 0 with
  | .num n => do
    if n = 0 then .ub else do
    let m ← abiWrite m t 0 (.num (n - 1))
    if n = 1 then do
      let w ← abiRead m t 1
      abiRelease m w t 1
    else pure m
  | _ => .ub

/-- What a user does: makes a type from types made before (given by their numbers), takes or drops a reference. -/
inductive AbiOp where
  | make (k : AbiKind) (ps : List Nat)
  | incref (t : Nat)
  | decref (t : Nat)
  deriving Repr, DecidableEq

/-- One call; types are numbered in the order they were made, after the builtin ones. -/
def abiStep (s : AbiMem × List Nat) (op : AbiOp) : Res (AbiMem × List Nat) :=
  match op with
  | .make k ps =>
    match ps.mapM (fun i => s.2[i]?) with
    | none => .ub
    | some bs => do
      let (m, b) ← abiMake k true s.1 bs
      pure (m, s.2 ++ [b])
  | .incref t => match s.2[t]? with
    | none => .ub
    | some b => do
      let m ← abiIncref s.1 b
      pure (m, s.2)
  | .decref t => match s.2[t]? with
    | none => .ub
    | some b => do
      let m ← abiDecref s.1 b
      pure (m, s.2)

/-- A history of calls. -/
def abiRun (s : AbiMem × List Nat) : List AbiOp → Res (AbiMem × List Nat)
  | [] => .ok s
  | op :: ops => do
    let s ← abiStep s op
    abiRun s ops

/-- the sizes and alignments of the builtin types float16/32/64, uint8..64, int8..64, size_t: primitive.cpp:62-76 -/
def abiBuiltins : List (Nat × Nat) :=
  [(2, 2), (4, 4), (8, 8), (1, 1), (2, 2), (4, 4), (8, 8), (1, 1), (2, 2), (4, 4), (8, 8), (8, 8)]

/-- memory at the start -/
def abiInit : AbiMem × List Nat :=
  (abiBuiltins.zipIdx.map fun x => primBlock x.2 x.1.1 x.1.2, List.range abiBuiltins.length)

/-! ### `check_equal`, examples/abi_sparse.cpp -/

/-- the loop over the children of two tuples: examples/abi_sparse.cpp:44-49 -/
def abiEqualAll (eq : Nat → Nat → Res Bool) : List Nat → List Nat → Res Bool
  | [], [] => .ok true
  | p :: ps, q :: qs => do
    let e ← eq p q
    if e then abiEqualAll eq ps qs else .ok false
  | _, _ => .ok false

/-- `check_equal(left, right)`: examples/abi_sparse.cpp:35-54.  `fuel` bounds the depth of the recursion. -/
def abiEqual (m : AbiMem) : Nat → Nat → Nat → Res Bool
  | 0, _, _ => .ub
  | f + 1, l, r => do
    match ← abiRead m l 5 with
    | .ctor .primitive => .ok (decide (l = r))
    | .ctor .tuple => do
      match ← abiRead m r 5 with
      | .ctor .tuple => do
        let a ← abiParameters m l
        let b ← abiParameters m r
        abiEqualAll (abiEqual m f) a b
      | _ => .ok false
    | .ctor k => do
      match ← abiRead m r 5 with
      | .ctor k' =>
        if k = k' then do
          let a ← abiParameters m l
          let b ← abiParameters m r
          match a, b with
          | p :: _, q :: _ => abiEqual m f p q
          | _, _ => .ub
        else .ok false
      | _ => .ok false
    | _ => .ok false

end Dynd
