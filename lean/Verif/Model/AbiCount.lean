import Verif.Model.Basic
/-
Reference counts of the C interface under threads: /repo/include/dynd/abi/refcount.h and atomic.h.

Memory model: the count is one atomic location on which only read-modify-write operations are performed, so that every
operation continues the release sequence of all releasing ones before it.  A thread's `view` is the set of accesses that
happen before its next step (its own and those it has synchronised with); `acq` are the accesses published by the values it has
read, which an acquire fence makes part of the view (C++ [atomics.fences]).
-/
namespace Dynd

/-- Where a thread is inside `dynd_decref`: refcount.h:33-39. -/
inductive CtPc where
  /-- outside, or before the decrement -/
  | idle
  /-- the count was read as 1: before the fence -/
  | fence
  /-- before `release` is called -/
  | call
deriving DecidableEq

structure CtThread where
  view : List Nat
  acq : List Nat
  /-- references the thread holds -/
  refs : Nat
  pc : CtPc
deriving DecidableEq

structure CtState where
  /-- `refcount` -/
  count : Nat
  /-- the accesses published with the current value of the count -/
  msg : List Nat
  /-- number of accesses to the resource so far; they are numbered in the order in which they are performed -/
  events : Nat
  threads : List CtThread
  /-- how often `release` has been called -/
  freed : Nat
deriving DecidableEq

/-- Which definition of the operations is compiled: atomic.h:20-45 (C11, C++11: the old value is returned) or
    atomic.h:47-58, 159-209 (gcc intrinsics, MSVC: `__atomic_add_fetch`, `InterlockedAdd`, ... return the new value). -/
inductive CtBranch where
  | standard | fallback
deriving DecidableEq

/-- What `dynd_atomic_fetch_add` (`dynd_atomic_fetch_sub`) returns. -/
def CtBranch.result (b : CtBranch) (old new : Nat) : Nat :=
  match b with
  | .standard => old
  | .fallback => new

inductive CtOp where
  /-- thread `i` uses the resource -/
  | use (i : Nat)
  /-- thread `i` calls `dynd_incref` -/
  | incref (i : Nat)
  /-- thread `i` performs the decrement of `dynd_decref` -/
  | decref (i : Nat)
  /-- thread `i` performs the fence of `dynd_decref` -/
  | fence (i : Nat)
  /-- thread `i` calls `release` -/
  | call (i : Nat)
  /-- thread `i` hands one of its references to thread `j`, with synchronisation -/
  | hand (i j : Nat)

/-- `fetch_sub` wraps around: `std::atomic<size_t>`. -/
def ctDec (n : Nat) : Nat := if n = 0 then 2 ^ 64 - 1 else n - 1

/-- One atomic step.  Touching the resource after `release`, a second `release`, and a `release` that does not happen after
    every access (a data race) are undefined. -/
def ctStep (b : CtBranch) (s : CtState) : CtOp → Res CtState
  -- a plain access
  | .use i => match s.threads[i]? with
    | none => .throw .runtime
    | some t => if s.freed ≠ 0 then .ub else
      .ok { s with events := s.events + 1, threads := s.threads.set i { t with view := s.events :: t.view } }
  -- refcount.h:28-30: relaxed
  | .incref i => match s.threads[i]? with
    | none => .throw .runtime
    | some t => if s.freed ≠ 0 then .ub else
      .ok { s with count := (s.count + 1) % 2 ^ 64, threads := s.threads.set i { t with refs := t.refs + 1, acq := t.acq ++ s.msg } }
  -- refcount.h:34-35: release
  | .decref i => match s.threads[i]? with
    | none => .throw .runtime
    | some t => if s.freed ≠ 0 then .ub else
      .ok { s with
        count := ctDec s.count
        msg := s.msg ++ t.view
        threads := s.threads.set i { t with
          refs := t.refs - 1
          acq := t.acq ++ s.msg
          pc := if b.result s.count (ctDec s.count) = 1 then .fence else .idle } }
  -- refcount.h:36: acquire
  | .fence i => match s.threads[i]? with
    | none => .throw .runtime
    | some t => .ok { s with threads := s.threads.set i { t with view := t.view ++ t.acq, pc := .call } }
  -- refcount.h:37
  | .call i => match s.threads[i]? with
    | none => .throw .runtime
    | some t => if s.freed ≠ 0 ∨ ¬ (∀ e < s.events, e ∈ t.view) then .ub else
      .ok { s with freed := s.freed + 1, threads := s.threads.set i { t with pc := .idle } }
  -- not in the code: how references get to other threads
  | .hand i j => match s.threads[i]?, s.threads[j]? with
    | some t, some u => if i = j then .ok s else
      .ok { s with threads := (s.threads.set i { t with refs := t.refs - 1 }).set j { u with refs := u.refs + 1, view := u.view ++ t.view } }
    | _, _ => .throw .runtime

/-- What a correct client does: it uses, copies, drops and hands on only references that it holds, and there are fewer than
    2^64 of them; inside `dynd_decref` the thread goes on as the code says. -/
def ctMay (s : CtState) : CtOp → Prop
  | .use i => ∃ t, s.threads[i]? = some t ∧ t.pc = .idle ∧ 0 < t.refs
  | .incref i => ∃ t, s.threads[i]? = some t ∧ t.pc = .idle ∧ 0 < t.refs ∧ s.count + 1 < 2 ^ 64
  | .decref i => ∃ t, s.threads[i]? = some t ∧ t.pc = .idle ∧ 0 < t.refs
  | .fence i => ∃ t, s.threads[i]? = some t ∧ t.pc = .fence
  | .call i => ∃ t, s.threads[i]? = some t ∧ t.pc = .call
  | .hand i j => ∃ t u, s.threads[i]? = some t ∧ t.pc = .idle ∧ 0 < t.refs ∧ s.threads[j]? = some u ∧ u.pc = .idle

/-- The resource has just been made by the first of `n + 1` threads, with one reference. -/
def ctInit (n : Nat) : CtState := ⟨1, [], 0, ⟨[], [], 1, .idle⟩ :: List.replicate n ⟨[], [], 0, .idle⟩, 0⟩

/-- The states a schedule of correct clients leads to. -/
inductive CtReach (b : CtBranch) (n : Nat) : CtState → Prop where
  | init : CtReach b n (ctInit n)
  | step (s s' : CtState) (op : CtOp) (h : CtReach b n s) (hop : ctMay s op) (hs : ctStep b s op = .ok s') : CtReach b n s'

end Dynd
