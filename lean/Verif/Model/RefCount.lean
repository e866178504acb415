import Verif.Model.Basic
/-
Model of reference counting: `intrusive_ptr` (/repo/include/dynd/config.hpp:232-353), the counted memory blocks
(/repo/include/dynd/memblock/base_memory_block.hpp:20-82, /repo/include/dynd/memblock/buffer_memory_block.hpp:38-139)
and the ownership of views (`get_data_memblock`, /repo/src/dynd/buffer.cpp:14-20).

A block is identified by the order of its allocation (identifiers are never reused, so that a use of a freed block is
visible).  A block's members that are intrusive pointers (the `m_owner` of an array, the `blockref`s in its arrmeta) are
the list `refs`; member 0 of an array is its owner.  The data of blocks is not modelled.
-/
namespace Dynd

/-- A live block: its use count and its pointer members (`none` = null). -/
structure Blk where
  count : Int
  refs : List (Option Nat)
  deriving DecidableEq, Repr

/-- All blocks ever allocated, in order; `none` = freed. -/
abbrev RHeap := List (Option Blk)

/-- `intrusive_ptr_retain` (/repo/include/dynd/memblock/base_memory_block.hpp:72,
    /repo/include/dynd/memblock/buffer_memory_block.hpp:129): `++ptr->m_use_count`. -/
def retain (h : RHeap) (b : Nat) : Res RHeap :=
  match h[b]? with
  | some (some k) => .ok (h.set b (some { k with count := k.count + 1 }))
  | _ => .ub

/-- Destruction of the pointer members of a block, one after the other. -/
def releaseList (rel : RHeap → Nat → Res RHeap) : List (Option Nat) → RHeap → Res RHeap
  | [], h => .ok h
  | none :: rs, h => releaseList rel rs h
  | some r :: rs, h => do
    let h' ← rel h r
    releaseList rel rs h'

/-- `intrusive_ptr_release` (/repo/include/dynd/memblock/base_memory_block.hpp:74-78,
    /repo/include/dynd/memblock/buffer_memory_block.hpp:131-135): `if (--m_use_count == 0) delete ptr;` the destructor
    releases the members (`~buffer_memory_block`, lines 69-94, and the implicit destruction of `m_owner`).  The fuel
    bounds the depth of nested destructors. -/
def release : Nat → RHeap → Nat → Res RHeap
  | 0, _, _ => .ub
  | f + 1, h, b =>
    match h[b]? with
    | some (some k) =>
      if k.count - 1 = 0 then releaseList (release f) k.refs (h.set b none)
      else .ok (h.set b (some { k with count := k.count - 1 }))
    | _ => .ub

/-- Release of a pointer that may be null: the first statement of every assignment operator and of the destructor
    (/repo/include/dynd/config.hpp:262-266, 277-280). -/
def releasePtr (h : RHeap) : Option Nat → Res RHeap
  | none => .ok h
  | some b => release (h.length + 1) h b

/-- Retain of a pointer that may be null. -/
def retainPtr (h : RHeap) : Option Nat → Res RHeap
  | none => .ok h
  | some b => retain h b

/-- A program state: the blocks, and the intrusive pointers outside of blocks (`none` = null). -/
structure RState where
  heap : RHeap
  vars : List (Option Nat)
  deriving DecidableEq, Repr

/-- Operations on intrusive pointers; variables are numbered in order of construction. -/
inductive PtrOp where
  /-- `intrusive_ptr()` -/
  | default
  /-- a new variable adopting a new block whose members are copies of the given variables -/
  | make (members : List Nat)
  /-- copy constructor -/
  | copy (src : Nat)
  /-- move constructor -/
  | move (src : Nat)
  /-- destructor (the variable is not used afterwards) -/
  | destroy (v : Nat)
  /-- copy assignment between variables -/
  | assign (v src : Nat)
  /-- copy assignment `v = w->member` -/
  | assignMember (v w i : Nat)
  /-- move assignment -/
  | moveAssign (v src : Nat)
  /-- assignment of the raw pointer of another variable: `v = src.get()` -/
  | assignRaw (v src : Nat)
  /-- `swap` -/
  | swap (v w : Nat)
  /-- copy assignment to a member: `v->member = src` -/
  | setMember (v i src : Nat)
  deriving DecidableEq, Repr

/-- Copies of pointers made when a block is constructed: copy constructors of its members
    (/repo/include/dynd/memblock/buffer_memory_block.hpp:64-68). -/
def retainAll : List (Option Nat) → RHeap → Res RHeap
  | [], h => .ok h
  | p :: ps, h => do
    let h' ← retainPtr h p
    retainAll ps h'

/-- The pointers held by a list of variables. -/
def readVars (vars : List (Option Nat)) : List Nat → Res (List (Option Nat))
  | [] => .ok []
  | v :: vs =>
    match vars[v]? with
    | none => .ub
    | some p => do
      let ps ← readVars vars vs
      .ok (p :: ps)

/-- One operation (/repo/include/dynd/config.hpp:241-331 line by line; `make` is
    `buffer(new (…) buffer_memory_block(…), false)`, /repo/include/dynd/buffer.hpp:253-263, and `make_memory_block`,
    /repo/include/dynd/memory_block.hpp:22-25).  Using a variable that does not exist is undefined. -/
def ptrStep (s : RState) : PtrOp → Res RState
  | .default => .ok { s with vars := s.vars ++ [none] }
  | .make ms => do
    let ps ← readVars s.vars ms
    let h ← retainAll ps s.heap
    .ok ⟨h ++ [some ⟨1, ps⟩], s.vars ++ [some h.length]⟩
  | .copy src =>
    match s.vars[src]? with
    | none => .ub
    | some p => do
      let h ← retainPtr s.heap p
      .ok ⟨h, s.vars ++ [p]⟩
  | .move src =>
    match s.vars[src]? with
    | none => .ub
    | some p => .ok ⟨s.heap, s.vars.set src none ++ [p]⟩
  | .destroy v =>
    match s.vars[v]? with
    | none => .ub
    | some p => do
      let h ← releasePtr s.heap p
      .ok ⟨h, s.vars.set v none⟩
  | .assign v src =>
    match s.vars[v]? with
    | none => .ub
    | some p => do
      let h ← releasePtr s.heap p
      match s.vars[src]? with
      | none => .ub
      | some q => do
        let h ← retainPtr h q
        .ok ⟨h, s.vars.set v q⟩
  | .assignMember v w i =>
    match s.vars[v]? with
    | none => .ub
    | some p => do
      let h ← releasePtr s.heap p
      match s.vars[w]? with
      | some (some b) =>
        match h[b]? with
        | some (some k) =>
          match k.refs[i]? with
          | some q => do
            let h ← retainPtr h q
            .ok ⟨h, s.vars.set v q⟩
          | none => .ub
        | _ => .ub
      | _ => .ub
  | .moveAssign v src =>
    match s.vars[v]? with
    | none => .ub
    | some p => do
      let h ← releasePtr s.heap p
      match s.vars[src]? with
      | none => .ub
      | some q => .ok ⟨h, (s.vars.set v q).set src none⟩
  | .assignRaw v src =>
    match s.vars[src]?, s.vars[v]? with
    | some q, some p => do
      let h ← releasePtr s.heap p
      let h ← retainPtr h q
      .ok ⟨h, s.vars.set v q⟩
    | _, _ => .ub
  | .swap v w =>
    match s.vars[v]?, s.vars[w]? with
    | some p, some q => .ok ⟨s.heap, (s.vars.set v q).set w p⟩
    | _, _ => .ub
  | .setMember v i src =>
    match s.vars[v]? with
    | some (some b) =>
      match s.heap[b]? with
      | some (some k) =>
        match k.refs[i]? with
        | none => .ub
        | some p => do
          let h ← releasePtr s.heap p
          match s.vars[src]? with
          | none => .ub
          | some q => do
            let h ← retainPtr h q
            match h[b]? with
            | some (some k) => .ok ⟨h.set b (some { k with refs := k.refs.set i q }), s.vars⟩
            | _ => .ub
      | _ => .ub
    | _ => .ub

/-- A history of operations. -/
def ptrRun : List PtrOp → RState → Res RState
  | [], s => .ok s
  | op :: ops, s => do
    let s' ← ptrStep s op
    ptrRun ops s'

/-- `operator!=` of two intrusive pointers (/repo/include/dynd/config.hpp:344-347): as written, `lhs.get() == rhs.get()`. -/
def ptrNotEqual (p q : Option Nat) : Bool := p == q

/-- `buffer::get_data_memblock` (/repo/src/dynd/buffer.cpp:14-20), and the `get_owner() ? get_owner() : *this` of the view
    functions (/repo/src/dynd/array.cpp:74, 136, 533, 630, 728, /repo/src/dynd/view.cpp:353): the block that holds an
    array's data. -/
def dataBlock (h : RHeap) (b : Nat) : Res Nat :=
  match h[b]? with
  | some (some k) =>
    match k.refs[0]? with
    | some (some o) => .ok o
    | _ => .ok b
  | _ => .ub

/-- A view of an array: `make_array(tp, data, owner, flags)` (/repo/include/dynd/array.hpp:783-785) with the owner chosen as
    above; `rest` are the other members copied (the `blockref`s in the arrmeta). -/
def makeView (s : RState) (v : Nat) (rest : List (Option Nat)) : Res RState :=
  match s.vars[v]? with
  | some (some b) => do
    let d ← dataBlock s.heap b
    let h ← retainAll (some d :: rest) s.heap
    .ok ⟨h ++ [some ⟨1, some d :: rest⟩], s.vars ++ [some h.length]⟩
  | _ => .ub

/-! ### Threads -/

/-- Work left to do by some thread: the atomic decrement of a release, or the `delete` after a decrement to zero. -/
inductive RAct where
  | decr (b : Nat)
  | del (b : Nat)
  deriving DecidableEq, Repr

/-- Blocks shared between threads.  `tokens`: the references held by the pointers of all threads; `acts`: releases in
    progress in some thread.  The use count is a `std::atomic_long`, so the increments and decrements of different threads
    interleave arbitrarily but are individually atomic. -/
structure CState where
  heap : RHeap
  tokens : List Nat
  acts : List RAct

/-- The steps of releases in progress: the atomic decrement, after which the thread that got zero deletes the block, and
    the deletion, whose destructor releases the members (cf. `release` above). -/
inductive CWork : CState → CState → Prop where
  | decr {h : RHeap} {b : Nat} {k : Blk} {ts : List Nat} {as : List RAct} (hb : h[b]? = some (some k)) :
      CWork ⟨h, ts, .decr b :: as⟩ ⟨h.set b (some { k with count := k.count - 1 }), ts,
        if k.count - 1 = 0 then .del b :: as else as⟩
  | del {h : RHeap} {b : Nat} {k : Blk} {ts : List Nat} {as : List RAct} (hb : h[b]? = some (some k)) :
      CWork ⟨h, ts, .del b :: as⟩ ⟨h.set b none, ts, (k.refs.filterMap id).map .decr ++ as⟩

/-- The steps threads can take, in any order (an interleaving of the threads).  A thread retains a block only through a
    pointer it holds, or through a member of a block it holds a pointer to; `make` moves pointers into a new block; `drop`
    is the start of a release. -/
inductive CStep : CState → CState → Prop where
  | retain {h : RHeap} {b : Nat} {k : Blk} {ts : List Nat} {as : List RAct} (hb : h[b]? = some (some k)) (ht : b ∈ ts) :
      CStep ⟨h, ts, as⟩ ⟨h.set b (some { k with count := k.count + 1 }), b :: ts, as⟩
  | retainMember {h : RHeap} {c b : Nat} {kc k : Blk} {ts : List Nat} {as : List RAct} (hc : h[c]? = some (some kc))
      (ht : c ∈ ts) (hm : some b ∈ kc.refs) (hb : h[b]? = some (some k)) :
      CStep ⟨h, ts, as⟩ ⟨h.set b (some { k with count := k.count + 1 }), b :: ts, as⟩
  | make {h : RHeap} {rs ts : List Nat} {as : List RAct} :
      CStep ⟨h, rs ++ ts, as⟩ ⟨h ++ [some ⟨1, rs.map some⟩], h.length :: ts, as⟩
  | reorder {h : RHeap} {ts ts' : List Nat} {as as' : List RAct} (ht : ts.Perm ts') (ha : as.Perm as') :
      CStep ⟨h, ts, as⟩ ⟨h, ts', as'⟩
  | drop {h : RHeap} {b : Nat} {ts : List Nat} {as : List RAct} : CStep ⟨h, b :: ts, as⟩ ⟨h, ts, .decr b :: as⟩
  | work {s s' : CState} (h : CWork s s') : CStep s s'

/-- A thread is about to touch a freed block: undefined behaviour in any schedule that continues with it. -/
def CState.Bad (s : CState) : Prop :=
  (∃ b ∈ s.tokens, ∀ k, s.heap[b]? ≠ some (some k)) ∨
  (∃ c b, ∃ k : Blk, c ∈ s.tokens ∧ s.heap[c]? = some (some k) ∧ some b ∈ k.refs ∧ ∀ k', s.heap[b]? ≠ some (some k')) ∨
  (∃ b, .decr b ∈ s.acts ∧ ∀ k, s.heap[b]? ≠ some (some k)) ∨
  (∃ b, .del b ∈ s.acts ∧ ∀ k, s.heap[b]? ≠ some (some k))

end Dynd
