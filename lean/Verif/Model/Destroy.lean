import Verif.Model.Basic
/-
Destruction of arrays: `~buffer_memory_block`, `data_destruct`, `arrmeta_destruct`, `~objectarray_memory_block`.
-/
namespace Dynd

/-- A place in memory: an allocation (the array's own data, or one chunk of a memory block) and an offset. -/
abbrev DPlace := Nat × Int

mutual
/-- A type together with its arrmeta.  Simplification: strides, offsets and the chunks of the memory blocks referenced
    by the arrmeta (those to which it holds the last reference; each with the number of elements in use) are written
    into the type. -/
inductive DTy where
  /-- No destructor: builtin types, fixed strings and bytes, categoricals, … -/
  | plain
  /-- `string`, `bytes`, `type`: `zeroinit | destructor`, the destructor frees a buffer or drops a reference.
      /repo/include/dynd/types/string_type.hpp:86, bytes_type.hpp:27, src/dynd/types/type_type.cpp:15. -/
  | owner
  /-- `callable` and `array`: flag `destructor`, but `data_destruct` raises.
      /repo/include/dynd/types/callable_type.hpp:29, array_type.hpp:16. -/
  | unfinished
  | fixed (n : Nat) (stride : Int) (t : DTy)
  /-- `tuple` and `struct`: fields with their data offsets. -/
  | tuple (fs : DFields)
  | option (t : DTy)
  /-- `var`: the chunks of the block, the stride of the elements. -/
  | var (chunks : List (Nat × Nat)) (stride : Int) (t : DTy)
  | pointer (chunks : List (Nat × Nat)) (stride : Int) (t : DTy)
  /-- `adapt`, with its storage type. -/
  | adapt (t : DTy)
/-- The fields of a tuple: data offset and type. -/
inductive DFields where
  | nil
  | cons (off : Int) (t : DTy) (fs : DFields)
end

mutual
/-- `flags & type_flag_destructor`.  /repo/include/dynd/types/fixed_dim_type.hpp:35, tuple_type.hpp:117, option_type.hpp:80,
    var_dim_type.hpp:32-38, pointer_type.hpp:41, adapt_type.hpp:24 (`type_flag_none`). -/
def DTy.dtor : DTy → Bool
  | .plain => false
  | .owner => true
  | .unfinished => true
  | .fixed _ _ t => t.dtor
  | .tuple fs => fs.dtor
  | .option t => t.dtor
  | .var _ _ _ => false
  | .pointer _ _ t => t.dtor
  | .adapt _ => false
/-- The flag inherited from any field. -/
def DFields.dtor : DFields → Bool
  | .nil => false
  | .cons _ t fs => t.dtor || fs.dtor
end

mutual
/-- `is_expression()`.  /repo/src/dynd/types/base_type.cpp:32, fixed_dim_type.cpp:46, var_dim_type.cpp:27,
    tuple_type.cpp:28-36, option_type.cpp:97-101, base_expr_type.cpp:13. -/
def DTy.isExpr : DTy → Bool
  | .plain | .owner | .unfinished | .pointer _ _ _ => false
  | .fixed _ _ t => t.isExpr
  | .tuple fs => fs.isExpr
  | .option t => t.isExpr
  | .var _ _ t => t.isExpr
  | .adapt _ => true
/-- Some field is an expression. -/
def DFields.isExpr : DFields → Bool
  | .nil => false
  | .cons _ t fs => t.isExpr || fs.isExpr
end

/-- What destruction does: the object at a place is destroyed; a chunk is handed back by `free`. -/
inductive DEvent where
  | release (p : DPlace)
  | free (chunk : Nat)
  deriving DecidableEq, Repr

/-- `data + d`. -/
def DPlace.add (p : DPlace) (d : Int) : DPlace := (p.1, p.2 + d)

/-- `for (i = 0; i != count; ++i, data += stride) f(data)`. -/
def dLoop (f : DPlace → Res (List DEvent)) (stride : Int) : Nat → DPlace → Res (List DEvent)
  | 0, _ => .ok []
  | n + 1, p => do
    let a ← f p
    let b ← dLoop f stride n (DPlace.add p stride)
    pure (a ++ b)

/-- `while (count > 0) { chunk_size = min(count, 128); f(data, chunk_size); data += stride * chunk_size; count -= chunk_size; }`
    /repo/src/dynd/types/tuple_type.cpp:346-358. -/
def dChunks (f : DPlace → Nat → Res (List DEvent)) (stride : Int) : Nat → DPlace → Nat → Res (List DEvent)
  | _, _, 0 => .ok []
  | 0, _, _ + 1 => .ub
  | fuel + 1, p, count + 1 => do
    let c := min (count + 1) 128
    let a ← f p c
    let b ← dChunks f stride fuel (DPlace.add p (stride * c)) (count + 1 - c)
    pure (a ++ b)

mutual
/-- `data_destruct`.  `alive`: the arrmeta is still there to be read.
    /repo/src/dynd/types/string_type.cpp:121-124, callable_type.cpp:166, fixed_dim_type.cpp:370-374, tuple_type.cpp:330-339,
    struct_type.cpp:392-401, option_type.cpp:192-194, base_type.cpp:157-161 (pointer, adapt).
    `var` is never asked (it has no destructor flag). -/
def DTy.destruct (alive : Bool) : DTy → DPlace → Res (List DEvent)
  | .plain, _ => .throw .runtime
  | .owner, p => .ok [.release p]
  | .unfinished, _ => .throw .runtime
  | .fixed n s t, p => if alive then t.destructStrided alive p s n else .ub
  | .tuple fs, p => fs.destruct alive p
  | .option t, p => t.destruct alive p
  | .var _ _ _, _ => .ub
  | .pointer _ _ _, _ => .throw .runtime
  | .adapt _, _ => .throw .runtime
/-- `data_destruct_strided`.  /repo/src/dynd/types/string_type.cpp:126-133, callable_type.cpp:175, fixed_dim_type.cpp:376-385,
    tuple_type.cpp:341-359, struct_type.cpp:403-421, option_type.cpp:196-198, base_type.cpp:163-168. -/
def DTy.destructStrided (alive : Bool) : DTy → DPlace → Int → Nat → Res (List DEvent)
  | .plain, _, _, _ => .throw .runtime
  | .owner, p, s, n => dLoop (fun p => .ok [.release p]) s n p
  | .unfinished, _, _, _ => .throw .runtime
  | .fixed m ms t, p, s, n => if alive then dLoop (fun p => t.destructStrided alive p ms m) s n p else .ub
  | .tuple fs, p, s, n => dChunks (fun p c => fs.destructStrided alive p s c) s n p n
  | .option t, p, s, n => t.destructStrided alive p s n
  | .var _ _ _, _, _, _ => .ub
  | .pointer _ _ _, _, _, _ => .throw .runtime
  | .adapt _, _, _, _ => .throw .runtime
/-- The loop over the fields of `tuple_type::data_destruct`.  /repo/src/dynd/types/tuple_type.cpp:333-338. -/
def DFields.destruct (alive : Bool) : DFields → DPlace → Res (List DEvent)
  | .nil, _ => .ok []
  | .cons off t fs, p => do
    let a ← if t.dtor then (if alive then t.destruct alive (DPlace.add p off) else .ub) else .ok []
    let b ← fs.destruct alive p
    pure (a ++ b)
/-- The loop over the fields for one chunk.  /repo/src/dynd/types/tuple_type.cpp:348-354. -/
def DFields.destructStrided (alive : Bool) : DFields → DPlace → Int → Nat → Res (List DEvent)
  | .nil, _, _, _ => .ok []
  | .cons off t fs, p, s, n => do
    let a ← if t.dtor then (if alive then t.destructStrided alive (DPlace.add p off) s n else .ub) else .ok []
    let b ← fs.destructStrided alive p s n
    pure (a ++ b)
end

/-- `free(mc.memory)` for every chunk.  /repo/include/dynd/memblock/pod_memory_block.hpp, zeroinit_memory_block.hpp (destructors). -/
def freeChunks (chunks : List (Nat × Nat)) : List DEvent := chunks.map fun c => .free c.1

/-- `~objectarray_memory_block`.  /repo/include/dynd/memblock/objectarray_memory_block.hpp:60-66. -/
def destroyObjects (alive : Bool) (stride : Int) (t : DTy) : List (Nat × Nat) → Res (List DEvent)
  | [] => .ok []
  | c :: cs => do
    let a ← t.destructStrided alive (c.1, 0) stride c.2
    let b ← destroyObjects alive stride t cs
    pure (a ++ [.free c.1] ++ b)

mutual
/-- `arrmeta_destruct`, dropping the last references to the memory blocks (for `var` with a destructible element type an
    objectarray block, otherwise a block that only frees; for `pointer` always the latter).
    /repo/src/dynd/types/var_dim_type.cpp:318-328, 387-392, fixed_dim_type.cpp:284-288, tuple_type.cpp:321-328,
    option_type.cpp:179-183, pointer_type.cpp:174-178, 210-216.  `adapt` does not override `base_type::arrmeta_destruct`
    (base_type.cpp); the arrmeta of its storage type is not modelled. -/
def DTy.dropMeta : DTy → Res (List DEvent)
  | .plain | .owner | .unfinished | .adapt _ => .ok []
  | .fixed _ _ t => t.dropMeta
  | .tuple fs => fs.dropMeta
  | .option t => t.dropMeta
  | .var chunks stride t => do
    let a ← if t.dtor then destroyObjects true stride t chunks else .ok (freeChunks chunks)
    let b ← t.dropMeta
    pure (a ++ b)
  | .pointer chunks _ t => do
    let b ← t.dropMeta
    pure (freeChunks chunks ++ b)
/-- The loop over the fields. -/
def DFields.dropMeta : DFields → Res (List DEvent)
  | .nil => .ok []
  | .cons _ t fs => do
    let a ← t.dropMeta
    let b ← fs.dropMeta
    pure (a ++ b)
end

/-- `~buffer_memory_block` with the data at `p`; `owner`: the array is a view that keeps its owner alive.
    An exception here leaves a destructor: `std::terminate`.
    /repo/include/dynd/memblock/buffer_memory_block.hpp:69-95 (memory types are not modelled). -/
def destroyArray (owner : Bool) (t : DTy) (p : DPlace) : Res (List DEvent) := do
  let a ← if !owner && !t.isExpr && t.dtor then t.destruct true p else .ok []
  let b ← t.dropMeta
  pure (a ++ b)

end Dynd
