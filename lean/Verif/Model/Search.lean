import Verif.Model.Basic
/-
Searching byte strings.  Bytes are naturals; reading outside a string is undefined behaviour.  The callers' match
handlers either always stop (find, contains) or never stop (count, replace, split), so a search is modelled by the list
of the positions it reports, with a flag `stop`.
-/
namespace Dynd

/-- Reading one byte of a string. -/
def rd (s : List Nat) (i : Nat) : Res Nat :=
  match s[i]? with
  | some b => .ok b
  | none => .ub

/-- `bloom_filter_t::add`: /repo/include/dynd/string_search.hpp:20. -/
def bloomAdd (mask b : Nat) : Nat := mask ||| (1 <<< (b &&& 63))

/-- `bloom_filter_t::has_char`: string_search.hpp:22-24. -/
def bloomHas (mask b : Nat) : Bool := (mask &&& (1 <<< (b &&& 63))) != 0

/-- `string_search_1char`, short haystacks (`n <= 10`): string_search.hpp:34-42; `i` is the loop counter. -/
def search1Short (stop : Bool) (h : List Nat) (c : Nat) : Nat → Nat → Res (List Nat)
  | 0, _ => .ok []
  | k + 1, i => do
    let b ← rd h i
    if b = c then
      if stop then pure [i]
      else do let r ← search1Short stop h c k (i + 1); pure (i :: r)
    else search1Short stop h c k (i + 1)

/-- `memchr(s, c, n)` (C standard: reads bytes in order and stops at the first match), `s` a position in `h`; reading
    past the end of the string is undefined. -/
def memchr (h : List Nat) (c : Nat) : Nat → Nat → Res (Option Nat)
  | 0, _ => .ok none
  | n + 1, s => do
    let b ← rd h s
    if b = c then pure (some s) else memchr h c n (s + 1)

/-- `string_search_1char`, long haystacks: string_search.hpp:43-57.  The length passed to `memchr` is always `n`. -/
def search1Long (stop : Bool) (h : List Nat) (c : Nat) : Nat → Nat → Res (List Nat)
  | 0, s => if s < h.length then .ub else .ok []
  | fuel + 1, s =>
    if s < h.length then do
      match ← memchr h c h.length s with
      | none => pure []
      | some k =>
        if stop then pure [k]
        else do let r ← search1Long stop h c fuel (k + 1); pure (k :: r)
    else .ok []

/-- `string_search_1char`: string_search.hpp:31-58. -/
def search1 (stop : Bool) (h : List Nat) (c : Nat) : Res (List Nat) :=
  if h.length ≤ 10 then search1Short stop h c h.length 0 else search1Long stop h c h.length 0

/-- Comparison loop `for (j = 0; j < mlast; j++) if (s[i + j] != p[j]) break;`: string_search.hpp:133-137.
    Result: `j == mlast`. -/
def cmpFwd (h p : List Nat) (i : Nat) : Nat → Nat → Res Bool
  | 0, _ => .ok true
  | k + 1, j => do
    let a ← rd h (i + j)
    let b ← rd p j
    if a ≠ b then pure false else cmpFwd h p i k (j + 1)

/-- Table loop of `string_search`: string_search.hpp:117-123; `k` iterations left, state (mask, skip). -/
def tableFwd (p : List Nat) : Nat → Nat → Nat × Nat → Res (Nat × Nat)
  | 0, _, st => .ok st
  | k + 1, i, (mask, skip) => do
    let b ← rd p i
    let l ← rd p (p.length - 1)
    tableFwd p k (i + 1) (bloomAdd mask b, if b = l then p.length - 1 - i - 1 else skip)

/-- Where the scan goes on after a candidate: string_search.hpp:146-151, followed by the loop increment. -/
def missNext (h : List Nat) (w m mask skip i : Nat) : Res Nat :=
  if i < w then do
    let b ← rd h (i + 1 + (m - 1))
    if !bloomHas mask b then pure (i + m + 1) else pure (i + skip + 1)
  else .ok (i + skip + 1)

/-- Where the scan goes on after a wrong last character: string_search.hpp:153-158, followed by the loop increment. -/
def skipNext (h : List Nat) (w m mask i : Nat) : Res Nat :=
  if i < w then do
    let b ← rd h (i + 1 + (m - 1))
    if !bloomHas mask b then pure (i + m + 1) else pure (i + 1)
  else .ok (i + 1)

/-- Main loop of `string_search`: string_search.hpp:128-160. -/
def scanFwd (stop : Bool) (h p : List Nat) (w mask skip : Nat) : Nat → Nat → Res (List Nat)
  | 0, i => if i ≤ w then .ub else .ok []
  | fuel + 1, i =>
    if i ≤ w then do
      let m := p.length
      let a ← rd h (i + (m - 1))
      let b ← rd p (m - 1)
      if a = b then do
        let eq ← cmpFwd h p i (m - 1) 0
        if eq then
          if stop then pure [i]
          else do
            let i' := i + (m - 1)
            let nx ← missNext h w m mask skip i'
            let r ← scanFwd stop h p w mask skip fuel nx
            pure (i :: r)
        else do
          let nx ← missNext h w m mask skip i
          scanFwd stop h p w mask skip fuel nx
      else do
        let nx ← skipNext h w m mask i
        scanFwd stop h p w mask skip fuel nx
    else .ok []

/-- `string_search`: string_search.hpp:71-164. -/
def stringSearch (stop : Bool) (h p : List Nat) : Res (List Nat) :=
  if h.length < p.length then .ok []
  else if p.length = 0 then .ok []
  else if p.length = 1 then do
    let c ← rd p 0
    search1 stop h c
  else do
    let (mask, skip) ← tableFwd p (p.length - 1) 0 (0, p.length - 1 - 1)
    let l ← rd p (p.length - 1)
    scanFwd stop h p (h.length - p.length) (bloomAdd mask l) skip (h.length - p.length + 1) 0

/-- `string_search_1char_reverse`: string_search.hpp:60-69.  The loop condition is `i <= 0` on a `size_t`, and the
    decrement of 0 wraps around, so at most one iteration (with `i = 0`) is made. -/
def search1Rev (h : List Nat) (c : Nat) : Res (List Nat) :=
  if h.length - 1 ≤ 0 then do
    let b ← rd h (h.length - 1)
    if b = c then pure [h.length - 1] else pure []
  else .ok []

/-- Comparison loop of the reverse search: string_search.hpp:208-212; result `j == 0`. -/
def cmpRev (h p : List Nat) (i : Nat) : Nat → Res Bool
  | 0 => .ok true
  | j + 1 => do
    let a ← rd h (i + (j + 1))
    let b ← rd p (j + 1)
    if a ≠ b then pure false else cmpRev h p i j

/-- Table loop of `string_search_reverse`: string_search.hpp:195-200. -/
def tableRev (p : List Nat) : Nat → Nat × Nat → Res (Nat × Nat)
  | 0, st => .ok st
  | i + 1, (mask, skip) => do
    let b ← rd p (i + 1)
    let f ← rd p 0
    tableRev p i (bloomAdd mask b, if b = f then i + 1 - 1 else skip)

/-- Main loop of `string_search_reverse` with a stopping handler (its only use, `string_rfind`): string_search.hpp:202-232.
    `i` is `intptr_t`. -/
def scanRev (h p : List Nat) (mask skip : Nat) : Nat → Int → Res (List Nat)
  | 0, i => if i ≥ 0 then .ub else .ok []
  | fuel + 1, i =>
    if i ≥ 0 then do
      let m := p.length
      let a ← rd h i.toNat
      let b ← rd p 0
      if a = b then do
        let eq ← cmpRev h p i.toNat (m - 1)
        if eq then pure [i.toNat]
        else if i > 0 then do
          let c ← rd h (i - 1).toNat
          if !bloomHas mask c then scanRev h p mask skip fuel (i - m - 1)
          else scanRev h p mask skip fuel (i - skip - 1)
        else scanRev h p mask skip fuel (i - skip - 1)
      else if i > 0 then do
        let c ← rd h (i - 1).toNat
        if !bloomHas mask c then scanRev h p mask skip fuel (i - m - 1)
        else scanRev h p mask skip fuel (i - 1)
      else scanRev h p mask skip fuel (i - 1)
    else .ok []

/-- `string_search_reverse` with a stopping handler: string_search.hpp:166-235. -/
def stringSearchRev (h p : List Nat) : Res (List Nat) :=
  if h.length < p.length then .ok []
  else if p.length = 0 then .ok []
  else if p.length = 1 then do
    let c ← rd p 0
    search1Rev h c
  else do
    let f ← rd p 0
    let (mask, skip) ← tableRev p (p.length - 1) (bloomAdd 0 f, p.length - 1 - 1)
    scanRev h p mask skip (h.length - p.length + 1) ((h.length : Int) - p.length)

/-- `string_finder`: string_search.hpp:237-249: the last position reported, -1 if none. -/
def finderResult (ms : List Nat) : Int :=
  match ms.getLast? with
  | some k => k
  | none => -1

/-- `string_find`: /repo/include/dynd/string.hpp:54-62. -/
def stringFind (h p : List Nat) : Res Int := do let ms ← stringSearch true h p; pure (finderResult ms)
/-- `string_rfind`: string.hpp:68-76. -/
def stringRfind (h p : List Nat) : Res Int := do let ms ← stringSearchRev h p; pure (finderResult ms)
/-- `string_contains`: string.hpp:154-162. -/
def stringContains (h p : List Nat) : Res Bool := do let ms ← stringSearch true h p; pure (!ms.isEmpty)
/-- `string_count`: string.hpp:40-48. -/
def stringCount (h p : List Nat) : Res Nat := do let ms ← stringSearch false h p; pure ms.length

/-- `memcpy(dst + k, new, n)` on a string of fixed size; writing past the end is undefined. -/
def writeAt (dst : List Nat) (k : Nat) (new : List Nat) : Res (List Nat) :=
  if k + new.length ≤ dst.length then .ok (dst.take k ++ new ++ dst.drop (k + new.length)) else .ub

/-- `string_inplace_replacer` applied to the reported matches: string_search.hpp:280-293. -/
def inplaceReplace (new : List Nat) : List Nat → List Nat → Res (List Nat)
  | [], dst => .ok dst
  | k :: ms, dst => do let d ← writeAt dst k new; inplaceReplace new ms d

/-- `memcpy(m_dst, m_src + from, n)`: reading outside the source is undefined. -/
def readRange (src : List Nat) (s n : Nat) : Res (List Nat) :=
  if s + n ≤ src.length then .ok ((src.drop s).take n) else .ub

/-- `string_copy_replacer`: string_search.hpp:295-324.  `last` is `m_last_src_start`; sizes that would wrap around
    (a match before `last`) are undefined behaviour in the copy. -/
def copyReplace (src : List Nat) (m : Nat) (new : List Nat) : List Nat → Nat → Res (List Nat)
  | [], last => if last ≤ src.length then readRange src last (src.length - last) else .ub
  | k :: ms, last =>
    if k < last then .ub
    else do
      let c ← readRange src last (k - last)
      let r ← copyReplace src m new ms (k + m)
      pure (c ++ new ++ r)

/-- `string_replace`: string.hpp:82-123.  The destination is assumed empty on entry, so `resize` gives exactly the
    requested size (see the string representation model for `resize`); a copy that does not fill exactly that size is
    undefined behaviour (too long) or leaves bytes unset (too short). -/
def stringReplace (src old new : List Nat) : Res (List Nat) :=
  if old.length = 0 ∨ old.length > src.length then .ok src
  else if old.length = new.length then
    if old.length = 1 then do
      let o ← rd old 0
      let n ← rd new 0
      pure (src.map (fun b => if b = o then n else b))
    else do
      let ms ← stringSearch false src old
      inplaceReplace new ms src
  else do
    let count ← stringCount src old
    let size : Int := src.length + ((new.length : Int) - old.length) * count
    let ms ← stringSearch false src old
    let out ← copyReplace src old.length new ms 0
    if (out.length : Int) = size then pure out else .ub

/-- `string_splitter`: string_search.hpp:326-358. -/
def splitter (src : List Nat) (m : Nat) : List Nat → Nat → Res (List (List Nat))
  | [], last => do
    if last ≤ src.length then do let c ← readRange src last (src.length - last); pure [c] else .ub
  | k :: ms, last =>
    if k < last then .ub
    else do
      let c ← readRange src last (k - last)
      let r ← splitter src m ms (last + (k - last) + m)
      pure (c :: r)

/-- `string_split_kernel::single`: /repo/include/dynd/kernels/string_split_kernel.hpp:23-46.  `count + 1` elements are
    allocated; writing more of them is undefined behaviour. -/
def stringSplit (h p : List Nat) : Res (List (List Nat)) := do
  let count ← stringCount h p
  if count = 0 then pure [h]
  else do
    let ms ← stringSearch false h p
    let r ← splitter h p.length ms 0
    if r.length = count + 1 then pure r else .ub

/-- `memcmp(a, b, n) == 0`. -/
def memcmpEq (a : List Nat) (ai : Nat) (b : List Nat) (bi : Nat) : Nat → Res Bool
  | 0 => .ok true
  | n + 1 => do
    let x ← rd a ai
    let y ← rd b bi
    if x = y then memcmpEq a (ai + 1) b (bi + 1) n else pure false

/-- `string_startswith`: string.hpp:128-137. -/
def stringStartswith (s t : List Nat) : Res Bool :=
  if t.length > s.length then .ok false else memcmpEq s 0 t 0 t.length

/-- `string_endswith`: string.hpp:142-150. -/
def stringEndswith (s t : List Nat) : Res Bool :=
  if t.length > s.length then .ok false else memcmpEq s (s.length - t.length) t 0 t.length

/-- Copy loop of `string_concat`: string.hpp:29-34; `pos` is `dst - d.begin()`. -/
def concatLoop : List (List Nat) → Nat → List Nat → Res (List Nat)
  | [], _, d => .ok d
  | s :: ss, pos, d => do let d ← writeAt d pos s; concatLoop ss (pos + s.length) d

/-- `string_concat`: string.hpp:17-35 (destination empty on entry, new bytes shown as 0). -/
def stringConcat (ss : List (List Nat)) : Res (List Nat) :=
  concatLoop ss 0 (List.replicate ((ss.map List.length).foldl (· + ·) 0) 0)

end Dynd
