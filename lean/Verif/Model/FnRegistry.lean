import Verif.Model.Basic
/-
The registry of callables: `registry_entry` (include/dynd/registry.hpp), a tree of namespaces reached by dotted paths.
Texts are lists of bytes; 46 is the dot.
-/
namespace Dynd

mutual
/-- `registry_entry`: `m_name`, `m_is_namespace`, `m_value` (callables are numbers), `m_namespace`, `m_observers` (numbers).
    /repo/include/dynd/registry.hpp:22-27. -/
inductive REntry where
  | mk (name : List Nat) (isNs : Bool) (val : Nat) (kids : RKids) (obs : List Nat)
/-- `std::map<std::string, registry_entry>` as the list of its pairs in the order of the keys. -/
inductive RKids where
  | nil
  | cons (key : List Nat) (e : REntry) (rest : RKids)
end

/-- `path()`: registry.hpp:45. -/
def REntry.name : REntry → List Nat | .mk n _ _ _ _ => n
/-- `is_namespace()`: registry.hpp:61. -/
def REntry.isNs : REntry → Bool | .mk _ b _ _ _ => b
/-- `value()`: registry.hpp:42-43. -/
def REntry.val : REntry → Nat | .mk _ _ v _ _ => v
/-- `m_namespace` -/
def REntry.kids : REntry → RKids | .mk _ _ _ k _ => k
/-- `m_observers` -/
def REntry.obs : REntry → List Nat | .mk _ _ _ _ o => o

/-- `std::string::compare(a, b) < 0`: bytes in lexicographic order. -/
def bytesLt : List Nat → List Nat → Bool
  | _, [] => false
  | [], _ :: _ => true
  | a :: x, b :: y => decide (a < b) || (decide (a = b) && bytesLt x y)

/-- `m_namespace.find(name)` (registry.hpp:82). -/
def RKids.find (k : List Nat) : RKids → Option REntry
  | .nil => none
  | .cons k' e r => if k' = k then some e else r.find k

/-- Inserting a pair into the map at its place (the key is not there yet). -/
def RKids.put (k : List Nat) (e : REntry) : RKids → RKids
  | .nil => .cons k e .nil
  | .cons k' e' r => if bytesLt k k' then .cons k e (.cons k' e' r) else .cons k' e' (r.put k e)

/-- Changing the mapped value under a key, through the reference `operator[]` returned. -/
def RKids.set (k : List Nat) (e : REntry) : RKids → RKids
  | .nil => .nil
  | .cons k' e' r => if k' = k then .cons k' e r else .cons k' e' (r.set k e)

mutual
/-- `absolute(name)`: registry.hpp:47-59. -/
def REntry.absolute (nm : List Nat) : REntry → REntry
  | .mk n b v ks os => .mk (if n = [] then nm else nm ++ 46 :: n) b v (if b then ks.absoluteAll nm else ks) os
/-- the loop over the children: registry.hpp:55-57 -/
def RKids.absoluteAll (nm : List Nat) : RKids → RKids
  | .nil => .nil
  | .cons k e r => .cons k (e.absolute nm) (r.absoluteAll nm)
end

/-- `registry_entry(value)`: registry.hpp:32. -/
def leafEntry (v : Nat) : REntry := .mk [] false v .nil []

/-- The map made from an initializer list: of two pairs with the same key the first one stays.  registry.hpp:35. -/
def initMap : List (List Nat × REntry) → RKids → RKids
  | [], m => m
  | (k, e) :: r, m => initMap r (match m.find k with | some _ => m | none => m.put k e)

/-- `pair.second.absolute(pair.first)` for every pair: registry.hpp:36-38. -/
def RKids.absoluteOwn : RKids → RKids
  | .nil => .nil
  | .cons k e r => .cons k (e.absolute k) r.absoluteOwn

/-- `registry_entry({...})`: registry.hpp:34-39.  The value is a null callable (0). -/
def nsEntry (ps : List (List Nat × REntry)) : REntry := .mk [] true 0 (initMap ps .nil).absoluteOwn []

/-- `path.find(".")` and the two `substr`: registry.hpp:87-88, 103. -/
def splitDot : List Nat → List Nat × Option (List Nat)
  | [] => ([], none)
  | c :: r => if c = 46 then ([], some r) else (c :: (splitDot r).1, (splitDot r).2)

/-- `operator[](path)`: registry.hpp:86-104.  `fuel` bounds the recursion. -/
def lookupEntry : Nat → REntry → List Nat → Res REntry
  | 0, _, _ => .ub
  | f + 1, e, p =>
    match e.kids.find (splitDot p).1 with
    | none => .throw .invalidArg
    | some c =>
      match (splitDot p).2 with
      | none => .ok c
      | some r => lookupEntry f c r

/-- `registered(path)`: registry.hpp:117-120. -/
def registeredAt (root : REntry) (p : List Nat) : Res REntry := lookupEntry (p.length + 1) root p

/-- A call of an observer: which one, with which name and entry. -/
structure RCall where
  obs : Nat
  key : List Nat
  entry : REntry

/-- `insert({key, e})` on this entry, with the calls made by `emit`: registry.hpp:63-80. -/
def insertHere (key : List Nat) (e : REntry) : REntry → Res (REntry × List RCall)
  | .mk n b v ks os =>
    match ks.find key with
    | some _ => .throw .runtime
    | none =>
      .ok (.mk n b v (ks.put key (e.absolute key)) os, os.map fun o => ⟨o, key, e.absolute key⟩)

/-- `observe(obs)` on this entry: registry.hpp:84. -/
def observeHere (o : Nat) : REntry → Res (REntry × List RCall)
  | .mk n b v ks os => .ok (.mk n b v ks (os ++ [o]), [])

/-- Doing something to the entry `operator[](path)` refers to: the tree afterwards. -/
def changeAt (f : REntry → Res (REntry × List RCall)) : Nat → REntry → List Nat → Res (REntry × List RCall)
  | 0, _, _ => .ub
  | n + 1, .mk nm b v ks os, p =>
    match ks.find (splitDot p).1 with
    | none => .throw .invalidArg
    | some c => do
      let (c', ev) ← (match (splitDot p).2 with
        | none => f c
        | some r => changeAt f n c r)
      pure (.mk nm b v (ks.set (splitDot p).1 c') os, ev)

/-- What a user does to the registry: `none` is `registered()`, `some path` is `registered(path)`. -/
inductive ROp where
  | insert (loc : Option (List Nat)) (key : List Nat) (e : REntry)
  | observe (loc : Option (List Nat)) (o : Nat)

/-- the action on the entry -/
def ROp.act : ROp → REntry → Res (REntry × List RCall)
  | .insert _ k e => insertHere k e
  | .observe _ o => observeHere o

/-- the location -/
def ROp.loc : ROp → Option (List Nat)
  | .insert l _ _ => l
  | .observe l _ => l

/-- One call. -/
def fnRegStep (root : REntry) (op : ROp) : Res (REntry × List RCall) :=
  match op.loc with
  | none => op.act root
  | some p => changeAt op.act (p.length + 1) root p

/-- A history of calls; a call that raises leaves the registry as it was. -/
def fnRegRun (root : REntry) : List ROp → REntry × List RCall
  | [] => (root, [])
  | op :: ops =>
    match fnRegStep root op with
    | .ok (r, ev) => ((fnRegRun r ops).1, ev ++ (fnRegRun r ops).2)
    | _ => fnRegRun root ops

end Dynd
