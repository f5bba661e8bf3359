import Verif.Model.Base
/-!
Model of `src/map/map.c`, `src/map/cell.c`, `src/set/set.c` and the hash functions of `src/common/type.c`.

Keys are values of a type `K` with the hash function as a parameter; `compare_object(a, b) == 0` is modelled
as `a = b` (true for `strcmp`; true for `comp_integer` up to overflow of `a - b`, which is ignored).
Values are non-NULL pointers, so "value is NULL" is `none`.
Simplifications: allocation does not fail, sizes do not overflow, deletion of cells has no other effect.
-/
namespace Umlcc

/-- `MapCell*`: NULL, or a cell with its `deleted` flag (cell.h). -/
inductive Slot (K V : Type) where
  | null
  | cell (key : K) (value : V) (deleted : Bool)
  deriving DecidableEq, Repr

/-- `struct Map` (map.c:7-13); `capacity` is the length of `slots`. -/
structure HMap (K V : Type) where
  slots : List (Slot K V)
  size : Nat
  deriving DecidableEq, Repr

namespace HMap
variable {K V : Type} [DecidableEq K]

def capacity (m : HMap K V) : Nat := m.slots.length

/-- `hash_object(key) % capacity` used as an index: C remainder; a negative index or capacity 0 is undefined. -/
def index (h : Int) (cap : Nat) : Out Nat :=
  if cap = 0 then .ub
  else
    let r := h.tmod cap
    if 0 ≤ r then .ok r.toNat else .ub

/-- `new_map`, map.c:22-35 -/
def new : HMap K V := ⟨[.null], 0⟩

/-- The search loop of map_get_with_default (map.c:67-78) and map_remove (map.c:113-124): the slot index of
the live cell with the key, or `none`. Each iteration moves one slot; after `capacity` iterations the loop is
back at `orig` and stops, so `fuel = capacity` iterations suffice. -/
def find (slots : List (Slot K V)) (key : K) (orig : Nat) : Nat → Nat → Out (Option Nat)
  | 0, _ => .hang
  | fuel + 1, hash =>
    match slots[hash]? with
    | none => .ub
    | some .null => .ok none
    | some (.cell k _ deleted) =>
      if deleted = false ∧ k = key then .ok (some hash)
      else
        let hash' := (hash + 1) % slots.length
        if hash' = orig then .ok none else find slots key orig fuel hash'

/-- `map_get_with_default(map, key, NULL)`, map.c:61-81. -/
def get (hash : K → Int) (m : HMap K V) (key : K) : Out (Option V) := do
  let orig ← index (hash key) m.capacity
  let r ← find m.slots key orig m.capacity orig
  match r with
  | none => pure none
  | some i =>
    match m.slots[i]? with
    | some (.cell _ v false) => pure (some v)
    | some _ => pure none
    | none => .ub

/-- `map_contains`, map.c:139-141 -/
def contains (hash : K → Int) (m : HMap K V) (key : K) : Out Bool := do
  let r ← get hash m key
  pure r.isSome

/-- An unbounded probe loop `while (!stop(container[hash])) hash = (hash+1) % capacity`
(map.c:87-93 and map.c:223-225). The table does not change during the loop, so if no slot stops it within
`capacity` iterations the loop never ends. -/
def probe (slots : List (Slot K V)) (stop : Slot K V → Bool) : Nat → Nat → Out Nat
  | 0, _ => .hang
  | fuel + 1, hash =>
    match slots[hash]? with
    | none => .ub
    | some s => if stop s then .ok hash else probe slots stop fuel ((hash + 1) % slots.length)

/-- loop condition of update_capacity, map.c:223: stop at NULL -/
def nullStop : Slot K V → Bool
  | .null => true
  | .cell _ _ _ => false

/-- loop body of `update_capacity`, map.c:212-227, over the remaining old slots -/
def rehash (hash : K → Int) : List (Slot K V) → List (Slot K V) → Out (List (Slot K V))
  | [], new => .ok new
  | .null :: rest, new => rehash hash rest new
  | .cell _ _ true :: rest, new => rehash hash rest new
  | .cell k v false :: rest, new => do
    let i ← index (hash k) new.length
    let i ← probe new nullStop new.length i
    rehash hash rest (new.set i (.cell k v false))

/-- `update_capacity`, map.c:206-232 -/
def updateCapacity (hash : K → Int) (m : HMap K V) (n : Nat) : Out (HMap K V) := do
  let s ← rehash hash m.slots (List.replicate n .null)
  pure ⟨s, m.size⟩

/-- loop condition of map_add, map.c:87-93: stop at NULL, at a deleted cell, or at the key -/
def addStop (key : K) : Slot K V → Bool
  | .null => true
  | .cell k _ deleted => deleted || decide (k = key)

/-- `map_add`, map.c:83-105 -/
def add (hash : K → Int) (m : HMap K V) (key : K) (value : V) : Out (HMap K V) := do
  let i ← index (hash key) m.capacity
  let i ← probe m.slots (addStop key) m.capacity i
  let m : HMap K V := ⟨m.slots.set i (.cell key value false), m.size + 1⟩
  let stdCapacity := 2 * (m.size + 1) - 1
  if stdCapacity ≥ m.capacity then updateCapacity hash m (2 * (m.capacity + 1) - 1) else pure m

/-- `map_remove`, map.c:107-137 -/
def remove (hash : K → Int) (m : HMap K V) (key : K) : Out (HMap K V) := do
  let orig ← index (hash key) m.capacity
  let r ← find m.slots key orig m.capacity orig
  match r with
  | none => pure m
  | some i =>
    match m.slots[i]? with
    | some (.cell k v _) =>
      let m : HMap K V := ⟨m.slots.set i (.cell k v true), m.size - 1⟩
      let stdCapacity := 2 * (m.size + 1) - 1
      if 2 * stdCapacity < m.capacity then updateCapacity hash m stdCapacity else pure m
    | _ => .ub

/-- What iteration visits (map.c:143-204): the live cells in table order. -/
def items (m : HMap K V) : List (K × V) :=
  m.slots.filterMap fun s => match s with
    | .cell k v false => some (k, v)
    | _ => none

end HMap

/-- A modifying call of the map API. -/
inductive MOp (K V : Type) where
  | add (k : K) (v : V)
  | remove (k : K)
  deriving DecidableEq

namespace HMap
variable {K V : Type} [DecidableEq K]

def step (hash : K → Int) (m : HMap K V) : MOp K V → Out (HMap K V)
  | .add k v => m.add hash k v
  | .remove k => m.remove hash k

def run (hash : K → Int) (m : HMap K V) : List (MOp K V) → Out (HMap K V)
  | [] => .ok m
  | o :: os => do let m ← step hash m o; run hash m os

end HMap

/-- `hash_integer`, common/type.c:45-51 (overflow of the doubling ignored) -/
def hashInteger (n : Int) : Int := if n ≥ 0 then n * 2 else -n * 2 + 1

/-- The value of a `char` holding the byte `b` (`char` is signed on x86-64). -/
def charVal (b : UInt8) : Int := if b.toNat < 128 then b.toNat else (b.toNat : Int) - 256

/-- `hash_string`, common/type.c:67-78, on a C string given as its bytes before the terminating NUL -/
def hashString (s : List UInt8) : Int :=
  s.foldl (fun hash c => (charVal c * 151 + hash).tmod 587) 0

/-! ### `src/set/set.c`: a set is a map whose values are all `NOTNULL` -/

abbrev HSet (K : Type) := HMap K Unit

namespace HSet
variable {K : Type} [DecidableEq K]

/-- set.c:45-47 (set_add) -/
def add (hash : K → Int) (s : HSet K) (k : K) : Out (HSet K) := HMap.add hash s k ()

/-- set.c:53-55 (set_contains) -/
def contains (hash : K → Int) (s : HSet K) (k : K) : Out Bool := HMap.contains hash s k

/-- the items an iterator over the set visits -/
def elems (s : HSet K) : List K := (HMap.items s).map (·.1)

/-- add every item of a list satisfying a (possibly undefined) test -/
def addAll (hash : K → Int) (test : K → Out Bool) : List K → HSet K → Out (HSet K)
  | [], acc => .ok acc
  | k :: ks, acc => do
    let b ← test k
    if b then do let acc ← add hash acc k; addAll hash test ks acc
    else addAll hash test ks acc

/-- `set_intersection`, set.c:85-95 -/
def inter (hash : K → Int) (s o : HSet K) : Out (HSet K) :=
  addAll hash (fun k => contains hash o k) (elems s) HMap.new

/-- `set_union`, set.c:97-108 -/
def union (hash : K → Int) (s o : HSet K) : Out (HSet K) := do
  let u ← addAll hash (fun _ => .ok true) (elems s) HMap.new
  addAll hash (fun _ => .ok true) (elems o) u

/-- `set_difference`, set.c:110-120 -/
def diff (hash : K → Int) (s o : HSet K) : Out (HSet K) :=
  addAll hash (fun k => do let b ← contains hash o k; pure (!b)) (elems s) HMap.new

/-- loop of set_issubset: every listed item is in `s` -/
def allIn (hash : K → Int) (s : HSet K) : List K → Out Bool
  | [] => .ok true
  | k :: ks => do
    let b ← contains hash s k
    if b then allIn hash s ks else pure false

/-- `set_issubset(set, other)`, set.c:122-131 -/
def isSubset (hash : K → Int) (s o : HSet K) : Out Bool := allIn hash s (elems o)

/-- `set_equals`, set.c:133-135 -/
def equals (hash : K → Int) (s o : HSet K) : Out Bool := do
  let a ← isSubset hash s o
  if a then isSubset hash o s else pure false

end HSet
end Umlcc
