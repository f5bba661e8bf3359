import Verif.Model.Base
/-!
Model of `src/vector/vector.c`.

A vector is its allocated block `slots` (its length is `capacity`; a slot that was allocated but never
written is `none`) and the number `size` of slots in use. Every slot access goes through `rd`/`wr`, which
answer `ub` outside the block (and, for reads, on a slot never written).

Simplifications: `malloc`/`realloc` never fail, `int` does not overflow, item deletion
(`delete_object`) has no effect on other items, `copy_object` is the identity on values.
-/
namespace Umlcc

structure Vec (α : Type) where
  slots : List (Option α)
  size : Nat

namespace Vec
variable {α : Type}

/-- `vector->capacity`; the block always has exactly `capacity` slots (vector.c:19,29,41,52,65,130). -/
def capacity (v : Vec α) : Nat := v.slots.length

/-- read `container[i]` -/
def rd (s : List (Option α)) (i : Int) : Out α :=
  if 0 ≤ i then
    match s[i.toNat]? with
    | some (some a) => .ok a
    | _ => .ub
  else .ub

/-- write `container[i] = a` -/
def wr (s : List (Option α)) (i : Int) (a : α) : Out (List (Option α)) :=
  if 0 ≤ i ∧ i < s.length then .ok (s.set i.toNat (some a)) else .ub

/-- `realloc` to `n` slots: keeps the common prefix, new slots are uninitialised. -/
def realloc (s : List (Option α)) (n : Nat) : List (Option α) :=
  s.take n ++ List.replicate (n - s.length) none

/-- vector.c:14-23 -/
def new : Vec α := ⟨[none], 0⟩

/-- vector.c:33-35: loop copying `container[i]` for `i` in `[i, i+n)`. -/
def copyLoop (src dst : List (Option α)) (i : Nat) : Nat → Out (List (Option α))
  | 0 => .ok dst
  | n + 1 => do
    let a ← rd src i
    let dst ← wr dst i a
    copyLoop src dst (i + 1) n

/-- vector.c:25-37 -/
def copy (v : Vec α) : Out (Vec α) := do
  let s ← copyLoop v.slots (List.replicate v.capacity none) 0 v.size
  pure ⟨s, v.size⟩

/-- vector.c:39-46 -/
def push (v : Vec α) (a : α) : Out (Vec α) := do
  let s := if v.size ≥ v.capacity then realloc v.slots (2 * v.capacity) else v.slots
  let s ← wr s v.size a
  pure ⟨s, v.size + 1⟩

/-- vector.c:48-56. Popping an empty vector reads `container[-1]`. -/
def pop (v : Vec α) : Out (α × Vec α) := do
  let a ← rd v.slots ((v.size : Int) - 1)
  let n := v.size - 1
  let s := if v.capacity > 1 ∧ 2 * n < v.capacity then realloc v.slots (v.capacity / 2) else v.slots
  pure (a, ⟨s, n⟩)

/-- vector.c:68-70: write `a` to slots `[i, i+n)`. -/
def fillLoop (s : List (Option α)) (a : α) (i : Nat) : Nat → Out (List (Option α))
  | 0 => .ok s
  | n + 1 => do
    let s ← wr s i a
    fillLoop s a (i + 1) n

/-- vector.c:58-73 -/
def fill (v : Vec α) (n : Int) (a : α) : Out (Vec α) :=
  if n ≤ v.size then .ok v
  else do
    let m := n.toNat
    let s := if v.capacity < m then realloc v.slots m else v.slots
    let s ← fillLoop s a v.size (m - v.size)
    pure ⟨s, m⟩

/-- vector.c:75-82 -/
def set (v : Vec α) (i : Int) (a : α) : Out (Bool × Vec α) :=
  if 0 > i ∨ i ≥ v.size then .ok (false, v)
  else do
    let _ ← rd v.slots i
    let s ← wr v.slots i a
    pure (true, ⟨s, v.size⟩)

/-- vector.c:94-96: `for (i = size; i > index; i--) container[i] = container[i-1]`, `n` iterations left. -/
def shiftUp (s : List (Option α)) (i : Nat) : Nat → Out (List (Option α))
  | 0 => .ok s
  | n + 1 => do
    let a ← rd s ((i : Int) - 1)
    let s ← wr s i a
    shiftUp s (i - 1) n

/-- vector.c:84-99 -/
def insert (v : Vec α) (i : Int) (a : α) : Out (Vec α) :=
  if 0 > i ∨ i > v.size then .ok v
  else do
    let s := if v.size ≥ v.capacity then realloc v.slots (2 * v.capacity) else v.slots
    let s ← shiftUp s v.size (v.size - i.toNat)
    let s ← wr s i a
    pure ⟨s, v.size + 1⟩

/-- vector.c:107-109: `for (i = index+1; i < size; i++) container[i-1] = container[i]`, `n` iterations left. -/
def shiftDown (s : List (Option α)) (i : Nat) : Nat → Out (List (Option α))
  | 0 => .ok s
  | n + 1 => do
    let a ← rd s i
    let s ← wr s ((i : Int) - 1) a
    shiftDown s (i + 1) n

/-- vector.c:101-111 -/
def erase (v : Vec α) (i : Int) : Out (Vec α) :=
  if 0 > i ∨ i ≥ v.size then .ok v
  else do
    let _ ← rd v.slots i
    let s ← shiftDown v.slots (i.toNat + 1) (v.size - (i.toNat + 1))
    pure ⟨s, v.size - 1⟩

/-- vector.c:113-118; `none` is NULL. -/
def get (v : Vec α) (i : Int) : Out (Option α) :=
  if 0 > i ∨ i ≥ v.size then .ok none
  else do
    let a ← rd v.slots i
    pure (some a)

/-- vector.c:125-127: push `other->container[i]` for `i` in `[i, i+n)`. -/
def extendLoop (v : Vec α) (other : List (Option α)) (i : Nat) : Nat → Out (Vec α)
  | 0 => .ok v
  | n + 1 => do
    let a ← rd other i
    let v ← push v a
    extendLoop v other (i + 1) n

/-- vector.c:124-133 for two different vectors: the first is extended, the second emptied.
(The call `vector_extend(v, v)` does not terminate: see `VProg.step`.) -/
def extend (v other : Vec α) : Out (Vec α × Vec α) := do
  let v ← extendLoop v other.slots 0 other.size
  pure (v, ⟨realloc other.slots 1, 0⟩)

end Vec

/-- One call of the vector API in a program using any number of vectors, named by numbers. -/
inductive VOp (α : Type) where
  | new (d : Nat)
  | copy (d s : Nat)
  | push (v : Nat) (a : α)
  | pop (v : Nat)
  | fill (v : Nat) (n : Int) (a : α)
  | set (v : Nat) (i : Int) (a : α)
  | insert (v : Nat) (i : Int) (a : α)
  | erase (v : Nat) (i : Int)
  | get (v : Nat) (i : Int)
  | size (v : Nat)
  | extend (v w : Nat)
  deriving DecidableEq

/-- What a call returns to its caller. -/
inductive VObs (α : Type) where
  | unit
  | item (a : Option α)
  | flag (b : Bool)
  | num (n : Nat)
  deriving DecidableEq

/-- Update of one vector of the program. -/
def VStore.upd {β : Type} (σ : Nat → β) (k : Nat) (x : β) : Nat → β := fun j => if j = k then x else σ j

namespace VProg
variable {α : Type}

/-- One API call on the implementation. `vector_extend(v, v)` (vector.c:125-127 with `other == vector`)
increases the loop bound in every iteration and never ends. -/
def step (σ : Nat → Vec α) : VOp α → Out ((Nat → Vec α) × VObs α)
  | .new d => .ok (VStore.upd σ d Vec.new, .unit)
  | .copy d s => do let v ← (σ s).copy; pure (VStore.upd σ d v, .unit)
  | .push k a => do let v ← (σ k).push a; pure (VStore.upd σ k v, .unit)
  | .pop k => do let (a, v) ← (σ k).pop; pure (VStore.upd σ k v, .item (some a))
  | .fill k n a => do let v ← (σ k).fill n a; pure (VStore.upd σ k v, .unit)
  | .set k i a => do let (b, v) ← (σ k).set i a; pure (VStore.upd σ k v, .flag b)
  | .insert k i a => do let v ← (σ k).insert i a; pure (VStore.upd σ k v, .unit)
  | .erase k i => do let v ← (σ k).erase i; pure (VStore.upd σ k v, .unit)
  | .get k i => do let a ← (σ k).get i; pure (σ, .item a)
  | .size k => .ok (σ, .num (σ k).size)
  | .extend k j =>
    if k = j then .hang
    else do let (v, w) ← (σ k).extend (σ j); pure (VStore.upd (VStore.upd σ k v) j w, .unit)

/-- A program: a list of calls; the result is the final store and everything the calls returned. -/
def run (σ : Nat → Vec α) : List (VOp α) → Out ((Nat → Vec α) × List (VObs α))
  | [] => .ok (σ, [])
  | o :: os => do
    let (σ, x) ← step σ o
    let (σ, xs) ← run σ os
    pure (σ, x :: xs)

end VProg
end Umlcc
