import Verif.Model.Vector
/-!
What the vector API means: every vector is a finite sequence.
(Uses only the call and return-value vocabulary `VOp`/`VObs` of the API.)
-/
namespace Umlcc
namespace VSpec
variable {α : Type}

/-- Element at a possibly out-of-range index. -/
def get (l : List α) (i : Int) : Option α := if i < 0 then none else l[i.toNat]?

/-- Sequence with `a` inserted before position `i`; unchanged if `i` is no position. -/
def ins (l : List α) (i : Int) (a : α) : List α :=
  if 0 ≤ i ∧ i ≤ l.length then l.take i.toNat ++ a :: l.drop i.toNat else l

/-- Sequence without position `i`; unchanged if `i` is no position. -/
def del (l : List α) (i : Int) : List α :=
  if 0 ≤ i ∧ i < l.length then l.take i.toNat ++ l.drop (i.toNat + 1) else l

/-- Sequence with position `i` replaced; unchanged if `i` is no position. -/
def put (l : List α) (i : Int) (a : α) : List α :=
  if 0 ≤ i ∧ i < l.length then l.take i.toNat ++ a :: l.drop (i.toNat + 1) else l

/-- One call on sequences. `none`: the caller broke the contract
(popped an empty vector, or extended a vector by itself). -/
def step (σ : Nat → List α) : VOp α → Option ((Nat → List α) × VObs α)
  | .new d => some (VStore.upd σ d [], .unit)
  | .copy d s => some (VStore.upd σ d (σ s), .unit)
  | .push k a => some (VStore.upd σ k (σ k ++ [a]), .unit)
  | .pop k =>
    match (σ k).getLast? with
    | none => none
    | some a => some (VStore.upd σ k (σ k).dropLast, .item (some a))
  | .fill k n a => some (VStore.upd σ k (σ k ++ List.replicate (n.toNat - (σ k).length) a), .unit)
  | .set k i a => some (VStore.upd σ k (put (σ k) i a), .flag (decide (0 ≤ i ∧ i < (σ k).length)))
  | .insert k i a => some (VStore.upd σ k (ins (σ k) i a), .unit)
  | .erase k i => some (VStore.upd σ k (del (σ k) i), .unit)
  | .get k i => some (σ, .item (get (σ k) i))
  | .size k => some (σ, .num (σ k).length)
  | .extend k j => if k = j then none else some (VStore.upd (VStore.upd σ k (σ k ++ σ j)) j [], .unit)

def run (σ : Nat → List α) : List (VOp α) → Option ((Nat → List α) × List (VObs α))
  | [] => some (σ, [])
  | o :: os =>
    match step σ o with
    | none => none
    | some (σ, x) =>
      match run σ os with
      | none => none
      | some (σ, xs) => some (σ, x :: xs)

end VSpec
end Umlcc
