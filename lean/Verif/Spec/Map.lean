import Verif.Model.Map
/-! What a finite map does, independent of the hash table: read the history backwards. -/
namespace Umlcc
namespace MSpec
variable {K V : Type} [DecidableEq K]

/-- The binding of `k` after the operations `os` (oldest first), starting from `cur`. -/
def after (k : K) : Option V → List (MOp K V) → Option V
  | cur, [] => cur
  | cur, .add k' v :: os => after k (if k' = k then some v else cur) os
  | cur, .remove k' :: os => after k (if k' = k then none else cur) os

/-- value of the most recent add of `k` not followed by a remove of it -/
def lookup (os : List (MOp K V)) (k : K) : Option V := after k none os

def isRemove : MOp K V → Bool
  | .remove _ => true
  | _ => false

/-- A history that never overwrites a present key once something has been removed. -/
def Calm (os : List (MOp K V)) : Prop :=
  ∀ (pre : List (MOp K V)) k v post, os = pre ++ .add k v :: post →
    lookup pre k = none ∨ ∀ o ∈ pre, isRemove o = false

end MSpec
end Umlcc
