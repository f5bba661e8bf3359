import Verif.Model.Liveseq
/-! Interval vocabulary for linear-scan allocation. -/
namespace Umlcc
namespace RSpec

/-- intervals are listed by non-decreasing start -/
def Sorted (lv : List Live) : Prop :=
  ∀ (u v : Nat) lu lw, u ≤ v → lv[u]? = some lu → lv[v]? = some lw → lu.first ≤ lw.first

/-- number of earlier intervals still running (a later use is to come) when interval `v` starts -/
def pressure (lv : List Live) (v : Nat) : Nat :=
  (List.range v).countP fun u =>
    match lv[u]?, lv[v]? with
    | some lu, some l => decide (l.first < lu.last)
    | _, _ => false

/-- intervals of one physical register in textual order: each starts after the previous one started and not before it
ended, none starts at index 0, all end at or before `n` -/
def Consecutive (ls : List Live) (n : Nat) : Prop :=
  (∀ l ∈ ls, 0 < l.first ∧ l.first ≤ l.last ∧ l.last ≤ n) ∧
  ∀ (i j : Nat) a b, i < j → ls[i]? = some a → ls[j]? = some b → a.first < b.first ∧ a.last ≤ b.first

end RSpec
end Umlcc
