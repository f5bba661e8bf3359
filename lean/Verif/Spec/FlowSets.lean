import Verif.Spec.Regalloc
/-! What is asked of code so that the liveness analysis treats it exactly (property C72). -/
namespace Umlcc
namespace RSpec

/-- no register is read twice by the item, and one that is read, and not written by the same item, is not needed any more afterwards -/
def LastRead (code : List Immc) (i : Nat) (x : Immc) : Prop :=
  (reads x).Nodup ∧ ∀ v ∈ reads x, writes x ≠ some v → ¬ LiveOut code v i

/-- item `i` belongs to a stretch of items without labels and jumps in between, after which no register is needed, and which reads
three neighbouring registers at most -/
def Short (code : List Immc) (i : Nat) : Prop :=
  ∃ (n : Nat) (w : Int), i ≤ n ∧ n < code.length ∧ 0 ≤ w ∧ (∀ v, ¬ LiveOut code v n) ∧
    (∀ (k : Nat) x y, i ≤ k → k < n → code[k]? = some x → code[k + 1]? = some y → x.isJump = false ∧ y.isLabel = false) ∧
    ∀ (k : Nat) x v, i ≤ k → k ≤ n → code[k]? = some x → v ∈ reads x → w ≤ v ∧ v ≤ w + 2

/-- every item reads registers for the last time, or belongs to a short stretch, or is a jump -/
def Orderly (code : List Immc) : Prop :=
  ∀ (i : Nat) x, code[i]? = some x → LastRead code i x ∨ Short code i ∨ (x.isJump = true ∧ writes x = none)

/-- every jump names a label of the code -/
def JumpsFind (code : List Immc) : Prop :=
  ∀ x ∈ code, x.isJump = true → ∃ n y, target x = some n ∧ y ∈ code ∧ isLabelNamed n y = true

/-- the register numbers written are not negative -/
def NaturalRegs (code : List Immc) : Prop := ∀ x ∈ code, ∀ v, writes x = some v → 0 ≤ v

end RSpec
end Umlcc
