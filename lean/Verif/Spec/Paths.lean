import Verif.Spec.Regalloc
import Verif.Model.Srt
/-!
Paths through intermediate code, and the two halves of C33 stated on them.
-/
namespace Umlcc
namespace RSpec

/-- control may arrive at line `i`, having gone through the lines `l` from the first line on -/
inductive Path (code : List Immc) : List Nat → Nat → Prop
  | start : Path code [] 0
  | step {l i j} : Path code l i → Succ code i j → Path code (l ++ [i]) j

/-- whatever the path to a line that reads a register, the register has been written on that path -/
def WrittenOnPath (code : List Immc) : Prop :=
  ∀ l i x v, Path code l i → code[i]? = some x → v ∈ reads x → ∃ k ∈ l, ∃ y, code[k]? = some y ∧ writes y = some v

/-- a straight line of code ends here, or a new one begins -/
def cuts : Immc → Bool
  | .label _ _ _ => true
  | .inst i => branches i.op
  | _ => false

/-- a straight line of code writes each register only once -/
def WrittenOnce (code : List Immc) : Prop :=
  ∀ (i k : Nat) x y v, i < k → code[i]? = some x → code[k]? = some y → writes x = some v → writes y = some v →
    ∃ (j : Nat) (z : Immc), i < j ∧ j < k ∧ code[j]? = some z ∧ cuts z = true

mutual
/-- no arithmetic on pointers and no increments or decrements anywhere in the expression -/
def calm : SExpr → Bool
  | .ident _ _ | .str _ _ | .ilit _ _ => true
  | .bin op _ l r => (op != .padd) && (op != .psub) && (op != .pdiff) && calm l && calm r
  | .cond _ c l r => calm c && calm l && calm r
  | .un op _ e => (op != .preinc) && (op != .predec) && (op != .postinc) && (op != .postdec) && calm e
  | .call _ f as => calm f && calmArgs as
  | .tomember _ e _ _ => calm e
def calmArgs : SArgs → Bool
  | .nil => true
  | .cons e as => calm e && calmArgs as
end

end RSpec
end Umlcc
