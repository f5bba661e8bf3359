import Verif.Spec.UnitProgram
import Verif.Spec.X64Check
import Verif.Spec.Flow
import Verif.Spec.Plain
/-!
A test of the allocated code of all functions of a translation unit.
-/
namespace Umlcc
namespace X86
open CStm

/-- up to and including the first `LEAVE` -/
def untilLeave : List Immc → List Immc
  | [] => []
  | x :: xs => if X64.isLeave x then [x] else x :: untilLeave xs

/-- the line with the label of a function -/
def lineNo (n : Name) (out : List Immc) : Nat := (out.takeWhile fun x => !RSpec.isLabelNamed n x).length
/-- the lines of a function -/
def linesOf (n : Name) (out : List Immc) : List Immc := untilLeave (out.dropWhile fun x => !RSpec.isLabelNamed n x)
/-- bytes for its objects -/
def sizeIn (out : List Immc) (n : Name) : Nat := frameSize (frameOf (linesOf n out))

/-- the intervals when the translation has come to a line -/
def intervalsAt (qs : List Liveseq) : Nat → Out (List Liveseq)
  | 0 => .ok qs
  | n + 1 => intervalsAt qs n >>= X64.nextAll

/-- bytes the arguments of the calls in preparation take at most -/
def heldBytes (out : List Immc) (rounds : Nat) : Nat := ((certify out rounds).map fun l => heldAll l.preps).foldr max 0

/-- The function belongs to the fragment and its allocated code passes the test of `Spec/X64Check.lean`; `each` bytes of stack are enough for it. -/
def passes (out : List Immc) (qs : List Liveseq) (rounds each : Nat) (g : Fn) : Bool :=
  soundAll g.body && !Flow.freeBrks g.body && !Flow.freeConts g.body && decide (g.name.val.head? ≠ some 46) && decide (paramCount g.ps < 2 ^ 57) &&
  (match intervalsAt qs (lineNo g.name out) with
  | .ok qx => checked (linesOf g.name out) qx (paramCount g.ps) rounds
  | _ => false) &&
  decide (frameOf (linesOf g.name out) < 2 ^ 31 - 16) && decide (g.size + (24 + heldBytes (linesOf g.name out) rounds) + 8 ≤ each)

/-- The function belongs to the part of `Spec/Plain.lean`, the structures it is given are not too large, nor are its objects, and `each` bytes of stack are enough
for it. Nothing is asked of its instructions. -/
def plainFn (out : List Immc) (each : Nat) (g : Fn) : Bool :=
  soundAll g.body && !Flow.freeBrks g.body && !Flow.freeConts g.body && decide (g.name.val.head? ≠ some 46) && decide (paramCount g.ps < 2 ^ 57) && Plain.plainIn each g.size g.ps g.body &&
  decide (frameOf (linesOf g.name out) < 2 ^ 31 - 16) && Plain.smallTags g.scope.tags

/-- one or the other -/
def proper (out : List Immc) (qs : List Liveseq) (rounds each : Nat) (g : Fn) : Bool := passes out qs rounds each g || plainFn out each g

/-- The labels of the functions in the code are at the addresses of their names; the address after a call is the return address. -/
structure Linked {W : Type} (I : Image W) (items : List X64.Item) : Prop where
  func : ∀ p v n, items[p]? = some (.label .function v n) → I.locate (I.host.sym n) = some p
  back : ∀ p i, items[p]? = some (.inst i) → i.op = .call → I.locate (I.host.back p) = some (p + 1)

/-- the assembler takes a label only once -/
def labelNames (l : List X64.Item) : List Name := l.filterMap fun | .label _ _ n => some n | _ => none

end X86
end Umlcc
