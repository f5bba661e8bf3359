import Verif.Spec.Room
import Verif.Spec.UnitCheck
/-!
A part of C that the whole compiler treats right, described on the typed tree that C gives to a translation unit. Nothing is asked of any code.
-/
namespace Umlcc
namespace Whole

/-- No member of a structure is too far from its start. A function of the part: it is plain (`Spec/Plain.lean`), its expressions are in the fragment of C34, `break` and `continue` are inside of loops, its objects are not too large,
and `each` bytes of stack are enough for it. -/
def wholeExt (each : Nat) : SExt → Bool
  | .func f (.func ps _) b => CStm.soundAll b && !Flow.freeBrks b && !Flow.freeConts b && decide (f.head? ≠ some 46) && decide (CStm.paramCount ps < 2 ^ 57) && Plain.plainIn each (X86.frameSize (room ps b)) ps b &&
    decide (room ps b < 2 ^ 31 - 16)
  | .tag _ t => Plain.small t
  | _ => true

end Whole
end Umlcc
