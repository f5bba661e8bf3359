import Verif.Spec.CStmt
import Verif.Spec.Flow
/-!
The part of C whose functions always get registers (property C73), and how many registers an expression needs.

Nothing here mentions the generator or the allocator: `clean` and `need` look at the tree only.
-/
namespace Umlcc
namespace Tidy

/-- operators that change their operand -/
def changes : SUn → Bool
  | .preinc | .predec | .postinc | .postdec => true
  | _ => false

mutual
/-- no assignment and no `++` or `--` anywhere -/
def clean : SExpr → Bool
  | .ident _ _ | .str _ _ | .ilit _ _ => true
  | .bin op _ l r => decide (op ≠ .assign) && clean l && clean r
  | .cond _ c l r => clean c && clean l && clean r
  | .un op _ e => !changes op && clean e
  | .call _ f as => clean f && cleanArgs as
  | .tomember _ e _ _ => clean e
def cleanArgs : SArgs → Bool
  | .nil => true
  | .cons e as => clean e && cleanArgs as
end

/-- an expression whose value is not used: an assignment, `++` or `--` may be the outermost operation -/
def effect : SExpr → Bool
  | .bin _ _ l r => clean l && clean r
  | .un _ _ e => clean e
  | e => clean e

mutual
/-- how many values are at hand, at most, when another one is computed: both operands of an operation are computed from left to right, and the first one
has to be kept during the second one; the operands of `&&` and `||`, the condition of `?:` and the arguments of a call are consumed at once, and the place of
the value of `?:` is taken before its operands -/
def need : SExpr → Nat
  | .ident _ _ | .str _ _ | .ilit _ _ => 0
  | .bin op _ l r => if op = .land ∨ op = .lor then max (need l) (need r) else max (need l) (need r + 1)
  | .cond _ c l r => max (need c) (max (need l) (need r) + 1)
  | .un _ _ e => need e
  | .call _ f as => max (need f) (needArgs as)
  | .tomember _ e _ _ => need e
def needArgs : SArgs → Nat
  | .nil => 0
  | .cons e as => max (need e) (needArgs as)
end

/-- the same for an expression whose value is not used: the right side of an assignment comes first, and `++` needs the place and the old and the new value -/
def needEffect : SExpr → Nat
  | .bin op t l r => if op = .assign then max (need r) (need l + 1) else need (.bin op t l r)
  | .un op _ e => if changes op then max (need e) 2 else need e
  | e => need e

mutual
/-- initialisers without side effects that need at most `k` -/
def tidyInit (k : Nat) : SInit → Bool
  | .expr e => clean e && decide (need e ≤ k)
  | .str _ _ => true
  | .list is => tidyInits k is
def tidyInits (k : Nat) : SInits → Bool
  | .nil => true
  | .cons i is => tidyInit k i && tidyInits k is
end

/-- a value that is used -/
def tidyVal (k : Nat) (e : SExpr) : Bool := clean e && decide (need e ≤ k)
/-- a value that is not used -/
def tidyEff (k : Nat) (e : SExpr) : Bool := effect e && decide (needEffect e ≤ k)

mutual
/-- assignments, `++` and `--` are statements of their own (or parts of the head of a `for`), and no expression needs more than `k` -/
def tidy (k : Nat) : SStmt → Bool
  | .cmpd is => tidyAll k is
  | .case _ s | .dflt s => tidy k s
  | .cont | .brk | .null | .ret none => true
  | .ret (some e) => tidyVal k e
  | .expr e => tidyEff k e
  | .ite c t => tidyVal k c && tidy k t
  | .itee c t e => tidyVal k c && tidy k t && tidy k e
  | .switch c b | .while c b => tidyVal k c && tidy k b
  | .for i c n b => tidyItem k i && tidyCond k c && tidy k n && tidy k b
/-- the condition of a `for` -/
def tidyCond (k : Nat) : SStmt → Bool
  | .expr e => tidyVal k e
  | _ => true
def tidyItem (k : Nat) : SItem → Bool
  | .stmt s => tidy k s
  | .decls ds => ds.all fun d => d.init.all (tidyInit k)
  | .tag _ _ => true
def tidyAll (k : Nat) : SItems → Bool
  | .nil => true
  | .cons i is => tidyItem k i && tidyAll k is
end

/-- the functions of a translation unit: `break` and `continue` have their loops, the function belongs to the part of C of C36 and is tidy -/
def tidyExt (k : Nat) : SExt → Bool
  | .func n _ b => decide (n.head? ≠ some 46) && !Flow.freeBrks b && !Flow.freeConts b && CStm.soundAll b && tidyAll k b
  | _ => true

end Tidy
end Umlcc
