import Verif.Model.Srt
/-!
`break` and `continue` statements that belong to a statement around the given one.
-/
namespace Umlcc
namespace Flow

mutual
/-- a `continue` in the statement that belongs to a loop around it -/
def freeCont : SStmt → Bool
  | .cont => true
  | .cmpd is => freeConts is
  | .case _ s | .dflt s | .switch _ s => freeCont s
  | .ite _ t => freeCont t
  | .itee _ t e => freeCont t || freeCont e
  | .for i _ n _ => freeContItem i || freeCont n
  | .while _ _ | .brk | .ret _ | .expr _ | .null => false
def freeContItem : SItem → Bool
  | .stmt s => freeCont s
  | .decls _ | .tag _ _ => false
def freeConts : SItems → Bool
  | .nil => false
  | .cons i is => freeContItem i || freeConts is
end

mutual
/-- a `break` in the statement that belongs to a loop or `switch` around it -/
def freeBrk : SStmt → Bool
  | .brk => true
  | .cmpd is => freeBrks is
  | .case _ s | .dflt s => freeBrk s
  | .ite _ t => freeBrk t
  | .itee _ t e => freeBrk t || freeBrk e
  | .for i _ n _ => freeBrkItem i || freeBrk n
  | .switch _ _ | .while _ _ | .cont | .ret _ | .expr _ | .null => false
def freeBrkItem : SItem → Bool
  | .stmt s => freeBrk s
  | .decls _ | .tag _ _ => false
def freeBrks : SItems → Bool
  | .nil => false
  | .cons i is => freeBrkItem i || freeBrks is
end

/-- the name declared does not begin with a dot -/
def plainWho : SWho → Prop
  | .ident n => n.head? ≠ some 46
  | .str _ => True

/-- names do not begin with a dot; `break` and `continue` belong to loops and switches -/
def plainExt : SExt → Prop
  | .func n _ b => n.head? ≠ some 46 ∧ freeConts b = false ∧ freeBrks b = false
  | .decls ds => ∀ d ∈ ds, plainWho d.who
  | .tag _ _ => True

end Flow
end Umlcc
