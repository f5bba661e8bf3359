import Verif.Model.Srt
/-!
How many bytes the parameters and local objects of a function take at most: the sizes of all of them, each with up to three bytes for alignment.
-/
namespace Umlcc
namespace Whole

def declRoom : List SDecl → Nat
  | [] => 0
  | d :: ds => d.dt.nbytes + 3 + declRoom ds

mutual
def stmtRoom : SStmt → Nat
  | .cmpd is => itemsRoom is
  | .case _ s => stmtRoom s
  | .dflt s => stmtRoom s
  | .ite _ t => stmtRoom t
  | .itee _ t e => stmtRoom t + stmtRoom e
  | .switch _ s => stmtRoom s
  | .while _ s => stmtRoom s
  | .for i _ n b => itemRoom i + stmtRoom b + stmtRoom n
  | _ => 0
def itemRoom : SItem → Nat
  | .stmt s => stmtRoom s
  | .decls ds => declRoom ds
  | .tag _ _ => 0
def itemsRoom : SItems → Nat
  | .nil => 0
  | .cons i is => itemRoom i + itemsRoom is
end

def paramRoom : Params → Nat
  | .nil => 0
  | .cons _ t ps => t.nbytes + 3 + paramRoom ps

def room (ps : Params) (b : SItems) : Nat := paramRoom ps + itemsRoom b

end Whole
end Umlcc
