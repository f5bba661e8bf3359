import Verif.Model.SymTab
/-!
Scoping, independent of the tables: a stack of lists of declarations, newest first. The value of a declaration is
its kind and type; the frame offset of a memory declaration is left to the table (`loc`).
-/
namespace Umlcc
namespace ScopeSpec

/-- what the program declares -/
inductive Decl where
  | label (ty : DType)
  | int (ty : DType) (v : Int)
  | mem (ty : DType)
  deriving DecidableEq

abbrev Frame := List (Name × Decl)
abbrev Stack := List Frame

/-- the declaration of `n` in a frame -/
def inFrame (f : Frame) (n : Name) : Option Decl := (f.find? (fun p => p.1 == n)).map (·.2)

/-- the innermost declaration of `n` -/
def visible (st : Stack) (n : Name) : Option Decl := st.findSome? (fun f => inFrame f n)

/-- declare in the innermost frame; refused if already declared there -/
def declare (st : Stack) (n : Name) (d : Decl) : Option Stack :=
  match st with
  | [] => none
  | f :: fs => if (inFrame f n).isSome then none else some (((n, d) :: f) :: fs)

/-- one step: new stack, and whether something was declared -/
def step (st : Stack) : SOp → Stack × Bool
  | .enter => ([] :: st, false)
  | .exit => (st.tail, false)
  | .label n ty => match declare st n (.label ty) with | some s => (s, true) | none => (st, false)
  | .int n ty v => match declare st n (.int ty v) with | some s => (s, true) | none => (st, false)
  | .mem n ty => match declare st n (.mem ty) with | some s => (s, true) | none => (st, false)

def run (st : Stack) : List SOp → Stack × List Bool
  | [] => (st, [])
  | o :: os =>
    let (st, b) := step st o
    let (st, bs) := run st os
    (st, b :: bs)

/-- histories in which every exit closes a scope opened in the history -/
def wellBracketed : Nat → List SOp → Bool
  | _, [] => true
  | d, .enter :: os => wellBracketed (d + 1) os
  | 0, .exit :: _ => false
  | d + 1, .exit :: os => wellBracketed d os
  | d, _ :: os => wellBracketed d os

/-- histories in which every scope opened is closed, from depth `d` back to depth 0 -/
def balanced : Nat → List SOp → Bool
  | d, [] => d == 0
  | d, .enter :: os => balanced (d + 1) os
  | 0, .exit :: _ => false
  | d + 1, .exit :: os => balanced d os
  | d, _ :: os => balanced d os

/-- the declaration a symbol stands for -/
def declOf (s : Symbol) : Decl :=
  match s.kind with
  | .label => .label s.dtype
  | .int v => .int s.dtype v
  | .mem _ => .mem s.dtype

end ScopeSpec
end Umlcc
