import Verif.Spec.Program
/-!
The functions of a translation unit, each with what is in scope where it is defined.
-/
namespace Umlcc
namespace CStm

/-- a name declared outside of functions, at its address; declared again it is the same -/
def outerName (sym : Name → BitVec 64) (n : Str) (V : Vars) : Option Vars :=
  if isNew n V.names then
    if h : ∀ b ∈ n, b.toNat < 128 then some { V with names := add n (sym ⟨n, h⟩) V.names } else none
  else some V

/-- what is declared; a string literal has a name no identifier is equal to -/
def declName : SWho → Str
  | .ident n => n
  | .str id => (Gen.stringName id).val

/-- declarations outside of functions -/
def outerDecls (sym : Name → BitVec 64) : List SDecl → Vars → Option Vars
  | [], V => some V
  | d :: ds, V => do
    let V ← outerName sym (declName d.who) V
    outerDecls sym ds V

/-- what is in scope after a part of the translation unit -/
def outer (sym : Name → BitVec 64) : SExt → Vars → Option Vars
  | .func f _ _, V => outerName sym f V
  | .decls ds, V => outerDecls sym ds V
  | .tag n t, V => do
    CSem.need (laidOut t = true)
    declareTag n t V

/-- the functions defined; `size` is the number of bytes for the objects of each -/
def fnsOf (sym : Name → BitVec 64) (size : Name → Nat) : List SExt → Vars → Option (List Fn)
  | [], _ => some []
  | x :: xs, V => do
    let V' ← outer sym x V
    let fs ← fnsOf sym size xs V'
    match x with
    | .func f (.func ps rt) b => if h : ∀ c ∈ f, c.toNat < 128 then some (⟨⟨f, h⟩, ps, rt, b, V, size ⟨f, h⟩⟩ :: fs) else none
    | .func _ _ _ => none
    | _ => some fs

/-- nothing is in scope at the beginning -/
def noVars : Vars := ⟨[[]], [[]], 0⟩

/-- number of parameters -/
def paramCount : Params → Nat
  | .nil => 0
  | .cons _ _ ps => paramCount ps + 1

end CStm
end Umlcc
