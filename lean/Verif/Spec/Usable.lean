import Verif.Spec.Plain
import Verif.Spec.Tidy
/-!
The part of C for whose allocated code the machine code generator finds a translation (property C74): shift counts are literals, the value of a call of a `void` function is not used,
and no function is called by the name of a local object.

Nothing here mentions the generators.
-/
namespace Umlcc
namespace Tidy

/-- not the address of an object in `L` -/
def callee (L : List Str) : SExpr → Bool
  | .un .addr _ (.ident _ n) => !L.contains n
  | _ => true

mutual
/-- an expression whose value is used: `c` tells whether it may contain calls, `L` are the names of the objects of the function -/
def usable (c : Bool) (L : List Str) : SExpr → Bool
  | .ident _ _ | .str _ _ | .ilit _ _ => true
  | .bin op _ l r => usable c L l && usable c L r && (decide (op ≠ .lshift ∧ op ≠ .rshift) || (Plain.litVal r).isSome)
  | .cond _ d l r => usable c L d && usable c L l && usable c L r
  | .un _ _ e => usable c L e
  | .call t f as => c && !t.isVoid && callee L f && usable c L f && usableArgs c L as
  | .tomember _ e _ _ => usable c L e
def usableArgs (c : Bool) (L : List Str) : SArgs → Bool
  | .nil => true
  | .cons e as => usable c L e && usableArgs c L as
end

/-- an expression whose value is not used: the function called may be `void` -/
def usableEff (c : Bool) (L : List Str) : SExpr → Bool
  | .call _ f as => c && callee L f && usable c L f && usableArgs c L as
  | e => usable c L e

mutual
def usableInit (c : Bool) (L : List Str) : SInit → Bool
  | .expr e => usable c L e
  | .str _ _ => true
  | .list is => usableInits c L is
def usableInits (c : Bool) (L : List Str) : SInits → Bool
  | .nil => true
  | .cons i is => usableInit c L i && usableInits c L is
end

/-- a declaration of an object is one of those in `L` -/
def listed (L : List Str) (d : SDecl) : Bool :=
  match d.who with
  | .ident n => !d.dt.isObject || L.contains n
  | .str _ => true

mutual
def usableStmt (c : Bool) (L : List Str) : SStmt → Bool
  | .cmpd is => usableAll c L is
  | .case _ s | .dflt s => usableStmt c L s
  | .cont | .brk | .null | .ret none => true
  | .ret (some e) => usable c L e
  | .expr e => usableEff c L e
  | .ite d t => usable c L d && usableStmt c L t
  | .itee d t e => usable c L d && usableStmt c L t && usableStmt c L e
  | .switch d b | .while d b => usable c L d && usableStmt c L b
  | .for i d n b => usableItem c L i && usableCond c L d && usableStmt c L n && usableStmt c L b
/-- the condition of a `for` -/
def usableCond (c : Bool) (L : List Str) : SStmt → Bool
  | .expr e => usable c L e
  | _ => true
def usableItem (c : Bool) (L : List Str) : SItem → Bool
  | .stmt s => usableStmt c L s
  | .decls ds => ds.all fun d => listed L d && d.init.all (usableInit c L)
  | .tag _ _ => true
def usableAll (c : Bool) (L : List Str) : SItems → Bool
  | .nil => true
  | .cons i is => usableItem c L i && usableAll c L is
end

/-- names of parameters -/
def paramNames : Params → List Str
  | .nil => []
  | .cons (some n) _ ps => n :: paramNames ps
  | .cons none _ ps => paramNames ps

mutual
/-- names of the objects declared in a statement -/
def names : SStmt → List Str
  | .cmpd is => namesAll is
  | .case _ s | .dflt s | .ite _ s | .switch _ s | .while _ s => names s
  | .itee _ t e => names t ++ names e
  | .for i _ n b => namesItem i ++ names n ++ names b
  | _ => []
def namesItem : SItem → List Str
  | .stmt s => names s
  | .decls ds => ds.filterMap fun d => match d.who with
    | .ident n => if d.dt.isObject then some n else none
    | .str _ => none
  | .tag _ _ => []
def namesAll : SItems → List Str
  | .nil => []
  | .cons i is => namesItem i ++ namesAll is
end

/-- the functions of a translation unit -/
def usableExt (c : Bool) : SExt → Bool
  | .func _ t b => match t with
    | .func ps _ => usableAll c (paramNames ps ++ namesAll b) b
    | _ => true
  | _ => true

/-- Functions that get registers and machine code: tidy (C73) and usable. Around a call, the registers in use are saved in the five registers
a function has to preserve, so functions with calls may keep five values at most. -/
def goodExt (x : SExt) : Bool := tidyExt 5 x && usableExt true x || tidyExt 7 x && usableExt false x

end Tidy
end Umlcc
