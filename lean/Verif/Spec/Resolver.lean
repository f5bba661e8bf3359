import Verif.Model.Resolver
import Verif.Spec.Syntax
/-!
Vocabulary for statements about the resolver.
-/
namespace Umlcc
namespace Res

/-- outcome of a part of the resolver when the depth of calls is not limiting -/
def Runs (f : Rec → RM α) (s : RState) (o : Out (Option α × RState)) : Prop := ∃ N, ∀ n, N ≤ n → f (resolver n) s = o

/-- outcome of the resolver on a translation unit when the depth of calls is not limiting -/
def Resolves (a : Ast) (o : Out (Option (List SExt))) : Prop := ∃ N, ∀ n, N ≤ n → resolve n a = o

/-! ### enumerators -/

/-- constants the compiler accepts: literals and names of enumerators -/
inductive Const where
  | int (l : ILit)
  | char (l : ILit)
  | ref (n : Str)

/-- as an expression -/
def Const.expr : Const → Syn.Expr
  | .int l => .int l
  | .char l => .char l
  | .ref n => .ident n

/-- its value, when `env` gives the values of the names that are enumerators -/
def Const.value (env : Str → Option Int) : Const → Option Int
  | .int l | .char l => if l.type.isUnsigned then none else some l.value
  | .ref n => env n

/-- C11 6.7.2.2p3: the values of the enumerators when the next one without a value of its own is `next` -/
def enumerate (env : Str → Option Int) (next : Int) : List (Str × Option Const) → Option (List (Str × Int))
  | [] => some []
  | (n, c) :: es => do
    let v ← match c with
      | none => some next
      | some c => c.value env
    let vs ← enumerate (fun m => if m = n then some v else env m) (v + 1) es
    pure ((n, v) :: vs)

/-- an enumerator list, not empty -/
def enumsOf : (Str × Option Const) → List (Str × Option Const) → Syn.Enums
  | (n, none), [] => .one n
  | (n, some c), [] => .oneV n c.expr
  | (n, none), e :: es => .cons n (enumsOf e es)
  | (n, some c), e :: es => .consV n c.expr (enumsOf e es)

/-! ### labels, break and continue -/

mutual
/-- the values of the case labels that belong to the innermost switch around the statement (those of inner switches do not) -/
def caseLabels : Syn.Stmt → List Int
  | .case (.int l) s | .case (.char l) s => l.value :: caseLabels s
  | .case _ s | .default s | .ifS _ s | .while _ s | .forD _ _ _ s | .forE _ _ _ s => caseLabels s
  | .ifElse _ s t => caseLabels s ++ caseLabels t
  | .block is => caseLabelsI is
  | .switch _ _ | .continue | .break | .ret | .retE _ | .expr _ | .null => []
def caseLabelsI : Syn.Items → List Int
  | .nil => []
  | .decl _ is => caseLabelsI is
  | .stmt s is => caseLabels s ++ caseLabelsI is
end

mutual
/-- the number of default labels that belong to the innermost switch around the statement -/
def defaultLabels : Syn.Stmt → Nat
  | .default s => 1 + defaultLabels s
  | .case _ s | .ifS _ s | .while _ s | .forD _ _ _ s | .forE _ _ _ s => defaultLabels s
  | .ifElse _ s t => defaultLabels s + defaultLabels t
  | .block is => defaultLabelsI is
  | .switch _ _ | .continue | .break | .ret | .retE _ | .expr _ | .null => 0
def defaultLabelsI : Syn.Items → Nat
  | .nil => 0
  | .decl _ is => defaultLabelsI is
  | .stmt s is => defaultLabels s + defaultLabelsI is
end

mutual
/-- C11 6.8.4.2p3 and 6.8.6: `loop` and `sw` tell whether there is a loop or a switch around the statement; `vd` whether the function returns nothing -/
def LabelsOk (vd : Bool) (loop sw : Bool) : Syn.Stmt → Prop
  | .case _ s | .default s => sw = true ∧ LabelsOk vd loop sw s
  | .continue => loop = true
  | .break => loop = true ∨ sw = true
  | .switch _ s => LabelsOk vd loop true s ∧ (caseLabels s).Nodup ∧ defaultLabels s ≤ 1
  | .while _ s | .forD _ _ _ s | .forE _ _ _ s => LabelsOk vd true sw s
  | .ifS _ s => LabelsOk vd loop sw s
  | .ifElse _ s t => LabelsOk vd loop sw s ∧ LabelsOk vd loop sw t
  | .block is => LabelsOkI vd loop sw is
  | .ret => vd = true
  | .retE _ => vd = false
  | .expr _ | .null => True
def LabelsOkI (vd : Bool) (loop sw : Bool) : Syn.Items → Prop
  | .nil => True
  | .decl _ is => LabelsOkI vd loop sw is
  | .stmt s is => LabelsOk vd loop sw s ∧ LabelsOkI vd loop sw is
end

/-- an expression that has an integer type when the names have the meanings `env`, and defines nothing -/
def IntExpr (env : Str → Option RSym) (e : Syn.Expr) : Prop :=
  ∃ x : SExpr, x.dt.isInteger = true ∧ ∀ s, (∀ n, lookup n s.syms = env n) → Runs (·.expr e.ast) s (.ok (some x, s))

def optInt (env : Str → Option RSym) : Option Syn.Expr → Prop
  | some e => IntExpr env e
  | none => True

mutual
/-- all expressions are of that kind, case labels are literals with a signed type, and there are no declarations -/
def Plain (env : Str → Option RSym) : Syn.Stmt → Prop
  | .case (.int l) s => l.type.isUnsigned = false ∧ Plain env s
  | .case (.char l) s => l.type.isUnsigned = false ∧ Plain env s
  | .case _ _ | .forD _ _ _ _ => False
  | .default s => Plain env s
  | .block is => PlainI env is
  | .continue | .break | .ret | .null => True
  | .retE e | .expr e => IntExpr env e
  | .ifS c s | .switch c s | .while c s => IntExpr env c ∧ Plain env s
  | .ifElse c s t => IntExpr env c ∧ Plain env s ∧ Plain env t
  | .forE i c st s => optInt env i ∧ optInt env c ∧ optInt env st ∧ Plain env s
def PlainI (env : Str → Option RSym) : Syn.Items → Prop
  | .nil => True
  | .decl _ _ => False
  | .stmt s is => Plain env s ∧ PlainI env is
end

end Res
end Umlcc
