import Verif.Spec.Resolver
/-!
C28: what C11 6.7.9 says about brace-enclosed initialisers, for integer values and without strings and designators.
-/
namespace Umlcc
namespace Ini
open Syn

mutual
/-- an object as initialisers see it: a scalar or a sequence of subobjects -/
inductive Shape where
  | leaf (t : DType)
  | node (ks : Shapes)
inductive Shapes where
  | nil
  | cons (k : Shape) (ks : Shapes)
end

mutual
/-- what the subobjects are set to: a scalar to the value of an expression or to zero -/
inductive Tree where
  | val (t : DType) (e : Expr)
  | zero (t : DType)
  | node (ts : Trees)
inductive Trees where
  | nil
  | cons (t : Tree) (ts : Trees)
end

mutual
def zeros : Shape → Tree
  | .leaf t => .zero t
  | .node ks => .node (zerosL ks)
def zerosL : Shapes → Trees
  | .nil => .nil
  | .cons k ks => .cons (zeros k) (zerosL ks)
end

/-- the initialisers between braces -/
def listOf : Inits → List Init
  | .one i => [i]
  | .cons i is => i :: listOf is

/-- 6.7.9p11: a scalar is set from a single expression, optionally in braces -/
def scalar (t : DType) : Init → Option Tree
  | .expr e => if t.isArithmetic then some (.val t e) else none
  | .list (.one (.expr e)) => if t.isArithmetic then some (.val t e) else none
  | .list _ => none

mutual
/-- 6.7.9p17-p21: the subobject takes what it needs from the rest of the list; what it leaves is for the following subobjects -/
def take : Shape → List Init → Option (Tree × List Init)
  | .leaf t, [] => some (.zero t, [])
  | .leaf t, i :: l => (scalar t i).map (·, l)
  | .node ks, l => (takeL ks l).map fun p => (.node p.1, p.2)
/-- the subobjects in order. A subobject whose turn comes at an opening brace takes all of that list and no more; when the list is used up the rest is zero. -/
def takeL : Shapes → List Init → Option (Trees × List Init)
  | .nil, l => some (.nil, l)
  | .cons k ks, [] => some (zerosL (.cons k ks), [])
  | .cons (.node ks') ks, .list is :: l =>
    match takeL ks' (listOf is) with
    | some (ts, []) => (takeL ks l).map fun p => (.cons (.node ts) p.1, p.2)
    | _ => none
  | .cons k ks, i :: l =>
    match take k (i :: l) with
    | some (t, l') => (takeL ks l').map fun p => (.cons t p.1, p.2)
    | none => none
end

/-- the initialiser of a declared object -/
def object : Shape → Init → Option Tree
  | .leaf t, i => scalar t i
  | .node ks, .list is =>
    match takeL ks (listOf is) with
    | some (ts, []) => some (.node ts)
    | _ => none
  | .node _, .expr _ => none

/-- the types of the members -/
def memberTypes : Members → List DType
  | .nil => []
  | .cons _ t _ ms => t :: memberTypes ms

mutual
/-- the objects of type `t` have the shape; `tags` gives the meaning of struct tags. Scalars are `char`, `int` and pointers here. -/
def HasShape (tags : Str → Option DType) : Shape → DType → Prop
  | .leaf t, t' => t' = t ∧ (t = .char ∨ t = .int ∨ ∃ u, t = .ptr u)
  | .node ks, t' => (∃ t n, t' = .arr t n ∧ HasShapes tags ks (List.replicate n t)) ∨ (∃ ms b a, t' = .ustruct ms b a ∧ HasShapes tags ks (memberTypes ms)) ∨
      ∃ n b a ms b' a', t' = .nstruct n b a ∧ tags n = some (.ustruct ms b' a') ∧ HasShapes tags ks (memberTypes ms)
def HasShapes (tags : Str → Option DType) : Shapes → List DType → Prop
  | .nil, ts => ts = []
  | .cons k ks, t :: ts => HasShape tags k t ∧ HasShapes tags ks ts
  | .cons _ _, [] => False
end

/-- meanings of names and tags -/
abbrev Env := (Str → Option Res.RSym) × (Str → Option DType)

/-- the expression means the integer `x` when names and tags have the meanings `env` (and has no effect on the tables) -/
def Means (env : Env) (e : Expr) (x : SExpr) : Prop :=
  x.dt.isInteger = true ∧ ∀ s, (∀ n, Res.lookup n s.syms = env.1 n) → (∀ n, Res.lookup n s.tags = env.2 n) → Res.Runs (·.expr e.ast) s (.ok (some x, s))

mutual
/-- all expressions mean integers -/
def PlainInit (env : Env) : Init → Prop
  | .expr e => ∃ x, Means env e x
  | .list is => PlainInits env is
def PlainInits (env : Env) : Inits → Prop
  | .one i => PlainInit env i
  | .cons i is => PlainInit env i ∧ PlainInits env is
end

/-- a value converted to the type of the scalar -/
def conv (t : DType) (x : SExpr) : SExpr := if t = x.dt then x else .un .cast t x

mutual
/-- the typed tree says to set the object like that -/
def Sets (env : Env) : Tree → SInit → Prop
  | .val t e, .expr y => ∃ x, Means env e x ∧ y = conv t x
  | .zero t, .expr y => y = conv t (.ilit .int ⟨.int, 0⟩)
  | .node ts, .list is => SetsL env ts is
  | _, _ => False
def SetsL (env : Env) : Trees → SInits → Prop
  | .nil, .nil => True
  | .cons t ts, .cons i is => Sets env t i ∧ SetsL env ts is
  | _, _ => False
end

end Ini
end Umlcc
