import Verif.Model.DType
import Verif.Model.Lexer
/-!
C's types with pointers, arrays and functions, and how C spells a declaration of a name with such a type (C11 6.7.6). Independent of parser and resolver.
-/
namespace Umlcc
namespace Cdecl

/-- types spelled by type specifiers; `strct` is a struct tag -/
inductive Base where
  | void | char | int | uint | long | ulong | llong | ullong
  | strct (tag : List UInt8)

mutual
inductive CTy where
  | base (b : Base)
  /-- pointer to `t` -/
  | ptr (t : CTy)
  /-- array of `n` elements of type `t` -/
  | arr (t : CTy) (n : Nat)
  /-- function with parameters `ps` returning `t` -/
  | fn (t : CTy) (ps : CParams)
inductive CParams where
  | nil
  | cons (name : Option (List UInt8)) (t : CTy) (ps : CParams)
end

def Base.toks : Base → List Tok
  | .void => [.kw .kvoid] | .char => [.kw .kchar] | .int => [.kw .kint] | .uint => [.kw .kunsigned, .kw .kint]
  | .long => [.kw .klong] | .ulong => [.kw .kunsigned, .kw .klong] | .llong => [.kw .klong, .kw .klong]
  | .ullong => [.kw .klong, .kw .kunsigned, .kw .klong, .kw .kint]
  | .strct n => [.kw .kstruct, .ident n]

/-- an optional name -/
def nameToks : Option (List UInt8) → List Tok
  | some n => [.ident n]
  | none => []

/-- in front of `[...]` and `(...)`, a declarator that begins with `*` needs parentheses -/
def paren (star : Bool) (x : List Tok) : List Tok := if star then .punct .lparen :: (x ++ [.punct .rparen]) else x

mutual
/-- Spelling of a declaration of the declarator `x`, which begins with `*` if `star`, with type `t`: "declaration mirrors use".
A pointer is declared by declaring `*x` with the type pointed to, an array by declaring `x[n]` with the element type, a function by declaring `x(ps)` with the
return type. -/
def CTy.spell : CTy → List Tok → Bool → List Tok
  | .base b, x, _ => b.toks ++ x
  | .ptr t, x, _ => t.spell (.punct .asterisk :: x) true
  | .arr t n, x, star => t.spell (paren star x ++ [.punct .lbracket, .int ⟨.int, n⟩, .punct .rbracket]) false
  | .fn t ps, x, star => t.spell (paren star x ++ .punct .lparen :: (ps.spell ++ [.punct .rparen])) false
/-- parameter lists: `void` if there are none -/
def CParams.spell : CParams → List Tok
  | .nil => [.kw .kvoid]
  | .cons n t .nil => t.spell (nameToks n) false
  | .cons n t ps => t.spell (nameToks n) false ++ .punct .comma :: ps.spell
end

def Base.dt : Base → DType
  | .void => .void | .char => .char | .int => .int | .uint => .uint | .long => .long | .ulong => .ulong | .llong => .llong | .ullong => .ullong
  | .strct n => .nstruct n 0 0

/-- C11 6.7.6.3p7, p8: parameters of array and function type -/
def adjust : CTy → DType → DType
  | .arr _ _, .arr t _ => .ptr t
  | .fn _ _, t => .ptr t
  | _, t => t

mutual
/-- the type as the compiler represents it -/
def CTy.dt : CTy → DType
  | .base b => b.dt
  | .ptr t => .ptr t.dt
  | .arr t n => .arr t.dt n
  | .fn t ps => .func ps.dt t.dt
def CParams.dt : CParams → Params
  | .nil => .nil
  | .cons n t ps => .cons n (adjust t t.dt) ps.dt
end

/-- not `void` and not a struct that is only named -/
def CTy.complete : CTy → Bool
  | .base .void | .base (.strct _) => false
  | _ => true

def CTy.isFn : CTy → Bool
  | .fn _ _ => true
  | _ => false
def CTy.isArr : CTy → Bool
  | .arr _ _ => true
  | _ => false
def CTy.isStrct : CTy → Bool
  | .base (.strct _) => true
  | _ => false

def CParams.names : CParams → List (List UInt8)
  | .nil => []
  | .cons (some n) _ ps => n :: ps.names
  | .cons none _ ps => ps.names

mutual
/-- C11 6.7.6.2p1: elements of arrays have complete object types; sizes are positive (and fit in an `int`). 6.7.6.3p1: no functions returning functions or
arrays; 6.7.6.3p4: parameters have complete types. A struct that is returned is complete (C requires this only in definitions and calls). -/
def CTy.wf : CTy → Prop
  | .base _ => True
  | .ptr t => t.wf
  | .arr t n => t.wf ∧ t.complete = true ∧ t.isFn = false ∧ 0 < n ∧ n < 2147483648
  | .fn t ps => t.wf ∧ t.isFn = false ∧ t.isArr = false ∧ t.isStrct = false ∧ ps.wf ∧ ps.names.Nodup
def CParams.wf : CParams → Prop
  | .nil => True
  | .cons _ t ps => t.wf ∧ t.complete = true ∧ ps.wf
end

mutual
/-- sizes are small, and no parameter list is just an unnamed `void` (whose spelling means no parameters) -/
def CTy.plain : CTy → Prop
  | .base _ => True
  | .ptr t => t.plain
  | .arr t n => t.plain ∧ n < 2147483648
  | .fn t ps => t.plain ∧ ps.plain ∧ ps ≠ .cons none (.base .void) .nil
def CParams.plain : CParams → Prop
  | .nil => True
  | .cons _ t ps => t.plain ∧ ps.plain
end

end Cdecl
end Umlcc
