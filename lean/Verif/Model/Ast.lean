import Verif.Model.Lexer
/-!
Model of `src/ast/ast.h`, `src/ast/ast.c`: the untyped syntax tree.
-/
namespace Umlcc

/-- `AstType`, ast.h:9-131, in that order -/
inductive AstT where
  | trasUnit | funcDef
  | decl | declSpecs | specQualList | initDeclorList | initDeclor
  | stgTypedef
  | typeVoid | typeChar | typeInt | typeLong | typeUnsigned | typeStruct | typeEnum | typedefName | typeName
  | structName | structDeclList | structDecl | structDeclorList
  | enumName | enumorList | enumor | enumConst
  | identDeclor | absDeclor | ptrDeclor | arrayDeclor | funcDeclor | paramList | paramDecl
  | initList
  | cmpdStmt | caseStmt | defaultStmt | continueStmt | breakStmt | retStmt | exprStmt | nullStmt | ifStmt | switchStmt
  | whileStmt | forStmt
  | assign | mulAssign | divAssign | modAssign | addAssign | subAssign | lshiftAssign | rshiftAssign | andAssign | xorAssign
  | orAssign
  | cond | lor | land | or | xor | and | equal | nequal | less | greater | lesseq | greatereq | lshift | rshift
  | add | sub | mul | div | mod | cast
  | preinc | predec | addr | indir | pos | neg | not | lnot | sizeof
  | subsc | call | member | tomember | postinc | postdec | argList
  | identExpr | intExpr | charExpr | stringExpr
  deriving DecidableEq, Repr

/-- `Ast`, ast.h:133-139: a NULL member is `none` -/
inductive Ast where
  | mk (type : AstT) (ident : Option (List UInt8)) (ilit : Option ILit) (slit : Option (List UInt8)) (children : List Ast)

namespace Ast

def type : Ast → AstT | mk t _ _ _ _ => t
def children : Ast → List Ast | mk _ _ _ _ cs => cs

/-- `new_ast`, ast.c:14-25 -/
def node (t : AstT) (cs : List Ast) : Ast := mk t none none none cs
/-- `new_identifier_ast`, ast.c:27-31 -/
def name (t : AstT) (n : List UInt8) : Ast := mk t (some n) none none []
/-- `new_iliteral_ast`, ast.c:33-37 -/
def lit (t : AstT) (l : ILit) : Ast := mk t none (some l) none []
/-- `new_sliteral_ast`, ast.c:39-43 -/
def strlit (t : AstT) (s : List UInt8) : Ast := mk t none none (some s) []

/-- `vector_push(ast->children, child)` -/
def push : Ast → Ast → Ast
  | mk t i l s cs, c => mk t i l s (cs ++ [c])

/-- Walks down the first children of a declarator to the node whose first child has type `t`, and replaces that child `x` by `f x`:
parser/declaration.c:572-585 and 674-683 with 749-756. No first child: NULL dereference. -/
def mapTerm (t : AstT) (f : Ast → Ast) : Ast → Out Ast
  | mk _ _ _ _ [] => .ub
  | mk ty i l s (c :: cs) =>
    if c.type = t then .ok (mk ty i l s (f c :: cs))
    else do let c' ← mapTerm t f c; pure (mk ty i l s (c' :: cs))

/-- the child found by that walk -/
def term (t : AstT) : Ast → Out Ast
  | mk _ _ _ _ [] => .ub
  | mk _ _ _ _ (c :: _) => if c.type = t then .ok c else term t c

end Ast
end Umlcc
