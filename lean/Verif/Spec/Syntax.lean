import Verif.Model.Ast
/-!
The language as C's grammar describes it: trees, their spelling as tokens (with parentheses only where the grammar needs
them) and the syntax trees (`Ast`) they should be parsed to. Independent of the parser.
-/
namespace Umlcc
namespace Syn

abbrev Id := List UInt8

/-- binary operators -/
inductive BinOp where
  | lor | land | or | xor | and | eq | ne | lt | gt | le | ge | shl | shr | add | sub | mul | div | mod
  deriving DecidableEq, Repr

/-- C11 6.5.5 - 6.5.14: 0 is logical or, 9 the multiplicative operators -/
def BinOp.lvl : BinOp → Nat
  | lor => 0 | land => 1 | or => 2 | xor => 3 | and => 4 | eq | ne => 5 | lt | gt | le | ge => 6 | shl | shr => 7
  | add | sub => 8 | mul | div | mod => 9

def BinOp.tok : BinOp → Tok
  | lor => .punct .vbarVbar | land => .punct .andAnd | or => .punct .vbar | xor => .punct .caret | and => .punct .and
  | eq => .punct .equalEqual | ne => .punct .exclamEqual | lt => .punct .less | gt => .punct .greater | le => .punct .lessEqual
  | ge => .punct .greaterEqual | shl => .punct .lessLess | shr => .punct .greaterGreater | add => .punct .plus
  | sub => .punct .minus | mul => .punct .asterisk | div => .punct .slash | mod => .punct .percent

def BinOp.node : BinOp → AstT
  | lor => .lor | land => .land | or => .or | xor => .xor | and => .and | eq => .equal | ne => .nequal | lt => .less
  | gt => .greater | le => .lesseq | ge => .greatereq | shl => .lshift | shr => .rshift | add => .add | sub => .sub
  | mul => .mul | div => .div | mod => .mod

/-- prefix operators on cast expressions -/
inductive UnOp where
  | addr | indir | pos | neg | not | lnot
  deriving DecidableEq, Repr

def UnOp.tok : UnOp → Tok
  | addr => .punct .and | indir => .punct .asterisk | pos => .punct .plus | neg => .punct .minus | not => .punct .tilde
  | lnot => .punct .exclam

def UnOp.node : UnOp → AstT
  | addr => .addr | indir => .indir | pos => .pos | neg => .neg | not => .not | lnot => .lnot

/-- assignment operators -/
inductive AsgOp where
  | asg | mul | div | mod | add | sub | shl | shr | and | xor | or
  deriving DecidableEq, Repr

def AsgOp.tok : AsgOp → Tok
  | asg => .punct .equal | mul => .punct .asteriskEqual | div => .punct .slashEqual | mod => .punct .percentEqual
  | add => .punct .plusEqual | sub => .punct .minusEqual | shl => .punct .lessLessEqual | shr => .punct .greaterGreaterEqual
  | and => .punct .andEqual | xor => .punct .caretEqual | or => .punct .vbarEqual

def AsgOp.node : AsgOp → AstT
  | asg => .assign | mul => .mulAssign | div => .divAssign | mod => .modAssign | add => .addAssign | sub => .subAssign
  | shl => .lshiftAssign | shr => .rshiftAssign | and => .andAssign | xor => .xorAssign | or => .orAssign

mutual
/-- expressions -/
inductive Expr where
  | ident (n : Id) | int (l : ILit) | char (l : ILit) | str (s : List UInt8)
  | subsc (e i : Expr) | call (f : Expr) (as : Args) | member (e : Expr) (n : Id) | arrow (e : Expr) (n : Id)
  | postinc (e : Expr) | postdec (e : Expr)
  | preinc (e : Expr) | predec (e : Expr) | un (op : UnOp) (e : Expr) | sizeofE (e : Expr) | sizeofT (t : TyName)
  | cast (t : TyName) (e : Expr)
  | bin (op : BinOp) (l r : Expr)
  | cond (c a b : Expr)
  | assign (op : AsgOp) (l r : Expr)
/-- argument lists -/
inductive Args where
  | nil
  | cons (e : Expr) (as : Args)
/-- type names, as in casts -/
inductive TyName where
  | mk (ss : Specs) (d : Dtor)
/-- type specifiers -/
inductive Spec where
  | void | char | int | long | unsigned
  | tdname (n : Id)
  | structRef (n : Id) | structDef (n : Option Id) (ms : MemberL)
  | enumRef (n : Id) | enumDef (n : Option Id) (es : Enums)
/-- lists of type specifiers, not empty -/
inductive Specs where
  | one (s : Spec)
  | cons (s : Spec) (ss : Specs)
/-- What a declarator says about the name in it. `ptr d`: what `d` says, followed by "pointer to". `arr d e`: what `d` says, followed by
"array of `e`". `fn d ps`: what `d` says, followed by "function with parameters `ps` returning". -/
inductive Dtor where
  | leaf
  | ptr (d : Dtor)
  | arr (d : Dtor) (e : Expr)
  | fn (d : Dtor) (ps : ParamL)
/-- parameter lists, not empty -/
inductive ParamL where
  | one (p : ParamD)
  | cons (p : ParamD) (ps : ParamL)
/-- parameters, with or without a name -/
inductive ParamD where
  | mk (ss : Specs) (n : Option Id) (d : Dtor)
/-- member lists of structs, not empty -/
inductive MemberL where
  | one (m : MemberD)
  | cons (m : MemberD) (ms : MemberL)
/-- one line of a struct -/
inductive MemberD where
  | mk (ss : Specs) (ds : NDtors)
/-- declarators with names, not empty -/
inductive NDtors where
  | one (n : Id) (d : Dtor)
  | cons (n : Id) (d : Dtor) (ds : NDtors)
/-- enumerators, not empty -/
inductive Enums where
  | one (n : Id)
  | oneV (n : Id) (e : Expr)
  | cons (n : Id) (es : Enums)
  | consV (n : Id) (e : Expr) (es : Enums)
end

/-- binding strength: 0 assignment, 1 conditional, 2 to 11 the binary levels, 12 casts, 13 unary, 14 postfix, 15 primary -/
def Expr.prec : Expr → Nat
  | .ident _ | .int _ | .char _ | .str _ => 15
  | .subsc _ _ | .call _ _ | .member _ _ | .arrow _ _ | .postinc _ | .postdec _ => 14
  | .preinc _ | .predec _ | .un _ _ | .sizeofE _ | .sizeofT _ => 13
  | .cast _ _ => 12
  | .bin op _ _ => op.lvl + 2
  | .cond _ _ _ => 1
  | .assign _ _ _ => 0

def par (ts : List Tok) : List Tok := .punct .lparen :: ts ++ [.punct .rparen]

/-- parentheses around what binds too weakly -/
def wrap (p : Nat) (e : Expr) (ts : List Tok) : List Tok := if e.prec < p then par ts else ts

/-- the declarator ends in "pointer to" -/
def Dtor.isPtr : Dtor → Bool
  | .ptr _ => true
  | _ => false

def optTok : Option Id → List Tok
  | some n => [.ident n]
  | none => []

mutual
/-- spelling of an expression without outer parentheses -/
def Expr.toks : Expr → List Tok
  | .ident n => [.ident n]
  | .int l => [.int l]
  | .char l => [.char l]
  | .str s => [.str s]
  | .subsc e i => wrap 14 e e.toks ++ .punct .lbracket :: (i.toks ++ [.punct .rbracket])
  | .call f as => wrap 14 f f.toks ++ .punct .lparen :: (as.toks ++ [.punct .rparen])
  | .member e n => wrap 14 e e.toks ++ [.punct .dot, .ident n]
  | .arrow e n => wrap 14 e e.toks ++ [.punct .arrow, .ident n]
  | .postinc e => wrap 14 e e.toks ++ [.punct .plusPlus]
  | .postdec e => wrap 14 e e.toks ++ [.punct .minusMinus]
  | .preinc e => .punct .plusPlus :: wrap 13 e e.toks
  | .predec e => .punct .minusMinus :: wrap 13 e e.toks
  | .un op e => op.tok :: wrap 12 e e.toks
  | .sizeofE e => .kw .ksizeof :: wrap 13 e e.toks
  | .sizeofT t => .kw .ksizeof :: .punct .lparen :: (t.toks ++ [.punct .rparen])
  | .cast t e => .punct .lparen :: (t.toks ++ .punct .rparen :: wrap 12 e e.toks)
  | .bin op l r => wrap (op.lvl + 2) l l.toks ++ op.tok :: wrap (op.lvl + 3) r r.toks
  | .cond c a b => wrap 2 c c.toks ++ .punct .question :: (a.toks ++ .punct .colon :: wrap 1 b b.toks)
  | .assign op l r => wrap 13 l l.toks ++ op.tok :: r.toks
def Args.toks : Args → List Tok
  | .nil => []
  | .cons e .nil => e.toks
  | .cons e as => e.toks ++ .punct .comma :: as.toks
def TyName.toks : TyName → List Tok
  | .mk ss d => ss.toks ++ d.toks []
def Spec.toks : Spec → List Tok
  | .void => [.kw .kvoid] | .char => [.kw .kchar] | .int => [.kw .kint] | .long => [.kw .klong] | .unsigned => [.kw .kunsigned]
  | .tdname n => [.ident n]
  | .structRef n => [.kw .kstruct, .ident n]
  | .structDef n ms => .kw .kstruct :: (optTok n ++ .punct .lbrace :: (ms.toks ++ [.punct .rbrace]))
  | .enumRef n => [.kw .kenum, .ident n]
  | .enumDef n es => .kw .kenum :: (optTok n ++ .punct .lbrace :: (es.toks ++ [.punct .rbrace]))
def Specs.toks : Specs → List Tok
  | .one s => s.toks
  | .cons s ss => s.toks ++ ss.toks
/-- spelling of a declarator around the spelling of the name -/
def Dtor.toks : Dtor → List Tok → List Tok
  | .leaf, x => x
  | .ptr d, x => .punct .asterisk :: d.toks x
  | .arr d e, x => (if d.isPtr then par (d.toks x) else d.toks x) ++ .punct .lbracket :: (wrap 1 e e.toks ++ [.punct .rbracket])
  | .fn d ps, x => (if d.isPtr then par (d.toks x) else d.toks x) ++ .punct .lparen :: (ps.toks ++ [.punct .rparen])
def ParamL.toks : ParamL → List Tok
  | .one p => p.toks
  | .cons p ps => p.toks ++ .punct .comma :: ps.toks
def ParamD.toks : ParamD → List Tok
  | .mk ss n d => ss.toks ++ d.toks (optTok n)
def MemberL.toks : MemberL → List Tok
  | .one m => m.toks
  | .cons m ms => m.toks ++ ms.toks
def MemberD.toks : MemberD → List Tok
  | .mk ss ds => ss.toks ++ (ds.toks ++ [.punct .semicolon])
def NDtors.toks : NDtors → List Tok
  | .one n d => d.toks [.ident n]
  | .cons n d ds => d.toks [.ident n] ++ .punct .comma :: ds.toks
def Enums.toks : Enums → List Tok
  | .one n => [.ident n]
  | .oneV n e => .ident n :: .punct .equal :: wrap 1 e e.toks
  | .cons n es => .ident n :: .punct .comma :: es.toks
  | .consV n e es => .ident n :: .punct .equal :: (wrap 1 e e.toks ++ .punct .comma :: es.toks)
end

def optName (t : AstT) : Option Id → List Ast
  | some n => [.name t n]
  | none => []

mutual
/-- the tree an expression should be parsed to -/
def Expr.ast : Expr → Ast
  | .ident n => .name .identExpr n
  | .int l => .lit .intExpr l
  | .char l => .lit .charExpr l
  | .str s => .strlit .stringExpr s
  | .subsc e i => .node .subsc [e.ast, i.ast]
  | .call f as => .node .call [f.ast, .node .argList as.asts]
  | .member e n => .node .member [e.ast, .name .identExpr n]
  | .arrow e n => .node .tomember [e.ast, .name .identExpr n]
  | .postinc e => .node .postinc [e.ast]
  | .postdec e => .node .postdec [e.ast]
  | .preinc e => .node .preinc [e.ast]
  | .predec e => .node .predec [e.ast]
  | .un op e => .node op.node [e.ast]
  | .sizeofE e => .node .sizeof [e.ast]
  | .sizeofT t => .node .sizeof [t.ast]
  | .cast t e => .node .cast [t.ast, e.ast]
  | .bin op l r => .node op.node [l.ast, r.ast]
  | .cond c a b => .node .cond [c.ast, a.ast, b.ast]
  | .assign op l r => .node op.node [l.ast, r.ast]
def Args.asts : Args → List Ast
  | .nil => []
  | .cons e as => e.ast :: as.asts
def TyName.ast : TyName → Ast
  | .mk ss d => .node .typeName [.node .specQualList ss.asts, d.ast (.node .absDeclor [])]
def Spec.ast : Spec → Ast
  | .void => .node .typeVoid [] | .char => .node .typeChar [] | .int => .node .typeInt [] | .long => .node .typeLong []
  | .unsigned => .node .typeUnsigned []
  | .tdname n => .name .typedefName n
  | .structRef n => .node .typeStruct [.name .structName n]
  | .structDef n ms => .node .typeStruct (optName .structName n ++ [.node .structDeclList ms.asts])
  | .enumRef n => .node .typeEnum [.name .enumName n]
  | .enumDef n es => .node .typeEnum (optName .enumName n ++ [.node .enumorList es.asts])
def Specs.asts : Specs → List Ast
  | .one s => [s.ast]
  | .cons s ss => s.ast :: ss.asts
/-- the declarator's tree: the part nearest to the name is the root, `x` is the name's node -/
def Dtor.ast : Dtor → Ast → Ast
  | .leaf, x => x
  | .ptr d, x => d.ast (.node .ptrDeclor [x])
  | .arr d e, x => d.ast (.node .arrayDeclor [x, e.ast])
  | .fn d ps, x => d.ast (.node .funcDeclor [x, .node .paramList ps.asts])
def ParamL.asts : ParamL → List Ast
  | .one p => [p.ast]
  | .cons p ps => p.ast :: ps.asts
def ParamD.ast : ParamD → Ast
  | .mk ss (some n) d => .node .paramDecl [.node .declSpecs ss.asts, d.ast (.name .identDeclor n)]
  | .mk ss none d => .node .paramDecl [.node .declSpecs ss.asts, d.ast (.node .absDeclor [])]
def MemberL.asts : MemberL → List Ast
  | .one m => [m.ast]
  | .cons m ms => m.ast :: ms.asts
def MemberD.ast : MemberD → Ast
  | .mk ss ds => .node .structDecl [.node .specQualList ss.asts, .node .structDeclorList ds.asts]
def NDtors.asts : NDtors → List Ast
  | .one n d => [d.ast (.name .identDeclor n)]
  | .cons n d ds => d.ast (.name .identDeclor n) :: ds.asts
def Enums.asts : Enums → List Ast
  | .one n => [.node .enumor [.name .enumConst n]]
  | .oneV n e => [.node .enumor [.name .enumConst n, e.ast]]
  | .cons n es => .node .enumor [.name .enumConst n] :: es.asts
  | .consV n e es => .node .enumor [.name .enumConst n, e.ast] :: es.asts
end

/-- the first specifier is a typedef name -/
def Specs.startsTd : Specs → Bool
  | .one (.tdname _) | .cons (.tdname _) _ => true
  | _ => false
def ParamL.startsTd : ParamL → Bool
  | .one (.mk ss _ _) | .cons (.mk ss _ _) _ => ss.startsTd

/-- A declarator without a name that is just a parameter list may not start with a typedef name: `int (T)`. -/
def Dtor.absOk : Dtor → Bool
  | .leaf => true
  | .ptr d | .arr d _ => d.absOk
  | .fn .leaf ps => !ps.startsTd
  | .fn d _ => d.absOk

mutual
/-- names are used consistently with the set of typedef names: identifiers in expressions and names being declared are not typedef names,
typedef names used as specifiers are -/
def Expr.ok (tds : List Id) : Expr → Prop
  | .ident n => n ∉ tds
  | .int _ | .char _ | .str _ => True
  | .subsc e i => e.ok tds ∧ i.ok tds
  | .call f as => f.ok tds ∧ as.ok tds
  | .member e _ | .arrow e _ | .postinc e | .postdec e | .preinc e | .predec e | .un _ e | .sizeofE e => e.ok tds
  | .sizeofT t => t.ok tds
  | .cast t e => t.ok tds ∧ e.ok tds
  | .bin _ l r | .assign _ l r => l.ok tds ∧ r.ok tds
  | .cond c a b => c.ok tds ∧ a.ok tds ∧ b.ok tds
def Args.ok (tds : List Id) : Args → Prop
  | .nil => True
  | .cons e as => e.ok tds ∧ as.ok tds
def TyName.ok (tds : List Id) : TyName → Prop
  | .mk ss d => ss.ok tds ∧ d.ok tds ∧ d.absOk = true
def Spec.ok (tds : List Id) : Spec → Prop
  | .void | .char | .int | .long | .unsigned | .structRef _ | .enumRef _ => True
  | .tdname n => n ∈ tds
  | .structDef _ ms => ms.ok tds
  | .enumDef _ es => es.ok tds
def Specs.ok (tds : List Id) : Specs → Prop
  | .one s => s.ok tds
  | .cons s ss => s.ok tds ∧ ss.ok tds
def Dtor.ok (tds : List Id) : Dtor → Prop
  | .leaf => True
  | .ptr d => d.ok tds
  | .arr d e => d.ok tds ∧ e.ok tds
  | .fn d ps => d.ok tds ∧ ps.ok tds
def ParamL.ok (tds : List Id) : ParamL → Prop
  | .one p => p.ok tds
  | .cons p ps => p.ok tds ∧ ps.ok tds
def ParamD.ok (tds : List Id) : ParamD → Prop
  | .mk ss (some n) d => ss.ok tds ∧ d.ok tds ∧ n ∉ tds
  | .mk ss none d => ss.ok tds ∧ d.ok tds ∧ d.absOk = true
def MemberL.ok (tds : List Id) : MemberL → Prop
  | .one m => m.ok tds
  | .cons m ms => m.ok tds ∧ ms.ok tds
def MemberD.ok (tds : List Id) : MemberD → Prop
  | .mk ss ds => ss.ok tds ∧ ds.ok tds
def NDtors.ok (tds : List Id) : NDtors → Prop
  | .one n d => n ∉ tds ∧ d.ok tds
  | .cons n d ds => n ∉ tds ∧ d.ok tds ∧ ds.ok tds
def Enums.ok (tds : List Id) : Enums → Prop
  | .one _ => True
  | .oneV _ e => e.ok tds
  | .cons _ es => es.ok tds
  | .consV _ e es => e.ok tds ∧ es.ok tds
end

/-! ### declarations, statements, translation units -/

mutual
/-- initialisers -/
inductive Init where
  | expr (e : Expr)
  | list (is : Inits)
/-- not empty -/
inductive Inits where
  | one (i : Init)
  | cons (i : Init) (is : Inits)
end

mutual
def Init.toks : Init → List Tok
  | .expr e => e.toks
  | .list is => .punct .lbrace :: (is.toks ++ [.punct .rbrace])
def Inits.toks : Inits → List Tok
  | .one i => i.toks
  | .cons i is => i.toks ++ .punct .comma :: is.toks
end
mutual
def Init.ast : Init → Ast
  | .expr e => e.ast
  | .list is => .node .initList is.asts
def Inits.asts : Inits → List Ast
  | .one i => [i.ast]
  | .cons i is => i.ast :: is.asts
end
mutual
def Init.ok (tds : List Id) : Init → Prop
  | .expr e => e.ok tds
  | .list is => is.ok tds
def Inits.ok (tds : List Id) : Inits → Prop
  | .one i => i.ok tds
  | .cons i is => i.ok tds ∧ is.ok tds
end

/-- declaration specifiers -/
inductive DSpec where
  | td
  | ty (s : Spec)

def DSpec.toks : DSpec → List Tok
  | .td => [.kw .ktypedef]
  | .ty s => s.toks
def DSpec.ast : DSpec → Ast
  | .td => .node .stgTypedef []
  | .ty s => s.ast
def DSpec.ok (tds : List Id) : DSpec → Prop
  | .td => True
  | .ty s => s.ok tds
def DSpec.isTd : DSpec → Bool
  | .td => true
  | .ty _ => false

/-- a declarator with an optional initialiser -/
structure IDtor where
  n : Id
  d : Dtor
  i : Option Init

def IDtor.toks : IDtor → List Tok
  | ⟨n, d, none⟩ => d.toks [.ident n]
  | ⟨n, d, some i⟩ => d.toks [.ident n] ++ .punct .equal :: i.toks
def IDtor.ast : IDtor → Ast
  | ⟨n, d, none⟩ => .node .initDeclor [d.ast (.name .identDeclor n)]
  | ⟨n, d, some i⟩ => .node .initDeclor [d.ast (.name .identDeclor n), i.ast]
/-- `tds`: with the name itself if it is a typedef -/
def IDtor.ok (tds : List Id) : IDtor → Prop
  | ⟨_, d, none⟩ => d.ok tds
  | ⟨_, d, some i⟩ => d.ok tds ∧ i.ok tds

def idToks : List IDtor → List Tok
  | [] => []
  | [d] => d.toks
  | d :: ds => d.toks ++ .punct .comma :: idToks ds

/-- the typedef names after declarators of a typedef -/
def tdsAfter (td : Bool) (tds : List Id) (ds : List IDtor) : List Id :=
  if td then ds.foldl (fun t d => d.n :: t) tds else tds

def idsOk (td : Bool) : List Id → List IDtor → Prop
  | _, [] => True
  | tds, d :: ds => d.ok (tdsAfter td tds [d]) ∧ idsOk td (tdsAfter td tds [d]) ds

/-- declarations: with `ds = []`, just `specifiers ;` -/
structure Decl where
  ss : List DSpec
  ds : List IDtor

def Decl.isTd (d : Decl) : Bool := d.ss.any DSpec.isTd
def Decl.toks (d : Decl) : List Tok := d.ss.flatMap DSpec.toks ++ (idToks d.ds ++ [.punct .semicolon])
def Decl.ast (d : Decl) : Ast :=
  if d.ds.isEmpty then .node .decl [.node .declSpecs (d.ss.map DSpec.ast)]
  else .node .decl [.node .declSpecs (d.ss.map DSpec.ast), .node .initDeclorList (d.ds.map IDtor.ast)]
def Decl.ok (tds : List Id) (d : Decl) : Prop :=
  d.ss ≠ [] ∧ (∀ s ∈ d.ss, s.ok tds) ∧ (∀ x ∈ d.ds.head?, x.n ∉ tds) ∧ idsOk d.isTd tds d.ds
def Decl.after (tds : List Id) (d : Decl) : List Id := tdsAfter d.isTd tds d.ds

mutual
/-- statements -/
inductive Stmt where
  | case (e : Expr) (s : Stmt) | default (s : Stmt)
  | block (is : Items)
  | continue | break | ret | retE (e : Expr)
  | ifS (c : Expr) (s : Stmt) | ifElse (c : Expr) (s t : Stmt)
  | switch (c : Expr) (s : Stmt) | while (c : Expr) (s : Stmt)
  | forD (d : Decl) (c st : Option Expr) (s : Stmt) | forE (i c st : Option Expr) (s : Stmt)
  | expr (e : Expr) | null
/-- what stands in a block -/
inductive Items where
  | nil
  | decl (d : Decl) (is : Items)
  | stmt (s : Stmt) (is : Items)
end

def optToks : Option Expr → List Tok
  | some e => e.toks
  | none => []

/-- an optional expression and a semicolon -/
def optStmt : Option Expr → Ast
  | some e => .node .exprStmt [e.ast]
  | none => .node .nullStmt []

mutual
def Stmt.toks : Stmt → List Tok
  | .case e s => .kw .kcase :: (e.toks ++ .punct .colon :: s.toks)
  | .default s => .kw .kdefault :: .punct .colon :: s.toks
  | .block is => .punct .lbrace :: (is.toks ++ [.punct .rbrace])
  | .continue => [.kw .kcontinue, .punct .semicolon]
  | .break => [.kw .kbreak, .punct .semicolon]
  | .ret => [.kw .kreturn, .punct .semicolon]
  | .retE e => .kw .kreturn :: (e.toks ++ [.punct .semicolon])
  | .ifS c s => .kw .kif :: .punct .lparen :: (c.toks ++ .punct .rparen :: s.toks)
  | .ifElse c s t => .kw .kif :: .punct .lparen :: (c.toks ++ .punct .rparen :: (s.toks ++ .kw .kelse :: t.toks))
  | .switch c s => .kw .kswitch :: .punct .lparen :: (c.toks ++ .punct .rparen :: s.toks)
  | .while c s => .kw .kwhile :: .punct .lparen :: (c.toks ++ .punct .rparen :: s.toks)
  | .forD d c st s => .kw .kfor :: .punct .lparen :: (d.toks ++ (optToks c ++ .punct .semicolon :: (optToks st ++ .punct .rparen :: s.toks)))
  | .forE i c st s => .kw .kfor :: .punct .lparen ::
      (optToks i ++ .punct .semicolon :: (optToks c ++ .punct .semicolon :: (optToks st ++ .punct .rparen :: s.toks)))
  | .expr e => e.toks ++ [.punct .semicolon]
  | .null => [.punct .semicolon]
def Items.toks : Items → List Tok
  | .nil => []
  | .decl d is => d.toks ++ is.toks
  | .stmt s is => s.toks ++ is.toks
end

mutual
def Stmt.ast : Stmt → Ast
  | .case e s => .node .caseStmt [e.ast, s.ast]
  | .default s => .node .defaultStmt [s.ast]
  | .block is => .node .cmpdStmt is.asts
  | .continue => .node .continueStmt []
  | .break => .node .breakStmt []
  | .ret => .node .retStmt []
  | .retE e => .node .retStmt [e.ast]
  | .ifS c s => .node .ifStmt [c.ast, s.ast]
  | .ifElse c s t => .node .ifStmt [c.ast, s.ast, t.ast]
  | .switch c s => .node .switchStmt [c.ast, s.ast]
  | .while c s => .node .whileStmt [c.ast, s.ast]
  | .forD d c st s => .node .forStmt [d.ast, optStmt c, optStmt st, s.ast]
  | .forE i c st s => .node .forStmt [optStmt i, optStmt c, optStmt st, s.ast]
  | .expr e => .node .exprStmt [e.ast]
  | .null => .node .nullStmt []
def Items.asts : Items → List Ast
  | .nil => []
  | .decl d is => d.ast :: is.asts
  | .stmt s is => s.ast :: is.asts
end

/-- the statement ends with an `if` without `else`, so that a following `else` would belong to it -/
def Stmt.openIf : Stmt → Bool
  | .ifS _ _ => true
  | .ifElse _ _ t => t.openIf
  | .case _ s | .default s | .switch _ s | .while _ s | .forD _ _ _ s | .forE _ _ _ s => s.openIf
  | _ => false

def optOk (tds : List Id) : Option Expr → Prop
  | some e => e.ok tds
  | none => True

mutual
/-- consistent use of names, and: the first branch of an `if` with `else` is no open `if` (no C text means such a tree) -/
def Stmt.ok (tds : List Id) : Stmt → Prop
  | .case e s => e.ok tds ∧ s.ok tds
  | .default s => s.ok tds
  | .block is => is.ok tds
  | .continue | .break | .ret | .null => True
  | .retE e | .expr e => e.ok tds
  | .ifS c s | .switch c s | .while c s => c.ok tds ∧ s.ok tds
  | .ifElse c s t => c.ok tds ∧ s.ok tds ∧ t.ok tds ∧ s.openIf = false
  | .forD d c st s => d.ok tds ∧ d.isTd = false ∧ optOk tds c ∧ optOk tds st ∧ s.ok tds
  | .forE i c st s => optOk tds i ∧ optOk tds c ∧ optOk tds st ∧ s.ok tds
def Items.ok (tds : List Id) : Items → Prop
  | .nil => True
  | .decl d is => d.ok tds ∧ is.ok (d.after tds)
  | .stmt s is => s.ok tds ∧ is.ok tds
end

/-- external declarations -/
inductive Ext where
  | decl (d : Decl)
  | func (ss : Specs) (n : Id) (d : Dtor) (is : Items)

def Ext.toks : Ext → List Tok
  | .decl d => d.toks
  | .func ss n d is => ss.toks ++ (d.toks [.ident n] ++ (.punct .lbrace :: (is.toks ++ [.punct .rbrace])))
def Ext.ast : Ext → Ast
  | .decl d => d.ast
  | .func ss n d is => .node .funcDef [.node .declSpecs ss.asts, d.ast (.name .identDeclor n), .node .cmpdStmt is.asts]
def Ext.ok (tds : List Id) : Ext → Prop
  | .decl d => d.ok tds
  | .func ss n d is => ss.ok tds ∧ n ∉ tds ∧ d.ok tds ∧ is.ok tds
def Ext.after (tds : List Id) : Ext → List Id
  | .decl d => d.after tds
  | .func _ _ _ _ => tds

/-- names in a translation unit are used consistently -/
def unitOk : List Id → List Ext → Prop
  | _, [] => True
  | tds, x :: xs => x.ok tds ∧ unitOk (x.after tds) xs

def unitToks (xs : List Ext) : List Tok := xs.flatMap Ext.toks ++ [.eof]
def unitAst (xs : List Ext) : Ast := .node .trasUnit (xs.map Ext.ast)

end Syn
end Umlcc
