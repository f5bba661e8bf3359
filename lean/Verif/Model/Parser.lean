import Verif.Model.Ast
/-!
Model of `src/parser/*.c`.

The parser's state is the list of tokens from `index` on, the set of typedef names and the typedef flag. Going back to
an earlier index is going back to an earlier list. The set is a list: only `set_add`, `set_contains` and `set_copy` are
used, names are ASCII (the lexer makes no others), and C05 says that these three behave like a mathematical set.

All parser functions are mutually recursive. They are written against a function `r` that runs the functions they call
(`NT` names the function, or a loop in it, with its local variables); `parse` ties the knot with a bound on the
recursion depth, `hang` meaning that the bound was too small. `steps` counts calls and is only used for C16.
Simplifications: error texts are dropped; `delete_ast` and `free` have no effect.
-/
namespace Umlcc
namespace Parser

/-- `struct Parser`, parser.h:9-14 -/
structure PS where
  toks : List Tok
  tds : List (List UInt8)
  flag : Bool
  steps : Nat := 0
  deriving DecidableEq

/-- outcome of a parser function: `ParserReturn` with the parser's state afterwards -/
inductive PR (α : Type) where
  | ok (a : α) (s : PS)
  | err (s : PS)
  | fatal
  | ub
  | hang

def M (α : Type) : Type := PS → PR α

namespace M
def ret (a : α) : M α := fun s => .ok a s
def andThen (x : M α) (f : α → M β) : M β := fun s =>
  match x s with
  | .ok a s' => f a s'
  | .err s' => .err s'
  | .fatal => .fatal
  | .ub => .ub
  | .hang => .hang
instance : Monad M where
  pure := M.ret
  bind := M.andThen

/-- an `Error*` is returned -/
def fail : M α := fun s => .err s
/-- "unreachable statement", `exit(1)` -/
def fatal : M α := fun _ => .fatal
/-- the outcome of a computation on trees -/
def lift : Out α → M α
  | .ok a => pure a
  | .err => fail
  | .fatal => fatal
  | .ub => fun _ => .ub
  | .hang => fun _ => .hang
/-- the call, and whether it returned an error -/
def try_ (x : M α) : M (Option α) := fun s =>
  match x s with
  | .ok a s' => .ok (some a) s'
  | .err s' => .ok none s'
  | .fatal => .fatal
  | .ub => .ub
  | .hang => .hang
/-- an error that was kept in a variable -/
def orFail : Option α → M α
  | some a => pure a
  | none => fail

def getToks : M (List Tok) := fun s => .ok s.toks s
/-- `parser->index = index` -/
def setToks (ts : List Tok) : M Unit := fun s => .ok () { s with toks := ts }
def getFlag : M Bool := fun s => .ok s.flag s
def setFlag (b : Bool) : M Unit := fun s => .ok () { s with flag := b }
def getTds : M (List (List UInt8)) := fun s => .ok s.tds s
def setTds (t : List (List UInt8)) : M Unit := fun s => .ok () { s with tds := t }
/-- `vector_at(parser->ctokens, parser->index)` and a use of the token: undefined when there is none -/
def peek : M Tok := fun s =>
  match s.toks with
  | t :: _ => .ok t s
  | [] => .ub
/-- `parser->index++` -/
def adv : M Unit := fun s => .ok () { s with toks := s.toks.tail }
end M
open M

/-- `consume_ctoken`, util.c:61-68 -/
def consume (t : Tok) : M Unit := do
  let c ← peek
  if c = t then adv else fail

/-- `ctoken_is_storage_class_specifier`, util.c:48-50 -/
def isStorage : Tok → Bool
  | .kw .ktypedef => true
  | _ => false

/-- `ctoken_is_type_specifier`, util.c:52-59 -/
def isTypeSpec (tds : List (List UInt8)) : Tok → Bool
  | .kw .kvoid | .kw .kchar | .kw .kint | .kw .klong | .kw .kunsigned | .kw .kstruct | .kw .kenum => true
  | .ident n => decide (n ∈ tds)
  | _ => false

/-- `item_may_decl`, util.c:43-46 -/
def itemMayDecl : M Bool := do
  let c ← peek
  let tds ← getTds
  pure (isStorage c || isTypeSpec tds c)

/-- the assignment operators, expression.c:37-80 -/
def assignOp : Tok → Option AstT
  | .punct .equal => some .assign
  | .punct .asteriskEqual => some .mulAssign
  | .punct .slashEqual => some .divAssign
  | .punct .percentEqual => some .modAssign
  | .punct .plusEqual => some .addAssign
  | .punct .minusEqual => some .subAssign
  | .punct .lessLessEqual => some .lshiftAssign
  | .punct .greaterGreaterEqual => some .rshiftAssign
  | .punct .andEqual => some .andAssign
  | .punct .caretEqual => some .xorAssign
  | .punct .vbarEqual => some .orAssign
  | _ => none

/-- The binary operators by level: 0 logical or, 1 logical and, 2 inclusive or, 3 exclusive or, 4 and, 5 equality, 6 relational,
7 shift, 8 additive, 9 multiplicative. expression.c:163,193,223,253,283,313-327,351-379,405-419,443-457,481-502 -/
def binOp : Nat → Tok → Option AstT
  | 0, .punct .vbarVbar => some .lor
  | 1, .punct .andAnd => some .land
  | 2, .punct .vbar => some .or
  | 3, .punct .caret => some .xor
  | 4, .punct .and => some .and
  | 5, .punct .equalEqual => some .equal
  | 5, .punct .exclamEqual => some .nequal
  | 6, .punct .less => some .less
  | 6, .punct .greater => some .greater
  | 6, .punct .lessEqual => some .lesseq
  | 6, .punct .greaterEqual => some .greatereq
  | 7, .punct .lessLess => some .lshift
  | 7, .punct .greaterGreater => some .rshift
  | 8, .punct .plus => some .add
  | 8, .punct .minus => some .sub
  | 9, .punct .asterisk => some .mul
  | 9, .punct .slash => some .div
  | 9, .punct .percent => some .mod
  | _, _ => none

/-- `parse_preinc_predec`, expression.c:607-615 -/
def preOp : Tok → Option AstT
  | .punct .plusPlus => some .preinc
  | .punct .minusMinus => some .predec
  | _ => none

/-- `parse_unary_operator_expr`, expression.c:635-655 -/
def unOp : Tok → Option AstT
  | .punct .and => some .addr
  | .punct .asterisk => some .indir
  | .punct .plus => some .pos
  | .punct .minus => some .neg
  | .punct .tilde => some .not
  | .punct .exclam => some .lnot
  | _ => none

/-- the parser functions and the loops in them -/
inductive NT where
  | assign
  /-- expression.c:25-86: the left sides read so far, last first -/
  | assignLoop (stack : List (AstT × Ast))
  | cond
  /-- the function of a binary level -/
  | bin (lvl : Nat)
  | binLoop (lvl : Nat) (acc : Ast)
  | cast
  /-- expression.c:520-538 -/
  | castLoop (stack : List Ast)
  | unary
  | postfixE
  | postfixLoop (acc : Ast)
  | args
  | argsLoop (acc : List Ast)
  | primary
  | decl
  | typeName
  | declSpecs (acc : List Ast) (td : Bool)
  | specQuals (acc : List Ast)
  | typeSpec
  | structSpec
  | structDecls (acc : List Ast)
  | structDecl
  | structDeclors (acc : List Ast)
  | enumSpec
  | enumors (acc : List Ast)
  | enumor
  | initDeclors (acc : List Ast)
  | initDeclor
  | declor (abs : Bool)
  | direct (abs : Bool)
  /-- declaration.c:706-766: the enclosed declarator, the name, the array and function parts read so far -/
  | directLoop (enclosed : Option Ast) (terminal : Ast) (parts : List (AstT × Ast)) (abs : Bool)
  | params (acc : List Ast)
  | paramDecl
  | init
  | initList (acc : List Ast)
  | stmt
  /-- the loop of `parse_compound_stmt` -/
  | items (acc : List Ast)
  | compound
  | exprStmt
  | unit (acc : List Ast)
  | funcDef

section
variable (r : NT → M Ast)

/-- `parse_assignment_expr`, expression.c:19-107: the loop, one left side at a time -/
def pAssignLoop (stack : List (AstT × Ast)) : M Ast := do
  let index ← getToks
  let a ← try_ (r .unary)
  match a with
  | none => do setToks index; rest
  | some a => do
    let c ← peek
    match assignOp c with
    | some op => do adv; r (.assignLoop ((op, a) :: stack))
    | none => do setToks index; rest
where
  /-- expression.c:88-106 -/
  rest : M Ast := do
    let a ← r .cond
    pure (stack.foldl (fun acc x => .node x.1 [x.2, acc]) a)

/-- `parse_conditional_expr`, expression.c:109-148 -/
def pCond : M Ast := do
  let a ← r (.bin 0)
  let c ← peek
  if c = .punct .question then do
    adv
    let b ← r .assign
    consume (.punct .colon)
    let d ← r .cond
    pure (.node .cond [a, b, d])
  else pure a

/-- `parse_logical_or_expr`, `parse_logical_and_expr`, `parse_bitwise_inclusive_or_expr`, `parse_bitwise_exclusive_or_expr`, `parse_bitwise_and_expr`,
`parse_equality_expr`, `parse_relational_expr`, `parse_shift_expr`, `parse_additive_expr`, `parse_multiplicative_expr`,
expression.c:150-512, which differ in the operators and the function called for the operands -/
def pBin (lvl : Nat) : M Ast := do
  let a ← next lvl
  r (.binLoop lvl a)
where
  next (lvl : Nat) : M Ast := if lvl < 9 then r (.bin (lvl + 1)) else r .cast

/-- the loops of these functions -/
def pBinLoop (lvl : Nat) (acc : Ast) : M Ast := do
  let c ← peek
  match binOp lvl c with
  | some op => do
    adv
    let b ← pBin.next r lvl
    r (.binLoop lvl (.node op [acc, b]))
  | none => pure acc

/-- `parse_cast_expr`, expression.c:514-559 -/
def pCastLoop (stack : List Ast) : M Ast := do
  let index ← getToks
  let c ← peek
  if c = .punct .lparen then do
    adv
    let t ← try_ (r .typeName)
    match t with
    | none => do setToks index; rest
    | some t => do
      consume (.punct .rparen)
      r (.castLoop (t :: stack))
  else rest
where
  rest : M Ast := do
    let a ← r .unary
    pure (stack.foldl (fun acc t => .node .cast [t, acc]) a)

/-- `parse_sizeof_operator_expr`, expression.c:663-700 -/
def pSizeof : M Ast := do
  consume (.kw .ksizeof)
  let index ← getToks
  let a ← try_ (r .unary)
  match a with
  | some a => pure (.node .sizeof [a])
  | none => do
    setToks index
    consume (.punct .lparen)
    let t ← r .typeName
    consume (.punct .rparen)
    pure (.node .sizeof [t])

/-- `parse_unary_expr`, expression.c:561-595 with `parse_preinc_predec`, 597-622, and `parse_unary_operator_expr`, 624-661 -/
def pUnary : M Ast := do
  let c ← peek
  match preOp c with
  | some op => do adv; let a ← r .unary; pure (.node op [a])
  | none =>
    match unOp c with
    | some op => do adv; let a ← r .cast; pure (.node op [a])
    | none => if c = .kw .ksizeof then pSizeof r else r .postfixE

/-- the member name after `.` or `->`, expression.c:732-751 -/
def pMember (t : AstT) (acc : Ast) : M Ast := do
  adv
  let c ← peek
  match c with
  | .ident n => do adv; r (.postfixLoop (.node t [acc, .name .identExpr n]))
  | _ => fail

/-- `parse_postfix_expr`, expression.c:702-770: the loop -/
def pPostfixLoop (acc : Ast) : M Ast := do
  let c ← peek
  match c with
  | .punct .lbracket => do
    adv
    let b ← r .assign
    consume (.punct .rbracket)
    r (.postfixLoop (.node .subsc [acc, b]))
  | .punct .lparen => do
    adv
    let b ← r .args
    consume (.punct .rparen)
    r (.postfixLoop (.node .call [acc, b]))
  | .punct .dot => pMember r .member acc
  | .punct .arrow => pMember r .tomember acc
  | .punct .plusPlus => do adv; r (.postfixLoop (.node .postinc [acc]))
  | .punct .minusMinus => do adv; r (.postfixLoop (.node .postdec [acc]))
  | _ => pure acc

/-- `parse_argument_expr_list`, expression.c:772-801 -/
def pArgs : M Ast := do
  let c ← peek
  if c = .punct .rparen then pure (.node .argList []) else r (.argsLoop [])

/-- its loop -/
def pArgsLoop (acc : List Ast) : M Ast := do
  let a ← r .assign
  let c ← peek
  if c = .punct .comma then do adv; r (.argsLoop (acc ++ [a])) else pure (.node .argList (acc ++ [a]))

/-- `parse_primary_expr`, expression.c:803-849 -/
def pPrimary : M Ast := do
  let c ← peek
  let tds ← getTds
  match c with
  | .ident n => if n ∈ tds then fail else do adv; pure (.name .identExpr n)
  | .int l => do adv; pure (.lit .intExpr l)
  | .char l => do adv; pure (.lit .charExpr l)
  | .str s => do adv; pure (.strlit .stringExpr s)
  | .punct .lparen => do
    adv
    let a ← r .assign
    consume (.punct .rparen)
    pure a
  | _ => fail

/-- `parse_decl`, declaration.c:13-51 -/
def pDecl : M Ast := do
  let f ← getFlag
  let s ← try_ (r (.declSpecs [] false))
  match s with
  | none => do setFlag f; fail
  | some s => do
    let c ← peek
    if c = .punct .semicolon then do
      setFlag f
      adv
      pure (.node .decl [s])
    else do
      let l ← try_ (r (.initDeclors []))
      setFlag f
      let l ← orFail l
      consume (.punct .semicolon)
      pure (.node .decl [s, l])

/-- `parse_type_name`, declaration.c:53-80 -/
def pTypeName : M Ast := do
  let f ← getFlag
  let s ← try_ (r (.specQuals []))
  match s with
  | none => do setFlag f; fail
  | some s => do
    let index ← getToks
    let d ← try_ (r (.declor true))
    setFlag f
    match d with
    | none => do setToks index; pure (.node .typeName [s])
    | some d => pure (.node .typeName [s, d])

/-- `parse_decl_specifiers`, declaration.c:82-120, with `parse_storage_class_specifier`, 157-172 -/
def pDeclSpecs (acc : List Ast) (td : Bool) : M Ast := do
  let c ← peek
  let tds ← getTds
  if isStorage c then do
    adv
    r (.declSpecs (acc ++ [.node .stgTypedef []]) true)
  else if isTypeSpec tds c then do
    let a ← r .typeSpec
    r (.declSpecs (acc ++ [a]) td)
  else if acc.isEmpty then fail
  else do
    setFlag td
    pure (.node .declSpecs acc)

/-- `parse_specifier_qualifier_list`, declaration.c:122-155 -/
def pSpecQuals (acc : List Ast) : M Ast := do
  let c ← peek
  let tds ← getTds
  if isTypeSpec tds c then do
    let a ← r .typeSpec
    r (.specQuals (acc ++ [a]))
  else if acc.isEmpty then fail
  else do
    setFlag false
    pure (.node .specQualList acc)

/-- `parse_type_specifier`, declaration.c:174-227 -/
def pTypeSpec : M Ast := do
  let c ← peek
  let tds ← getTds
  match c with
  | .kw .kvoid => do adv; pure (.node .typeVoid [])
  | .kw .kchar => do adv; pure (.node .typeChar [])
  | .kw .kint => do adv; pure (.node .typeInt [])
  | .kw .klong => do adv; pure (.node .typeLong [])
  | .kw .kunsigned => do adv; pure (.node .typeUnsigned [])
  | .kw .kstruct => r .structSpec
  | .kw .kenum => r .enumSpec
  | .ident n => if n ∈ tds then do adv; pure (.name .typedefName n) else fatal
  | _ => fatal

/-- the optional name of a struct or an enum, declaration.c:243-248, 372-377 -/
def pTag (t : AstT) : M (List Ast) := do
  let c ← peek
  match c with
  | .ident n => do adv; pure [.name t n]
  | _ => pure []

/-- `parse_struct_specifier`, declaration.c:229-273 -/
def pStructSpec : M Ast := do
  consume (.kw .kstruct)
  let tag ← pTag .structName
  let c ← peek
  if c = .punct .lbrace then do
    adv
    let l ← r (.structDecls [])
    consume (.punct .rbrace)
    pure (.node .typeStruct (tag ++ [l]))
  else if tag.isEmpty then fail
  else pure (.node .typeStruct tag)

/-- `parse_struct_decl_list`, declaration.c:275-299 -/
def pStructDecls (acc : List Ast) : M Ast := do
  let a ← r .structDecl
  let c ← peek
  if c = .punct .rbrace then pure (.node .structDeclList (acc ++ [a])) else r (.structDecls (acc ++ [a]))

/-- `parse_struct_decl`, declaration.c:301-332 -/
def pStructDecl : M Ast := do
  let f ← getFlag
  let s ← try_ (r (.specQuals []))
  match s with
  | none => do setFlag f; fail
  | some s => do
    let l ← try_ (r (.structDeclors []))
    setFlag f
    let l ← orFail l
    consume (.punct .semicolon)
    pure (.node .structDecl [s, l])

/-- `parse_struct_declarator_list`, declaration.c:334-356 -/
def pStructDeclors (acc : List Ast) : M Ast := do
  let a ← r (.declor false)
  let c ← peek
  if c = .punct .comma then do adv; r (.structDeclors (acc ++ [a])) else pure (.node .structDeclorList (acc ++ [a]))

/-- `parse_enum_specifier`, declaration.c:358-402 -/
def pEnumSpec : M Ast := do
  consume (.kw .kenum)
  let tag ← pTag .enumName
  let c ← peek
  if c = .punct .lbrace then do
    adv
    let l ← r (.enumors [])
    consume (.punct .rbrace)
    pure (.node .typeEnum (tag ++ [l]))
  else if tag.isEmpty then fail
  else pure (.node .typeEnum tag)

/-- `parse_enumerator_list`, declaration.c:404-437 -/
def pEnumors (acc : List Ast) : M Ast := do
  let a ← r .enumor
  let c ← peek
  if c = .punct .rbrace then pure (.node .enumorList (acc ++ [a]))
  else do
    consume (.punct .comma)
    let c ← peek
    if c = .punct .rbrace then pure (.node .enumorList (acc ++ [a])) else r (.enumors (acc ++ [a]))

/-- `parse_enumerator`, declaration.c:439-468 -/
def pEnumor : M Ast := do
  let c ← peek
  match c with
  | .ident n => do
    adv
    let c ← peek
    if c = .punct .equal then do
      adv
      let e ← r .cond
      pure (.node .enumor [.name .enumConst n, e])
    else pure (.node .enumor [.name .enumConst n])
  | _ => fail

/-- `parse_init_declarator_list`, declaration.c:470-495 -/
def pInitDeclors (acc : List Ast) : M Ast := do
  let a ← r .initDeclor
  let c ← peek
  if c = .punct .comma then do adv; r (.initDeclors (acc ++ [a])) else pure (.node .initDeclorList (acc ++ [a]))

/-- `parse_init_declarator`, declaration.c:497-523 -/
def pInitDeclor : M Ast := do
  let d ← r (.declor false)
  let c ← peek
  if c = .punct .equal then do
    adv
    let i ← r .init
    pure (.node .initDeclor [d, i])
  else pure (.node .initDeclor [d])

/-- `terminal_ast_type`, declaration.c:538, 632 -/
def termT (abs : Bool) : AstT := if abs then .absDeclor else .identDeclor

/-- `parse_pointer`, declaration.c:590-610: the number of asterisks, read off the tokens -/
def stars : List Tok → Nat
  | .punct .asterisk :: ts => stars ts + 1
  | _ => 0

/-- `n` pointer declarators around a declarator, declaration.c:590-610 with 563-572, 584-585 -/
def ptrs : Nat → Ast → Ast
  | 0, a => a
  | n + 1, a => .node .ptrDeclor [ptrs n a]

/-- `parse_declarator_common`, declaration.c:533-588 -/
def pDeclor (abs : Bool) : M Ast := do
  let ts ← getToks
  let n := stars ts
  setToks (ts.drop n)
  let d ← r (.direct abs)
  if n = 0 then pure d
  else if d.type = termT abs then pure (ptrs n d)
  else lift (d.mapTerm (termT abs) (ptrs n))

/-- `parse_direct_declarator_common`, declaration.c:620-704: up to the loop -/
def pDirect (abs : Bool) : M Ast := do
  let index ← getToks
  let c ← peek
  match c with
  | .punct .lparen => do
    adv
    let e ← r (.declor abs)
    if abs then
      if e.type = termT abs then do
        setToks index
        r (.directLoop none e [] abs)
      else do
        consume (.punct .rparen)
        let t ← lift (e.term (termT abs))
        r (.directLoop (some e) t [] abs)
    else do
      consume (.punct .rparen)
      if e.type = termT abs then r (.directLoop none e [] abs)
      else do
        let t ← lift (e.term (termT abs))
        r (.directLoop (some e) t [] abs)
  | .ident n =>
    if abs then fail
    else do
      adv
      let f ← getFlag
      let tds ← getTds
      if f then setTds (n :: tds) else pure ()
      r (.directLoop none (.name .identDeclor n) [] abs)
  | _ => if abs then r (.directLoop none (.node .absDeclor []) [] abs) else fail

/-- the array and function parts around the name, declaration.c:715-721, 736-742, 752, 758: the first part is outermost -/
def chain (t : Ast) : List (AstT × Ast) → Ast
  | [] => t
  | p :: ps => .node p.1 [chain t ps, p.2]

/-- the loop of `parse_direct_declarator_common`, declaration.c:706-766 -/
def pDirectLoop (enclosed : Option Ast) (t : Ast) (parts : List (AstT × Ast)) (abs : Bool) : M Ast := do
  let c ← peek
  match c with
  | .punct .lbracket => do
    adv
    let e ← r .cond
    consume (.punct .rbracket)
    r (.directLoop enclosed t (parts ++ [(.arrayDeclor, e)]) abs)
  | .punct .lparen => do
    adv
    let l ← r (.params [])
    consume (.punct .rparen)
    r (.directLoop enclosed t (parts ++ [(.funcDeclor, l)]) abs)
  | _ =>
    match enclosed with
    | some e => lift (e.mapTerm (termT abs) (fun _ => chain t parts))
    | none => pure (chain t parts)

/-- `parse_parameter_list`, declaration.c:778-803 -/
def pParams (acc : List Ast) : M Ast := do
  let a ← r .paramDecl
  let c ← peek
  if c = .punct .comma then do adv; r (.params (acc ++ [a])) else pure (.node .paramList (acc ++ [a]))

/-- `parse_parameter_decl`, declaration.c:805-841 -/
def pParamDecl : M Ast := do
  let f ← getFlag
  let s ← try_ (r (.declSpecs [] false))
  match s with
  | none => do setFlag f; fail
  | some s => do
    let index ← getToks
    let d ← try_ (r (.declor false))
    match d with
    | some d => do setFlag f; pure (.node .paramDecl [s, d])
    | none => do
      setToks index
      let d ← try_ (r (.declor true))
      setFlag f
      let d ← orFail d
      pure (.node .paramDecl [s, d])

/-- `parse_initializer`, declaration.c:843-868 -/
def pInit : M Ast := do
  let c ← peek
  if c = .punct .lbrace then do
    adv
    let l ← r (.initList [])
    consume (.punct .rbrace)
    pure l
  else r .assign

/-- `parse_initializer_list`, declaration.c:870-902 -/
def pInitList (acc : List Ast) : M Ast := do
  let a ← r .init
  let c ← peek
  if c = .punct .rbrace then pure (.node .initList (acc ++ [a]))
  else do
    consume (.punct .comma)
    let c ← peek
    if c = .punct .rbrace then pure (.node .initList (acc ++ [a])) else r (.initList (acc ++ [a]))

/-- `( expression )` of if, switch and while, statement.c:241-258, 294-311, 334-351 -/
def pParen : M Ast := do
  consume (.punct .lparen)
  let a ← r .assign
  consume (.punct .rparen)
  pure a

/-- `parse_expression_stmt`, statement.c:205-228 -/
def pExprStmt : M Ast := do
  let c ← peek
  if c = .punct .semicolon then do adv; pure (.node .nullStmt [])
  else do
    let a ← r .assign
    consume (.punct .semicolon)
    pure (.node .exprStmt [a])

/-- `parse_for_stmt`, statement.c:363-425 -/
def pFor : M Ast := do
  consume (.kw .kfor)
  consume (.punct .lparen)
  let d ← itemMayDecl
  let a ← if d then r .decl else r .exprStmt
  let b ← r .exprStmt
  let c ← peek
  let e ← if c = .punct .rparen then do adv; pure (.node .nullStmt [])
    else do
      let e ← r .assign
      consume (.punct .rparen)
      pure (.node .exprStmt [e])
  let body ← r .stmt
  pure (.node .forStmt [a, b, e, body])

/-- `parse_stmt`, statement.c:8-34, with `parse_case_stmt` 36-68, `parse_default_stmt` 70-95, `parse_continue_stmt` 139-155,
`parse_break_stmt` 157-173, `parse_return_stmt` 175-203, `parse_if_else_stmt` 230-281, `parse_switch_stmt` 283-321,
`parse_while_stmt` 323-361 -/
def pStmt : M Ast := do
  let c ← peek
  match c with
  | .kw .kcase => do
    consume (.kw .kcase)
    let e ← r .assign
    consume (.punct .colon)
    let s ← r .stmt
    pure (.node .caseStmt [e, s])
  | .kw .kdefault => do
    consume (.kw .kdefault)
    consume (.punct .colon)
    let s ← r .stmt
    pure (.node .defaultStmt [s])
  | .punct .lbrace => r .compound
  | .kw .kcontinue => do
    consume (.kw .kcontinue)
    consume (.punct .semicolon)
    pure (.node .continueStmt [])
  | .kw .kbreak => do
    consume (.kw .kbreak)
    consume (.punct .semicolon)
    pure (.node .breakStmt [])
  | .kw .kreturn => do
    consume (.kw .kreturn)
    let c ← peek
    if c = .punct .semicolon then do adv; pure (.node .retStmt [])
    else do
      let e ← r .assign
      consume (.punct .semicolon)
      pure (.node .retStmt [e])
  | .kw .kif => do
    consume (.kw .kif)
    let e ← pParen r
    let s ← r .stmt
    let c ← peek
    if c = .kw .kelse then do
      adv
      let t ← r .stmt
      pure (.node .ifStmt [e, s, t])
    else pure (.node .ifStmt [e, s])
  | .kw .kswitch => do
    consume (.kw .kswitch)
    let e ← pParen r
    let s ← r .stmt
    pure (.node .switchStmt [e, s])
  | .kw .kwhile => do
    consume (.kw .kwhile)
    let e ← pParen r
    let s ← r .stmt
    pure (.node .whileStmt [e, s])
  | .kw .kfor => pFor r
  | _ => r .exprStmt

/-- `parse_compound_stmt`, statement.c:97-137: the typedef names are restored also after an error -/
def pCompound : M Ast := do
  consume (.punct .lbrace)
  let tds ← getTds
  let a ← try_ (r (.items []))
  setTds tds
  orFail a

/-- its loop, statement.c:110-128 -/
def pItems (acc : List Ast) : M Ast := do
  let c ← peek
  if c = .punct .rbrace then do adv; pure (.node .cmpdStmt acc)
  else do
    let d ← itemMayDecl
    let a ← if d then r .decl else r .stmt
    r (.items (acc ++ [a]))

/-- `external_may_function_definition`, util.c:6-41 -/
def mayFuncDef : M Bool := do
  let index ← getToks
  let tds ← getTds
  let f ← getFlag
  let s ← try_ (r (.declSpecs [] false))
  match s with
  | none => do setToks index; setTds tds; setFlag f; fail
  | some _ => do
    let d ← try_ (r (.declor false))
    setTds tds
    setFlag f
    match d with
    | none => do setToks index; pure false
    | some _ => do
      let c ← peek
      setToks index
      pure (decide (c = .punct .lbrace))

/-- `parse_function_definition`, external.c:45-76 -/
def pFuncDef : M Ast := do
  let f ← getFlag
  let s ← try_ (r (.declSpecs [] false))
  match s with
  | none => do setFlag f; fail
  | some s => do
    let d ← try_ (r (.declor false))
    setFlag f
    let d ← orFail d
    let b ← r .compound
    pure (.node .funcDef [s, d, b])

/-- `parse_translation_unit`, external.c:9-43 -/
def pUnit (acc : List Ast) : M Ast := do
  let fd ← mayFuncDef r
  let a ← if fd then r .funcDef else r .decl
  let c ← peek
  if c = .eof then pure (.node .trasUnit (acc ++ [a])) else r (.unit (acc ++ [a]))

/-- which function runs -/
def body : NT → M Ast
  | .assign => r (.assignLoop [])
  | .assignLoop st => pAssignLoop r st
  | .cond => pCond r
  | .bin l => pBin r l
  | .binLoop l a => pBinLoop r l a
  | .cast => r (.castLoop [])
  | .castLoop st => pCastLoop r st
  | .unary => pUnary r
  | .postfixE => do let a ← r .primary; r (.postfixLoop a)
  | .postfixLoop a => pPostfixLoop r a
  | .args => pArgs r
  | .argsLoop as => pArgsLoop r as
  | .primary => pPrimary r
  | .decl => pDecl r
  | .typeName => pTypeName r
  | .declSpecs as td => pDeclSpecs r as td
  | .specQuals as => pSpecQuals r as
  | .typeSpec => pTypeSpec r
  | .structSpec => pStructSpec r
  | .structDecls as => pStructDecls r as
  | .structDecl => pStructDecl r
  | .structDeclors as => pStructDeclors r as
  | .enumSpec => pEnumSpec r
  | .enumors as => pEnumors r as
  | .enumor => pEnumor r
  | .initDeclors as => pInitDeclors r as
  | .initDeclor => pInitDeclor r
  | .declor abs => pDeclor r abs
  | .direct abs => pDirect r abs
  | .directLoop e t ps abs => pDirectLoop r e t ps abs
  | .params as => pParams r as
  | .paramDecl => pParamDecl r
  | .init => pInit r
  | .initList as => pInitList r as
  | .stmt => pStmt r
  | .items as => pItems r as
  | .compound => pCompound r
  | .exprStmt => pExprStmt r
  | .unit as => pUnit r as
  | .funcDef => pFuncDef r
end

/-- the parser with recursion depth at most the first argument -/
def parse : Nat → NT → M Ast
  | 0, _ => fun _ => .hang
  | f + 1, nt => body (parse f) nt

/-- the same parser counting calls -/
def count : Nat → NT → M Ast
  | 0, _ => fun _ => .hang
  | f + 1, nt => fun s => body (count f) nt { s with steps := s.steps + 1 }

/-- `new_parser`, parser.c:7-14 -/
def start (toks : List Tok) : PS := { toks := toks, tds := [], flag := false }

end Parser
end Umlcc
