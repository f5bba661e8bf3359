import Verif.Model.Srt
import Verif.Model.Conversion
import Verif.Model.Specifiers
import Verif.Model.Literal
/-!
Model of `src/resolver/*.c`: from the syntax tree to the typed tree.

State. `struct Resolver` (resolver.h:10-27) holds the two scope tables, the statement context and several fields that a caller sets before
a call and restores after it. Those are arguments here (`specifier_dtype`, `return_dtype`, `initialized_dtype`, `is_nested_initializing`,
`expr_dtype`, `inside_loop`, `ast`); the others are in `RState`.
* The symbol and tag tables are lists of scopes, innermost first, each a list of entries with the newest first. The C tables are chains of
  hash maps; C24_names_resolve_innermost and C24_leaving_restores justify lists. The offsets kept in the symbol table are not read by
  the resolver and are left out (see SymTab for them).
* `scope_srt` and `trans_unit_srt` are trees to which nodes are appended while they are being built: the lists of children built so far, of the
  translation unit and of the compound statements entered, innermost first (`[]` outside a translation unit).

Errors. A function returns a tree or a vector of errors. The messages are left out: `none` is "returned errors". After an error in one child
most functions go on with the next child (`collect`), with the state as the failing child left it.

Recursion. `Rec` holds the recursive functions; `resolver n` is the resolver with call depth at most `n`, beyond which the outcome is `hang`.
Simplifications: `malloc` succeeds, counters (`sliteral_id`, vector sizes) do not overflow.
-/
namespace Umlcc
namespace Res

/-- entry of the symbol table: `SYMBOL_INT` with its literal, or a label or memory symbol (symbol.h) -/
inductive RSym where
  | int (l : ILit)
  | obj (dt : DType)
  deriving DecidableEq

/-- `struct Resolver`, resolver.h:10-27 -/
structure RState where
  syms : List (List (Str × RSym))
  tags : List (List (Str × DType))
  /-- `switch_cases`; `none` is NULL -/
  cases : Option (List ILit)
  /-- `switch_default_exists` -/
  dflt : Bool
  /-- `default_enum_value` -/
  enumNext : Int
  /-- `initialized_offset` -/
  initOff : Int
  /-- `sliteral_id` -/
  sid : Int
  /-- children of `trans_unit_srt` so far -/
  unit : List SExt
  /-- children so far of the compound statements entered, innermost first -/
  blocks : List (List SItem)
  deriving DecidableEq

/-- a resolver function: `none` is "returned errors" -/
def RM (α : Type) := RState → Out (Option α × RState)

namespace RM
def pure (a : α) : RM α := fun s => .ok (some a, s)
def bind (m : RM α) (f : α → RM β) : RM β := fun s =>
  match m s with
  | .ok (some a, s) => f a s
  | .ok (none, s) => .ok (none, s)
  | .err => .err
  | .fatal => .fatal
  | .ub => .ub
  | .hang => .hang
instance : Monad RM where
  pure := RM.pure
  bind := RM.bind
end RM

/-- return errors -/
def fail : RM α := fun s => .ok (none, s)
/-- `exit(1)` after "unreachable statement" -/
def fatal : RM α := fun _ => .fatal
def ub : RM α := fun _ => .ub
def hang : RM α := fun _ => .hang
/-- the error check itself: go on whether or not there were errors -/
def attempt (m : RM α) : RM (Option α) := fun s =>
  match m s with
  | .ok (r, s) => .ok (some r, s)
  | .err => .err
  | .fatal => .fatal
  | .ub => .ub
  | .hang => .hang
def ofOpt (r : Option α) : RM α := fun s => .ok (r, s)
def get : RM RState := fun s => .ok (some s, s)
def modify (f : RState → RState) : RM Unit := fun s => .ok (some (), f s)
/-- a computation without effect on the resolver; an error of it does not occur -/
def lift (x : Out α) : RM α := fun s =>
  match x with
  | .ok a => .ok (some a, s)
  | .err => .err
  | .fatal => .fatal
  | .ub => .ub
  | .hang => .hang
/-- `if (!b) return errors` -/
def require (b : Bool) : RM Unit := if b then pure () else fail

/-- the loop over children that collects errors and results, e.g. declaration.c:263-285 -/
def collect (f : β → RM α) : List β → RM (List α)
  | [] => pure []
  | x :: xs => do
    let r ← attempt (f x)
    let rs ← attempt (collect f xs)
    match r, rs with
    | some a, some as => pure (a :: as)
    | _, _ => fail

/-- `vector_at(ast->children, i)` followed by a use of the result -/
def kid (a : Ast) (i : Nat) : RM Ast :=
  match a.children[i]? with
  | some c => pure c
  | none => ub

/-- use of `ast->ident_name` as a string -/
def ident : Ast → RM Str
  | .mk _ (some n) _ _ _ => pure n
  | _ => ub

/-! ### tables -/

/-- look a name up in one scope -/
def assoc (n : Str) : List (Str × α) → Option α
  | [] => none
  | (m, a) :: l => if m = n then some a else assoc n l

/-- `symboltable_search` symtab.c:62-72, `tagtable_search` tagtab.c:26-36 -/
def lookup (n : Str) : List (List (Str × α)) → Option α
  | [] => none
  | l :: ls => match assoc n l with
    | some a => some a
    | none => lookup n ls

/-- `symboltable_can_define` symtab.c:27-29, `tagtable_can_define` tagtab.c:22-24 -/
def canDefine (n : Str) : List (List (Str × α)) → Bool
  | [] => true
  | l :: _ => (assoc n l).isNone

/-- the `*_define_*` functions, when the name can be defined -/
def define (n : Str) (a : α) : List (List (Str × α)) → List (List (Str × α))
  | [] => [[(n, a)]]
  | l :: ls => ((n, a) :: l) :: ls

/-- `vector_push(resolver->scope_srt->children, tag_decl)`, declaration.c:250 -/
def pushTag (n : Str) (t : DType) : RM Unit := modify fun s =>
  match s.blocks with
  | [] => { s with unit := s.unit ++ [.tag n t] }
  | b :: bs => { s with blocks := (b ++ [.tag n t]) :: bs }

/-! ### conversion.c -/

/-- `convert_to_ptr`, conversion.c:7-10 -/
def toPtr (e : SExpr) : SExpr := .un .addr (.ptr e.dt) e

/-- `convert_to_ptr_if_array` then `convert_to_ptr_if_function`, conversion.c:12-26 -/
def decay (e : SExpr) : SExpr :=
  match e.dt with
  | .arr of _ => .un .addr (.ptr of) e
  | .func _ _ => .un .addr (.ptr e.dt) e
  | _ => e

/-- casts wrapped around a tree, innermost first -/
def casts : List DType → SExpr → SExpr
  | [], e => e
  | t :: ts, e => casts ts (.un .cast t e)

/-- `perform_integer_promotion`, conversion.c:102-112 -/
def promote (e : SExpr) : SExpr := casts (Conv.promotionCasts e.dt) e

/-- `perform_usual_arithmetic_conversion`, conversion.c:28-100 -/
def usual (l r : SExpr) : SExpr × SExpr :=
  (casts (Conv.usual l.dt r.dt).1 l, casts (Conv.usual l.dt r.dt).2 r)

/-! ### types and declarators -/

/-- what a declarator wraps around a type: the socket types of dtype.c:74-90 -/
inductive Wrap where
  | ptr
  | arr (n : Nat)
  | func (ps : Params)

/-- `dtype_connect` of a chain of sockets (outermost first) with a complete type, dtype.c:141-189 -/
def connect : List Wrap → DType → DType
  | [], t => t
  | .ptr :: ws, t => .ptr (connect ws t)
  | .arr n :: ws, t => .arr (connect ws t) n
  | .func ps :: ws, t => .func ps (connect ws t)

/-- the recursive functions -/
structure Rec where
  /-- `resolve_expr` -/
  expr : Ast → RM SExpr
  /-- `resolve_type_specifier_list` -/
  spec : Ast → RM DType
  /-- the loop of `resolve_declarator`: specifier type, the sockets so far, `ast_ptr`; gives the sockets and the name if any -/
  declor : DType → List Wrap → Ast → RM (List Wrap × Option Str)
  /-- `resolve_initializer`: `is_nested_initializing`, `initialized_dtype`, tree -/
  init : Bool → DType → Ast → RM SInit
  /-- `resolve_zero_initializer` -/
  zero : DType → RM SInit
  /-- `resolve_stmt`: `inside_loop`, `return_dtype`, tree -/
  stmt : Bool → DType → Ast → RM SStmt

/-- outcome of a call too deep -/
def Rec.bot : Rec := ⟨fun _ => hang, fun _ => hang, fun _ _ _ => hang, fun _ _ _ => hang, fun _ => hang, fun _ _ _ => hang⟩

section
variable (R : Rec)

/-- conversion of a `long long` to `int` on the targets considered (the value modulo 2^32) -/
def toInt32 (v : Int) : Int := (v + 2147483648) % 4294967296 - 2147483648

/-- `resolve_type_name`, declaration.c:988-1019 -/
def typeName (a : Ast) : RM DType := do
  let sp ← kid a 0
  let t ← R.spec sp
  let d ← kid a 1
  let (ws, _) ← R.declor t [] d
  pure (connect ws t)

/-- `resolve_decl_specifiers`, declaration.c:48-85. The typedef nodes are removed from the tree first. -/
def declSpecs (a : Ast) : RM DType := do
  let cs := a.children
  let t ← R.spec (.node a.type (cs.filter (fun c => c.type ≠ .stgTypedef)))
  if cs.any (fun c => c.type = .stgTypedef) then pure (.tdef t) else pure t

/-- `->type == DTYPE_TYPEDEF` -/
def isTdef : DType → Bool
  | .tdef _ => true
  | _ => false

/-- adjustment of array and function parameters, declaration.c:953-962 -/
def adjustParam : DType → DType
  | .arr of _ => .ptr of
  | .func ps r => .ptr (.func ps r)
  | t => t

/-- `resolve_parameter_decl`, declaration.c:916-986 -/
def paramDecl (a : Ast) : RM (Option Str × DType) := do
  let sp ← kid a 0
  let t ← declSpecs R sp
  require (!isTdef t)
  let d ← kid a 1
  let (ws, n) ← R.declor t [] d
  let dt := adjustParam (connect ws t)
  require (!dt.isIncomplete)
  pure (n, dt)

/-- `ast_is_void_parameter_list`, utils.c:29-46 -/
def isVoidParams (a : Ast) : RM Bool :=
  match a.children with
  | [p] => do
    let sp ← kid p 0
    match sp.children with
    | [c] => do
      let d ← kid p 1
      pure (c.type = .typeVoid && d.type = .absDeclor)
    | _ => pure false
  | _ => pure false

def Params.ofList : List (Option Str × DType) → Params
  | [] => .nil
  | (n, t) :: l => .cons n t (Params.ofList l)

/-- no name occurs twice -/
def distinct : List Str → Bool
  | [] => true
  | n :: ns => !ns.contains n && distinct ns

/-- `resolve_parameter_list`, declaration.c:856-914. The check for repeated names is made in the same loop as the resolution of the
declarations; its outcome is the same after the loop. -/
def paramList (a : Ast) : RM Params := do
  if ← isVoidParams a then pure .nil
  else do
    let ps ← collect (paramDecl R) a.children
    require (distinct (ps.filterMap (·.1)))
    pure (Params.ofList ps)

/-- the socket is an array -/
def lastArr (ws : List Wrap) : Bool := match ws.getLast? with | some (.arr _) => true | _ => false
/-- the socket is a function -/
def lastFunc (ws : List Wrap) : Bool := match ws.getLast? with | some (.func _) => true | _ => false

/-- the constant an SRT_ILITERAL_EXPR with a signed literal holds -/
def signedConst : SExpr → RM Int
  | .ilit _ l => if l.type.isUnsigned then fail else pure l.value
  | _ => fail

/-- the type inside a typedef, declaration.c:824 -/
def definedType : DType → DType
  | .tdef t => t
  | t => t

/-- one round of the loop of `resolve_declarator`, declaration.c:713-854. Decaying an array or function does not make it an
SRT_ILITERAL_EXPR, so it is left out. `new_socket_array_dtype` takes an `int`; sizes that become negative are not modelled (`ub`). -/
def declor (sp : DType) (ws : List Wrap) (a : Ast) : RM (List Wrap × Option Str) :=
  match a.type with
  | .ptrDeclor => do
    let c ← kid a 0
    R.declor sp (ws ++ [.ptr]) c
  | .arrayDeclor => do
    require (!lastFunc ws)
    let e ← kid a 1
    let n ← R.expr e
    let v ← signedConst n
    require (v > 0)
    let v := toInt32 v
    if v < 0 then ub
    else do
      let c ← kid a 0
      R.declor sp (ws ++ [.arr v.toNat]) c
  | .funcDeclor => do
    require (!lastArr ws)
    require (!lastFunc ws)
    let p ← kid a 1
    let ps ← paramList R p
    let c ← kid a 0
    R.declor sp (ws ++ [.func ps]) c
  | .identDeclor | .absDeclor => do
    require (!(lastArr ws && (definedType sp).isIncomplete))
    require (!(lastFunc ws && (definedType sp).isIncomplete && !sp.isVoid))
    match a.type with
    | .identDeclor => do let n ← ident a; pure (ws, some n)
    | _ => pure (ws, none)
  | _ => fatal

/-! ### struct and enum specifiers -/

/-- `resolve_struct_declarator`, declaration.c:381-414; `new_string(NULL)` for a declarator without a name is undefined -/
def structDeclor (sp : DType) (a : Ast) : RM (Str × DType) := do
  let (ws, n) ← R.declor sp [] a
  let t := connect ws sp
  require (!t.isIncomplete)
  require (match t with | .func _ _ => false | _ => true)
  match n with
  | some n => pure (n, t)
  | none => ub

/-- `resolve_struct_decl` and `resolve_struct_declarator_list`, declaration.c:317-379 -/
def structDecl (a : Ast) : RM (List (Str × DType)) := do
  let sp ← kid a 0
  let t ← R.spec sp
  let ds ← kid a 1
  collect (structDeclor R t) ds.children

def Members.ofList : List (Str × DType) → Members
  | [] => .nil
  | (n, t) :: l => .cons n t 0 (Members.ofList l)

/-- `resolve_struct_decl_list`, declaration.c:256-315 -/
def structDeclList (a : Ast) : RM Members := do
  let mss ← collect (structDecl R) a.children
  let ms := mss.flatten
  require (distinct (ms.map (·.1)))
  pure (Members.ofList ms)

/-- size and alignment of the `dstruct` of a type; NULL dereference if it is not a struct -/
def dims : DType → RM (Nat × Nat)
  | .nstruct _ b a | .ustruct _ b a => pure (b, a)
  | _ => ub

/-- `resolve_struct_specifier`, declaration.c:193-254 -/
def structSpec (a : Ast) : RM DType := do
  let name ← match a.children[0]? with
    | some c => if c.type = .structName then do let n ← ident c; pure (some n) else pure none
    | none => pure none
  let members ← match a.children[if name.isSome then 1 else 0]? with
    | some c => if c.type = .structDeclList then do let ms ← structDeclList R c; pure (some ms) else pure none
    | none => pure none
  match name, members with
  | none, some ms => lift (DType.newUnnamedStruct ms)
  | none, none => ub
  | some n, none => do
    let s ← get
    match lookup n s.tags with
    | none => pure (.nstruct n 0 0)
    | some t => do
      let (b, al) ← dims t
      pure (.nstruct n b al)
  | some n, some ms => do
    let s ← get
    require (canDefine n s.tags)
    let t ← lift (DType.newUnnamedStruct ms)
    modify fun s => { s with tags := define n t s.tags }
    pushTag n t
    let (b, al) ← dims t
    pure (.nstruct n b al)

/-- the value of an enumerator, declaration.c:527-554 -/
def enumValue (next : Int) (a : Ast) : RM Int :=
  match a.children with
  | [_] => pure next
  | _ => do
    let e ← kid a 1
    let e ← R.expr e
    let v ← signedConst e
    pure (toInt32 v)

/-- `resolve_enumerator`, declaration.c:509-566. `default_enum_value` is an `int`: overflow is undefined. -/
def enumerator (a : Ast) : RM (Str × Int) := do
  let c ← kid a 0
  let n ← ident c
  let s ← get
  require (canDefine n s.syms)
  let v ← enumValue R s.enumNext a
  if v + 1 ≥ 2147483648 then ub
  else do
    modify fun s => { s with syms := define n (.int ⟨.int, v⟩) s.syms, enumNext := v + 1 }
    pure (n, v)

/-- `resolve_enumerator_list`, declaration.c:471-507 -/
def enumeratorList (a : Ast) : RM (List (Str × Int)) := do
  modify fun s => { s with enumNext := 0 }
  let r ← attempt (collect (enumerator R) a.children)
  modify fun s => { s with enumNext := 0 }
  ofOpt r

/-- `resolve_enum_specifier`, declaration.c:416-469 -/
def enumSpec (a : Ast) : RM DType := do
  let name ← match a.children[0]? with
    | some c => if c.type = .enumName then do let n ← ident c; pure (some n) else pure none
    | none => pure none
  let members ← match a.children[if name.isSome then 1 else 0]? with
    | some c => if c.type = .enumorList then do let ms ← enumeratorList R c; pure (some ms) else pure none
    | none => pure none
  match name, members with
  | none, some _ => pure .int
  | none, none => ub
  | some _, none => pure .int
  | some n, some ms => do
    let s ← get
    require (canDefine n s.tags)
    modify fun s => { s with tags := define n (.uenum ms) s.tags }
    pure .int

/-- `resolve_typedef_name_specifier`, declaration.c:568-599; a missing symbol or one that is not a typedef is a NULL dereference -/
def typedefName (a : Ast) : RM DType := do
  let n ← ident a
  let s ← get
  match lookup n s.syms with
  | some (.obj (.tdef t)) =>
    if !t.isIncomplete then pure t
    else match t with
      | .nstruct m _ _ =>
        match lookup m s.tags with
        | none => pure t
        | some (.ustruct _ b al) | some (.nstruct _ b al) => pure (.nstruct m b al)
        | some _ => fatal
      | .ustruct _ _ _ => ub
      | _ => fatal
  | _ => ub

/-- the type specifiers of a list as `AstType` values, declaration.c:109-113 -/
def codes (cs : List Ast) : List Nat := cs.map fun c => c.type.ctorIdx

/-- `resolve_type_specifier_list`, declaration.c:93-191 -/
def spec (a : Ast) : RM DType :=
  if a.children.length < 1 ∨ a.children.length > 4 then fail
  else do
    let sorted ← lift (Specifiers.sortAll (codes a.children))
    match Specifiers.table sorted with
    | none => fail
    | some (.type t) => pure t
    | some .structChild => do let c ← kid a 0; structSpec R c
    | some .enumChild => do let c ← kid a 0; enumSpec R c
    | some .typedefChild => do let c ← kid a 0; typedefName c

/-! ### expressions -/

/-- operands of a binary expression, resolved and decayed: e.g. expression.c:302-321 -/
def operands (a : Ast) : RM (SExpr × SExpr) := do
  let l ← kid a 0
  let l ← R.expr l
  let r ← kid a 1
  let r ← R.expr r
  pure (decay l, decay r)

/-- `resolve_assignment_expr`, expression.c:106-160 -/
def assignment (a : Ast) : RM SExpr := do
  let l ← kid a 0
  let l ← R.expr l
  let r ← kid a 1
  let r ← R.expr r
  let r := decay r
  require l.isModifiable
  require (DType.isAssignable l.dt r.dt)
  let r := if DType.equals r.dt l.dt then r else .un .cast l.dt r
  pure (.bin .assign l.dt (toPtr l) r)

/-- the operator of a compound assignment, expression.c:171-206 -/
def compoundOp : AstT → Option AstT
  | .mulAssign => some .mul | .divAssign => some .div | .modAssign => some .mod | .addAssign => some .add | .subAssign => some .sub
  | .lshiftAssign => some .lshift | .rshiftAssign => some .rshift | .orAssign => some .or | .xorAssign => some .xor
  | .andAssign => some .and
  | _ => none

/-- `resolve_compound_assignment_expr`, expression.c:162-220: `l op= r` is resolved as `l = l op r` -/
def compoundAssignment (a : Ast) : RM SExpr :=
  match compoundOp a.type with
  | none => fatal
  | some op => do
    let l ← kid a 0
    let r ← kid a 1
    assignment R (.node .assign [l, .node op [l, r]])

/-- the operands are pointers to compatible types -/
def compatPtrs : DType → DType → Bool
  | .ptr a, .ptr b => DType.equals a b
  | _, _ => false

/-- `resolve_conditional_expr`, expression.c:222-291 -/
def conditional (a : Ast) : RM SExpr := do
  let c ← kid a 0
  let c ← R.expr c
  let c := decay c
  require c.dt.isScalar
  let l ← kid a 1
  let l ← R.expr l
  let l := decay l
  let r ← kid a 2
  let r ← R.expr r
  let r := decay r
  if l.dt.isArithmetic && r.dt.isArithmetic then
    pure (.cond (usual l r).1.dt c (usual l r).1 (usual l r).2)
  else if compatPtrs l.dt r.dt then pure (.cond l.dt c l r)
  else match l.dt, r.dt with
    | .nstruct _ _ _, .nstruct _ _ _ | .ustruct _ _ _, .ustruct _ _ _ =>
      if DType.equals l.dt r.dt then pure (.cond l.dt c l r) else fail
    | _, _ => fail

/-- `resolve_logical_expr`, expression.c:293-372 -/
def logical (op : SBin) (a : Ast) : RM SExpr := do
  let (l, r) ← operands R a
  require (l.dt.isScalar && r.dt.isScalar)
  pure (.bin op .int l r)

/-- `resolve_bitwise_expr` expression.c:374-451, `resolve_shift_expr` expression.c:650-717, `resolve_multiplicative_expr`
expression.c:863-939: the operands are converted, then have to be integers (arithmetic for `*` and `/`, which is the same) -/
def arith (op : SBin) (a : Ast) : RM SExpr := do
  let (l, r) ← operands R a
  let (l, r) := usual l r
  require (l.dt.isInteger && r.dt.isInteger)
  pure (.bin op l.dt l r)

/-- `resolve_equality_expr` expression.c:453-535, `resolve_relational_expr` expression.c:537-648 -/
def comparison (op : SBin) (a : Ast) : RM SExpr := do
  let (l, r) ← operands R a
  if l.dt.isArithmetic && r.dt.isArithmetic then
    pure (.bin op .int (usual l r).1 (usual l r).2)
  else if compatPtrs l.dt r.dt then pure (.bin op .int l r)
  else fail

/-- `->type == DTYPE_POINTER` -/
def isPtr : DType → Bool
  | .ptr _ => true
  | _ => false

/-- `resolve_add_expr`, expression.c:746-800 -/
def addExpr (a : Ast) : RM SExpr := do
  let (l, r) ← operands R a
  if l.dt.isArithmetic && r.dt.isArithmetic then
    pure (.bin .add (usual l r).1.dt (usual l r).1 (usual l r).2)
  else if isPtr l.dt && r.dt.isInteger then pure (.bin .padd l.dt l r)
  else if l.dt.isInteger && isPtr r.dt then pure (.bin .padd r.dt r l)
  else fail

/-- `resolve_subtract_expr`, expression.c:802-861 -/
def subExpr (a : Ast) : RM SExpr := do
  let (l, r) ← operands R a
  if l.dt.isArithmetic && r.dt.isArithmetic then
    pure (.bin .sub (usual l r).1.dt (usual l r).1 (usual l r).2)
  else if isPtr l.dt && r.dt.isInteger then pure (.bin .psub l.dt l r)
  else if compatPtrs l.dt r.dt then pure (.bin .pdiff .ullong l r)
  else fail

/-- `resolve_cast_expr`, expression.c:941-975 -/
def castExpr (a : Ast) : RM SExpr := do
  let t ← kid a 0
  let t ← typeName R t
  let e ← kid a 1
  let e ← R.expr e
  require (t.isVoid || (t.isScalar && e.dt.isScalar))
  pure (.un .cast t e)

/-- `resolve_address_expr`, expression.c:1030-1058 -/
def addressExpr (a : Ast) : RM SExpr := do
  let e ← kid a 0
  let e ← R.expr e
  require (match e.dt with | .func _ _ => true | _ => match e with
    | .un .indir _ _ => true
    | .ident t _ => t.isObject
    | _ => false)
  pure (.un .addr (.ptr e.dt) e)

/-- `resolve_indirection_expr`, expression.c:1060-1089 -/
def indirectionExpr (a : Ast) : RM SExpr := do
  let e ← kid a 0
  let e ← R.expr e
  let e := decay e
  match e.dt with
  | .ptr t => pure (.un .indir t e)
  | _ => fail

/-- `resolve_sign_expr` expression.c:1091-1119, `resolve_bitwise_not_expr` expression.c:1121-1149 (arithmetic types are integers) -/
def signExpr (op : SUn) (a : Ast) : RM SExpr := do
  let e ← kid a 0
  let e ← R.expr e
  require e.dt.isInteger
  pure (.un op (promote e).dt (promote e))

/-- `resolve_logical_not_expr`, expression.c:1151-1180 -/
def lnotExpr (a : Ast) : RM SExpr := do
  let e ← kid a 0
  let e ← R.expr e
  let e := decay e
  require e.dt.isScalar
  pure (.un .lnot .int e)

/-- `resolve_sizeof_expr`, expression.c:1182-1220 -/
def sizeofExpr (a : Ast) : RM SExpr := do
  let c ← kid a 0
  let t ← if c.type = .typeName then typeName R c else do let e ← R.expr c; pure e.dt
  require (match t with | .func _ _ => false | _ => !t.isIncomplete)
  pure (.ilit .int ⟨.int, t.nbytes⟩)

/-- `resolve_incdec_expr`, expression.c:1437-1472 -/
def incdecExpr (op : SUn) (a : Ast) : RM SExpr := do
  let e ← kid a 0
  let e ← R.expr e
  require e.isModifiable
  require (e.dt.isInteger || isPtr e.dt)
  pure (.un op e.dt (toPtr e))

/-- `resolve_subscription_expr`, expression.c:1261-1320 -/
def subscriptionExpr (a : Ast) : RM SExpr := do
  let (l, r) ← operands R a
  require ((isPtr l.dt && r.dt.isInteger) || (l.dt.isInteger && isPtr r.dt))
  let (l, r) := if isPtr r.dt then (r, l) else (l, r)
  match l.dt with
  | .ptr t => do
    require t.isObject
    pure (.un .indir t (.bin .padd l.dt l r))
  | _ => ub

def Params.types : Params → List DType
  | .nil => []
  | .cons _ t ps => t :: Params.types ps

/-- one argument, expression.c:1492-1529 -/
def argument (x : DType × Ast) : RM SExpr := do
  let e ← R.expr x.2
  let e := decay e
  require (DType.isAssignable x.1 e.dt)
  pure (if DType.equals x.1 e.dt then e else .un .cast x.1 e)

/-- `resolve_argument_expr_list`, expression.c:1474-1537. An argument that is not assignable is an error like one that does not resolve. -/
def arguments (ps : Params) (a : Ast) : RM SArgs := do
  let ts := Params.types ps
  require (ts.length = a.children.length)
  let es ← collect (argument R) (ts.zip a.children)
  pure (SArgs.ofList es)

/-- `resolve_call_expr`, expression.c:1322-1365 -/
def callExpr (a : Ast) : RM SExpr := do
  let f ← kid a 0
  let f ← R.expr f
  let f := decay f
  match f.dt with
  | .ptr (.func ps ret) => do
    let as ← kid a 1
    let as ← arguments R ps as
    pure (.call ret f as)
  | _ => fail

/-- the member with the name, `resolve_member_name_expr` expression.c:1539-1557 -/
def findMember (n : Str) : Members → Option DType
  | .nil => none
  | .cons m t _ ms => if m = n then some t else findMember n ms

/-- The struct whose members are searched, expression.c:1407-1419: `none` is "incomplete". A tag of an enum has no `dstruct`. -/
def structOf (t : DType) : RM (Option Members) :=
  match t with
  | .ustruct ms _ _ => pure (some ms)
  | .nstruct n _ _ => do
    let s ← get
    match lookup n s.tags with
    | none => pure none
    | some (.ustruct ms _ _) => pure (some ms)
    | some _ => ub
  | _ => ub

/-- `resolve_member_like_expr`, expression.c:1367-1435 -/
def memberExpr (a : Ast) : RM SExpr := do
  let e ← kid a 0
  let e ← R.expr e
  let isStruct : DType → Bool := fun t => match t with | .nstruct _ _ _ | .ustruct _ _ _ => true | _ => false
  let e ← match a.type, e.dt with
    | .member, t => if isStruct t then pure (toPtr e) else fail
    | _, .ptr t => if isStruct t then pure e else fail
    | _, _ => fail
  match e.dt with
  | .ptr t => do
    match ← structOf t with
    | none => fail
    | some ms => do
      let m ← kid a 1
      let m ← ident m
      match findMember m ms with
      | some mt => pure (.tomember mt e mt m)
      | none => fail
  | _ => ub

/-- type of an integer literal, expression.c:1625-1646 -/
def litType : ILType → DType
  | .int => .int | .uint => .uint | .long => .long | .ulong => .ulong | .llong => .llong | .ullong => .ullong

/-- `resolve_identifier_expr`, expression.c:1594-1619 -/
def identExpr (a : Ast) : RM SExpr := do
  let n ← ident a
  let s ← get
  match lookup n s.syms with
  | none => fail
  | some (.int l) => pure (.ilit .int l)
  | some (.obj t) => pure (.ident t n)

/-- `resolve_integer_expr` expression.c:1621-1651, `resolve_character_expr` expression.c:1653-1661 -/
def literalExpr (ty : ILType → DType) : Ast → RM SExpr
  | .mk _ _ (some l) _ _ => pure (.ilit (ty l.type) l)
  | _ => ub

/-- `resolve_string_expr`, expression.c:1663-1684 -/
def stringExpr : Ast → RM SExpr
  | .mk _ _ _ (some b) _ => do
    let s ← get
    let id := s.sid + 1
    let t : DType := .arr .char b.length
    modify fun s => { s with sid := id, unit := s.unit ++ [.decls [⟨.str id, t, some (.str t b)⟩]] }
    pure (.str t id)
  | _ => ub

/-- `resolve_expr`, expression.c:10-104, with `resolve_additive_expr`, `resolve_unary_expr`, `resolve_postfix_expr`, `resolve_primary_expr` -/
def expr (a : Ast) : RM SExpr :=
  match a.type with
  | .assign => assignment R a
  | .mulAssign | .divAssign | .modAssign | .addAssign | .subAssign | .lshiftAssign | .rshiftAssign | .orAssign | .xorAssign
  | .andAssign => compoundAssignment R a
  | .cond => conditional R a
  | .lor => logical R .lor a
  | .land => logical R .land a
  | .or => arith R .or a
  | .xor => arith R .xor a
  | .and => arith R .and a
  | .equal => comparison R .equal a
  | .nequal => comparison R .nequal a
  | .less => comparison R .less a
  | .greater => comparison R .greater a
  | .lesseq => comparison R .lesseq a
  | .greatereq => comparison R .greatereq a
  | .lshift => arith R .lshift a
  | .rshift => arith R .rshift a
  | .add => addExpr R a
  | .sub => subExpr R a
  | .mul => arith R .mul a
  | .div => arith R .div a
  | .mod => arith R .mod a
  | .cast => castExpr R a
  | .preinc => incdecExpr R .preinc a
  | .predec => incdecExpr R .predec a
  | .addr => addressExpr R a
  | .indir => indirectionExpr R a
  | .pos => signExpr R .pos a
  | .neg => signExpr R .neg a
  | .not => signExpr R .not a
  | .lnot => lnotExpr R a
  | .sizeof => sizeofExpr R a
  | .subsc => subscriptionExpr R a
  | .call => callExpr R a
  | .member | .tomember => memberExpr R a
  | .postinc => incdecExpr R .postinc a
  | .postdec => incdecExpr R .postdec a
  | .identExpr => identExpr a
  | .intExpr => literalExpr litType a
  | .charExpr => literalExpr (fun _ => .int) a
  | .stringExpr => stringExpr a
  | _ => fatal

/-! ### initialisers -/

/-- types of the elements of an aggregate, `dtype_aggregate_size` and `dtype_aggregate_at`, dtype.c:212-232: a named struct has no members,
other types no elements -/
def elems : DType → RM (List DType)
  | .arr t n => pure (List.replicate n t)
  | .ustruct ms _ _ => pure (types ms)
  | .nstruct _ _ _ => ub
  | _ => pure []
where
  types : Members → List DType
    | .nil => []
    | .cons _ t _ ms => t :: types ms

/-- `resolver->initialized_dtype = tagtable_search(...)` for a struct without members: declaration.c:1036-1037, 1082-1084; the NULL result is
dereferenced -/
def complete (t : DType) : RM DType :=
  match t with
  | .nstruct n _ _ => do
    let s ← get
    match lookup n s.tags with
    | some t => pure t
    | none => ub
  | t => pure t

/-- `resolve_zero_scalar_initializer`, declaration.c:1271-1283 -/
def zeroScalar (t : DType) : SInit :=
  .expr (if DType.equals t .int then .ilit .int ⟨.int, 0⟩ else .un .cast t (.ilit .int ⟨.int, 0⟩))

/-- `resolve_zero_initializer` with `resolve_zero_aggregate_initializer`, declaration.c:1061-1095, 1285-1303. The zero initialisers return no errors. -/
def zero (t : DType) : RM SInit :=
  match t with
  | .char | .int | .ptr _ => pure (zeroScalar t)
  | .arr _ _ => do
    let ts ← elems t
    let is ← collect R.zero ts
    pure (.list (SInits.ofList is))
  | .nstruct _ _ _ | .ustruct _ _ _ => do
    let t ← complete t
    let ts ← elems t
    let is ← collect R.zero ts
    pure (.list (SInits.ofList is))
  | _ => fatal

/-- `ast_isexpr`, ast.c:74-76 -/
def isExprNode (a : Ast) : Bool := AstT.assign.ctorIdx ≤ a.type.ctorIdx && a.type.ctorIdx ≤ AstT.stringExpr.ctorIdx

/-- an initialiser list for a scalar must have one element, declaration.c:1106-1120 -/
def unbrace (a : Ast) : RM Ast :=
  if a.type = .initList then
    if a.children.length > 1 then fail else kid a 0
  else pure a

/-- `resolve_scalar_initializer`, declaration.c:1097-1149 -/
def scalarInit (t : DType) (a : Ast) : RM SInit := do
  modify fun s => { s with initOff := s.initOff + 1 }
  let a ← unbrace a
  require (isExprNode a)
  let e ← R.expr a
  let e := decay e
  require (DType.isAssignable t e.dt)
  pure (.expr (if DType.equals t e.dt then e else .un .cast t e))

/-- `dtype_isaggregate`, dtype.c:307-309 -/
def isAggregate : DType → Bool
  | .arr _ _ | .nstruct _ _ _ | .ustruct _ _ _ => true
  | _ => false

/-- one element initialiser, declaration.c:1177-1200: `c` is the initialiser at the offset `off` of the list `a` -/
def elemInit (a : Ast) (t : DType) (off : Int) (c : Ast) : RM (Option SInit) :=
  if isAggregate t && c.type ≠ .initList then attempt (R.init true t a)
  else do
    modify fun s => { s with initOff := 0 }
    let r ← attempt (R.init false t c)
    modify fun s => { s with initOff := off + 1 }
    pure r

/-- the element initialisers, declaration.c:1169-1222: the given initialisers while there are any, then zeros. The argument is the list of
types of the elements not yet initialised. -/
def elemInits (a : Ast) : List DType → RM (List SInit)
  | [] => pure []
  | t :: ts => do
    let s ← get
    let off := s.initOff
    if off < a.children.length then do
      -- `vector_at` with a negative offset is NULL
      let c ← if off < 0 then ub else kid a off.toNat
      let r ← elemInit R a t off c
      let rs ← attempt (elemInits a ts)
      match r, rs with
      | some i, some is => pure (i :: is)
      | _, _ => fail
    else collect R.zero (t :: ts)

/-- `resolve_aggregate_initializer`, declaration.c:1151-1241 -/
def aggregateInit (nested : Bool) (t : DType) (a : Ast) : RM SInit := do
  require (a.type = .initList)
  let ts ← elems t
  let r ← attempt (elemInits R a ts)
  let s ← get
  require (nested || !(s.initOff < a.children.length))
  let is ← ofOpt r
  pure (.list (SInits.ofList is))

/-- the element of an initialiser list with one element, declaration.c:1251-1253 -/
def onlyChild (a : Ast) : Ast :=
  if a.type = .initList then match a.children with | [c] => c | _ => a else a

/-- `resolve_string_initializer`, declaration.c:1243-1269, for an array of `n` characters -/
def stringInit (nested : Bool) (n : Nat) (a : Ast) : RM SInit := do
  if (onlyChild a).type ≠ .stringExpr then aggregateInit R nested (.arr .char n) a
  else match onlyChild a with
    | .mk _ _ _ (some b) _ => do
      require (!(b.length > n + 1))
      pure (.str (.arr .char n) (Literal.zeroPad b n))
    | _ => ub

/-- `resolve_initializer`, declaration.c:1021-1059 -/
def init (nested : Bool) (t : DType) (a : Ast) : RM SInit :=
  if t.isScalar then scalarInit R t a
  else match t with
    | .arr .char n => stringInit R nested n a
    | .nstruct _ _ _ => do
      let t ← complete t
      aggregateInit R nested t a
    | .arr _ _ | .ustruct _ _ _ => aggregateInit R nested t a
    | .func _ _ | .tdef _ => fail
    | _ => fatal

/-! ### declarations -/

/-- the declarator's sockets go inside the typedef, declaration.c:653-662 -/
def connectSpec (ws : List Wrap) : DType → DType
  | .tdef t => .tdef (connect ws t)
  | t => connect ws t

/-- `resolve_init_declarator`, declaration.c:637-711; a declarator without a name does not occur here (`strcmp` with NULL otherwise) -/
def initDeclor (sp : DType) (a : Ast) : RM SDecl := do
  let d ← kid a 0
  let (ws, n) ← R.declor sp [] d
  let t := connectSpec ws sp
  match n with
  | none => ub
  | some n => do
    let s ← get
    require (canDefine n s.syms)
    require (!t.isIncomplete)
    modify fun s => { s with syms := define n (.obj t) s.syms }
    match a.children with
    | [_] => pure ⟨.ident n, t, none⟩
    | _ => do
      modify fun s => { s with initOff := 0 }
      let i ← kid a 1
      let r ← attempt (R.init false t i)
      modify fun s => { s with initOff := -1 }
      let i ← ofOpt r
      pure ⟨.ident n, t, some i⟩

/-- `resolve_decl` with `resolve_init_declarator_list`, declaration.c:13-46, 601-635 -/
def decl (a : Ast) : RM (List SDecl) := do
  let sp ← kid a 0
  let t ← declSpecs R sp
  match a.children with
  | [_] => pure []
  | _ => do
    let ds ← kid a 1
    collect (initDeclor R t) ds.children

/-! ### statements -/

/-- children of a compound statement, statement.c:183-208 -/
def item (lp : Bool) (ret : DType) (a : Ast) : RM SItem :=
  if a.type = .decl then do let ds ← decl R a; pure (.decls ds)
  else do let s ← R.stmt lp ret a; pure (.stmt s)

/-- the loop over the children: each result is appended to `scope_srt`, to which struct definitions in the child were appended before;
after an error results are dropped -/
def items (lp : Bool) (ret : DType) : List Ast → RM Unit
  | [] => pure ()
  | a :: as => do
    let r ← attempt (item R lp ret a)
    match r with
    | some i => do
      modify fun s => match s.blocks with
        | [] => s
        | b :: bs => { s with blocks := (b ++ [i]) :: bs }
      items lp ret as
    | none => do
      let _ ← attempt (items lp ret as)
      fail

/-- `resolve_compound_stmt`, statement.c:175-217 -/
def compound (lp : Bool) (ret : DType) (a : Ast) : RM SItems := do
  modify fun s => { s with blocks := [] :: s.blocks }
  let r ← attempt (items R lp ret a.children)
  let s ← get
  match s.blocks with
  | [] => ub
  | b :: bs => do
    modify fun s => { s with blocks := bs }
    match r with
    | some () => pure (SItems.ofList b)
    | none => fail

/-- `symboltable_enter_scope`, `tagtable_enter_scope` -/
def enter : RM Unit := modify fun s => { s with syms := [] :: s.syms, tags := [] :: s.tags }
/-- `symboltable_exit_scope`, `tagtable_exit_scope` -/
def leave : RM Unit := modify fun s => { s with syms := s.syms.tail, tags := s.tags.tail }
/-- a scope around a call, left also after errors: statement.c:16-20, 53-57 -/
def inScope (m : RM α) : RM α := do
  enter
  let r ← attempt m
  leave
  ofOpt r

/-- the label is compared with the earlier ones and added to them, statement.c:92-118 -/
def addCase (e : SExpr) : RM Unit := do
  let v ← signedConst e
  let s ← get
  match s.cases with
  | none => ub
  | some cs => do
    require (!cs.any (fun l => l.value = v))
    match e with
    | .ilit _ l => modify fun s => { s with cases := some (cs ++ [l]) }
    | _ => ub

/-- `resolve_case_stmt`, statement.c:71-134. Promoting an integer literal does nothing: its type is not `char`. -/
def caseStmt (lp : Bool) (ret : DType) (a : Ast) : RM SStmt := do
  let s ← get
  require s.cases.isSome
  let e ← kid a 0
  let e ← R.expr e
  addCase e
  let b ← kid a 1
  let b ← R.stmt lp ret b
  pure (.case (promote e) b)

/-- `resolve_default_stmt`, statement.c:136-173 -/
def defaultStmt (lp : Bool) (ret : DType) (a : Ast) : RM SStmt := do
  let s ← get
  require s.cases.isSome
  require (!s.dflt)
  modify fun s => { s with dflt := true }
  let b ← kid a 0
  let b ← R.stmt lp ret b
  pure (.dflt b)

/-- `resolve_return_stmt`, statement.c:219-267 -/
def returnStmt (ret : DType) (a : Ast) : RM SStmt := do
  require (ret.isVoid = a.children.isEmpty)
  match a.children with
  | [] => pure (.ret none)
  | c :: _ => do
    let e ← R.expr c
    let e := decay e
    require (DType.isAssignable e.dt ret)
    pure (.ret (some (if DType.equals e.dt ret then e else .un .cast ret e)))

/-- `resolve_if_else_stmt`, statement.c:317-367 -/
def ifStmt (lp : Bool) (ret : DType) (a : Ast) : RM SStmt := do
  let c ← kid a 0
  let c ← R.expr c
  let c := decay c
  require c.dt.isScalar
  let t ← kid a 1
  let t ← R.stmt lp ret t
  if a.children.length = 2 then pure (.ite c t)
  else do
    let e ← kid a 2
    let e ← R.stmt lp ret e
    pure (.itee c t e)

/-- `resolve_switch_stmt`, statement.c:369-418 -/
def switchStmt (lp : Bool) (ret : DType) (a : Ast) : RM SStmt := do
  let c ← kid a 0
  let c ← R.expr c
  let c := promote (decay c)
  require c.dt.isInteger
  let old ← get
  modify fun s => { s with cases := some [], dflt := false }
  let b ← kid a 1
  let r ← attempt (R.stmt lp ret b)
  modify fun s => { s with cases := old.cases, dflt := old.dflt }
  let b ← ofOpt r
  pure (.switch c b)

/-- `resolve_while_stmt`, statement.c:420-462 -/
def whileStmt (ret : DType) (a : Ast) : RM SStmt := do
  let c ← kid a 0
  let c ← R.expr c
  let c := decay c
  require c.dt.isScalar
  let b ← kid a 1
  let b ← R.stmt true ret b
  pure (.while c b)

/-- the first part of a `for`, statement.c:471-499 -/
def forInit (lp : Bool) (ret : DType) (i : Ast) : RM SItem :=
  if i.type = .decl then do
    let ds ← decl R i
    require (!ds.any (fun d => isTdef d.dt))
    pure (.decls ds)
  else do
    let s ← R.stmt lp ret i
    pure (.stmt s)

/-- the check of the condition, statement.c:511-521 -/
def forCond : SStmt → RM Unit
  | .expr e => require e.dt.isScalar
  | _ => pure ()

/-- `resolve_for_stmt`, statement.c:464-550 -/
def forStmt (lp : Bool) (ret : DType) (a : Ast) : RM SStmt := do
  let i ← kid a 0
  let i ← forInit R lp ret i
  let c ← kid a 1
  let c ← R.stmt lp ret c
  forCond c
  let s ← kid a 2
  let s ← R.stmt lp ret s
  let b ← kid a 3
  let b ← R.stmt true ret b
  pure (.for i c s b)

/-- `resolve_stmt`, statement.c:9-69, with the continue, break, expression and null statements, statement.c:269-315 -/
def stmt (lp : Bool) (ret : DType) (a : Ast) : RM SStmt :=
  match a.type with
  | .cmpdStmt => inScope (do let b ← compound R lp ret a; pure (.cmpd b))
  | .caseStmt => caseStmt R lp ret a
  | .defaultStmt => defaultStmt R lp ret a
  | .continueStmt => do require lp; pure .cont
  | .breakStmt => do
    let s ← get
    require (lp || s.cases.isSome)
    pure .brk
  | .retStmt => returnStmt R ret a
  | .exprStmt => do
    let e ← kid a 0
    let e ← R.expr e
    pure (.expr (decay e))
  | .nullStmt => pure .null
  | .ifStmt => ifStmt R lp ret a
  | .switchStmt => switchStmt R lp ret a
  | .whileStmt => whileStmt R ret a
  | .forStmt => inScope (forStmt R lp ret a)
  | _ => fatal

/-! ### external.c -/

def Params.names : Params → List (Option Str)
  | .nil => []
  | .cons n _ ps => n :: Params.names ps

/-- parameters become memory symbols of the function's scope, external.c:137-142; a name defined twice stays as it is (the names are distinct) -/
def defineParams : Params → RM Unit
  | .nil => pure ()
  | .cons (some n) t ps => do
    modify fun s => if canDefine n s.syms then { s with syms := define n (.obj t) s.syms } else s
    defineParams ps
  | .cons none _ _ => ub

/-- `resolve_function_definition`, external.c:54-160 -/
def funcDef (a : Ast) : RM SExt := do
  let sp ← kid a 0
  let t ← declSpecs R sp
  require (!isTdef t)
  let d ← kid a 1
  let (ws, n) ← R.declor t [] d
  match connect ws t with
  | .func ps ret =>
    match n with
    | none => ub
    | some n => do
      let s ← get
      require (canDefine n s.syms)
      require ((Params.names ps).all (·.isSome))
      modify fun s => { s with syms := define n (.obj (.func ps ret)) s.syms }
      let b ← kid a 2
      let body ← inScope (do
        defineParams ps
        compound R false ret b)
      pure (.func n (.func ps ret) body)
  | _ => fail

/-- one external declaration, external.c:22-27 -/
def external (a : Ast) : RM SExt :=
  if a.type = .funcDef then funcDef R a else do let ds ← decl R a; pure (.decls ds)

/-- the loop of `resolve_transration_unit`, external.c:17-42 -/
def externals : List Ast → RM Unit
  | [] => pure ()
  | a :: as => do
    let r ← attempt (external R a)
    match r with
    | some x => do
      modify fun s => { s with unit := s.unit ++ [x] }
      externals as
    | none => do
      let _ ← attempt (externals as)
      fail

/-- `resolve_transration_unit`, external.c:8-52 -/
def transUnit (a : Ast) : RM (List SExt) := do
  let r ← attempt (externals R a.children)
  let s ← get
  match r with
  | some () => pure s.unit
  | none => fail

/-- one level of calls -/
def step : Rec := ⟨expr R, spec R, declor R, init R, zero R, stmt R⟩

end

/-- the resolver with calls nested at most `n` deep -/
def resolver : Nat → Rec
  | 0 => Rec.bot
  | n + 1 => step (resolver n)

/-- `new_resolver`, resolver.c:5-26, with `scope_srt`, `trans_unit_srt` set by external.c:14-15 -/
def initial : RState := ⟨[[]], [[]], none, false, 0, -1, -1, [], []⟩

/-- `resolver_resolve_semantics`, resolver.c:28-30: `none` is "errors" -/
def resolve (n : Nat) (a : Ast) : Out (Option (List SExt)) :=
  match transUnit (resolver n) a initial with
  | .ok (r, _) => .ok r
  | .err => .err
  | .fatal => .fatal
  | .ub => .ub
  | .hang => .hang

end Res
end Umlcc
