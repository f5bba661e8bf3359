import Verif.Spec.Syntax
import Verif.Spec.Types
import Verif.Spec.CSem
/-!
Static semantics of C expressions, written from the standard (C11 6.3, 6.5, 6.7.2, 6.7.6): which expressions of the grammar (`Syn.Expr`) are
allowed, and the typed tree (`SExpr`) each has, with every conversion explicit. Independent of the resolver.

* `ok x`: allowed, with this tree; `bad`: a constraint is violated; `out`: not described here.
* With `lim` the cases in which the compiler is known to differ from C become `out`. With `lim` false this is C, and `out` only for: struct and
  enum definitions inside expressions, array sizes in type names that are not literals or enumerators or are 2^31 or more, a left operand of a
  compound assignment with side effects or string literals (the typed trees have no node for such an assignment, see C29), and names that
  the grammar would not have taken for identifiers.
* Types are those of the compiler (`DType`): `int` has 4 bytes, `long` 8, plain `char` is signed. Named structs carry a copy of
  their size and alignment; `refresh` is the type with the copies brought up to date. A struct type is identified with its tag, so nothing is said about a tag
  that hides another one. Enumerated types are `int`.
* String literals are numbered in the order in which they stand in the text, those of the left operand of a compound assignment do not occur.
-/
namespace Umlcc

deriving instance DecidableEq for TSpec.Shape, TSpec.Shapes

namespace Stat
open Syn TSpec

inductive V (α : Type) where
  | ok (a : α)
  | bad
  | out
  deriving DecidableEq

namespace V
def bind : V α → (α → V β) → V β
  | ok a, f => f a
  | bad, _ => bad
  | out, _ => out
instance : Monad V where
  pure := ok
  bind := bind
end V

/-- `bad` unless the condition holds -/
def must (b : Bool) : V Unit := if b then .ok () else .bad
/-- known to differ -/
def differs (lim : Bool) (v : V α) : V α := if lim then .out else v

/-- what an ordinary identifier is declared as -/
inductive Name where
  | const (l : ILit)
  | obj (t : DType)
  | type (t : DType)

/-- what a tag is declared as -/
inductive Tag where
  | struct (ms : Members) (nbytes alignment : Nat)
  | enum

structure Scope where
  names : Id → Option Name
  tags : Id → Option Tag

/-! ### types -/

mutual
/-- the type with the sizes of the structs as they are now -/
def refresh (Γ : Scope) : DType → DType
  | .ptr t => .ptr (refresh Γ t)
  | .arr t n => .arr (refresh Γ t) n
  | .func ps t => .func (refreshP Γ ps) (refresh Γ t)
  | .nstruct n b a => match Γ.tags n with
    | some (.struct _ b a) => .nstruct n b a
    | _ => .nstruct n b a
  | t => t
def refreshP (Γ : Scope) : Params → Params
  | .nil => .nil
  | .cons n t ps => .cons n (refresh Γ t) (refreshP Γ ps)
end

/-- a recorded type: the compiler does not bring it up to date -/
def known (lim : Bool) (Γ : Scope) (t : DType) : V DType :=
  if refresh Γ t = t then .ok t else differs lim (.ok (refresh Γ t))

/-- 6.2.5p17: the integer types; an enumerated type is like `int` -/
def intOf : DType → Option IntTy
  | .char => some .char | .int => some .int | .uint => some .uint | .long => some .long | .ulong => some .ulong
  | .llong => some .llong | .ullong => some .ullong
  | .nenum _ | .uenum _ => some .int
  | _ => none
def enumTy : DType → Bool
  | .nenum _ | .uenum _ => true
  | _ => false
def ptrTy : DType → Bool
  | .ptr _ => true
  | _ => false
def funcTy : DType → Bool
  | .func _ _ => true
  | _ => false
def arrTy : DType → Bool
  | .arr _ _ => true
  | _ => false
def structTy : DType → Bool
  | .nstruct _ _ _ | .ustruct _ _ _ => true
  | _ => false
def voidTy : DType → Bool
  | .void => true
  | _ => false
/-- 6.2.5p21 -/
def scalar (t : DType) : Bool := (intOf t).isSome || ptrTy t
/-- incomplete types: `void` and structs without members so far -/
def incomplete : DType → Bool
  | .void => true
  | .nstruct _ b _ | .ustruct _ b _ => b == 0
  | _ => false
/-- complete object types -/
def object : DType → Bool
  | .void | .func _ _ | .tdef _ => false
  | t => !incomplete t
/-- 6.2.7: the same structure (parameter names and copied sizes do not count) -/
def compat (a b : DType) : Bool := decide (shape a = shape b)

/-- 6.3.2.1p3, p4 -/
def decay (x : SExpr) : SExpr :=
  match x.dt with
  | .arr t _ => .un .addr (.ptr t) x
  | .func _ _ => .un .addr (.ptr x.dt) x
  | _ => x

/-- conversion to a type -/
def conv (t : DType) (x : SExpr) : SExpr := if compat x.dt t then x else .un .cast t x

/-! ### type names -/

/-- kinds of type specifiers -/
inductive Kind where
  | void | char | int | long | unsigned | tdname | struct | enum
  deriving DecidableEq

def kind : Spec → Kind
  | .void => .void | .char => .char | .int => .int | .long => .long | .unsigned => .unsigned
  | .tdname _ => .tdname | .structRef _ | .structDef _ _ => .struct | .enumRef _ | .enumDef _ _ => .enum

/-- 6.7.2p2, the lists of keywords -/
def spellings : List (List Kind × DType) :=
  [([.void], .void), ([.char], .char), ([.int], .int), ([.long], .long), ([.long, .int], .long), ([.long, .long], .llong),
   ([.long, .long, .int], .llong), ([.unsigned], .uint), ([.unsigned, .int], .uint), ([.unsigned, .long], .ulong),
   ([.unsigned, .long, .int], .ulong), ([.unsigned, .long, .long], .ullong), ([.unsigned, .long, .long, .int], .ullong)]

def keywords (l : List Kind) : Option DType := (spellings.find? fun p => l.isPerm p.1).map (·.2)

/-- the type a typedef name stands for: an incomplete struct is looked up again, but only directly -/
def typedefTy (lim : Bool) (Γ : Scope) (t : DType) : V DType :=
  match t with
  | .void => differs lim (.ok .void)
  | .tdef _ => .out
  | .ustruct _ b _ => if b = 0 then .out else .ok t
  | .nstruct n b _ => if b = 0 then match Γ.tags n with
      | some .enum => .out
      | _ => .ok (refresh Γ t)
    else known lim Γ t
  | t => known lim Γ t

/-- one specifier -/
def specTy (lim : Bool) (Γ : Scope) : Spec → V DType
  | .structRef n => match Γ.tags n with
    | none => .ok (.nstruct n 0 0)
    | some (.struct _ b a) => .ok (.nstruct n b a)
    | some .enum => .out
  | .enumRef n => match Γ.tags n with
    | some .enum => .ok .int
    | _ => differs lim .bad
  | .tdname n => match Γ.names n with
    | some (.type t) => typedefTy lim Γ t
    | _ => .out
  | .structDef _ _ | .enumDef _ _ => .out
  | .void => .ok .void | .char => .ok .char | .int => .ok .int | .long => .ok .long | .unsigned => .ok .uint

def specList : Specs → List Spec
  | .one s => [s]
  | .cons s ss => s :: specList ss

/-- 6.7.2 -/
def specsTy (lim : Bool) (Γ : Scope) (l : List Spec) : V DType :=
  match l with
  | [s] => specTy lim Γ s
  | l => match keywords (l.map kind) with
    | some t => .ok t
    | none => .bad

/-- 6.7.6.2p1: the number of elements -/
def sizeLit (lim : Bool) (l : ILit) : V Nat :=
  if l.type.isUnsigned then differs lim (if l.value > 0 then (if l.value < 2147483648 then .ok l.value.toNat else .out) else .bad)
  else if l.value > 0 then (if l.value < 2147483648 then .ok l.value.toNat else .out) else .bad

def sizeTy (lim : Bool) (Γ : Scope) : Expr → V Nat
  | .int l | .char l => sizeLit lim l
  | .ident n => match Γ.names n with
    | some (.const l) => sizeLit lim l
    | some (.type _) => .out
    | _ => .bad
  | _ => .out

/-- 6.7.6.3p7, p8 -/
def adjust : DType → DType
  | .arr t _ => .ptr t
  | .func ps t => .ptr (.func ps t)
  | t => t

/-- `out` counts more than `bad` -/
def V.and (v : V α) (w : V β) : V (α × β) :=
  match v, w with
  | .out, _ | _, .out => .out
  | .ok a, .ok b => .ok (a, b)
  | _, _ => .bad

def paramNames : List (Option Id × DType) → List Id
  | [] => []
  | (some n, _) :: ps => n :: paramNames ps
  | (none, _) :: ps => paramNames ps

def paramsOf : List (Option Id × DType) → Params
  | [] => .nil
  | (n, t) :: ps => .cons n t (paramsOf ps)

/-- one derivation of a declarator -/
inductive Deriv where
  | ptr
  | arr (n : Nat)
  | fn (ps : Params)

/-- 6.7.6.1 - 6.7.6.3: the type derived from `t`, nearest derivation first -/
def derive : DType → List Deriv → Option DType
  | t, [] => some t
  | t, .ptr :: ds => derive (.ptr t) ds
  | t, .arr n :: ds => if funcTy t || incomplete t then none else derive (.arr t n) ds
  | t, .fn ps :: ds => if funcTy t || arrTy t || (incomplete t && !voidTy t) then none else derive (.func ps t) ds

/-- the constraints are checked by the compiler between derivations, but not between a typedef name's type and the first derivation -/
def blind (t : DType) : List Deriv → Bool
  | .arr _ :: _ => funcTy t
  | .fn _ :: _ => funcTy t || arrTy t
  | _ => false

def deriveV (lim : Bool) (t : DType) (ds : List Deriv) : V DType :=
  if lim && blind t ds then .out
  else match derive t ds with
    | some t => .ok t
    | none => .bad

/-- 6.7.6.3p4, p10: the parameters, given those of the list -/
def paramsV (ps : ParamL) (v : V (List (Option Id × DType))) : V Params :=
  match ps with
  | .one (.mk (.one .void) none .leaf) => .ok .nil
  | _ => do
    let l ← v
    must (decide (paramNames l).Nodup)
    .ok (paramsOf l)

mutual
/-- the derivations of a declarator, nearest to the specifiers first -/
def dtor (lim : Bool) (Γ : Scope) : Dtor → V (List Deriv)
  | .leaf => .ok []
  | .ptr d => do let (_, ds) ← V.and (.ok ()) (dtor lim Γ d); .ok (.ptr :: ds)
  | .arr d e => do let (n, ds) ← V.and (sizeTy lim Γ e) (dtor lim Γ d); .ok (.arr n :: ds)
  | .fn d ps => do
    let (ps, ds) ← V.and (paramsV ps (paramL lim Γ ps)) (dtor lim Γ d)
    .ok (.fn ps :: ds)
def paramL (lim : Bool) (Γ : Scope) : ParamL → V (List (Option Id × DType))
  | .one p => do let (p, _) ← V.and (paramD lim Γ p) (.ok ()); .ok [p]
  | .cons p ps => do let (p, ps) ← V.and (paramD lim Γ p) (paramL lim Γ ps); .ok (p :: ps)
def paramD (lim : Bool) (Γ : Scope) : ParamD → V (Option Id × DType)
  | .mk ss n d => do
    let (t, ds) ← V.and (specsTy lim Γ (specList ss)) (dtor lim Γ d)
    let t ← deriveV lim t ds
    must (!incomplete (adjust t))
    .ok (n, adjust t)
end

/-- a parameter list -/
def params (lim : Bool) (Γ : Scope) (ps : ParamL) : V Params := paramsV ps (paramL lim Γ ps)

/-- 6.7.7 -/
def tyName (lim : Bool) (Γ : Scope) : TyName → V DType
  | .mk ss d => do
    let (t, ds) ← V.and (specsTy lim Γ (specList ss)) (dtor lim Γ d)
    deriveV lim t ds

/-! ### operators -/

/-- the promoted operand, 6.3.1.1p2 -/
def promote (lim : Bool) (x : SExpr) : V SExpr :=
  match intOf x.dt with
  | some i => if enumTy x.dt then differs lim (.ok (conv i.promote.toDType x)) else .ok (conv i.promote.toDType x)
  | none => .bad

/-- 6.3.1.8: the common type and the converted operands -/
def usual (lim : Bool) (l r : SExpr) : V (DType × SExpr × SExpr) :=
  match intOf l.dt, intOf r.dt with
  | some a, some b =>
    let c := (IntTy.common a b).toDType
    let v := .ok (c, conv c (conv a.promote.toDType l), conv c (conv b.promote.toDType r))
    if enumTy l.dt || enumTy r.dt then differs lim v else v
  | _, _ => .bad

/-- an expression of literals and operators only -/
def closed : SExpr → Bool
  | .ilit _ _ => true
  | .bin op _ l r => match op with
    | .assign | .padd | .psub | .pdiff => false
    | _ => closed l && closed r
  | .cond _ c l r => closed c && closed l && closed r
  | .un op _ e => match op with
    | .cast | .pos | .neg | .not | .lnot => closed e
    | _ => false
  | _ => false

def noCtx : CSem.Ctx Unit := ⟨fun _ => none, fun _ => 0, fun _ => none, fun _ _ _ _ _ => none, fun _ => false, false⟩

/-- 6.6: an integer constant expression with the value 0 -/
def zeroConst (x : SExpr) : Bool :=
  (intOf x.dt).isSome && closed x && (match CSem.eval noCtx x (fun _ => 0, ()) with | some (v, _) => v == 0 | none => false)
/-- 6.3.2.3p3 -/
def nullConst (x : SExpr) : Bool :=
  match x with
  | .un .cast (.ptr .void) e => zeroConst e
  | x => zeroConst x

def opOf : BinOp → SBin
  | .lor => .lor | .land => .land | .or => .or | .xor => .xor | .and => .and | .eq => .equal | .ne => .nequal | .lt => .less | .gt => .greater
  | .le => .lesseq | .ge => .greatereq | .shl => .lshift | .shr => .rshift | .add => .add | .sub => .sub | .mul => .mul | .div => .div | .mod => .mod

/-- 6.5.8: pointers to compatible object types -/
def ordered (lim : Bool) (op : SBin) (l r : SExpr) : V SExpr :=
  match l.dt, r.dt with
  | .ptr a, .ptr b =>
    if compat a b then if funcTy a then differs lim .bad else .ok (.bin op .int l r)
    else .bad
  | _, _ => do
    let (_, l, r) ← usual lim l r
    .ok (.bin op .int l r)

/-- 6.5.9: also pointers to `void` and null pointer constants -/
def equality (lim : Bool) (op : SBin) (l r : SExpr) : V SExpr :=
  match l.dt, r.dt with
  | .ptr a, .ptr b =>
    if compat a b then .ok (.bin op .int l r)
    else if nullConst r then differs lim (.ok (.bin op .int l (conv l.dt r)))
    else if nullConst l then differs lim (.ok (.bin op .int (conv r.dt l) r))
    else if (voidTy a && !funcTy b) || (voidTy b && !funcTy a) then differs lim (.ok (.bin op .int (conv (.ptr .void) l) (conv (.ptr .void) r)))
    else .bad
  | .ptr _, _ => if nullConst r then differs lim (.ok (.bin op .int l (conv l.dt r))) else .bad
  | _, .ptr _ => if nullConst l then differs lim (.ok (.bin op .int (conv r.dt l) r)) else .bad
  | _, _ => do
    let (_, l, r) ← usual lim l r
    .ok (.bin op .int l r)

/-- 6.5.6: `l + r` -/
def sum (lim : Bool) (l r : SExpr) : V SExpr :=
  match l.dt, r.dt with
  | .ptr _, .ptr _ => .bad
  | .ptr a, t => if (intOf t).isSome then if object a then .ok (.bin .padd l.dt l r) else differs lim .bad else .bad
  | t, .ptr a => if (intOf t).isSome then if object a then .ok (.bin .padd r.dt r l) else differs lim .bad else .bad
  | _, _ => do
    let (c, l, r) ← usual lim l r
    .ok (.bin .add c l r)

/-- 6.5.6: `l - r`; `ptrdiff_t` is `long` -/
def diff (lim : Bool) (l r : SExpr) : V SExpr :=
  match l.dt, r.dt with
  | .ptr a, .ptr b =>
    if compat a b then differs lim (if object a then .ok (.bin .pdiff .long l r) else .bad) else .bad
  | .ptr a, t => if (intOf t).isSome then if object a then .ok (.bin .psub l.dt l r) else differs lim .bad else .bad
  | _, _ => do
    let (c, l, r) ← usual lim l r
    .ok (.bin .sub c l r)

/-- 6.5.7: each operand is promoted; the compiler converts them to a common type -/
def shift (lim : Bool) (op : SBin) (l r : SExpr) : V SExpr :=
  match intOf l.dt, intOf r.dt with
  | some a, some b =>
    let v := .ok (.bin op a.promote.toDType (conv a.promote.toDType l) (conv b.promote.toDType r))
    if enumTy l.dt || enumTy r.dt || a.promote ≠ b.promote then differs lim v else v
  | _, _ => .bad

/-- 6.5.5 - 6.5.14, operands after 6.3.2.1 -/
def binary (lim : Bool) (op : BinOp) (l r : SExpr) : V SExpr :=
  match op with
  | .lor | .land => if scalar l.dt && scalar r.dt then .ok (.bin (opOf op) .int l r) else .bad
  | .or | .xor | .and | .mul | .div | .mod => do
    let (c, l, r) ← usual lim l r
    .ok (.bin (opOf op) c l r)
  | .shl | .shr => shift lim (opOf op) l r
  | .eq | .ne => equality lim (opOf op) l r
  | .lt | .gt | .le | .ge => ordered lim (opOf op) l r
  | .add => sum lim l r
  | .sub => diff lim l r

/-- 6.3.2.1p1: expressions that designate objects -/
def lvalue : SExpr → Bool
  | .ident t _ => object t
  | .str t _ => arrTy t
  | .un .indir _ _ => true
  | .tomember _ (.un .addr _ x) _ _ => lvalue x
  | .tomember _ _ _ _ => true
  | _ => false

def isMember : SExpr → Bool
  | .tomember _ _ _ _ => true
  | _ => false

/-- a modifiable lvalue; the compiler also takes members of a returned struct for that -/
def modifiable (lim : Bool) (x : SExpr) : V Unit :=
  if object x.dt && !arrTy x.dt then
    if lvalue x then .ok () else if isMember x then differs lim .bad else .bad
  else .bad

/-- 6.5.16.1: `x` converted as by assignment to an object of type `t` -/
def assignConv (lim : Bool) (t : DType) (x : SExpr) : V SExpr :=
  match t, x.dt with
  | .ptr a, .ptr b =>
    if compat a b then .ok (conv t x)
    else if voidTy a || voidTy b then if funcTy a || funcTy b then differs lim (if nullConst x then .ok (conv t x) else .bad) else .ok (conv t x)
    else if nullConst x then differs lim (.ok (conv t x)) else .bad
  | .ptr _, _ => if nullConst x then differs lim (.ok (conv t x)) else .bad
  | t, u =>
    if (intOf t).isSome && (intOf u).isSome then .ok (conv t x)
    else if structTy t && compat t u then differs lim (.ok x)
    else .bad

/-- address of an object, as operand of the nodes that change it -/
def place (x : SExpr) : SExpr := .un .addr (.ptr x.dt) x

/-- 6.5.16: `l = r` -/
def assign (lim : Bool) (l r : SExpr) : V SExpr := do
  modifiable lim l
  let r ← assignConv lim l.dt (decay r)
  .ok (.bin .assign l.dt (place l) r)

/-- 6.5.15, operands after 6.3.2.1 -/
def conditional (lim : Bool) (c l r : SExpr) : V SExpr :=
  match l.dt, r.dt with
  | .ptr a, .ptr b =>
    if compat a b then .ok (.cond l.dt c l r)
    else if nullConst r then differs lim (.ok (.cond l.dt c l (conv l.dt r)))
    else if nullConst l then differs lim (.ok (.cond r.dt c (conv r.dt l) r))
    else if (voidTy a && !funcTy b) || (voidTy b && !funcTy a) then
      differs lim (.ok (.cond (.ptr .void) c (conv (.ptr .void) l) (conv (.ptr .void) r)))
    else .bad
  | .ptr _, _ => if nullConst r then differs lim (.ok (.cond l.dt c l (conv l.dt r))) else .bad
  | _, .ptr _ => if nullConst l then differs lim (.ok (.cond r.dt c (conv r.dt l) r)) else .bad
  | .void, .void => differs lim (.ok (.cond .void c l r))
  | t, u =>
    if structTy t && compat t u then .ok (.cond t c l r)
    else do
      let (t, l, r) ← usual lim l r
      .ok (.cond t c l r)

/-- 6.5.3.2: `&x`; the compiler refuses members and string literals -/
def address (lim : Bool) (x : SExpr) : V SExpr :=
  let v := .ok (.un .addr (.ptr x.dt) x)
  if funcTy x.dt then v
  else if lvalue x then match x with
    | .str _ _ | .tomember _ _ _ _ => differs lim v
    | _ => v
  else .bad

/-- 6.5.3.2: `*x` -/
def indirection (x : SExpr) : V SExpr :=
  match (decay x).dt with
  | .ptr t => .ok (.un .indir t (decay x))
  | _ => .bad

/-- 6.5.3.3 -/
def sign (lim : Bool) (op : SUn) (x : SExpr) : V SExpr := do
  let y ← promote lim x
  .ok (.un op y.dt y)

def unary (lim : Bool) (op : UnOp) (x : SExpr) : V SExpr :=
  match op with
  | .addr => address lim x
  | .indir => indirection x
  | .pos => sign lim .pos x
  | .neg => sign lim .neg x
  | .not => sign lim .not x
  | .lnot => if scalar (decay x).dt then .ok (.un .lnot .int (decay x)) else .bad

/-- 6.5.3.4: the size, of type `size_t`, which is `unsigned long`; the compiler gives it the type `int` -/
def sizeof (lim : Bool) (t : DType) : V SExpr :=
  if funcTy t || incomplete t then .bad else differs lim (.ok (.ilit .ulong ⟨.ulong, t.nbytes⟩))

/-- 6.5.4; the compiler does not apply 6.3.2.1 to the operand -/
def cast (lim : Bool) (t : DType) (x : SExpr) : V SExpr :=
  if voidTy t || (scalar t && scalar (decay x).dt) then
    if arrTy x.dt || funcTy x.dt then differs lim (.ok (.un .cast t (decay x))) else .ok (.un .cast t x)
  else .bad

/-- 6.5.2.4, 6.5.3.1 -/
def incdec (lim : Bool) (op : SUn) (x : SExpr) : V SExpr := do
  modifiable lim x
  match x.dt with
  | .ptr t => if object t then .ok (.un op x.dt (place x)) else differs lim .bad
  | t => if (intOf t).isSome then .ok (.un op t (place x)) else .bad

/-- 6.5.2.1: `*(l + r)` -/
def subscript (l r : SExpr) : V SExpr :=
  match l.dt, r.dt with
  | .ptr _, .ptr _ => .bad
  | .ptr t, u => if (intOf u).isSome && object t then .ok (.un .indir t (.bin .padd l.dt l r)) else .bad
  | u, .ptr t => if (intOf u).isSome && object t then .ok (.un .indir t (.bin .padd r.dt r l)) else .bad
  | _, _ => .bad

/-- members of a struct type -/
def membersOf (Γ : Scope) : DType → V Members
  | .ustruct ms _ _ => .ok ms
  | .nstruct n _ _ => match Γ.tags n with
    | some (.struct ms _ _) => .ok ms
    | some .enum => .out
    | none => .bad
  | _ => .bad

def memberTy (m : Id) : Members → Option DType
  | .nil => none
  | .cons n t _ ms => if n = m then some t else memberTy m ms

/-- 6.5.2.3: member `m` of the struct of type `t` that `p` points to -/
def select (lim : Bool) (Γ : Scope) (p : SExpr) (t : DType) (m : Id) : V SExpr := do
  let ms ← membersOf Γ t
  match memberTy m ms with
  | some u => do
    let u ← known lim Γ u
    .ok (.tomember u p u m)
  | none => .bad

/-- `x.m` -/
def member (lim : Bool) (Γ : Scope) (x : SExpr) (m : Id) : V SExpr := select lim Γ (place x) x.dt m

/-- `x->m`; the compiler does not apply 6.3.2.1 to an array in front of `->` -/
def arrow (lim : Bool) (Γ : Scope) (x : SExpr) (m : Id) : V SExpr :=
  match x.dt with
  | .ptr t => select lim Γ x t m
  | .arr t _ => differs lim (select lim Γ (decay x) t m)
  | _ => .bad

def litTy : ILType → DType
  | .int => .int | .uint => .uint | .long => .long | .ulong => .ulong | .llong => .llong | .ullong => .ullong

def asgOp : AsgOp → Option BinOp
  | .asg => none
  | .mul => some .mul | .div => some .div | .mod => some .mod | .add => some .add | .sub => some .sub | .shl => some .shl | .shr => some .shr
  | .and => some .and | .xor => some .xor | .or => some .or

mutual
/-- evaluating the expression changes nothing -/
def quiet : SExpr → Bool
  | .ident _ _ | .str _ _ | .ilit _ _ => true
  | .bin op _ l r => match op with
    | .assign => false
    | _ => quiet l && quiet r
  | .cond _ c l r => quiet c && quiet l && quiet r
  | .un op _ e => match op with
    | .preinc | .predec | .postinc | .postdec => false
    | _ => quiet e
  | .call _ _ _ => false
  | .tomember _ e _ _ => quiet e
end

mutual
/-- the string literals in the order of the text -/
def strs : Expr → List (List UInt8)
  | .str b => [b]
  | .ident _ | .int _ | .char _ | .sizeofT _ => []
  | .member e _ | .arrow e _ | .postinc e | .postdec e | .preinc e | .predec e | .un _ e | .sizeofE e | .cast _ e => strs e
  | .subsc l r | .bin _ l r | .assign _ l r => strs l ++ strs r
  | .cond c l r => strs c ++ (strs l ++ strs r)
  | .call f as => strs f ++ strsA as
def strsA : Args → List (List UInt8)
  | .nil => []
  | .cons e as => strs e ++ strsA as
end

def paramTys : Params → List DType
  | .nil => []
  | .cons _ t ps => t :: paramTys ps

def arity : Args → Nat
  | .nil => 0
  | .cons _ as => arity as + 1

mutual
/-- the typed tree of an expression whose first string literal gets the number `k` -/
def tree (lim : Bool) (Γ : Scope) (k : Int) : Expr → V SExpr
  | .ident n => match Γ.names n with
    | none => .bad
    | some (.const l) => .ok (.ilit .int l)
    | some (.obj t) => do let t ← known lim Γ t; .ok (.ident t n)
    | some (.type _) => .out
  | .int l => .ok (.ilit (litTy l.type) l)
  | .char l => .ok (.ilit .int l)
  | .str b => .ok (.str (.arr .char b.length) k)
  | .subsc l r => do
    let l' ← tree lim Γ k l
    let r' ← tree lim Γ (k + (strs l).length) r
    subscript (decay l') (decay r')
  | .call f as => do
    let x ← tree lim Γ k f
    match (decay x).dt with
    | .ptr (.func ps t) =>
      if (paramTys ps).length = arity as then do
        let xs ← args lim Γ (k + (strs f).length) (paramTys ps) as
        if incomplete t && !voidTy t then differs lim .bad else .ok (.call t (decay x) xs)
      else .bad
    | _ => .bad
  | .member e m => do let x ← tree lim Γ k e; member lim Γ x m
  | .arrow e m => do let x ← tree lim Γ k e; arrow lim Γ x m
  | .postinc e => do let x ← tree lim Γ k e; incdec lim .postinc x
  | .postdec e => do let x ← tree lim Γ k e; incdec lim .postdec x
  | .preinc e => do let x ← tree lim Γ k e; incdec lim .preinc x
  | .predec e => do let x ← tree lim Γ k e; incdec lim .predec x
  | .un op e => do let x ← tree lim Γ k e; unary lim op x
  | .sizeofE e => do let x ← tree lim Γ k e; sizeof lim x.dt
  | .sizeofT t => do let t ← tyName lim Γ t; sizeof lim t
  | .cast t e => do
    let t ← tyName lim Γ t
    let x ← tree lim Γ k e
    cast lim t x
  | .bin op l r => do
    let l' ← tree lim Γ k l
    let r' ← tree lim Γ (k + (strs l).length) r
    binary lim op (decay l') (decay r')
  | .cond c l r => do
    let c' ← tree lim Γ k c
    must (scalar (decay c').dt)
    let l' ← tree lim Γ (k + (strs c).length) l
    let r' ← tree lim Γ (k + (strs c).length + (strs l).length) r
    conditional lim (decay c') (decay l') (decay r')
  | .assign op l r => match asgOp op with
    | none => do
      let l' ← tree lim Γ k l
      let r' ← tree lim Γ (k + (strs l).length) r
      assign lim l' r'
    | some op =>
      if (strs l).isEmpty then do
        let l' ← tree lim Γ k l
        let r' ← tree lim Γ k r
        let v ← binary lim op (decay l') (decay r')
        let x ← assign lim l' v
        if quiet l' then .ok x else .out
      else .out
/-- 6.5.2.2p2: arguments converted as by assignment. Nothing is said about which of several wrong arguments is found first if there are string literals among them. -/
def args (lim : Bool) (Γ : Scope) (k : Int) (ts : List DType) : Args → V SArgs
  | .nil => match ts with
    | [] => .ok .nil
    | _ => .bad
  | .cons e as => match ts with
    | [] => .bad
    | t :: ts =>
      let v := do let x ← tree lim Γ k e; assignConv lim t (decay x)
      match V.and v (args lim Γ (k + (strs e).length) ts as) with
      | .ok (x, xs) => .ok (.cons x xs)
      | .bad => if (strs e ++ strsA as).isEmpty then .bad else differs lim .bad
      | .out => .out
end

end Stat
end Umlcc
