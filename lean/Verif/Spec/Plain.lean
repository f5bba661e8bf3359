import Verif.Spec.CStmt
import Verif.Spec.Fragment
import Verif.Spec.Tidy
import Verif.Spec.X64Machine
/-!
A part of C, given by conditions on the typed tree alone, for which the machine code is right without any test of the code (see `Suits`, `Spec/X64Run.lean`).
`Γ` is the types of the objects declared in the function so far, the innermost scope first.

Calls are allowed where no other value is kept in a register: as statements, and as what is computed first in right sides of assignments, initialisers, results, controlling expressions,
conditions, operands of `&&` and `||`, and last arguments of calls (arguments are computed from the last one to the first one, and pushed). `N` is the greatest number of arguments; none if
there are no calls. Whether the generator moves registers out of the way of a call depends on the intervals of the allocator, so functions with calls also have to be tidy
(`Spec/Tidy.lean`). The machine code of `/` and `%` overwrites `rdx` and, if the divisor is a literal, `r10`; it is allowed in the same places, and both operands may be any values without
calls, the left one also one that begins with a call or a division. Copying a string into an array overwrites `r10`; at a declaration no value is kept.

Left out: other calls, other uses of `/` and `%`, `!` and the difference of pointers, comparisons whose value is used other than as a condition,
shifts other than by a literal, `>>` of unsigned operands, initialisers of structures, strings of other lengths or with bytes from 128 on, and conversions of 32-bit unsigned integers to 64 bits. For some of these
the machine code is wrong (C42, C44, C45, C46, C48), for others whether it is right depends on the registers chosen.
-/
namespace Umlcc
namespace Plain
open X86 (immFits)

/-- scopes of names with their types -/
abbrev Types := List (List (Str × DType))

/-- width of a value -/
def len (t : DType) : Sfx := Sfx.get t.nbytes

/-- an object of a local variable, if it is one, has at least the bytes of an access -/
def holds (Γ : Types) (n : Str) (s : Sfx) : Bool :=
  match CStm.find n Γ with
  | some t => decide (s.nbytes ≤ t.nbytes)
  | none => true

/-- the same for the object an address denotes -/
def target (Γ : Types) (e : SExpr) (s : Sfx) : Bool :=
  match e with
  | .un .addr _ (.ident _ n) => holds Γ n s
  | _ => true

/-- conversion from `a` to `b` is one of an unsigned 32-bit number to 64 bits -/
def zext (a b : DType) : Bool := a.isUnsigned && decide (len a = .long) && decide (len b = .quad)

/-- an expression of type `t` may be converted to the type of the casts around it -/
def conv (o : Option DType) (t : DType) : Bool :=
  match o with
  | some t' => !zext t t'
  | none => true

/-- same width and signedness -/
def alike (a b : DType) : Bool := decide (len a = len b) && decide (a.isUnsigned = b.isUnsigned)

/-- the literal an expression is, whatever casts are around it -/
def litVal : SExpr → Option Int
  | .ilit _ l => some l.value
  | .un .cast _ e => litVal e
  | _ => none

/-- what `++` adds -/
def step (t : DType) : Int :=
  match t with
  | .ptr t => if t.nbytes > 0 then t.nbytes else 1
  | _ => 1

/-- what a pointer is moved by -/
def stride (t : DType) : Nat :=
  match t with
  | .ptr t => t.nbytes
  | _ => 0

/-- no member is farther from the beginning of the structure than the machine code can add -/
def near : Members → Bool
  | .nil => true
  | .cons _ _ o ms => decide (o < 2 ^ 31) && near ms

def small (t : DType) : Bool :=
  match t with
  | .ustruct ms _ _ => near ms
  | _ => true

/-- the same for what a pointer points to -/
def points (t : DType) : Bool :=
  match t with
  | .ptr t => small t
  | _ => true

/-- the same for the tags in scope -/
def smallTags (ts : List (List (Str × DType))) : Bool := ts.all fun sc => sc.all fun p => small p.2

/-- conditions on the operands of an operator -/
def operands (b : Bool) (op : SBin) (t : DType) (l r : SExpr) : Bool :=
  match op with
  | .add | .sub | .and | .or | .xor => decide (len l.dt = len r.dt) && decide (len t = len l.dt)
  | .mul => decide (len l.dt = len r.dt) && decide (len t = len l.dt) && decide (len l.dt ≠ .byte)
  | .lshift | .rshift => decide (len t = len l.dt) && decide ((len r.dt).bits ≤ (len l.dt).bits) && (decide (op = .lshift) || !l.dt.isUnsigned) &&
      match litVal r with
      | some v => decide (0 ≤ v) && decide (v < (len l.dt).bits)
      | none => false
  | .padd | .psub => decide (len l.dt = .quad) && decide (len r.dt ≠ .byte) && !(r.dt.isUnsigned && decide (len r.dt = .long)) &&
      immFits (len r.dt) (stride l.dt)
  | .equal | .nequal | .less | .greater | .lesseq | .greatereq => b && decide (len l.dt = len r.dt)
  | .land | .lor => decide (len t ≠ .none)
  | _ => false

/-- the same for `/` and `%` -/
def quotient (op : SBin) (t : DType) (l r : SExpr) : Bool :=
  (decide (op = .div) || decide (op = .mod)) && decide (len l.dt = len r.dt) && decide (len t = len l.dt) && decide (len l.dt ≠ .byte)

/-- the same for the difference of two pointers -/
def gap (op : SBin) (t : DType) (l r : SExpr) : Bool :=
  decide (op = .pdiff) && decide (len l.dt = .quad) && decide (len r.dt = .quad) && decide (len t = .quad) && immFits .quad (stride l.dt)

/-- The expression belongs to the part; `o` is the type of the casts around it, `b` whether it is a condition, that is, only decides whether control goes on or jumps. -/
def plain (Γ : Types) (b : Bool) (o : Option DType) : SExpr → Bool
  | .ident t n => holds Γ n (len t) && conv o t
  | .str t _ => conv o t
  | .ilit t l => immFits (len t) l.value && immFits (len (o.getD t)) l.value && decide (0 ≤ l.value)
  | .bin .assign t l r => plain Γ false none r && plain Γ false none l && CSem.fresh l && target Γ l (len r.dt) && alike r.dt t && conv o t
  | .bin .land t l r => plain Γ true none l && plain Γ true none r && operands b .land t l r && conv o t
  | .bin .lor t l r => plain Γ true none l && plain Γ true none r && operands b .lor t l r && conv o t
  | .bin op t l r => plain Γ false none l && plain Γ false none r && operands b op t l r && conv o t
  | .cond t c l r => plain Γ true none c && plain Γ false none l && plain Γ false none r && !zext l.dt t && !zext r.dt t && conv o t
  | .un .cast t e => plain Γ false (some (o.getD t)) e
  | .un .addr t (.ident _ _) => conv o t
  | .un .addr t (.str _ _) => conv o t
  | .un .addr t (.tomember _ e _ _) => plain Γ false none e && points e.dt && decide (len t = .quad) && conv o t
  | .un .addr t (.un .indir _ e) => plain Γ false none e && alike e.dt t && conv o t
  | .un .preinc t e | .un .predec t e | .un .postinc t e | .un .postdec t e =>
    plain Γ false none e && CSem.fresh e && target Γ e (len t) && immFits (len t) (step t) && conv o t
  | .un .indir t e => plain Γ false none e && CSem.fresh e && target Γ e (len t) && conv o t
  | .un .pos t e => plain Γ false none e && alike e.dt t && conv o t
  | .un .neg t e | .un .not t e => plain Γ false none e && (litVal e).isNone && decide (len t = len e.dt) && conv o t
  | .tomember t e _ _ => plain Γ false none e && points e.dt && conv o t
  | _ => false

mutual
/-- nothing in the expression jumps -/
def flat : SExpr → Bool
  | .ident _ _ | .str _ _ | .ilit _ _ => true
  | .bin op _ l r => decide (op ≠ .land) && decide (op ≠ .lor) && flat l && flat r
  | .un _ _ e | .tomember _ e _ _ => flat e
  | .cond _ _ _ _ => false
  | .call _ f as => flat f && flatArgs as
def flatArgs : SArgs → Bool
  | .nil => true
  | .cons e as => flat e && flatArgs as
end

/-- an argument that is a literal can be pushed -/
def pushes (e : SExpr) : Bool :=
  match litVal e with
  | some v => decide (0 ≤ v) && decide (v < 2 ^ 31)
  | none => true

def argCount : SArgs → Nat
  | .nil => 0
  | .cons _ as => argCount as + 1

/-- there are not too many arguments -/
def few (N : Option Nat) (n : Nat) : Bool :=
  match N with
  | some m => decide (n ≤ m) && decide (n < 2 ^ 27)
  | none => false

/-- callee of a call with `n` arguments -/
def callee (N : Option Nat) (Γ : Types) (f : SExpr) (n : Nat) : Bool := few N n && plain Γ false none f && CSem.fresh f && flat f

/-- there is nothing to keep the stack aligned by before the first argument is stored -/
def even (n : Nat) : Bool := decide (n ≤ 6) || decide (n % 2 = 0)

def noArgs : SArgs → Bool
  | .nil => true
  | .cons _ _ => false

mutual
/-- a value whose computation begins with a call or a division: a call with a result, `/` and `%`, casts, `-` and `~` around it, and operations with it as the left operand and no call in
the right one -/
def callVal (N : Option Nat) (Γ : Types) (o : Option DType) : SExpr → Bool
  | .call t f as => callee N Γ f (argCount as) && callArgs N Γ (argCount as) as && !t.isVoid && decide (len t ≠ .none) && conv o t
  | .bin op t l r => decide (op ≠ .land) && decide (op ≠ .lor) && plain Γ false none r && conv o t &&
      (callVal N Γ none l && operands false op t l r || N.isSome && (quotient op t l r || gap op t l r) && (callVal N Γ none l || plain Γ false none l))
  | .un .neg t e | .un .not t e => callVal N Γ none e && decide (len t = len e.dt) && conv o t
  | .un .cast t e => callVal N Γ (some (o.getD t)) e
  | _ => false
/-- the arguments of a call with `n` arguments; the last one, which is computed first, may begin with a call itself -/
def callArgs (N : Option Nat) (Γ : Types) (n : Nat) : SArgs → Bool
  | .nil => true
  | .cons e as => (plain Γ false none e && flat e && pushes e || noArgs as && even n && callVal N Γ none e && flat e) && callArgs N Γ n as
end

/-- a comparison of such a value, as a condition -/
def callCmp (N : Option Nat) (Γ : Types) : SExpr → Bool
  | .bin op t l r => decide (op ≠ .land) && decide (op ≠ .lor) && callVal N Γ none l && plain Γ false none r && operands true op t l r
  | _ => false

/-- A condition. In conditions, calls may also be in the operands of `&&` and `||` and in the condition of `?:`. -/
def plainTest (N : Option Nat) (Γ : Types) : SExpr → Bool
  | .bin .land t l r | .bin .lor t l r => plainTest N Γ l && plainTest N Γ r && decide (len t ≠ .none)
  | .cond t c l r => plainTest N Γ c && plain Γ false none l && plain Γ false none r && !zext l.dt t && !zext r.dt t
  | e => plain Γ true none e || callVal N Γ none e || callCmp N Γ e

/-- the value depends on jumps -/
def branches : SExpr → Bool
  | .bin .land _ _ _ | .bin .lor _ _ _ | .cond _ _ _ _ => true
  | _ => false

/-- a value with calls -/
def callUsed (N : Option Nat) (Γ : Types) (e : SExpr) : Bool := callVal N Γ none e || branches e && plainTest N Γ e

/-- a call that is a statement, or an assignment of such a value -/
def callStmt (N : Option Nat) (Γ : Types) : SExpr → Bool
  | .call t f as => callee N Γ f (argCount as) && callArgs N Γ (argCount as) as && (t.isVoid || decide (len t ≠ .none))
  | .bin .assign _ l r => callUsed N Γ r && plain Γ false none l && CSem.fresh l && target Γ l (len r.dt)
  | _ => false

/-- a value that is used -/
def plainVal (N : Option Nat) (Γ : Types) (e : SExpr) : Bool := plain Γ false none e || callUsed N Γ e

/-- what a declaration adds -/
def declareOne (Γ : Types) (d : SDecl) : Types :=
  match d.who with
  | .ident n => CStm.add n d.dt Γ
  | .str _ => Γ

def declareAll : Types → List SDecl → Types
  | Γ, [] => Γ
  | Γ, d :: ds => declareAll (declareOne Γ d) ds

/-- A string that is copied right into an object of `n` bytes (C49): it is copied in pieces of 8 bytes, and a rest other than of 1, 2 or 4 bytes is rounded up to one of these; bytes from 128 on
change the bytes after them. -/
def copied (n : Nat) (b : List UInt8) : Bool :=
  b.all (fun c => decide (c.toNat < 128)) && (decide (b.length % 8 = 0) || decide (b.length % 8 = 1) || decide (b.length % 8 = 2) || decide (b.length % 8 = 4)) && decide (b.length ≤ n)

mutual
/-- an initialiser of an object of type `t`: a value, a string, or initialisers of the elements of an array -/
def plainInit (N : Option Nat) (Γ : Types) : SInit → DType → Bool
  | .expr e, t => plainVal N Γ e && decide ((len e.dt).nbytes ≤ t.nbytes)
  | .list is, t => match t with
    | .arr u _ => plainInits N Γ u is
    | _ => false
  | .str _ b, t => N.isSome && copied t.nbytes b
def plainInits (N : Option Nat) (Γ : Types) (u : DType) : SInits → Bool
  | .nil => true
  | .cons i is => plainInit N Γ i u && plainInits N Γ u is
end

/-- a new name; an initialiser, if any -/
def plainDecl (N : Option Nat) (Γ : Types) (d : SDecl) : Bool :=
  (match d.who with
    | .ident n => CStm.isNew n Γ
    | .str _ => false) &&
  match d.init with
  | none => true
  | some i => plainInit N (declareOne Γ d) i d.dt && d.dt.isObject

def plainDecls (N : Option Nat) : Types → List SDecl → Bool
  | _, [] => true
  | Γ, d :: ds => plainDecl N Γ d && plainDecls N (declareOne Γ d) ds

def scopeOf (Γ : Types) : SItem → Types
  | .decls ds => declareAll Γ ds
  | _ => Γ

/-- the value of a `case` can be compared with the controlling expression, of type `q` -/
def caseFits (q : DType) (l : ILit) : Bool :=
  let s := Sfx.get l.type.nbytes
  let w := if (len q).bits < s.bits then s else len q
  !(q.isUnsigned && decide (len q = .long) && decide (w = .quad)) && immFits w l.value

def plainCond (N : Option Nat) (Γ : Types) : SStmt → Bool
  | .expr e => plainTest N Γ e
  | _ => true

mutual
/-- the statement belongs to the part; `q` is the type of the controlling expression of the `switch` it is in -/
def plainStmt (N : Option Nat) (Γ : Types) (q : DType) : SStmt → Bool
  | .cmpd is => plainItems N ([] :: Γ) q is
  | .case v s => (match v with
      | .ilit _ l => caseFits q l
      | _ => false) && plainStmt N Γ q s
  | .dflt s => plainStmt N Γ q s
  | .cont | .brk | .null | .ret none => true
  | .ret (some e) => plainVal N Γ e
  | .expr e => plain Γ false none e || callStmt N Γ e
  | .ite c t => plainTest N Γ c && plainStmt N Γ q t
  | .itee c t e => plainTest N Γ c && plainStmt N Γ q t && plainStmt N Γ q e
  | .switch c b => plainVal N Γ c && plainStmt N Γ c.dt b
  | .while c b => plainTest N Γ c && plainStmt N Γ q b
  | .for i c n b => plainItem N ([] :: Γ) q i && plainCond N (scopeOf ([] :: Γ) i) c && plainStmt N (scopeOf ([] :: Γ) i) q n && plainStmt N (scopeOf ([] :: Γ) i) q b
def plainItem (N : Option Nat) (Γ : Types) (q : DType) : SItem → Bool
  | .stmt s => plainStmt N Γ q s
  | .decls ds => plainDecls N Γ ds
  | .tag _ t => CStm.laidOut t && small t
def plainItems (N : Option Nat) (Γ : Types) (q : DType) : SItems → Bool
  | .nil => true
  | .cons i is => plainItem N Γ q i && plainItems N (scopeOf Γ i) q is
end

/-- the parameters in scope -/
def declareParams : Types → Params → Types
  | Γ, .nil => Γ
  | Γ, .cons (some n) t ps => declareParams (CStm.add n t Γ) ps
  | Γ, .cons none _ ps => declareParams Γ ps

/-- the body of a function with these parameters belongs to the part -/
def plainBody (N : Option Nat) (ps : Params) (b : SItems) : Bool := plainItems N (declareParams [[]] ps) .int b

/-- The body of a function, whose objects take `size` bytes, belongs to the part, and `each` bytes of stack are enough for it: the objects, the registers saved, and the arguments of
calls. A function with calls, divisions or strings copied is tidy. -/
def plainIn (each size : Nat) (ps : Params) (b : SItems) : Bool :=
  (plainBody none ps b && decide (size + 24 + 8 ≤ each)) ||
  (Tidy.tidyAll 7 b && plainBody (some ((each - (size + 40)) / 8)) ps b && decide (size + 40 ≤ each))

end Plain
end Umlcc
