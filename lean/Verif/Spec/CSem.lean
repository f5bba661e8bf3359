import Verif.Spec.ImmcSem
import Verif.Model.Srt
/-!
The C meaning of typed expressions, on mathematical integers. It is written from the C standard, without reference to generated code.

* A value of an integer type is a number in the range of the type. A pointer is its address, read as a signed 64-bit number.
* `none` is everything the standard leaves undefined (overflow of signed arithmetic, division by zero, shifts by too much ...), what is
  not given a type by the resolver, and objects of structure type as values.
* The memory is flat, and some of it may not be accessed (`none`); sizes, signedness of `char` and byte order are those of x86-64.
* Where the standard leaves the order of evaluation open, it is: operands from left to right, assignments from right to left, arguments from
  the last to the first, then the function.
* Called functions are arbitrary.

With `lim` the cases in which the compiler is known to be wrong are excluded as well (`none`): subscripts whose product with the element
size does not fit the subscript's type, and negative pointer differences. `eval` with `lim` false is C.
-/
namespace Umlcc
namespace CSem
open IMach (Mem Val)

/-- width and signedness (`true`: unsigned) of the values of a scalar type -/
def rep : DType → Option (Sfx × Bool)
  | .char => some (.byte, false)
  | .int | .nenum _ | .uenum _ => some (.long, false)
  | .uint => some (.long, true)
  | .long | .llong => some (.quad, false)
  | .ulong | .ullong => some (.quad, true)
  | .ptr _ => some (.quad, false)
  | _ => none

/-- range of a type -/
def InRange (q : Sfx × Bool) (v : Int) : Prop :=
  if q.2 then 0 ≤ v ∧ v < 2 ^ q.1.bits else -2 ^ (q.1.bits - 1) ≤ v ∧ v < 2 ^ (q.1.bits - 1)

instance (q : Sfx × Bool) (v : Int) : Decidable (InRange q v) := by unfold InRange; infer_instance

/-- conversion to a type: modulo the width -/
def wrap (q : Sfx × Bool) (v : Int) : Int := if q.2 then v % 2 ^ q.1.bits else v.bmod (2 ^ q.1.bits)

/-- the value of an operation in a type: unsigned arithmetic wraps, signed must not overflow -/
def fit (q : Sfx × Bool) (v : Int) : Option Int :=
  if q.2 then some (v % 2 ^ q.1.bits) else if InRange q v then some v else none

/-- the number with the given bits -/
def ofBits (u : Bool) (b : BitVec w) : Int := if u then b.toNat else b.toInt

/-- binary operators on two values of one type -/
def arith (op : SBin) (q : Sfx × Bool) (a b : Int) : Option Int :=
  match op with
  | .add => fit q (a + b)
  | .sub => fit q (a - b)
  | .mul => fit q (a * b)
  | .div => if b = 0 then none else fit q (a.tdiv b)
  | .mod => if b = 0 ∨ ¬ InRange q (a.tdiv b) then none else some (a.tmod b)
  | .and => some (ofBits q.2 (BitVec.ofInt q.1.bits a &&& BitVec.ofInt q.1.bits b))
  | .or => some (ofBits q.2 (BitVec.ofInt q.1.bits a ||| BitVec.ofInt q.1.bits b))
  | .xor => some (ofBits q.2 (BitVec.ofInt q.1.bits a ^^^ BitVec.ofInt q.1.bits b))
  | _ => none

/-- shifts of a value of type `q` -/
def shift (op : SBin) (q : Sfx × Bool) (a n : Int) : Option Int :=
  if 0 ≤ n ∧ n < q.1.bits then
    match op with
    | .lshift => if q.2 then some (a * 2 ^ n.toNat % 2 ^ q.1.bits)
        else if 0 ≤ a ∧ InRange q (a * 2 ^ n.toNat) then some (a * 2 ^ n.toNat) else none
    | .rshift => some (a / 2 ^ n.toNat)
    | _ => none
  else none

/-- equality and relational operators -/
def compare (op : SBin) (a b : Int) : Option Bool :=
  match op with
  | .equal => some (decide (a = b))
  | .nequal => some (decide (a ≠ b))
  | .less => some (decide (a < b))
  | .greater => some (decide (a > b))
  | .lesseq => some (decide (a ≤ b))
  | .greatereq => some (decide (a ≥ b))
  | _ => none

def ofBool (b : Bool) : Int := if b then 1 else 0

/-- an object in memory as a value of its type -/
def load (q : Sfx × Bool) (m : Mem) (a : Int) : Int := wrap q (X86.readLE m (BitVec.ofInt 64 a) q.1.nbytes)
/-- memory after assigning a value to an object -/
def store (q : Sfx × Bool) (m : Mem) (a v : Int) : Mem :=
  X86.writeLE m (BitVec.ofInt 64 a) q.1.nbytes (v % 2 ^ q.1.bits).toNat

/-- an address must not leave the address space -/
def ptrAt (v : Int) : Option Int := if InRange (.quad, false) v then some v else none

/-- value after `++` (`d` is 1) or `--` (`d` is -1): narrow types are promoted and converted back -/
def incdec (t : DType) (q : Sfx × Bool) (v d : Int) : Option Int :=
  match t with
  | .ptr t => if t.nbytes = 0 then none else ptrAt (v + d * t.nbytes)
  | _ => if q.1.bits < 32 then some (wrap q (v + d)) else fit q (v + d)

def isPtr : DType → Bool
  | .ptr _ => true
  | _ => false

/-- offset of the first member with the name -/
def memberOffset (m : Str) : Members → Option Nat
  | .nil => none
  | .cons n _ o ms => if n = m then some o else memberOffset m ms

/-- what expressions refer to -/
structure Ctx (W : Type) where
  /-- address of an object or function -/
  addr : Str → Option (BitVec 64)
  /-- address of a string literal -/
  str : Int → BitVec 64
  /-- members of a structure with a tag -/
  tag : Str → Option Members
  /-- what calling a function with arguments for a result of some width does -/
  call : BitVec 64 → List Val → Sfx → Mem → W → Option (Mem × W × BitVec 64)
  /-- the bytes that may be accessed -/
  ok : BitVec 64 → Bool
  lim : Bool

/-- an object of a type at an address may be accessed -/
def Ctx.may (C : Ctx W) (q : Sfx × Bool) (a : Int) : Bool := IMach.allowed C.ok (BitVec.ofInt 64 a) q.1.nbytes

/-- offset of a member of the structure pointed to -/
def Ctx.offset (C : Ctx W) (t : DType) (m : Str) : Option Nat :=
  match t with
  | .ptr (.ustruct ms _ _) => memberOffset m ms
  | .ptr (.nstruct n _ _) => (C.tag n).bind (memberOffset m)
  | _ => none

/-- `none` unless the condition holds -/
def need (p : Prop) [Decidable p] : Option Unit := if p then some () else none

/-- a binary operator that evaluates both operands and does not touch memory itself -/
def binary (lim : Bool) (op : SBin) (t lt rt : DType) (a b : Int) : Option Int :=
  match op with
  | .equal | .nequal | .less | .greater | .lesseq | .greatereq => do
    need ((rep lt).isSome ∧ rep lt = rep rt ∧ (rep t).isSome)
    let v ← compare op a b
    some (ofBool v)
  | .lshift | .rshift => do
    let q ← rep t
    need (rep lt = some q ∧ rep rt = some q)
    shift op q a b
  | .padd | .psub => match lt with
    | .ptr u => do
      let q ← rep rt
      need (isPtr t ∧ u.nbytes ≠ 0 ∧ (lim = true → InRange q (b * u.nbytes)))
      ptrAt (if op = .padd then a + b * u.nbytes else a - b * u.nbytes)
    | _ => none
  | .pdiff => match lt with
    | .ptr u => do
      let q ← rep t
      need (isPtr rt ∧ q.1 = .quad ∧ u.nbytes ≠ 0 ∧ u.nbytes < 2 ^ 63 ∧ (a - b) % u.nbytes = 0 ∧ InRange (.quad, false) (a - b) ∧
        (lim = true → q.2 = true → b ≤ a))
      some (wrap q ((a - b).tdiv u.nbytes))
    | _ => none
  | _ => do
    let q ← rep t
    need (rep lt = some q ∧ rep rt = some q)
    arith op q a b

mutual
/-- value of an expression, and memory and world after its evaluation; the value is 0 if the type is `void` -/
def eval (C : Ctx W) : SExpr → Mem × W → Option (Int × Mem × W)
  | .ident t n, σ => do
    let q ← rep t
    let a ← C.addr n
    need (C.may q a.toInt = true)
    some (load q σ.1 a.toInt, σ)
  | .str _ _, _ => none
  | .ilit t l, σ => do
    let q ← rep t
    need (InRange q l.value)
    some (l.value, σ)
  | .bin op t l r, σ => match op with
    | .assign => do
      let q ← rep t
      need (rep r.dt = some q ∧ isPtr l.dt)
      let x ← eval C r σ
      let y ← eval C l x.2
      need (C.may q y.1 = true)
      some (x.1, store q y.2.1 y.1 x.1, y.2.2)
    | .lor => do
      need ((rep t).isSome ∧ (rep l.dt).isSome ∧ (rep r.dt).isSome)
      let x ← eval C l σ
      if x.1 ≠ 0 then some (1, x.2)
      else do
        let y ← eval C r x.2
        some (ofBool (decide (y.1 ≠ 0)), y.2)
    | .land => do
      need ((rep t).isSome ∧ (rep l.dt).isSome ∧ (rep r.dt).isSome)
      let x ← eval C l σ
      if x.1 = 0 then some (0, x.2)
      else do
        let y ← eval C r x.2
        some (ofBool (decide (y.1 ≠ 0)), y.2)
    | op => do
      let x ← eval C l σ
      let y ← eval C r x.2
      let v ← binary C.lim op t l.dt r.dt x.1 y.1
      some (v, y.2)
  | .cond t c l r, σ => do
    let q ← rep t
    need ((rep c.dt).isSome ∧ rep l.dt = some q ∧ rep r.dt = some q)
    let x ← eval C c σ
    if x.1 ≠ 0 then eval C l x.2 else eval C r x.2
  | .un .addr t (.ident _ n), σ => do
    need (isPtr t)
    let a ← C.addr n
    some (a.toInt, σ)
  | .un .addr t (.str _ id), σ => do
    need (isPtr t)
    some ((C.str id).toInt, σ)
  | .un .addr t (.tomember _ e _ m), σ => do
    need (isPtr t)
    let x ← eval C e σ
    let o ← C.offset e.dt m
    let a ← ptrAt (x.1 + o)
    some (a, x.2)
  | .un .addr t (.un .indir _ e), σ => do
    need (isPtr t ∧ isPtr e.dt)
    eval C e σ
  | .un .addr _ _, _ => none
  | .un .cast t e, σ => do
    let x ← eval C e σ
    if t.isVoid then some (0, x.2)
    else do
      let q ← rep t
      need ((rep e.dt).isSome)
      some (wrap q x.1, x.2)
  | .un .preinc t e, σ => do
    let q ← rep t
    need (isPtr e.dt)
    let x ← eval C e σ
    need (C.may q x.1 = true)
    let v ← incdec t q (load q x.2.1 x.1) 1
    some (v, store q x.2.1 x.1 v, x.2.2)
  | .un .predec t e, σ => do
    let q ← rep t
    need (isPtr e.dt)
    let x ← eval C e σ
    need (C.may q x.1 = true)
    let v ← incdec t q (load q x.2.1 x.1) (-1)
    some (v, store q x.2.1 x.1 v, x.2.2)
  | .un .postinc t e, σ => do
    let q ← rep t
    need (isPtr e.dt)
    let x ← eval C e σ
    need (C.may q x.1 = true)
    let v ← incdec t q (load q x.2.1 x.1) 1
    some (load q x.2.1 x.1, store q x.2.1 x.1 v, x.2.2)
  | .un .postdec t e, σ => do
    let q ← rep t
    need (isPtr e.dt)
    let x ← eval C e σ
    need (C.may q x.1 = true)
    let v ← incdec t q (load q x.2.1 x.1) (-1)
    some (load q x.2.1 x.1, store q x.2.1 x.1 v, x.2.2)
  | .un .indir t e, σ => do
    let q ← rep t
    need (isPtr e.dt)
    let x ← eval C e σ
    need (C.may q x.1 = true)
    some (load q x.2.1 x.1, x.2)
  | .un .pos t e, σ => do
    let q ← rep t
    need (rep e.dt = some q)
    eval C e σ
  | .un .neg t e, σ => do
    let q ← rep t
    need (rep e.dt = some q)
    let x ← eval C e σ
    let v ← fit q (-x.1)
    some (v, x.2)
  | .un .not t e, σ => do
    let q ← rep t
    need (rep e.dt = some q)
    let x ← eval C e σ
    some (wrap q (-x.1 - 1), x.2)
  | .un .lnot t e, σ => do
    need ((rep t).isSome ∧ (rep e.dt).isSome)
    let x ← eval C e σ
    some (ofBool (decide (x.1 = 0)), x.2)
  | .call t f as, σ => do
    need (isPtr f.dt)
    let xs ← evalArgs C as σ
    let y ← eval C f xs.2
    if t.isVoid then do
      let z ← C.call (BitVec.ofInt 64 y.1) xs.1 .none y.2.1 y.2.2
      some (0, z.1, z.2.1)
    else do
      let q ← rep t
      let z ← C.call (BitVec.ofInt 64 y.1) xs.1 q.1 y.2.1 y.2.2
      some (wrap q z.2.2.toNat, z.1, z.2.1)
  | .tomember t e _ m, σ => do
    let q ← rep t
    let x ← eval C e σ
    let o ← C.offset e.dt m
    let a ← ptrAt (x.1 + o)
    need (C.may q a = true)
    some (load q x.2.1 a, x.2)
/-- values of arguments, with their widths -/
def evalArgs (C : Ctx W) : SArgs → Mem × W → Option (List Val × Mem × W)
  | .nil, σ => some ([], σ)
  | .cons e as, σ => do
    let ys ← evalArgs C as σ
    let x ← eval C e ys.2
    let q ← rep e.dt
    some (⟨q.1, BitVec.ofInt _ x.1⟩ :: ys.1, x.2)
end

end CSem
end Umlcc
