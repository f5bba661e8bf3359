import Verif.Model.DType
/-!
Independent specifications about types: C11 6.3.1.8 (usual arithmetic conversions), struct layout, structural
equality of types.
-/
namespace Umlcc
namespace TSpec

/-- The integer types of the language, with the LP64 widths. -/
inductive IntTy | char | int | uint | long | ulong | llong | ullong
  deriving DecidableEq, Repr

namespace IntTy
def width : IntTy → Nat
  | char => 8 | int => 32 | uint => 32 | long => 64 | ulong => 64 | llong => 64 | ullong => 64
/-- 6.2.5: which types are signed (plain `char` is signed on this target) -/
def signed : IntTy → Bool
  | char => true | int => true | uint => false | long => true | ulong => false | llong => true | ullong => false
/-- 6.3.1.1 conversion rank (only the order matters) -/
def rank : IntTy → Nat
  | char => 10 | int => 30 | uint => 30 | long => 40 | ulong => 40 | llong => 50 | ullong => 50
def min (t : IntTy) : Int := if t.signed then -(2 ^ (t.width - 1)) else 0
def max (t : IntTy) : Int := if t.signed then 2 ^ (t.width - 1) - 1 else 2 ^ t.width - 1
/-- `a` can represent every value of `b` -/
def covers (a b : IntTy) : Bool := decide (a.min ≤ b.min) && decide (b.max ≤ a.max)
def toUnsigned : IntTy → IntTy
  | int => uint | long => ulong | llong => ullong | t => t
/-- 6.3.1.1p2 integer promotions -/
def promote (t : IntTy) : IntTy :=
  if t.rank ≤ int.rank ∧ t ≠ int ∧ t ≠ uint then (if covers int t then int else uint) else t
/-- 6.3.1.8p1, the five rules after promotion -/
def common (a b : IntTy) : IntTy :=
  let a := a.promote
  let b := b.promote
  if a = b then a
  else if a.signed = b.signed then (if a.rank < b.rank then b else a)
  else
    let u := if a.signed then b else a
    let s := if a.signed then a else b
    if u.rank ≥ s.rank then u
    else if covers s u then s
    else s.toUnsigned
/-- the model's type for an integer type -/
def toDType : IntTy → DType
  | char => .char | int => .int | uint => .uint | long => .long | ulong => .ulong | llong => .llong | ullong => .ullong
end IntTy

/-- A placement of members of given (size, alignment) at offsets inside a block of `total` bytes is valid. -/
structure ValidLayout (ms : List (Nat × Nat)) (offs : List Nat) (total : Nat) : Prop where
  len : offs.length = ms.length
  aligned : ∀ (i : Nat) sz al o, ms[i]? = some (sz, al) → offs[i]? = some o → al ∣ o
  disjoint : ∀ (i j : Nat) sz al o o', i < j → ms[i]? = some (sz, al) → offs[i]? = some o → offs[j]? = some o' → o + sz ≤ o'
  inside : ∀ (i : Nat) sz al o, ms[i]? = some (sz, al) → offs[i]? = some o → o + sz ≤ total

mutual
/-- Structure of a type, forgetting what C's type identity ignores: layout numbers and parameter names. -/
inductive Shape where
  | atom (n : Nat)
  | ptr (s : Shape)
  | arr (s : Shape) (n : Nat)
  | tag (name : Str)
  | struct (ms : Shapes)
  | etag (name : Str)
  | enum (ms : List (Str × Int))
  | func (ps : Shapes) (r : Shape)
  | tdef (s : Shape)
inductive Shapes where
  | nil
  | cons (label : Str) (s : Shape) (rest : Shapes)
end

mutual
def shape : DType → Shape
  | .void => .atom 0 | .char => .atom 1 | .int => .atom 2 | .uint => .atom 3 | .long => .atom 4 | .ulong => .atom 5
  | .llong => .atom 6 | .ullong => .atom 7
  | .ptr t => .ptr (shape t)
  | .arr t n => .arr (shape t) n
  | .nstruct s _ _ => .tag s
  | .ustruct ms _ _ => .struct (mshape ms)
  | .nenum s => .etag s
  | .uenum ms => .enum ms
  | .func ps r => .func (pshape ps) (shape r)
  | .tdef t => .tdef (shape t)
def mshape : Members → Shapes
  | .nil => .nil
  | .cons n t _ ms => .cons n (shape t) (mshape ms)
def pshape : Params → Shapes
  | .nil => .nil
  | .cons _ t ps => .cons [] (shape t) (pshape ps)
end

end TSpec
end Umlcc
