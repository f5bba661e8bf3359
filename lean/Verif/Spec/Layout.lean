import Verif.Spec.CSem
/-!
C37, C50: where the parts of an initialised object are and what they are set to.
-/
namespace Umlcc
namespace Lay
open IMach (Mem)

/-- what a part of an object is set to: a scalar to the value of an expression, an array of characters to the bytes of a string -/
inductive Leaf where
  | val (t : DType) (e : SExpr)
  | bytes (b : List UInt8)
  deriving DecidableEq

/-- bytes that a part occupies -/
def Leaf.size : Leaf → Nat
  | .val t _ => t.nbytes
  | .bytes b => b.length

/-- the members lie one after the other from `pos` on, within `size` bytes -/
def ordered : Members → Nat → Nat → Bool
  | .nil, pos, size => decide (pos ≤ size)
  | .cons _ t o ms, pos, size => decide (pos ≤ o) && ordered ms (o + t.nbytes) size

/-- the first member is at the beginning -/
def atStart : Members → Bool
  | .nil => false
  | .cons _ _ o _ => o == 0

/-- members and size of a structure type; `tags` says which members and size go with a tag -/
def structOf (tags : Str → Option (Members × Nat)) : DType → Option (Members × Nat)
  | .ustruct ms b _ => if ordered ms 0 b ∧ atStart ms then some (ms, b) else none
  | .nstruct n b _ => match tags n with
    | some (ms, b') => if b' = b ∧ ordered ms 0 b ∧ atStart ms then some (ms, b) else none
    | none => none
  | _ => none

mutual
/-- the parts of an object of type `t` at offset `o`, in order, and what the initialiser sets them to; `none` if the initialiser does not match the type -/
def leaves (tags : Str → Option (Members × Nat)) : SInit → DType → Nat → Option (List (Nat × Leaf))
  | .expr e, t, o => if t.isScalar then some [(o, .val t e)] else none
  | .str _ b, t, o => match t with
    | .arr .char n => if b.length = n then some [(o, .bytes b)] else none
    | _ => none
  | .list is, t, o => match t with
    | .arr u n => elems tags is u n o
    | t => match structOf tags t with
      | some (ms, _) => members tags is ms o
      | none => none
/-- `n` elements of type `t` from offset `o` on: each begins where the one before it ends -/
def elems (tags : Str → Option (Members × Nat)) : SInits → DType → Nat → Nat → Option (List (Nat × Leaf))
  | .nil, _, 0, _ => some []
  | .cons i is, t, n + 1, o => match leaves tags i t o, elems tags is t n (o + t.nbytes) with
    | some a, some b => some (a ++ b)
    | _, _ => none
  | _, _, _, _ => none
/-- the members of a structure at offset `o`: each is at its own offset from there -/
def members (tags : Str → Option (Members × Nat)) : SInits → Members → Nat → Option (List (Nat × Leaf))
  | .nil, .nil, _ => some []
  | .cons i is, .cons _ t k ms, o => match leaves tags i t (o + k), members tags is ms o with
    | some a, some b => some (a ++ b)
    | _, _ => none
  | _, _, _ => none
end

/-! ### objects in memory -/

/-- The parts are set one after the other, at their offsets from the address `a` of the object. -/
def initialise {W : Type} (C : CSem.Ctx W) (a : BitVec 64) : List (Nat × Leaf) → Mem × W → Option (Mem × W)
  | [], σ => some σ
  | (o, .val t e) :: ls, σ => do
    let q ← CSem.rep t
    CSem.need (CSem.rep e.dt = some q)
    let x ← CSem.eval C e σ
    initialise C a ls (CSem.store q x.2.1 ((a + BitVec.ofNat 64 o).toInt) x.1, x.2.2)
  | (o, .bytes b) :: ls, σ => initialise C a ls (IMach.writeBytes σ.1 (a + BitVec.ofNat 64 o) b, σ.2)

mutual
/-- the last part of the object ends where the object ends -/
def snug (tags : Str → Option (Members × Nat)) : SInit → DType → Bool
  | .expr _, _ => true
  | .str _ _, _ => true
  | .list is, t => match t with
    | .arr u _ => snugElems tags is u
    | t => match structOf tags t with
      | some (ms, b) => snugLast tags is ms b
      | none => false
def snugElems (tags : Str → Option (Members × Nat)) : SInits → DType → Bool
  | .nil, _ => true
  | .cons i is, t => snug tags i t && snugElems tags is t
def snugLast (tags : Str → Option (Members × Nat)) : SInits → Members → Nat → Bool
  | .nil, _, _ => false
  | .cons _ _, .nil, _ => false
  | .cons i .nil, .cons _ t o .nil, b => o + t.nbytes == b && snug tags i t
  | .cons _ is, .cons _ _ _ ms, b => snugLast tags is ms b
end

mutual
/-- there is no padding at the end of elements of arrays -/
def packed (tags : Str → Option (Members × Nat)) : SInit → DType → Bool
  | .expr _, _ => true
  | .str _ _, _ => true
  | .list is, t => match t with
    | .arr u _ => snugElems tags is u && packedElems tags is u
    | t => match structOf tags t with
      | some (ms, _) => packedMembers tags is ms
      | none => false
def packedElems (tags : Str → Option (Members × Nat)) : SInits → DType → Bool
  | .nil, _ => true
  | .cons i is, t => packed tags i t && packedElems tags is t
def packedMembers (tags : Str → Option (Members × Nat)) : SInits → Members → Bool
  | .cons i is, .cons _ t _ ms => packed tags i t && packedMembers tags is ms
  | _, _ => true
end

/-! ### static objects -/

/-- the low `n` bytes of a number, the lowest first -/
def leBytes : Nat → Int → List UInt8
  | 0, _ => []
  | n + 1, v => UInt8.ofNat (v % 256).toNat :: leBytes n (v / 256)

/-- no objects, no functions: what constant expressions are evaluated in -/
def noCtx : CSem.Ctx Unit where
  addr _ := none
  str _ := 0
  tag _ := none
  call _ _ _ _ _ := none
  ok _ := true
  lim := false

/-- value of a constant expression -/
def constant (e : SExpr) : Option Int := (CSem.eval noCtx e (fun _ => 0, ())).map (·.1)

/-- the bytes of a part -/
def Leaf.image : Leaf → Option (List UInt8)
  | .val t e => do
    let q ← CSem.rep t
    CSem.need (CSem.rep e.dt = some q)
    let v ← constant e
    some (leBytes t.nbytes v)
  | .bytes b => some b

/-- the parts with their bytes -/
def images : List (Nat × Leaf) → Option (List (Nat × List UInt8))
  | [] => some []
  | (o, l) :: ls => do
    let b ← l.image
    let bs ← images ls
    some ((o, b) :: bs)

/-- the byte at an offset: that of the part there, and 0 between parts -/
def byteAt : List (Nat × List UInt8) → Nat → UInt8
  | [], _ => 0
  | (o, b) :: ps, k => if o ≤ k ∧ k < o + b.length then b.getD (k - o) 0 else byteAt ps k

/-- an object of `n` bytes with the given parts -/
def object (n : Nat) (ps : List (Nat × List UInt8)) : List UInt8 := (List.range n).map (byteAt ps)

/-- what the assembler makes of a directive -/
def directive : IData → List UInt8
  | .byte l => leBytes 1 l.value
  | .word l => leBytes 2 l.value
  | .long l => leBytes 4 l.value
  | .quad l => leBytes 8 l.value
  | .zero l => List.replicate l.value.toNat 0
  | .str b => b

/-- the bytes that a sequence of directives puts in the object file -/
def assembled (ds : List IData) : List UInt8 := ds.flatMap directive

end Lay
end Umlcc
