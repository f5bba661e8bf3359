import Verif.Spec.X64Machine
/-!
What intermediate instructions mean, on bit vectors: conversions between widths, the binary and unary operations at a
common width, and comparisons. Written without reference to the code that is emitted for them.
-/
namespace Umlcc
namespace ISem

/-- Converting a value to another width: truncation, or extension by zeros (unsigned) or by the sign. -/
def conv (uns : Bool) (v : BitVec w) (w' : Nat) : BitVec w' := if uns then v.setWidth w' else v.signExtend w'

/-- the relation of a comparison -/
def rel (op : IOp) (uns : Bool) (a b : BitVec w) : Option Bool :=
  match op with
  | .seteq | .jeq => some (decide (a.toNat = b.toNat))
  | .setneq | .jneq => some (decide (a.toNat ≠ b.toNat))
  | .setlt | .jlt => some (if uns then decide (a.toNat < b.toNat) else decide (a.toInt < b.toInt))
  | .setgt | .jgt => some (if uns then decide (b.toNat < a.toNat) else decide (b.toInt < a.toInt))
  | .setleq | .jleq => some (if uns then decide (a.toNat ≤ b.toNat) else decide (a.toInt ≤ b.toInt))
  | .setgeq | .jgeq => some (if uns then decide (b.toNat ≤ a.toNat) else decide (b.toInt ≤ a.toInt))
  | _ => none

/-- binary operations that are defined for all operands -/
def bin (op : IOp) (a b : BitVec w) : Option (BitVec w) :=
  match op with
  | .add => some (a + b)
  | .sub => some (a - b)
  | .mul => some (a * b)
  | .and => some (a &&& b)
  | .or => some (a ||| b)
  | .xor => some (a ^^^ b)
  | _ => none

/-- division and remainder, truncating; `none` when C leaves them undefined -/
def divmod (op : IOp) (uns : Bool) (a b : BitVec w) : Option (BitVec w) :=
  if uns then
    if b.toNat = 0 then none
    else match op with
      | .div => some (BitVec.ofNat w (a.toNat / b.toNat))
      | .mod => some (BitVec.ofNat w (a.toNat % b.toNat))
      | _ => none
  else
    if b.toInt = 0 ∨ a.toInt.tdiv b.toInt ≥ 2 ^ (w - 1) then none
    else match op with
      | .div => some (BitVec.ofInt w (a.toInt.tdiv b.toInt))
      | .mod => some (BitVec.ofInt w (a.toInt.tmod b.toInt))
      | _ => none

def un (op : IOp) (a : BitVec w) : Option (BitVec w) :=
  match op with
  | .neg => some (-a)
  | .not => some (~~~a)
  | _ => none

/-- shifts by a count smaller than the width; right shifts of unsigned values are logical -/
def shift (op : IOp) (uns : Bool) (a : BitVec w) (n : Nat) : Option (BitVec w) :=
  match op with
  | .sal => some (BitVec.ofNat w (a.toNat * 2 ^ n))
  | .sar => some (if uns then BitVec.ofNat w (a.toNat / 2 ^ n) else BitVec.ofInt w (a.toInt / 2 ^ n))
  | _ => none

end ISem
end Umlcc
