import Verif.Spec.X64Call
/-!
When the machine code of one intermediate instruction is correct: what value the destination must get and which
registers must not change. Registers of intermediate instructions are already physical (`X64.callerAt`).
-/
namespace Umlcc
namespace X86

/-- value of an operand, brought to width `w`: registers are converted according to their signedness, literals wrap -/
def opVal (m : Mach) (w : Sfx) : Ope → Option (BitVec w.bits)
  | .reg s id u => match X64.callerAt id with
    | .ok r => if s = .none then none else some (ISem.conv u (get m r s) w.bits)
    | _ => none
  | .int _ l => some (BitVec.ofInt _ l.value)
  | _ => none

/-- physical register of an operand -/
def opReg : Ope → Option Reg
  | .reg _ id _ => match X64.callerAt id with
    | .ok r => some r
    | _ => none
  | _ => none

/-- a 32-bit register of the given signedness, to be used as 64 bits -/
def Widens (u : Bool) (o : Ope) (w : Sfx) : Prop := w = .quad ∧ ∃ id, o = .reg .long id u

/-- a literal that fits an immediate operand of width `w` -/
def LitFits (w : Sfx) : Ope → Prop
  | .int _ l => immFits w l.value = true
  | _ => True

/-- a literal a register of width `w` can be loaded with -/
def LitLoads (w : Sfx) : Ope → Prop
  | .int _ l => if w = .quad then immFits64 l.value = true else immFits w l.value = true
  | _ => True

/-- value of a binary instruction on operands of a common width; `u` is the signedness of the destination -/
def binVal {w : Nat} (op : IOp) (u : Bool) (a b : BitVec w) : Option (BitVec w) :=
  match op with
  | .div | .mod => ISem.divmod op u a b
  | op => ISem.bin op a b

/-- registers holding a live value, according to the flags of the eight allocatable registers -/
def LiveReg (live : List Bool) (r : Reg) : Prop := ∃ k : Nat, live[k]? = some true ∧ X64.callerAt (k : Int) = .ok r

/-- The generated code exists, runs through, leaves `v` in the destination, and keeps the registers `kept` and the memory. -/
def Yields (env : Env) (m : Mach) (code : Out (List X64.XInst × Nat)) (d : Reg) (s : Sfx) (v : BitVec s.bits)
    (kept : Reg → Prop) : Prop :=
  ∃ cs ev m', code = .ok (cs, ev) ∧ run env m cs = .next m' ∧ get m' d s = v ∧
    (∀ r, kept r → r ≠ d → m'.regs r = m.regs r) ∧ m'.mem = m.mem

end X86
end Umlcc
