import Verif.Spec.X64Arith
/-!
The calling convention (System V, x86-64), independently of the code generator: where arguments are at function
entry, which registers a function must keep, and what evaluating an argument may do to the stack.
-/
namespace Umlcc
namespace X86

/-- registers of the first six arguments -/
def sysvArg : Nat → Option Reg
  | 0 => some .di
  | 1 => some .si
  | 2 => some .dx
  | 3 => some .cx
  | 4 => some .r8
  | 5 => some .r9
  | _ => none

/-- the `i`-th argument when a function is entered (`rsp` is at the return address) -/
def argAt (m : Mach) (i : Nat) : BitVec 64 :=
  match sysvArg i with
  | some r => m.regs r
  | none => load m (m.regs .sp + BitVec.ofNat 64 (8 + 8 * (i - 6))) .quad

/-- registers a function must give back unchanged -/
def sysvKept : List Reg := [.bx, .bp, .r12, .r13, .r14, .r15]

/-- called functions obey the convention -/
def Abi (env : Env) : Prop :=
  ∀ t x y, env.fn t x = some y → (∀ r ∈ sysvKept, y.regs r = x.regs r) ∧ y.regs .sp = x.regs .sp + 8

/-- stack pointer and the `n` bytes from it on are the same -/
def Keeps (n : Nat) (m m' : Mach) : Prop :=
  m'.regs .sp = m.regs .sp ∧ ∀ k, k < n → m'.mem (m.regs .sp + BitVec.ofNat 64 k) = m.mem (m.regs .sp + BitVec.ofNat 64 k)

/-- the 64-bit content of an argument operand: an allocated register, or a literal -/
def argVal (m : Mach) : Ope → Option (BitVec 64)
  | .reg _ id _ => match X64.callerAt id with
    | .ok r => some (m.regs r)
    | _ => none
  | .int _ l => some (BitVec.ofInt 64 l.value)
  | _ => none

/-- the function that gets called -/
def targetVal (env : Env) (m : Mach) : Ope → Option (BitVec 64)
  | .ptr id => match X64.callerAt id with
    | .ok r => some (m.regs r)
    | _ => none
  | .label n => some (env.sym n)
  | _ => none

/-- Passing arguments, last one first. Between two `STARG` instructions any code may run that leaves the stack pointer and
the arguments already passed alone. `Passed env m vs m'`: from `m` the arguments `vs` (in order) were passed, ending in
`m'`. -/
inductive Passed (env : Env) (m : Mach) : List (BitVec 64) → Mach → Prop
  | nil : Passed env m [] m
  | cons {vs m1 m2 m3 v o s cs} : Passed env m vs m1 → Keeps (8 * vs.length) m1 m2 → argVal m2 o = some v →
      X64.genStarg ⟨.starg, none, some o, s⟩ = .ok cs → run env m2 cs = .next m3 → Passed env m (v :: vs) m3

/-- local variables receiving arguments: offset below `rbp`, width, signedness -/
abbrev Param := Int × Sfx × Bool

/-- the instructions loading arguments `k`, `k + 1`, ... -/
def ldargs (k : Nat) : List Param → List Inst
  | [] => []
  | (off, s, u) :: ps => ⟨.ldarg, some (.mem off), some (.arg s k u), none⟩ :: ldargs (k + 1) ps

/-- concatenated code of a list of instructions -/
def genAll (gen : Inst → Out (List X64.XInst)) : List Inst → Out (List X64.XInst)
  | [] => .ok []
  | i :: is => do let a ← gen i; let b ← genAll gen is; pure (a ++ b)

/-- variables that do not overlap -/
def apart (p q : Param) : Prop := -p.1 + p.2.1.nbytes ≤ -q.1 ∨ -q.1 + q.2.1.nbytes ≤ -p.1

/-- memory with the bytes `bs` put at `A` -/
def putBytes (mem : BitVec 64 → BitVec 8) (A : BitVec 64) (bs : List UInt8) : BitVec 64 → BitVec 8 := fun x =>
  match bs[(x - A).toNat]? with
  | some c => c.toBitVec
  | none => mem x

end X86
end Umlcc
