import Verif.Model.X64Text
/-!
What the assembler and the processor make of a printed instruction. This describes the part of AT&T syntax and of the
x86-64 instruction set the compiler uses, independently of how the compiler builds its instructions: the input is the
printed mnemonic and the printed operands.

Conservative choices: a line that is not described here is `bad`; flags are only known after `cmp`
(reading them at another time is a `fault`); 8-bit multiplication and division are not described.
-/
namespace Umlcc

/-- width in bits of an operand suffix -/
@[reducible] def Sfx.bits : Sfx → Nat
  | .none => 0 | .byte => 8 | .word => 16 | .long => 32 | .quad => 64

namespace X86
open X64 (Cond OpTxt Line)

/-- the registers the assembler knows -/
def regTable : List (String × Sfx × Reg) :=
  [("%al", .byte, .ax), ("%bl", .byte, .bx), ("%cl", .byte, .cx), ("%dl", .byte, .dx),
   ("%spl", .byte, .sp), ("%bpl", .byte, .bp), ("%sil", .byte, .si), ("%dil", .byte, .di),
   ("%r8b", .byte, .r8), ("%r9b", .byte, .r9), ("%r10b", .byte, .r10), ("%r11b", .byte, .r11),
   ("%r12b", .byte, .r12), ("%r13b", .byte, .r13), ("%r14b", .byte, .r14), ("%r15b", .byte, .r15),
   ("%ax", .word, .ax), ("%bx", .word, .bx), ("%cx", .word, .cx), ("%dx", .word, .dx),
   ("%sp", .word, .sp), ("%bp", .word, .bp), ("%si", .word, .si), ("%di", .word, .di),
   ("%r8w", .word, .r8), ("%r9w", .word, .r9), ("%r10w", .word, .r10), ("%r11w", .word, .r11),
   ("%r12w", .word, .r12), ("%r13w", .word, .r13), ("%r14w", .word, .r14), ("%r15w", .word, .r15),
   ("%eax", .long, .ax), ("%ebx", .long, .bx), ("%ecx", .long, .cx), ("%edx", .long, .dx),
   ("%esp", .long, .sp), ("%ebp", .long, .bp), ("%esi", .long, .si), ("%edi", .long, .di),
   ("%r8d", .long, .r8), ("%r9d", .long, .r9), ("%r10d", .long, .r10), ("%r11d", .long, .r11),
   ("%r12d", .long, .r12), ("%r13d", .long, .r13), ("%r14d", .long, .r14), ("%r15d", .long, .r15),
   ("%rax", .quad, .ax), ("%rbx", .quad, .bx), ("%rcx", .quad, .cx), ("%rdx", .quad, .dx),
   ("%rsp", .quad, .sp), ("%rbp", .quad, .bp), ("%rsi", .quad, .si), ("%rdi", .quad, .di),
   ("%r8", .quad, .r8), ("%r9", .quad, .r9), ("%r10", .quad, .r10), ("%r11", .quad, .r11),
   ("%r12", .quad, .r12), ("%r13", .quad, .r13), ("%r14", .quad, .r14), ("%r15", .quad, .r15)]

/-- register named in a program -/
def regOf (name : String) : Option (Sfx × Reg) := regTable.lookup name

/-- two-operand instructions `op src, dst` that read and write or compare the destination -/
inductive Alu where
  | add | sub | and | or | xor | cmp
  deriving DecidableEq, Repr

inductive Mn where
  | mov (s : Sfx) | movsx (s t : Sfx) | movzx (s t : Sfx) | movabs | lea (s : Sfx) | cltq | cwtd | cltd | cqto
  | push | pop | alu (a : Alu) (s : Sfx) | imul (s : Sfx) | div (s : Sfx) | idiv (s : Sfx)
  | neg (s : Sfx) | not (s : Sfx) | sal (s : Sfx) | sar (s : Sfx)
  | set (c : Cond) | jmp | jcc (c : Cond) | call | ret
  deriving DecidableEq, Repr

/-- the mnemonics the assembler knows -/
def mnTable : List (String × Mn) :=
  [("movb", .mov .byte), ("movw", .mov .word), ("movl", .mov .long), ("movq", .mov .quad),
   ("movsbw", .movsx .byte .word), ("movsbl", .movsx .byte .long), ("movsbq", .movsx .byte .quad),
   ("movswl", .movsx .word .long), ("movswq", .movsx .word .quad), ("movslq", .movsx .long .quad),
   ("movzbw", .movzx .byte .word), ("movzbl", .movzx .byte .long), ("movzbq", .movzx .byte .quad),
   ("movzwl", .movzx .word .long), ("movzwq", .movzx .word .quad),
   ("movabsq", .movabs), ("leaw", .lea .word), ("leal", .lea .long), ("leaq", .lea .quad),
   ("cltq", .cltq), ("cwtd", .cwtd), ("cltd", .cltd), ("cqto", .cqto), ("pushq", .push), ("popq", .pop),
   ("addb", .alu .add .byte), ("addw", .alu .add .word), ("addl", .alu .add .long), ("addq", .alu .add .quad),
   ("subb", .alu .sub .byte), ("subw", .alu .sub .word), ("subl", .alu .sub .long), ("subq", .alu .sub .quad),
   ("andb", .alu .and .byte), ("andw", .alu .and .word), ("andl", .alu .and .long), ("andq", .alu .and .quad),
   ("orb", .alu .or .byte), ("orw", .alu .or .word), ("orl", .alu .or .long), ("orq", .alu .or .quad),
   ("xorb", .alu .xor .byte), ("xorw", .alu .xor .word), ("xorl", .alu .xor .long), ("xorq", .alu .xor .quad),
   ("cmpb", .alu .cmp .byte), ("cmpw", .alu .cmp .word), ("cmpl", .alu .cmp .long), ("cmpq", .alu .cmp .quad),
   ("imulw", .imul .word), ("imull", .imul .long), ("imulq", .imul .quad),
   ("divw", .div .word), ("divl", .div .long), ("divq", .div .quad),
   ("idivw", .idiv .word), ("idivl", .idiv .long), ("idivq", .idiv .quad),
   ("negb", .neg .byte), ("negw", .neg .word), ("negl", .neg .long), ("negq", .neg .quad),
   ("notb", .not .byte), ("notw", .not .word), ("notl", .not .long), ("notq", .not .quad),
   ("salb", .sal .byte), ("salw", .sal .word), ("sall", .sal .long), ("salq", .sal .quad),
   ("sarb", .sar .byte), ("sarw", .sar .word), ("sarl", .sar .long), ("sarq", .sar .quad),
   ("sete", .set .e), ("setne", .set .ne), ("seta", .set .a), ("setae", .set .ae), ("setb", .set .b),
   ("setbe", .set .be), ("setg", .set .g), ("setge", .set .ge), ("setl", .set .l), ("setle", .set .le),
   ("jmp", .jmp), ("je", .jcc .e), ("jne", .jcc .ne), ("ja", .jcc .a), ("jae", .jcc .ae), ("jb", .jcc .b),
   ("jbe", .jcc .be), ("jg", .jcc .g), ("jge", .jcc .ge), ("jl", .jcc .l), ("jle", .jcc .le),
   ("call", .call), ("ret", .ret)]

def mnOf (s : String) : Option Mn := mnTable.lookup s

/-- operands as understood by the assembler -/
inductive Op where
  | reg (s : Sfx) (r : Reg)
  | mem (base : Reg) (disp : Int)
  | rip (sym : Name)
  | imm (n : Int)
  | star (r : Reg)
  | sym (n : Name)
  deriving DecidableEq

/-- only 64-bit registers are used as addresses -/
def opOf : OpTxt → Option Op
  | .reg n => (regOf n).map fun p => .reg p.1 p.2
  | .ind n => match regOf n with
    | some (.quad, r) => some (.mem r 0)
    | _ => none
  | .star n => match regOf n with
    | some (.quad, r) => some (.star r)
    | _ => none
  | .disp d n => match regOf n with
    | some (.quad, r) => some (.mem r d)
    | _ => none
  | .rip n => some (.rip n)
  | .sym n => some (.sym n)
  | .imm n => some (.imm n)

def opsOf : List OpTxt → Option (List Op)
  | [] => some []
  | t :: ts => match opOf t, opsOf ts with
    | some o, some os => some (o :: os)
    | _, _ => none

/-! ### the machine -/

structure Flags where
  zf : Bool
  cf : Bool
  sf : Bool
  of : Bool

/-- registers, byte-addressed memory, flags if known -/
structure Mach where
  regs : Reg → BitVec 64
  mem : BitVec 64 → BitVec 8
  flags : Option Flags

/-- where symbols are, what called functions do (from the state at entry to the state after their `ret`),
and the return address a call pushes -/
structure Env where
  sym : Name → BitVec 64
  fn : BitVec 64 → Mach → Option Mach
  back : BitVec 64

inductive Res where
  | next (m : Mach)
  | jump (l : Name) (m : Mach)
  | ret (a : BitVec 64) (m : Mach)
  /-- not an instruction -/
  | bad
  /-- processor exception, or a value this description leaves open -/
  | fault

/-- a register's low bits -/
def get (m : Mach) (r : Reg) (s : Sfx) : BitVec s.bits := (m.regs r).setWidth s.bits

/-- replacing the low bits of a register: 32-bit writes clear the upper half, narrower ones keep the rest -/
def merge (old : BitVec 64) (s : Sfx) (v : BitVec s.bits) : BitVec 64 :=
  match s with
  | .quad | .long => v.setWidth 64
  | s => BitVec.ofNat 64 (old.toNat / 2 ^ s.bits * 2 ^ s.bits + v.toNat)

def setReg (m : Mach) (r : Reg) (v : BitVec 64) : Mach := { m with regs := fun q => if q = r then v else m.regs q }

def set (m : Mach) (r : Reg) (s : Sfx) (v : BitVec s.bits) : Mach := setReg m r (merge (m.regs r) s v)

/-- `n` bytes from `a` on, little endian -/
def readLE (mem : BitVec 64 → BitVec 8) (a : BitVec 64) : Nat → Nat
  | 0 => 0
  | n + 1 => (mem a).toNat + 256 * readLE mem (a + 1) n

/-- the lowest `n` bytes of `v` stored from `a` on, little endian -/
def writeLE (mem : BitVec 64 → BitVec 8) (a : BitVec 64) (n : Nat) (v : Nat) : BitVec 64 → BitVec 8 := fun x =>
  if (x - a).toNat < n then BitVec.ofNat 8 (v / 256 ^ (x - a).toNat) else mem x

def load (m : Mach) (a : BitVec 64) (s : Sfx) : BitVec s.bits := BitVec.ofNat _ (readLE m.mem a s.nbytes)
def store (m : Mach) (a : BitVec 64) (s : Sfx) (v : BitVec s.bits) : Mach :=
  { m with mem := writeLE m.mem a s.nbytes v.toNat }

def forget (m : Mach) : Mach := { m with flags := none }

/-- address of a memory operand -/
def addr (env : Env) (m : Mach) : Op → Option (BitVec 64)
  | .mem b d => some (m.regs b + BitVec.ofInt 64 d)
  | .rip n => some (env.sym n)
  | _ => none

/-- an immediate the assembler accepts for width `s`: for 64 bits a sign-extended 32-bit number -/
def immFits (s : Sfx) (n : Int) : Bool :=
  if s = .quad then decide (-2 ^ 31 ≤ n ∧ n < 2 ^ 31) else decide (-2 ^ (s.bits - 1) ≤ n ∧ n < 2 ^ s.bits)

/-- an immediate that a 64-bit register can be loaded with -/
def immFits64 (n : Int) : Bool := decide (-2 ^ 63 ≤ n ∧ n < 2 ^ 64)

/-- value of a source operand of width `s`, `none` if it is not acceptable -/
def value (env : Env) (m : Mach) (s : Sfx) : Op → Option (BitVec s.bits)
  | .reg t r => if t = s then some (get m r s) else none
  | .imm n => if immFits s n then some (BitVec.ofInt _ n) else none
  | .mem b d => (addr env m (.mem b d)).map fun a => load m a s
  | .rip n => (addr env m (.rip n)).map fun a => load m a s
  | _ => none

def isMem : Op → Bool
  | .mem _ _ | .rip _ => true
  | _ => false

/-- write to a destination of width `s` -/
def assign (env : Env) (m : Mach) (s : Sfx) (d : Op) (v : BitVec s.bits) : Res :=
  match d with
  | .reg t r => if t = s then .next (set m r s v) else .bad
  | d => match addr env m d with
    | some a => .next (store m a s v)
    | none => .bad

/-- `mov` -/
def mov (env : Env) (m : Mach) (s : Sfx) (src dst : Op) : Res :=
  match src, dst with
  | .imm n, .reg .quad r =>
    if s = .quad ∧ immFits64 n = true then .next (set m r .quad (BitVec.ofInt _ n)) else .bad
  | src, dst =>
    if isMem src && isMem dst then .bad
    else match value env m s src with
      | some v => assign env m s dst v
      | none => .bad

def cmpFlags {w : Nat} (a b : BitVec w) : Flags :=
  ⟨a == b, a.ult b, (a - b).msb, BitVec.ssubOverflow a b⟩

def aluVal {w : Nat} : Alu → BitVec w → BitVec w → BitVec w
  | .add, a, b => a + b
  | .sub, a, b => a - b
  | .and, a, b => a &&& b
  | .or, a, b => a ||| b
  | .xor, a, b => a ^^^ b
  | .cmp, a, _ => a

def alu (env : Env) (m : Mach) (op : Alu) (s : Sfx) (src dst : Op) : Res :=
  if isMem src && isMem dst then .bad
  else match dst with
    | .imm _ => .bad
    | dst => match value env m s src, value env m s dst with
      | some b, some a =>
        if op = .cmp then .next { m with flags := some (cmpFlags a b) }
        else assign env (forget m) s dst (aluVal op a b)
      | _, _ => .bad

def holds (f : Flags) : Cond → Bool
  | .e => f.zf
  | .ne => !f.zf
  | .b => f.cf
  | .ae => !f.cf
  | .be => f.cf || f.zf
  | .a => !(f.cf || f.zf)
  | .l => f.sf != f.of
  | .ge => !(f.sf != f.of)
  | .le => f.zf || (f.sf != f.of)
  | .g => !(f.zf || (f.sf != f.of))

/-- unsigned division of `dx:ax` -/
def divU (m : Mach) (s : Sfx) (d : BitVec s.bits) : Res :=
  let n := (get m .dx s).toNat * 2 ^ s.bits + (get m .ax s).toNat
  if d.toNat = 0 ∨ n / d.toNat ≥ 2 ^ s.bits then .fault
  else .next (forget (set (set m .ax s (BitVec.ofNat _ (n / d.toNat))) .dx s (BitVec.ofNat _ (n % d.toNat))))

/-- signed division of `dx:ax` -/
def divS (m : Mach) (s : Sfx) (d : BitVec s.bits) : Res :=
  let n := (get m .dx s).toInt * 2 ^ s.bits + (get m .ax s).toNat
  let q := n.tdiv d.toInt
  if d.toInt = 0 ∨ q < -2 ^ (s.bits - 1) ∨ q ≥ 2 ^ (s.bits - 1) then .fault
  else .next (forget (set (set m .ax s (BitVec.ofInt _ q)) .dx s (BitVec.ofInt _ (n.tmod d.toInt))))

def shiftOp (m : Mach) (s : Sfx) (src dst : Op) (f : BitVec s.bits → Nat → BitVec s.bits) : Res :=
  match src, dst with
  | .imm n, .reg t r =>
    if t = s ∧ 0 ≤ n ∧ n < 256 then
      .next (forget (set m r s (f (get m r s) (n.toNat % (if s = .quad then 64 else 32)))))
    else .bad
  | _, _ => .bad

def push (m : Mach) (v : BitVec 64) : Mach :=
  let sp := m.regs .sp - 8
  store (setReg m .sp sp) sp .quad v

def pop (m : Mach) : BitVec 64 × Mach := (load m (m.regs .sp) .quad, setReg m .sp (m.regs .sp + 8))

def doCall (env : Env) (m : Mach) (target : BitVec 64) : Res :=
  match env.fn target (push m env.back) with
  | some m => .next m
  | none => .fault

/-- one instruction -/
def step (env : Env) (m : Mach) (mn : Mn) (ops : List Op) : Res :=
  match mn, ops with
  | .mov s, [src, dst] => mov env m s src dst
  | .movsx s t, [.reg s' r, .reg t' q] =>
    if s' = s ∧ t' = t then .next (set m q t ((get m r s).signExtend t.bits)) else .bad
  | .movzx s t, [.reg s' r, .reg t' q] =>
    if s' = s ∧ t' = t then .next (set m q t ((get m r s).setWidth t.bits)) else .bad
  | .movabs, [.imm n, .reg .quad r] =>
    if immFits64 n then .next (set m r .quad (BitVec.ofInt _ n)) else .bad
  | .lea s, [src, .reg t r] =>
    if t = s then
      match addr env m src with
      | some a => .next (set m r s (a.setWidth s.bits))
      | none => .bad
    else .bad
  | .cltq, [] => .next (set m .ax .quad ((get m .ax .long).signExtend _))
  | .cwtd, [] => .next (set m .dx .word (if (get m .ax .word).msb then -1 else 0))
  | .cltd, [] => .next (set m .dx .long (if (get m .ax .long).msb then -1 else 0))
  | .cqto, [] => .next (set m .dx .quad (if (get m .ax .quad).msb then -1 else 0))
  | .push, [.reg .quad r] => .next (push m (m.regs r))
  | .push, [.imm n] => if immFits .quad n then .next (push m (BitVec.ofInt 64 n)) else .bad
  | .pop, [.reg .quad r] => let p := pop m; .next (setReg p.2 r p.1)
  | .alu op s, [src, dst] => alu env m op s src dst
  | .imul s, [src, .reg t r] =>
    if t = s then
      match value env m s src with
      | some v => .next (forget (set m r s (get m r s * v)))
      | none => .bad
    else .bad
  | .div s, [.reg t r] => if t = s then divU m s (get m r s) else .bad
  | .idiv s, [.reg t r] => if t = s then divS m s (get m r s) else .bad
  | .neg s, [.reg t r] => if t = s then .next (forget (set m r s (-get m r s))) else .bad
  | .not s, [.reg t r] => if t = s then .next (set m r s (~~~get m r s)) else .bad
  | .sal s, [src, dst] => shiftOp m s src dst (fun v n => v <<< n)
  | .sar s, [src, dst] => shiftOp m s src dst (fun v n => v.sshiftRight n)
  | .set c, [.reg .byte r] => match m.flags with
    | some f => .next (set m r .byte (if holds f c then 1 else 0))
    | none => .fault
  | .jmp, [.sym n] => .jump n m
  | .jcc c, [.sym n] => match m.flags with
    | some f => if holds f c then .jump n m else .next m
    | none => .fault
  | .call, [.sym n] => doCall env m (env.sym n)
  | .call, [.star r] => doCall env m (m.regs r)
  | .ret, [] => let p := pop m; .ret p.1 p.2
  | _, _ => .bad

/-- a printed instruction, assembled and executed -/
def exec (env : Env) (m : Mach) (l : Line) : Res :=
  match mnOf l.mn, opsOf l.ops with
  | some mn, some ops => step env m mn ops
  | _, _ => .bad


/-- one instruction of the compiler, printed, assembled and executed -/
def stepI (env : Env) (m : Mach) (i : X64.XInst) : Res :=
  match X64.line i with
  | .ok l => exec env m l
  | _ => .bad

/-- straight-line code of the compiler -/
def run (env : Env) (m : Mach) : List X64.XInst → Res
  | [] => .next m
  | i :: is => match stepI env m i with
    | .next m => run env m is
    | r => r

end X86
end Umlcc
