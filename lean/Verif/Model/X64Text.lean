import Verif.Model.X64
/-!
Model of how assembly items are printed: `src/x64/inst.c`, `src/x64/ope.c`, `src/x64/register.c`, `src/x64/label.c`,
`src/x64/data.c`.

A printed instruction is kept as its mnemonic and its operands (`Line`), not yet as characters. Strings are ASCII, so a
`Char` is a byte.
-/
namespace Umlcc
namespace X64

/-- `BREG_NAMES`, x64/register.c:17-18 -/
def bregNames : List String := ["%al", "%bl", "%cl", "%dl", "%spl", "%bpl", "%sil", "%dil",
  "%r8b", "%r9b", "%r10b", "%r11b", "%r12b", "%r13b", "%r14b", "%r15b"]
/-- `WREG_NAMES`, x64/register.c:20-21 -/
def wregNames : List String := ["%ax", "%bx", "%cx", "%dx", "%sp", "%bp", "%si", "%di",
  "%r8w", "%r9w", "%r10w", "%r11w", "%r12w", "%r13q", "%r14w", "%r15w"]
/-- `LREG_NAMES`, x64/register.c:23-24 -/
def lregNames : List String := ["%eax", "%ebx", "%ecx", "%edx", "%esp", "%ebp", "%esi", "%edi",
  "%r8d", "%r9d", "%r10d", "%r11d", "%r12d", "%r13d", "%r14d", "%r15d"]
/-- `QREG_NAMES`, x64/register.c:26-27 -/
def qregNames : List String := ["%rax", "%rbx", "%rcx", "%rdx", "%rsp", "%rbp", "%rsi", "%rdi",
  "%r8", "%r9", "%r10", "%r11", "%r12", "%r13", "%r14", "%r15"]

/-- `reg_name`, x64/register.c:29-42; NULL for the suffix `NONE` -/
def regName (r : Reg) : Sfx → Option String
  | .byte => bregNames[r.toIdx]?
  | .word => wregNames[r.toIdx]?
  | .long => lregNames[r.toIdx]?
  | .quad => qregNames[r.toIdx]?
  | .none => none

/-- `x64suffix_tochar`, x64/suffix.c:33-46 -/
def sfxChar : Sfx → Char
  | .byte => 'b' | .word => 'w' | .long => 'l' | .quad => 'q' | .none => '\x00'

/-- `sprintf` of a format with one `%c` between `pre` and `post`, as a C string: a NUL character ends it -/
def fmt1 (pre : String) (s : Sfx) (post : String) : String :=
  if s = .none then pre else pre ++ String.singleton (sfxChar s) ++ post

/-- `sprintf` of a format ending in `%c%c` with `mid` between the two characters -/
def fmt2 (pre : String) (s : Sfx) (mid : String) (t : Sfx) : String :=
  if s = .none then pre else fmt1 (pre ++ String.singleton (sfxChar s) ++ mid) t ""

/-- `x64ope->suffix` (x64/ope.c: `new_base_x64ope` sets `NONE`) -/
def XOpe.suffix : XOpe → Sfx
  | .sfx s => s
  | .reg s _ => s
  | .ptr _ => .quad
  | .jptr _ => .quad
  | .int s _ => s
  | .mem _ | .label _ | .jlabel _ => .none

/-- the operand kinds whose suffix decides a one-suffix mnemonic, x64/inst.c:117-126 -/
def XOpe.decides : XOpe → Bool
  | .sfx _ | .reg _ _ | .int _ _ => true
  | _ => false

/-- suffix of a one-suffix mnemonic, x64/inst.c:116-126: of the source, overridden by the destination -/
def oneSuffix (i : XInst) : Sfx :=
  let s := match i.src with
    | some o => if o.decides then o.suffix else .none
    | none => .none
  match i.dst with
  | some o => if o.decides then o.suffix else s
  | none => s

def Cond.str : Cond → String
  | .e => "e" | .ne => "ne" | .a => "a" | .ae => "ae" | .b => "b" | .be => "be"
  | .g => "g" | .ge => "ge" | .l => "l" | .le => "le"

/-- `x64instcode_tostring`, x64/inst.c:77-136 with `x64_inst_formats`, inst.c:14-19.
The two-suffix instructions read both operands without a check. -/
def mnemonic (i : XInst) : Out String :=
  let one := oneSuffix i
  match i.op with
  | .movs => match i.src, i.dst with
    | some s, some d => .ok (fmt2 "movs" s.suffix "" d.suffix)
    | _, _ => .ub
  | .movz => match i.src, i.dst with
    | some s, some d => .ok (fmt2 "movz" s.suffix "" d.suffix)
    | _, _ => .ub
  | .cxtx => match i.src, i.dst with
    | some s, some d => .ok (fmt2 "c" s.suffix "t" d.suffix)
    | _, _ => .ub
  | .mov => .ok (fmt1 "mov" one "")
  | .movabs => .ok (fmt1 "movabs" one "")
  | .lea => .ok (fmt1 "lea" one "")
  | .cxtd => .ok (fmt1 "c" one "td")
  | .push => .ok (fmt1 "push" one "")
  | .pop => .ok (fmt1 "pop" one "")
  | .add => .ok (fmt1 "add" one "")
  | .sub => .ok (fmt1 "sub" one "")
  | .imul => .ok (fmt1 "imul" one "")
  | .div => .ok (fmt1 "div" one "")
  | .idiv => .ok (fmt1 "idiv" one "")
  | .neg => .ok (fmt1 "neg" one "")
  | .and => .ok (fmt1 "and" one "")
  | .not => .ok (fmt1 "not" one "")
  | .or => .ok (fmt1 "or" one "")
  | .xor => .ok (fmt1 "xor" one "")
  | .sal => .ok (fmt1 "sal" one "")
  | .sar => .ok (fmt1 "sar" one "")
  | .cmp => .ok (fmt1 "cmp" one "")
  | .cqto => .ok "cqto"
  | .set c => .ok ("set" ++ c.str)
  | .jmp => .ok "jmp"
  | .jcc c => .ok ("j" ++ c.str)
  | .call => .ok "call"
  | .ret => .ok "ret"

/-- a printed operand: which punctuation is around the register names, numerals and symbols -/
inductive OpTxt where
  /-- `%rax` -/
  | reg (name : String)
  /-- `(%rax)` -/
  | ind (name : String)
  /-- `*%rax` -/
  | star (name : String)
  /-- `-8(%rbp)` -/
  | disp (n : Int) (name : String)
  /-- `x(%rip)` -/
  | rip (sym : Name)
  /-- `.L1` -/
  | sym (sym : Name)
  /-- `$5` -/
  | imm (n : Int)
  deriving DecidableEq

def orUb (f : String → OpTxt) : Option String → Out OpTxt
  | some n => .ok (f n)
  | none => .ub

/-- `x64ope_tostring`, x64/ope.c:105-140, without the size of the buffer; a suffix operand is not printed.
`%llu` or `%lld` prints the value of the literal, iliteral.c:53-63. -/
def opTxt : XOpe → Out OpTxt
  | .sfx _ => .ub
  | .reg s r => orUb .reg (regName r s)
  | .ptr r => orUb .ind (regName r .quad)
  | .jptr r => orUb .star (regName r .quad)
  | .mem off => orUb (.disp (-off)) (regName .bp .quad)
  | .label n => .ok (.rip n)
  | .jlabel n => .ok (.sym n)
  | .int _ l => .ok (.imm l.value)

/-- the operands printed: not NULL and not a suffix, x64/inst.c:54-71 -/
def printedOps (i : XInst) : List XOpe :=
  [i.src, i.dst].filterMap fun o => match o with
    | some (.sfx _) => none
    | some o => some o
    | none => none

def opTxts : List XOpe → Out (List OpTxt)
  | [] => .ok []
  | o :: os => do let t ← opTxt o; let ts ← opTxts os; pure (t :: ts)

/-- a printed instruction -/
structure Line where
  mn : String
  ops : List OpTxt
  deriving DecidableEq

/-- `x64inst_tostring`, x64/inst.c:43-75 -/
def line (i : XInst) : Out Line := do
  let mn ← mnemonic i
  let ops ← opTxts (printedOps i)
  pure ⟨mn, ops⟩

end X64
end Umlcc
