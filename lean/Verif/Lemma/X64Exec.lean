import Verif.Spec.X64Machine
/-!
Helper lemmas: what each kind of emitted instruction does to the machine, and reading registers after writes.
-/
namespace Umlcc
namespace X86
open X64

/-! ### registers -/

theorem bits_le (s : Sfx) : s.bits ≤ 64 := by cases s <;> decide

theorem merge_low (old : BitVec 64) (s : Sfx) (v : BitVec s.bits) : (merge old s v).setWidth s.bits = v := by
  apply BitVec.eq_of_toNat_eq
  have hv := v.isLt
  have ho := old.isLt
  have hq : (BitVec.setWidth 64 v).toNat = v.toNat % 2 ^ 64 := BitVec.toNat_setWidth ..
  cases s <;> simp only [merge, Sfx.bits, BitVec.toNat_setWidth, BitVec.toNat_ofNat] at * <;> omega

theorem merge_low' (old : BitVec 64) (s t : Sfx) (v : BitVec s.bits) (h : t.bits ≤ s.bits) :
    (merge old s v).setWidth t.bits = v.setWidth t.bits := by
  rw [← merge_low old s v]
  rw [BitVec.setWidth_setWidth_of_le _ h, merge_low]

@[simp] theorem get_setReg_same (m : Mach) (r : Reg) (v : BitVec 64) (s : Sfx) :
    get (setReg m r v) r s = v.setWidth _ := by simp [get, setReg]

theorem get_set_same (m : Mach) (r : Reg) (s : Sfx) (v : BitVec s.bits) : get (set m r s v) r s = v := by
  simp [set, merge_low]

theorem get_set_low (m : Mach) (r : Reg) (s t : Sfx) (v : BitVec s.bits) (h : t.bits ≤ s.bits) :
    get (set m r s v) r t = v.setWidth t.bits := by
  simp [set, merge_low' _ _ _ _ h]

theorem regs_set_ne (m : Mach) (r q : Reg) (s : Sfx) (v : BitVec s.bits) (h : q ≠ r) :
    (set m r s v).regs q = m.regs q := by simp [set, setReg, h]

theorem get_set_ne (m : Mach) (r q : Reg) (s t : Sfx) (v : BitVec s.bits) (h : q ≠ r) :
    get (set m r s v) q t = get m q t := by simp [get, regs_set_ne _ _ _ _ _ h]

@[simp] theorem mem_set (m : Mach) (r : Reg) (s : Sfx) (v : BitVec s.bits) : (set m r s v).mem = m.mem := rfl
@[simp] theorem mem_setReg (m : Mach) (r : Reg) (v : BitVec 64) : (setReg m r v).mem = m.mem := rfl
@[simp] theorem regs_setReg_same (m : Mach) (r : Reg) (v : BitVec 64) : (setReg m r v).regs r = v := by simp [setReg]
theorem regs_setReg_ne (m : Mach) (r q : Reg) (v : BitVec 64) (h : q ≠ r) : (setReg m r v).regs q = m.regs q := by
  simp [setReg, h]
@[simp] theorem mem_forget (m : Mach) : (forget m).mem = m.mem := rfl
@[simp] theorem regs_forget (m : Mach) : (forget m).regs = m.regs := rfl
@[simp] theorem get_forget (m : Mach) (r : Reg) (s : Sfx) : get (forget m) r s = get m r s := rfl
@[simp] theorem get_flags (m : Mach) (f : Option Flags) (r : Reg) (s : Sfx) :
    get { m with flags := f } r s = get m r s := rfl
@[simp] theorem regs_store (m : Mach) (a : BitVec 64) (s : Sfx) (v : BitVec s.bits) : (store m a s v).regs = m.regs := rfl
@[simp] theorem get_store (m : Mach) (a : BitVec 64) (s : Sfx) (v : BitVec s.bits) (r : Reg) (t : Sfx) :
    get (store m a s v) r t = get m r t := rfl

@[simp] theorem get_quad (m : Mach) (r : Reg) : get m r .quad = m.regs r := by
  apply BitVec.eq_of_toNat_eq; simp [get, Sfx.bits]

@[simp] theorem merge_quad (old : BitVec 64) (v : BitVec Sfx.quad.bits) : merge old .quad v = v := by
  have hq : (BitVec.setWidth 64 v).toNat = v.toNat % 2 ^ 64 := BitVec.toNat_setWidth ..
  have hv := v.isLt
  apply BitVec.eq_of_toNat_eq
  simp only [merge, Sfx.bits] at *
  omega

@[simp] theorem regs_set_quad (m : Mach) (r : Reg) (v : BitVec Sfx.quad.bits) :
    (set m r .quad v).regs r = v := by
  simp only [set, merge_quad]; exact regs_setReg_same m r v

theorem set_quad (m : Mach) (r : Reg) (v : BitVec Sfx.quad.bits) : set m r .quad v = setReg m r v := by
  simp only [set, merge_quad]

theorem regs_set_long (m : Mach) (r : Reg) (v : BitVec Sfx.long.bits) :
    (set m r .long v).regs r = v.setWidth 64 := by simp [set, merge]

/-! ### operands -/

/-- register names are known to the assembler, except the 16-bit `r13` -/
def GoodReg (s : Sfx) (r : Reg) : Prop := s ≠ .none ∧ (s = .word → r ≠ .r13)

theorem regName_ok {s : Sfx} {r : Reg} (h : GoodReg s r) : ∃ n, regName r s = some n ∧ regOf n = some (s, r) := by
  obtain ⟨h1, h2⟩ := h
  cases s <;> cases r <;> simp at h1 h2 <;> exact ⟨_, rfl, by decide⟩

def GoodOpe : XOpe → Prop
  | .reg s r => GoodReg s r
  | .sfx _ => False
  | _ => True

/-- an operand as the assembler reads it -/
def den : XOpe → Op
  | .reg s r => .reg s r
  | .ptr r => .mem r 0
  | .jptr r => .star r
  | .mem off => .mem .bp (-off)
  | .label n => .rip n
  | .jlabel n => .sym n
  | .int _ l => .imm l.value
  | .sfx _ => .imm 0

theorem good_quad (r : Reg) : GoodReg .quad r := ⟨by simp, by simp⟩

theorem opTxt_ok {o : XOpe} (h : GoodOpe o) : ∃ t, opTxt o = .ok t ∧ opOf t = some (den o) := by
  cases o with
  | sfx s => exact h.elim
  | reg s r =>
    obtain ⟨n, hn, hr⟩ := regName_ok h
    exact ⟨_, by simp only [opTxt, hn, orUb]; rfl, by simp [opOf, hr, den]⟩
  | ptr r =>
    obtain ⟨n, hn, hr⟩ := regName_ok (good_quad r)
    exact ⟨_, by simp only [opTxt, hn, orUb]; rfl, by simp [opOf, hr, den]⟩
  | jptr r =>
    obtain ⟨n, hn, hr⟩ := regName_ok (good_quad r)
    exact ⟨_, by simp only [opTxt, hn, orUb]; rfl, by simp [opOf, hr, den]⟩
  | mem off =>
    obtain ⟨n, hn, hr⟩ := regName_ok (good_quad .bp)
    exact ⟨_, by simp only [opTxt, hn, orUb]; rfl, by simp [opOf, hr, den]⟩
  | label n => exact ⟨_, rfl, rfl⟩
  | jlabel n => exact ⟨_, rfl, rfl⟩
  | int s l => exact ⟨_, rfl, rfl⟩

theorem stepI_i2 (env : Env) (m : Mach) (op : XOp) (a b : XOpe) (mn : String) (M : Mn)
    (hm : mnemonic (i2 op a b) = .ok mn) (hM : mnOf mn = some M) (ha : GoodOpe a) (hb : GoodOpe b) :
    stepI env m (i2 op a b) = step env m M [den a, den b] := by
  obtain ⟨ta, h1, h2⟩ := opTxt_ok ha
  obtain ⟨tb, h3, h4⟩ := opTxt_ok hb
  have hp : printedOps (i2 op a b) = [a, b] := by
    cases a <;> cases b <;> first | rfl | exact ha.elim | exact hb.elim
  simp [stepI, line, hm, hp, opTxts, h1, h3, exec, hM, opsOf, h2, h4]

theorem stepI_is (env : Env) (m : Mach) (op : XOp) (a : XOpe) (mn : String) (M : Mn)
    (hm : mnemonic (is op a) = .ok mn) (hM : mnOf mn = some M) (ha : GoodOpe a) :
    stepI env m (is op a) = step env m M [den a] := by
  obtain ⟨ta, h1, h2⟩ := opTxt_ok ha
  have hp : printedOps (is op a) = [a] := by
    cases a <;> first | rfl | exact ha.elim
  simp [stepI, line, hm, hp, opTxts, h1, exec, hM, opsOf, h2]

theorem stepI_id1 (env : Env) (m : Mach) (op : XOp) (a : XOpe) (mn : String) (M : Mn)
    (hm : mnemonic (id1 op a) = .ok mn) (hM : mnOf mn = some M) (ha : GoodOpe a) :
    stepI env m (id1 op a) = step env m M [den a] := by
  obtain ⟨ta, h1, h2⟩ := opTxt_ok ha
  have hp : printedOps (id1 op a) = [a] := by
    cases a <;> first | rfl | exact ha.elim
  simp [stepI, line, hm, hp, opTxts, h1, exec, hM, opsOf, h2]

theorem stepI_none (env : Env) (m : Mach) (i : XInst) (mn : String) (M : Mn)
    (hm : mnemonic i = .ok mn) (hM : mnOf mn = some M) (hp : printedOps i = []) :
    stepI env m i = step env m M [] := by
  simp [stepI, line, hm, hp, opTxts, exec, hM, opsOf]

/-! ### mnemonics -/

theorem mn_mov {s : Sfx} (h : s ≠ .none) : mnOf (fmt1 "mov" s "") = some (.mov s) := by
  cases s <;> first | contradiction | decide
theorem mn_add {s : Sfx} (h : s ≠ .none) : mnOf (fmt1 "add" s "") = some (.alu .add s) := by
  cases s <;> first | contradiction | decide
theorem mn_sub {s : Sfx} (h : s ≠ .none) : mnOf (fmt1 "sub" s "") = some (.alu .sub s) := by
  cases s <;> first | contradiction | decide
theorem mn_and {s : Sfx} (h : s ≠ .none) : mnOf (fmt1 "and" s "") = some (.alu .and s) := by
  cases s <;> first | contradiction | decide
theorem mn_or {s : Sfx} (h : s ≠ .none) : mnOf (fmt1 "or" s "") = some (.alu .or s) := by
  cases s <;> first | contradiction | decide
theorem mn_xor {s : Sfx} (h : s ≠ .none) : mnOf (fmt1 "xor" s "") = some (.alu .xor s) := by
  cases s <;> first | contradiction | decide
theorem mn_cmp {s : Sfx} (h : s ≠ .none) : mnOf (fmt1 "cmp" s "") = some (.alu .cmp s) := by
  cases s <;> first | contradiction | decide
theorem mn_neg {s : Sfx} (h : s ≠ .none) : mnOf (fmt1 "neg" s "") = some (.neg s) := by
  cases s <;> first | contradiction | decide
theorem mn_not {s : Sfx} (h : s ≠ .none) : mnOf (fmt1 "not" s "") = some (.not s) := by
  cases s <;> first | contradiction | decide
theorem mn_sal {s : Sfx} (h : s ≠ .none) : mnOf (fmt1 "sal" s "") = some (.sal s) := by
  cases s <;> first | contradiction | decide
theorem mn_sar {s : Sfx} (h : s ≠ .none) : mnOf (fmt1 "sar" s "") = some (.sar s) := by
  cases s <;> first | contradiction | decide
theorem mn_imul {s : Sfx} (h : s ≠ .none) (h' : s ≠ .byte) : mnOf (fmt1 "imul" s "") = some (.imul s) := by
  cases s <;> first | contradiction | decide
theorem mn_div {s : Sfx} (h : s ≠ .none) (h' : s ≠ .byte) : mnOf (fmt1 "div" s "") = some (.div s) := by
  cases s <;> first | contradiction | decide
theorem mn_idiv {s : Sfx} (h : s ≠ .none) (h' : s ≠ .byte) : mnOf (fmt1 "idiv" s "") = some (.idiv s) := by
  cases s <;> first | contradiction | decide
theorem mn_set (c : Cond) : mnOf ("set" ++ c.str) = some (.set c) := by cases c <;> decide
theorem mn_jcc (c : Cond) : mnOf ("j" ++ c.str) = some (.jcc c) := by cases c <;> decide

end X86
end Umlcc
