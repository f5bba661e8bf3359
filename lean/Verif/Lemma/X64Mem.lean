import Verif.Lemma.X64Div
/-!
Helper lemmas: memory, stack and memory operands.
-/
namespace Umlcc
namespace X86
open X64 ISem

/-- `n` bytes from `a` on and `k` bytes from `b` on do not overlap (addresses wrap around) -/
def far (a : BitVec 64) (n : Nat) (b : BitVec 64) (k : Nat) : Prop := n ≤ (b - a).toNat ∧ k ≤ (a - b).toNat

theorem far_symm {a b : BitVec 64} {n k : Nat} (h : far a n b k) : far b k a n := ⟨h.2, h.1⟩

theorem sub_toNat_add (a b : BitVec 64) (h : 0 < (b - a).toNat) : (b - a).toNat + (a - b).toNat = 2 ^ 64 := by
  have ha := a.isLt; have hb := b.isLt
  rw [BitVec.toNat_sub] at *; rw [BitVec.toNat_sub] at *
  omega

theorem offset_toNat (a b : BitVec 64) (i : Nat) (h : (b - a).toNat + i < 2 ^ 64) :
    (b + BitVec.ofNat 64 i - a).toNat = (b - a).toNat + i := by
  have ha := a.isLt; have hb := b.isLt
  rw [BitVec.toNat_sub b a] at h
  rw [BitVec.toNat_sub _ a, BitVec.toNat_sub b a, BitVec.toNat_add, BitVec.toNat_ofNat]
  omega

theorem readLE_congr (mem mem' : BitVec 64 → BitVec 8) (a : BitVec 64) (n : Nat)
    (h : ∀ i, i < n → mem' (a + BitVec.ofNat 64 i) = mem (a + BitVec.ofNat 64 i)) : readLE mem' a n = readLE mem a n := by
  induction n generalizing a with
  | zero => rfl
  | succ n ih =>
    have h0 := h 0 (by omega)
    simp at h0
    simp only [readLE, h0]
    rw [ih]
    intro i hi
    have := h (i + 1) (by omega)
    have e : a + BitVec.ofNat 64 (i + 1) = a + 1 + BitVec.ofNat 64 i := by
      apply BitVec.eq_of_toNat_eq; simp [BitVec.toNat_add, BitVec.toNat_ofNat]; omega
    rw [e] at this; exact this

theorem readLE_far (mem : BitVec 64 → BitVec 8) {a b : BitVec 64} {n k : Nat} (v : Nat) (h : far a n b k) :
    readLE (writeLE mem a n v) b k = readLE mem b k := by
  apply readLE_congr
  intro i hi
  unfold writeLE
  rw [if_neg]
  obtain ⟨h1, h2⟩ := h
  have hb : 0 < (a - b).toNat := by omega
  have hs := sub_toNat_add b a hb
  rw [offset_toNat a b i (by omega)]
  omega

theorem readLE_gen (mem : BitVec 64 → BitVec 8) (a : BitVec 64) (n v k : Nat) (hk : n + k ≤ 2 ^ 63) :
    readLE (writeLE mem a (n + k) v) (a + BitVec.ofNat 64 k) n = (v / 256 ^ k) % 256 ^ n := by
  induction n generalizing k with
  | zero => simp [readLE, Nat.mod_one]
  | succ n ih =>
    simp only [readLE]
    have e : a + BitVec.ofNat 64 k + 1 = a + BitVec.ofNat 64 (k + 1) := by
      apply BitVec.eq_of_toNat_eq; simp [BitVec.toNat_add, BitVec.toNat_ofNat]; omega
    rw [e, show n + 1 + k = n + (k + 1) from by omega, ih (k + 1) (by omega)]
    have hb : (writeLE mem a (n + (k + 1)) v (a + BitVec.ofNat 64 k)).toNat = v / 256 ^ k % 256 := by
      have : (a + BitVec.ofNat 64 k - a).toNat = k := by
        have := offset_toNat a a k (by simp; omega)
        rw [this]; simp
      unfold writeLE
      rw [this, if_pos (by omega)]
      simp
    rw [hb]
    have h1 : v / 256 ^ (k + 1) = v / 256 ^ k / 256 := by
      rw [Nat.pow_succ, Nat.div_div_eq_div_mul]
    rw [h1, Nat.pow_succ, Nat.mul_comm (256 ^ n) 256, Nat.mod_mul]

theorem nbytes_pow (s : Sfx) (h : s ≠ .none) : 256 ^ s.nbytes = 2 ^ s.bits := by cases s <;> first | contradiction | decide

theorem nbytes_le (s : Sfx) : s.nbytes ≤ 8 := by cases s <;> decide

theorem load_store_same (m : Mach) (a : BitVec 64) (s : Sfx) (hs : s ≠ .none) (v : BitVec s.bits) :
    load (store m a s v) a s = v := by
  have := readLE_gen m.mem a s.nbytes v.toNat 0 (by have := nbytes_le s; omega)
  simp at this
  unfold load store
  simp only
  rw [this, nbytes_pow s hs]
  apply BitVec.eq_of_toNat_eq
  simp

theorem load_store_far (m : Mach) {a b : BitVec 64} {s t : Sfx} (v : BitVec s.bits) (h : far a s.nbytes b t.nbytes) :
    load (store m a s v) b t = load m b t := by
  simp [load, store, readLE_far _ _ h]

theorem load_mem {m m' : Mach} (h : m'.mem = m.mem) (a : BitVec 64) (s : Sfx) : load m' a s = load m a s := by
  simp [load, h]

/-- lower bytes of a wider value in memory -/
theorem readLE_low (mem : BitVec 64 → BitVec 8) (a : BitVec 64) (n k : Nat) :
    readLE mem a n = readLE mem a (n + k) % 256 ^ n := by
  induction n generalizing a with
  | zero => simp [readLE, Nat.mod_one]
  | succ n ih =>
    rw [show n + 1 + k = (n + k) + 1 from by omega]
    simp only [readLE]
    rw [ih (a + 1), Nat.pow_succ, Nat.mul_comm (256 ^ n) 256, Nat.mod_mul]
    have := (mem a).isLt
    have h1 : ((mem a).toNat + 256 * readLE mem (a + 1) (n + k)) / 256 = readLE mem (a + 1) (n + k) := by omega
    have h2 : ((mem a).toNat + 256 * readLE mem (a + 1) (n + k)) % 256 = (mem a).toNat := by omega
    rw [h1, h2]

theorem load_low (m : Mach) (a : BitVec 64) (s : Sfx) (hs : s ≠ .none) :
    load m a s = (load m a .quad).setWidth s.bits := by
  have h := readLE_low m.mem a s.nbytes (8 - s.nbytes)
  rw [show s.nbytes + (8 - s.nbytes) = 8 from by have := nbytes_le s; omega] at h
  apply BitVec.eq_of_toNat_eq
  unfold load
  rw [BitVec.toNat_setWidth]
  simp only [BitVec.toNat_ofNat]
  rw [h, nbytes_pow s hs]
  show _ = readLE m.mem a 8 % 2 ^ 64 % 2 ^ s.bits
  have : 2 ^ s.bits ∣ 2 ^ 64 := Nat.pow_dvd_pow 2 (bits_le s)
  rw [Nat.mod_mod_of_dvd _ this, Nat.mod_mod]

/-! ### instructions on the stack and with memory operands -/

theorem step_push (env : Env) (m : Mach) (r : Reg) : stepI env m (is .push (.reg .quad r)) = .next (push m (m.regs r)) := by
  rw [stepI_is env m .push (.reg .quad r) "pushq" .push rfl (by decide) (good_quad r)]
  simp [step, den]

theorem step_pushi (env : Env) (m : Mach) (l : ILit) (h : immFits .quad l.value = true) :
    stepI env m (is .push (.int .quad l)) = .next (push m (BitVec.ofInt 64 l.value)) := by
  rw [stepI_is env m .push (.int .quad l) "pushq" .push rfl (by decide) (by trivial)]
  simp [step, den, h]

theorem step_pop (env : Env) (m : Mach) (r : Reg) :
    stepI env m (id1 .pop (.reg .quad r)) = .next (setReg (setReg m .sp (m.regs .sp + 8)) r (load m (m.regs .sp) .quad)) := by
  rw [stepI_id1 env m .pop (.reg .quad r) "popq" .pop rfl (by decide) (good_quad r)]
  simp [step, den, pop]

theorem step_sp (env : Env) (m : Mach) (n : Int) (h : immFits .quad n = true) :
    stepI env m (spImm .sub n) = .next (setReg (forget m) .sp (m.regs .sp - BitVec.ofInt 64 n)) ∧
    stepI env m (spImm .add n) = .next (setReg (forget m) .sp (m.regs .sp + BitVec.ofInt 64 n)) := by
  constructor
  · have := step_alu_ir env m (op := .sub) (al := .sub) rfl (s := .quad) (l := ⟨.int, n⟩) (b := .sp) h (good_quad _)
    rw [spImm, this]
    simp only [aluRes, aluVal, get_quad, set_quad, reduceCtorEq, if_false]
  · have := step_alu_ir env m (op := .add) (al := .add) rfl (s := .quad) (l := ⟨.int, n⟩) (b := .sp) h (good_quad _)
    rw [spImm, this]
    simp only [aluRes, aluVal, get_quad, set_quad, reduceCtorEq, if_false]

/-- `-off(%rbp)` -/
def slot (m : Mach) (off : Int) : BitVec 64 := m.regs .bp + BitVec.ofInt 64 (-off)

theorem step_load_mem (env : Env) (m : Mach) {s : Sfx} {off : Int} {b : Reg} (hb : GoodReg s b) :
    stepI env m (i2 .mov (.mem off) (.reg s b)) = .next (set m b s (load m (slot m off) s)) := by
  rw [stepI_i2 env m .mov (.mem off) (.reg s b) _ _ rfl (mn_mov (s := s) hb.1) (by trivial) hb]
  cases s <;> simp [step, den, mov, isMem, value, assign, addr, slot]

theorem step_store_mem (env : Env) (m : Mach) {s : Sfx} {off : Int} {a : Reg} (ha : GoodReg s a) :
    stepI env m (i2 .mov (.reg s a) (.mem off)) = .next (store m (slot m off) s (get m a s)) := by
  rw [stepI_i2 env m .mov (.reg s a) (.mem off) _ _ rfl (mn_mov (s := s) ha.1) ha (by trivial)]
  cases s <;> simp [step, den, mov, isMem, value, assign, addr, slot]

theorem step_storei_mem (env : Env) (m : Mach) {s : Sfx} (hs : s ≠ .none) {off : Int} {l : ILit} (hi : immFits s l.value = true) :
    stepI env m (i2 .mov (.int s l) (.mem off)) = .next (store m (slot m off) s (BitVec.ofInt _ l.value)) := by
  rw [stepI_i2 env m .mov (.int s l) (.mem off) _ _ rfl (mn_mov (s := s) hs) (by trivial) (by trivial)]
  simp [step, den, mov, isMem, value, assign, addr, slot, hi]

end X86
end Umlcc
