import Verif.Lemma.X64Frame
/-!
Machine code of local string initialisation.
-/
namespace Umlcc
namespace X86
open X64

/-- little-endian number of a list of bytes -/
def leNat : List UInt8 → Nat
  | [] => 0
  | c :: cs => c.toNat + 256 * leNat cs

theorem leNat_lt (bs : List UInt8) : leNat bs < 256 ^ bs.length := by
  induction bs with
  | nil => simp [leNat]
  | cons c cs ih =>
    have := c.toNat_lt
    simp only [leNat, List.length_cons, Nat.pow_succ]; omega

theorem leNat_byte (bs : List UInt8) (j : Nat) (h : j < bs.length) : leNat bs / 256 ^ j % 256 = (bs[j]).toNat := by
  induction bs generalizing j with
  | nil => simp at h
  | cons c cs ih =>
    have hc := c.toNat_lt
    cases j with
    | zero => simp only [leNat, Nat.pow_zero, Nat.div_one, List.getElem_cons_zero]; omega
    | succ j =>
      simp only [leNat, Nat.pow_succ', List.getElem_cons_succ]
      rw [← Nat.div_div_eq_div_mul]
      have : (c.toNat + 256 * leNat cs) / 256 = leNat cs := by omega
      rw [this]
      exact ih j (by simpa using h)

theorem unitBits_toNat (bs : List UInt8) (hb : ∀ c ∈ bs, c.toNat < 128) (k : Nat) (acc : BitVec 64)
    (ha : acc.toNat < 256 ^ k) (hk : k + bs.length ≤ 8) :
    (unitBits k acc bs).toNat = acc.toNat + 256 ^ k * leNat bs := by
  induction bs generalizing k acc with
  | nil => simp [unitBits, leNat]
  | cons c cs ih =>
    simp only [List.length_cons] at hk
    have hc : c.toNat < 128 := hb c (by simp)
    have e256 : (256 : Nat) ^ k = 2 ^ (k * 8) := by rw [Nat.mul_comm, Nat.pow_mul]
    have hpow : 2 ^ (k * 8) * 256 ≤ 2 ^ 64 := by
      rw [show (256 : Nat) = 2 ^ 8 from rfl, ← Nat.pow_add]; exact Nat.pow_le_pow_right (by decide) (by omega)
    have hmul : c.toNat * 2 ^ (k * 8) < 2 ^ 64 := by
      have := Nat.mul_le_mul_right (2 ^ (k * 8)) (show c.toNat ≤ 255 by omega)
      have := Nat.two_pow_pos (k * 8)
      omega
    have hs : (BitVec.signExtend 64 c.toBitVec).toNat = c.toNat := by
      rw [BitVec.signExtend_eq_setWidth_of_msb_false, BitVec.toNat_setWidth]
      · exact Nat.mod_eq_of_lt (by have : c.toBitVec.toNat = c.toNat := rfl; omega)
      · rw [BitVec.msb_eq_false_iff_two_mul_lt]; show 2 * c.toNat < 256; omega
    have hstep : ((BitVec.signExtend 64 c.toBitVec <<< (k * 8)) ||| acc).toNat = acc.toNat + 256 ^ k * c.toNat := by
      rw [BitVec.toNat_or, BitVec.toNat_shiftLeft, hs, Nat.shiftLeft_eq, Nat.mod_eq_of_lt hmul, Nat.mul_comm,
        ← Nat.two_pow_add_eq_or_of_lt (by rw [← e256]; exact ha), e256]
      omega
    simp only [unitBits]
    rw [ih (fun c hc => hb c (by simp [hc])) (k + 1) _ _ (by omega), hstep, leNat, Nat.pow_succ]
    · rw [Nat.mul_add, ← Nat.mul_assoc]; omega
    · rw [hstep, Nat.pow_succ]
      have := Nat.mul_le_mul_left (256 ^ k) (show c.toNat ≤ 255 by omega)
      omega

theorem unitBits_val (bs : List UInt8) (hb : ∀ c ∈ bs, c.toNat < 128) (hl : bs.length ≤ 8) :
    (unitBits 0 0 bs).toNat = leNat bs := by
  have h := unitBits_toNat bs hb 0 0 (by simp) (by omega)
  rw [h]; simp

theorem write_put (mem : BitVec 64 → BitVec 8) (A : BitVec 64) (bs : List UInt8) :
    writeLE mem A bs.length (leNat bs) = putBytes mem A bs := by
  funext x
  unfold writeLE putBytes
  by_cases h : (x - A).toNat < bs.length
  · rw [if_pos h, List.getElem?_eq_getElem h]
    apply BitVec.eq_of_toNat_eq
    rw [BitVec.toNat_ofNat, leNat_byte _ _ h]; rfl
  · rw [if_neg h, List.getElem?_eq_none (by omega)]

theorem put_append (mem : BitVec 64 → BitVec 8) (A : BitVec 64) (bs cs : List UInt8) (h : bs.length + cs.length ≤ 2 ^ 63) :
    putBytes (putBytes mem A bs) (rel64 A bs.length) cs = putBytes mem A (bs ++ cs) := by
  funext x
  have e : x - rel64 A bs.length = (x - A) - BitVec.ofNat 64 bs.length := by
    rw [← addNat]
    apply BitVec.eq_of_toNat_eq
    simp only [BitVec.toNat_sub, BitVec.toNat_add, BitVec.toNat_ofNat]
    omega
  have hx := (x - A).isLt
  by_cases hlt : (x - A).toNat < bs.length
  · have : bs.length + cs.length ≤ 2 ^ 63 := h
    have e2 : cs.length ≤ (x - rel64 A bs.length).toNat := by
      rw [e, BitVec.toNat_sub, BitVec.toNat_ofNat]
      omega
    simp only [putBytes]
    rw [List.getElem?_eq_none e2, List.getElem?_append_left hlt]
  · have e2 : (x - rel64 A bs.length).toNat = (x - A).toNat - bs.length := by
      rw [e, BitVec.toNat_sub, BitVec.toNat_ofNat]
      omega
    simp only [putBytes]
    rw [e2, List.getElem?_append_right (by omega)]
    cases hc : cs[(x - A).toNat - bs.length]? with
    | some c => rfl
    | none => simp only; rw [List.getElem?_eq_none (l := bs) (by omega)]

theorem step_movabs (env : Env) (m : Mach) {l : ILit} {b : Reg} (h : immFits64 l.value = true) :
    stepI env m (i2 .movabs (.int .quad l) (.reg .quad b)) = .next (set m b .quad (BitVec.ofInt _ l.value)) := by
  rw [stepI_i2 env m .movabs (.int .quad l) (.reg .quad b) "movabsq" .movabs rfl (by decide) (by trivial) (good_quad b)]
  simp [den, step, h]

theorem strUnit_run (env : Env) (m : Mach) (t : ILType) (bs : List UInt8) (hb : ∀ c ∈ bs, c.toNat < 128) (hl : bs.length = 8) (off : Int) :
    ∃ m', run env m (strUnit t (unitBits 0 0 bs) off) = .next m' ∧ m'.mem = putBytes m.mem (rel64 (m.regs .bp) (-off)) bs ∧
      ∀ r, r ≠ .r10 → m'.regs r = m.regs r := by
  have hv := unitBits_val bs hb (by omega)
  have hfit : immFits64 ((unitBits 0 0 bs).toNat : Int) = true := by
    have := (unitBits 0 0 bs).isLt
    simp only [immFits64, decide_eq_true_eq]; omega
  have h1 := step_movabs env m (l := ⟨t, (unitBits 0 0 bs).toNat⟩) (b := .r10) hfit
  have h2 := step_store_mem env (set m .r10 .quad (BitVec.ofInt _ ((unitBits 0 0 bs).toNat : Int))) (off := off) (good_quad .r10)
  refine ⟨store (set m .r10 .quad (BitVec.ofInt _ ((unitBits 0 0 bs).toNat : Int)))
      (slot (set m .r10 .quad (BitVec.ofInt _ ((unitBits 0 0 bs).toNat : Int))) off) .quad
      (get (set m .r10 .quad (BitVec.ofInt _ ((unitBits 0 0 bs).toNat : Int))) .r10 .quad), ?_, ?_, ?_⟩
  · simp only [strUnit, tmpReg, run, h1, h2]
  · rw [get_set_same]
    have e : slot (set m .r10 .quad (BitVec.ofInt _ ((unitBits 0 0 bs).toNat : Int))) off = rel64 (m.regs .bp) (-off) := by
      rw [slot, regs_set_ne _ _ _ _ _ (by decide)]; rfl
    rw [e, ← write_put, hl, ← hv]
    have ev : (BitVec.ofInt Sfx.quad.bits ((unitBits 0 0 bs).toNat : Int)).toNat = (unitBits 0 0 bs).toNat := by
      rw [BitVec.ofInt_natCast, BitVec.toNat_ofNat]
      exact Nat.mod_eq_of_lt (unitBits 0 0 bs).isLt
    unfold store
    rw [ev]; rfl
  · intro r hr; rw [regs_store, regs_set_ne _ _ _ _ _ hr]

theorem strImm_run (env : Env) (m : Mach) {s : Sfx} (hs : s ≠ .none) (t : ILType) (bs : List UInt8) (hb : ∀ c ∈ bs, c.toNat < 128)
    (hl : bs.length = s.nbytes) (hq : s ≠ .quad) (off : Int) :
    ∃ m', run env m [i2 .mov (.int s ⟨t, (unitBits 0 0 bs).toNat⟩) (.mem off)] = .next m' ∧
      m'.mem = putBytes m.mem (rel64 (m.regs .bp) (-off)) bs ∧ ∀ r, r ≠ .r10 → m'.regs r = m.regs r := by
  have hv := unitBits_val bs hb (by have := nbytes_le s; omega)
  have hlt := leNat_lt bs
  rw [hl, nbytes_pow s hs] at hlt
  have hfit : immFits s ((unitBits 0 0 bs).toNat : Int) = true := by
    have : ((2 ^ s.bits : Nat) : Int) = (2 : Int) ^ s.bits := by simp
    have hp := Nat.two_pow_pos (s.bits - 1)
    have : ((2 ^ (s.bits - 1) : Nat) : Int) = (2 : Int) ^ (s.bits - 1) := by simp
    simp only [immFits, hq, if_false, decide_eq_true_eq]
    omega
  refine ⟨_, run_one (step_storei_mem env m hs hfit), ?_, fun _ _ => rfl⟩
  rw [← write_put, hl, ← hv]
  show writeLE m.mem _ _ _ = _
  congr 1
  rw [BitVec.ofInt_natCast, BitVec.toNat_ofNat]
  exact Nat.mod_eq_of_lt (by omega)

theorem leNat_zeros (bs : List UInt8) (z : Nat) : leNat (bs ++ List.replicate z 0) = leNat bs := by
  induction bs with
  | nil =>
    induction z with
    | zero => rfl
    | succ z ih =>
      simp only [List.nil_append] at ih
      simp only [List.replicate_succ, List.nil_append, leNat, ih]
      rfl
  | cons c cs ih => simp only [List.cons_append, leNat, ih]

theorem unitBits_zeros (bs : List UInt8) (hb : ∀ c ∈ bs, c.toNat < 128) (z : Nat) (h : bs.length + z ≤ 8) :
    unitBits 0 0 (bs ++ List.replicate z 0) = unitBits 0 0 bs := by
  apply BitVec.eq_of_toNat_eq
  rw [unitBits_val _ _ (by simp; omega), unitBits_val _ hb (by omega), leNat_zeros]
  intro c hc
  rcases List.mem_append.1 hc with hc | hc
  · exact hb c hc
  · rw [(List.mem_replicate.1 hc).2]; decide

/-- zero bytes stored behind a string of `n` bytes -/
def overrun (n : Nat) : Nat :=
  if n % 8 = 3 ∨ n % 8 = 7 then 1 else if n % 8 = 5 then 3 else if n % 8 = 6 then 2 else 0

theorem strRest_run (env : Env) (m : Mach) (bs : List UInt8) (hb : ∀ c ∈ bs, c.toNat < 128) (hl : bs.length < 8) (off : Int) :
    ∃ m', run env m (strRest bs off) = .next m' ∧ m'.mem = putBytes m.mem (rel64 (m.regs .bp) (-off)) (bs ++ List.replicate (overrun bs.length) 0) ∧
      ∀ r, r ≠ .r10 → m'.regs r = m.regs r := by
  have hb' : ∀ z, ∀ c ∈ bs ++ List.replicate z (0 : UInt8), c.toNat < 128 := by
    intro z c hc
    rcases List.mem_append.1 hc with hc | hc
    · exact hb c hc
    · rw [(List.mem_replicate.1 hc).2]; decide
  have hz : bs.length + overrun bs.length ≤ 8 ∧ (bs.length = 3 → overrun bs.length = 1) ∧ (4 < bs.length → bs.length + overrun bs.length = 8) ∧
      (bs.length ≤ 2 ∨ bs.length = 4 → overrun bs.length = 0) := by
    unfold overrun
    (repeat' split) <;> omega
  obtain ⟨hz1, hz3, hz5, hz0⟩ := hz
  unfold strRest
  rw [← unitBits_zeros bs hb _ hz1]
  by_cases h0 : bs.length = 0
  · rw [if_pos h0]
    have : bs = [] := List.length_eq_zero_iff.mp h0
    subst this
    exact ⟨m, rfl, by funext x; simp [putBytes, overrun], fun _ _ => rfl⟩
  rw [if_neg h0]
  by_cases h1 : bs.length ≤ 1
  · rw [if_pos h1]
    exact strImm_run env m (s := .byte) (by decide) _ _ (hb' _) (by simp [Sfx.nbytes]; omega) (by decide) off
  rw [if_neg h1]
  by_cases h2 : bs.length ≤ 2
  · rw [if_pos h2]
    exact strImm_run env m (s := .word) (by decide) _ _ (hb' _) (by simp [Sfx.nbytes]; omega) (by decide) off
  rw [if_neg h2]
  by_cases h4 : bs.length ≤ 4
  · rw [if_pos h4]
    exact strImm_run env m (s := .long) (by decide) _ _ (hb' _) (by simp [Sfx.nbytes]; omega) (by decide) off
  rw [if_neg h4]
  exact strUnit_run env m .ulong _ (hb' _) (by simp; omega) off

theorem strLoop_run (env : Env) (fuel : Nat) : ∀ (m : Mach) (bs : List UInt8) (off : Int), bs.length ≤ fuel → bs.length + 8 ≤ 2 ^ 63 →
    (∀ c ∈ bs, c.toNat < 128) →
    ∃ m', run env m (strLoop fuel bs off) = .next m' ∧ m'.mem = putBytes m.mem (rel64 (m.regs .bp) (-off)) (bs ++ List.replicate (overrun bs.length) 0) ∧
      ∀ r, r ≠ .r10 → m'.regs r = m.regs r := by
  induction fuel with
  | zero =>
    intro m bs off hf _ hb
    exact strRest_run env m bs hb (by omega) off
  | succ f ih =>
    intro m bs off hf hlen hb
    simp only [strLoop]
    by_cases h8 : 8 ≤ bs.length
    · rw [if_pos h8]
      have hb1 : ∀ c ∈ bs.take 8, c.toNat < 128 := fun c hc => hb c (List.mem_of_mem_take hc)
      have hl1 : (bs.take 8).length = 8 := by rw [List.length_take]; omega
      have hl2 : (bs.drop 8).length = bs.length - 8 := List.length_drop
      have ho : overrun (bs.drop 8).length = overrun bs.length := by
        unfold overrun
        rw [hl2, show (bs.length - 8) % 8 = bs.length % 8 by omega]
      have ho8 : overrun bs.length ≤ 8 := by unfold overrun; (repeat' split) <;> omega
      obtain ⟨m1, r1, e1, g1⟩ := strUnit_run env m .ullong (bs.take 8) hb1 hl1 off
      obtain ⟨m2, r2, e2, g2⟩ := ih m1 (bs.drop 8) (off - 8) (by omega) (by omega) (fun c hc => hb c (List.mem_of_mem_drop hc))
      refine ⟨m2, by rw [run_append_next r1, r2], ?_, fun r hr => by rw [g2 r hr, g1 r hr]⟩
      rw [e2, g1 _ (by decide), e1, ho]
      have e8 : -(off - 8) = -off + ((bs.take 8).length : Int) := by rw [hl1]; omega
      rw [e8, ← rel64_rel64, put_append _ _ _ _ (by rw [List.length_append, List.length_replicate, hl1, hl2]; omega), ← List.append_assoc, List.take_append_drop]
    · rw [if_neg h8]
      exact strRest_run env m bs hb (by omega) off

theorem genStr_pad (env : Env) (m : Mach) (bs : List UInt8) (off : Int) {snd : Option Ope} (hlen : bs.length + 8 ≤ 2 ^ 63)
    (hb : ∀ c ∈ bs, c.toNat < 128) :
    ∃ cs m', genStr ⟨.str, some (.mem off), some (.str bs), snd⟩ = .ok cs ∧ run env m cs = .next m' ∧
      m'.mem = putBytes m.mem (rel64 (m.regs .bp) (-off)) (bs ++ List.replicate (overrun bs.length) 0) ∧ ∀ r, r ≠ .r10 → m'.regs r = m.regs r := by
  obtain ⟨m', h1, h2, h3⟩ := strLoop_run env bs.length m bs off (Nat.le_refl _) hlen hb
  exact ⟨_, m', by simp [genStr, deref], h1, h2, h3⟩

theorem genStr_run (env : Env) (m : Mach) (bs : List UInt8) (off : Int) {snd : Option Ope} (hlen : bs.length + 8 ≤ 2 ^ 63)
    (hb : ∀ c ∈ bs, c.toNat < 128)
    (hl : bs.length % 8 = 0 ∨ bs.length % 8 = 1 ∨ bs.length % 8 = 2 ∨ bs.length % 8 = 4) :
    ∃ cs m', genStr ⟨.str, some (.mem off), some (.str bs), snd⟩ = .ok cs ∧ run env m cs = .next m' ∧
      m'.mem = putBytes m.mem (rel64 (m.regs .bp) (-off)) bs ∧ ∀ r, r ≠ .r10 → m'.regs r = m.regs r := by
  obtain ⟨cs, m', h0, h1, h2, h3⟩ := genStr_pad env m bs off (snd := snd) hlen hb
  refine ⟨cs, m', h0, h1, ?_, h3⟩
  have : overrun bs.length = 0 := by
    unfold overrun
    (repeat' split) <;> omega
  rw [h2, this, List.replicate_zero, List.append_nil]

end X86
end Umlcc
