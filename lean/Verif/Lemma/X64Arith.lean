import Verif.Lemma.X64Mov
/-!
Helper lemmas: code emitted for arithmetic, bitwise and comparison instructions.
-/
namespace Umlcc
namespace X86
open X64 ISem

theorem caller_ok {id : Int} {r : Reg} (h : callerAt id = .ok r) :
    r ≠ .ax ∧ r ≠ .bx ∧ r ≠ .sp ∧ r ≠ .bp ∧ r ≠ .r13 ∧ r ∈ callerSaved := by
  unfold callerAt at h
  split at h
  · rename_i r' hr
    cases h
    split at hr
    · have hmem : r ∈ callerSaved := List.mem_of_getElem? hr
      refine ⟨?_, ?_, ?_, ?_, ?_, hmem⟩ <;> (intro e; subst e; revert hmem; decide)
    · cases hr
  · cases h

theorem caller_good {id : Int} {r : Reg} (h : callerAt id = .ok r) {s : Sfx} (hs : s ≠ .none) : GoodReg s r :=
  ⟨hs, fun _ => (caller_ok h).2.2.2.2.1⟩

theorem ax_good {s : Sfx} (hs : s ≠ .none) : GoodReg s .ax := ⟨hs, by simp⟩

/-- the two-operand instructions -/
def aluOf : XOp → Option Alu
  | .add => some .add
  | .sub => some .sub
  | .and => some .and
  | .or => some .or
  | .xor => some .xor
  | .cmp => some .cmp
  | _ => none

/-- result of `op src, dst` -/
def aluRes (m : Mach) (a : Alu) (s : Sfx) (d : Reg) (b : BitVec s.bits) : Mach :=
  if a = .cmp then { m with flags := some (cmpFlags (get m d s) b) }
  else set (forget m) d s (aluVal a (get m d s) b)

theorem step_alu_rr (env : Env) (m : Mach) {op : XOp} {al : Alu} (ho : aluOf op = some al) {s : Sfx} {a b : Reg}
    (ha : GoodReg s a) (hb : GoodReg s b) :
    stepI env m (i2 op (.reg s a) (.reg s b)) = .next (aluRes m al s b (get m a s)) := by
  have : ∃ mn, mnemonic (i2 op (.reg s a) (.reg s b)) = .ok mn ∧ mnOf mn = some (.alu al s) := by
    cases op <;> simp [aluOf] at ho <;> subst ho
    · exact ⟨_, rfl, mn_add ha.1⟩
    · exact ⟨_, rfl, mn_sub ha.1⟩
    · exact ⟨_, rfl, mn_and ha.1⟩
    · exact ⟨_, rfl, mn_or ha.1⟩
    · exact ⟨_, rfl, mn_xor ha.1⟩
    · exact ⟨_, rfl, mn_cmp ha.1⟩
  obtain ⟨mn, h1, h2⟩ := this
  rw [stepI_i2 env m op _ _ mn _ h1 h2 ha hb]
  simp only [step, den, alu, isMem, value, aluRes, assign]
  by_cases hc : al = .cmp <;> simp [hc]

theorem step_alu_ir (env : Env) (m : Mach) {op : XOp} {al : Alu} (ho : aluOf op = some al) {s : Sfx} {l : ILit} {b : Reg}
    (hi : immFits s l.value = true) (hb : GoodReg s b) :
    stepI env m (i2 op (.int s l) (.reg s b)) = .next (aluRes m al s b (BitVec.ofInt _ l.value)) := by
  have : ∃ mn, mnemonic (i2 op (.int s l) (.reg s b)) = .ok mn ∧ mnOf mn = some (.alu al s) := by
    cases op <;> simp [aluOf] at ho <;> subst ho
    · exact ⟨_, rfl, mn_add hb.1⟩
    · exact ⟨_, rfl, mn_sub hb.1⟩
    · exact ⟨_, rfl, mn_and hb.1⟩
    · exact ⟨_, rfl, mn_or hb.1⟩
    · exact ⟨_, rfl, mn_xor hb.1⟩
    · exact ⟨_, rfl, mn_cmp hb.1⟩
  obtain ⟨mn, h1, h2⟩ := this
  rw [stepI_i2 env m op _ _ mn _ h1 h2 (by trivial) hb]
  simp only [step, den, alu, isMem, value, aluRes, assign, hi]
  by_cases hc : al = .cmp <;> simp [hc]

theorem rank_greater_left (a b : Sfx) : a.rank ≤ (a.greater b).rank := by
  unfold Sfx.greater; split <;> omega
theorem rank_greater_right (a b : Sfx) : b.rank ≤ (a.greater b).rank := by
  unfold Sfx.greater; split <;> omega
theorem greater_ne {a b : Sfx} (ha : a ≠ .none) : a.greater b ≠ .none := by
  cases a <;> cases b <;> first | contradiction | decide

theorem get_low {m m' : Mach} {r : Reg} {s t : Sfx} (u : Bool) (h : s.rank ≤ t.rank)
    (hg : get m' r t = conv u (get m r s) t.bits) : get m' r s = get m r s := by
  have hle := bits_mono h
  have : get m' r s = (get m' r t).setWidth s.bits := by
    simp [get, BitVec.setWidth_setWidth_of_le _ hle]
  rw [this, hg, setWidth_conv _ _ hle]

/-- a second source operand: its value at width `w`, and what the emitted code may do to its register -/
inductive Snd (m : Mach) (w : Sfx) : Ope → BitVec w.bits → Prop
  | reg {s id u sr} : callerAt id = .ok sr → s ≠ .none → Snd m w (.reg s id u) (conv u (get m sr s) w.bits)
  | int {s l} : immFits w l.value = true → Snd m w (.int s l) (BitVec.ofInt _ l.value)

/-- register of a second source operand -/
def sndReg : Ope → Option Reg
  | .reg _ id _ => match callerAt id with
    | .ok r => some r
    | _ => none
  | _ => none

def sndBad : Ope → Sfx → Prop
  | .reg s _ u, w => BadExt s w u
  | _, _ => False

def sndVia : Ope → Sfx → Prop
  | .reg s _ u, w => ViaAx s w u
  | _, _ => False

/-- the second source operand as an operand of the instruction -/
def sndX (w : Sfx) (fr : Reg) (snd : Ope) : XOpe :=
  match snd with
  | .int _ l => .int w l
  | _ => .reg w ((sndReg snd).getD fr)

theorem physReg_ok {s : Sfx} {id : Int} {u : Bool} {r : Reg} (h : callerAt id = .ok r) :
    physReg (.reg s id u) = .ok (r, u) := by simp [physReg, regField, h]

/-- both operands extended in place, then `op` -/
theorem binInPlace_run (env : Env) (m : Mach) {op : XOp} {al : Alu} (ho : aluOf op = some al)
    (w fs : Sfx) (fr : Reg) (fid : Int) (fu : Bool) (snd : Ope) (b : BitVec w.bits)
    (hfr : callerAt fid = .ok fr) (hfs : fs ≠ .none) (hw : w = fs.greater (sfxOf snd))
    (hs : Snd m w snd b) (hfb : ¬ BadExt fs w fu) (hsb : ¬ sndBad snd w)
    (hne : sndReg snd ≠ some fr) :
    ∃ cs m1, binInPlace op w fs fr fu snd = .ok (cs ++ [i2 op (sndX w fr snd) (.reg w fr)]) ∧
      run env m cs = .next m1 ∧
      stepI env m1 (i2 op (sndX w fr snd) (.reg w fr)) = .next (aluRes m1 al w fr b) ∧
      get m1 fr w = conv fu (get m fr fs) w.bits ∧
      (∀ r, r ≠ fr → sndReg snd ≠ some r → r ≠ .ax → m1.regs r = m.regs r) ∧
      (∀ r, sndReg snd = some r → get m1 r (sfxOf snd) = get m r (sfxOf snd)) ∧ m1.mem = m.mem := by
  have hwn : w ≠ .none := hw ▸ greater_ne hfs
  have hrk : fs.rank ≤ w.rank := hw ▸ rank_greater_left _ _
  have hsk : (sfxOf snd).rank ≤ w.rank := hw ▸ rank_greater_right _ _
  have gf := caller_good hfr hwn
  obtain ⟨m1, h1, g1, r1, e1, _⟩ := appendMov_run env m fs w fr fr fu (caller_good hfr hfs) gf gf hfb
  cases hs with
  | @int s l hi =>
    refine ⟨_, m1, rfl, h1, step_alu_ir env m1 ho hi gf, g1, ?_, ?_, e1⟩
    · intro r h _ h'; exact r1 r h (fun _ => h')
    · intro r h; simp [sndReg] at h
  | @reg s id u sr hsr hsn =>
    have gs := caller_good hsr hwn
    have hsr' : sndReg (.reg s id u) = some sr := by simp [sndReg, hsr]
    have hnf : sr ≠ fr := by intro e; subst e; exact hne hsr'
    obtain ⟨m2, h2, g2, r2, e2, _⟩ := appendMov_run env m1 s w sr sr u (caller_good hsr hsn) gs gs hsb
    have hss : get m1 sr s = get m sr s := by
      simp only [get]; rw [r1 sr hnf (fun _ => (caller_ok hsr).1)]
    have hff : get m2 fr w = get m1 fr w := by
      simp only [get]; rw [r2 fr (Ne.symm hnf) (fun _ => (caller_ok hfr).1)]
    refine ⟨appendMov fs fr w fr fu ++ appendMov s sr w sr u, m2, ?_, ?_, ?_, ?_, ?_, ?_, ?_⟩
    · simp [binInPlace, sndX, physReg_ok hsr, hsr']
    · rw [run_append_next h1, h2]
    · simp only [sndX, hsr', Option.getD_some]
      rw [step_alu_rr env m2 ho gs gf, g2, hss]
    · rw [hff, g1]
    · intro r h h' hax
      have : r ≠ sr := by intro e; subst e; exact h' hsr'
      rw [r2 r this (fun _ => hax), r1 r h (fun _ => hax)]
    · intro r h
      rw [hsr'] at h; cases h
      have := get_low (m := m1) (m' := m2) (r := sr) (s := s) (t := w) u hsk g2
      exact this.trans hss
    · rw [e2, e1]

/-! ### add, sub, and, or, xor -/

theorem genBin_run (env : Env) (m : Mach) {op : XOp} {al : Alu} (ho : aluOf op = some al) (hc : al ≠ .cmp)
    {iop : IOp} {ds fs w : Sfx} {d f : Int} {dr fr : Reg} {du fu : Bool} {snd : Ope} {b : BitVec w.bits}
    (hdr : callerAt d = .ok dr) (hfr : callerAt f = .ok fr) (hds : ds ≠ .none) (hfs : fs ≠ .none)
    (hw : w = fs.greater (sfxOf snd)) (hs : Snd m w snd b) (hfb : ¬ BadExt fs w fu) (hsb : ¬ sndBad snd w)
    (hdb : ¬ BadExt w ds du) (hne : sndReg snd ≠ some fr) :
    ∃ cs m', genBin op ⟨iop, some (.reg ds d du), some (.reg fs f fu), some snd⟩ = .ok cs ∧ run env m cs = .next m' ∧
      get m' dr ds = conv du (aluVal al (conv fu (get m fr fs) w.bits) b) ds.bits ∧
      (∀ r, r ≠ dr → r ≠ fr → r ≠ .ax → sndReg snd ≠ some r → m'.regs r = m.regs r) ∧
      (∀ r, sndReg snd = some r → r ≠ dr → get m' r (sfxOf snd) = get m r (sfxOf snd)) ∧ m'.mem = m.mem := by
  have hwn : w ≠ .none := hw ▸ greater_ne hfs
  obtain ⟨cs, m1, hgen, hrun, hst, gf, rf, sf, ef⟩ :=
    binInPlace_run env m ho w fs fr f fu snd b hfr hfs hw hs hfb hsb hne
  obtain ⟨m3, h3, g3, r3, e3, _⟩ := appendMov_run env (aluRes m1 al w fr b) w ds fr dr du
    (caller_good hfr hwn) (caller_good hdr hds) (caller_good hfr hds) hdb
  have hres : get (aluRes m1 al w fr b) fr w = aluVal al (get m1 fr w) b := by
    simp [aluRes, hc, get_set_same]
  have hother : ∀ r, r ≠ fr → (aluRes m1 al w fr b).regs r = m1.regs r := by
    intro r h; simp [aluRes, hc, regs_set_ne _ _ _ _ _ h]
  refine ⟨cs ++ [i2 op (sndX w fr snd) (.reg w fr)] ++ appendMov w fr ds dr du, m3, ?_, ?_, ?_, ?_, ?_, ?_⟩
  · have hg : genBin op ⟨iop, some (.reg ds d du), some (.reg fs f fu), some snd⟩ =
        (binInPlace op (fs.greater (sfxOf snd)) fs fr fu snd >>= fun cs =>
          pure (cs ++ appendMov (fs.greater (sfxOf snd)) fr ds dr du)) := by
      simp only [genBin, deref, physReg_ok hdr, physReg_ok hfr, Out.ok_bind, sfxOf]
    rw [hg, ← hw, hgen]; rfl
  · rw [List.append_assoc, run_append_next hrun, run_append_next (run_one hst), h3]
  · rw [g3, hres, gf]
  · intro r h1 h2 h3 h4
    rw [r3 r h1 (fun _ => h3), hother r h2, rf r h2 h4 h3]
  · intro r h h1
    have hrf : r ≠ fr := by intro e; subst e; exact hne h
    have hax : r ≠ .ax := by
      cases hs with
      | int => simp [sndReg] at h
      | reg hsr _ => simp [sndReg, hsr] at h; subst h; exact (caller_ok hsr).1
    rw [← sf r h]
    simp only [get]
    rw [r3 r h1 (fun _ => hax), hother r hrf]
  · rw [e3]; simp [aluRes, hc, ef]

/-! ### comparisons -/

theorem holds_cmp {w : Nat} (hw : 0 < w) (a b : BitVec w) (op : IOp) (u : Bool) (c : Cond) (h : condOf op u = some c) :
    rel op u a b = some (holds (cmpFlags a b) c) := by
  have hsl : ((a - b).msb != BitVec.ssubOverflow a b) = decide (a.toInt < b.toInt) := by
    have ha := BitVec.toInt_lt (x := a); have ha' := BitVec.le_toInt (x := a)
    have hb := BitVec.toInt_lt (x := b); have hb' := BitVec.le_toInt (x := b)
    have hs := @BitVec.toInt_sub w a b
    rw [BitVec.msb_eq_toInt, hs]
    simp only [BitVec.ssubOverflow]
    obtain ⟨k, rfl⟩ : ∃ k, w = k + 1 := ⟨w - 1, by omega⟩
    simp only [Nat.add_sub_cancel] at *
    have hp : (2 : Int) ^ (k + 1) = 2 * 2 ^ k := by rw [Int.pow_succ]; omega
    have hn : ((2 ^ (k + 1) : Nat) : Int) = 2 * 2 ^ k := by push_cast; exact hp
    have hpos : (0 : Int) < 2 ^ k := Int.pow_pos (by decide)
    generalize (2 : Int) ^ k = P at *
    have hbm : (a.toInt - b.toInt).bmod (2 ^ (k + 1)) =
        if a.toInt - b.toInt < -P then a.toInt - b.toInt + 2 * P
        else if a.toInt - b.toInt ≥ P then a.toInt - b.toInt - 2 * P else a.toInt - b.toInt := by
      split
      · rw [← Int.add_bmod_right, hn]
        apply Int.bmod_eq_of_le_mul_two <;> rw [hn] <;> omega
      · split
        · rw [← Int.sub_bmod_right, hn]
          apply Int.bmod_eq_of_le_mul_two <;> rw [hn] <;> omega
        · apply Int.bmod_eq_of_le_mul_two <;> rw [hn] <;> omega
    rw [hbm]
    rw [Bool.eq_iff_iff]
    simp only [bne_iff_ne, ne_eq, decide_eq_true_eq]
    by_cases h1 : a.toInt - b.toInt < -P
    · have h2 : ¬ (a.toInt - b.toInt ≥ P) := by omega
      simp only [h1, h2, if_true, decide_true, Bool.or_true, decide_false]
      simp; omega
    · by_cases h2 : a.toInt - b.toInt ≥ P
      · simp only [h1, h2, if_true, if_false, decide_true, decide_false, Bool.or_false]
        simp; omega
      · simp only [h1, h2, if_false, decide_false, Bool.or_false]
        simp
  have heq : (a == b) = decide (a.toNat = b.toNat) := by
    rw [Bool.eq_iff_iff]; simp [BitVec.toNat_inj]
  have hni : a.toInt = b.toInt ↔ a.toNat = b.toNat := by rw [BitVec.toInt_inj, BitVec.toNat_inj]
  have hu : a.ult b = decide (a.toNat < b.toNat) := rfl
  cases op <;> simp only [condOf, Option.some.injEq, reduceCtorEq] at h <;> subst h <;>
    simp only [rel, holds, cmpFlags, heq] <;> cases u <;>
    simp only [Bool.false_eq_true, if_true, if_false, hsl, hu, Option.some.injEq] <;>
    rw [Bool.eq_iff_iff] <;>
    simp only [decide_eq_true_eq, Bool.or_eq_true, Bool.not_eq_true', Bool.or_eq_false_iff, decide_eq_false_iff_not] <;>
    omega

theorem bits_pos {s : Sfx} (h : s ≠ .none) : 0 < s.bits := by cases s <;> first | contradiction | decide

theorem step_set (env : Env) (m : Mach) {c : Cond} {r : Reg} {f : Flags} (hr : GoodReg .byte r) (hf : m.flags = some f) :
    stepI env m (id1 (.set c) (.reg .byte r)) = .next (set m r .byte (if holds f c then 1 else 0)) := by
  have : ∃ mn, mnemonic (id1 (.set c) (.reg .byte r)) = .ok mn ∧ mnOf mn = some (.set c) := by
    cases c <;> exact ⟨_, rfl, by decide⟩
  obtain ⟨mn, h1, h2⟩ := this
  rw [stepI_id1 env m _ _ mn _ h1 h2 hr]
  simp [step, den, hf]

theorem step_jcc (env : Env) (m : Mach) {c : Cond} {n : Name} {f : Flags} (hf : m.flags = some f) :
    stepI env m (id1 (.jcc c) (.jlabel n)) = if holds f c then .jump n m else .next m := by
  have : ∃ mn, mnemonic (id1 (.jcc c) (.jlabel n)) = .ok mn ∧ mnOf mn = some (.jcc c) := by
    cases c <;> exact ⟨_, rfl, by decide⟩
  obtain ⟨mn, h1, h2⟩ := this
  rw [stepI_id1 env m _ _ mn _ h1 h2 (by trivial)]
  simp [step, den, hf]

theorem conv_bool (b : Bool) (w : Nat) (_h : 0 < w) :
    conv true ((if b then 1 else 0 : BitVec 8)) w = if b then 1 else 0 := by
  cases b <;> simp [conv]
  apply BitVec.eq_of_toNat_eq
  simp

theorem genSet_run (env : Env) (m : Mach) (c : Cond) {iop : IOp} {ds fs w : Sfx} {d f : Int} {dr fr : Reg} {du fu : Bool} {snd : Ope}
    {b : BitVec w.bits}
    (hdr : callerAt d = .ok dr) (hfr : callerAt f = .ok fr) (hds : ds ≠ .none) (hfs : fs ≠ .none)
    (hw : w = fs.greater (sfxOf snd)) (hs : Snd m w snd b) (hfb : ¬ BadExt fs w fu) (hsb : ¬ sndBad snd w)
    (hne : sndReg snd ≠ some fr) (hdf : dr = fr) :
    ∃ cs m', genSet c ⟨iop, some (.reg ds d du), some (.reg fs f fu), some snd⟩ = .ok cs ∧ run env m cs = .next m' ∧
      get m' dr ds = (if holds (cmpFlags (conv fu (get m fr fs) w.bits) b) c then 1 else 0) ∧
      (∀ r, r ≠ dr → r ≠ fr → r ≠ .ax → sndReg snd ≠ some r → m'.regs r = m.regs r) ∧
      (∀ r, sndReg snd = some r → r ≠ dr → get m' r (sfxOf snd) = get m r (sfxOf snd)) ∧ m'.mem = m.mem := by
  subst hdf
  have hwn : w ≠ .none := hw ▸ greater_ne hfs
  obtain ⟨cs, m1, hgen, hrun, hst, gf, rf, sf, ef⟩ :=
    binInPlace_run env m (op := .cmp) (al := .cmp) rfl w fs dr f fu snd b hfr hfs hw hs hfb hsb hne
  have hst2 := step_set env (aluRes m1 .cmp w dr b) (c := c) (r := dr) (f := cmpFlags (get m1 dr w) b)
    (caller_good hdr (by decide)) (by simp [aluRes])
  obtain ⟨m3, h3, g3, r3, e3, _⟩ := appendMov_run env
    (set (aluRes m1 .cmp w dr b) dr .byte (if holds (cmpFlags (get m1 dr w) b) c then 1 else 0)) .byte ds dr dr true
    (caller_good hdr (by decide)) (caller_good hdr hds) (caller_good hdr hds) (by simp [BadExt])
  refine ⟨cs ++ [i2 .cmp (sndX w dr snd) (.reg w dr)] ++ [id1 (.set c) (.reg .byte dr)] ++ appendMov .byte dr ds dr true,
    m3, ?_, ?_, ?_, ?_, ?_, ?_⟩
  · have hg : genSet c ⟨iop, some (.reg ds d du), some (.reg fs f fu), some snd⟩ =
        (binInPlace .cmp (fs.greater (sfxOf snd)) fs dr fu snd >>= fun cs =>
          pure (cs ++ [id1 (.set c) (.reg .byte dr)] ++ appendMov .byte dr ds dr true)) := by
      simp only [genSet, deref, physReg_ok hdr, physReg_ok hfr, Out.ok_bind, sfxOf]
    rw [hg, ← hw, hgen]; rfl
  · rw [List.append_assoc, List.append_assoc, run_append_next hrun, run_append_next (run_one hst),
      run_append_next (run_one hst2), h3]
  · rw [g3, get_set_same, gf]
    exact conv_bool _ _ (bits_pos hds)
  · intro r h1 h2 h3 h4
    rw [r3 r h1 (fun _ => h3), regs_set_ne _ _ _ _ _ h2]
    simp only [aluRes, if_true]; exact rf r h2 h4 h3
  · intro r h h1
    have hax : r ≠ .ax := by
      cases hs with
      | int => simp [sndReg] at h
      | reg hsr _ => simp [sndReg, hsr] at h; subst h; exact (caller_ok hsr).1
    rw [← sf r h]
    simp only [get]
    rw [r3 r h1 (fun _ => hax), regs_set_ne _ _ _ _ _ h1]
    simp [aluRes]
  · rw [e3]; simpa [aluRes, set, setReg] using ef

theorem genJcc_run (env : Env) (m : Mach) (c : Cond) {iop : IOp} {fs w : Sfx} {f : Int} {fr : Reg} {fu : Bool} {snd : Ope}
    {b : BitVec w.bits} {n : Name} (hfr : callerAt f = .ok fr) (hfs : fs ≠ .none)
    (hw : w = fs.greater (sfxOf snd)) (hs : Snd m w snd b) (hfb : ¬ BadExt fs w fu) (hsb : ¬ sndBad snd w)
    (hne : sndReg snd ≠ some fr) :
    ∃ cs m', genJcc c ⟨iop, some (.label n), some (.reg fs f fu), some snd⟩ = .ok cs ∧
      run env m cs = (if holds (cmpFlags (conv fu (get m fr fs) w.bits) b) c then .jump n m' else .next m') ∧
      (∀ r, r ≠ fr → r ≠ .ax → sndReg snd ≠ some r → m'.regs r = m.regs r) ∧
      (∀ r, sndReg snd = some r → get m' r (sfxOf snd) = get m r (sfxOf snd)) ∧
      get m' fr fs = get m fr fs ∧ m'.mem = m.mem := by
  obtain ⟨cs, m1, hgen, hrun, hst, gf, rf, sf, ef⟩ :=
    binInPlace_run env m (op := .cmp) (al := .cmp) rfl w fs fr f fu snd b hfr hfs hw hs hfb hsb hne
  have hst2 := step_jcc env (aluRes m1 .cmp w fr b) (c := c) (n := n) (f := cmpFlags (get m1 fr w) b) (by simp [aluRes])
  refine ⟨cs ++ [i2 .cmp (sndX w fr snd) (.reg w fr)] ++ [id1 (.jcc c) (.jlabel n)],
    aluRes m1 .cmp w fr b, ?_, ?_, ?_, ?_, ?_, ?_⟩
  · have hg : genJcc c ⟨iop, some (.label n), some (.reg fs f fu), some snd⟩ =
        (binInPlace .cmp (fs.greater (sfxOf snd)) fs fr fu snd >>= fun cs =>
          pure (cs ++ [id1 (.jcc c) (.jlabel n)])) := by
      simp only [genJcc, deref, physReg_ok hfr, Out.ok_bind, sfxOf, labelOf]
    rw [hg, ← hw, hgen]; rfl
  · rw [List.append_assoc, run_append_next hrun, run_append_next (run_one hst), run_one hst2, gf]
  · intro r h2 h3 h4
    simp only [aluRes, if_true]; exact rf r h2 h4 h3
  · intro r h; simpa [aluRes, get] using sf r h
  · have hrk : fs.rank ≤ w.rank := hw ▸ rank_greater_left _ _
    have := get_low (m := m) (m' := m1) fu hrk gf
    simpa [aluRes, get] using this
  · simpa [aluRes] using ef

/-! ### neg, not -/

def unVal {w : Nat} (op : XOp) (v : BitVec w) : BitVec w := if op = .neg then -v else ~~~v

theorem step_un (env : Env) (m : Mach) {op : XOp} (ho : op = .neg ∨ op = .not) {s : Sfx} {r : Reg} (hr : GoodReg s r) :
    ∃ m', stepI env m (id1 op (.reg s r)) = .next m' ∧ m'.regs = (set m r s (unVal op (get m r s))).regs ∧ m'.mem = m.mem := by
  rcases ho with rfl | rfl
  · refine ⟨forget (set m r s (-get m r s)), ?_, rfl, rfl⟩
    rw [stepI_id1 env m .neg (.reg s r) _ _ rfl (mn_neg (s := s) hr.1) hr]
    simp [step, den]
  · refine ⟨set m r s (~~~get m r s), ?_, rfl, rfl⟩
    rw [stepI_id1 env m .not (.reg s r) _ _ rfl (mn_not (s := s) hr.1) hr]
    simp [step, den]

theorem get_regs {m m' : Mach} (h : m'.regs = m.regs) (r : Reg) (s : Sfx) : get m' r s = get m r s := by
  simp [get, h]

theorem genUnary_run (env : Env) (m : Mach) {op : XOp} (ho : op = .neg ∨ op = .not) {iop : IOp} {ds fs : Sfx} {d f : Int}
    {dr fr : Reg} {du fu : Bool}
    (hdr : callerAt d = .ok dr) (hfr : callerAt f = .ok fr) (hds : ds ≠ .none) (hfs : fs ≠ .none)
    (hb : ¬ BadExt fs ds fu) :
    ∃ cs m', genUnary op ⟨iop, some (.reg ds d du), some (.reg fs f fu), none⟩ = .ok cs ∧ run env m cs = .next m' ∧
      get m' dr ds = conv fu (unVal op (get m fr fs)) ds.bits ∧
      (∀ r, r ≠ dr → r ≠ fr → r ≠ .ax → m'.regs r = m.regs r) ∧ m'.mem = m.mem := by
  obtain ⟨m1, h1, r1, e1⟩ := step_un env m ho (caller_good hfr hfs)
  obtain ⟨m3, h3, g3, r3, e3, _⟩ := appendMov_run env m1 fs ds fr dr fu
    (caller_good hfr hfs) (caller_good hdr hds) (caller_good hfr hds) hb
  refine ⟨[id1 op (.reg fs fr)] ++ appendMov fs fr ds dr fu, m3, ?_, ?_, ?_, ?_, ?_⟩
  · simp [genUnary, deref, physReg_ok hdr, physReg_ok hfr, sfxOf]
  · rw [run_append_next (run_one h1), h3]
  · rw [g3, get_regs r1, get_set_same]
  · intro r h h' h''
    rw [r3 r h (fun _ => h''), r1, regs_set_ne _ _ _ _ _ h']
  · rw [e3, e1]

/-! ### shifts by a literal -/

def shVal {w : Nat} (op : XOp) (v : BitVec w) (n : Nat) : BitVec w := if op = .sal then v <<< n else v.sshiftRight n

theorem step_sh (env : Env) (m : Mach) {op : XOp} (ho : op = .sal ∨ op = .sar) {s : Sfx} {r : Reg} {l : ILit} (hr : GoodReg s r)
    (hn : 0 ≤ l.value) (hn' : l.value.toNat < s.bits) :
    ∃ m', stepI env m (i2 op (.int s l) (.reg s r)) = .next m' ∧
      m'.regs = (set m r s (shVal op (get m r s) l.value.toNat)).regs ∧ m'.mem = m.mem := by
  have hlt : l.value < 256 := by cases s <;> simp [Sfx.bits] at hn' <;> omega
  have hmod : l.value.toNat % (if s = .quad then 64 else 32) = l.value.toNat := by
    cases s <;> simp [Sfx.bits] at hn' ⊢ <;> omega
  rcases ho with rfl | rfl
  · refine ⟨forget (set m r s (get m r s <<< l.value.toNat)), ?_, rfl, rfl⟩
    rw [stepI_i2 env m .sal (.int s l) (.reg s r) _ _ rfl (mn_sal (s := s) hr.1) (by trivial) hr]
    simp [step, den, shiftOp, hn, hlt, hmod]
  · refine ⟨forget (set m r s ((get m r s).sshiftRight l.value.toNat)), ?_, rfl, rfl⟩
    rw [stepI_i2 env m .sar (.int s l) (.reg s r) _ _ rfl (mn_sar (s := s) hr.1) (by trivial) hr]
    simp [step, den, shiftOp, hn, hlt, hmod]

theorem genShift_run (env : Env) (m : Mach) {op : XOp} (ho : op = .sal ∨ op = .sar) {iop : IOp} {ds fs w : Sfx} {d f : Int}
    {dr fr : Reg} {du fu : Bool} {s : Sfx} {l : ILit}
    (hdr : callerAt d = .ok dr) (hfr : callerAt f = .ok fr) (hds : ds ≠ .none) (hfs : fs ≠ .none)
    (hw : w = fs.greater s) (hfb : ¬ BadExt fs w fu) (hdb : ¬ BadExt w ds du)
    (hn : 0 ≤ l.value) (hn' : l.value.toNat < w.bits) :
    ∃ cs m', genShift op ⟨iop, some (.reg ds d du), some (.reg fs f fu), some (.int s l)⟩ = .ok cs ∧ run env m cs = .next m' ∧
      get m' dr ds = conv du (shVal op (conv fu (get m fr fs) w.bits) l.value.toNat) ds.bits ∧
      (∀ r, r ≠ dr → r ≠ fr → r ≠ .ax → m'.regs r = m.regs r) ∧ m'.mem = m.mem := by
  have hwn : w ≠ .none := hw ▸ greater_ne hfs
  obtain ⟨m0, h0, g0, r0, e0, _⟩ := appendMov_run env m fs w fr fr fu
    (caller_good hfr hfs) (caller_good hfr hwn) (caller_good hfr hwn) hfb
  obtain ⟨m1, h1, r1, e1⟩ := step_sh env m0 ho (caller_good hfr hwn) hn hn'
  obtain ⟨m3, h3, g3, r3, e3, _⟩ := appendMov_run env m1 w ds fr dr du
    (caller_good hfr hwn) (caller_good hdr hds) (caller_good hfr hds) hdb
  refine ⟨appendMov fs fr w fr fu ++ [i2 op (.int w l) (.reg w fr)] ++ appendMov w fr ds dr du, m3, ?_, ?_, ?_, ?_, ?_⟩
  · simp [genShift, deref, physReg_ok hdr, physReg_ok hfr, sfxOf, hw]
  · rw [List.append_assoc, run_append_next h0, run_append_next (run_one h1), h3]
  · rw [g3, get_regs r1, get_set_same, g0]
  · intro r h h' h''
    rw [r3 r h (fun _ => h''), r1, regs_set_ne _ _ _ _ _ h', r0 r h' (fun _ => h'')]
  · rw [e3, e1, e0]

/-! ### mul -/

theorem step_imul_rr (env : Env) (m : Mach) {s : Sfx} {a b : Reg} (ha : GoodReg s a) (hb : GoodReg s b) (hs : s ≠ .byte) :
    stepI env m (i2 .imul (.reg s a) (.reg s b)) = .next (forget (set m b s (get m b s * get m a s))) := by
  have hm : mnOf (fmt1 "imul" s "") = some (.imul s) := by
    cases s <;> first | exact absurd rfl hs | exact absurd rfl ha.1 | decide
  rw [stepI_i2 env m .imul (.reg s a) (.reg s b) _ _ rfl hm ha hb]
  simp [step, den, value]

theorem step_imul_ir (env : Env) (m : Mach) {s : Sfx} {l : ILit} {b : Reg} (hb : GoodReg s b) (hs : s ≠ .byte)
    (hi : immFits s l.value = true) :
    stepI env m (i2 .imul (.int s l) (.reg s b)) = .next (forget (set m b s (get m b s * BitVec.ofInt _ l.value))) := by
  have hm : mnOf (fmt1 "imul" s "") = some (.imul s) := by
    cases s <;> first | exact absurd rfl hs | exact absurd rfl hb.1 | decide
  rw [stepI_i2 env m .imul (.int s l) (.reg s b) _ _ rfl hm (by trivial) hb]
  simp [step, den, value, hi]

theorem genMul_run (env : Env) (m : Mach)
    {iop : IOp} {ds fs w : Sfx} {d f : Int} {dr fr : Reg} {du fu : Bool} {snd : Ope} {b : BitVec w.bits}
    (hdr : callerAt d = .ok dr) (hfr : callerAt f = .ok fr) (hds : ds ≠ .none) (hfs : fs ≠ .none)
    (hw : w = fs.greater (sfxOf snd)) (hs : Snd m w snd b) (hfb : ¬ BadExt fs w fu) (hsb : ¬ sndBad snd w)
    (hsv : ¬ sndVia snd w) (hdb : ¬ BadExt w ds du) (hbyte : w ≠ .byte) :
    ∃ cs m', genMul ⟨iop, some (.reg ds d du), some (.reg fs f fu), some snd⟩ = .ok cs ∧ run env m cs = .next m' ∧
      get m' dr ds = conv du (conv fu (get m fr fs) w.bits * b) ds.bits ∧
      (∀ r, r ≠ dr → r ≠ .ax → sndReg snd ≠ some r → m'.regs r = m.regs r) ∧
      (∀ r, sndReg snd = some r → r ≠ dr → get m' r (sfxOf snd) = get m r (sfxOf snd)) ∧ m'.mem = m.mem := by
  have hwn : w ≠ .none := hw ▸ greater_ne hfs
  have hsk : (sfxOf snd).rank ≤ w.rank := hw ▸ rank_greater_right _ _
  obtain ⟨m1, h1, g1, r1, e1, _⟩ := appendMov_run env m fs w fr .ax fu (caller_good hfr hfs) (ax_good hwn)
    (caller_good hfr hwn) hfb
  -- the multiplication
  have key : ∃ cs m2, (∃ tl, (genMul ⟨iop, some (.reg ds d du), some (.reg fs f fu), some snd⟩ =
        .ok (cs ++ [tl] ++ appendMov w .ax ds dr du)) ∧
        stepI env m2 tl = .next (forget (set m2 .ax w (get m2 .ax w * b)))) ∧ run env m cs = .next m2 ∧
      get m2 .ax w = conv fu (get m fr fs) w.bits ∧
      (∀ r, r ≠ .ax → sndReg snd ≠ some r → m2.regs r = m.regs r) ∧
      (∀ r, sndReg snd = some r → get m2 r (sfxOf snd) = get m r (sfxOf snd)) ∧ m2.mem = m.mem := by
    cases hs with
    | @int s l hi =>
      refine ⟨appendMov fs fr w .ax fu, m1, ⟨i2 .imul (.int w l) (.reg w .ax), ?_, ?_⟩, h1, g1, ?_, ?_, e1⟩
      · simp [genMul, deref, physReg_ok hdr, physReg_ok hfr, sfxOf, hw]
      · exact step_imul_ir env m1 (ax_good hwn) hbyte hi
      · intro r h _; exact r1 r h (fun _ => h)
      · intro r h; simp [sndReg] at h
    | @reg s id u sr hsr hsn =>
      have hsr' : sndReg (.reg s id u) = some sr := by simp [sndReg, hsr]
      have gs := caller_good hsr hwn
      obtain ⟨m2, h2, g2, r2, e2, _⟩ := appendMov_run env m1 s w sr sr u (caller_good hsr hsn) gs gs hsb
      have hax : sr ≠ .ax := (caller_ok hsr).1
      have hss : get m1 sr s = get m sr s := by
        simp only [get]; rw [r1 sr hax (fun _ => hax)]
      refine ⟨appendMov fs fr w .ax fu ++ appendMov s sr w sr u, m2,
        ⟨i2 .imul (.reg w sr) (.reg w .ax), ?_, ?_⟩, ?_, ?_, ?_, ?_, ?_⟩
      · simp [genMul, deref, physReg_ok hdr, physReg_ok hfr, physReg_ok hsr, sfxOf, hw]
      · rw [step_imul_rr env m2 gs (ax_good hwn) hbyte, g2, hss]
      · rw [run_append_next h1, h2]
      · rw [← g1]; simp only [get]; rw [r2 .ax (Ne.symm hax) (fun h => absurd h hsv)]
      · intro r h h'
        have : r ≠ sr := by intro e; subst e; exact h' hsr'
        rw [r2 r this (fun _ => h), r1 r h (fun _ => h)]
      · intro r h
        rw [hsr'] at h; cases h
        have := get_low (m := m1) (m' := m2) (r := sr) (s := s) (t := w) u hsk g2
        exact this.trans hss
      · rw [e2, e1]
  obtain ⟨cs, m2, ⟨tl, hgen, hst⟩, hrun, g2, r2, s2, e2⟩ := key
  obtain ⟨m3, h3, g3, r3, e3, _⟩ := appendMov_run env (forget (set m2 .ax w (get m2 .ax w * b))) w ds .ax dr du
    (ax_good hwn) (caller_good hdr hds) (ax_good hds) hdb
  have hforget : ∀ (x : Mach) r s, get (forget x) r s = get x r s := fun _ _ _ => rfl
  refine ⟨_, m3, hgen, ?_, ?_, ?_, ?_, ?_⟩
  · rw [List.append_assoc, run_append_next hrun, run_append_next (run_one hst), h3]
  · rw [g3, hforget, get_set_same, g2]
  · intro r h h' h''
    rw [r3 r h (fun _ => h')]
    show (set m2 .ax w _).regs r = _
    rw [regs_set_ne _ _ _ _ _ h', r2 r h' h'']
  · intro r h h1
    have hax : r ≠ .ax := by
      cases hs with
      | int => simp [sndReg] at h
      | reg hsr _ => simp [sndReg, hsr] at h; subst h; exact (caller_ok hsr).1
    rw [← s2 r h]
    simp only [get]
    rw [r3 r h1 (fun _ => hax)]
    show ((set m2 .ax w _).regs r).setWidth _ = _
    rw [regs_set_ne _ _ _ _ _ hax]
  · rw [e3]; exact e2

end X86
end Umlcc
