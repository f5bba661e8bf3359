import Verif.Lemma.X64Arith
/-!
Helper lemmas: code emitted for division and remainder, and the register holding a live value across it.
-/
namespace Umlcc
namespace X86
open X64 ISem

/-- `aliveRegs` as a function of the answers of `isAlive` -/
def aliveRegsB (s : HSet Int) (i : Nat) : List Bool → Out (HSet Int)
  | [] => .ok s
  | a :: bs => do
    let r ← callerAt i
    if a then do let s ← HSet.add hashInteger s r.toIdx; aliveRegsB s (i + 1) bs
    else aliveRegsB s (i + 1) bs

theorem aliveRegs_bools (s : HSet Int) (i : Nat) (qs : List Liveseq) (bs : List Bool)
    (h : qs.map Liveseq.isAlive = bs.map Out.ok) : aliveRegs s i qs = aliveRegsB s i bs := by
  induction qs generalizing s i bs with
  | nil => cases bs with
    | nil => rfl
    | cons => simp at h
  | cons q qs ih =>
    cases bs with
    | nil => simp at h
    | cons b bs =>
      simp only [List.map_cons, List.cons.injEq] at h
      simp only [aliveRegs, aliveRegsB, h.1, Out.ok_bind]
      cases hc : callerAt (i : Int) with
      | ok r =>
        simp only [Out.ok_bind]
        cases b
        · simp only [Bool.false_eq_true, if_false]; exact ih s (i + 1) bs h.2
        · simp only [if_true]
          cases HSet.add hashInteger s r.toIdx with
          | ok s' => simp only [Out.ok_bind]; exact ih s' (i + 1) bs h.2
          | _ => rfl
      | _ => rfl

def isOk (o : Out Bool) (b : Bool) : Bool :=
  match o with
  | .ok c => c == b
  | _ => false

theorem isOk_eq {o : Out Bool} {b : Bool} (h : isOk o b = true) : o = .ok b := by
  unfold isOk at h; split at h
  · simp at h; rw [h]
  · cases h

theorem alive_dx : ∀ b0 b1 b2 b3 b4 b5 b6 b7 : Bool,
    isOk (aliveRegsB HMap.new 0 [b0, b1, b2, b3, b4, b5, b6, b7] >>= fun s =>
      HSet.contains hashInteger s (Reg.dx.toIdx : Int)) b1 = true := by decide +kernel

theorem len8 {α : Type} {l : List α} (h : l.length = 8) : ∃ a b c d e f g i, l = [a, b, c, d, e, f, g, i] := by
  match l, h with
  | [a, b, c, d, e, f, g, i], _ => exact ⟨a, b, c, d, e, f, g, i, rfl⟩

/-- the divisor as a second source operand -/
inductive SndD (m : Mach) (w : Sfx) : Ope → BitVec w.bits → Prop
  | reg {s id u sr} : callerAt id = .ok sr → s ≠ .none → SndD m w (.reg s id u) (conv u (get m sr s) w.bits)
  | int {s l} : (if w = .quad then immFits64 l.value = true else immFits w l.value = true) →
      SndD m w (.int s l) (BitVec.ofInt _ l.value)

/-- where the divisor is at the time of the division -/
def divReg (fr : Reg) (snd : Ope) : Reg :=
  match snd with
  | .int _ _ => tmpReg
  | _ => if sndReg snd = some .dx then fr else (sndReg snd).getD fr

theorem divPrep_run (env : Env) (m : Mach) {fs w : Sfx} {f : Int} {fr : Reg} {fu : Bool} {snd : Ope} {b : BitVec w.bits}
    (hfr : callerAt f = .ok fr) (hfs : fs ≠ .none)
    (hw : w = fs.greater (sfxOf snd)) (hs : SndD m w snd b) (hfb : ¬ BadExt fs w fu) (hsb : ¬ sndBad snd w)
    (hsv : ¬ sndVia snd w) (hne : sndReg snd ≠ some fr) :
    ∃ cs m1, divPrep w fs fr fu snd = .ok (cs, divReg fr snd) ∧ run env m cs = .next m1 ∧
      get m1 .ax w = conv fu (get m fr fs) w.bits ∧ get m1 (divReg fr snd) w = b ∧
      divReg fr snd ∈ callerSaved ∧ divReg fr snd ≠ .dx ∧
      (∀ r, r ≠ .ax → r ≠ divReg fr snd → m1.regs r = m.regs r) ∧
      (∀ r, sndReg snd = some r → r ≠ .dx → get m1 r (sfxOf snd) = get m r (sfxOf snd)) ∧ m1.mem = m.mem := by
  have hwn : w ≠ .none := hw ▸ greater_ne hfs
  have hsk : (sfxOf snd).rank ≤ w.rank := hw ▸ rank_greater_right _ _
  obtain ⟨m1, h1, g1, r1, e1, _⟩ := appendMov_run env m fs w fr .ax fu (caller_good hfr hfs) (ax_good hwn)
    (caller_good hfr hwn) hfb
  cases hs with
  | @int s l hi =>
    have hst := step_mov_ir env m1 (s := w) (l := l) (b := .r10) ⟨hwn, by simp⟩ hi
    refine ⟨_, set m1 .r10 w (BitVec.ofInt _ l.value), rfl, ?_, ?_, ?_, (by simp [divReg, tmpReg, callerSaved]),
      (by simp [divReg, tmpReg]), ?_, (fun r h _ => by simp [sndReg] at h), ?_⟩
    · rw [run_append_next h1]; exact run_one hst
    · rw [get_set_ne _ _ _ _ _ _ (by decide)]; exact g1
    · exact get_set_same ..
    · intro r h h'; rw [regs_set_ne m1 .r10 r _ _ h']; exact r1 r h (fun _ => h)
    · simpa using e1
  | @reg s id u sr hsr hsn =>
    have hsr' : sndReg (.reg s id u) = some sr := by simp [sndReg, hsr]
    have gs := caller_good hsr hwn
    have hax : sr ≠ .ax := (caller_ok hsr).1
    have hss : get m1 sr s = get m sr s := by
      simp only [get]; rw [r1 sr hax (fun _ => hax)]
    by_cases hdx : sr = .dx
    · have hdr : divReg fr (.reg s id u) = fr := by simp [divReg, hsr', hdx]
      have hfax : fr ≠ .ax := (caller_ok hfr).1
      obtain ⟨m2, h2, g2, r2, e2, _⟩ := appendMov_run env m1 s w sr fr u (caller_good hsr hsn) (caller_good hfr hwn) gs hsb
      rw [hdr]
      refine ⟨appendMov fs fr w .ax fu ++ appendMov s sr w fr u, m2, ?_, ?_, ?_, ?_, (caller_ok hfr).2.2.2.2.2, ?_, ?_,
        (fun r h h' => by rw [hsr'] at h; cases h; exact absurd hdx h'), ?_⟩
      · simp [divPrep, physReg_ok hsr, hdx]
      · rw [run_append_next h1, h2]
      · rw [← g1]; simp only [get]; rw [r2 .ax (Ne.symm hfax) (fun h => absurd h hsv)]
      · rw [g2, hss]
      · intro e; exact hne (by rw [hsr', hdx, e])
      · intro r h h'; rw [r2 r h' (fun _ => h), r1 r h (fun _ => h)]
      · rw [e2, e1]
    · have hdr : divReg fr (.reg s id u) = sr := by simp [divReg, hsr', hdx]
      obtain ⟨m2, h2, g2, r2, e2, _⟩ := appendMov_run env m1 s w sr sr u (caller_good hsr hsn) gs gs hsb
      rw [hdr]
      refine ⟨appendMov fs fr w .ax fu ++ appendMov s sr w sr u, m2, ?_, ?_, ?_, ?_, (caller_ok hsr).2.2.2.2.2, hdx, ?_,
        (fun r h _ => by rw [hsr'] at h; cases h; exact (get_low (m := m1) (m' := m2) (r := sr) (s := s) (t := w) u hsk g2).trans hss), ?_⟩
      · simp [divPrep, physReg_ok hsr, hdx]
      · rw [run_append_next h1, h2]
      · rw [← g1]; simp only [get]; rw [r2 .ax (Ne.symm hax) (fun h => absurd h hsv)]
      · rw [g2, hss]
      · intro r h h'; rw [r2 r h' (fun _ => h), r1 r h (fun _ => h)]
      · rw [e2, e1]

/-- the sign of `ax` spread over `dx`, read as one number, is the value of `ax` -/
theorem spread_toInt {w : Nat} (hw : 0 < w) (a : BitVec w) :
    (if a.msb then (-1 : BitVec w) else 0).toInt * 2 ^ w + a.toNat = a.toInt := by
  cases h : a.msb
  · simp [BitVec.toInt_eq_msb_cond, h]
  · have h1 : (-1 : BitVec w).toInt = -1 := by
      have := BitVec.toInt_allOnes (w := w)
      rw [show (-1 : BitVec w) = BitVec.allOnes w from BitVec.neg_one_eq_allOnes]
      rw [this]; simp [hw]
    simp only [if_true]
    rw [h1, BitVec.toInt_eq_msb_cond a, h]; push_cast; simp; omega

theorem divCore_run (env : Env) (m : Mach) {w : Sfx} {sr : Reg} {u : Bool} {a b : BitVec w.bits}
    (hwn : w ≠ .none) (hwb : w ≠ .byte) (hsr : sr ∈ callerSaved) (hdx : sr ≠ .dx)
    (ha : get m .ax w = a) (hb : get m sr w = b) {op : IOp} {v : BitVec w.bits} (hv : divmod op u a b = some v) :
    ∃ m', run env m (divCore w sr u) = .next m' ∧ get m' (if op = .mod then .dx else .ax) w = v ∧
      (∀ r, r ≠ .ax → r ≠ .dx → m'.regs r = m.regs r) ∧ m'.mem = m.mem := by
  have hax : sr ≠ .ax := by intro e; subst e; revert hsr; decide
  have hgs : GoodReg w sr := ⟨hwn, by intro _ e; subst e; revert hsr; decide⟩
  have hpos := bits_pos hwn
  cases u with
  | true =>
    have hst := step_mov_ir env m (s := .long) (l := ⟨.int, 0⟩) (b := .dx) ⟨by decide, by simp⟩ (by decide)
    have hd : stepI env (set m .dx .long (BitVec.ofInt _ 0)) (is .div (.reg w sr)) =
        divU (set m .dx .long (BitVec.ofInt _ 0)) w b := by
      rw [stepI_is env _ .div (.reg w sr) (fmt1 "div" w "") (.div w) rfl (mn_div hwn hwb) hgs]
      simp only [step, den, if_true]
      rw [get_set_ne _ _ _ _ _ _ hdx, hb]
    have hz : get (set m .dx .long (BitVec.ofInt _ 0)) .dx w = 0 := by
      simp only [get]; rw [regs_set_long]; simp [setReg, Sfx.bits]
    have hA : get (set m .dx .long (BitVec.ofInt _ 0)) .ax w = a := by
      rw [get_set_ne _ _ _ _ _ _ (by decide)]; exact ha
    simp only [divmod, if_true] at hv
    split at hv
    · cases hv
    · rename_i hb0
      have hq : a.toNat / b.toNat < 2 ^ w.bits := Nat.lt_of_le_of_lt (Nat.div_le_self _ _) a.isLt
      refine ⟨forget (set (set (set m .dx .long (BitVec.ofInt _ 0)) .ax w (BitVec.ofNat _ (a.toNat / b.toNat))) .dx w
          (BitVec.ofNat _ (a.toNat % b.toNat))), ?_, ?_, ?_, ?_⟩
      · simp only [divCore, if_true]
        simp only [run, hst, hd]
        simp only [divU, hz, hA]
        have : ¬ (b.toNat = 0 ∨ a.toNat / b.toNat ≥ 2 ^ w.bits) := by omega
        simp [this]
      · simp only [get_forget]
        split at hv
        · simp only [reduceCtorEq, if_false, Option.some.injEq] at hv ⊢
          rw [get_set_ne _ _ _ _ _ _ (by decide), get_set_same, hv]
        · simp only [if_true, Option.some.injEq] at hv ⊢
          rw [get_set_same, hv]
        · cases hv
      · intro r h h'
        simp only [regs_forget]
        rw [regs_set_ne _ _ _ _ _ h', regs_set_ne _ _ _ _ _ h, regs_set_ne _ _ _ _ _ h']
      · rfl
  | false =>
    have hst : ∃ i, divCore w sr false = [i, is .idiv (.reg w sr)] ∧
        stepI env m i = .next (set m .dx w (if (get m .ax w).msb then -1 else 0)) := by
      cases w with
      | none => exact absurd rfl hwn
      | byte => exact absurd rfl hwb
      | word => refine ⟨is .cxtd (.sfx .word), rfl, ?_⟩; rw [stepI_none env m _ "cwtd" .cwtd (by decide) (by decide) (by decide)]; rfl
      | long => refine ⟨is .cxtd (.sfx .long), rfl, ?_⟩; rw [stepI_none env m _ "cltd" .cltd (by decide) (by decide) (by decide)]; rfl
      | quad => refine ⟨⟨.cqto, none, none⟩, rfl, ?_⟩; rw [stepI_none env m _ "cqto" .cqto (by decide) (by decide) (by decide)]; rfl
    obtain ⟨i, hdc, hst⟩ := hst
    rw [ha] at hst
    generalize hM : set m .dx w (if a.msb then -1 else 0) = M at hst
    have hd : stepI env M (is .idiv (.reg w sr)) = divS M w b := by
      rw [stepI_is env _ .idiv (.reg w sr) (fmt1 "idiv" w "") (.idiv w) rfl (mn_idiv hwn hwb) hgs]
      simp only [step, den, if_true]
      rw [← hM, get_set_ne _ _ _ _ _ _ hdx, hb]
    have hn : (get M .dx w).toInt * 2 ^ w.bits + (get M .ax w).toNat = a.toInt := by
      rw [← hM, get_set_same, get_set_ne _ _ _ _ _ _ (by decide), ha]
      exact spread_toInt hpos a
    simp only [divmod, Bool.false_eq_true, if_false] at hv
    split at hv
    · cases hv
    · rename_i hb0
      have hlow : ¬ a.toInt.tdiv b.toInt < -2 ^ (w.bits - 1) := by
        have h1 := BitVec.toInt_lt (x := a)
        have h2 := BitVec.le_toInt (x := a)
        have h3 : (a.toInt.tdiv b.toInt).natAbs ≤ a.toInt.natAbs := by
          rw [Int.natAbs_tdiv]; exact Nat.div_le_self _ _
        omega
      refine ⟨forget (set (set M .ax w (BitVec.ofInt _ (a.toInt.tdiv b.toInt))) .dx w
          (BitVec.ofInt _ (a.toInt.tmod b.toInt))), ?_, ?_, ?_, ?_⟩
      · rw [hdc]
        simp only [run, hst, hd]
        simp only [divS, hn]
        rw [if_neg (by omega)]
      · simp only [get_forget]
        split at hv
        · simp only [reduceCtorEq, if_false, Option.some.injEq] at hv ⊢
          rw [get_set_ne _ _ _ _ _ _ (by decide), get_set_same, hv]
        · simp only [if_true, Option.some.injEq] at hv ⊢
          rw [get_set_same, hv]
        · cases hv
      · intro r h h'
        simp only [regs_forget]
        rw [regs_set_ne _ _ _ _ _ h', regs_set_ne _ _ _ _ _ h, ← hM, regs_set_ne _ _ _ _ _ h']
      · rw [← hM]; rfl

theorem sfxOf_reg (s : Sfx) (i : Int) (u : Bool) : sfxOf (.reg s i u) = s := rfl

theorem genDiv_full (env : Env) (m : Mach) {iop : IOp} {op : IOp} (qs : List Liveseq) (ev : Nat) (live : List Bool)
    {ds fs w : Sfx} {d f : Int} {dr fr : Reg} {du fu : Bool} {snd : Ope} {b v : BitVec w.bits}
    (hl : qs.map Liveseq.isAlive = live.map Out.ok) (h8 : live.length = 8)
    (hdr : callerAt d = .ok dr) (hfr : callerAt f = .ok fr) (hds : ds ≠ .none) (hfs : fs ≠ .none)
    (hw : w = fs.greater (sfxOf snd)) (hs : SndD m w snd b) (hfb : ¬ BadExt fs w fu) (hsb : ¬ sndBad snd w)
    (hsv : ¬ sndVia snd w) (hdb : ¬ BadExt w ds du) (hbyte : w ≠ .byte) (hne : sndReg snd ≠ some fr)
    (hv : divmod op du (conv fu (get m fr fs) w.bits) b = some v) :
    ∃ cs ev' m', genDiv (if op = .mod then .dx else .ax) qs ev ⟨iop, some (.reg ds d du), some (.reg fs f fu), some snd⟩ =
        .ok (cs, ev') ∧ run env m cs = .next m' ∧
      get m' dr ds = conv du v ds.bits ∧
      (∀ r, r ≠ dr → r ≠ .ax → r ≠ .bx → r ≠ .dx → r ≠ divReg fr snd → m'.regs r = m.regs r) ∧
      (live[1]? = some true → dr ≠ .dx → fr ≠ .dx → m'.regs .dx = m.regs .dx) ∧
      (ev' = 0 → m'.regs .bx = m.regs .bx) ∧ ev ≤ ev' ∧ ev' ≤ max ev 1 ∧
      (∀ r, sndReg snd = some r → r ≠ dr → r ≠ .dx → get m' r (sfxOf snd) = get m r (sfxOf snd)) ∧ m'.mem = m.mem := by
  have hwn : w ≠ .none := hw ▸ greater_ne hfs
  obtain ⟨cs, m1, hgen, hrun, gax, gsr, hmem, hsdx, r1, s1, e1⟩ := divPrep_run env m hfr hfs hw hs hfb hsb hsv hne
  generalize hsr : divReg fr snd = sr at *
  obtain ⟨b0, b1, b2, b3, b4, b5, b6, b7, hlive⟩ := len8 h8
  have hal : (aliveRegs HMap.new 0 qs >>= fun s => HSet.contains hashInteger s (Reg.dx.toIdx : Int)) = .ok b1 := by
    rw [aliveRegs_bools _ _ _ _ hl, hlive]; exact isOk_eq (alive_dx b0 b1 b2 b3 b4 b5 b6 b7)
  have hdrax := (caller_ok hdr).1
  have hdrbx := (caller_ok hdr).2.1
  have gres : ∀ {s}, s ≠ .none → GoodReg s (if op = .mod then Reg.dx else .ax) := by
    intro s h; exact ⟨h, by intro _; split <;> simp⟩
  obtain ⟨evac, hevac⟩ : ∃ e : Bool, e = (decide (fr ≠ .dx ∧ sr ≠ .dx ∧ dr ≠ .dx) && b1) := ⟨_, rfl⟩
  have hg : genDiv (if op = .mod then .dx else .ax) qs ev ⟨iop, some (.reg ds d du), some (.reg fs f fu), some snd⟩ =
      .ok (cs ++ (if evac then appendMov .quad .dx .quad .bx false else []) ++ divCore w sr du ++
        appendMov w (if op = .mod then .dx else .ax) ds dr du ++
        (if evac then appendMov .quad .bx .quad .dx false else []), if evac then max ev 1 else ev) := by
    simp only [genDiv, deref, physReg_ok hdr, physReg_ok hfr, Out.ok_bind, sfxOf_reg, ← hw]
    rw [hgen]
    simp only [Out.ok_bind]
    by_cases hc : fr ≠ .dx ∧ sr ≠ .dx ∧ dr ≠ .dx
    · rw [if_pos hc, hal]
      have he : evac = b1 := by simp [hevac, hc]
      rw [he]; rfl
    · rw [if_neg hc]
      have he : evac = false := by simp only [hevac, hc, decide_false, Bool.false_and]
      rw [he]; rfl
  have hsbx : sr ≠ .bx := by intro e; rw [e] at hmem; revert hmem; decide
  have hsave : ∃ m2, run env m1 (if evac then appendMov .quad .dx .quad .bx false else []) = .next m2 ∧
      (evac = true → m2.regs .bx = m1.regs .dx) ∧ (evac = false → m2.regs .bx = m1.regs .bx) ∧
      (∀ r, r ≠ .bx → m2.regs r = m1.regs r) ∧ m2.mem = m1.mem := by
    cases evac with
    | false => exact ⟨m1, rfl, by simp, by simp, fun _ _ => rfl, rfl⟩
    | true =>
      obtain ⟨m2, h2, g2, r2, e2, _⟩ := appendMov_run env m1 .quad .quad .dx .bx false
        (good_quad _) (good_quad _) (good_quad _) (by simp [BadExt])
      refine ⟨m2, h2, ?_, by simp, fun r h => r2 r h (by simp [ViaAx]), e2⟩
      intro _
      rw [conv_self] at g2
      rw [get_quad, get_quad] at g2
      exact g2
  obtain ⟨m2, h2, hbx, hbx', r2, e2⟩ := hsave
  obtain ⟨m3, h3, g3, r3, e3⟩ := divCore_run env m2 hwn hbyte hmem hsdx (a := conv fu (get m fr fs) w.bits) (b := b) (u := du)
    (by rw [← gax]; simp only [get]; rw [r2 .ax (by decide)]) (by rw [← gsr]; simp only [get]; rw [r2 sr hsbx]) hv
  obtain ⟨m4, h4, g4, r4, e4, _⟩ := appendMov_run env m3 w ds (if op = .mod then Reg.dx else .ax) dr du
    (gres hwn) (caller_good hdr hds) (gres hds) hdb
  have hrest : ∃ m5, run env m4 (if evac then appendMov .quad .bx .quad .dx false else []) = .next m5 ∧
      (evac = true → m5.regs .dx = m4.regs .bx) ∧ (evac = false → m5.regs .dx = m4.regs .dx) ∧
      (∀ r, r ≠ .dx → m5.regs r = m4.regs r) ∧ m5.mem = m4.mem := by
    cases evac with
    | false => exact ⟨m4, rfl, by simp, by simp, fun _ _ => rfl, rfl⟩
    | true =>
      obtain ⟨m2, h2, g2, r2, e2, _⟩ := appendMov_run env m4 .quad .quad .bx .dx false
        (good_quad _) (good_quad _) (good_quad _) (by simp [BadExt])
      refine ⟨m2, h2, ?_, by simp, fun r h => r2 r h (by simp [ViaAx]), e2⟩
      intro _
      rw [conv_self] at g2
      rw [get_quad, get_quad] at g2
      exact g2
  obtain ⟨m5, h5, hdx, hdx', r5, e5⟩ := hrest
  have hddx : evac = true → dr ≠ .dx := by
    intro h; rw [h] at hevac
    have := hevac.symm
    simp only [Bool.and_eq_true, decide_eq_true_eq] at this
    exact this.1.2.2
  have hdr5 : m5.regs dr = m4.regs dr := by
    by_cases h : dr = .dx
    · rw [h]; exact hdx' (by cases evac with | false => rfl | true => exact absurd h (hddx rfl))
    · exact r5 dr h
  refine ⟨_, _, m5, hg, ?_, ?_, ?_, ?_, ?_, ?_, ?_, ?_, ?_⟩
  · rw [List.append_assoc, List.append_assoc, List.append_assoc, run_append_next hrun, run_append_next h2,
      run_append_next h3, run_append_next h4, h5]
  · rw [← g3, ← g4]; simp only [get]; rw [hdr5]
  · intro r h1 h2 h3 h4 h5
    rw [r5 r h4, r4 r h1 (fun _ => h2), r3 r h2 h4, r2 r h3, r1 r h2 h5]
  · intro hlv hd hf
    rw [hlive] at hlv
    simp at hlv
    have he : evac = true := by rw [hevac, hlv]; simp [hf, hsdx, hd]
    rw [hdx he, r4 .bx (Ne.symm hdrbx) (by simp), r3 .bx (by decide) (by decide), hbx he,
      r1 .dx (by decide) (Ne.symm hsdx)]
  · intro h0
    have he : evac = false := by
      cases evac with
      | false => rfl
      | true => simp at h0
    rw [r5 .bx (by decide), r4 .bx (Ne.symm hdrbx) (by simp), r3 .bx (by decide) (by decide), hbx' he,
      r1 .bx (by decide) (Ne.symm hsbx)]
  · cases evac <;> simp <;> omega
  · cases evac <;> simp <;> omega
  · intro r h h1 h2
    obtain ⟨h3, h4⟩ : r ≠ .ax ∧ r ≠ .bx := by
      cases hs with
      | int => simp [sndReg] at h
      | reg hsr' _ => simp [sndReg, hsr'] at h; subst h; exact ⟨(caller_ok hsr').1, (caller_ok hsr').2.1⟩
    rw [← s1 r h h2]
    simp only [get]
    rw [r5 r h2, r4 r h1 (fun _ => h3), r3 r h3 h2, r2 r h4]
  · rw [e5, e4, e3, e2, e1]

theorem genDiv_run (env : Env) (m : Mach) {iop : IOp} {op : IOp} (qs : List Liveseq) (ev : Nat) (live : List Bool)
    {ds fs w : Sfx} {d f : Int} {dr fr : Reg} {du fu : Bool} {snd : Ope} {b v : BitVec w.bits}
    (hl : qs.map Liveseq.isAlive = live.map Out.ok) (h8 : live.length = 8)
    (hdr : callerAt d = .ok dr) (hfr : callerAt f = .ok fr) (hds : ds ≠ .none) (hfs : fs ≠ .none)
    (hw : w = fs.greater (sfxOf snd)) (hs : SndD m w snd b) (hfb : ¬ BadExt fs w fu) (hsb : ¬ sndBad snd w)
    (hsv : ¬ sndVia snd w) (hdb : ¬ BadExt w ds du) (hbyte : w ≠ .byte) (hne : sndReg snd ≠ some fr)
    (hv : divmod op du (conv fu (get m fr fs) w.bits) b = some v) :
    ∃ cs ev' m', genDiv (if op = .mod then .dx else .ax) qs ev ⟨iop, some (.reg ds d du), some (.reg fs f fu), some snd⟩ =
        .ok (cs, ev') ∧ run env m cs = .next m' ∧
      get m' dr ds = conv du v ds.bits ∧
      (∀ r, r ≠ dr → r ≠ .ax → r ≠ .bx → r ≠ .dx → r ≠ divReg fr snd → m'.regs r = m.regs r) ∧
      (live[1]? = some true → dr ≠ .dx → fr ≠ .dx → m'.regs .dx = m.regs .dx) ∧
      (ev' = 0 → m'.regs .bx = m.regs .bx) ∧ ev ≤ ev' ∧ ev' ≤ max ev 1 ∧ m'.mem = m.mem := by
  obtain ⟨cs, ev', m', h1, h2, h3, h4, h5, h6, h7, h8, _, h9⟩ :=
    genDiv_full env m (iop := iop) qs ev live hl h8 hdr hfr hds hfs hw hs hfb hsb hsv hdb hbyte hne hv
  exact ⟨cs, ev', m', h1, h2, h3, h4, h5, h6, h7, h8, h9⟩

end X86
end Umlcc
