import Verif.Lemma.X64Rel
/-!
Helper lemmas: the machine code of a single instruction of allocated intermediate code does what the instruction means.
-/
namespace Umlcc
namespace X86
open X64 ISem
open IMach (Val)
open Sim (rv pv upd)

variable {W : Type}

/-! ### memory operands -/

/-- address of a memory operand of an instruction -/
def memAddr (env : Env) (m : Mach) : XOpe → Option (BitVec 64)
  | .ptr r => some (m.regs r)
  | .mem off => some (slot m off)
  | .label n => some (env.sym n)
  | _ => none

theorem step_load_any (env : Env) (m : Mach) {o : XOpe} {a : BitVec 64} {s : Sfx} {b : Reg} (ho : memAddr env m o = some a) (hb : GoodReg s b) :
    stepI env m (i2 .mov o (.reg s b)) = .next (set m b s (load m a s)) := by
  cases o <;> cases ho
  · rename_i r
    rw [stepI_i2 env m .mov (.ptr r) (.reg s b) _ _ rfl (mn_mov (s := s) hb.1) (by trivial) hb]
    cases s <;> simp [step, den, mov, isMem, value, assign, addr]
  · exact step_load_mem env m hb
  · rename_i n
    rw [stepI_i2 env m .mov (.label n) (.reg s b) _ _ rfl (mn_mov (s := s) hb.1) (by trivial) hb]
    cases s <;> simp [step, den, mov, isMem, value, assign, addr]

theorem step_store_any (env : Env) (m : Mach) {o : XOpe} {a : BitVec 64} {s : Sfx} {b : Reg} (ho : memAddr env m o = some a) (hb : GoodReg s b) :
    stepI env m (i2 .mov (.reg s b) o) = .next (store m a s (get m b s)) := by
  cases o <;> cases ho
  · rename_i r
    rw [stepI_i2 env m .mov (.reg s b) (.ptr r) _ _ rfl (mn_mov (s := s) hb.1) hb (by trivial)]
    cases s <;> simp [step, den, mov, isMem, value, assign, addr]
  · exact step_store_mem env m hb
  · rename_i n
    rw [stepI_i2 env m .mov (.reg s b) (.label n) _ _ rfl (mn_mov (s := s) hb.1) hb (by trivial)]
    cases s <;> simp [step, den, mov, isMem, value, assign, addr]

theorem step_storei_any (env : Env) (m : Mach) {o : XOpe} {a : BitVec 64} {s : Sfx} {l : ILit} (ho : memAddr env m o = some a) (hs : s ≠ .none)
    (hi : immFits s l.value = true) :
    stepI env m (i2 .mov (.int s l) o) = .next (store m a s (BitVec.ofInt _ l.value)) := by
  cases o <;> cases ho
  · rename_i r
    rw [stepI_i2 env m .mov (.int s l) (.ptr r) _ _ rfl (mn_mov (s := s) hs) (by trivial) (by trivial)]
    simp [step, den, mov, isMem, value, assign, addr, hi]
  · exact step_storei_mem env m hs hi
  · rename_i n
    rw [stepI_i2 env m .mov (.int s l) (.label n) _ _ rfl (mn_mov (s := s) hs) (by trivial) (by trivial)]
    simp [step, den, mov, isMem, value, assign, addr, hi]

theorem step_lea (env : Env) (m : Mach) {o : XOpe} {a : BitVec 64} {b : Reg} (ho : memAddr env m o = some a) :
    stepI env m (i2 .lea o (.reg .quad b)) = .next (set m b .quad a) := by
  cases o <;> cases ho
  · rename_i r
    rw [stepI_i2 env m .lea (.ptr r) (.reg .quad b) "leaq" (.lea .quad) rfl (by decide) (by trivial) (good_quad _)]
    simp [step, den, addr]
  · rename_i n
    rw [stepI_i2 env m .lea (.mem n) (.reg .quad b) "leaq" (.lea .quad) rfl (by decide) (by trivial) (good_quad _)]
    simp [step, den, addr, slot]
  · rename_i n
    rw [stepI_i2 env m .lea (.label n) (.reg .quad b) "leaq" (.lea .quad) rfl (by decide) (by trivial) (good_quad _)]
    simp [step, den, addr]

theorem step_jmp (env : Env) (m : Mach) (n : Name) : stepI env m (id1 .jmp (.jlabel n)) = .jump n m := by
  rw [stepI_id1 env m .jmp (.jlabel n) "jmp" .jmp rfl (by decide) (by trivial)]
  rfl

/-! ### what has to be shown of an instruction -/

/-- where an instruction goes -/
def goes (i : Inst) (t : Bool) (m : Mach) : Res :=
  match RSpec.target (.inst i) with
  | some n => if i.op = .jmp ∨ t = true then .jump n m else .next m
  | none => .next m

/-- the machine code `cs` of instruction `i`, started in `m`, does what the instruction does -/
structure Follows (env : Env) (E : IMach.Env W) (F D T ev : Nat) (e m0 : Mach) (live : Int → Prop) (ps : List Prep) (i : Inst) (R : Int → Val)
    (st st' : IMach.St W) (v : Val) (t : Bool) (m m' : Mach) (cs : List XInst) : Prop where
  run : run env m cs = goes i t m'
  core : Core E F D T ev e m0 (prepAfter (.inst i) ps) st' m'
  regs : Holds live (after i R v) m'
  ret : i.op = .stret → ∀ v, st'.ret = some v → get m' .ax v.1 = v.2
  other : i.op ≠ .stret → st'.ret = st.ret
  jmp : i.op = .jmp → m'.regs .ax = m.regs .ax
  arg : i.op = .ldarg → ∀ k r, sysvArg k = some r → m'.regs r = m.regs r

/-- registers live before -/
def Before (live : Int → Prop) (i : Inst) (u : Int) : Prop := u ∈ RSpec.reads (.inst i) ∨ (live u ∧ RSpec.writes (.inst i) ≠ some u)

/-- what may be assumed before instruction `i` -/
structure Pre (E : IMach.Env W) (F D T ev : Nat) (e m0 : Mach) (live : Int → Prop) (ps : List Prep) (i : Inst) (R : Int → Val)
    (st st' : IMach.St W) (v : Val) (t : Bool) (m : Mach) : Prop where
  core : Core E F D T ev e m0 ps st m
  room : base F ev + heldAll ps ≤ D
  regs : Holds (Before live i) R m
  small : ∀ u, (u ∈ RSpec.reads (.inst i) ∨ RSpec.writes (.inst i) = some u) → 0 ≤ u ∧ u < 8
  exec : execI E i R st = some (st', v, t)

section
variable {env : Env} {E : IMach.Env W} {F D T ev : Nat} {e m0 : Mach} {live : Int → Prop} {ps : List Prep} {R : Int → Val}
  {st st' : IMach.St W} {v : Val} {t : Bool} {m : Mach} {cs : List XInst}

theorem prepAfter_keep {op : IOp} {d f s : Option Ope} (h1 : op ≠ .prep) (h2 : op ≠ .starg) (h3 : op ≠ .call) (h4 : op ≠ .clean) :
    prepAfter (.inst ⟨op, d, f, s⟩) ps = ps := by
  cases op <;> first | rfl | exact absurd rfl h1 | exact absurd rfl h2 | exact absurd rfl h3 | exact absurd rfl h4

theorem badExt_of {fs w : Sfx} {f : Int} {fu : Bool} (h : ¬ Widens true (.reg fs f fu) w) : ¬ BadExt fs w fu := by
  rintro ⟨h1, h2, h3⟩
  subst h1 h2
  exact h ⟨h3, f, rfl⟩

/-- an instruction whose result goes to a register and that leaves the memory alone -/
theorem fin_reg {op : IOp} {ds : Sfx} {d : Int} {du : Bool} {fo so : Option Ope} {m' : Mach} {dr : Reg}
    (hp : Pre E F D T ev e m0 live ps ⟨op, some (.reg ds d du), fo, so⟩ R st st' v t m)
    (h1 : op ≠ .prep) (h2 : op ≠ .starg) (h3 : op ≠ .call) (h4 : op ≠ .clean) (h5 : op ≠ .stret) (h6 : op ≠ .jmp) (h7 : op ≠ .ldarg)
    (hdr : callerAt d = .ok dr) (hs : st' = st) (hr : run env m cs = .next m') (hv : get m' dr v.1 = v.2)
    (hk : ∀ u r, live u → u ≠ d → callerAt u = .ok r → get m' r (R u).1 = get m r (R u).1)
    (hf : ∀ r, r = .sp ∨ r = .bp ∨ (r ∈ sysvKept ∧ r ∉ calleeSaved.take ev) → m'.regs r = m.regs r) (hm : m'.mem = m.mem) :
    Follows env E F D T ev e m0 live ps ⟨op, some (.reg ds d du), fo, so⟩ R st st' v t m m' cs where
  run := by rw [hr]; rfl
  core := by
    rw [prepAfter_keep h1 h2 h3 h4]
    subst hs
    refine hp.core.step hp.room rfl (fun a _ => by rw [hm]) (fun a ha => by rw [hm]; exact hp.core.mem a ha) hf
  regs := by
    intro u r hu hr'
    simp only [after, RSpec.writes]
    by_cases hud : u = d
    · subst hud
      rw [hdr] at hr'
      cases hr'
      rw [Sim.upd_same]
      exact hv
    · rw [Sim.upd_other hud, hk u r hu hud hr']
      exact hp.regs u r (.inr ⟨hu, by simp [RSpec.writes]; exact fun h => hud h.symm⟩) hr'
  ret := fun h => absurd h h5
  other := fun _ => by rw [hs]
  jmp := fun h => absurd h h6
  arg := fun h => absurd h h7

/-- the live registers an instruction does not write keep their values -/
theorem kept_other {d f : Int} {dr fr : Reg} {o : Ope} {m' : Mach} (hdr : callerAt d = .ok dr) (hfr : callerAt f = .ok fr)
    (hk : ∀ r, r ≠ dr → r ≠ fr → r ≠ .ax → sndReg o ≠ some r → m'.regs r = m.regs r)
    (hs : ∀ r, sndReg o = some r → r ≠ dr → get m' r (sfxOf o) = get m r (sfxOf o))
    (hw : ∀ s u k, o = .reg s u k → (R u).1 = s) (hl : f = d ∨ ¬ live f) :
    ∀ u r, live u → u ≠ d → callerAt u = .ok r → get m' r (R u).1 = get m r (R u).1 := by
  intro u r hu hud hr
  have hrd : r ≠ dr := by rintro rfl; exact hud (callerAt_inj hr hdr)
  by_cases ho : sndReg o = some r
  · cases o with
    | reg s w k =>
      simp only [sndReg] at ho
      split at ho
      · rename_i q hq
        cases ho
        have := callerAt_inj hr hq
        subst this
        have h1 := hs r (by simp [sndReg, hq]) hrd
        rw [hw s u k rfl]
        exact h1
      · cases ho
    | _ => cases ho
  · have : r ≠ fr := by
      rintro rfl
      have := callerAt_inj hr hfr
      subst this
      rcases hl with h | h
      · exact hud h
      · exact h hu
    unfold get
    rw [hk r hrd this (caller_ok hr).1 ho]

/-- registers with a fixed role are not touched by arithmetic -/
theorem kept_fixed {d f : Int} {dr fr : Reg} {o : Ope} {m' : Mach} (hdr : callerAt d = .ok dr) (hfr : callerAt f = .ok fr)
    (hk : ∀ r, r ≠ dr → r ≠ fr → r ≠ .ax → sndReg o ≠ some r → m'.regs r = m.regs r) :
    ∀ r, r = .sp ∨ r = .bp ∨ (r ∈ sysvKept ∧ r ∉ calleeSaved.take ev) → m'.regs r = m.regs r := by
  intro r hr
  have hr' : r = .sp ∨ r = .bp ∨ r ∈ sysvKept := by
    rcases hr with h | h | h
    · exact .inl h
    · exact .inr (.inl h)
    · exact .inr (.inr h.1)
  refine hk r (caller_fixed hdr hr') (caller_fixed hfr hr') (ax_fixed hr') ?_
  intro ho
  cases o with
  | reg s w k =>
    simp only [sndReg] at ho
    split at ho
    · rename_i q hq
      cases ho
      exact caller_fixed hq hr' rfl
    · cases ho
  | _ => cases ho

theorem sndReg_ne {f : Int} {fr : Reg} {o : Ope} (hfr : callerAt f = .ok fr) (h : ∀ s u, o ≠ .reg s f u) : sndReg o ≠ some fr := by
  cases o with
  | reg s w k =>
    simp only [sndReg]
    split
    · rename_i q hq
      intro e
      cases e
      have := callerAt_inj hq hfr
      subst this
      exact h s k rfl
    · intro e; cases e
  | _ => intro e; cases e

/-- facts about the operands of an instruction with two sources -/
theorem pair_facts {op : IOp} {dst : Option Ope} {fs w : Sfx} {f : Int} {fu : Bool} {o : Ope} {a b : BitVec w.bits}
    (hp : Pre E F D T ev e m0 live ps ⟨op, dst, some (.reg fs f fu), some o⟩ R st st' v t m)
    (hw : w = IMach.wider fs (IMach.width (some o)))
    (ha : IMach.src (some (.reg fs f fu)) (some (R f)) w = some a) (hb : IMach.src (some o) (rv R (some o)) w = some b) :
    ∃ fr, callerAt f = .ok fr ∧ fs ≠ .none ∧ (R f).1 = fs ∧ a = conv fu (get m fr fs) w.bits ∧ opVal m w o = some b ∧ w = fs.greater (sfxOf o) ∧
      ∀ s u k, o = .reg s u k → (R u).1 = s := by
  have hf := hp.small f (.inl (by simp [RSpec.reads, RSpec.opeRegs]))
  obtain ⟨fr, hfr⟩ := callerAt_ex hf
  have h1 := src_opVal (o := .reg fs f fu) hp.regs (fun s u k e => by
    cases e
    exact ⟨.inl (by simp [RSpec.reads, RSpec.opeRegs]), hf⟩) ha
  have h2 := src_opVal (o := o) hp.regs (fun s u k e => by
    subst e
    exact ⟨.inl (by simp [RSpec.reads, RSpec.opeRegs]), hp.small u (.inl (by simp [RSpec.reads, RSpec.opeRegs]))⟩) hb
  obtain ⟨h3, h4, h5⟩ := h1
  have h4' : fs ≠ .none := h4
  rw [opVal_reg hfr h4'] at h3
  exact ⟨fr, hfr, h4', h5 fs f fu rfl, (Option.some.inj h3).symm, h2.1, by rw [hw, wider_greater, width_sfxOf], h2.2.2⟩

theorem keep_out {k k' : Nat} {x : Out (List XInst)} {c : List XInst} (h : keep k x = .ok (cs, k')) (hx : x = .ok c) : cs = c := by
  subst hx
  simp only [keep, Out.ok_bind] at h
  cases h
  rfl

theorem follows_alu {op : IOp} (hop : op = .add ∨ op = .sub ∨ op = .and ∨ op = .or ∨ op = .xor) {qs : List Liveseq} {k k' : Nat}
    {fs w ds : Sfx} {f d : Int} {fu du : Bool} {o : Ope}
    (hp : Pre E F D T ev e m0 live ps ⟨op, some (.reg ds d du), some (.reg fs f fu), some o⟩ R st st' v t m)
    (hg : genInst qs k ⟨op, some (.reg ds d du), some (.reg fs f fu), some o⟩ = .ok (cs, k'))
    (h1 : Pair ⟨op, some (.reg ds d du), some (.reg fs f fu), some o⟩ fs f fu o w) (h2 : ¬ (du = true ∧ w = .long ∧ ds = .quad))
    (h3 : LitFits w o) (h4 : f = d ∨ ¬ live f) :
    ∃ m', Follows env E F D T ev e m0 live ps ⟨op, some (.reg ds d du), some (.reg fs f fu), some o⟩ R st st' v t m m' cs := by
  obtain ⟨hds, a, b, c, ha, hb, hc, hst, hv⟩ := execI_bin (by rcases hop with h | h | h | h | h <;> simp [h]) hp.exec
  obtain rfl := h1.common
  obtain ⟨fr, hfr, hfs, -, ha', hb', hw, hR⟩ := pair_facts hp rfl ha hb
  obtain ⟨dr, hdr⟩ := callerAt_ex (hp.small d (.inr rfl))
  have main : ∀ xop al, aluOf xop = some al → al ≠ .cmp → aluVal al a b = c →
      genInst qs k ⟨op, some (.reg ds d du), some (.reg fs f fu), some o⟩ =
        keep k (genBin xop ⟨op, some (.reg ds d du), some (.reg fs f fu), some o⟩) →
      ∃ m', Follows env E F D T ev e m0 live ps ⟨op, some (.reg ds d du), some (.reg fs f fu), some o⟩ R st st' v t m m' cs := by
    intro xop al ho hcm hval hgen
    obtain ⟨cs', m', g1, g2, g3, g4, g5, g6⟩ := genBin_run env m ho hcm (iop := op) hdr hfr hds hfs hw (snd_of_opVal hb' h3)
      (badExt_of h1.wide) (sndBad_of h1.wide2) h2 (sndReg_ne hfr h1.other)
    rw [hgen] at hg
    obtain rfl := keep_out hg g1
    refine ⟨m', fin_reg hp ?_ ?_ ?_ ?_ ?_ ?_ ?_ hdr hst g2 ?_ (kept_other hdr hfr g4 g5 hR h4) (kept_fixed hdr hfr g4) g6⟩
    iterate 7 (rcases hop with h | h | h | h | h <;> rw [h] <;> decide)
    · subst hv
      show get m' dr ds = _
      rw [g3, ← ha', hval]
  rcases hop with rfl | rfl | rfl | rfl | rfl
  · exact main .add .add rfl (by decide) (by simpa [IMach.arith, bin, aluVal] using hc) rfl
  · exact main .sub .sub rfl (by decide) (by simpa [IMach.arith, bin, aluVal] using hc) rfl
  · exact main .and .and rfl (by decide) (by simpa [IMach.arith, bin, aluVal] using hc) rfl
  · exact main .or .or rfl (by decide) (by simpa [IMach.arith, bin, aluVal] using hc) rfl
  · exact main .xor .xor rfl (by decide) (by simpa [IMach.arith, bin, aluVal] using hc) rfl

theorem follows_mul {qs : List Liveseq} {k k' : Nat} {fs w ds : Sfx} {f d : Int} {fu du : Bool} {o : Ope}
    (hp : Pre E F D T ev e m0 live ps ⟨.mul, some (.reg ds d du), some (.reg fs f fu), some o⟩ R st st' v t m)
    (hg : genInst qs k ⟨.mul, some (.reg ds d du), some (.reg fs f fu), some o⟩ = .ok (cs, k'))
    (h1 : Pair ⟨.mul, some (.reg ds d du), some (.reg fs f fu), some o⟩ fs f fu o w) (h2 : ¬ (du = true ∧ w = .long ∧ ds = .quad))
    (h3 : LitFits w o) (h4 : w ≠ .byte) (h5 : ¬ Widens false o w) :
    ∃ m', Follows env E F D T ev e m0 live ps ⟨.mul, some (.reg ds d du), some (.reg fs f fu), some o⟩ R st st' v t m m' cs := by
  obtain ⟨hds, a, b, c, ha, hb, hc, hst, hv⟩ := execI_bin (by simp) hp.exec
  obtain rfl := h1.common
  obtain ⟨fr, hfr, hfs, -, ha', hb', hw, hR⟩ := pair_facts hp rfl ha hb
  obtain ⟨dr, hdr⟩ := callerAt_ex (hp.small d (.inr rfl))
  obtain ⟨cs', m', g1, g2, g3, g4, g5, g6⟩ := genMul_run env m (iop := .mul) hdr hfr hds hfs hw (snd_of_opVal hb' h3)
    (badExt_of h1.wide) (sndBad_of h1.wide2) (sndVia_of h5) h2 h4
  obtain rfl := keep_out hg g1
  refine ⟨m', fin_reg hp (by decide) (by decide) (by decide) (by decide) (by decide) (by decide) (by decide) hdr hst g2 ?_
    (kept_other hdr hdr (fun r a1 _ a3 a4 => g4 r a1 a3 a4) g5 hR (.inl rfl)) (kept_fixed hdr hfr (fun r a1 _ a3 a4 => g4 r a1 a3 a4)) g6⟩
  subst hv
  show get m' dr ds = _
  have : a * b = c := by simpa [IMach.arith, bin] using hc
  rw [g3, ← ha', this]

theorem follows_div {op : IOp} (hop : op = .div ∨ op = .mod) {qs : List Liveseq} {flags : List Bool} {k k' : Nat} {fs w ds : Sfx} {f d : Int} {fu du : Bool} {o : Ope}
    (hp : Pre E F D T ev e m0 live ps ⟨op, some (.reg ds d du), some (.reg fs f fu), some o⟩ R st st' v t m)
    (hg : genInst qs k ⟨op, some (.reg ds d du), some (.reg fs f fu), some o⟩ = .ok (cs, k')) (hk : k' ≤ ev)
    (hl : qs.map Liveseq.isAlive = flags.map Out.ok) (h8 : flags.length = 8)
    (h1 : Pair ⟨op, some (.reg ds d du), some (.reg fs f fu), some o⟩ fs f fu o w) (h2 : ¬ (du = true ∧ w = .long ∧ ds = .quad))
    (h3 : LitLoads w o) (h4 : w ≠ .byte) (h5 : ¬ Widens false o w) (h6 : live 1 → d ≠ 1 → flags[1]? = some true ∧ f ≠ 1)
    (h7 : ∀ s l, o = .int s l → d = 6 ∨ ¬ live 6) (h9 : ∀ s u, o = .reg s 1 u → f = d ∨ ¬ live f) :
    ∃ m', Follows env E F D T ev e m0 live ps ⟨op, some (.reg ds d du), some (.reg fs f fu), some o⟩ R st st' v t m m' cs := by
  obtain ⟨hds, a, b, c, ha, hb, hc, hst, hv⟩ := execI_bin (by rcases hop with h | h <;> simp [h]) hp.exec
  obtain rfl := h1.common
  obtain ⟨fr, hfr, hfs, -, ha', hb', hw, hR⟩ := pair_facts hp rfl ha hb
  obtain ⟨dr, hdr⟩ := callerAt_ex (hp.small d (.inr rfl))
  have hc' : divmod op du (conv fu (get m fr fs) (IMach.wider fs (IMach.width (some o))).bits) b = some c := by
    rw [← ha']; rcases hop with rfl | rfl <;> exact hc
  obtain ⟨cs', ev', m', g1, g2, g3, g4, g5, g6, -, -, g7, g8⟩ := genDiv_full env m (iop := op) (op := op) qs k flags hl h8 hdr hfr hds hfs hw
    (sndD_of_opVal hb' h3) (badExt_of h1.wide) (sndBad_of h1.wide2) (sndVia_of h5) h2 h4 (sndReg_ne hfr h1.other) hc'
  have hg' : genInst qs k ⟨op, some (.reg ds d du), some (.reg fs f fu), some o⟩ = .ok (cs', ev') := by
    rcases hop with rfl | rfl <;> exact g1
  rw [hg'] at hg
  cases hg
  have hone : callerAt 1 = .ok .dx := rfl
  have hdiv : ∀ q, q = .sp ∨ q = .bp ∨ q ∈ sysvKept → q ≠ divReg fr o := by
    intro q hq
    cases o with
    | int s l => exact r10_fixed hq
    | reg s u z =>
      obtain ⟨r, hr⟩ := callerAt_ex (hp.small u (.inl (by simp [RSpec.reads, RSpec.opeRegs])))
      simp only [divReg, sndReg, hr]
      split
      · exact caller_fixed hfr hq
      · exact caller_fixed hr hq
    | _ => cases hb'
  refine ⟨m', fin_reg hp ?_ ?_ ?_ ?_ ?_ ?_ ?_ hdr hst g2 ?_ ?_ ?_ g8⟩
  iterate 7 (rcases hop with h | h <;> rw [h] <;> decide)
  · subst hv
    exact g3
  · intro u r hu hud hr
    have hrd : r ≠ dr := by rintro rfl; exact hud (callerAt_inj hr hdr)
    by_cases hdx : r = .dx
    · subst hdx
      have : u = 1 := callerAt_inj hr hone
      subst this
      obtain ⟨a1, a2⟩ := h6 hu (Ne.symm hud)
      unfold get
      rw [g5 a1 (Ne.symm hrd) (by rintro rfl; exact a2 (callerAt_inj hfr hone))]
    · by_cases ho : sndReg o = some r
      · cases o with
        | reg s w z =>
          have ho' := ho
          simp only [sndReg] at ho
          split at ho
          · rename_i q hq
            cases ho
            have := callerAt_inj hr hq
            subst this
            rw [hR s u z rfl]
            exact g7 r ho' hrd hdx
          · cases ho
        | _ => cases ho
      · unfold get
        rw [g4 r hrd (caller_ok hr).1 (caller_ok hr).2.1 hdx ?_]
        intro e'
        cases o with
        | int s l =>
          have e2 : r = .r10 := e'
          subst e2
          have : u = 6 := callerAt_inj hr (show callerAt 6 = .ok .r10 from rfl)
          subst this
          rcases h7 s l rfl with h | h
          · exact hud h.symm
          · exact h hu
        | reg s w z =>
          simp only [divReg] at e'
          split at e'
          · rename_i hx
            subst e'
            have : u = f := callerAt_inj hr hfr
            subst this
            simp only [sndReg] at hx
            split at hx
            · rename_i q hq
              cases hx
              have : w = 1 := callerAt_inj hq hone
              subst this
              rcases h9 s z rfl with h | h
              · exact hud h
              · exact h hu
            · cases hx
          · obtain ⟨q, hq⟩ := callerAt_ex (hp.small w (.inl (by simp [RSpec.reads, RSpec.opeRegs])))
            simp [sndReg, hq] at ho e'
            exact ho e'.symm
        | _ => cases hb'
  · intro q hq
    have hq' : q = .sp ∨ q = .bp ∨ q ∈ sysvKept := by
      rcases hq with h | h | h
      · exact .inl h
      · exact .inr (.inl h)
      · exact .inr (.inr h.1)
    by_cases hbx : q = .bx
    · subst hbx
      apply g6
      rcases hq with h | h | h
      · cases h
      · cases h
      · rcases Nat.eq_zero_or_pos ev with h0 | h0
        · omega
        · exfalso
          apply h.2
          obtain ⟨n, rfl⟩ : ∃ n, ev = n + 1 := ⟨ev - 1, by omega⟩
          simp [calleeSaved]
    · exact g4 q (caller_fixed hdr hq') (ax_fixed hq') hbx (dx_fixed hq') (hdiv q hq')

theorem ofInt_small {w : Sfx} {x : Int} (h0 : 0 ≤ x) (h1 : x < w.bits) : (BitVec.ofInt w.bits x).toNat = x.toNat := by
  have : w.bits < 2 ^ w.bits := Nat.lt_two_pow_self
  rw [BitVec.toNat_ofInt]
  have h2 : x % (2 ^ w.bits : Nat) = x := Int.emod_eq_of_lt h0 (by omega)
  rw [h2]

theorem follows_shift {op : IOp} (hop : op = .sal ∨ op = .sar) {qs : List Liveseq} {k k' : Nat} {fs w ds s : Sfx} {f d : Int} {fu du : Bool} {l : ILit}
    (hp : Pre E F D T ev e m0 live ps ⟨op, some (.reg ds d du), some (.reg fs f fu), some (.int s l)⟩ R st st' v t m)
    (hg : genInst qs k ⟨op, some (.reg ds d du), some (.reg fs f fu), some (.int s l)⟩ = .ok (cs, k'))
    (h1 : Pair ⟨op, some (.reg ds d du), some (.reg fs f fu), some (.int s l)⟩ fs f fu (.int s l) w) (h2 : ¬ (du = true ∧ w = .long ∧ ds = .quad))
    (h3 : 0 ≤ l.value) (h4 : l.value < w.bits) (h5 : op = .sar → fu = false) (h6 : f = d ∨ ¬ live f) :
    ∃ m', Follows env E F D T ev e m0 live ps ⟨op, some (.reg ds d du), some (.reg fs f fu), some (.int s l)⟩ R st st' v t m m' cs := by
  obtain ⟨hds, a, b, c, ha, hb, hc, hst, hv⟩ := execI_bin (by rcases hop with h | h <;> simp [h]) hp.exec
  obtain rfl := h1.common
  obtain ⟨fr, hfr, hfs, -, ha', hb', hw, hR⟩ := pair_facts hp rfl ha hb
  obtain ⟨dr, hdr⟩ := callerAt_ex (hp.small d (.inr rfl))
  have hbn : b.toNat = l.value.toNat := by
    simp only [opVal, Option.some.injEq] at hb'
    rw [← hb']
    exact ofInt_small h3 h4
  have hc' : shift op fu (conv fu (get m fr fs) (IMach.wider fs (IMach.width (some (.int s l)))).bits) l.value.toNat = some c := by
    rw [← ha', ← hbn]
    rcases hop with rfl | rfl <;>
    · simp only [IMach.arith] at hc
      split at hc
      · exact hc
      · cases hc
  have main : ∀ xop, (xop = .sal ∨ xop = .sar) → shVal xop (conv fu (get m fr fs) (IMach.wider fs (IMach.width (some (.int s l)))).bits) l.value.toNat = c →
      genInst qs k ⟨op, some (.reg ds d du), some (.reg fs f fu), some (.int s l)⟩ =
        keep k (genShift xop ⟨op, some (.reg ds d du), some (.reg fs f fu), some (.int s l)⟩) →
      ∃ m', Follows env E F D T ev e m0 live ps ⟨op, some (.reg ds d du), some (.reg fs f fu), some (.int s l)⟩ R st st' v t m m' cs := by
    intro xop ho hval hgen
    obtain ⟨cs', m', g1, g2, g3, g4, g6⟩ := genShift_run env m ho (iop := op) hdr hfr hds hfs hw (badExt_of h1.wide) h2 h3 (by omega)
    rw [hgen] at hg
    obtain rfl := keep_out hg g1
    refine ⟨m', fin_reg hp ?_ ?_ ?_ ?_ ?_ ?_ ?_ hdr hst g2 ?_
      (kept_other (o := .int s l) hdr hfr (fun r a1 a2 a3 _ => g4 r a1 a2 a3) (fun r h => by cases h) hR h6)
      (kept_fixed (o := .int s l) hdr hfr (fun r a1 a2 a3 _ => g4 r a1 a2 a3)) g6⟩
    iterate 7 (rcases hop with h | h <;> rw [h] <;> decide)
    · subst hv
      show get m' dr ds = _
      rw [g3, hval]
  rcases hop with rfl | rfl
  · refine main .sal (.inl rfl) ?_ rfl
    simp only [shift, Option.some.injEq] at hc'
    rw [← hc']; exact shl_eq _ _
  · refine main .sar (.inr rfl) ?_ rfl
    have hfu := h5 rfl
    simp only [shift, Option.some.injEq] at hc'
    rw [← hc', if_neg (by simp [hfu])]; exact sar_eq _ _

theorem execI_un {op : IOp} (ho : op = .neg ∨ op = .not) {fs ds : Sfx} {f d : Int} {fu du : Bool}
    (h : execI E ⟨op, some (.reg ds d du), some (.reg fs f fu), none⟩ R st = some (st', v, t)) :
    ds ≠ .none ∧ ∃ a c, IMach.src (some (.reg fs f fu)) (some (R f)) fs = some a ∧ un op a = some c ∧ st' = st ∧ v = ⟨ds, conv fu c ds.bits⟩ := by
  rcases ho with rfl | rfl <;>
  · simp only [execI, IMach.exec, RSpec.eraseOpe, pv, IMach.width, IMach.isUns] at h
    by_cases hd : ds = .none
    · rw [if_pos hd] at h
      cases h
    rw [if_neg hd] at h
    refine ⟨hd, ?_⟩
    generalize ha : IMach.src (some (.reg fs 0 fu)) _ _ = x at h
    rcases x with _ | a
    · cases h
    obtain ⟨c, hc, h⟩ := Option.map_eq_some_iff.1 h
    cases h
    exact ⟨a, c, ha, hc, rfl, rfl⟩

theorem follows_unary {op : IOp} (hop : op = .neg ∨ op = .not) {qs : List Liveseq} {k k' : Nat} {fs ds : Sfx} {f d : Int} {fu du : Bool}
    (hp : Pre E F D T ev e m0 live ps ⟨op, some (.reg ds d du), some (.reg fs f fu), none⟩ R st st' v t m)
    (hg : genInst qs k ⟨op, some (.reg ds d du), some (.reg fs f fu), none⟩ = .ok (cs, k'))
    (h2 : ¬ (fu = true ∧ fs = .long ∧ ds = .quad)) (h6 : f = d ∨ ¬ live f) :
    ∃ m', Follows env E F D T ev e m0 live ps ⟨op, some (.reg ds d du), some (.reg fs f fu), none⟩ R st st' v t m m' cs := by
  obtain ⟨hds, a, c, ha, hc, hst, hv⟩ := execI_un hop hp.exec
  have hf := hp.small f (.inl (by simp [RSpec.reads, RSpec.opeRegs]))
  obtain ⟨fr, hfr⟩ := callerAt_ex hf
  obtain ⟨h3, hfs, -⟩ := src_opVal (o := .reg fs f fu) hp.regs (fun s u k e => by
    cases e
    exact ⟨.inl (by simp [RSpec.reads, RSpec.opeRegs]), hf⟩) ha
  have hfs : fs ≠ .none := hfs
  rw [opVal_reg hfr hfs] at h3
  have ha' : get m fr fs = a := by rw [← Option.some.inj h3, conv_self]
  obtain ⟨dr, hdr⟩ := callerAt_ex (hp.small d (.inr rfl))
  have main : ∀ xop, (xop = .neg ∨ xop = .not) → unVal xop (get m fr fs) = c →
      genInst qs k ⟨op, some (.reg ds d du), some (.reg fs f fu), none⟩ =
        keep k (genUnary xop ⟨op, some (.reg ds d du), some (.reg fs f fu), none⟩) →
      ∃ m', Follows env E F D T ev e m0 live ps ⟨op, some (.reg ds d du), some (.reg fs f fu), none⟩ R st st' v t m m' cs := by
    intro xop ho hval hgen
    obtain ⟨cs', m', g1, g2, g3, g4, g6⟩ := genUnary_run env m ho (iop := op) (du := du) hdr hfr hds hfs h2
    rw [hgen] at hg
    obtain rfl := keep_out hg g1
    refine ⟨m', fin_reg hp ?_ ?_ ?_ ?_ ?_ ?_ ?_ hdr hst g2 ?_
      (kept_other (o := .mem 0) hdr hfr (fun r a1 a2 a3 _ => g4 r a1 a2 a3) (fun r h => by cases h) (fun _ _ _ h => by cases h) h6)
      (kept_fixed (o := .mem 0) hdr hfr (fun r a1 a2 a3 _ => g4 r a1 a2 a3)) g6⟩
    iterate 7 (rcases hop with h | h <;> rw [h] <;> decide)
    · subst hv
      show get m' dr ds = _
      rw [g3, hval]
  rcases hop with rfl | rfl
  · refine main .neg (.inl rfl) ?_ rfl
    rw [ha']; simpa [un, unVal] using hc
  · refine main .not (.inr rfl) ?_ rfl
    rw [ha']; simpa [un, unVal] using hc

theorem follows_set {op : IOp} (hop : op = .seteq ∨ op = .setneq ∨ op = .setlt ∨ op = .setgt ∨ op = .setleq ∨ op = .setgeq) {qs : List Liveseq} {k k' : Nat}
    {fs w ds : Sfx} {f : Int} {fu du : Bool} {o : Ope}
    (hp : Pre E F D T ev e m0 live ps ⟨op, some (.reg ds f du), some (.reg fs f fu), some o⟩ R st st' v t m)
    (hg : genInst qs k ⟨op, some (.reg ds f du), some (.reg fs f fu), some o⟩ = .ok (cs, k'))
    (h1 : Pair ⟨op, some (.reg ds f du), some (.reg fs f fu), some o⟩ fs f fu o w) (h3 : LitFits w o) :
    ∃ m', Follows env E F D T ev e m0 live ps ⟨op, some (.reg ds f du), some (.reg fs f fu), some o⟩ R st st' v t m m' cs := by
  obtain ⟨hds, a, b, x, ha, hb, hx, hst, hv⟩ := execI_rel hop hp.exec
  obtain rfl := h1.common
  obtain ⟨fr, hfr, hfs, -, ha', hb', hw, hR⟩ := pair_facts hp rfl ha hb
  obtain ⟨c, hc⟩ := condOf_rel hx
  have hwn : IMach.wider fs (IMach.width (some o)) ≠ .none := by rw [hw]; exact greater_ne hfs
  have hh := holds_cmp (bits_pos hwn) a b op fu c hc
  rw [hx] at hh
  obtain ⟨cs', m', g1, g2, g3, g4, g5, g6⟩ := genSet_run env m c (iop := op) (du := du) hfr hfr hds hfs hw (snd_of_opVal hb' h3)
    (badExt_of h1.wide) (sndBad_of h1.wide2) (sndReg_ne hfr h1.other) rfl
  have hg' : genInst qs k ⟨op, some (.reg ds f du), some (.reg fs f fu), some o⟩ = .ok (cs', k) := by
    have hk : keep k (genSet c ⟨op, some (.reg ds f du), some (.reg fs f fu), some o⟩) = .ok (cs', k) := by rw [g1]; rfl
    rcases hop with rfl | rfl | rfl | rfl | rfl | rfl <;>
      first
      | (simp only [condOf, Option.some.injEq] at hc; subst hc; exact hk)
      | (simp only [genInst, fstUnsigned, deref, regField, Out.ok_bind, Out.pure_eq, hc]; exact hk)
  rw [hg'] at hg
  cases hg
  refine ⟨m', fin_reg hp ?_ ?_ ?_ ?_ ?_ ?_ ?_ hfr hst g2 ?_ (kept_other hfr hfr g4 g5 hR (.inl rfl)) (kept_fixed hfr hfr g4) g6⟩
  iterate 7 (rcases hop with h | h | h | h | h | h <;> rw [h] <;> decide)
  · subst hv
    show get m' fr ds = _
    rw [g3, ← ha', ← Option.some.inj hh]

theorem follows_jcc {op : IOp} (hop : op = .jeq ∨ op = .jneq ∨ op = .jgt ∨ op = .jgeq ∨ op = .jlt ∨ op = .jleq) {qs : List Liveseq} {k k' : Nat}
    {fs w : Sfx} {f : Int} {fu : Bool} {o : Ope} {n : Name}
    (hp : Pre E F D T ev e m0 live ps ⟨op, some (.label n), some (.reg fs f fu), some o⟩ R st st' v t m)
    (hg : genInst qs k ⟨op, some (.label n), some (.reg fs f fu), some o⟩ = .ok (cs, k'))
    (h1 : Pair ⟨op, some (.label n), some (.reg fs f fu), some o⟩ fs f fu o w) (h3 : LitFits w o) :
    ∃ m', Follows env E F D T ev e m0 live ps ⟨op, some (.label n), some (.reg fs f fu), some o⟩ R st st' v t m m' cs := by
  obtain ⟨a, b, ha, hb, hx, hst⟩ := execI_jcc hop hp.exec
  obtain rfl := h1.common
  obtain ⟨fr, hfr, hfs, hRf, ha', hb', hw, hR⟩ := pair_facts hp rfl ha hb
  obtain ⟨c, hc⟩ := condOf_rel hx
  have hwn : IMach.wider fs (IMach.width (some o)) ≠ .none := by rw [hw]; exact greater_ne hfs
  have hh := holds_cmp (bits_pos hwn) a b op fu c hc
  rw [hx] at hh
  obtain ⟨cs', m', g1, g2, g3, g4, g5, g6⟩ := genJcc_run env m c (iop := op) (n := n) hfr hfs hw (snd_of_opVal hb' h3)
    (badExt_of h1.wide) (sndBad_of h1.wide2) (sndReg_ne hfr h1.other)
  have hg' : genInst qs k ⟨op, some (.label n), some (.reg fs f fu), some o⟩ = .ok (cs', k) := by
    have hk : keep k (genJcc c ⟨op, some (.label n), some (.reg fs f fu), some o⟩) = .ok (cs', k) := by rw [g1]; rfl
    rcases hop with rfl | rfl | rfl | rfl | rfl | rfl <;>
      first
      | (simp only [condOf, Option.some.injEq] at hc; subst hc; exact hk)
      | (simp only [genInst, fstUnsigned, deref, regField, Out.ok_bind, Out.pure_eq, hc]; exact hk)
  rw [hg'] at hg
  cases hg
  have hops : op ≠ .prep ∧ op ≠ .starg ∧ op ≠ .call ∧ op ≠ .clean ∧ op ≠ .stret ∧ op ≠ .jmp ∧ op ≠ .ldarg ∧ RSpec.branches op = true := by
    rcases hop with h | h | h | h | h | h <;> rw [h] <;> decide
  refine ⟨m', ?_, ?_, ?_, fun h => absurd h hops.2.2.2.2.1, fun _ => by rw [hst], fun h => absurd h hops.2.2.2.2.2.1, fun h => absurd h hops.2.2.2.2.2.2.1⟩
  · rw [g2, ← ha', ← Option.some.inj hh]
    simp only [goes, RSpec.target, hops.2.2.2.2.2.2.2, if_true]
    cases t <;> simp [hops.2.2.2.2.2.1]
  · rw [prepAfter_keep hops.1 hops.2.1 hops.2.2.1 hops.2.2.2.1]
    subst hst
    exact hp.core.step hp.room rfl (fun a _ => by rw [g6]) (fun a ha => by rw [g6]; exact hp.core.mem a ha)
      (kept_fixed hfr hfr (fun r a1 _ a3 a4 => g3 r a1 a3 a4))
  · intro u r hu hr
    show get m' r (R u).1 = (R u).2
    have hb : get m r (R u).1 = (R u).2 := hp.regs u r (.inr ⟨hu, by simp [RSpec.writes]⟩) hr
    rw [← hb]
    by_cases huf : u = f
    · subst huf
      rw [hfr] at hr
      cases hr
      rw [hRf]
      exact g5
    · by_cases ho : sndReg o = some r
      · cases o with
        | reg s w z =>
          have ho' := ho
          simp only [sndReg] at ho
          split at ho
          · rename_i q hq
            cases ho
            have := callerAt_inj hr hq
            subst this
            rw [hR s u z rfl]
            exact g4 r ho'
          · cases ho
        | _ => cases ho
      · unfold get
        rw [g3 r (by rintro rfl; exact huf (callerAt_inj hr hfr)) (caller_ok hr).1 ho]

theorem follows_jump {qs : List Liveseq} {k k' : Nat} {n : Name} {fo so : Option Ope}
    (hp : Pre E F D T ev e m0 live ps ⟨.jmp, some (.label n), fo, so⟩ R st st' v t m)
    (hg : genInst qs k ⟨.jmp, some (.label n), fo, so⟩ = .ok (cs, k')) :
    ∃ m', Follows env E F D T ev e m0 live ps ⟨.jmp, some (.label n), fo, so⟩ R st st' v t m m' cs := by
  have hx := hp.exec
  simp only [execI, IMach.exec] at hx
  cases hx
  have h1 : genInst qs k ⟨.jmp, some (.label n), fo, so⟩ = .ok ([id1 .jmp (.jlabel n)], k) := rfl
  rw [h1] at hg
  cases hg
  refine ⟨m, ?_, hp.core, ?_, (fun h => by cases h), fun _ => rfl, fun _ => rfl, (fun h => by cases h)⟩
  · simp [run, step_jmp, goes, RSpec.target, RSpec.branches]
  · intro u r hu hr
    exact hp.regs u r (.inr ⟨hu, by simp [RSpec.writes]⟩) hr

end
end X86
end Umlcc
