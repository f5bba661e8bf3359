import Verif.Lemma.X64Inst
/-!
C31, C42-C49, C51: the machine code emitted for allocated intermediate code.

A machine state, the printed form of instructions and their effect are described in `Verif.Spec.X64Machine`; the
generator is modelled in `Verif.Model.X64`.
-/
namespace Umlcc
namespace X86
open X64 ISem

/-! ### C51: register names -/

/-- Full statement: every register at every width is printed with the name the assembler knows for it. -/
def RegNames : Prop := ∀ r s, s ≠ .none → ∃ n, regName r s = some n ∧ regOf n = some (s, r)

/-- The 16-bit name of `r13` is printed `%r13q`, which is not a register. -/
theorem regNames_violated : ¬ RegNames := by
  intro h
  obtain ⟨n, h1, h2⟩ := h .r13 .word (by decide)
  have : regName .r13 .word = some "%r13q" := by decide
  rw [this] at h1
  cases h1
  exact absurd h2 (by decide)

/-- Missing: `r13` at 16 bits. -/
theorem regNames_partial (r : Reg) (s : Sfx) (hs : s ≠ .none) (h : ¬ (r = .r13 ∧ s = .word)) :
    ∃ n, regName r s = some n ∧ regOf n = some (s, r) :=
  regName_ok ⟨hs, fun e e' => h ⟨e', e⟩⟩

example : regName .r13 .long = some "%r13d" ∧ regOf "%r13d" = some (.long, .r13) := by decide

/-! ### C43: conversions between widths -/

/-- Full statement: moving a register of width `ss` to one of width `ds` converts the value according to the signedness
of the source and changes no other register a value may be allocated to. -/
def MoveConverts : Prop :=
  ∀ (env : Env) (m : Mach) (ss ds : Sfx) (sr dr : Reg) (u : Bool), ss ≠ .none → ds ≠ .none → sr ∈ callerSaved → dr ∈ callerSaved →
    ∃ m', run env m (appendMov ss sr ds dr u) = .next m' ∧ get m' dr ds = conv u (get m sr ss) ds.bits ∧
      (∀ r ∈ callerSaved, r ≠ dr → m'.regs r = m.regs r) ∧ m'.mem = m.mem

/-- An unsigned 32-bit register moved to a 64-bit one: `movq %ecx, %rdx`, which is not an instruction. -/
theorem moveConverts_violated : ¬ MoveConverts := by
  intro h
  obtain ⟨m', h1, _⟩ := h envEx mEx .long .quad .cx .dx true (by decide) (by decide) (by decide) (by decide)
  have h2 : isBad (run envEx mEx (appendMov .long .cx .quad .dx true)) = true := by decide +kernel
  rw [h1] at h2
  cases h2

/-- The same conversion within one register emits nothing: the upper half is not cleared. -/
theorem moveConverts_same_violated : ¬ MoveConverts := by
  intro h
  obtain ⟨m', h1, h2, _⟩ := h envEx mEx .long .quad .cx .cx true (by decide) (by decide) (by decide) (by decide)
  have h3 : run envEx mEx (appendMov .long .cx .quad .cx true) = .next mEx := by
    have : appendMov .long .cx .quad .cx true = [] := by decide
    rw [this]; rfl
  rw [h3] at h1
  cases h1
  revert h2
  decide

/-- Missing: unsigned 32-bit to 64-bit conversion. -/
theorem moveConverts_partial (env : Env) (m : Mach) (ss ds : Sfx) (sr dr : Reg) (u : Bool) (hs : ss ≠ .none) (hd : ds ≠ .none)
    (hsr : sr ∈ callerSaved) (hdr : dr ∈ callerSaved) (hb : ¬ (u = true ∧ ss = .long ∧ ds = .quad)) :
    ∃ m', run env m (appendMov ss sr ds dr u) = .next m' ∧ get m' dr ds = conv u (get m sr ss) ds.bits ∧
      (∀ r ∈ callerSaved, r ≠ dr → m'.regs r = m.regs r) ∧ m'.mem = m.mem := by
  have n13 : ∀ r, r ∈ callerSaved → r ≠ .r13 := by intro r; cases r <;> decide
  have nax : ∀ r, r ∈ callerSaved → r ≠ .ax := by intro r; cases r <;> decide
  obtain ⟨m', h1, h2, h3, h4, _⟩ := appendMov_run env m ss ds sr dr u ⟨hs, fun _ => n13 _ hsr⟩ ⟨hd, fun _ => n13 _ hdr⟩
    ⟨hd, fun _ => n13 _ hsr⟩ hb
  exact ⟨m', h1, h2, fun r hr hne => h3 r hne (fun _ => nax r hr), h4⟩

/-- -1 as an `int` becomes -1 as a `long`, through `rax` -/
example : resReg .dx (run envEx mEx (appendMov .long .cx .quad .dx false)) = some (-1) ∧
    ¬ (false = true ∧ Sfx.long = .long ∧ Sfx.quad = .quad) := by decide +kernel

/-! ### C42: arithmetic -/

/-- Full statement: for a binary instruction, whatever the widths, signedness and registers, the code leaves the value of
the operation in the destination and every register that is live afterwards unchanged. -/
def BinaryCorrect : Prop :=
  ∀ (env : Env) (m : Mach) (op : IOp) (qs : List Liveseq) (ev : Nat) (live : List Bool) (ds fs : Sfx) (d f : Int) (dr fr : Reg)
    (du fu : Bool) (snd : Ope) (a b v : BitVec ((fs.greater (sfxOf snd)).bits)),
    qs.map Liveseq.isAlive = live.map Out.ok → live.length = 8 →
    callerAt d = .ok dr → callerAt f = .ok fr → ds ≠ .none →
    opVal m (fs.greater (sfxOf snd)) (.reg fs f fu) = some a → opVal m (fs.greater (sfxOf snd)) snd = some b →
    binVal op du a b = some v →
    Yields env m (genInst qs ev ⟨op, some (.reg ds d du), some (.reg fs f fu), some snd⟩) dr ds (conv du v ds.bits) (LiveReg live)

/-- The multiplication of two 8-bit values: `imulb %dl, %al` is not an instruction. -/
theorem binary_mul8_violated : ¬ BinaryCorrect := by
  intro h
  have := (yields_reg (h envEx mEx .mul (seqs (only 8)) 0 (only 8) .byte .byte 0 0 .cx .cx false false (.reg .byte 1 false) (-1) 5 (-5)
    (seqs_alive _) rfl rfl rfl (by decide) rfl rfl rfl)).1
  obtain ⟨x, hx, _⟩ := this
  have h2 : resReg .cx (runGen envEx mEx (genInst (seqs (only 8)) 0 ⟨.mul, some (.reg .byte 0 false), some (.reg .byte 0 false), some (.reg .byte 1 false)⟩)) = none := by
    decide +kernel
  rw [h2] at hx; cases hx

/-- The first source is computed in place: if it is still needed, it is lost. -/
theorem binary_fst_violated : ¬ BinaryCorrect := by
  intro h
  have := (yields_reg (h envEx mEx .add (seqs (only 1)) 0 (only 1) .long .long 0 1 .cx .dx false false (.reg .long 2 false) 5 3 8
    (seqs_alive _) rfl rfl rfl (by decide) rfl rfl rfl)).2 .dx ⟨1, by decide, rfl⟩ (by decide)
  have h2 : resReg .dx (runGen envEx mEx (genInst (seqs (only 1)) 0 ⟨.add, some (.reg .long 0 false), some (.reg .long 1 false), some (.reg .long 2 false)⟩)) = some 8 := by
    decide +kernel
  rw [h2] at this
  exact absurd this (by decide)

/-- The product of a `long` and a widened `int`: `rax` holds the first factor when the second is widened through it. -/
theorem binary_mul_via_ax_violated : ¬ BinaryCorrect := by
  intro h
  have := (yields_reg (h envEx mEx .mul (seqs (only 8)) 0 (only 8) .quad .quad 1 1 .dx .dx false false (.reg .long 2 false) 5 3 15
    (seqs_alive _) rfl rfl rfl (by decide) rfl rfl rfl)).1
  obtain ⟨x, hx, hx'⟩ := this
  have h2 : resReg .dx (runGen envEx mEx (genInst (seqs (only 8)) 0 ⟨.mul, some (.reg .quad 1 false), some (.reg .quad 1 false), some (.reg .long 2 false)⟩)) = some 9 := by
    decide +kernel
  rw [h2] at hx; cases hx
  exact absurd hx' (by decide)

/-- Division by a literal uses `r10` even if a live value is in it. -/
theorem binary_div_r10_violated : ¬ BinaryCorrect := by
  intro h
  have := (yields_reg (h envEx mEx .div (seqs (only 6)) 0 (only 6) .long .long 1 1 .dx .dx false false (.int .long ⟨.int, 2⟩) 5 2 2
    (seqs_alive _) rfl rfl rfl (by decide) rfl rfl (by decide))).2 .r10 ⟨6, by decide, rfl⟩ (by decide)
  have h2 : resReg .r10 (runGen envEx mEx (genInst (seqs (only 6)) 0 ⟨.div, some (.reg .long 1 false), some (.reg .long 1 false), some (.int .long ⟨.int, 2⟩)⟩)) = some 2 := by
    decide +kernel
  rw [h2] at this
  exact absurd this (by decide)

/-- Addition, subtraction and the bitwise operations. Missing: unsigned 32-bit operands widened to 64 bits
(`moveConverts_violated`), a first source that is live afterwards or also the second source; the second source keeps its
own bits only. -/
theorem binary_alu_partial (env : Env) (m : Mach) (op : IOp) (hop : op = .add ∨ op = .sub ∨ op = .and ∨ op = .or ∨ op = .xor)
    (qs : List Liveseq) (ev : Nat) (live : List Bool) (ds fs w : Sfx) (d f : Int) (dr fr : Reg) (du fu : Bool) (snd : Ope)
    (a b v : BitVec w.bits) (hw : w = fs.greater (sfxOf snd))
    (hdr : callerAt d = .ok dr) (hfr : callerAt f = .ok fr) (hds : ds ≠ .none)
    (ha : opVal m w (.reg fs f fu) = some a) (hb : opVal m w snd = some b) (hv : binVal op du a b = some v)
    (hlit : LitFits w snd) (h1 : ¬ Widens true (.reg fs f fu) w) (h2 : ¬ Widens true snd w) (h3 : ¬ (du = true ∧ w = .long ∧ ds = .quad))
    (h4 : opReg snd ≠ some fr) (h5 : ¬ LiveReg live fr ∨ fr = dr) :
    Yields env m (genInst qs ev ⟨op, some (.reg ds d du), some (.reg fs f fu), some snd⟩) dr ds (conv du v ds.bits)
      (fun r => LiveReg live r ∧ opReg snd ≠ some r) ∧
    ∀ cs ev' m', genInst qs ev ⟨op, some (.reg ds d du), some (.reg fs f fu), some snd⟩ = .ok (cs, ev') → run env m cs = .next m' →
      ∀ r, opReg snd = some r → r ≠ dr → get m' r (sfxOf snd) = get m r (sfxOf snd) := by
  have hfs : fs ≠ .none := by rintro rfl; simp [opVal, hfr] at ha
  have ha' : a = conv fu (get m fr fs) w.bits := by rw [opVal_reg hfr hfs] at ha; exact (Option.some.inj ha).symm
  have hs := snd_of_opVal hb hlit
  have hfb : ¬ BadExt fs w fu := by rintro ⟨rfl, rfl, rfl⟩; exact h1 ⟨rfl, f, rfl⟩
  have main : ∀ xop al, aluOf xop = some al → al ≠ .cmp → aluVal al a b = v →
      genInst qs ev ⟨op, some (.reg ds d du), some (.reg fs f fu), some snd⟩ =
        keep ev (genBin xop ⟨op, some (.reg ds d du), some (.reg fs f fu), some snd⟩) →
      Yields env m (genInst qs ev ⟨op, some (.reg ds d du), some (.reg fs f fu), some snd⟩) dr ds (conv du v ds.bits)
        (fun r => LiveReg live r ∧ opReg snd ≠ some r) ∧
      ∀ cs ev' m', genInst qs ev ⟨op, some (.reg ds d du), some (.reg fs f fu), some snd⟩ = .ok (cs, ev') → run env m cs = .next m' →
        ∀ r, opReg snd = some r → r ≠ dr → get m' r (sfxOf snd) = get m r (sfxOf snd) := by
    intro xop al ho hc hval hgen
    obtain ⟨cs, m', g1, g2, g3, g4, g5, g6⟩ := genBin_run env m ho hc (iop := op) hdr hfr hds hfs hw hs hfb (sndBad_of h2) h3
      (by rw [← opReg_eq]; exact h4)
    have hg : genInst qs ev ⟨op, some (.reg ds d du), some (.reg fs f fu), some snd⟩ = .ok (cs, ev) := by
      rw [hgen, g1]; rfl
    refine ⟨⟨cs, ev, m', hg, g2, ?_, ?_, g6⟩, ?_⟩
    · rw [g3, ← ha', hval]
    · rintro r ⟨hr, hr'⟩ hne
      apply g4 r hne _ _ (by rw [← opReg_eq]; exact hr')
      · rintro rfl; rcases h5 with h5 | h5
        · exact h5 hr
        · exact hne h5
      · have := live_caller hr; rintro rfl; revert this; decide
    · intro cs' ev' m'' hg' hr'
      rw [hg] at hg'; cases hg'
      rw [g2] at hr'; cases hr'
      intro r hr; exact g5 r (by rw [← opReg_eq]; exact hr)
  rcases hop with rfl | rfl | rfl | rfl | rfl
  · exact main .add .add rfl (by decide) (by simpa [binVal, bin, aluVal] using hv) rfl
  · exact main .sub .sub rfl (by decide) (by simpa [binVal, bin, aluVal] using hv) rfl
  · exact main .and .and rfl (by decide) (by simpa [binVal, bin, aluVal] using hv) rfl
  · exact main .or .or rfl (by decide) (by simpa [binVal, bin, aluVal] using hv) rfl
  · exact main .xor .xor rfl (by decide) (by simpa [binVal, bin, aluVal] using hv) rfl

/-- `-1 (int) + 5 (long)`, with `rdi` live -/
example : binVal .add false (-1 : BitVec 64) 5 = some 4 ∧ opVal mEx .quad (.reg .long 0 false) = some (-1) ∧
    opVal mEx .quad (.reg .quad 1 false) = some 5 ∧ ¬ LiveReg (only 3) .cx ∧
    resReg .cx (runGen envEx mEx (genInst (seqs (only 3)) 0 ⟨.add, some (.reg .quad 0 false), some (.reg .long 0 false), some (.reg .quad 1 false)⟩)) = some 4 := by
  refine ⟨by decide, by decide, by decide, ?_, by decide +kernel⟩
  rintro ⟨k, h1, h2⟩
  have hk : k = 0 := by
    have := callerAt_inj h2 (show callerAt 0 = .ok .cx from rfl)
    omega
  subst hk
  exact absurd h1 (by decide)

/-- Multiplication. Missing: 8-bit factors (`binary_mul8_violated`), widened 32-bit factors that are unsigned, a widened
second factor (`binary_mul_via_ax_violated`). -/
theorem binary_mul_partial (env : Env) (m : Mach) (qs : List Liveseq) (ev : Nat) (live : List Bool) (ds fs w : Sfx) (d f : Int)
    (dr fr : Reg) (du fu : Bool) (snd : Ope) (a b v : BitVec w.bits) (hw : w = fs.greater (sfxOf snd))
    (hdr : callerAt d = .ok dr) (hfr : callerAt f = .ok fr) (hds : ds ≠ .none)
    (ha : opVal m w (.reg fs f fu) = some a) (hb : opVal m w snd = some b) (hv : binVal .mul du a b = some v)
    (hlit : LitFits w snd) (h1 : ¬ Widens true (.reg fs f fu) w) (h2 : ∀ u, ¬ Widens u snd w) (h3 : ¬ (du = true ∧ w = .long ∧ ds = .quad))
    (h4 : w ≠ .byte) :
    Yields env m (genInst qs ev ⟨.mul, some (.reg ds d du), some (.reg fs f fu), some snd⟩) dr ds (conv du v ds.bits)
      (fun r => LiveReg live r ∧ opReg snd ≠ some r) ∧
    ∀ cs ev' m', genInst qs ev ⟨.mul, some (.reg ds d du), some (.reg fs f fu), some snd⟩ = .ok (cs, ev') → run env m cs = .next m' →
      ∀ r, opReg snd = some r → r ≠ dr → get m' r (sfxOf snd) = get m r (sfxOf snd) := by
  have hfs : fs ≠ .none := by rintro rfl; simp [opVal, hfr] at ha
  have ha' : a = conv fu (get m fr fs) w.bits := by rw [opVal_reg hfr hfs] at ha; exact (Option.some.inj ha).symm
  have hfb : ¬ BadExt fs w fu := by rintro ⟨rfl, rfl, rfl⟩; exact h1 ⟨rfl, f, rfl⟩
  obtain ⟨cs, m', g1, g2, g3, g4, g5, g6⟩ := genMul_run env m (iop := .mul) hdr hfr hds hfs hw (snd_of_opVal hb hlit) hfb
    (sndBad_of (h2 true)) (sndVia_of (h2 false)) h3 h4
  have hg : genInst qs ev ⟨.mul, some (.reg ds d du), some (.reg fs f fu), some snd⟩ = .ok (cs, ev) := by
    show keep ev _ = _
    rw [g1]; rfl
  refine ⟨⟨cs, ev, m', hg, g2, ?_, ?_, g6⟩, ?_⟩
  · rw [g3, ← ha']
    simp only [binVal, bin, Option.some.injEq] at hv
    rw [hv]
  · rintro r ⟨hr, hr'⟩ hne
    apply g4 r hne _ (by rw [← opReg_eq]; exact hr')
    have := live_caller hr; rintro rfl; revert this; decide
  · intro cs' ev' m'' hg' hr'
    rw [hg] at hg'; cases hg'
    rw [g2] at hr'; cases hr'
    intro r hr; exact g5 r (by rw [← opReg_eq]; exact hr)

/-- `-1 * 5` as `int` into another register -/
example : binVal .mul false (-1 : BitVec 32) 5 = some (-5) ∧
    resReg .di (runGen envEx mEx (genInst (seqs (only 0)) 0 ⟨.mul, some (.reg .long 3 false), some (.reg .long 0 false), some (.reg .long 1 false)⟩)) =
      some 0xfffffffb := by decide +kernel

/-- Division and remainder. Missing: 8-bit operands, widened 32-bit operands that are unsigned, a widened divisor,
`r10` or the first source live when they are used for the divisor, `rdx` live when it is one of the sources. -/
theorem binary_div_partial (env : Env) (m : Mach) (op : IOp) (hop : op = .div ∨ op = .mod) (qs : List Liveseq) (ev : Nat) (live : List Bool)
    (ds fs w : Sfx) (d f : Int) (dr fr : Reg) (du fu : Bool) (snd : Ope) (a b v : BitVec w.bits)
    (hl : qs.map Liveseq.isAlive = live.map Out.ok) (h8 : live.length = 8) (hw : w = fs.greater (sfxOf snd))
    (hdr : callerAt d = .ok dr) (hfr : callerAt f = .ok fr) (hds : ds ≠ .none)
    (ha : opVal m w (.reg fs f fu) = some a) (hb : opVal m w snd = some b) (hv : binVal op du a b = some v)
    (hlit : LitLoads w snd) (h1 : ¬ Widens true (.reg fs f fu) w) (h2 : ∀ u, ¬ Widens u snd w) (h3 : ¬ (du = true ∧ w = .long ∧ ds = .quad))
    (h4 : w ≠ .byte) (h5 : opReg snd ≠ some fr) (h6 : LiveReg live .dx → fr ≠ .dx)
    (h7 : ∀ s l, snd = .int s l → ¬ LiveReg live .r10 ∨ dr = .r10) (h9 : opReg snd = some .dx → ¬ LiveReg live fr ∨ dr = fr) :
    Yields env m (genInst qs ev ⟨op, some (.reg ds d du), some (.reg fs f fu), some snd⟩) dr ds (conv du v ds.bits)
      (fun r => LiveReg live r ∧ opReg snd ≠ some r) := by
  have hfs : fs ≠ .none := by rintro rfl; simp [opVal, hfr] at ha
  have ha' : a = conv fu (get m fr fs) w.bits := by rw [opVal_reg hfr hfs] at ha; exact (Option.some.inj ha).symm
  have hfb : ¬ BadExt fs w fu := by rintro ⟨rfl, rfl, rfl⟩; exact h1 ⟨rfl, f, rfl⟩
  have hv' : divmod op du (conv fu (get m fr fs) w.bits) b = some v := by
    rw [← ha']; rcases hop with rfl | rfl <;> exact hv
  obtain ⟨cs, ev', m', g1, g2, g3, g4, g5, _, _, _, g6⟩ := genDiv_run env m (iop := op) (op := op) qs ev live hl h8 hdr hfr hds hfs hw
    (sndD_of_opVal hb hlit) hfb (sndBad_of (h2 true)) (sndVia_of (h2 false)) h3 h4 (by rw [← opReg_eq]; exact h5) hv'
  have hg : genInst qs ev ⟨op, some (.reg ds d du), some (.reg fs f fu), some snd⟩ = .ok (cs, ev') := by
    rcases hop with rfl | rfl
    · exact g1
    · exact g1
  refine ⟨cs, ev', m', hg, g2, g3, ?_, g6⟩
  rintro r ⟨hr, hr'⟩ hne
  by_cases hdx : r = .dx
  · subst hdx
    obtain ⟨k, hk, hk'⟩ := hr
    have : k = 1 := by have := callerAt_inj hk' (show callerAt 1 = .ok .dx from rfl); omega
    subst this
    exact g5 hk (Ne.symm hne) (h6 ⟨1, hk, hk'⟩)
  · have hc := live_caller hr
    refine g4 r hne (by rintro rfl; revert hc; decide) (by rintro rfl; revert hc; decide) hdx ?_
    intro e
    cases snd with
    | int s l =>
      have e' : r = .r10 := e
      rcases h7 s l rfl with h | h
      · rw [e'] at hr; exact h hr
      · exact hne (e'.trans h.symm)
    | reg s id u =>
      simp only [divReg] at e
      by_cases hx : sndReg (.reg s id u) = some .dx
      · rw [if_pos hx] at e
        rcases h9 (by rw [opReg_eq]; exact hx) with h | h
        · rw [e] at hr; exact h hr
        · exact hne (e.trans h.symm)
      · rw [if_neg hx] at e
        have hb' : sndReg (.reg s id u) ≠ some r := by rw [← opReg_eq]; exact hr'
        cases hq : sndReg (.reg s id u) with
        | some q => rw [hq] at e hb'; simp at e; exact hb' (by rw [e])
        | none =>
          simp only [opVal] at hb
          simp only [sndReg] at hq
          split at hb
          · rename_i r' hr''; rw [hr''] at hq; cases hq
          · cases hb
    | _ => cases hb

/-- `-1 / 5` is 0 and `-1 % 5` is -1, `rdx` live and not involved -/
example : binVal .mod false (-1 : BitVec 32) 3 = some (-1) ∧
    resReg .di (runGen envEx mEx (genInst (seqs (only 1)) 0 ⟨.mod, some (.reg .long 3 false), some (.reg .long 0 false), some (.reg .long 2 false)⟩)) =
      some 0xffffffff ∧
    resReg .dx (runGen envEx mEx (genInst (seqs (only 1)) 0 ⟨.mod, some (.reg .long 3 false), some (.reg .long 0 false), some (.reg .long 2 false)⟩)) =
      some 5 := by decide +kernel

/-- Negation and complement. Missing: unsigned 32-bit to 64 bits, a source that is live afterwards. -/
theorem unary_partial (env : Env) (m : Mach) (op : IOp) (hop : op = .neg ∨ op = .not) (qs : List Liveseq) (ev : Nat) (live : List Bool)
    (ds fs : Sfx) (d f : Int) (dr fr : Reg) (du fu : Bool) (v : BitVec fs.bits)
    (hdr : callerAt d = .ok dr) (hfr : callerAt f = .ok fr) (hds : ds ≠ .none) (hfs : fs ≠ .none)
    (hv : un op (get m fr fs) = some v) (h1 : ¬ (fu = true ∧ fs = .long ∧ ds = .quad)) (h5 : ¬ LiveReg live fr ∨ fr = dr) :
    Yields env m (genInst qs ev ⟨op, some (.reg ds d du), some (.reg fs f fu), none⟩) dr ds (conv fu v ds.bits) (LiveReg live) := by
  have main : ∀ xop, (xop = .neg ∨ xop = .not) → unVal xop (get m fr fs) = v →
      genInst qs ev ⟨op, some (.reg ds d du), some (.reg fs f fu), none⟩ =
        keep ev (genUnary xop ⟨op, some (.reg ds d du), some (.reg fs f fu), none⟩) →
      Yields env m (genInst qs ev ⟨op, some (.reg ds d du), some (.reg fs f fu), none⟩) dr ds (conv fu v ds.bits) (LiveReg live) := by
    intro xop ho hval hgen
    obtain ⟨cs, m', g1, g2, g3, g4, g6⟩ := genUnary_run env m ho (iop := op) (du := du) hdr hfr hds hfs h1
    refine ⟨cs, ev, m', by rw [hgen, g1]; rfl, g2, by rw [g3, hval], ?_, g6⟩
    intro r hr hne
    apply g4 r hne
    · rintro rfl; rcases h5 with h5 | h5
      · exact h5 hr
      · exact hne h5
    · have := live_caller hr; rintro rfl; revert this; decide
  rcases hop with rfl | rfl
  · exact main .neg (.inl rfl) (by simpa [un, unVal] using hv) rfl
  · exact main .not (.inr rfl) (by simpa [un, unVal] using hv) rfl

example : un .neg (5 : BitVec 8) = some (-5) ∧
    resReg .cx (runGen envEx mEx (genInst (seqs (only 2)) 0 ⟨.neg, some (.reg .long 0 false), some (.reg .byte 1 false), none⟩)) =
      some 0xfffffffb := by decide +kernel

/-! ### C31 (machine side) and C42 for shifts -/

/-- Full statement for shifts by a literal count smaller than the width. -/
def ShiftCorrect : Prop :=
  ∀ (env : Env) (m : Mach) (op : IOp) (qs : List Liveseq) (ev : Nat) (live : List Bool) (ds fs : Sfx) (d f : Int) (dr fr : Reg)
    (du fu : Bool) (s : Sfx) (l : ILit) (v : BitVec (fs.greater s).bits),
    callerAt d = .ok dr → callerAt f = .ok fr → ds ≠ .none → fs ≠ .none → 0 ≤ l.value → l.value.toNat < (fs.greater s).bits →
    ¬ (fu = true ∧ fs = .long ∧ fs.greater s = .quad) → ¬ (du = true ∧ fs.greater s = .long ∧ ds = .quad) →
    (¬ LiveReg live fr ∨ fr = dr) →
    shift op fu (conv fu (get m fr fs) (fs.greater s).bits) l.value.toNat = some v →
    Yields env m (genInst qs ev ⟨op, some (.reg ds d du), some (.reg fs f fu), some (.int s l)⟩) dr ds (conv du v ds.bits) (LiveReg live)

/-- Right shifts are always arithmetic: `0xffffffffu >> 1` stays `0xffffffff`. -/
theorem shift_violated : ¬ ShiftCorrect := by
  intro h
  have := (yields_reg (h envEx mEx .sar (seqs (only 8)) 0 (only 8) .long .long 0 0 .cx .cx true true .long ⟨.int, 1⟩ 0x7fffffff
    rfl rfl (by decide) (by decide) (by decide) (by decide) (by decide) (by decide) (.inr rfl) (by decide))).1
  obtain ⟨x, hx, hx'⟩ := this
  have h2 : resReg .cx (runGen envEx mEx (genInst (seqs (only 8)) 0 ⟨.sar, some (.reg .long 0 true), some (.reg .long 0 true), some (.int .long ⟨.int, 1⟩)⟩)) =
      some 0xffffffff := by decide +kernel
  rw [h2] at hx; cases hx
  exact absurd hx' (by decide)

/-- Missing: right shifts of unsigned values with the top bit set; counts that are not literals (the generator stops). -/
theorem shift_partial (env : Env) (m : Mach) (op : IOp) (hop : op = .sal ∨ op = .sar) (qs : List Liveseq) (ev : Nat) (live : List Bool)
    (ds fs w : Sfx) (d f : Int) (dr fr : Reg) (du fu : Bool) (s : Sfx) (l : ILit) (v : BitVec w.bits) (hw : w = fs.greater s)
    (hdr : callerAt d = .ok dr) (hfr : callerAt f = .ok fr) (hds : ds ≠ .none) (hfs : fs ≠ .none)
    (hn : 0 ≤ l.value) (hn' : l.value.toNat < w.bits)
    (h1 : ¬ (fu = true ∧ fs = .long ∧ w = .quad)) (h3 : ¬ (du = true ∧ w = .long ∧ ds = .quad))
    (h5 : ¬ LiveReg live fr ∨ fr = dr)
    (hv : shift op fu (conv fu (get m fr fs) w.bits) l.value.toNat = some v)
    (h6 : op = .sar → fu = true → (conv fu (get m fr fs) w.bits).msb = false) :
    Yields env m (genInst qs ev ⟨op, some (.reg ds d du), some (.reg fs f fu), some (.int s l)⟩) dr ds (conv du v ds.bits) (LiveReg live) := by
  have main : ∀ xop, (xop = .sal ∨ xop = .sar) → shVal xop (conv fu (get m fr fs) w.bits) l.value.toNat = v →
      genInst qs ev ⟨op, some (.reg ds d du), some (.reg fs f fu), some (.int s l)⟩ =
        keep ev (genShift xop ⟨op, some (.reg ds d du), some (.reg fs f fu), some (.int s l)⟩) →
      Yields env m (genInst qs ev ⟨op, some (.reg ds d du), some (.reg fs f fu), some (.int s l)⟩) dr ds (conv du v ds.bits) (LiveReg live) := by
    intro xop ho hval hgen
    obtain ⟨cs, m', g1, g2, g3, g4, g6⟩ := genShift_run env m ho (iop := op) hdr hfr hds hfs hw h1 h3 hn hn'
    refine ⟨cs, ev, m', by rw [hgen, g1]; rfl, g2, by rw [g3, hval], ?_, g6⟩
    intro r hr hne
    apply g4 r hne
    · rintro rfl; rcases h5 with h5 | h5
      · exact h5 hr
      · exact hne h5
    · have := live_caller hr; rintro rfl; revert this; decide
  rcases hop with rfl | rfl
  · refine main .sal (.inl rfl) ?_ rfl
    simp only [shift, Option.some.injEq] at hv
    rw [← hv]; exact shl_eq _ _
  · refine main .sar (.inr rfl) ?_ rfl
    simp only [shift, Option.some.injEq] at hv
    rw [← hv]
    by_cases hu : fu = true
    · rw [if_pos hu]; exact shr_eq _ _ (h6 rfl hu)
    · rw [if_neg hu]; exact sar_eq _ _

example : shift .sar false (-8 : BitVec 32) 1 = some (-4) ∧ shift .sal true (5 : BitVec 32) 3 = some 40 ∧
    resReg .dx (runGen envEx mEx (genInst (seqs (only 2)) 0 ⟨.sal, some (.reg .long 1 true), some (.reg .long 1 true), some (.int .long ⟨.int, 3⟩)⟩)) =
      some 40 := by decide +kernel

/-! ### C44: comparisons -/

/-- Full statement: a comparison leaves 1 or 0 in its destination. -/
def CompareCorrect : Prop :=
  ∀ (env : Env) (m : Mach) (op : IOp) (qs : List Liveseq) (ev : Nat) (ds fs : Sfx) (d f : Int) (dr fr : Reg)
    (du fu : Bool) (snd : Ope) (a b : BitVec ((fs.greater (sfxOf snd)).bits)) (v : Bool),
    op ∈ [IOp.seteq, .setneq, .setlt, .setgt, .setleq, .setgeq] →
    callerAt d = .ok dr → callerAt f = .ok fr → ds ≠ .none →
    opVal m (fs.greater (sfxOf snd)) (.reg fs f fu) = some a → opVal m (fs.greater (sfxOf snd)) snd = some b →
    rel op fu a b = some v → LitFits (fs.greater (sfxOf snd)) snd →
    Yields env m (genInst qs ev ⟨op, some (.reg ds d du), some (.reg fs f fu), some snd⟩) dr ds (if v then 1 else 0) (fun _ => False)

/-- The byte set by the condition is in the destination, but the final extension reads the first source:
`5 == 3` yields 5. -/
theorem compare_violated : ¬ CompareCorrect := by
  intro h
  have := (yields_reg (h envEx mEx .seteq (seqs (only 8)) 0 .long .long 0 1 .cx .dx false false (.reg .long 2 false) 5 3 false
    (by decide) rfl rfl (by decide) rfl rfl rfl trivial)).1
  obtain ⟨x, hx, hx'⟩ := this
  have h2 : resReg .cx (runGen envEx mEx (genInst (seqs (only 8)) 0 ⟨.seteq, some (.reg .long 0 false), some (.reg .long 1 false), some (.reg .long 2 false)⟩)) =
      some 5 := by decide +kernel
  rw [h2] at hx; cases hx
  exact absurd hx' (by decide)

/-- Missing: a destination other than the register of the first source (`compare_violated`); unsigned 32-bit operands
widened to 64 bits. -/
theorem compare_partial (env : Env) (m : Mach) (op : IOp) (hop : op ∈ [IOp.seteq, .setneq, .setlt, .setgt, .setleq, .setgeq])
    (qs : List Liveseq) (ev : Nat) (live : List Bool) (ds fs w : Sfx) (d f : Int) (dr fr : Reg) (du fu : Bool) (snd : Ope)
    (a b : BitVec w.bits) (v : Bool) (hw : w = fs.greater (sfxOf snd))
    (hdr : callerAt d = .ok dr) (hfr : callerAt f = .ok fr) (hds : ds ≠ .none)
    (ha : opVal m w (.reg fs f fu) = some a) (hb : opVal m w snd = some b) (hv : rel op fu a b = some v)
    (hlit : LitFits w snd) (h1 : ¬ Widens true (.reg fs f fu) w) (h2 : ¬ Widens true snd w) (h4 : opReg snd ≠ some fr) (h5 : dr = fr) :
    Yields env m (genInst qs ev ⟨op, some (.reg ds d du), some (.reg fs f fu), some snd⟩) dr ds (if v then 1 else 0)
      (fun r => LiveReg live r ∧ opReg snd ≠ some r) := by
  have hfs : fs ≠ .none := by rintro rfl; simp [opVal, hfr] at ha
  have ha' : a = conv fu (get m fr fs) w.bits := by rw [opVal_reg hfr hfs] at ha; exact (Option.some.inj ha).symm
  have hfb : ¬ BadExt fs w fu := by rintro ⟨rfl, rfl, rfl⟩; exact h1 ⟨rfl, f, rfl⟩
  obtain ⟨c, hc⟩ := condOf_rel hv
  have hwn : w ≠ .none := by rw [hw]; exact greater_ne hfs
  have hh := holds_cmp (bits_pos hwn) a b op fu c hc
  rw [hv] at hh
  obtain ⟨cs, m', g1, g2, g3, g4, g5, g6⟩ := genSet_run env m c (iop := op) (du := du) hdr hfr hds hfs hw (snd_of_opVal hb hlit) hfb
    (sndBad_of h2) (by rw [← opReg_eq]; exact h4) h5
  have hg : genInst qs ev ⟨op, some (.reg ds d du), some (.reg fs f fu), some snd⟩ = .ok (cs, ev) := by
    have hk : keep ev (genSet c ⟨op, some (.reg ds d du), some (.reg fs f fu), some snd⟩) = .ok (cs, ev) := by rw [g1]; rfl
    simp only [List.mem_cons, List.not_mem_nil, or_false] at hop
    rcases hop with rfl | rfl | rfl | rfl | rfl | rfl <;>
      first
      | (simp only [condOf, Option.some.injEq] at hc; subst hc; exact hk)
      | (simp only [genInst, fstUnsigned, deref, regField, Out.ok_bind, Out.pure_eq, hc]; exact hk)
  refine ⟨cs, ev, m', hg, g2, ?_, ?_, g6⟩
  · rw [g3, ← ha', ← Option.some.inj hh]
  · rintro r ⟨hr, hr'⟩ hne
    apply g4 r hne (h5 ▸ hne) _ (by rw [← opReg_eq]; exact hr')
    have := live_caller hr; rintro rfl; revert this; decide

/-- `-1 < 5` signed, not unsigned -/
example : rel .setlt false (-1 : BitVec 32) 5 = some true ∧ rel .setlt true (-1 : BitVec 32) 5 = some false ∧
    resReg .cx (runGen envEx mEx (genInst (seqs (only 2)) 0 ⟨.setlt, some (.reg .long 0 false), some (.reg .long 0 false), some (.reg .long 1 false)⟩)) = some 1 ∧
    resReg .cx (runGen envEx mEx (genInst (seqs (only 2)) 0 ⟨.setlt, some (.reg .long 0 false), some (.reg .long 0 true), some (.reg .long 1 true)⟩)) = some 0 := by
  decide +kernel

/-- whether code ended with a jump or ran through -/
def jumps : Res → Option Bool
  | .jump _ _ => some true
  | .next _ => some false
  | _ => none

/-- Conditional jumps are taken exactly when the relation holds. Missing: unsigned 32-bit operands widened to 64 bits,
both sources in one register. -/
theorem jump_partial (env : Env) (m : Mach) (op : IOp) (hop : op ∈ [IOp.jeq, .jneq, .jlt, .jgt, .jleq, .jgeq])
    (qs : List Liveseq) (ev : Nat) (fs w : Sfx) (f : Int) (fr : Reg) (fu : Bool) (snd : Ope) (lbl : Name)
    (a b : BitVec w.bits) (v : Bool) (hw : w = fs.greater (sfxOf snd)) (hfr : callerAt f = .ok fr)
    (ha : opVal m w (.reg fs f fu) = some a) (hb : opVal m w snd = some b) (hv : rel op fu a b = some v)
    (hlit : LitFits w snd) (h1 : ¬ Widens true (.reg fs f fu) w) (h2 : ¬ Widens true snd w) (h4 : opReg snd ≠ some fr) :
    ∃ cs m', genInst qs ev ⟨op, some (.label lbl), some (.reg fs f fu), some snd⟩ = .ok (cs, ev) ∧
      run env m cs = (if v then .jump lbl m' else .next m') ∧
      (∀ r ∈ callerSaved, r ≠ fr → opReg snd ≠ some r → m'.regs r = m.regs r) ∧
      get m' fr fs = get m fr fs ∧ (∀ r, opReg snd = some r → get m' r (sfxOf snd) = get m r (sfxOf snd)) ∧ m'.mem = m.mem := by
  have hfs : fs ≠ .none := by rintro rfl; simp [opVal, hfr] at ha
  have ha' : a = conv fu (get m fr fs) w.bits := by rw [opVal_reg hfr hfs] at ha; exact (Option.some.inj ha).symm
  have hfb : ¬ BadExt fs w fu := by rintro ⟨rfl, rfl, rfl⟩; exact h1 ⟨rfl, f, rfl⟩
  obtain ⟨c, hc⟩ := condOf_rel hv
  have hwn : w ≠ .none := by rw [hw]; exact greater_ne hfs
  have hh := holds_cmp (bits_pos hwn) a b op fu c hc
  rw [hv] at hh
  obtain ⟨cs, m', g1, g2, g3, g4, g5, g6⟩ := genJcc_run env m c (iop := op) (n := lbl) hfr hfs hw (snd_of_opVal hb hlit) hfb
    (sndBad_of h2) (by rw [← opReg_eq]; exact h4)
  have hg : genInst qs ev ⟨op, some (.label lbl), some (.reg fs f fu), some snd⟩ = .ok (cs, ev) := by
    have hk : keep ev (genJcc c ⟨op, some (.label lbl), some (.reg fs f fu), some snd⟩) = .ok (cs, ev) := by rw [g1]; rfl
    simp only [List.mem_cons, List.not_mem_nil, or_false] at hop
    rcases hop with rfl | rfl | rfl | rfl | rfl | rfl <;>
      first
      | (simp only [condOf, Option.some.injEq] at hc; subst hc; exact hk)
      | (simp only [genInst, fstUnsigned, deref, regField, Out.ok_bind, Out.pure_eq, hc]; exact hk)
  refine ⟨cs, m', hg, ?_, ?_, g5, ?_, g6⟩
  · rw [g2, ← ha', ← Option.some.inj hh]
  · intro r hr hne hr'
    exact g3 r hne (by rintro rfl; revert hr; decide) (by rw [← opReg_eq]; exact hr')
  · intro r hr; exact g4 r (by rw [← opReg_eq]; exact hr)

/-- `-1 < 5` signed jumps, unsigned it does not -/
example : jumps (runGen envEx mEx (genInst (seqs (only 2)) 0 ⟨.jlt, some (.label ⟨[46, 76], by decide⟩), some (.reg .long 0 false), some (.reg .long 1 false)⟩)) =
      some true ∧
    jumps (runGen envEx mEx (genInst (seqs (only 2)) 0 ⟨.jlt, some (.label ⟨[46, 76], by decide⟩), some (.reg .long 0 true), some (.reg .long 1 true)⟩)) =
      some false := by decide +kernel

end X86
end Umlcc
