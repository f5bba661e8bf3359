import Verif.Lemma.X64Func
/-!
C45-C49: calls, frames and local strings in machine code.
-/
namespace Umlcc
namespace X86
open X64 ISem

/-! ### C45: arguments -/

/-- Caller: with arguments `vs` passed (and any further code that leaves them alone, such as computing the function), the
code of the call runs up to the call instruction, calls the right function, and at its entry argument `k` is `vs[k]`
according to the calling convention, whatever the number of arguments. -/
theorem args_at_entry (env : Env) (habi : Abi env) {m m1 m2 : Mach} {vs : List (BitVec 64)} (hp : Passed env m vs m1)
    (hk : Keeps (8 * vs.length) m1 m2) {qs : List Liveseq} {live : List Bool} {ev ev' : Nat} {dst : Option Ope} {fst : Ope} {s : Sfx}
    {t : ILType} {cs : List XInst} {v : BitVec 64}
    (hl : qs.map Liveseq.isAlive = live.map Out.ok) (h8 : live.length = 8)
    (hd : dst = none ∨ ∃ ds id du dr, dst = some (.reg ds id du) ∧ callerAt id = .ok dr ∧ ds ≠ .none)
    (h : genInst qs ev ⟨.call, dst, some fst, some (.int s ⟨t, vs.length⟩)⟩ = .ok (cs, ev'))
    (hv : targetVal env m2 fst = some v) (hn : vs.length < 2 ^ 32) :
    ∃ pre call post mc, cs = pre ++ [call] ++ post ∧ run env m2 pre = .next mc ∧ stepI env mc call = doCall env mc v ∧
      ∀ (k : Nat) (x : BitVec 64), vs[k]? = some x → argAt (push mc env.back) k = x := by
  obtain ⟨pre, tgt, post, mc, h1, h2, h3, h4, h5, h6, _⟩ := genCall_run env habi m2 hl h8 hd h hv
  obtain ⟨_, hst⟩ := passed_keeps env hp hk (by omega)
  exact ⟨pre, _, post, mc, h1, h2, h3, entry_args m2 mc env.back vs.length vs rfl hn hst h4 h5 h6⟩

/-- Callee: after the prologue, the saved registers and the loading of the arguments, the local variable of parameter `k`
holds argument `k` of the calling convention, whatever the number of parameters. -/
theorem params_loaded (env : Env) (e : Mach) (n : Int) (s : Sfx) (t : ILType) (hn : 0 ≤ n) (hn' : n < 2 ^ 31 - 16) (ev : Nat) (hev : ev ≤ 5)
    (ps : List Param) (hlen : ps.length < 2 ^ 32) (hps : ∀ p ∈ ps, p.2.1 ≠ .none ∧ p.2.1.nbytes ≤ p.1 ∧ p.1 ≤ n) (hap : ps.Pairwise apart) :
    ∃ entc ldc m', genEnter ⟨.enter, none, some (.int s ⟨t, n⟩), none⟩ = .ok entc ∧ genAll genLdarg (ldargs 0 ps) = .ok ldc ∧
      run env e (entc ++ savePushes ev ++ ldc) = .next m' ∧
      ∀ (k : Nat) (off : Int) (w : Sfx) (u : Bool), ps[k]? = some (off, w, u) →
        load m' (m'.regs .bp + BitVec.ofInt 64 (-off)) w = (argAt e k).setWidth w.bits := by
  obtain ⟨entc, m1, a1, a2, a3, a4, a5, a6, a7, -⟩ := enter_run env e (i := ⟨.enter, none, some (.int s ⟨t, n⟩), none⟩) rfl hn hn'
  obtain ⟨m2, b1, b2, b3, b4, b5⟩ := savePushes_run env m1 ev hev
  have hal := align16_facts hn
  have hB : m2.regs .bp = rel64 (e.regs .sp) (-8) := by rw [b4 _ (by decide), a3]
  have hreg : ∀ i r, 0 ≤ i → sysvArg i = some r → m2.regs r = argAt e i := by
    intro i r _ hr
    have h6 : i < 6 := by
      rcases Nat.lt_or_ge i 6 with h | h
      · exact h
      · rw [sysvArg_ge i h] at hr; cases hr
    obtain ⟨r', _, h1, h2, _⟩ := argRegs_sysv i h6
    rw [hr] at h1; cases h1
    rw [b4 r (by rintro rfl; revert h2; decide), a6 r (by rintro rfl; revert h2; decide) (by rintro rfl; revert h2; decide), argAt_lt _ _ hr]
  have hstk : ∀ i, 0 ≤ i → 6 ≤ i → i < 0 + ps.length →
      load m2 (rel64 (rel64 (e.regs .sp) (-8)) (16 + 8 * (i - 6))) .quad = argAt e i := by
    intro i _ h6 hi
    rw [argAt_ge _ _ h6, rel64_rel64]
    have e1 : (-8 + (16 + 8 * ((i : Int) - 6))) = 8 + 8 * ((i - 6 : Nat) : Int) := by omega
    rw [e1]
    have s1 := same_load (s := .quad) (a7 (8 + 8 * ((i - 6 : Nat) : Int)) 8 (by omega) (by omega) (by decide))
    have s2 := b5 (8 + 8 * ((i - 6 : Nat) : Int) + 8 + align16 n) 8 (by omega) (by omega) (by decide)
    rw [a4] at s2
    unfold Same at s2
    rw [rel64_rel64] at s2
    have e2 : (-8 - align16 n + (8 + 8 * ((i - 6 : Nat) : Int) + 8 + align16 n)) = 8 + 8 * ((i - 6 : Nat) : Int) := by omega
    rw [e2] at s2
    rw [← s1]
    exact same_load (s := .quad) s2
  obtain ⟨ldc, m3, c1, c2, c3, c4, c5⟩ := ldargs_run env _ (argAt e) n (by omega) ps 0 m2 hB (by omega) hreg hstk hps hap
  refine ⟨entc, ldc, m3, a1, c1, by rw [List.append_assoc, run_append_next a2, run_append_next b1, c2], ?_⟩
  intro k off w u hk
  have := c3 k _ hk
  rw [Nat.zero_add] at this
  rw [c4 _ (by decide), hB]
  exact this

/-- Both halves: the low bytes of what the caller stored as argument `k` are in the local variable of parameter `k`. -/
theorem args_reach_params (env : Env) (habi : Abi env) {m m1 m2 : Mach} {vs : List (BitVec 64)} (hp : Passed env m vs m1)
    (hk : Keeps (8 * vs.length) m1 m2) {qs : List Liveseq} {live : List Bool} {ev ev' : Nat} {dst : Option Ope} {fst : Ope} {s : Sfx}
    {t : ILType} {cs : List XInst} {v : BitVec 64}
    (hl : qs.map Liveseq.isAlive = live.map Out.ok) (h8 : live.length = 8)
    (hd : dst = none ∨ ∃ ds id du dr, dst = some (.reg ds id du) ∧ callerAt id = .ok dr ∧ ds ≠ .none)
    (h : genInst qs ev ⟨.call, dst, some fst, some (.int s ⟨t, vs.length⟩)⟩ = .ok (cs, ev'))
    (hv : targetVal env m2 fst = some v) (hn : vs.length < 2 ^ 32)
    (n : Int) (hn0 : 0 ≤ n) (hn' : n < 2 ^ 31 - 16) (evc : Nat) (hev : evc ≤ 5)
    (ps : List Param) (hlen : ps.length = vs.length) (hps : ∀ p ∈ ps, p.2.1 ≠ .none ∧ p.2.1.nbytes ≤ p.1 ∧ p.1 ≤ n) (hap : ps.Pairwise apart) :
    ∃ pre call post mc entc ldc m', cs = pre ++ [call] ++ post ∧ run env m2 pre = .next mc ∧ stepI env mc call = doCall env mc v ∧
      genEnter ⟨.enter, none, some (.int s ⟨t, n⟩), none⟩ = .ok entc ∧ genAll genLdarg (ldargs 0 ps) = .ok ldc ∧
      run env (push mc env.back) (entc ++ savePushes evc ++ ldc) = .next m' ∧
      ∀ (k : Nat) (x : BitVec 64) (off : Int) (w : Sfx) (u : Bool), vs[k]? = some x → ps[k]? = some (off, w, u) →
        load m' (m'.regs .bp + BitVec.ofInt 64 (-off)) w = x.setWidth w.bits := by
  obtain ⟨pre, call, post, mc, a1, a2, a3, a4⟩ := args_at_entry env habi hp hk hl h8 hd h hv hn
  obtain ⟨entc, ldc, m', b1, b2, b3, b4⟩ := params_loaded env (push mc env.back) n s t hn0 hn' evc hev ps (by omega) hps hap
  exact ⟨pre, call, post, mc, entc, ldc, m', a1, a2, a3, b1, b2, b3, fun k x off w u hx hp => by rw [b4 k off w u hp, a4 k x hx]⟩

/-- called functions of the examples return 7 and obey the convention -/
theorem envEx_abi : Abi envEx := by
  intro t x y h
  cases h
  refine ⟨?_, rfl⟩
  intro r hr
  have : r ≠ .sp ∧ r ≠ .ax := by revert hr; revert r; decide
  simp [this.1, this.2]

/-- the value of a memory cell after code ran through -/
def resMem (b : Reg) (d : Int) (s : Sfx) : Res → Option (BitVec s.bits)
  | .next m => some (load m (m.regs b + BitVec.ofInt 64 d) s)
  | _ => none

/-- Eight arguments 1 ... 8 pushed as literals, the call with eight arguments up to the call instruction. The callee's seventh and eighth
parameters are at `-40(%rbp)` and `-44(%rbp)`. -/
def callEight : List XInst :=
  ((List.range 8).reverse.map fun k : Nat => is .push (.int .quad ⟨.int, (k : Int) + 1⟩)) ++
    (argRegs.map fun r => id1 .pop (.reg .quad r)) ++ [i2 .mov (.int .quad ⟨.int, 0⟩) (.reg .quad .ax)]

def eightParams : List Param := [(8, .quad, false), (12, .long, false), (16, .long, true), (24, .quad, false), (26, .word, false),
  (27, .byte, false), (40, .quad, false), (44, .long, false)]

example : genInst (seqs (only 8)) 0 ⟨.call, none, some (.label ⟨[102], by decide⟩), some (.int .long ⟨.int, 8⟩)⟩ =
      .ok ((argRegs.map fun r => id1 .pop (.reg .quad r)) ++ [i2 .mov (.int .quad ⟨.int, 0⟩) (.reg .quad .ax)] ++
        [is .call (.jlabel ⟨[102], by decide⟩)] ++ [], 0) ∧
    (∀ p ∈ eightParams, p.2.1 ≠ .none ∧ p.2.1.nbytes ≤ p.1 ∧ p.1 ≤ 44) ∧ resMem .sp 0 .quad (run envEx mEx callEight) = some 7 := by
  decide +kernel

/-! ### C46: calls preserve live registers and the frame -/

/-- Full statement: after `PREP n`, the passing of `n` arguments, the call and `CLEAN n`, the stack pointer is back, every register
that is live across the call has the value it had before the call instruction sequence, and so has the frame pointer. -/
def CallPreserves : Prop :=
  ∀ (env : Env) (m0 m1 m2 m3 : Mach) (vs : List (BitVec 64)) (qs : List Liveseq) (live : List Bool) (ev ev' : Nat) (ds : Sfx) (id : Int) (du : Bool)
    (dr : Reg) (fst : Ope) (s : Sfx) (t : ILType) (pc cs cc : List XInst) (v : BitVec 64), Abi env →
    genPrep ⟨.prep, none, some (.int s ⟨t, vs.length⟩), none⟩ = .ok pc → run env m0 pc = .next m1 →
    Passed env m1 vs m2 → Keeps (8 * vs.length) m2 m3 → vs.length < 2 ^ 27 →
    qs.map Liveseq.isAlive = live.map Out.ok → live.length = 8 → callerAt id = .ok dr → ds ≠ .none →
    genInst qs ev ⟨.call, some (.reg ds id du), some fst, some (.int s ⟨t, vs.length⟩)⟩ = .ok (cs, ev') →
    targetVal env m3 fst = some v → (∀ x, (env.fn v x).isSome) →
    genClean ⟨.clean, none, some (.int s ⟨t, vs.length⟩), none⟩ = .ok cc →
    ∃ m', run env m3 (cs ++ cc) = .next m' ∧ m'.regs .sp = m0.regs .sp ∧ m'.regs .bp = m3.regs .bp ∧
      ∀ r, LiveReg live r → r ≠ dr → m'.regs r = m3.regs r

/-- With three live registers besides the destination the second one is put into `rbp`, which is not restored before the
end of the function. -/
theorem callPreserves_violated : ¬ CallPreserves := by
  intro h
  obtain ⟨m', h1, _, h2, _⟩ := h envEx mEx mEx mEx mEx [] (seqs [true, true, true, false, false, false, false, false])
    [true, true, true, false, false, false, false, false] 0 2 .long 2 false .si (.label ⟨[102], by decide⟩) .long .int [] _ [] 0 envEx_abi rfl rfl .nil
    ⟨rfl, fun k hk => absurd hk (Nat.not_lt_zero k)⟩ (by decide) (seqs_alive _) rfl rfl (by decide)
    (show _ = Out.ok ([i2 .mov (.reg .quad .cx) (.reg .quad .bx), i2 .mov (.reg .quad .dx) (.reg .quad .bp),
        i2 .mov (.int .quad ⟨.int, 0⟩) (.reg .quad .ax), is .call (.jlabel ⟨[102], by decide⟩),
        i2 .mov (.reg .quad .bx) (.reg .quad .cx), i2 .mov (.reg .quad .bp) (.reg .quad .dx), i2 .mov (.reg .long .ax) (.reg .long .si)], 2)
      by decide +kernel) rfl (fun _ => rfl) rfl
  have h3 : resReg .bp (run envEx mEx ([i2 .mov (.reg .quad .cx) (.reg .quad .bx), i2 .mov (.reg .quad .dx) (.reg .quad .bp),
        i2 .mov (.int .quad ⟨.int, 0⟩) (.reg .quad .ax), is .call (.jlabel ⟨[102], by decide⟩),
        i2 .mov (.reg .quad .bx) (.reg .quad .cx), i2 .mov (.reg .quad .bp) (.reg .quad .dx), i2 .mov (.reg .long .ax) (.reg .long .si)] ++ [])) =
      some 5 := by decide +kernel
  rw [h1] at h3
  simp only [resReg, Option.some.injEq] at h3
  rw [h3] at h2
  exact absurd h2 (by decide)

/-- Missing: the frame pointer when more than one register is evacuated. The destination may be absent. -/
theorem callPreserves_partial (env : Env) (habi : Abi env) {m0 m1 m2 m3 : Mach} {vs : List (BitVec 64)} {qs : List Liveseq} {live : List Bool}
    {ev ev' : Nat} {dst : Option Ope} {fst : Ope} {s : Sfx} {t : ILType} {pc cs cc : List XInst} {v : BitVec 64}
    (hpc : genPrep ⟨.prep, none, some (.int s ⟨t, vs.length⟩), none⟩ = .ok pc) (hpr : run env m0 pc = .next m1)
    (hp : Passed env m1 vs m2) (hk : Keeps (8 * vs.length) m2 m3) (hn : vs.length < 2 ^ 27)
    (hl : qs.map Liveseq.isAlive = live.map Out.ok) (h8 : live.length = 8)
    (hd : dst = none ∨ ∃ ds id du dr, dst = some (.reg ds id du) ∧ callerAt id = .ok dr ∧ ds ≠ .none)
    (h : genInst qs ev ⟨.call, dst, some fst, some (.int s ⟨t, vs.length⟩)⟩ = .ok (cs, ev'))
    (hv : targetVal env m3 fst = some v) (hf : ∀ x, (env.fn v x).isSome)
    (hcc : genClean ⟨.clean, none, some (.int s ⟨t, vs.length⟩), none⟩ = .ok cc) :
    ∃ m', run env m3 (cs ++ cc) = .next m' ∧ m'.regs .sp = m0.regs .sp ∧ (ev' ≤ 1 → m'.regs .bp = m3.regs .bp) ∧
      (∀ r, LiveReg live r → (∀ d, dst = some d → opReg d ≠ some r) → m'.regs r = m3.regs r) ∧
      ∀ r ∈ sysvKept, r ∉ calleeSaved.take ev' → m'.regs r = m3.regs r := by
  obtain ⟨pre, tgt, post, mc, h1, h2, h3, h4, h5, h6, -, hcall⟩ := genCall_run env habi m3 hl h8 hd h hv
  obtain ⟨y, hy⟩ := Option.isSome_iff_exists.mp (hf (push mc env.back))
  obtain ⟨m4, c1, c2, c3, c4, c5, c6⟩ := hcall y hy
  obtain ⟨pc', mp, p1, p2, p3, p4, p5⟩ := prep_run env m0 (i := ⟨.prep, none, some (.int s ⟨t, vs.length⟩), none⟩) rfl
  rw [hpc] at p1; cases p1
  rw [hpr] at p2; cases p2
  obtain ⟨cc', m5, q1, q2, q3, q4, q5⟩ := clean_run env m4 (i := ⟨.clean, none, some (.int s ⟨t, vs.length⟩), none⟩) rfl (by omega)
  rw [hcc] at q1; cases q1
  obtain ⟨hsp, _⟩ := passed_keeps env hp hk (by omega)
  refine ⟨m5, by rw [run_append_next c1, q2], ?_, ?_, ?_, ?_⟩
  · rw [q3, c3, h4, hsp, p3, rel64_rel64, rel64_rel64, rel64_rel64]
    have := (call_balance vs.length).1
    have e : (-prepPad (vs.length : Int) + (-8 * (vs.length : Int) +
        (8 * ((argRegs.take (vs.length : Int).toNat).length : Int) + leftover (vs.length : Int)))) = 0 := by omega
    rw [e, rel64_zero]
  · intro hev
    rw [q4 _ (by decide)]
    apply c6 _ (by decide)
    intro hm
    have : calleeSaved.take ev' ⊆ calleeSaved.take 1 := by
      intro x hx
      exact (List.take_subset_take_left _ hev) hx
    exact absurd (this hm) (by decide)
  · rintro r ⟨k, hk1, hk2⟩ hne
    rw [q4 r (by have := caller_ok hk2; exact this.2.2.1)]
    apply c2 k r hk1 hk2
    intro e
    rcases hd with rfl | ⟨ds, id, du, dr, rfl, hdr, _⟩
    · cases e
    · exact hne _ rfl e
  · intro r hr hm
    rw [q4 r (by rintro rfl; revert hr; decide)]
    exact c6 r hr hm

/-- Two live registers, one of them the destination: `rcx` survives a call, and so does `rbp`. -/
example : resReg .cx (runGen envEx mEx (genInst (seqs [true, true, false, false, false, false, false, false]) 0
      ⟨.call, some (.reg .long 1 false), some (.label ⟨[102], by decide⟩), some (.int .long ⟨.int, 0⟩)⟩)) = some (-1) ∧
    resReg .dx (runGen envEx mEx (genInst (seqs [true, true, false, false, false, false, false, false]) 0
      ⟨.call, some (.reg .long 1 false), some (.label ⟨[102], by decide⟩), some (.int .long ⟨.int, 0⟩)⟩)) = some 7 ∧
    resReg .bp (runGen envEx mEx (genInst (seqs [true, true, false, false, false, false, false, false]) 0
      ⟨.call, some (.reg .long 1 false), some (.label ⟨[102], by decide⟩), some (.int .long ⟨.int, 0⟩)⟩)) = some 0x1000 := by decide +kernel

/-! ### C47: alignment -/

/-- Alignment of the stack pointer at a call whose sequence starts with an aligned stack pointer. -/
theorem aligned_call (env : Env) (habi : Abi env) {m0 m1 m2 m3 : Mach} {vs : List (BitVec 64)} {qs : List Liveseq} {live : List Bool}
    {ev ev' : Nat} {dst : Option Ope} {fst : Ope} {s : Sfx} {t : ILType} {pc cs : List XInst} {v : BitVec 64}
    (hpc : genPrep ⟨.prep, none, some (.int s ⟨t, vs.length⟩), none⟩ = .ok pc) (hpr : run env m0 pc = .next m1)
    (hp : Passed env m1 vs m2) (hk : Keeps (8 * vs.length) m2 m3) (hn : vs.length < 2 ^ 27)
    (hl : qs.map Liveseq.isAlive = live.map Out.ok) (h8 : live.length = 8)
    (hd : dst = none ∨ ∃ ds id du dr, dst = some (.reg ds id du) ∧ callerAt id = .ok dr ∧ ds ≠ .none)
    (h : genInst qs ev ⟨.call, dst, some fst, some (.int s ⟨t, vs.length⟩)⟩ = .ok (cs, ev'))
    (hv : targetVal env m3 fst = some v) :
    ∃ pre call post mc, cs = pre ++ [call] ++ post ∧ run env m3 pre = .next mc ∧ stepI env mc call = doCall env mc v ∧
      ((mc.regs .sp).toNat : Int) % 16 = ((m0.regs .sp).toNat : Int) % 16 := by
  obtain ⟨pre, tgt, post, mc, h1, h2, h3, h4, h5, h6, _⟩ := genCall_run env habi m3 hl h8 hd h hv
  obtain ⟨pc', mp, p1, p2, p3, p4, p5⟩ := prep_run env m0 (i := ⟨.prep, none, some (.int s ⟨t, vs.length⟩), none⟩) rfl
  rw [hpc] at p1; cases p1
  rw [hpr] at p2; cases p2
  obtain ⟨hsp, _⟩ := passed_keeps env hp hk (by omega)
  refine ⟨pre, _, post, mc, h1, h2, h3, ?_⟩
  rw [h4, hsp, p3, rel64_rel64, rel64_rel64, rel64_mod16]
  have := call_balance vs.length
  have e : (-prepPad (vs.length : Int) + (-8 * (vs.length : Int) +
      (8 * ((argRegs.take (vs.length : Int).toNat).length : Int)))) = -leftover (vs.length : Int) := by omega
  show (_ + (-prepPad (vs.length : Int) + (-8 * (vs.length : Int) +
      (8 * ((argRegs.take (vs.length : Int).toNat).length : Int))))) % 16 = _
  rw [e]; omega

/-- The stack pointer is aligned after the prologue of a function that was called with an aligned stack. -/
theorem aligned_body (env : Env) (e : Mach) (n : Int) (s : Sfx) (t : ILType) (hn : 0 ≤ n) (hn' : n < 2 ^ 31 - 16) (ev : Nat) (hev : ev ≤ 5)
    (hal : ((e.regs .sp).toNat : Int) % 16 = 8) :
    ∃ entc m', genEnter ⟨.enter, none, some (.int s ⟨t, n⟩), none⟩ = .ok entc ∧ run env e (entc ++ savePushes ev) = .next m' ∧
      ((m'.regs .sp).toNat : Int) % 16 = 0 := by
  obtain ⟨entc, m1, a1, a2, a3, a4, a5, a6, a7, -⟩ := enter_run env e (i := ⟨.enter, none, some (.int s ⟨t, n⟩), none⟩) rfl hn hn'
  obtain ⟨m2, b1, b2, b3, b4, b5⟩ := savePushes_run env m1 ev hev
  refine ⟨entc, m2, a1, by rw [run_append_next a2, b1], ?_⟩
  have := align16_facts hn
  rw [b2, a4, rel64_rel64, rel64_mod16]
  omega

/-- Full statement: also a call that computes an argument of another call, some arguments of which are already on the
stack, finds the stack aligned. `m0` is before `PREP n` of the outer call, `us` are the arguments already passed. -/
def AlignedNested : Prop :=
  ∀ (env : Env) (m0 m1 m2 m3 : Mach) (us : List (BitVec 64)) (n : Nat) (qs : List Liveseq) (live : List Bool) (ev ev' : Nat) (dst : Option Ope)
    (f : Name) (s : Sfx) (t : ILType) (pc cs : List XInst), Abi env → us.length < n → n < 2 ^ 27 → ((m0.regs .sp).toNat : Int) % 16 = 0 →
    genPrep ⟨.prep, none, some (.int s ⟨t, n⟩), none⟩ = .ok pc → run env m0 pc = .next m1 →
    Passed env m1 us m2 → Keeps (8 * us.length) m2 m3 →
    qs.map Liveseq.isAlive = live.map Out.ok → live.length = 8 →
    (dst = none ∨ ∃ ds id du dr, dst = some (.reg ds id du) ∧ callerAt id = .ok dr ∧ ds ≠ .none) →
    genInst qs ev ⟨.call, dst, some (.label f), some (.int s ⟨t, 0⟩)⟩ = .ok (cs, ev') →
    ∃ pre call post mc, cs = pre ++ [call] ++ post ∧ run env m3 pre = .next mc ∧ stepI env mc call = doCall env mc (env.sym f) ∧
      ((mc.regs .sp).toNat : Int) % 16 = 0

/-- one argument pushed -/
def mPushed : Mach := push mEx 1

/-- `f(g(), 1)`: the literal is on the stack when `g` is called. -/
theorem alignedNested_violated : ¬ AlignedNested := by
  intro h
  have hp : Passed envEx mEx [1] mPushed := by
    refine .cons (m2 := mEx) (o := .int .long ⟨.int, 1⟩) (s := none) (cs := [is .push (.int .quad ⟨.int, 1⟩)]) .nil ⟨rfl, fun _ _ => rfl⟩ rfl rfl ?_
    exact run_one (step_pushi envEx mEx ⟨.int, 1⟩ (by decide))
  obtain ⟨pre, call, post, mc, h1, h2, h3, h4⟩ := h envEx mEx mEx mPushed mPushed [1] 2 (seqs (only 8)) (only 8) 0 0 none ⟨[103], by decide⟩ .long .int [] _ envEx_abi
    (by decide) (by decide) (by decide) rfl rfl hp ⟨rfl, fun _ _ => rfl⟩ (seqs_alive _) rfl (.inl rfl)
    (show _ = Out.ok ([i2 .mov (.int .quad ⟨.int, 0⟩) (.reg .quad .ax), is .call (.jlabel ⟨[103], by decide⟩)], 0) by decide +kernel)
  -- the stack pointer does not change before the call
  have hlen : pre = [] ∨ pre = [i2 .mov (.int .quad ⟨.int, 0⟩) (.reg .quad .ax)] := by
    cases pre with
    | nil => exact .inl rfl
    | cons a pre =>
      simp only [List.cons_append, List.cons.injEq] at h1
      obtain ⟨rfl, h1⟩ := h1
      cases pre with
      | nil => exact .inr rfl
      | cons b pre => simp at h1
  have hsp : mc.regs .sp = 0xff8 := by
    rcases hlen with rfl | rfl
    · simp only [run, Res.next.injEq] at h2; rw [← h2]; decide
    · have : resReg .sp (run envEx mPushed [i2 .mov (.int .quad ⟨.int, 0⟩) (.reg .quad .ax)]) = some 0xff8 := by decide +kernel
      rw [h2] at this
      simpa [resReg] using this
  rw [hsp] at h4
  exact absurd h4 (by decide)

/-- Missing: inner calls when the padding and the arguments already passed are not a multiple of 16 bytes. Otherwise the
stack is aligned where the sequence of the inner call starts, hence (`aligned_call`) at the inner call. -/
theorem alignedNested_partial (env : Env) {m0 m1 m2 m3 : Mach} {us : List (BitVec 64)} {n : Nat} {s : Sfx} {t : ILType} {pc : List XInst}
    (hpc : genPrep ⟨.prep, none, some (.int s ⟨t, n⟩), none⟩ = .ok pc) (hpr : run env m0 pc = .next m1)
    (hp : Passed env m1 us m2) (hk : Keeps (8 * us.length) m2 m3) (hn : us.length < 2 ^ 27) (hal : ((m0.regs .sp).toNat : Int) % 16 = 0)
    (hev : us.length % 2 = if n > 6 ∧ n % 2 = 1 then 1 else 0) : ((m3.regs .sp).toNat : Int) % 16 = 0 := by
  obtain ⟨pc', mp, p1, p2, p3, p4, p5⟩ := prep_run env m0 (i := ⟨.prep, none, some (.int s ⟨t, n⟩), none⟩) rfl
  rw [hpc] at p1; cases p1
  rw [hpr] at p2; cases p2
  obtain ⟨hsp, _⟩ := passed_keeps env hp hk (by omega)
  rw [hsp, p3, rel64_rel64, rel64_mod16]
  unfold prepPad
  rw [Int.tmod_eq_emod_of_nonneg (by omega)]
  by_cases h : n > 6 ∧ n % 2 = 1
  · rw [if_pos h] at hev
    rw [if_pos (by omega)]; omega
  · rw [if_neg h] at hev
    rw [if_neg (by omega)]; omega

/-- a nested call before any argument was passed, as in `f(1, g())`, is aligned -/
example : (0 : Nat) % 2 = (if 2 > 6 ∧ 2 % 2 = 1 then 1 else 0) ∧ ((mEx.regs .sp).toNat : Int) % 16 = 0 := by decide

/-! ### C48: functions return with saved state intact -/

/-- The code of a function is label, prologue, pushes, body, pops, epilogue. -/
theorem function_shape {st st' : St} {cs : List Item} (h : genFunction st = .ok (cs, st')) {t : LblType} {v : Vis} {nm : Name}
    {ent : Inst} {rest : List Immc} (hr : st.rest = .label t v nm :: .inst ent :: rest) (he : ent.op = .enter) :
    ∃ ev entc bc lv lvc, ev ≤ 5 ∧ genEnter ent = .ok entc ∧ .inst lv ∈ rest ∧ lv.op = .leave ∧ genLeave lv = .ok lvc ∧
      cs = Item.label t v nm :: (entc.map .inst ++ (savePushes ev).map .inst ++ bc ++ (restorePops ev).map .inst ++ lvc.map .inst) :=
  genFunction_shape h hr he

/-- From the entry state `e`: prologue and pushes run to `m2`; if the body takes `m2` to `m3` leaving the stack pointer, the pushed
registers, the saved frame pointer and the return address, and the callee-saved registers that were not pushed, then pops and
epilogue return to the caller with all callee-saved registers as at entry and the return address popped. The body may
overwrite `rbp` and the pushed registers. -/
theorem function_restores (env : Env) (e : Mach) (n : Int) (s : Sfx) (t : ILType) (hn : 0 ≤ n) (hn' : n < 2 ^ 31 - 16) (ev : Nat) (hev : ev ≤ 5) :
    ∃ entc lvc m2, genEnter ⟨.enter, none, some (.int s ⟨t, n⟩), none⟩ = .ok entc ∧ genLeave ⟨.leave, none, some (.int s ⟨t, n⟩), none⟩ = .ok lvc ∧
      run env e (entc ++ savePushes ev) = .next m2 ∧
      ∀ m3, Keeps (8 * (ev + ev % 2)) m2 m3 →
        (∀ k : Nat, k < 16 → m3.mem (e.regs .sp - 8 + BitVec.ofNat 64 k) = m2.mem (e.regs .sp - 8 + BitVec.ofNat 64 k)) →
        (∀ r ∈ sysvKept, r ≠ .bp → r ∉ calleeSaved.take ev → m3.regs r = m2.regs r) →
        ∃ m4, run env m3 (restorePops ev ++ lvc) = .ret (load e (e.regs .sp) .quad) m4 ∧ m4.regs .sp = e.regs .sp + 8 ∧
          ∀ r ∈ sysvKept, m4.regs r = e.regs r := by
  obtain ⟨entc, m1, a1, a2, a3, a4, a5, a6, a7, -⟩ := enter_run env e (i := ⟨.enter, none, some (.int s ⟨t, n⟩), none⟩) rfl hn hn'
  obtain ⟨m2, b1, b2, b3, b4, b5⟩ := savePushes_run env m1 ev hev
  have hal := align16_facts hn
  obtain ⟨lvc0, _, g0, _⟩ := leave_run env e (i := ⟨.leave, none, some (.int s ⟨t, n⟩), none⟩) rfl hn hn'
  refine ⟨entc, lvc0, m2, a1, g0, by rw [run_append_next a2, b1], ?_⟩
  intro m3 hk hm hr
  obtain ⟨m4, c1, c2, c3, c4, c5⟩ := restorePops_run env m3 ev hev
  obtain ⟨lvc, m5, d1, d2, d3, d4, d5, d6⟩ := leave_run env m4 (i := ⟨.leave, none, some (.int s ⟨t, n⟩), none⟩) rfl hn hn'
  rw [g0] at d1; cases d1
  have hsp4 : m4.regs .sp = rel64 (e.regs .sp) (-8 - align16 n) := by
    rw [c2, hk.1, b2, a4, rel64_rel64, rel64_rel64]; congr 1; omega
  -- the two words at the frame pointer
  have frame : ∀ (x : Int), (x = -8 ∨ x = 0) → load m4 (rel64 (e.regs .sp) x) .quad = load m1 (rel64 (e.regs .sp) x) .quad := by
    intro x hx
    rw [load_mem c5]
    have h1 := same_load (s := .quad) (frame_words hm x hx)
    rw [h1]
    have h2 := b5 (x + 8 + align16 n) 8 (by omega) (by omega) (by decide)
    rw [a4] at h2
    unfold Same at h2
    rw [rel64_rel64] at h2
    have e2 : (-8 - align16 n + (x + 8 + align16 n)) = x := by omega
    rw [e2] at h2
    exact same_load (s := .quad) h2
  refine ⟨m5, ?_, ?_, ?_⟩
  · rw [run_append_next c1, d2, hsp4, rel64_rel64]
    have e1 : (-8 - align16 n + (align16 n + 8)) = 0 := by omega
    rw [e1, frame 0 (.inr rfl), rel64_zero]
    have := same_load (s := .quad) (a7 0 8 (by omega) (by omega) (by decide))
    rw [rel64_zero] at this
    rw [this]
  · rw [d3, hsp4, rel64_rel64, add8]; congr 1; omega
  · intro r hrk
    by_cases hbp : r = .bp
    · subst hbp
      rw [d4, hsp4, rel64_rel64]
      have e1 : (-8 - align16 n + align16 n) = -8 := by omega
      rw [e1, frame (-8) (.inl rfl), a5]
    · have hsp : r ≠ .sp := by rintro rfl; revert hrk; decide
      rw [d5 r hsp hbp]
      by_cases hmem : r ∈ calleeSaved.take ev
      · obtain ⟨k, hk'⟩ := List.mem_iff_getElem?.mp hmem
        rw [c3 k r hk', hk.1]
        have hk5 : k < ev := by have := (List.getElem?_eq_some_iff.mp hk').1; rw [List.length_take] at this; omega
        have e1 : (8 * ((ev + ev % 2 : Nat) : Int) - 8 * ((k : Int) + 1)) = ((8 * (ev + ev % 2) - 8 * (k + 1) : Nat) : Int) := by omega
        rw [e1, keeps_load hk _ (by omega), b2, rel64_rel64]
        have e2 : (-8 * ((ev + ev % 2 : Nat) : Int) + ((8 * (ev + ev % 2) - 8 * (k + 1) : Nat) : Int)) = -8 * ((k : Int) + 1) := by omega
        rw [e2, b3 k r hk', a6 r hsp hbp]
      · rw [c4 r hsp hmem, hr r hrk hbp hmem, b4 r hsp, a6 r hsp hbp]

/-- A function with 20 bytes of locals and one saved register whose body overwrites `rbx` and `rbp`. -/
example : resReg .bp (run envEx mEx ([is .push (.reg .quad .bp), i2 .mov (.reg .quad .sp) (.reg .quad .bp), spImm .sub 32] ++ savePushes 1 ++
      [i2 .mov (.int .quad ⟨.int, 9⟩) (.reg .quad .bx), i2 .mov (.int .quad ⟨.int, 9⟩) (.reg .quad .bp)] ++ restorePops 1 ++ [spImm .add 32, id1 .pop (.reg .quad .bp)])) =
      some 0x1000 ∧
    resReg .bx (run envEx mEx ([is .push (.reg .quad .bp), i2 .mov (.reg .quad .sp) (.reg .quad .bp), spImm .sub 32] ++ savePushes 1 ++
      [i2 .mov (.int .quad ⟨.int, 9⟩) (.reg .quad .bx), i2 .mov (.int .quad ⟨.int, 9⟩) (.reg .quad .bp)] ++ restorePops 1 ++ [spImm .add 32, id1 .pop (.reg .quad .bp)])) =
      some 0 := by decide +kernel

/-! ### C49: local strings -/

/-- Full statement: `STR -off(%rbp), "bytes"` stores exactly the bytes. -/
def StringExact : Prop :=
  ∀ (env : Env) (m : Mach) (bs : List UInt8) (off : Int), bs.length ≤ 2 ^ 63 →
    ∃ cs m', genStr ⟨.str, some (.mem off), some (.str bs), none⟩ = .ok cs ∧ run env m cs = .next m' ∧
      m'.mem = putBytes m.mem (m.regs .bp + BitVec.ofInt 64 (-off)) bs

/-- a byte of memory after the code ran through -/
def resByte (a : BitVec 64) : Res → Option (BitVec 8)
  | .next m => some (m.mem a)
  | _ => none

/-- memory full of 0xaa -/
def mFull : Mach := { mEx with mem := fun _ => 0xaa }

/-- `char s[3] = "ab"` also overwrites the byte after the array. -/
theorem stringExact_past_end_violated : ¬ StringExact := by
  intro h
  obtain ⟨cs, m', h1, h2, h3⟩ := h envEx mFull [97, 98, 0] 8 (by decide)
  have e : genStr ⟨.str, some (.mem 8), some (.str [97, 98, 0]), none⟩ = .ok [i2 .mov (.int .long ⟨.uint, 0x6261⟩) (.mem 8)] := by decide +kernel
  rw [e] at h1; cases h1
  have h4 : resByte 0xffb (run envEx mFull [i2 .mov (.int .long ⟨.uint, 0x6261⟩) (.mem 8)]) = some 0 := by decide +kernel
  rw [h2] at h4
  simp only [resByte, h3, Option.some.injEq] at h4
  exact absurd h4 (by decide +kernel)

/-- In a string of eight bytes starting with 0x80 the following bytes all become 0xff. -/
theorem stringExact_high_byte_violated : ¬ StringExact := by
  intro h
  obtain ⟨cs, m', h1, h2, h3⟩ := h envEx mFull [0x80, 97, 98, 99, 100, 101, 102, 0] 8 (by decide)
  have e : genStr ⟨.str, some (.mem 8), some (.str [0x80, 97, 98, 99, 100, 101, 102, 0]), none⟩ =
      .ok (strUnit .ullong 0xffffffffffffff80 8) := by decide +kernel
  rw [e] at h1; cases h1
  have h4 : resByte 0xff9 (run envEx mFull (strUnit .ullong 0xffffffffffffff80 8)) = some 0xff := by decide +kernel
  rw [h2] at h4
  simp only [resByte, h3, Option.some.injEq] at h4
  exact absurd h4 (by decide +kernel)

/-- Missing: bytes above 0x7f, and lengths that are 3, 5, 6 or 7 modulo 8. -/
theorem stringExact_partial (env : Env) (m : Mach) (bs : List UInt8) (off : Int) (hlen : bs.length + 8 ≤ 2 ^ 63) (hb : ∀ c ∈ bs, c.toNat < 128)
    (hl : bs.length % 8 = 0 ∨ bs.length % 8 = 1 ∨ bs.length % 8 = 2 ∨ bs.length % 8 = 4) :
    ∃ cs m', genInst qs ev ⟨.str, some (.mem off), some (.str bs), none⟩ = .ok (cs, ev) ∧ run env m cs = .next m' ∧
      m'.mem = putBytes m.mem (m.regs .bp + BitVec.ofInt 64 (-off)) bs ∧ ∀ r, r ≠ .r10 → m'.regs r = m.regs r := by
  obtain ⟨cs, m', h1, h2, h3, h4⟩ := genStr_run env m bs off (snd := none) hlen hb hl
  exact ⟨cs, m', by show keep ev _ = _; rw [h1]; rfl, h2, h3, h4⟩

/-- What happens for any length: the bytes are stored, followed by `overrun` zero bytes (at most three) that belong to whatever lies behind the array.
Missing: bytes above 0x7f; the zero bytes themselves are the violation. -/
theorem stringPadded_partial (env : Env) (m : Mach) (bs : List UInt8) (off : Int) (hlen : bs.length + 8 ≤ 2 ^ 63) (hb : ∀ c ∈ bs, c.toNat < 128) :
    ∃ cs m', genInst qs ev ⟨.str, some (.mem off), some (.str bs), none⟩ = .ok (cs, ev) ∧ run env m cs = .next m' ∧
      m'.mem = putBytes m.mem (m.regs .bp + BitVec.ofInt 64 (-off)) (bs ++ List.replicate (overrun bs.length) 0) ∧ ∀ r, r ≠ .r10 → m'.regs r = m.regs r := by
  obtain ⟨cs, m', h1, h2, h3, h4⟩ := genStr_pad env m bs off (snd := none) hlen hb
  exact ⟨cs, m', by show keep ev _ = _; rw [h1]; rfl, h2, h3, h4⟩

/-- `"hello"`: six bytes and two zero bytes behind them -/
example : overrun ([104, 101, 108, 108, 111, 0] : List UInt8).length = 2 ∧ resByte 0xff5 (run envEx mFull (strLoop 6 [104, 101, 108, 108, 111, 0] 16)) = some 0 ∧
    resByte 0xff7 (run envEx mFull (strLoop 6 [104, 101, 108, 108, 111, 0] 16)) = some 0 ∧ resByte 0xff8 (run envEx mFull (strLoop 6 [104, 101, 108, 108, 111, 0] 16)) = some 0xaa := by
  decide +kernel

/-- `"hello, wor"`, ten bytes with the final NUL: one unit of eight and one of two -/
example : ([104, 101, 108, 108, 111, 44, 32, 119, 111, 0] : List UInt8).length % 8 = 2 ∧
    resByte 0xff0 (run envEx mFull (strLoop 10 [104, 101, 108, 108, 111, 44, 32, 119, 111, 0] 24)) = some 111 ∧
    resByte 0xff2 (run envEx mFull (strLoop 10 [104, 101, 108, 108, 111, 44, 32, 119, 111, 0] 24)) = some 0xaa := by decide +kernel

end X86
end Umlcc
