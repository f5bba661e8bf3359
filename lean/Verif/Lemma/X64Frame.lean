import Verif.Lemma.X64Call
/-!
Helper lemmas: prologue, epilogue, stack pointer around calls, loading of arguments.
-/
namespace Umlcc
namespace X86
open X64 ISem

theorem align16_facts {n : Int} (h : 0 ≤ n) : n ≤ align16 n ∧ align16 n < n + 16 ∧ align16 n % 16 = 0 := by
  unfold align16
  rw [Int.tdiv_eq_ediv_of_nonneg (by omega)]
  omega

theorem imm31 {n : Int} (h : 0 ≤ n) (h' : n < 2 ^ 31) : immFits .quad n = true := by
  simp only [immFits, if_true, decide_eq_true_eq]; omega

theorem rel64_mod16 (b : BitVec 64) (x : Int) : ((rel64 b x).toNat : Int) % 16 = ((b.toNat : Int) + x) % 16 := by
  unfold rel64
  rw [BitVec.toNat_add, BitVec.toNat_ofInt]
  have : ((x % ((2 ^ 64 : Nat) : Int)).toNat : Int) = x % 18446744073709551616 := by
    rw [Int.toNat_of_nonneg (Int.emod_nonneg _ (by decide))]; rfl
  omega

/-- bytes from `x` on (relative to `b`) are the same in both memories -/
def Same (b : BitVec 64) (x : Int) (n : Nat) (mem mem' : BitVec 64 → BitVec 8) : Prop :=
  readLE mem' (rel64 b x) n = readLE mem (rel64 b x) n

theorem same_load {b : BitVec 64} {x : Int} {m m' : Mach} {s : Sfx} (h : Same b x s.nbytes m.mem m'.mem) :
    load m' (rel64 b x) s = load m (rel64 b x) s := by
  unfold load; rw [h]

theorem enter_run (env : Env) (e : Mach) {i : Inst} {s : Sfx} {n : Int} {t : ILType} (hi : i.fst = some (.int s ⟨t, n⟩)) (hn : 0 ≤ n)
    (hn' : n < 2 ^ 31 - 16) :
    ∃ cs m1, genEnter i = .ok cs ∧ run env e cs = .next m1 ∧ m1.regs .bp = rel64 (e.regs .sp) (-8) ∧
      m1.regs .sp = rel64 (e.regs .sp) (-8 - align16 n) ∧ load m1 (rel64 (e.regs .sp) (-8)) .quad = e.regs .bp ∧
      (∀ r, r ≠ .sp → r ≠ .bp → m1.regs r = e.regs r) ∧
      (∀ (x : Int) (k : Nat), 0 ≤ x → x + k ≤ 2 ^ 63 → 0 < k → Same (e.regs .sp) x k e.mem m1.mem) ∧
      m1.mem = (push e (e.regs .bp)).mem := by
  obtain ⟨a1, a2, a3⟩ := align16_facts hn
  have h1 := step_push env e .bp
  have h2 := step_mov_rr env (push e (e.regs .bp)) (s := .quad) (a := .sp) (b := .bp) (good_quad _) (good_quad _)
  rw [set_quad, get_quad] at h2
  generalize hM : setReg (push e (e.regs .bp)) .bp ((push e (e.regs .bp)).regs .sp) = M at h2
  have hbp : M.regs .bp = rel64 (e.regs .sp) (-8) := by rw [← hM, regs_setReg_same, push_sp]
  have hsp : M.regs .sp = rel64 (e.regs .sp) (-8) := by
    rw [← hM, regs_setReg_ne _ _ _ _ (by decide), push_sp]
  have hmem : M.mem = (push e (e.regs .bp)).mem := by rw [← hM]; rfl
  have hregs : ∀ r, r ≠ .sp → r ≠ .bp → M.regs r = e.regs r := by
    intro r h h'; rw [← hM, regs_setReg_ne _ _ _ _ h', push_regs _ _ _ h]
  have hload : load M (rel64 (e.regs .sp) (-8)) .quad = e.regs .bp := by
    rw [load_mem hmem]; exact push_load_same e _
  have hsame : ∀ (x : Int) (k : Nat), 0 ≤ x → x + k ≤ 2 ^ 63 → 0 < k → Same (e.regs .sp) x k e.mem M.mem := by
    intro x k h0 h1 h2
    unfold Same; rw [hmem]
    have : far (rel64 (e.regs .sp) (-8)) 8 (rel64 (e.regs .sp) x) k := by
      apply far_rel <;> first | assumption | decide | (push_cast; omega)
    have h7 := readLE_far e.mem (e.regs .bp).toNat this
    rw [← sub8] at h7
    exact h7
  have hgen : genEnter i = .ok ([is .push (.reg .quad .bp), i2 .mov (.reg .quad .sp) (.reg .quad .bp)] ++
      if align16 n > 0 then [spImm .sub (align16 n)] else []) := by
    simp [genEnter, hi, deref, countOf]
  have hrun : run env e [is .push (.reg .quad .bp), i2 .mov (.reg .quad .sp) (.reg .quad .bp)] = .next M := by
    simp only [run, h1, h2]
  by_cases hp : align16 n > 0
  · have h3 := (step_sp env M (align16 n) (imm31 (by omega) (by omega))).1
    refine ⟨_, setReg (forget M) .sp (M.regs .sp - BitVec.ofInt 64 (align16 n)), hgen, ?_, ?_, ?_, ?_, ?_, ?_, hmem⟩
    · rw [run_append_next hrun, if_pos hp, run_one h3]
    · rw [regs_setReg_ne _ _ _ _ (by decide)]; exact hbp
    · rw [regs_setReg_same, subInt, hsp, rel64_rel64]; rfl
    · exact hload
    · intro r h h'; rw [regs_setReg_ne _ _ _ _ h]; exact hregs r h h'
    · exact hsame
  · refine ⟨_, M, hgen, ?_, hbp, ?_, hload, hregs, hsame, hmem⟩
    · rw [run_append_next hrun, if_neg hp]; rfl
    · rw [hsp]; congr 1; omega

theorem savePushes_run (env : Env) (m : Mach) (ev : Nat) (hev : ev ≤ 5) :
    ∃ m', run env m (savePushes ev) = .next m' ∧ m'.regs .sp = rel64 (m.regs .sp) (-8 * (ev + ev % 2 : Nat)) ∧
      (∀ (k : Nat) (r : Reg), (calleeSaved.take ev)[k]? = some r → load m' (rel64 (m.regs .sp) (-8 * (k + 1))) .quad = m.regs r) ∧
      (∀ r, r ≠ .sp → m'.regs r = m.regs r) ∧
      (∀ (x : Int) (n : Nat), 0 ≤ x → x + n ≤ 2 ^ 62 → 0 < n → Same (m.regs .sp) x n m.mem m'.mem) := by
  have hlen : (calleeSaved.take ev).length = ev := by simp [calleeSaved]; omega
  obtain ⟨m1, h1, h2, h3, h4, h5⟩ := pushes_run env m (calleeSaved.take ev)
    (fun h => by have := List.mem_of_mem_take h; revert this; decide) (by omega)
  rw [hlen] at h2 h5
  have h6 := (step_sp env m1 8 (by decide)).1
  by_cases hodd : ev % 2 = 1
  · refine ⟨setReg (forget m1) .sp (m1.regs .sp - BitVec.ofInt 64 8), ?_, ?_, ?_, ?_, ?_⟩
    · rw [savePushes, if_pos hodd, run_append_next h1, run_one h6]
    · rw [regs_setReg_same, subInt, h2, rel64_rel64]; congr 1; push_cast; omega
    · exact h3
    · intro r h; rw [regs_setReg_ne _ _ _ _ h]; exact h4 r h
    · intro x n ha hb hc; exact h5 x n ha (by omega) hc
  · refine ⟨m1, ?_, ?_, h3, h4, ?_⟩
    · rw [savePushes, if_neg hodd, run_append_next h1]; rfl
    · rw [h2]; congr 1; push_cast; omega
    · intro x n ha hb hc; exact h5 x n ha (by omega) hc

theorem restorePops_run (env : Env) (m : Mach) (ev : Nat) (hev : ev ≤ 5) :
    ∃ m', run env m (restorePops ev) = .next m' ∧ m'.regs .sp = rel64 (m.regs .sp) (8 * (ev + ev % 2 : Nat)) ∧
      (∀ (k : Nat) (r : Reg), (calleeSaved.take ev)[k]? = some r →
        m'.regs r = load m (rel64 (m.regs .sp) (8 * (ev + ev % 2 : Nat) - 8 * (k + 1))) .quad) ∧
      (∀ r, r ≠ .sp → r ∉ calleeSaved.take ev → m'.regs r = m.regs r) ∧ m'.mem = m.mem := by
  have hlen : (calleeSaved.take ev).length = ev := by simp [calleeSaved]; omega
  have hnd : (calleeSaved.take ev).reverse.Nodup :=
    List.pairwise_reverse.mpr (List.Pairwise.imp Ne.symm (calleeSaved_nodup.sublist (List.take_sublist _ _)))
  have hsp : Reg.sp ∉ (calleeSaved.take ev).reverse := by
    intro h; rw [List.mem_reverse] at h
    have := List.mem_of_mem_take h; revert this; decide
  have hpre : ∃ m1, run env m (if ev % 2 = 1 then [spImm .add 8] else []) = .next m1 ∧
      m1.regs .sp = rel64 (m.regs .sp) (8 * (ev % 2 : Nat)) ∧ (∀ r, r ≠ .sp → m1.regs r = m.regs r) ∧ m1.mem = m.mem := by
    by_cases hodd : ev % 2 = 1
    · have h6 := (step_sp env m 8 (by decide)).2
      refine ⟨setReg (forget m) .sp (m.regs .sp + BitVec.ofInt 64 8), by rw [if_pos hodd]; exact run_one h6, ?_, ?_, rfl⟩
      · rw [regs_setReg_same, addInt, hodd]; rfl
      · intro r h; exact regs_setReg_ne _ _ _ _ h
    · refine ⟨m, by rw [if_neg hodd]; rfl, ?_, fun _ _ => rfl, rfl⟩
      have : ev % 2 = 0 := by omega
      rw [this]; simp [rel64_zero]
  obtain ⟨m1, h1, sp1, r1, e1⟩ := hpre
  obtain ⟨m2, h2, sp2, a2, r2, e2⟩ := pops_run env m1 _ hnd hsp
  refine ⟨m2, ?_, ?_, ?_, ?_, by rw [e2, e1]⟩
  · rw [restorePops, run_append_next h1, h2]
  · rw [sp2, sp1, rel64_rel64, List.length_reverse, hlen]; congr 1; push_cast; omega
  · intro k r hk
    have hlt : k < ev := by rw [← hlen]; exact (List.getElem?_eq_some_iff.mp hk).1
    have hrev : (calleeSaved.take ev).reverse[ev - 1 - k]? = some r := by
      rw [List.getElem?_reverse (by omega), hlen]
      rw [show ev - 1 - (ev - 1 - k) = k from by omega]; exact hk
    rw [a2 _ r hrev, sp1, rel64_rel64, load_mem e1]; congr 2
    push_cast; omega
  · intro r h h'
    rw [r2 r h (by simpa using h'), r1 r h]

theorem leave_run (env : Env) (m : Mach) {i : Inst} {s : Sfx} {n : Int} {t : ILType} (hi : i.fst = some (.int s ⟨t, n⟩)) (hn : 0 ≤ n)
    (hn' : n < 2 ^ 31 - 16) :
    ∃ cs m', genLeave i = .ok cs ∧ run env m cs = .ret (load m (rel64 (m.regs .sp) (align16 n + 8)) .quad) m' ∧
      m'.regs .sp = rel64 (m.regs .sp) (align16 n + 16) ∧ m'.regs .bp = load m (rel64 (m.regs .sp) (align16 n)) .quad ∧
      (∀ r, r ≠ .sp → r ≠ .bp → m'.regs r = m.regs r) ∧ m'.mem = m.mem := by
  obtain ⟨a1, a2, a3⟩ := align16_facts hn
  have hpre : ∃ m1, run env m (if align16 n > 0 then [spImm .add (align16 n)] else []) = .next m1 ∧
      m1.regs .sp = rel64 (m.regs .sp) (align16 n) ∧ (∀ r, r ≠ .sp → m1.regs r = m.regs r) ∧ m1.mem = m.mem := by
    by_cases hp : align16 n > 0
    · have h6 := (step_sp env m (align16 n) (imm31 (by omega) (by omega))).2
      refine ⟨setReg (forget m) .sp (m.regs .sp + BitVec.ofInt 64 (align16 n)), by rw [if_pos hp]; exact run_one h6, ?_, ?_, rfl⟩
      · rw [regs_setReg_same, addInt]
      · intro r h; exact regs_setReg_ne _ _ _ _ h
    · refine ⟨m, by rw [if_neg hp]; rfl, ?_, fun _ _ => rfl, rfl⟩
      rw [show align16 n = 0 from by omega, rel64_zero]
  obtain ⟨m1, h1, sp1, r1, e1⟩ := hpre
  have h2 := step_pop env m1 .bp
  generalize hM : setReg (setReg m1 .sp (m1.regs .sp + 8)) .bp (load m1 (m1.regs .sp) .quad) = M at h2
  have hret : stepI env M ⟨.ret, none, none⟩ = .ret (load M (M.regs .sp) .quad) (setReg M .sp (M.regs .sp + 8)) := by
    rw [stepI_none env M _ "ret" .ret (by decide) (by decide) (by decide)]
    rfl
  have hMsp : M.regs .sp = rel64 (m.regs .sp) (align16 n + 8) := by
    rw [← hM, regs_setReg_ne _ _ _ _ (by decide), regs_setReg_same, add8, sp1, rel64_rel64]
  have hMm : M.mem = m.mem := by rw [← hM]; exact e1
  refine ⟨_, setReg M .sp (M.regs .sp + 8), by simp [genLeave, hi, deref, countOf]; rfl, ?_, ?_, ?_, ?_, ?_⟩
  · rw [run_append_next h1]
    simp only [run, h2, hret]
    rw [hMsp, load_mem hMm]
  · rw [regs_setReg_same, add8, hMsp, rel64_rel64]; congr 1; omega
  · rw [regs_setReg_ne _ _ _ _ (by decide), ← hM, regs_setReg_same, sp1, load_mem e1]
  · intro r h h'
    rw [regs_setReg_ne _ _ _ _ h, ← hM, regs_setReg_ne _ _ _ _ h', regs_setReg_ne _ _ _ _ h, r1 r h]
  · exact hMm

/-! ### stack pointer around calls -/

/-- padding before the arguments -/
def prepPad (n : Int) : Int := if n > 6 ∧ n.tmod 2 = 1 then 8 else 0

theorem prep_run (env : Env) (m : Mach) {i : Inst} {s : Sfx} {n : Int} {t : ILType} (hi : i.fst = some (.int s ⟨t, n⟩)) :
    ∃ cs m', genPrep i = .ok cs ∧ run env m cs = .next m' ∧ m'.regs .sp = rel64 (m.regs .sp) (-prepPad n) ∧
      (∀ r, r ≠ .sp → m'.regs r = m.regs r) ∧ m'.mem = m.mem := by
  have hg : genPrep i = .ok (if n > 6 ∧ n.tmod 2 = 1 then [spImm .sub 8] else []) := by simp [genPrep, hi, deref, countOf]
  unfold prepPad
  by_cases h : n > 6 ∧ n.tmod 2 = 1
  · have h6 := (step_sp env m 8 (by decide)).1
    rw [if_pos h] at hg ⊢
    refine ⟨_, _, hg, run_one h6, ?_, ?_, rfl⟩
    · rw [regs_setReg_same, subInt]
    · intro r h; exact regs_setReg_ne _ _ _ _ h
  · rw [if_neg h] at hg ⊢
    exact ⟨_, m, hg, rfl, by simp [rel64_zero], fun _ _ => rfl, rfl⟩

/-- what is left on the stack after the call -/
def leftover (n : Int) : Int := if n > 6 then (n - 6 + 1).tdiv 2 * 16 else 0

theorem clean_run (env : Env) (m : Mach) {i : Inst} {s : Sfx} {n : Int} {t : ILType} (hi : i.fst = some (.int s ⟨t, n⟩)) (hn : n < 2 ^ 27) :
    ∃ cs m', genClean i = .ok cs ∧ run env m cs = .next m' ∧ m'.regs .sp = rel64 (m.regs .sp) (leftover n) ∧
      (∀ r, r ≠ .sp → m'.regs r = m.regs r) ∧ m'.mem = m.mem := by
  have hg : genClean i = .ok (if n > 6 then [spImm .add ((n - 6 + 1).tdiv 2 * 16)] else []) := by simp [genClean, hi, deref, countOf]
  unfold leftover
  by_cases h : n > 6
  · have hb : 0 ≤ (n - 6 + 1).tdiv 2 * 16 ∧ (n - 6 + 1).tdiv 2 * 16 < 2 ^ 31 := by
      rw [Int.tdiv_eq_ediv_of_nonneg (by omega)]; omega
    have h6 := (step_sp env m ((n - 6 + 1).tdiv 2 * 16) (imm31 hb.1 hb.2)).2
    rw [if_pos h] at hg ⊢
    refine ⟨_, _, hg, run_one h6, ?_, ?_, rfl⟩
    · rw [regs_setReg_same, addInt]
    · intro r h; exact regs_setReg_ne _ _ _ _ h
  · rw [if_neg h] at hg ⊢
    exact ⟨_, m, hg, rfl, by simp [rel64_zero], fun _ _ => rfl, rfl⟩

/-- padding, arguments, popped registers and leftover add up -/
theorem call_balance (n : Nat) :
    -prepPad n + -8 * n + 8 * ((argRegs.take (n : Int).toNat).length) = -leftover n ∧ leftover n % 16 = 0 := by
  have hlen : ((argRegs.take (n : Int).toNat).length : Int) = min n 6 := by simp [argRegs]
  rw [hlen]
  unfold prepPad leftover
  rw [Int.tmod_eq_emod_of_nonneg (by omega)]
  by_cases h : (n : Int) > 6
  · rw [if_pos h, Int.tdiv_eq_ediv_of_nonneg (by omega)]
    constructor
    · split <;> omega
    · omega
  · rw [if_neg h, if_neg (by omega)]
    omega

/-! ### loading of arguments -/

theorem nbytes_pos {s : Sfx} (h : s ≠ .none) : 0 < s.nbytes := by cases s <;> first | contradiction | decide

theorem argRegs_sysv (i : Nat) (h : i < 6) : ∃ r, argRegs[i]? = some r ∧ sysvArg i = some r ∧ r ∈ callerSaved ∧ r ≠ .r10 := by
  match i, h with
  | 0, _ => exact ⟨_, rfl, rfl, by decide, by decide⟩
  | 1, _ => exact ⟨_, rfl, rfl, by decide, by decide⟩
  | 2, _ => exact ⟨_, rfl, rfl, by decide, by decide⟩
  | 3, _ => exact ⟨_, rfl, rfl, by decide, by decide⟩
  | 4, _ => exact ⟨_, rfl, rfl, by decide, by decide⟩
  | 5, _ => exact ⟨_, rfl, rfl, by decide, by decide⟩

theorem sysvArg_ge (i : Nat) (h : 6 ≤ i) : sysvArg i = none := by
  unfold sysvArg; split <;> first | omega | rfl

theorem ldargs_run (env : Env) (B : BitVec 64) (val : Nat → BitVec 64) (F : Int) (hF : F ≤ 2 ^ 32) :
    ∀ (ps : List Param) (k : Nat) (m : Mach), m.regs .bp = B → k + ps.length < 2 ^ 32 →
      (∀ i r, k ≤ i → sysvArg i = some r → m.regs r = val i) →
      (∀ i, k ≤ i → 6 ≤ i → i < k + ps.length → load m (rel64 B (16 + 8 * (i - 6))) .quad = val i) →
      (∀ p ∈ ps, p.2.1 ≠ .none ∧ p.2.1.nbytes ≤ p.1 ∧ p.1 ≤ F) → ps.Pairwise apart →
      ∃ cs m', genAll genLdarg (ldargs k ps) = .ok cs ∧ run env m cs = .next m' ∧
        (∀ (j : Nat) (p : Param), ps[j]? = some p → load m' (rel64 B (-p.1)) p.2.1 = (val (k + j)).setWidth p.2.1.bits) ∧
        (∀ r, r ≠ .r10 → m'.regs r = m.regs r) ∧
        (∀ (x : Int) (s : Sfx), s ≠ .none → -2 ^ 62 ≤ x → x + s.nbytes ≤ 2 ^ 62 → (∀ p ∈ ps, -p.1 + p.2.1.nbytes ≤ x ∨ x + s.nbytes ≤ -p.1) →
          load m' (rel64 B x) s = load m (rel64 B x) s) := by
  intro ps
  induction ps with
  | nil =>
    intro k m _ _ _ _ _ _
    exact ⟨[], m, rfl, rfl, by simp, fun _ _ => rfl, fun _ _ _ _ _ _ => rfl⟩
  | cons p ps ih =>
    obtain ⟨off, s, u⟩ := p
    intro k m hbp hlen hreg hstk hps hpw
    simp only [List.length_cons] at hlen hstk
    obtain ⟨hs, hoff, hoffF⟩ := hps (off, s, u) (by simp)
    simp only at hs hoff hoffF
    have hpos := nbytes_pos hs
    rw [List.pairwise_cons] at hpw
    -- one argument
    have one : ∃ c m1, genLdarg ⟨.ldarg, some (.mem off), some (.arg s k u), none⟩ = .ok c ∧ run env m c = .next m1 ∧
        m1.mem = (store m (rel64 B (-off)) s ((val k).setWidth s.bits)).mem ∧ (∀ r, r ≠ .r10 → m1.regs r = m.regs r) := by
      by_cases hk : k < 6
      · obtain ⟨r, ha, hsv, hmem, hr10⟩ := argRegs_sysv k hk
        have hgood : GoodReg s r := ⟨hs, by intro _ e; rw [e] at hmem; revert hmem; decide⟩
        refine ⟨[i2 .mov (.reg s r) (.mem off)], store m (slot m off) s (get m r s), ?_, ?_, ?_, fun _ _ => rfl⟩
        · simp [genLdarg, deref, sfxOf, regField, ha]
          omega
        · exact run_one (step_store_mem env m hgood)
        · have : get m r s = (val k).setWidth s.bits := by rw [← hreg k r (Nat.le_refl _) hsv]; rfl
          rw [this, slot, hbp]; rfl
      · have hgood : GoodReg s .r10 := ⟨hs, by simp⟩
        have e1 : (-((k : Int) - 6 + 1) * 8 - 8) = -(16 + 8 * (k - 6)) := by omega
        have hld := step_load_mem env m (s := s) (off := -((k : Int) - 6 + 1) * 8 - 8) hgood
        have hv : load m (slot m (-((k : Int) - 6 + 1) * 8 - 8)) s = (val k).setWidth s.bits := by
          rw [slot, hbp, e1, Int.neg_neg]
          show load m (rel64 B (16 + 8 * (k - 6))) s = _
          rw [load_low _ _ _ hs, hstk k (Nat.le_refl _) (by omega) (by omega)]
        rw [hv] at hld
        have hst := step_store_mem env (set m .r10 s ((val k).setWidth s.bits)) (off := off) hgood
        rw [get_set_same] at hst
        refine ⟨[i2 .mov (.mem (-((k : Int) - 6 + 1) * 8 - 8)) (.reg s .r10), i2 .mov (.reg s .r10) (.mem off)],
          store (set m .r10 s ((val k).setWidth s.bits)) (slot (set m .r10 s ((val k).setWidth s.bits)) off) s ((val k).setWidth s.bits), ?_, ?_, ?_, ?_⟩
        · have : ¬ ((k : Int) < 6) := by omega
          simp [genLdarg, deref, sfxOf, regField, this, tmpReg]
        · simp only [run, hld, hst]
        · have : slot (set m .r10 s ((val k).setWidth s.bits)) off = rel64 B (-off) := by
            rw [slot, regs_set_ne _ _ _ _ _ (by decide), hbp]; rfl
          rw [this]; rfl
        · intro r hr; rw [regs_store, regs_set_ne _ _ _ _ _ hr]
    obtain ⟨c, m1, hg1, hr1, hm1, hrg1⟩ := one
    have hfar : ∀ (x : Int) (t : Sfx), t ≠ .none → -2 ^ 62 ≤ x → x + t.nbytes ≤ 2 ^ 62 → (-off + s.nbytes ≤ x ∨ x + t.nbytes ≤ -off) →
        load m1 (rel64 B x) t = load m (rel64 B x) t := by
      intro x t ht hx hx' hd
      rw [load_mem hm1]
      apply load_store_far
      have := nbytes_pos ht
      have := nbytes_le t
      have := nbytes_le s
      rcases hd with hd | hd
      · exact far_rel hd (by omega) hpos (nbytes_pos ht)
      · exact far_symm (far_rel hd (by omega) (nbytes_pos ht) hpos)
    obtain ⟨cs, m', hgen, hrun, hval, hregs, hmem⟩ := ih (k + 1) m1 (by rw [hrg1 _ (by decide)]; exact hbp) (by omega)
      (fun i r hi h => by
        have : r ≠ .r10 := by
          by_cases h6 : i < 6
          · obtain ⟨r', _, h1, _, h2⟩ := argRegs_sysv i h6
            rw [h] at h1; cases h1; exact h2
          · rw [sysvArg_ge i (by omega)] at h; cases h
        rw [hrg1 r this]; exact hreg i r (by omega) h)
      (fun i hi h6 hlt => by
        rw [hfar _ .quad (by decide) (by omega) (by show _ + ((8 : Nat) : Int) ≤ _; omega) (Or.inl (by omega))]
        exact hstk i (by omega) h6 (by omega))
      (fun p hp => hps p (by simp [hp])) hpw.2
    refine ⟨c ++ cs, m', ?_, ?_, ?_, ?_, ?_⟩
    · simp [ldargs, genAll, hg1, hgen]
    · rw [run_append_next hr1, hrun]
    · intro j q hj
      cases j with
      | zero =>
        simp only [List.getElem?_cons_zero, Option.some.injEq] at hj
        subst hj
        simp only
        rw [hmem (-off) s hs (by omega) (by have := nbytes_le s; omega)]
        · rw [load_mem hm1, load_store_same _ _ _ hs]; rfl
        · intro q hq
          rcases hpw.1 q hq with h | h
          · right; exact h
          · left; exact h
      | succ j =>
        simp at hj
        rw [hval j q hj]; congr 2; omega
    · intro r hr; rw [hregs r hr, hrg1 r hr]
    · intro x t ht hx hx' hd
      rw [hmem x t ht hx hx' (fun q hq => hd q (by simp [hq])), hfar x t ht hx hx' (hd (off, s, u) (by simp))]

end X86
end Umlcc
