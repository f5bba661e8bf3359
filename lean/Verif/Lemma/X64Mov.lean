import Verif.Lemma.X64Exec
import Verif.Spec.X64Arith
/-!
Helper lemmas: sequences of instructions and the moves emitted by `append_mov_code`.
-/
namespace Umlcc
namespace X86
open X64 ISem

theorem run_append (env : Env) (m : Mach) (a b : List XInst) :
    run env m (a ++ b) = match run env m a with
      | .next m' => run env m' b
      | r => r := by
  induction a generalizing m with
  | nil => rfl
  | cons i a ih =>
    simp only [List.cons_append, run]
    cases stepI env m i with
    | next m' => simp only [ih]
    | _ => rfl

theorem run_append_next {env : Env} {m m' : Mach} {a b : List XInst} (h : run env m a = .next m') :
    run env m (a ++ b) = run env m' b := by rw [run_append, h]

theorem run_one {env : Env} {m : Mach} {i : XInst} {r : Res} (h : stepI env m i = r) : run env m [i] = r := by
  simp only [run, h]; cases r <;> rfl

theorem step_mov_rr (env : Env) (m : Mach) {s : Sfx} {a b : Reg} (ha : GoodReg s a) (hb : GoodReg s b) :
    stepI env m (i2 .mov (.reg s a) (.reg s b)) = .next (set m b s (get m a s)) := by
  rw [stepI_i2 env m .mov (.reg s a) (.reg s b) _ _ rfl (mn_mov (s := s) ha.1) ha hb]
  simp [step, den, mov, isMem, value, assign]

theorem step_mov_ir (env : Env) (m : Mach) {s : Sfx} {l : ILit} {b : Reg} (hb : GoodReg s b)
    (hi : if s = .quad then immFits64 l.value = true else immFits s l.value = true) :
    stepI env m (i2 .mov (.int s l) (.reg s b)) = .next (set m b s (BitVec.ofInt _ l.value)) := by
  rw [stepI_i2 env m .mov (.int s l) (.reg s b) _ _ rfl (mn_mov (s := s) hb.1) (by trivial) hb]
  cases s <;> simp [step, den, mov, isMem, value, assign] at hi ⊢ <;> simp [hi]

theorem step_movs (env : Env) (m : Mach) {s t : Sfx} {a b : Reg} (ha : GoodReg s a) (hb : GoodReg t b)
    (hs : s = .byte ∨ s = .word) (hst : s.rank < t.rank) :
    stepI env m (i2 .movs (.reg s a) (.reg t b)) = .next (set m b t ((get m a s).signExtend _)) := by
  have hm : mnOf (fmt2 "movs" s "" t) = some (.movsx s t) := by
    rcases hs with rfl | rfl <;> cases t <;> first | (simp [Sfx.rank] at hst; done) | decide
  rw [stepI_i2 env m .movs (.reg s a) (.reg t b) _ _ rfl hm ha hb]
  simp [step, den]

theorem step_movz (env : Env) (m : Mach) {s t : Sfx} {a b : Reg} (ha : GoodReg s a) (hb : GoodReg t b)
    (hs : s = .byte ∨ s = .word) (hst : s.rank < t.rank) :
    stepI env m (i2 .movz (.reg s a) (.reg t b)) = .next (set m b t ((get m a s).setWidth _)) := by
  have hm : mnOf (fmt2 "movz" s "" t) = some (.movzx s t) := by
    rcases hs with rfl | rfl <;> cases t <;> first | (simp [Sfx.rank] at hst; done) | decide
  rw [stepI_i2 env m .movz (.reg s a) (.reg t b) _ _ rfl hm ha hb]
  simp [step, den]

theorem step_cltq (env : Env) (m : Mach) :
    stepI env m (i2 .cxtx (.sfx .long) (.sfx .quad)) = .next (set m .ax .quad ((get m .ax .long).signExtend _)) := by
  rw [stepI_none env m _ "cltq" .cltq (by decide) (by decide) (by decide)]
  rfl

theorem bits_mono {s t : Sfx} (h : s.rank ≤ t.rank) : s.bits ≤ t.bits := by
  cases s <;> cases t <;> first | decide | (simp [Sfx.rank] at h)

theorem conv_le {w w' : Nat} (u : Bool) (v : BitVec w) (h : w' ≤ w) : conv u v w' = v.setWidth w' := by
  unfold conv
  cases u
  · simp only [Bool.false_eq_true, if_false]; exact BitVec.signExtend_eq_setWidth_of_le v h
  · simp

theorem conv_self {w : Nat} (u : Bool) (v : BitVec w) : conv u v w = v := by
  rw [conv_le u v (Nat.le_refl _)]; simp

/-- the low part of an extended value is the value -/
theorem setWidth_conv {w w' : Nat} (u : Bool) (v : BitVec w) (h : w ≤ w') : (conv u v w').setWidth w = v := by
  unfold conv
  cases u
  · simp only [Bool.false_eq_true, if_false]
    apply BitVec.eq_of_getLsbD_eq
    intro i hi
    simp only [BitVec.getLsbD_setWidth, hi, decide_true, Bool.true_and, BitVec.getLsbD_signExtend]
    have : i < w' := by omega
    simp [this]
  · simp only [if_true]
    rw [BitVec.setWidth_setWidth_of_le _ h]; simp

/-- the widening for which `append_mov_code` emits an instruction that does not exist (or nothing) -/
def BadExt (ss ds : Sfx) (u : Bool) : Prop := u = true ∧ ss = .long ∧ ds = .quad

/-- the widening that goes through `%rax` -/
def ViaAx (ss ds : Sfx) (u : Bool) : Prop := u = false ∧ ss = .long ∧ ds = .quad

theorem appendMov_run (env : Env) (m : Mach) (ss ds : Sfx) (sr dr : Reg) (u : Bool)
    (hs : GoodReg ss sr) (hd : GoodReg ds dr) (hd' : GoodReg ds sr) (hb : ¬ BadExt ss ds u) :
    ∃ m', run env m (appendMov ss sr ds dr u) = .next m' ∧ get m' dr ds = conv u (get m sr ss) ds.bits ∧
      (∀ r, r ≠ dr → (ViaAx ss ds u → r ≠ .ax) → m'.regs r = m.regs r) ∧ m'.mem = m.mem ∧ m'.flags = m.flags := by
  unfold appendMov
  by_cases hr : ss.rank ≥ ds.rank
  · rw [if_pos hr]
    have hle : ds.bits ≤ ss.bits := bits_mono hr
    have hg : get m sr ds = conv u (get m sr ss) ds.bits := by
      rw [conv_le _ _ hle]; simp [get, BitVec.setWidth_setWidth_of_le _ hle]
    unfold movSimple
    by_cases he : sr = dr
    · subst he
      rw [if_pos rfl]
      exact ⟨m, rfl, hg, fun _ _ _ => rfl, rfl, rfl⟩
    · rw [if_neg he]
      refine ⟨_, run_one (step_mov_rr env m hd' hd), ?_, ?_, rfl, rfl⟩
      · rw [get_set_same, hg]
      · intro r h1 _; exact regs_set_ne _ _ _ _ _ h1
  · rw [if_neg hr]
    have hlt : ss.rank < ds.rank := by omega
    cases u with
    | true =>
      simp only [if_true]
      unfold movUnsigned
      by_cases hbw : ss = .byte ∨ ss = .word
      · rw [if_pos hbw]
        refine ⟨_, run_one (step_movz env m hs hd hbw hlt), ?_, ?_, rfl, rfl⟩
        · rw [get_set_same]; rfl
        · intro r h1 _; exact regs_set_ne _ _ _ _ _ h1
      · exfalso
        apply hb
        refine ⟨rfl, ?_⟩
        cases ss <;> cases ds <;> first | (simp at hbw; done) | (simp [Sfx.rank] at hlt; done) | (exact absurd rfl hs.1) | exact ⟨rfl, rfl⟩
    | false =>
      simp only [Bool.false_eq_true, if_false]
      unfold movSigned
      by_cases hbw : ss = .byte ∨ ss = .word
      · rw [if_pos hbw]
        refine ⟨_, run_one (step_movs env m hs hd hbw hlt), ?_, ?_, rfl, rfl⟩
        · rw [get_set_same]; rfl
        · intro r h1 _; exact regs_set_ne _ _ _ _ _ h1
      · rw [if_neg hbw]
        have hlq : ss = .long ∧ ds = .quad := by
          cases ss <;> cases ds <;> first | (simp at hbw; done) | (simp [Sfx.rank] at hlt; done) | (exact absurd rfl hs.1) | exact ⟨rfl, rfl⟩
        obtain ⟨rfl, rfl⟩ := hlq
        have hax : ∀ s, s ≠ .none → GoodReg s .ax := fun s h => ⟨h, by simp⟩
        -- into %eax
        obtain ⟨m1, h1, g1, r1, e1, f1⟩ : ∃ m1, run env m
            (if sr ≠ Reg.ax then [i2 .mov (.reg .long sr) (.reg .long .ax)] else []) = .next m1 ∧
            get m1 .ax .long = get m sr .long ∧ (∀ r, r ≠ .ax → m1.regs r = m.regs r) ∧ m1.mem = m.mem ∧
            m1.flags = m.flags := by
          by_cases hsa : sr = .ax
          · subst hsa; exact ⟨m, by simp [run], rfl, fun _ _ => rfl, rfl, rfl⟩
          · rw [if_pos hsa]
            exact ⟨_, run_one (step_mov_rr env m hs (hax _ (by simp))), get_set_same _ _ _ _,
              fun r h => regs_set_ne _ _ _ _ _ h, rfl, rfl⟩
        have h2 := step_cltq env m1
        rw [List.append_assoc, run_append_next h1, run_append_next (run_one h2)]
        by_cases hda : dr = .ax
        · subst hda
          refine ⟨_, by simp [run]; rfl, ?_, ?_, ?_, ?_⟩
          · rw [get_set_same, g1]; rfl
          · intro r h _; rw [regs_set_ne _ _ _ _ _ h]; exact r1 r h
          · exact e1
          · exact f1
        · rw [if_pos hda]
          refine ⟨_, run_one (step_mov_rr env _ (good_quad _) (good_quad _)), ?_, ?_, ?_, ?_⟩
          · rw [get_set_same, get_set_same, g1]; rfl
          · intro r h hv
            have hne := hv ⟨rfl, rfl, rfl⟩
            rw [regs_set_ne _ _ _ _ _ h, regs_set_ne _ _ _ _ _ hne]; exact r1 r hne
          · exact e1
          · exact f1

end X86
end Umlcc
