import Verif.Lemma.X64Mem
import Verif.Spec.X64Call
/-!
Helper lemmas: addresses relative to a base, pushes and pops of lists of registers.
-/
namespace Umlcc
namespace X86
open X64 ISem

/-- `x` bytes after `b` -/
def rel64 (b : BitVec 64) (x : Int) : BitVec 64 := b + BitVec.ofInt 64 x

theorem rel64_zero (b : BitVec 64) : rel64 b 0 = b := by simp [rel64]
theorem rel64_rel64 (b : BitVec 64) (x y : Int) : rel64 (rel64 b x) y = rel64 b (x + y) := by
  simp [rel64, BitVec.add_assoc, BitVec.ofInt_add]
theorem add8 (b : BitVec 64) : b + 8 = rel64 b 8 := by simp [rel64]
theorem sub8 (b : BitVec 64) : b - 8 = rel64 b (-8) := by
  unfold rel64; rw [BitVec.ofInt_neg, ← BitVec.sub_eq_add_neg]; rfl
theorem subInt (b : BitVec 64) (n : Int) : b - BitVec.ofInt 64 n = rel64 b (-n) := by
  unfold rel64; rw [BitVec.ofInt_neg, ← BitVec.sub_eq_add_neg]
theorem addInt (b : BitVec 64) (n : Int) : b + BitVec.ofInt 64 n = rel64 b n := rfl
theorem addNat (b : BitVec 64) (n : Nat) : b + BitVec.ofNat 64 n = rel64 b n := by
  unfold rel64; rw [BitVec.ofInt_natCast]

theorem rel64_sub_toNat (b : BitVec 64) (x y : Int) (h : 0 ≤ y - x) (h' : y - x < 2 ^ 64) :
    (rel64 b y - rel64 b x).toNat = (y - x).toNat := by
  have : rel64 b y - rel64 b x = BitVec.ofInt 64 (y - x) := by
    unfold rel64
    rw [show y = x + (y - x) from by omega, BitVec.ofInt_add, show x + (y - x) - x = y - x from by omega]
    generalize BitVec.ofInt 64 (y - x) = p; generalize BitVec.ofInt 64 x = q
    apply BitVec.eq_of_toNat_eq
    simp only [BitVec.toNat_sub, BitVec.toNat_add]
    have := b.isLt; have := p.isLt; have := q.isLt
    omega
  rw [this, BitVec.toNat_ofInt, Int.emod_eq_of_lt h (by simpa using h')]

theorem far_rel {b : BitVec 64} {x y : Int} {n k : Nat} (h1 : x + n ≤ y) (h2 : y + k ≤ x + 2 ^ 64) (hn : 0 < n) (hk : 0 < k) :
    far (rel64 b x) n (rel64 b y) k := by
  have e := rel64_sub_toNat b x y (by omega) (by omega)
  have hs := sub_toNat_add (rel64 b x) (rel64 b y) (by omega)
  constructor <;> omega

theorem push_regs (m : Mach) (v : BitVec 64) (r : Reg) (h : r ≠ .sp) : (push m v).regs r = m.regs r := by
  simp [push, setReg, store, h]
theorem push_sp (m : Mach) (v : BitVec 64) : (push m v).regs .sp = rel64 (m.regs .sp) (-8) := by
  rw [← sub8]
  show (setReg m .sp (m.regs .sp - 8)).regs .sp = _
  simp
theorem push_load_same (m : Mach) (v : BitVec 64) : load (push m v) (rel64 (m.regs .sp) (-8)) .quad = v := by
  unfold push; rw [← sub8]; exact load_store_same _ _ .quad (by decide) v
theorem push_load_far (m : Mach) (v : BitVec 64) {a : BitVec 64} {s : Sfx} (h : far (rel64 (m.regs .sp) (-8)) 8 a s.nbytes) :
    load (push m v) a s = load m a s := by
  have := load_store_far (setReg m .sp (m.regs .sp - 8)) (a := m.regs .sp - 8) (b := a) (s := .quad) (t := s) v
    (by rw [sub8]; exact h)
  exact this

/-- bytes outside the pushed slot keep their value -/
theorem push_mem_far (m : Mach) (v : BitVec 64) {a : BitVec 64} (h : 8 ≤ (a - rel64 (m.regs .sp) (-8)).toNat) :
    (push m v).mem a = m.mem a := by
  unfold push store writeLE
  simp only
  rw [if_neg]; rfl
  rw [sub8]; show ¬ _ < 8; omega

theorem starg_run (env : Env) (m m' : Mach) {o : Ope} {s : Option Ope} {cs : List XInst} {v : BitVec 64}
    (hv : argVal m o = some v) (hg : genStarg ⟨.starg, none, some o, s⟩ = .ok cs) (hr : run env m cs = .next m') :
    m' = push m v := by
  cases o <;> simp only [argVal, reduceCtorEq] at hv
  · rename_i sf id u
    split at hv
    · rename_i r hc
      simp only [genStarg, deref, physReg_ok hc, Out.ok_bind, Out.pure_eq, Out.ok.injEq] at hg
      subst hg
      rw [run_one (step_push env m r)] at hr
      cases hr; cases hv; rfl
    · cases hv
  · rename_i sf l
    simp only [genStarg, deref, Out.ok_bind, Out.pure_eq, Out.ok.injEq] at hg
    subst hg; cases hv
    by_cases hi : immFits .quad l.value = true
    · rw [run_one (step_pushi env m l hi)] at hr
      cases hr; rfl
    · exfalso
      have : stepI env m (is .push (.int .quad l)) = .bad := by
        rw [stepI_is env m .push (.int .quad l) "pushq" .push rfl (by decide) (by trivial)]
        simp [step, den, hi]
      rw [run_one this] at hr; cases hr

theorem keeps_load {n : Nat} {m m' : Mach} (h : Keeps n m m') (k : Nat) (hk : k + 8 ≤ n) :
    load m' (rel64 (m.regs .sp) k) .quad = load m (rel64 (m.regs .sp) k) .quad := by
  unfold load
  congr 1
  apply readLE_congr
  intro i hi
  have hi' : i < 8 := hi
  rw [addNat, rel64_rel64]
  have := h.2 (k + i) (by omega)
  rw [addNat] at this
  simpa using this

theorem passed_stack (env : Env) (m m' : Mach) (vs : List (BitVec 64)) (h : Passed env m vs m') (hn : 8 * vs.length < 2 ^ 62) :
    m'.regs .sp = rel64 (m.regs .sp) (-8 * vs.length) ∧
    ∀ (k : Nat) (v : BitVec 64), vs[k]? = some v → load m' (rel64 (m'.regs .sp) (8 * k)) .quad = v := by
  induction h with
  | nil => exact ⟨by simp [rel64_zero], by simp⟩
  | @cons vs m1 m2 m3 v o s cs _ hk hv hg hr ih =>
    simp only [List.length_cons] at hn ⊢
    obtain ⟨h1, h2⟩ := ih (by omega)
    have := starg_run env m2 m3 hv hg hr
    subst this
    rw [push_sp, hk.1, h1, rel64_rel64]
    refine ⟨by congr 1; push_cast; omega, ?_⟩
    intro k w hw
    cases k with
    | zero =>
      simp at hw; subst hw
      have := push_load_same m2 v
      rw [hk.1, h1, rel64_rel64] at this
      rw [show (8 * ((0 : Nat) : Int)) = 0 from rfl, rel64_zero]
      exact this
    | succ k =>
      simp at hw
      have hlt : k < vs.length := (List.getElem?_eq_some_iff.mp hw).1
      rw [rel64_rel64, push_load_far]
      · have h3 := keeps_load hk (8 * k) (by omega)
        have h4 := h2 k w hw
        rw [h1, rel64_rel64] at h4 h3
        rw [← h4]
        push_cast at h3
        rw [← h3]; congr 2; push_cast; omega
      · rw [hk.1, h1, rel64_rel64]
        apply far_rel <;> first | (show 0 < _; decide) | skip
        · push_cast; omega
        · show _ + ((8 : Nat) : Int) ≤ _; push_cast; omega

/-- popping a list of registers -/
theorem pops_run (env : Env) (m : Mach) (rs : List Reg) (hnd : rs.Nodup) (hsp : Reg.sp ∉ rs) :
    ∃ m', run env m (rs.map fun r => id1 .pop (.reg .quad r)) = .next m' ∧
      m'.regs .sp = rel64 (m.regs .sp) (8 * rs.length) ∧
      (∀ (k : Nat) (r : Reg), rs[k]? = some r → m'.regs r = load m (rel64 (m.regs .sp) (8 * k)) .quad) ∧
      (∀ r, r ≠ .sp → r ∉ rs → m'.regs r = m.regs r) ∧ m'.mem = m.mem := by
  induction rs generalizing m with
  | nil => exact ⟨m, rfl, by simp [rel64_zero], by simp, fun _ _ _ => rfl, rfl⟩
  | cons r rs ih =>
    simp only [List.nodup_cons] at hnd
    simp only [List.mem_cons, not_or] at hsp
    generalize hM : setReg (setReg m .sp (m.regs .sp + 8)) r (load m (m.regs .sp) .quad) = M
    have hst := step_pop env m r
    rw [hM] at hst
    obtain ⟨m', h1, h2, h3, h4, h5⟩ := ih M hnd.2 hsp.2
    have hMsp : M.regs .sp = rel64 (m.regs .sp) 8 := by
      rw [← hM, regs_setReg_ne _ _ _ _ hsp.1, regs_setReg_same, add8]
    have hMm : M.mem = m.mem := by rw [← hM]; rfl
    refine ⟨m', ?_, ?_, ?_, ?_, ?_⟩
    · simp only [List.map_cons, run, hst, h1]
    · rw [h2, hMsp, rel64_rel64]; congr 1; simp only [List.length_cons]; push_cast; omega
    · intro k q hk
      cases k with
      | zero =>
        simp at hk; subst hk
        rw [h4 r (Ne.symm hsp.1) hnd.1, ← hM]
        simp [rel64_zero]
      | succ k =>
        simp at hk
        rw [h3 k q hk, load_mem hMm, hMsp, rel64_rel64]; congr 2; push_cast; omega
    · intro q hq hq'
      simp only [List.mem_cons, not_or] at hq'
      rw [h4 q hq hq'.2, ← hM, regs_setReg_ne _ _ _ _ hq'.1, regs_setReg_ne _ _ _ _ hq]
    · rw [h5, hMm]

/-- pushing a list of registers -/
theorem pushes_run (env : Env) (m : Mach) (rs : List Reg) (hsp : Reg.sp ∉ rs) (hn : rs.length < 2 ^ 32) :
    ∃ m', run env m (rs.map fun r => is .push (.reg .quad r)) = .next m' ∧
      m'.regs .sp = rel64 (m.regs .sp) (-8 * rs.length) ∧
      (∀ (k : Nat) (r : Reg), rs[k]? = some r → load m' (rel64 (m.regs .sp) (-8 * (k + 1))) .quad = m.regs r) ∧
      (∀ r, r ≠ .sp → m'.regs r = m.regs r) ∧
      (∀ (x : Int) (n : Nat), 0 ≤ x → x + n + 8 * rs.length ≤ 2 ^ 63 → 0 < n →
        readLE m'.mem (rel64 (m.regs .sp) x) n = readLE m.mem (rel64 (m.regs .sp) x) n) := by
  induction rs generalizing m with
  | nil => exact ⟨m, rfl, by simp [rel64_zero], by simp, fun _ _ => rfl, fun _ _ _ _ _ => rfl⟩
  | cons r rs ih =>
    simp only [List.mem_cons, not_or] at hsp
    simp only [List.length_cons] at hn
    have hst := step_push env m r
    obtain ⟨m', h1, h2, h3, h4, h5⟩ := ih (push m (m.regs r)) hsp.2 (by omega)
    refine ⟨m', ?_, ?_, ?_, ?_, ?_⟩
    · simp only [List.map_cons, run, hst, h1]
    · rw [h2, push_sp, rel64_rel64]; congr 1; simp only [List.length_cons]; push_cast; omega
    · intro k q hk
      cases k with
      | zero =>
        simp at hk; subst hk
        have h6 := h5 0 8 (by omega) (by omega) (by decide)
        rw [rel64_zero, push_sp] at h6
        unfold load
        show BitVec.ofNat _ (readLE _ _ 8) = _
        rw [show (-8 * ((0 : Nat) + 1) : Int) = -8 from rfl, h6]
        exact push_load_same m (m.regs r)
      | succ k =>
        simp at hk
        have h6 := h3 k q hk
        rw [push_sp, rel64_rel64] at h6
        have hq : q ≠ .sp := by
          intro e; subst e; exact hsp.2 (List.mem_of_getElem? hk)
        rw [push_regs _ _ _ hq] at h6
        rw [← h6]; congr 2; push_cast; omega
    · intro q hq; rw [h4 q hq, push_regs _ _ _ hq]
    · intro x n hx hxn hn0
      simp only [List.length_cons] at hxn
      have h6 := h5 (x + 8) n (by omega) (by push_cast at hxn ⊢; omega) hn0
      rw [push_sp, rel64_rel64, show (-8 + (x + 8) : Int) = x from by omega] at h6
      rw [h6]
      have : far (rel64 (m.regs .sp) (-8)) 8 (rel64 (m.regs .sp) x) n := by
        apply far_rel
        · push_cast; omega
        · push_cast at hxn ⊢; omega
        · decide
        · exact hn0
      have h7 := readLE_far m.mem (m.regs r).toNat this
      rw [← sub8] at h7
      exact h7

end X86
end Umlcc
