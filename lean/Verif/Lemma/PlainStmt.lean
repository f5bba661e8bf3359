import Verif.Lemma.PlainCall
import Verif.Lemma.GenLabelStmt
/-!
Code generated for statements and functions of the part of `Spec/Plain.lean`.
-/
namespace Umlcc
namespace Plain
open RSpec (reads writes)
open Gen
open X86 hiding load

theorem SU.nil {N : Option Nat} {n : Nat} {k : Int} {s s' : GState} (h : s'.reg = s.reg) : SU N n k s [] s' := .of (.nil h)

theorem SU.to {N : Option Nat} {n : Nat} {k : Int} {s s' s0 s2 : GState} {c : List Immc} (h : SU N n k s c s') (h0 : s0.reg = s.reg) (h2 : s2.reg = s'.reg) : SU N n k s0 c s2 := by
  obtain ⟨a, b, c, d, e, f⟩ := h
  rw [← h0, ← h2] at a b f
  exact ⟨a, b, c, d, e, f⟩

theorem SU.seq {N : Option Nat} {n : Nat} {k : Int} {s s1 s2 : GState} {a b : List Immc} (h : SU N n k s a s1) (g : SU N n k s1 b s2) : SU N n k s (a ++ b) s2 := by
  have r1 := h.reg
  have r2 := g.reg
  obtain ⟨q1, q2, q3⟩ := Rng.seq ⟨h.reg, h.rng, h.solo⟩ ⟨g.reg, g.rng, g.solo⟩
  refine ⟨q1, q2, q3, h.rets.append g.rets, by rw [scan_append, h.zero, g.zero], ?_⟩
  intro u x w e
  rcases split_app e with ⟨b', e1, rfl⟩ | ⟨a', e1, rfl⟩
  · obtain ⟨p1, p2, p3, p4⟩ := h.spot u x b' e1
    refine ⟨p1, p2, p3, fun i hi hc => ?_⟩
    obtain ⟨m, m1, m2, m3, m5, m6⟩ := p4 i hi hc
    refine ⟨m, m1, by omega, m3, m5, fun y hy v hv => ?_⟩
    rcases List.mem_append.1 hy with hy | hy
    · exact m6 y hy v hv
    · have := (g.rng y hy v (.inl hv)).1; omega
  · obtain ⟨p1, p2, p3, p4⟩ := g.spot a' x w e1
    have e2 : scan [] (a ++ a') = scan [] a' := by rw [scan_append, h.zero]
    refine ⟨by rw [e2]; exact p1, by rw [e2]; exact p2, by rw [e2]; exact p3, fun i hi hc => ?_⟩
    obtain ⟨m, m1, m2, m3, m5, m6⟩ := p4 i hi hc
    refine ⟨m, by omega, m2, fun y hy v hv => ?_, m5, m6⟩
    rcases List.mem_append.1 hy with hy | hy
    · have := (h.rng y hy v hv).2; exact .inl (by omega)
    · exact m3 y hy v hv

theorem SU.label {N : Option Nat} {n : Nat} {k i : Int} {s s' : GState} (h : s'.reg = s.reg) : SU N n k s [labelAt i] s' :=
  .of (((Use.nil (n := n) (s := s) (s' := s) rfl).skip (x := labelAt i) touch_label okX_label).to rfl h (fun _ h => h))
theorem SU.goto {N : Option Nat} {n : Nat} {k i : Int} {s s' : GState} (h : s'.reg = s.reg) : SU N n k s [jump i] s' :=
  .of (((Use.nil (n := n) (s := s) (s' := s) rfl).skip (x := jump i) touch_goto okX_goto).to rfl h (fun _ h => h))
theorem SU.goto' {N : Option Nat} {n : Nat} {k : Int} {m : Name} {s s' : GState} (h : s'.reg = s.reg) : SU N n k s [inst .jmp (some (.label m)) none none] s' :=
  .of (((Use.nil (n := n) (s := s) (s' := s) rfl).skip (x := inst .jmp (some (.label m)) none none) (by
    rintro v (h | h)
    · simp [inst, reads, RSpec.opeRegs] at h
    · cases h) rfl).to rfl h (fun _ h => h))

/-- setting the return value -/
theorem SU.stret {N : Option Nat} {n : Nat} {s s' : GState} {c : List Immc} {R : Int → Prop} {t : DType} {o : Ope} (h : Use n s c s' R) (ho : Val t o R) (k : Int) :
    SU N n k s (c ++ [inst .stret none (some o) none, jump k]) s' := by
  have hx : ∀ v, Touch (inst .stret none (some o) none) v → R v := by
    rintro v (hv | hv)
    · simp only [inst, reads, List.append_nil] at hv
      exact ho.regs (by simpa [RSpec.opeRegs] using hv)
    · cases hv
  refine .quiet ?_ ?_ ?_
  · have := (Rng.snoc (s' := s') h (Int.le_refl _) fun v hv => .inl (hx v hv)).seq (Rng.skip (s := s') (x := jump k) touch_goto)
    simpa using this
  · intro x hx'
    simp only [List.mem_append, List.mem_cons, List.not_mem_nil, or_false] at hx'
    rcases hx' with hx' | rfl | rfl
    · exact okS_of (h.ok x hx')
    · have := ho.loads
      simp [okS, inst, sets, ho.width, this]
    · rfl
  · intro i d f g hi
    by_cases hl : i < c.length
    · rw [List.getElem?_append_left hl] at hi
      exact (ret_sets (h.ok _ (List.mem_of_getElem? hi))).elim
    · rw [List.getElem?_append_right (by omega)] at hi ⊢
      obtain ⟨j, hj⟩ : ∃ j, i = c.length + j := ⟨i - c.length, by omega⟩
      subst hj
      rw [show c.length + j - c.length = j by omega] at hi
      rw [show c.length + j + 1 - c.length = j + 1 by omega]
      match j, hi with
      | 0, _ => rfl
      | 1, hi => simp [jump, inst] at hi
      | j + 2, hi => simp at hi

theorem SU.storeVal {N : Option Nat} {n : Nat} {k : Int} {s s' : GState} {c : List Immc} {R : Int → Prop} {t : DType} {o : Ope} (h : Use n s c s' R) (ho : Val t o R) {i : Int}
    (hi : inFrameB n (len t).nbytes (some (.mem i)) = true) : SU N n k s (c ++ [inst .store (some (.mem i)) (some o) none]) s' := by
  refine .of (R := fun _ => False) (h.add (by omega) ?_ ?_ nofun)
  · rintro v (hv | hv)
    · simp only [inst, reads, RSpec.opeRegs, List.append_nil] at hv
      exact .inl (ho.regs hv)
    · cases hv
  · have := ho.fits
    simp [okX, inst, allowed, shapeB, ho.width, this, hi]

/-- what is said of conditions, see `test_use` -/
def Tests (N : Option Nat) (n : Nat) (Γ : Types) (e : SExpr) : Prop :=
  ∀ {d : Bool} {s s' : GState} {j : Name → Immc} {c : List Immc}, Rel Γ s → s.mem ≤ n → (expr e).jmp d s = .ok (j, c, s') → ∀ (m : Name) {k : Int}, SU N n k s (c ++ [j m]) s'

theorem logical_begun {N : Option Nat} {n : Nat} {Γ : Types} {b : Bool} {t : DType} {l r : SExpr} (hl : Tests N n Γ l) (hr : Tests N n Γ r) (ht : len t ≠ .none)
    {s s' : GState} {c : List Immc} (hs : Rel Γ s) (hm : s.mem ≤ n) (h : logicalCode b t (expr l) (expr r) s = .ok ((), c, s')) :
    ∃ d, Begun N n s c s' (.reg (len t) d t.isUnsigned) t ∧ s'.exprReg = some (len t, d, t.isUnsigned) := by
  obtain ⟨j, c1, s1, k, c2, s2, h1, h2, rfl, rfl⟩ := logicalCode_ok h
  have g1 := ((expr_inv l).jmp h1).1
  have hs0 : Rel Γ { s with lab := s.lab + 1 + 1 } := hs.same rfl (by dsimp only; omega)
  have lit : ∀ v : Int, v = 0 ∨ v = 1 → ∀ d u, okX n (Gen.load (.reg (len t) d u) (intOpe (len t) v)) = true := by
    intro v hv d u
    have : immFits (len t) v = true := by
      rcases hv with rfl | rfl
      · exact fits_zero _
      · exact fits_one ht
    have := fits_loads this
    simp [okX, Gen.load, inst, allowed, shapeB, litLoadsB, widensB, inFrameB, intOpe, this]
  have k4 : Use n s2 [] { s2 with reg := s2.reg + 1 } (· = s2.reg + 1) :=
    (Use.nil (n := n) (s := s2) (s' := s2) rfl).bump (by dsimp only; omega) (by rintro v rfl; right; dsimp only; omega)
  have k5 := k4.into (R0 := (· = s2.reg + 1)) (z := len t) (d := s2.reg + 1) (u := t.isUnsigned) (o := intOpe (len t) (if b then 0 else 1)) rfl
    (by simp [intOpe, RSpec.opeRegs]) (lit _ (by cases b <;> simp) _ _) (fun v hv => hv)
  have k6 := (k5.skip (x := jump (s.lab + 1 + 1)) touch_goto okX_goto).skip (x := labelAt (s.lab + 1)) touch_label okX_label
  have k7 := k6.into (R0 := (· = s2.reg + 1)) (z := len t) (d := s2.reg + 1) (u := t.isUnsigned) (o := intOpe (len t) (if b then 1 else 0)) rfl
    (by simp [intOpe, RSpec.opeRegs]) (lit _ (by cases b <;> simp) _ _) (fun v hv => hv)
  have k8 := (k7.skip (x := labelAt (s.lab + 1 + 1)) touch_label okX_label).to (s0 := s2)
    (s2 := { s2 with reg := s2.reg + 1, exprReg := some (Sfx.get t.nbytes, s2.reg + 1, t.isUnsigned) }) rfl rfl (fun _ h => h)
  refine ⟨s2.reg + 1, ⟨(c1 ++ [j (labelName (s.lab + 1))]) ++ (c2 ++ [k (labelName (s.lab + 1))]), _, s2, _, ?_, k8, rfl, fun h3 hb => ?_⟩, rfl⟩
  · simp [len]
  · exact (((hl hs0 hm h1 (labelName (s.lab + 1))).seq (hr (hs0.frame g1) (mem_frame (s := { s with lab := s.lab + 1 + 1 }) hm g1) h2 (labelName (s.lab + 1)))).to
      (s0 := s) (s2 := s2) rfl rfl).seq hb.weaken

theorem cond_begun {N : Option Nat} {n : Nat} {Γ : Types} {t : DType} {c l r : SExpr} (hc : Tests N n Γ c) (hl : GUse n Γ false none l (expr l))
    (hr : GUse n Γ false none r (expr r)) (z1 : zext l.dt t = false) (z2 : zext r.dt t = false)
    {s s' : GState} {code : List Immc} (hs : Rel Γ s) (hm : s.mem ≤ n) (h : condCode t (expr c) (expr l) (expr r) s = .ok ((), code, s')) :
    ∃ d, Begun N n s code s' (.reg (len t) d t.isUnsigned) t ∧ s'.exprReg = some (len t, d, t.isUnsigned) := by
  obtain ⟨j, c1, s1, a, c2, s2, b, c3, s3, h1, h2, h3, rfl, rfl⟩ := condCode_ok h
  have g1 := ((expr_inv c).jmp h1).1
  have g2 := (expr_inv l).reg h2
  have hs0 : Rel Γ { s with lab := s.lab + 1 + 1 } := hs.same rfl (by dsimp only; omega)
  have hs1 : Rel Γ s1 := hs0.frame g1
  have hm1 : s1.mem ≤ n := mem_frame (s := { s with lab := s.lab + 1 + 1 }) hm g1
  have hs1' : Rel Γ { s1 with reg := s1.reg + 1 } := hs1.same rfl (by dsimp only; omega)
  obtain ⟨ra, rfl, k2, -⟩ := hl.regOf hs1' hm1 h2
  obtain ⟨rb, rfl, k3, -⟩ := hr.regOf (hs1'.frame g2) (mem_frame (s := { s1 with reg := s1.reg + 1 }) hm1 g2) h3
  have k4 : Use n s1 [] { s1 with reg := s1.reg + 1 } (· = s1.reg + 1) :=
    (Use.nil (n := n) (s := s1) (s' := s1) rfl).bump (by dsimp only; omega) (by rintro v rfl; right; dsimp only; omega)
  have k5 := (k4.seq k2).into (R0 := (· = s1.reg + 1)) (z := len t) (d := s1.reg + 1) (u := t.isUnsigned) (o := .reg (len l.dt) ra l.dt.isUnsigned) (.inl rfl)
    (by intro v hv; simp only [RSpec.opeRegs, List.mem_singleton] at hv; exact .inr hv) (okX_conv z1) (fun v hv => .inl hv)
  have k6 := (k5.skip (x := jump (s.lab + 1 + 1)) touch_goto okX_goto).skip (x := labelAt (s.lab + 1)) touch_label okX_label
  have k7 := (k6.seq k3).into (R0 := (· = s1.reg + 1)) (z := len t) (d := s1.reg + 1) (u := t.isUnsigned) (o := .reg (len r.dt) rb r.dt.isUnsigned) (.inl rfl)
    (by intro v hv; simp only [RSpec.opeRegs, List.mem_singleton] at hv; exact .inr hv) (okX_conv z2) (fun v hv => .inl hv)
  have k8 := (k7.skip (x := labelAt (s.lab + 1 + 1)) touch_label okX_label).to (s0 := s1)
    (s2 := { s3 with exprReg := some (Sfx.get t.nbytes, s1.reg + 1, t.isUnsigned) }) rfl rfl (fun _ h => h)
  refine ⟨s1.reg + 1, ⟨c1 ++ [j (labelName (s.lab + 1))], _, s1, _, ?_, k8, rfl, fun h3 hb => ?_⟩, rfl⟩
  · simp [len]
  · exact ((hc hs0 hm h1 (labelName (s.lab + 1))).to (s0 := s) (s2 := s1) rfl rfl).seq hb.weaken

/-- the code of a value, and the value in its register -/
theorem plain_begun {N : Option Nat} {n : Nat} {code : GM Unit} {t : DType} {s : GState}
    (hc : ∀ {c s'}, code s = .ok ((), c, s') → ∃ d, Begun N n s c s' (.reg (len t) d t.isUnsigned) t ∧ s'.exprReg = some (len t, d, t.isUnsigned))
    {p : Ope} {c : List Immc} {s' : GState} (h : (do code; castReg none : GM Ope) s = .ok (p, c, s')) : Begun N n s c s' p t := by
  simp only [bind_ok] at h
  obtain ⟨_, c1, s1, c2, ha, hb, rfl⟩ := h
  obtain ⟨d, k1, k2⟩ := hc ha
  exact k1.conv (o := none) (by rintro _ _ _ ⟨⟩; exact k2) rfl hb

theorem begun_test {N : Option Nat} {n : Nat} {g : G} {t : DType} {d : Bool} {s s' : GState} {j : Name → Immc} {c : List Immc}
    (hg : ∀ {p c s'}, g.int none s = .ok (p, c, s') → Begun N n s c s' p t) (h : jmpZero g.reg d s = .ok (j, c, s')) (m : Name) {k : Int} : SU N n k s (c ++ [j m]) s' := by
  obtain ⟨sf, r, u, h', rfl⟩ := jmpZero_ok h
  obtain ⟨c0, b0, s2, r', rfl, k1, he, k2⟩ := Begun.reg hg h'
  cases he
  have k3 := k1.jump (jump_zero (n := n) (d := d) (sf := len t) (r := r) (u := t.isUnsigned)) m (R0 := fun _ => False) nofun
  have := k2 (k := k) (Int.le_refl _) (SU.of k3)
  simpa using this

/-- a condition that does not branch, and its jump -/
theorem flatTest_use {N : Option Nat} {n : Nat} {Γ : Types} {e : SExpr} (hp : (plain Γ true none e || callVal N Γ none e || callCmp N Γ e) = true) : Tests N n Γ e := by
  intro d s s' j c hs hm h m k
  simp only [Bool.or_eq_true] at hp
  rcases hp with (hp | hp) | hp
  · obtain ⟨R, k1, hj⟩ := (expr_use n e hp).jmp rfl hs hm h
    exact .of (k1.jump hj m (R0 := fun _ => False) nofun)
  · rw [callVal_jmp (n := n) e hp] at h
    obtain ⟨sf, r, u, h', rfl⟩ := jmpZero_ok h
    obtain ⟨c0, b0, s2, r', rfl, k1, he, k2⟩ := callVal_reg (n := n) hp hs hm h'
    cases he
    have k3 := k1.jump (jump_zero (n := n) (d := d) (sf := len e.dt) (r := r) (u := e.dt.isUnsigned)) m (R0 := fun _ => False) nofun
    have := k2 (k := k) (Int.le_refl _) (SU.of k3)
    simpa using this
  · unfold callCmp at hp
    split at hp
    · rename_i op t l r
      simp only [Bool.and_eq_true, decide_eq_true_eq] at hp
      obtain ⟨⟨⟨⟨p1, p2⟩, p3⟩, p4⟩, p5⟩ := hp
      rcases operands_cmp ⟨p1, p2⟩ p5 with p5 | ⟨-, hj, hd⟩
      · have hv : callVal N Γ none (.bin op t l r) = true := by simp [callVal, p1, p2, p3, p4, p5, conv]
        rw [callVal_jmp (n := n) _ hv] at h
        obtain ⟨sf, r1, u, h', rfl⟩ := jmpZero_ok h
        obtain ⟨c0, b0, s2, r', rfl, k1, he, k2⟩ := callVal_reg (n := n) hv hs hm h'
        cases he
        have k3 := k1.jump (jump_zero (n := n) (d := d) (sf := len t) (r := r1) (u := t.isUnsigned)) m (R0 := fun _ => False) nofun
        have := k2 (k := k) (Int.le_refl _) (SU.of k3)
        rw [List.append_assoc]; exact this
      · rw [expr] at h
        simp only [G.bin] at h
        cases hi : cjmp op d with
        | none => exact absurd hi (hj d)
        | some i =>
          rw [hi] at h
          obtain ⟨a, d1, t1, d', h1, rfl, h2, h3⟩ := cmp_later (expr_use n r p4) (cjmp_ops hi).1 hd hs hm h
          obtain ⟨c0, b, s2, f, rfl, k1, rfl, k2⟩ := callVal_reg p3 hs hm h1
          obtain ⟨R, h4, h5⟩ := h3 rfl k1
          have := k2 (k := k) h2 (SU.of (h4.jump h5 m (R0 := fun _ => False) nofun))
          simpa using this
    · cases hp

/-- a condition and its jump -/
theorem test_use {N : Option Nat} {n : Nat} {Γ : Types} (e : SExpr) (hp : plainTest N Γ e = true) : Tests N n Γ e := by
  revert hp
  fun_induction plainTest N Γ e with
  | case1 t l r h1 h2 =>
    intro hp
    simp only [Bool.and_eq_true, decide_eq_true_eq] at hp
    intro d s s' j c hs hm h m k
    rw [expr] at h
    exact begun_test (g := .plain _) (t := t) (plain_begun fun h => logical_begun (h1 hp.1.1) (h2 hp.1.2) hp.2 hs hm h) h m
  | case2 t l r h1 h2 =>
    intro hp
    simp only [Bool.and_eq_true, decide_eq_true_eq] at hp
    intro d s s' j c hs hm h m k
    rw [expr] at h
    exact begun_test (g := .plain _) (t := t) (plain_begun fun h => logical_begun (h1 hp.1.1) (h2 hp.1.2) hp.2 hs hm h) h m
  | case3 t c l r h1 =>
    intro hp
    simp only [Bool.and_eq_true, Bool.not_eq_true'] at hp
    intro d s s' j cc hs hm h m k
    rw [expr] at h
    exact begun_test (g := .plain _) (t := t) (plain_begun fun h => cond_begun (h1 hp.1.1.1.1) (expr_use n l hp.1.1.1.2) (expr_use n r hp.1.1.2) hp.1.2 hp.2 hs hm h) h m
  | case4 => exact fun hp => flatTest_use hp

/-- a value with calls -/
theorem callUsed_use {N : Option Nat} {n : Nat} {Γ : Types} {e : SExpr} (hp : callUsed N Γ e = true) {s s' : GState} {p : Ope} {c : List Immc} (hs : Rel Γ s) (hm : s.mem ≤ n)
    (h : (expr e).int none s = .ok (p, c, s')) : Begun N n s c s' p e.dt := by
  simp only [callUsed, Bool.or_eq_true, Bool.and_eq_true] at hp
  rcases hp with hp | ⟨hb, hp⟩
  · exact callVal_use e hp hs hm h
  · unfold branches at hb
    split at hb
    · simp only [plainTest, Bool.and_eq_true, decide_eq_true_eq] at hp
      rw [expr] at h
      exact plain_begun (fun h => logical_begun (test_use _ hp.1.1) (test_use _ hp.1.2) hp.2 hs hm h) h
    · simp only [plainTest, Bool.and_eq_true, decide_eq_true_eq] at hp
      rw [expr] at h
      exact plain_begun (fun h => logical_begun (test_use _ hp.1.1) (test_use _ hp.1.2) hp.2 hs hm h) h
    · simp only [plainTest, Bool.and_eq_true, Bool.not_eq_true'] at hp
      rw [expr] at h
      exact plain_begun (fun h => cond_begun (test_use _ hp.1.1.1.1) (expr_use n _ hp.1.1.1.2) (expr_use n _ hp.1.1.2) hp.1.2 hp.2 hs hm h) h
    · cases hb

theorem callUsed_reg {N : Option Nat} {n : Nat} {Γ : Types} {e : SExpr} (hp : callUsed N Γ e = true) {s s' : GState} {p : Ope} {c : List Immc} (hs : Rel Γ s) (hm : s.mem ≤ n)
    (h : (expr e).reg s = .ok (p, c, s')) : Begun N n s c s' p e.dt := Begun.reg (fun h => callUsed_use hp hs hm h) h

/-- a value that is used, and the code that uses it -/
theorem val_use {N : Option Nat} {n : Nat} {Γ : Types} {e : SExpr} (hp : plainVal N Γ e = true) {s s' : GState} {p : Ope} {c : List Immc} (hs : Rel Γ s) (hm : s.mem ≤ n)
    (h : (expr e).int none s = .ok (p, c, s')) {k : Int} {b : List Immc}
    (hb : ∀ {M : Option Nat} {s0 c0 R}, Use n s0 c0 s' R → Val e.dt p R → SU M n k s0 (c0 ++ b) s') : SU N n k s (c ++ b) s' := by
  simp only [plainVal, Bool.or_eq_true] at hp
  rcases hp with hp | hp
  · obtain ⟨R, k1, k2, -⟩ := (expr_use n e hp).int rfl hs hm h
    exact hb k1 k2
  · obtain ⟨c0, b0, s2, r, rfl, k1, rfl, k2⟩ := callUsed_use (n := n) hp hs hm h
    have := k2 (Int.le_refl _) (hb (M := none) k1 (.inl ⟨r, rfl, rfl⟩) : SU none n k s2 (b0 ++ b) s')
    simpa using this

/-- a call as a statement -/
theorem callStmt_use {N : Option Nat} {n : Nat} {Γ : Types} : ∀ {e : SExpr}, callStmt N Γ e = true → ∀ {s s' : GState} {c : List Immc}, Rel Γ s → s.mem ≤ n →
    (expr e).code s = .ok ((), c, s') → ∀ {k : Int}, SU N n k s c s'
  | .call t f as, hp, s, s', c, hs, hm, h, k => by
    simp only [callStmt, Bool.and_eq_true, Bool.or_eq_true, decide_eq_true_eq] at hp
    rw [expr] at h
    cases N with
    | none => simp [callee, few] at hp
    | some M =>
      obtain ⟨s2, h1, -, h3⟩ := call_use (t := t) (s' := s') (c := c) hp.1.1 (fun hs hm h => args_use as hp.1.2 (callee_few hp.1.1) (by omega) hs hm h) hp.2 hs hm h
      have := h3 (k := k) (b := []) (Int.le_refl _) (SU.of ((Use.nil (n := n) (s := s2) (s' := s2) rfl).bump (R' := fun _ => False) h1 nofun))
      simpa using this
  | .bin .assign t l r, hp, s, s', c, hs, hm, h, k => by
    simp only [callStmt, Bool.and_eq_true] at hp
    obtain ⟨⟨⟨p1, p2⟩, p3⟩, p4⟩ := hp
    rw [expr] at h
    obtain ⟨sf, id, us, c1, s1, p, c2, s2, h1, h2, rfl, rfl⟩ := assignCode_ok h
    have g1 := (expr_inv r).reg h1
    obtain ⟨c0, b0, s3, r', rfl, k1, he, k2⟩ := callUsed_reg (n := n) p1 hs hm h1
    cases he
    obtain ⟨R', k3, hpl⟩ := (expr_use n l p2).ptr rfl rfl p3 (hs.frame g1) (mem_frame hm g1) h2
    have r3 := k3.reg
    have := k2 (k := k) (s3 := { s2 with exprReg := some (len r.dt, id, r.dt.isUnsigned) }) r3
      ((SU.of ((k1.seq k3).store hpl (u := r.dt.isUnsigned) p4 (.inl rfl) fun v hv => .inr hv)).to rfl rfl)
    simpa using this

/-! ### scopes -/

theorem Within.mono {m m' : Nat} {y : GSym} (h : Within m y) (hm : m ≤ m') : Within m' y := by
  unfold Within at h ⊢
  split <;> simp_all
  omega

theorem Rel.enter {Γ : Types} {s : GState} (h : Rel Γ s) : Rel ([] :: Γ) { s with syms := [] :: s.syms, tags := [] :: s.tags } := by
  obtain ⟨ht, ls, os, e, rfl, h3, h4⟩ := h
  exact ⟨by simpa [smallTags] using ht, [] :: ls, os, by simp [e], rfl, h3, by simpa using h4⟩

theorem Rel.leave {Γ : Types} {sc : List (Str × DType)} {s : GState} (h : Rel (sc :: Γ) s) :
    Rel Γ { s with syms := s.syms.tail, tags := s.tags.tail } := by
  obtain ⟨ht, ls, os, e, e2, h3, h4⟩ := h
  have ht : smallTags s.tags.tail = true := by
    cases hts : s.tags with
    | nil => rfl
    | cons sc ts =>
      rw [hts] at ht
      simp only [smallTags, List.all_cons, Bool.and_eq_true] at ht
      exact ht.2
  cases ls with
  | nil => simp [types] at e2
  | cons l ls =>
    simp only [types, List.map_cons, List.cons.injEq] at e2
    exact ⟨ht, ls, os, by simp [e], e2.2, h3, fun sc hs => h4 sc (by simp [hs])⟩

/-- a declaration -/
theorem Rel.declare {Γ : Types} {s : GState} (h : Rel Γ s) (hΓ : Γ ≠ []) {n : Str} (hn : CStm.isNew n Γ = true) (t : DType) :
    canDefine n s.syms = true ∧ Rel (CStm.add n t Γ) (s.declare n t) ∧ s.mem ≤ (s.declare n t).mem := by
  obtain ⟨ht, ls, os, e, rfl, h3, h4⟩ := h
  cases ls with
  | nil => simp [types] at hΓ
  | cons l ls =>
    have hc : canDefine n s.syms = true := by
      rw [e]
      simp only [List.cons_append, canDefine]
      simp only [types, List.map_cons, CStm.isNew, lookup_types, Option.isNone_map] at hn
      exact hn
    refine ⟨hc, ?_, ?_⟩
    · unfold GState.declare
      rw [if_pos hc]
      split
      · refine ⟨ht, ((n, ⟨.mem ((s.mem + t.nbytes + 3) / 4 * 4), t⟩) :: l) :: ls, os, by simp [e, define], by simp [types, CStm.add], h3, ?_⟩
        intro sc hs p hp
        rcases List.mem_cons.1 hs with rfl | hs
        · rcases List.mem_cons.1 hp with rfl | hp
          · simp only [Within]
            omega
          · exact (h4 _ (by simp) p hp).mono (by dsimp only; omega)
        · exact (h4 sc (by simp [hs]) p hp).mono (by dsimp only; omega)
      · rename_i ho
        refine ⟨ht, ((n, ⟨.label, t⟩) :: l) :: ls, os, by simp [e, define], by simp [types, CStm.add], h3, ?_⟩
        intro sc hs p hp
        rcases List.mem_cons.1 hs with rfl | hs
        · rcases List.mem_cons.1 hp with rfl | hp
          · simpa [Within] using ho
          · exact h4 _ (by simp) p hp
        · exact h4 sc (by simp [hs]) p hp
    · unfold GState.declare
      rw [if_pos hc]
      split
      · dsimp only; omega
      · exact Nat.le_refl _

/-- what a declared object is -/
theorem declare_look {s : GState} {n : Str} {t : DType} (hc : canDefine n s.syms = true) (ho : t.isObject = true) {y : GSym}
    (hl : lookup n (s.declare n t).syms = some y) : y = ⟨.mem (s.declare n t).mem, t⟩ ∧ t.nbytes ≤ (s.declare n t).mem := by
  unfold GState.declare at hl ⊢
  rw [if_pos hc, if_pos ho] at hl ⊢
  dsimp only at hl ⊢
  refine ⟨?_, by omega⟩
  cases hs : s.syms with
  | nil => rw [hs] at hl; simp [define, lookup] at hl; exact hl.symm
  | cons sc scs => rw [hs] at hl; simp [define, lookup] at hl; exact hl.symm

theorem add_cons (n : Str) (t : DType) (sc : List (Str × DType)) (Γ : Types) : CStm.add n t (sc :: Γ) = ((n, t) :: sc) :: Γ := rfl

theorem declareOne_cons (d : SDecl) (sc : List (Str × DType)) (Γ : Types) : ∃ sc', declareOne (sc :: Γ) d = sc' :: Γ := by
  unfold declareOne
  split
  · exact ⟨_, rfl⟩
  · exact ⟨_, rfl⟩

theorem declareAll_cons : ∀ (ds : List SDecl) (sc : List (Str × DType)) (Γ : Types), ∃ sc', declareAll (sc :: Γ) ds = sc' :: Γ
  | [], _, _ => ⟨_, rfl⟩
  | d :: ds, sc, Γ => by
    obtain ⟨sc', h⟩ := declareOne_cons d sc Γ
    rw [declareAll, h]
    exact declareAll_cons ds sc' Γ

theorem scopeOf_cons (i : SItem) (sc : List (Str × DType)) (Γ : Types) : ∃ sc', scopeOf (sc :: Γ) i = sc' :: Γ := by
  cases i with
  | decls ds => exact declareAll_cons ds sc Γ
  | _ => exact ⟨_, rfl⟩

/-! ### statements -/

/-- what a statement does: `Γ` describes the scopes after it, `q` is the type of the controlling expression -/
structure SUse (N : Option Nat) (Γ : Types) (q : DType) (s : GState) (c : List Immc) (s' : GState) : Prop where
  mem : s.mem ≤ s'.mem
  rel : Rel Γ s'
  cases : ∀ p ∈ s'.cases.getD [], p ∈ s.cases.getD [] ∨ caseFits q p.2 = true
  use : ∀ n, s'.mem ≤ n → SU N n s.ret s c s'

theorem SUse.of {N : Option Nat} {Γ : Types} {q : DType} {s s' : GState} {c : List Immc} (hs : Rel Γ s) (hg : Good s c s') (h : ∀ n, s.mem ≤ n → SU N n s.ret s c s') : SUse N Γ q s c s' :=
  ⟨by rw [hg.1.mem]; omega, hs.frame hg, fun p hp => .inl (by rw [hg.1.cases] at hp; exact hp), fun n hn => h n (by rw [hg.1.mem] at hn; exact hn)⟩

theorem SUse.seq {N : Option Nat} {Γ Γ' : Types} {q : DType} {s s1 s' : GState} {a b : List Immc} (h : SUse N Γ q s a s1) (k : SUse N Γ' q s1 b s') (hr : s1.ret = s.ret) :
    SUse N Γ' q s (a ++ b) s' := by
  refine ⟨Nat.le_trans h.mem k.mem, k.rel, fun p hp => ?_, fun n hn => (h.use n (Nat.le_trans k.mem hn)).seq (hr ▸ k.use n hn)⟩
  rcases k.cases p hp with hp | hp
  · exact h.cases p hp
  · exact .inr hp

theorem SUse.to {N : Option Nat} {Γ : Types} {q : DType} {s s0 s' s2 : GState} {c : List Immc} (h : SUse N Γ q s c s') (h0 : s0.reg = s.reg) (h1 : s0.mem = s.mem) (h2 : s0.ret = s.ret)
    (h3 : s0.cases = s.cases) (k0 : s2.reg = s'.reg) (k1 : s2.mem = s'.mem) (k2 : s2.syms = s'.syms) (k3 : s2.cases = s'.cases) (k4 : s2.tags = s'.tags := by rfl) : SUse N Γ q s0 c s2 := by
  refine ⟨by rw [h1, k1]; exact h.mem, h.rel.same k2 (by omega) k4, fun p hp => ?_, fun n hn => ?_⟩
  · rw [k3] at hp
    rw [h3]
    exact h.cases p hp
  · rw [k1] at hn
    rw [h2]
    exact (h.use n hn).to h0 k0

theorem SUse.nil {N : Option Nat} {Γ : Types} {q : DType} {s : GState} (hs : Rel Γ s) : SUse N Γ q s [] s := ⟨Nat.le_refl _, hs, fun _ h => .inl h, fun _ _ => .nil rfl⟩
theorem SUse.label {N : Option Nat} {Γ : Types} {q : DType} {s : GState} (hs : Rel Γ s) (i : Int) : SUse N Γ q s [labelAt i] s := ⟨Nat.le_refl _, hs, fun _ h => .inl h, fun _ _ => .label rfl⟩
theorem SUse.goto {N : Option Nat} {Γ : Types} {q : DType} {s : GState} (hs : Rel Γ s) (i : Int) : SUse N Γ q s [jump i] s := ⟨Nat.le_refl _, hs, fun _ h => .inl h, fun _ _ => .goto rfl⟩
theorem SUse.goto' {N : Option Nat} {Γ : Types} {q : DType} {s : GState} (hs : Rel Γ s) (m : Name) : SUse N Γ q s [inst .jmp (some (.label m)) none none] s :=
  ⟨Nat.le_refl _, hs, fun _ h => .inl h, fun _ _ => .goto' rfl⟩

/-- a condition and its jump -/
theorem SUse.cond {N : Option Nat} {Γ : Types} {q : DType} {e : SExpr} (hp : plainTest N Γ e = true) {d : Bool} {s s' : GState} {j : Name → Immc} {c : List Immc} (hs : Rel Γ s)
    (h : (expr e).jmp d s = .ok (j, c, s')) (m : Name) : SUse N Γ q s (c ++ [j m]) s' := by
  have hg := ((expr_inv e).jmp h).1
  have hm := hg.1.mem
  exact ⟨by omega, hs.frame hg, fun p hp => .inl (by rw [hg.1.cases] at hp; exact hp), fun n hn => test_use e hp hs (by omega) h m⟩

theorem caseJump_ok {n : Nat} {q : DType} {r : Int} {id : Int} {l : ILit} (h : caseFits q l = true) :
    okX n (inst .jeq (some (labelOpe id)) (some (.reg (len q) r q.isUnsigned)) (some (.int (Sfx.get l.type.nbytes) l))) = true := by
  simp only [caseFits, Bool.and_eq_true, Bool.not_eq_true'] at h
  obtain ⟨h1, h2⟩ := h
  have hw : IMach.wider (len q) (IMach.width (some (.int (Sfx.get l.type.nbytes) l))) =
      if (len q).bits < (Sfx.get l.type.nbytes).bits then Sfx.get l.type.nbytes else len q := rfl
  have h3 : widensB true (.reg (len q) r q.isUnsigned) (if (len q).bits < (Sfx.get l.type.nbytes).bits then Sfx.get l.type.nbytes else len q) = false := by
    revert h1
    generalize q.isUnsigned = u
    cases u <;> intro h1 <;> unfold widensB <;> split <;> simp_all
  simp only [okX, inst, allowed, shapeB, labelOpe, hw, pairB, h3, widens_int, litFitsB, h2, Bool.not_false, Bool.and_self]

theorem caseJumps_use {n : Nat} {s s' : GState} {q : DType} {r : Int} : ∀ {cs : List (Int × ILit)} {c : List Immc}, (∀ p ∈ cs, caseFits q p.2 = true) → Use n s c s' (· = r) →
    Use n s (c ++ caseJumps (.reg (len q) r q.isUnsigned) cs) s' (· = r)
  | [], c, _, h => by simpa [caseJumps] using h
  | (id, l) :: cs, c, hc, h => by
    have hcl : caseFits q l = true := hc (id, l) (List.mem_cons_self ..)
    have h1 := h.add (s' := s') (R' := (· = r)) (by omega) (x := inst .jeq (some (labelOpe id)) (some (.reg (len q) r q.isUnsigned)) (some (.int (Sfx.get l.type.nbytes) l))) (by
      rintro v (hv | hv)
      · simp [inst, reads, RSpec.opeRegs, labelOpe] at hv
        exact .inl hv
      · cases hv) (caseJump_ok hcl) (fun v hv => ⟨.inl hv, by simp [inst, eats, swallows]⟩)
    have h2 := caseJumps_use (cs := cs) (fun p hp => hc p (by simp [hp])) h1
    simpa [caseJumps] using h2

theorem isScalar_init {t : DType} {e : SExpr} {s s' : GState} {c : List Immc} (h : localInit (.expr e) t s = .ok ((), c, s')) : localScalar t (expr e) s = .ok ((), c, s') := by
  rw [localInit] at h
  split at h
  · exact h
  · simp [ub_ok] at h

/-- what an initialiser does that begins at the current offset, for an object of `b` bytes -/
structure IUse (N : Option Nat) (Γ : Types) (b : Nat) (s : GState) (c : List Immc) (s' : GState) : Prop where
  rel : Rel Γ s'
  mem : s'.mem = s.mem
  cases : s'.cases = s.cases
  off : s'.initOff = s.initOff - b
  use : ∀ n, s.mem ≤ n → ∀ {k : Int}, SU N n k s c s'

/-- a copy of a string -/
theorem string_use {N : Option Nat} (hN : N ≠ none) {n m : Nat} {k o : Int} {b : List UInt8} (hb : copied m b = true) (h1 : (m : Int) ≤ o) (h2 : o ≤ n) {s s' : GState}
    (hr : s'.reg = s.reg) : SU N n k s [inst .str (some (.mem o)) (some (.str b)) none] s' := by
  have ht : ∀ v, ¬ Touch (inst .str (some (.mem o)) (some (.str b)) none) v := by
    rintro v (h | h)
    · simp [inst, reads, RSpec.opeRegs] at h
    · cases h
  have hrange := (Rng.skip (s := s) ht)
  simp only [copied, Bool.and_eq_true, Bool.or_eq_true, decide_eq_true_eq, List.all_eq_true] at hb
  refine ⟨by omega, ?_, hrange.solo, ?_, rfl, ?_⟩
  · intro x hx v hv
    cases List.mem_singleton.1 hx
    exact absurd hv (ht v)
  · intro i d f g hi
    rcases i with _ | i <;> simp [inst] at hi
  · intro a x c e
    rcases a with _ | ⟨z, a⟩
    · simp only [List.nil_append, List.cons.injEq] at e
      obtain ⟨rfl, rfl⟩ := e
      refine ⟨.inr ⟨hN, _, rfl, rfl, o, b, rfl, rfl, hb.1.1, by have := hb.1.2; omega, by have := hb.2; omega, h2, nofun⟩, fun _ => rfl, Nat.zero_le _, fun i _ _ => ?_⟩
      exact ⟨s.reg, Int.le_refl _, by omega, by simp, fun v hv => absurd (.inr hv) (ht v), by simp⟩
    · simp at e

mutual
theorem init_use {N : Option Nat} {Γ : Types} : ∀ (i : SInit) {t : DType}, plainInit N Γ i t = true → ∀ {s s' : GState} {c : List Immc}, Rel Γ s → localInit i t s = .ok ((), c, s') →
    (t.nbytes : Int) ≤ s.initOff → s.initOff ≤ s.mem → IUse N Γ t.nbytes s c s'
  | .expr e, t, hp, s, s', c, hs, h, h1, h2 => by
    simp only [plainInit, Bool.and_eq_true, decide_eq_true_eq] at hp
    obtain ⟨he, hz⟩ := hp
    obtain ⟨o, c1, s2, h3, rfl, rfl⟩ := localScalar_ok (isScalar_init h)
    have g := (expr_inv e).int h3
    refine ⟨(hs.frame g).same rfl (by dsimp only; omega), g.1.mem, g.1.cases, by rw [← g.1.initOff], fun n hn k => ?_⟩
    refine (val_use he hs hn h3 fun k1 k2 => SU.storeVal k1 k2 ?_).to rfl rfl
    simp only [inFrameB, Bool.and_eq_true, decide_eq_true_eq]
    omega
  | .list is, t, hp, s, s', c, hs, h, h1, h2 => by
    cases t with
    | arr u m =>
      simp only [plainInit] at hp
      rw [localInit] at h
      exact inits_use is hp hs h h1 h2
    | _ => simp [plainInit] at hp
  | .str _ b, t, hp, s, s', c, hs, h, h1, h2 => by
    simp only [plainInit, Bool.and_eq_true] at hp
    simp only [localInit] at h
    split at h
    · rw [localString_run, Out.ok.injEq, Prod.mk.injEq, Prod.mk.injEq] at h
      obtain ⟨-, rfl, rfl⟩ := h
      exact ⟨hs.same rfl (by dsimp only; omega), rfl, rfl, rfl, fun n hn k => string_use (by rintro rfl; cases hp.1) hp.2 h1 (by omega) rfl⟩
    · simp [ub_ok] at h
theorem inits_use {N : Option Nat} {Γ : Types} : ∀ (is : SInits) {u : DType} {m : Nat}, plainInits N Γ u is = true → ∀ {s s' : GState} {c : List Immc}, Rel Γ s →
    arrayInit u m (localInits is) s = .ok ((), c, s') → ((m * u.nbytes : Nat) : Int) ≤ s.initOff → s.initOff ≤ s.mem → IUse N Γ (m * u.nbytes) s c s'
  | is, u, 0, hp, s, s', c, hs, h, h1, h2 => by
    rw [arrayInit] at h
    obtain ⟨-, rfl, rfl⟩ := pure_ok.1 h
    exact ⟨hs, rfl, rfl, by simp, fun _ _ _ => .nil rfl⟩
  | .nil, u, m + 1, hp, s, s', c, hs, h, h1, h2 => by
    rw [localInits, arrayInit] at h
    simp [ub_ok] at h
  | .cons i is, u, m + 1, hp, s, s', c, hs, h, h1, h2 => by
    simp only [plainInits, Bool.and_eq_true] at hp
    rw [localInits] at h
    obtain ⟨c1, s1, c2, h3, h4, rfl⟩ := arrayInit_cons h
    have e : (m + 1) * u.nbytes = m * u.nbytes + u.nbytes := Nat.succ_mul ..
    rw [e] at h1 ⊢
    generalize hb : m * u.nbytes = b at *
    have k1 := init_use i hp.1 hs h3 (by omega) h2
    have o1 := k1.off
    have m1 := k1.mem
    have k2 := inits_use is (m := m) hp.2 k1.rel h4 (by omega) (by omega)
    have o2 := k2.off
    rw [hb] at o2
    exact ⟨k2.rel, k2.mem.trans m1, k2.cases.trans k1.cases, by omega, fun n hn k => (k1.use n hn).seq (k2.use n (by omega))⟩
end

theorem decl_use {N : Option Nat} {Γ : Types} (hΓ : Γ ≠ []) {q : DType} {d : SDecl} (hp : plainDecl N Γ d = true) {s s' : GState} {c : List Immc} (hs : Rel Γ s)
    (h : localDecl d s = .ok ((), c, s')) : SUse N (declareOne Γ d) q s c s' := by
  have hG := localDecl_good h
  obtain ⟨n, hw, h⟩ := localDecl_ok h
  simp only [plainDecl, hw, Bool.and_eq_true] at hp
  obtain ⟨hn, hi⟩ := hp
  obtain ⟨hc, hr, hm⟩ := hs.declare hΓ hn d.dt
  have hd : declareOne Γ d = CStm.add n d.dt Γ := by simp [declareOne, hw]
  have hreg : (s.declare n d.dt).reg = s.reg ∧ (s.declare n d.dt).cases = s.cases ∧ (s.declare n d.dt).ret = s.ret := by
    unfold GState.declare
    repeat' split
    all_goals exact ⟨rfl, rfl, rfl⟩
  rw [hd]
  rcases h with ⟨-, rfl, rfl⟩ | ⟨i, y, s1, e1, hl, h1, rfl⟩
  · exact ⟨hm, hr, fun p hp => .inl (by rw [hreg.2.1] at hp; exact hp), fun _ _ => .nil hreg.1⟩
  · rw [e1] at hi
    simp only [hd, Bool.and_eq_true] at hi
    obtain ⟨hi, ho⟩ := hi
    obtain ⟨rfl, hb⟩ := declare_look hc ho hl
    have hr' : Rel (CStm.add n d.dt Γ) { s.declare n d.dt with initOff := Loc.off (.mem (s.declare n d.dt).mem) } := hr.same rfl (by dsimp only; omega)
    have k := init_use i hi hr' h1 (by simp only [Loc.off]; omega) (by simp only [Loc.off]; omega)
    have m2 : s1.mem = (s.declare n d.dt).mem := k.mem
    refine ⟨by dsimp only; omega, k.rel.same rfl (by dsimp only; omega), fun p hp => .inl ?_, fun n hn => ?_⟩
    · have : s1.cases = s.cases := k.cases.trans hreg.2.1
      dsimp only at hp
      rw [this] at hp
      exact hp
    · dsimp only at hn
      exact (k.use n (by dsimp only; omega)).to hreg.1.symm rfl

theorem decls_use {N : Option Nat} {q : DType} : ∀ (ds : List SDecl) {Γ : Types} (_ : Γ ≠ []) (_ : plainDecls N Γ ds = true) {s s' : GState} {c : List Immc} (_ : Rel Γ s)
    (_ : localDecls ds s = .ok ((), c, s')), SUse N (declareAll Γ ds) q s c s'
  | [], Γ, _, _, s, s', c, hs, h => by
    obtain ⟨-, rfl, rfl⟩ := pure_ok.1 h
    exact .nil hs
  | d :: ds, Γ, hΓ, hp, s, s', c, hs, h => by
    obtain ⟨c1, s1, c2, h1, h2, rfl⟩ := localDecls_cons h
    simp only [plainDecls, Bool.and_eq_true] at hp
    have k1 := decl_use (q := q) hΓ hp.1 hs h1
    have hne : declareOne Γ d ≠ [] := by
      cases Γ with
      | nil => exact absurd rfl hΓ
      | cons sc Γ =>
        obtain ⟨sc', e⟩ := declareOne_cons d sc Γ
        rw [e]; nofun
    exact k1.seq (decls_use ds hne hp.2 k1.rel h2) (localDecl_good h1).ret

/-- the scopes after items -/
def scopesOf : Types → SItems → Types
  | Γ, .nil => Γ
  | Γ, .cons i is => scopesOf (scopeOf Γ i) is

theorem scopesOf_cons : ∀ (is : SItems) (sc : List (Str × DType)) (Γ : Types), ∃ sc', scopesOf (sc :: Γ) is = sc' :: Γ
  | .nil, _, _ => ⟨_, rfl⟩
  | .cons i is, sc, Γ => by
    obtain ⟨sc', h⟩ := scopeOf_cons i sc Γ
    rw [scopesOf, h]
    exact scopesOf_cons is sc' Γ

theorem scopeOf_ne {Γ : Types} (h : Γ ≠ []) (i : SItem) : scopeOf Γ i ≠ [] := by
  cases Γ with
  | nil => exact absurd rfl h
  | cons sc Γ =>
    obtain ⟨sc', e⟩ := scopeOf_cons i sc Γ
    rw [e]; nofun

theorem tagDecl_small {n : Str} {t : DType} {s s' : GState} {c : List Immc} (h : tagDecl n t s = .ok ((), c, s')) (hl : CStm.laidOut t = true) (ht : small t = true)
    (hs : smallTags s.tags = true) : c = [] ∧ ∃ tg, s' = { s with tags := tg } ∧ smallTags tg = true := by
  unfold tagDecl at h
  split at h
  · rename_i ms b a
    rw [get_bind] at h
    split at h
    · gm at h
      obtain ⟨_, c1, s1, _, h1, ⟨rfl, rfl⟩, rfl⟩ := h
      obtain ⟨h2, rfl, rfl⟩ := lift_ok.1 h1
      simp only [CStm.laidOut, decide_eq_true_eq] at hl
      rw [hl] at h2
      cases h2
      refine ⟨rfl, _, rfl, ?_⟩
      cases hts : s1.tags with
      | nil => simp [define, smallTags, ht]
      | cons sc ts =>
        rw [hts] at hs
        simp only [smallTags, List.all_cons, Bool.and_eq_true] at hs
        simp only [define, smallTags, List.all_cons, Bool.and_eq_true]
        exact ⟨⟨ht, hs.1⟩, hs.2⟩
    · gm at h
      obtain ⟨rfl, rfl⟩ := h
      exact ⟨rfl, _, rfl, hs⟩
  · simp [ub_ok] at h
  · gm at h
    obtain ⟨rfl, rfl⟩ := h
    exact ⟨rfl, _, rfl, hs⟩

mutual
theorem stmt_use {N : Option Nat} : ∀ (b : SStmt) {Γ : Types} {q : DType} (_ : Γ ≠ []) (_ : plainStmt N Γ q b = true) {s s' : GState} {c : List Immc} (_ : Rel Γ s) (_ : stmt b s = .ok ((), c, s')),
    SUse N Γ q s c s'
  | .cmpd is, Γ, q, hΓ, hp, s, s', c, hs, h => by
    obtain ⟨s1, h1, rfl⟩ := stmt_cmpd h
    simp only [plainStmt] at hp
    have k := items_use is (Γ := [] :: Γ) nofun hp (by exact hs.enter) h1
    obtain ⟨sc, e⟩ := scopesOf_cons is [] Γ
    have hr : Rel Γ { s1 with syms := s1.syms.tail, tags := s1.tags.tail } := (e ▸ k.rel).leave
    exact ⟨k.mem, hr, k.cases, fun n hn => (k.use n hn).to rfl rfl⟩
  | .case v b, Γ, q, hΓ, hp, s, s', c, hs, h => by
    obtain ⟨cs, t, l, c1, hc, rfl, h1, rfl⟩ := stmt_case h
    simp only [plainStmt, Bool.and_eq_true] at hp
    have k := stmt_use b hΓ hp.2 (by exact hs.same rfl (by dsimp only; omega)) h1
    refine ⟨k.mem, k.rel, fun p hq => ?_, fun n hn => ?_⟩
    · rcases k.cases p hq with h | h
      · rw [hc]
        simp only [Option.getD_some, List.mem_append, List.mem_singleton] at h ⊢
        rcases h with h | rfl
        · exact .inl h
        · exact .inr hp.1
      · exact .inr h
    · have := (SU.label (n := n) (k := s.ret) (i := s.lab + 1) (s := s) (s' := { s with lab := s.lab + 1, cases := some (cs ++ [(s.lab + 1, l)]) }) rfl).seq (k.use n hn)
      exact this
  | .dflt b, Γ, q, hΓ, hp, s, s', c, hs, h => by
    obtain ⟨c1, h1, rfl⟩ := stmt_dflt h
    simp only [plainStmt] at hp
    have k := stmt_use b hΓ hp (by exact hs.same rfl (by dsimp only; omega)) h1
    exact ⟨k.mem, k.rel, k.cases, fun n hn =>
      (SU.label (n := n) (k := s.ret) (i := s.lab + 1) (s := s) (s' := { s with lab := s.lab + 1, dflt := s.lab + 1 }) rfl).seq (k.use n hn)⟩
  | .cont, Γ, q, hΓ, hp, s, s', c, hs, h => by
    simp only [stmt] at h
    gm at h
    obtain ⟨rfl, rfl⟩ := h
    exact .goto hs _
  | .brk, Γ, q, hΓ, hp, s, s', c, hs, h => by
    simp only [stmt] at h
    gm at h
    obtain ⟨rfl, rfl⟩ := h
    exact .goto hs _
  | .ret none, Γ, q, hΓ, hp, s, s', c, hs, h => by
    simp only [stmt, Option.map] at h
    obtain ⟨rfl, rfl⟩ := returnCode_none h
    exact .goto hs _
  | .ret (some e), Γ, q, hΓ, hp, s, s', c, hs, h => by
    simp only [stmt, Option.map] at h
    obtain ⟨o, c1, h1, rfl⟩ := returnCode_some h
    simp only [plainStmt] at hp
    have g := (expr_inv e).int h1
    refine ⟨by rw [g.1.mem]; omega, hs.frame g, fun p hp => .inl (by rw [g.1.cases] at hp; exact hp), fun n hn => ?_⟩
    rw [g.1.ret]
    exact val_use hp hs (by rw [g.1.mem] at hn; exact hn) h1 fun k1 k2 => SU.stret k1 k2 s.ret
  | .expr e, Γ, q, hΓ, hp, s, s', c, hs, h => by
    simp only [stmt] at h
    rw [modify_bind] at h
    simp only [plainStmt] at hp
    have g := (expr_inv e).code h
    have hs' : Rel Γ { s with exprReg := none } := hs.same rfl (by dsimp only; omega)
    have : SUse N Γ q { s with exprReg := none } c s' := .of hs' g fun n hn => by
      simp only [Bool.or_eq_true] at hp
      rcases hp with hp | hp
      · obtain ⟨r, -, k, -⟩ := (expr_use n e hp).code rfl rfl hs' hn h
        exact .of k
      · exact callStmt_use hp hs' hn h
    exact this.to rfl rfl rfl rfl rfl rfl rfl rfl
  | .null, Γ, q, hΓ, hp, s, s', c, hs, h => by
    simp only [stmt] at h
    obtain ⟨-, rfl, rfl⟩ := pure_ok.1 h
    exact .nil hs
  | .ite c t, Γ, q, hΓ, hp, s, s', code, hs, h => by
    simp only [stmt] at h
    simp only [plainStmt, Bool.and_eq_true] at hp
    obtain ⟨j, c1, s1, c2, h1, h2, hh⟩ := iteCode_ok h
    have g1 := ((expr_inv c).jmp h1).1
    have hs0 : Rel Γ { s with lab := s.lab + 1 } := hs.same rfl (by dsimp only; omega)
    have k2 := stmt_use t hΓ hp.2 (hs0.frame g1) h2
    rcases hh with ⟨m, -, rfl⟩ | ⟨-, rfl⟩
    · have k := ((SUse.cond (q := q) hp.1 hs0 h1 m).seq k2 g1.1.ret).to (s0 := s) (s2 := s') rfl rfl rfl rfl rfl rfl rfl rfl
      simpa using k
    · have k := ((SUse.cond (q := q) hp.1 hs0 h1 (labelName (s.lab + 1))).seq k2 g1.1.ret).seq (SUse.label k2.rel (s.lab + 1)) ((stmt_good t h2).ret.trans g1.1.ret)
      have := k.to (s0 := s) (s2 := s') rfl rfl rfl rfl rfl rfl rfl rfl
      simpa using this
  | .itee c t e, Γ, q, hΓ, hp, s, s', code, hs, h => by
    simp only [stmt] at h
    simp only [plainStmt, Bool.and_eq_true] at hp
    obtain ⟨j, c1, s1, c2, s2, c3, h1, h2, h3, hh⟩ := iteeCode_ok h
    have g1 := ((expr_inv c).jmp h1).1
    have hs0 : Rel Γ { s with lab := s.lab + 1 + 1 } := hs.same rfl (by dsimp only; omega)
    have k2 := stmt_use t hΓ hp.1.2 (hs0.frame g1) h2
    have k3 := stmt_use e hΓ hp.2 k2.rel h3
    have r2 : s2.ret = s.ret := (stmt_good t h2).ret.trans g1.1.ret
    have r3 : s'.ret = s.ret := (stmt_good e h3).ret.trans r2
    have k12 := (SUse.cond (q := q) hp.1.1 hs0 h1 (labelName (s.lab + 1))).seq k2 g1.1.ret
    rcases hh with ⟨m, -, rfl⟩ | ⟨-, rfl⟩
    · have k := ((k12.seq (SUse.goto' k2.rel m) r2).seq (SUse.label k2.rel (s.lab + 1)) r2).seq k3 r2
      have := k.to (s0 := s) (s2 := s') rfl rfl rfl rfl rfl rfl rfl rfl
      simpa using this
    · have k := (((k12.seq (SUse.goto k2.rel (s.lab + 1 + 1)) r2).seq (SUse.label k2.rel (s.lab + 1)) r2).seq k3 r2).seq (SUse.label k3.rel (s.lab + 1 + 1)) r3
      have := k.to (s0 := s) (s2 := s') rfl rfl rfl rfl rfl rfl rfl rfl
      simpa using this
  | .switch c b, Γ, q, hΓ, hp, s, s', code, hs, h => by
    simp only [stmt] at h
    simp only [plainStmt, Bool.and_eq_true] at hp
    obtain ⟨o, c1, s1, c2, s2, h1, h2, rfl, rfl⟩ := switchCode_ok h
    have g1 := (expr_inv c).reg h1
    have hs1 := hs.frame g1
    have k2 := stmt_use b hΓ hp.2 (by exact hs1.same rfl (by dsimp only; omega)) h2
    have m1 : s1.mem = s.mem := g1.1.mem
    have m2 : s1.mem ≤ s2.mem := k2.mem
    have hcs : ∀ p ∈ s2.cases.getD [], caseFits c.dt p.2 = true := by
      intro p hp
      rcases k2.cases p hp with h | h
      · simp at h
      · exact h
    refine ⟨by dsimp only; omega, k2.rel.same rfl (by dsimp only; omega), fun p hp => .inl ?_, fun n hn => ?_⟩
    · dsimp only at hp
      rw [g1.1.cases] at hp
      exact hp
    · dsimp only at hn
      have a2 : SU N n s.ret s (c1 ++ caseJumps o (s2.cases.getD [])) s1 := by
        have hp1 := hp.1
        simp only [plainVal, Bool.or_eq_true] at hp1
        rcases hp1 with hp1 | hp1
        · obtain ⟨r, rfl, k1, -⟩ := (expr_use n c hp1).regOf hs (by omega) h1
          exact .of (caseJumps_use hcs k1)
        · obtain ⟨c0, b, s3, r, rfl, k1, rfl, k3⟩ := callUsed_reg (n := n) hp1 hs (by omega) h1
          have := k3 (k := s.ret) (Int.le_refl _) (SU.of (caseJumps_use hcs k1))
          simpa using this
      have a3 : SU N n s.ret { s1 with lab := s1.lab + 1, cases := some [], dflt := -1, brk := s1.lab + 1 } c2 s2 := by
        have := k2.use n hn
        have e : s.ret = s1.ret := g1.1.ret.symm
        rw [e]
        exact this
      have a4 := ((a2.seq (SU.goto (s' := { s1 with lab := s1.lab + 1, cases := some [], dflt := -1, brk := s1.lab + 1 })
        (i := if s2.dflt > 0 then s2.dflt else s1.lab + 1) rfl)).seq a3).seq (SU.label (i := s1.lab + 1) (s' := { s2 with cases := s1.cases, dflt := s1.dflt, brk := s1.brk }) rfl)
      simpa using a4
  | .while c b, Γ, q, hΓ, hp, s, s', code, hs, h => by
    simp only [stmt] at h
    simp only [plainStmt, Bool.and_eq_true] at hp
    obtain ⟨j, c1, s1, c2, s2, h1, h2, rfl, rfl⟩ := whileCode_ok h
    have g1 := ((expr_inv c).jmp h1).1
    have hs0 : Rel Γ { s with lab := s.lab + 1 + 1 } := hs.same rfl (by dsimp only; omega)
    have hs1 := hs0.frame g1
    have k2 := (stmt_use b hΓ hp.2 (by exact hs1.same rfl (by dsimp only; omega)) h2).to (s0 := s1) (s2 := s2) rfl rfl rfl rfl rfl rfl rfl rfl
    have r2 : s2.ret = s.ret := (stmt_good b h2).ret.trans g1.1.ret
    have k := ((((SUse.label (q := q) hs0 (s.lab + 1)).seq (SUse.cond (q := q) hp.1 hs0 h1 (labelName (s.lab + 1 + 1))) rfl).seq k2 g1.1.ret).seq
      (SUse.goto k2.rel (s.lab + 1)) r2).seq (SUse.label k2.rel (s.lab + 1 + 1)) r2
    have := k.to (s0 := s) (s2 := { s2 with cont := s1.cont, brk := s1.brk }) rfl rfl rfl rfl rfl rfl rfl rfl
    simpa using this
  | .for i c m b, Γ, q, hΓ, hp, s, s', code, hs, h => by
    obtain ⟨s9, h9, rfl⟩ := stmt_for h
    simp only [plainStmt, Bool.and_eq_true] at hp
    obtain ⟨⟨⟨hi, hc⟩, hn⟩, hb⟩ := hp
    obtain ⟨c1, s1, c2, s2, c3, s3, c4, h1, h2, h3, h4, rfl⟩ := forCode_ok h9
    have hΓ' : scopeOf ([] :: Γ) i ≠ [] := scopeOf_ne (List.cons_ne_nil _ _) i
    have hs0 : Rel ([] :: Γ) { s with syms := [] :: s.syms, tags := [] :: s.tags, lab := s.lab + 1 + 1 + 1 } :=
      Rel.same (s := { s with syms := [] :: s.syms, tags := [] :: s.tags }) hs.enter rfl (by dsimp only; omega)
    have k1 := item_use i (Γ := [] :: Γ) (q := q) nofun hi hs0 h1
    have r1 : s1.ret = s.ret := (item_good i h1).ret
    have k2 : SUse N (scopeOf ([] :: Γ) i) q s1 c2 s2 ∧ s2.ret = s1.ret := by
      rcases forCond_ok h2 with ⟨e, j, c', rfl, hj, rfl⟩ | ⟨-, rfl, rfl⟩
      · simp only [plainCond] at hc
        exact ⟨.cond hc k1.rel hj _, ((expr_inv e).jmp hj).1.1.ret⟩
      · exact ⟨.nil k1.rel, rfl⟩
    obtain ⟨k2, r2⟩ := k2
    have r2 : s2.ret = s.ret := r2.trans r1
    have k3 := (stmt_use b hΓ' hb (by exact k2.rel.same rfl (by dsimp only; omega)) h3).to (s0 := s2) (s2 := s3) rfl rfl rfl rfl rfl rfl rfl rfl
    have r3 : s3.ret = s.ret := (stmt_good b h3).ret.trans r2
    have k4 := (stmt_use m hΓ' hn (by exact k3.rel.same rfl (by dsimp only; omega)) h4).to (s0 := s3) (s2 := s9) rfl rfl rfl rfl rfl rfl rfl rfl
    have r4 : s9.ret = s.ret := (stmt_good m h4).ret.trans r3
    have k := ((((((k1.seq (SUse.label k1.rel (s.lab + 1)) r1).seq k2 r1).seq k3 r2).seq (SUse.label k3.rel (s.lab + 1 + 1)) r3).seq k4 r3).seq
      (SUse.goto k4.rel (s.lab + 1)) r4).seq (SUse.label k4.rel (s.lab + 1 + 1 + 1)) r4
    obtain ⟨sc, e⟩ := scopeOf_cons i [] Γ
    have hr : Rel Γ { s9 with syms := s9.syms.tail, tags := s9.tags.tail } := (e ▸ k.rel).leave
    refine ⟨k.mem, hr, k.cases, fun n hn => ?_⟩
    have := (k.use n hn).to (s0 := s) (s2 := { s9 with syms := s9.syms.tail, tags := s9.tags.tail }) rfl rfl
    simpa using this
theorem item_use {N : Option Nat} : ∀ (i : SItem) {Γ : Types} {q : DType} (_ : Γ ≠ []) (_ : plainItem N Γ q i = true) {s s' : GState} {c : List Immc} (_ : Rel Γ s) (_ : item i s = .ok ((), c, s')),
    SUse N (scopeOf Γ i) q s c s'
  | .stmt b, Γ, q, hΓ, hp, s, s', c, hs, h => by
    simp only [item] at h
    simp only [plainItem] at hp
    exact stmt_use b hΓ hp hs h
  | .decls ds, Γ, q, hΓ, hp, s, s', c, hs, h => by
    simp only [item] at h
    simp only [plainItem] at hp
    exact decls_use ds hΓ hp hs h
  | .tag n t, Γ, q, hΓ, hp, s, s', c, hs, h => by
    simp only [item] at h
    simp only [plainItem, Bool.and_eq_true] at hp
    obtain ⟨rfl, tg, rfl, ht⟩ := tagDecl_small h hp.1 hp.2 hs.1
    exact ⟨Nat.le_refl _, ⟨ht, hs.2⟩, fun _ h => .inl h, fun _ _ => .nil rfl⟩
theorem items_use {N : Option Nat} : ∀ (is : SItems) {Γ : Types} {q : DType} (_ : Γ ≠ []) (_ : plainItems N Γ q is = true) {s s' : GState} {c : List Immc} (_ : Rel Γ s)
    (_ : items is s = .ok ((), c, s')), SUse N (scopesOf Γ is) q s c s'
  | .nil, Γ, q, hΓ, hp, s, s', c, hs, h => by
    simp only [items] at h
    obtain ⟨-, rfl, rfl⟩ := pure_ok.1 h
    exact .nil hs
  | .cons i is, Γ, q, hΓ, hp, s, s', c, hs, h => by
    obtain ⟨c1, s1, c2, h1, h2, rfl⟩ := items_cons h
    simp only [plainItems, Bool.and_eq_true] at hp
    have k1 := item_use i hΓ hp.1 hs h1
    exact k1.seq (items_use is (scopeOf_ne hΓ i) hp.2 k1.rel h2) (item_good i h1).ret
end

end Plain
end Umlcc
