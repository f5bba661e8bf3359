import Verif.Lemma.Plain
/-!
Code generated for expressions of the part of `Spec/Plain.lean`.
-/
namespace Umlcc
namespace Plain
open RSpec (reads writes)
open Gen
open X86 hiding load

/-! ### shapes -/

theorem wider_self (w : Sfx) : IMach.wider w w = w := by simp [IMach.wider]
theorem wider_quad (w : Sfx) : IMach.wider .quad w = .quad := by cases w <;> rfl
theorem widens_self (u u' : Bool) (w : Sfx) (r : Int) : widensB u (.reg w r u') w = false := by cases w <;> simp [widensB]
theorem widens_int (u : Bool) (z w : Sfx) (l : ILit) : widensB u (.int z l) w = false := rfl
theorem destB_self (w : Sfx) (u : Bool) : destB w w u = true := by cases w <;> simp [destB]
theorem fits_zero (w : Sfx) : immFits w 0 = true := by cases w <;> decide
theorem fits_one {w : Sfx} (h : w ≠ .none) : immFits w 1 = true := by cases w <;> first | decide | exact absurd rfl h
theorem fits_big {w : Sfx} {v : Int} (h : immFits w v = true) : -2 ^ 31 ≤ v ∧ v < 2 ^ 32 := by
  cases w <;> simp [immFits, Sfx.bits] at h <;> omega
theorem fits_loads {w : Sfx} {v : Int} (h : immFits w v = true) : (if w = .quad then immFits64 v else immFits w v) = true := by
  split
  · have := fits_big h
    simp only [immFits64, decide_eq_true_eq]
    omega
  · exact h

/-! ### what the generators of an expression do -/

/-- an operand of type `t` that is a register of `R` or a literal -/
def Val (t : DType) (o : Ope) (R : Int → Prop) : Prop :=
  (∃ r, o = .reg (len t) r t.isUnsigned ∧ R r) ∨ ∃ l : ILit, o = .int (len t) l ∧ immFits (len t) l.value = true ∧ l.type.isUnsigned = t.isUnsigned

/-- an operand that denotes an object: the address of `e` -/
def Place (n : Nat) (Γ : Types) (e : SExpr) (o : Ope) (R : Int → Prop) : Prop :=
  (∃ m, o = .label m) ∨ (∃ r, o = .ptr r ∧ R r) ∨ ∃ k : Nat, o = .mem k ∧ ∀ z, target Γ e z = true → inFrameB n z.nbytes (some (.mem k)) = true

/-- the jump of a condition -/
def Jump (n : Nat) (j : Name → Immc) (R : Int → Prop) : Prop :=
  ∀ m, okX n (j m) = true ∧ (∀ v, Touch (j m) v → R v) ∧ eats (j m) = none

structure GUse (n : Nat) (Γ : Types) (b : Bool) (o : Option DType) (e : SExpr) (g : G) : Prop where
  code : b = false → o = none → ∀ {s c s'}, Rel Γ s → s.mem ≤ n → g.code s = .ok ((), c, s') →
    ∃ r, s'.exprReg = some (len e.dt, r, e.dt.isUnsigned) ∧ Use n s c s' (· = r) ∧ (CSem.fresh e = true → r = s'.reg)
  int : b = false → ∀ {s p c s'}, Rel Γ s → s.mem ≤ n → g.int o s = .ok (p, c, s') →
    ∃ R, Use n s c s' R ∧ Val (o.getD e.dt) p R ∧ (CSem.fresh e = true ∨ o ≠ none → ∀ sf r u, p = .reg sf r u → r = s'.reg)
  ptr : b = false → o = none → CSem.fresh e = true → ∀ {s p c s'}, Rel Γ s → s.mem ≤ n → g.ptr s = .ok (p, c, s') → ∃ R, Use n s c s' R ∧ Place n Γ e p R
  jmp : o = none → ∀ {d s j c s'}, Rel Γ s → s.mem ≤ n → g.jmp d s = .ok (j, c, s') → ∃ R, Use n s c s' R ∧ Jump n j R

theorem touch_load {d : Ope} {f : Ope} {v : Int} (h : Touch (load d f) v) : v ∈ RSpec.opeRegs (some f) ∨ (∃ s u, d = .reg s v u) ∨ d = .ptr v := by
  rcases h with h | h
  · simp only [load, inst, reads, RSpec.opeRegs, List.append_nil, List.mem_append] at h
    rcases h with h | h
    · exact .inl h
    · cases d <;> simp at h
      exact .inr (.inr (by rw [h]))
  · cases d <;> simp [load, inst, writes] at h
    exact .inr (.inl ⟨_, _, by rw [h]⟩)

/-- loading the value of an operand into a new register -/
theorem Use.load {n : Nat} {s s1 s' : GState} {c : List Immc} {R : Int → Prop} {t : DType} {o : Ope} (h : Use n s c s1 R) (hr : s'.reg = s1.reg + 1)
    (ho : ∀ v ∈ RSpec.opeRegs (some o), R v) (hok : okX n (Gen.load (.reg (len t) (s1.reg + 1) t.isUnsigned) o) = true) :
    Use n s (c ++ [Gen.load (.reg (len t) (s1.reg + 1) t.isUnsigned) o]) s' (· = s1.reg + 1) := by
  refine h.add (by omega) ?_ hok ?_
  · intro v hv
    rcases touch_load hv with hv | ⟨_, _, hv⟩ | hv
    · exact .inl (ho v hv)
    · cases hv; right; omega
    · cases hv
  · rintro v rfl
    refine ⟨.inr (by omega), ?_⟩
    cases o <;> simp [Gen.load, inst, eats, swallows]

theorem reg_of {n : Nat} {Γ : Types} {e : SExpr} {g : G}
    (hg : ∀ {s p c s'}, Rel Γ s → s.mem ≤ n → g.int none s = .ok (p, c, s') →
      ∃ R, Use n s c s' R ∧ Val e.dt p R ∧ (CSem.fresh e = true → ∀ sf r u, p = .reg sf r u → r = s'.reg)) {s s' : GState} {p : Ope} {c : List Immc} (hs : Rel Γ s) (hm : s.mem ≤ n)
    (h : g.reg s = .ok (p, c, s')) : ∃ r, p = .reg (len e.dt) r e.dt.isUnsigned ∧ Use n s c s' (· = r) ∧ (CSem.fresh e = true → r = s'.reg) := by
  obtain ⟨sf, r, u, rfl, h1 | ⟨l, c0, s0, h1, rfl, rfl, rfl, rfl⟩⟩ := reg_ok h
  · obtain ⟨R, k, ⟨r', he, hR⟩ | ⟨l, he, _⟩, hf⟩ := hg hs hm h1
    · cases he
      exact ⟨_, rfl, k.to rfl rfl (by rintro v rfl; exact hR), fun h => hf h _ _ _ rfl⟩
    · cases he
  · obtain ⟨R, k, ⟨r', he, hR⟩ | ⟨l', he, hf, hu⟩, -⟩ := hg hs hm h1
    · cases he
    · cases he
      rw [hu]
      refine ⟨_, rfl, k.load rfl ?_ ?_, fun _ => rfl⟩
      · simp [RSpec.opeRegs]
      · have := fits_loads hf
        simp [okX, Gen.load, inst, allowed, shapeB, litLoadsB, widensB, inFrameB, this]

theorem GUse.regOf {n : Nat} {Γ : Types} {e : SExpr} {g : G} (hg : GUse n Γ false none e g) {s s' : GState} {p : Ope} {c : List Immc} (hs : Rel Γ s) (hm : s.mem ≤ n)
    (h : g.reg s = .ok (p, c, s')) : ∃ r, p = .reg (len e.dt) r e.dt.isUnsigned ∧ Use n s c s' (· = r) ∧ (CSem.fresh e = true → r = s'.reg) := by
  refine reg_of (fun hs hm h => ?_) hs hm h
  obtain ⟨R, h1, h2, h3⟩ := hg.int rfl hs hm h
  exact ⟨R, h1, h2, fun h => h3 (.inl h)⟩

/-- the jump on a register -/
theorem jump_zero {n : Nat} {d : Bool} {sf : Sfx} {r : Int} {u : Bool} :
    Jump n (fun m => inst (if d then .jneq else .jeq) (some (.label m)) (some (.reg sf r u)) (some (intOpe sf 0))) (· = r) := by
  intro m
  refine ⟨?_, ?_, ?_⟩
  · cases d <;> simp [okX, inst, allowed, shapeB, pairB, intOpe, IMach.width, wider_self, widens_self, litFitsB, fits_zero, widens_int]
  · intro v hv
    rcases hv with hv | hv
    · simpa [inst, reads, RSpec.opeRegs, intOpe] using hv
    · cases hv
  · cases d <;> rfl

theorem okX_conv {n : Nat} {t t' : DType} {r r' : Int} (h : zext t t' = false) :
    okX n (Gen.load (.reg (len t') r' t'.isUnsigned) (.reg (len t) r t.isUnsigned)) = true := by
  simp only [okX, Gen.load, inst, allowed, shapeB, litLoadsB, inFrameB, Bool.true_and, Bool.and_true]
  unfold zext at h
  unfold widensB
  split
  · rename_i heq
    simp only [Ope.reg.injEq] at heq
    obtain ⟨h1, -, h2⟩ := heq
    rw [h1, h2] at h
    revert h
    rename_i u'
    cases u' <;> simp
  · rfl

/-- an expression without literal value: the operand is the register of its code, converted -/
theorem plain_int {n : Nat} {Γ : Types} {o : Option DType} {e : SExpr} {code : GM Unit} (hc : conv o e.dt = true)
    (h1 : ∀ {s c s'}, Rel Γ s → s.mem ≤ n → code s = .ok ((), c, s') →
      ∃ r, s'.exprReg = some (len e.dt, r, e.dt.isUnsigned) ∧ Use n s c s' (· = r) ∧ (CSem.fresh e = true → r = s'.reg))
    {s s' : GState} {p : Ope} {c : List Immc} (hs : Rel Γ s) (hm : s.mem ≤ n) (h : (do code; castReg o : GM Ope) s = .ok (p, c, s')) :
    ∃ R, Use n s c s' R ∧ (∃ r, p = .reg (len (o.getD e.dt)) r (o.getD e.dt).isUnsigned ∧ R r ∧ (CSem.fresh e = true ∨ o ≠ none → r = s'.reg)) := by
  simp only [bind_ok] at h
  obtain ⟨_, c1, s1, c2, ha, hb, rfl⟩ := h
  obtain ⟨r, k1, k2, k3⟩ := h1 hs hm ha
  obtain ⟨sf', r', u', he, ⟨rfl, ho, rfl, rfl⟩ | ⟨t, rfl, rfl, rfl, rfl⟩⟩ := castReg_ok hb
  · rw [k1] at he
    cases he
    rw [List.append_nil]
    exact ⟨_, k2, _, ho, rfl, fun h => h.elim k3 fun h => absurd rfl h⟩
  · rw [k1] at he
    cases he
    simp only [conv, Bool.not_eq_true'] at hc
    exact ⟨_, k2.load rfl (by simp [RSpec.opeRegs]) (okX_conv hc), _, rfl, rfl, fun _ => rfl⟩

theorem plain_ptr {n : Nat} {Γ : Types} {e : SExpr} {code : GM Unit} (hf : CSem.fresh e = true)
    (h1 : ∀ {s c s'}, Rel Γ s → s.mem ≤ n → code s = .ok ((), c, s') →
      ∃ r, s'.exprReg = some (len e.dt, r, e.dt.isUnsigned) ∧ Use n s c s' (· = r) ∧ (CSem.fresh e = true → r = s'.reg))
    {s s' : GState} {p : Ope} {c : List Immc} (hs : Rel Γ s) (hm : s.mem ≤ n) (h : ptrOf code s = .ok (p, c, s')) : ∃ R, Use n s c s' R ∧ Place n Γ e p R := by
  obtain ⟨h', rfl⟩ := ptrOf_ok h
  obtain ⟨r, -, k2, k3⟩ := h1 hs hm h'
  exact ⟨_, k2, .inr (.inl ⟨_, rfl, (k3 hf).symm⟩)⟩

theorem plain_jmp {n : Nat} {Γ : Types} {code : GM Unit} {int : Option DType → GM Ope} {d : Bool}
    (h1 : ∀ {s p c s'}, Rel Γ s → s.mem ≤ n → (G.of code int).reg s = .ok (p, c, s') → ∃ sf r u, p = .reg sf r u ∧ Use n s c s' (· = r))
    {s s' : GState} {j : Name → Immc} {c : List Immc} (hs : Rel Γ s) (hm : s.mem ≤ n) (h : (G.of code int).jmp d s = .ok (j, c, s')) : ∃ R, Use n s c s' R ∧ Jump n j R := by
  obtain ⟨sf, r, u, h', rfl⟩ := jmpZero_ok h
  obtain ⟨sf', r', u', he, k⟩ := h1 hs hm h'
  cases he
  exact ⟨_, k, jump_zero⟩

theorem GUse.plain {n : Nat} {Γ : Types} {b : Bool} {o : Option DType} {e : SExpr} {code : GM Unit} (hc : conv o e.dt = true)
    (h1 : ∀ {s c s'}, Rel Γ s → s.mem ≤ n → code s = .ok ((), c, s') →
      ∃ r, s'.exprReg = some (len e.dt, r, e.dt.isUnsigned) ∧ Use n s c s' (· = r) ∧ (CSem.fresh e = true → r = s'.reg)) :
    GUse n Γ b o e (G.plain code) where
  code _ _ := h1
  int _ {s p c s'} hs hm h := by
    obtain ⟨R, k1, r, k2, k3, k4⟩ := plain_int hc h1 hs hm h
    refine ⟨R, k1, .inl ⟨r, k2, k3⟩, fun hh sf r' u he => ?_⟩
    rw [k2] at he
    cases he
    exact k4 hh
  ptr _ _ hf {s p c s'} hs hm h := plain_ptr hf h1 hs hm h
  jmp ho {d s j c s'} hs hm h := by
    subst ho
    refine plain_jmp (n := n) (Γ := Γ) ?_ hs hm h
    intro s p c s' hs hm h
    obtain ⟨sf, r, u, rfl, h1' | ⟨l, c0, s0, h1', _⟩⟩ := reg_ok h
    · obtain ⟨R, k1, r', k2, k3, k4⟩ := plain_int (o := none) rfl h1 hs hm h1'
      cases k2
      exact ⟨_, _, _, rfl, k1.to rfl rfl (by rintro v rfl; exact k3)⟩
    · obtain ⟨R, k1, r', k2, k3, k4⟩ := plain_int (o := none) rfl h1 hs hm h1'
      cases k2

/-- a literal or a cast -/
theorem GUse.of {n : Nat} {Γ : Types} {b : Bool} {o : Option DType} {e : SExpr} {code : GM Unit} {int : Option DType → GM Ope}
    (h1 : o = none → ∀ {s c s'}, Rel Γ s → s.mem ≤ n → code s = .ok ((), c, s') →
      ∃ r, s'.exprReg = some (len e.dt, r, e.dt.isUnsigned) ∧ Use n s c s' (· = r) ∧ (CSem.fresh e = true → r = s'.reg))
    (h2 : ∀ {s p c s'}, Rel Γ s → s.mem ≤ n → int o s = .ok (p, c, s') →
      ∃ R, Use n s c s' R ∧ Val (o.getD e.dt) p R ∧ (CSem.fresh e = true ∨ o ≠ none → ∀ sf r u, p = .reg sf r u → r = s'.reg)) :
    GUse n Γ b o e (G.of code int) where
  code _ ho := h1 ho
  int _ {s p c s'} hs hm h := h2 hs hm h
  ptr _ ho hf {s p c s'} hs hm h := plain_ptr hf (h1 ho) hs hm h
  jmp ho {d s j c s'} hs hm h := by
    subst ho
    refine plain_jmp (n := n) (Γ := Γ) ?_ hs hm h
    intro s p c s' hs hm h
    obtain ⟨r, k1, k2, -⟩ := reg_of (e := e) (g := G.of code int) (fun hs hm h => by
      obtain ⟨R, h1, h2, h3⟩ := h2 hs hm h
      exact ⟨R, h1, h2, fun h => h3 (.inl h)⟩) hs hm h
    exact ⟨_, _, _, k1, k2⟩

/-! ### instructions with two operands -/

theorem Val.width {t : DType} {o : Ope} {R : Int → Prop} (h : Val t o R) : IMach.width (some o) = len t := by
  rcases h with ⟨r, rfl, -⟩ | ⟨l, rfl, -⟩ <;> rfl
theorem Val.regs {t : DType} {o : Ope} {R : Int → Prop} (h : Val t o R) {v : Int} (hv : v ∈ RSpec.opeRegs (some o)) : R v := by
  rcases h with ⟨r, rfl, h⟩ | ⟨l, rfl, -⟩
  · simp only [RSpec.opeRegs, List.mem_singleton] at hv
    exact hv ▸ h
  · simp [RSpec.opeRegs] at hv
theorem Val.fits {t : DType} {o : Ope} {R : Int → Prop} (h : Val t o R) : litFitsB (len t) o = true := by
  rcases h with ⟨r, rfl, -⟩ | ⟨l, rfl, h, -⟩
  · rfl
  · exact h
theorem Val.loads {t : DType} {o : Ope} {R : Int → Prop} (h : Val t o R) : litLoadsB (len t) o = true := by
  rcases h with ⟨r, rfl, -⟩ | ⟨l, rfl, h, -⟩
  · rfl
  · exact fits_loads h
theorem Val.widens {t : DType} {o : Ope} {R : Int → Prop} (h : Val t o R) (u : Bool) : widensB u o (len t) = false := by
  rcases h with ⟨r, rfl, -⟩ | ⟨l, rfl, -⟩
  · exact widens_self ..
  · rfl
theorem Val.mono {t : DType} {o : Ope} {R R' : Int → Prop} (h : Val t o R) (hR : ∀ v, R v → R' v) : Val t o R' := by
  rcases h with ⟨r, rfl, h⟩ | h
  · exact .inl ⟨r, rfl, hR _ h⟩
  · exact .inr h

/-- both operands have the same width and are not the same register -/
theorem Val.pairs {t t' : DType} {o : Ope} {R : Int → Prop} (h : Val t' o R) (ht : len t = len t') {f : Int} (hf : ∀ s r u, o = .reg s r u → r ≠ f) {u : Bool} :
    IMach.wider (len t) (IMach.width (some o)) = len t ∧ pairB (len t) f u o (len t) = true := by
  rw [h.width, ← ht, wider_self]
  refine ⟨rfl, ?_⟩
  have hw : widensB true o (len t) = false := ht ▸ h.widens true
  simp only [pairB, widens_self, hw, Bool.not_false, Bool.and_true]
  split
  · rename_i s g v
    exact decide_eq_true (hf _ _ _ rfl)
  · rfl

theorem okX_arith {n : Nat} {op : IOp} (hop : op = .add ∨ op = .sub ∨ op = .and ∨ op = .or ∨ op = .xor) {t tl tr : DType} {d f : Int} {u : Bool} {o : Ope} {R : Int → Prop}
    (h : Val tr o R) (h1 : len tl = len tr) (h2 : len t = len tl) (hf : ∀ s r u, o = .reg s r u → r ≠ f) :
    okX n (inst op (some (.reg (len t) d t.isUnsigned)) (some (.reg (len tl) f u)) (some o)) = true := by
  obtain ⟨e1, e2⟩ := h.pairs h1 (u := u) hf
  have e3 : litFitsB (len tl) o = true := h1 ▸ h.fits
  rcases hop with rfl | rfl | rfl | rfl | rfl <;>
    simp only [okX, inst, allowed, shapeB, e1, e2, e3, h2, destB_self, List.contains_nil, Bool.not_false, Bool.or_true, Bool.and_self]

theorem okX_mul {n : Nat} {t tl tr : DType} {d f : Int} {u : Bool} {o : Ope} {R : Int → Prop}
    (h : Val tr o R) (h1 : len tl = len tr) (h2 : len t = len tl) (h3 : len tl ≠ .byte) (hf : ∀ s r u, o = .reg s r u → r ≠ f) :
    okX n (inst .mul (some (.reg (len t) d t.isUnsigned)) (some (.reg (len tl) f u)) (some o)) = true := by
  obtain ⟨e1, e2⟩ := h.pairs h1 (u := u) hf
  have e3 : litFitsB (len tl) o = true := h1 ▸ h.fits
  have e4 : widensB false o (len tl) = false := h1 ▸ h.widens false
  simp only [okX, inst, allowed, shapeB, e1, e2, e3, e4, h2, destB_self, h3, ne_eq, not_false_eq_true, decide_true, Bool.not_false, Bool.and_self]

theorem okX_shift {n : Nat} {op : IOp} {t tl tr : DType} {d f : Int} {u : Bool} {l : ILit} (hop : op = .sal ∨ op = .sar ∧ u = false)
    (h1 : (len tr).bits ≤ (len tl).bits) (h2 : len t = len tl) (h3 : 0 ≤ l.value) (h4 : l.value < (len tl).bits) :
    okX n (inst op (some (.reg (len t) d t.isUnsigned)) (some (.reg (len tl) f u)) (some (.int (len tr) l))) = true := by
  have e1 : IMach.wider (len tl) (IMach.width (some (.int (len tr) l))) = len tl := by
    show IMach.wider (len tl) (len tr) = len tl
    unfold IMach.wider
    exact if_neg (by omega)
  rcases hop with rfl | ⟨rfl, rfl⟩ <;>
    simp [okX, inst, allowed, shapeB, e1, pairB, widens_self, widens_int, h2, destB_self, h3, h4]

theorem okX_jump {n : Nat} {op : IOp} (hop : op = .jeq ∨ op = .jneq ∨ op = .jlt ∨ op = .jgt ∨ op = .jleq ∨ op = .jgeq) {tl tr : DType} {m : Name} {f : Int} {u : Bool} {o : Ope}
    {R : Int → Prop} (h : Val tr o R) (h1 : len tl = len tr) (hf : ∀ s r u, o = .reg s r u → r ≠ f) :
    okX n (inst op (some (.label m)) (some (.reg (len tl) f u)) (some o)) = true := by
  obtain ⟨e1, e2⟩ := h.pairs h1 (u := u) hf
  have e3 : litFitsB (len tl) o = true := h1 ▸ h.fits
  rcases hop with rfl | rfl | rfl | rfl | rfl | rfl <;>
    simp only [okX, inst, allowed, shapeB, e1, e2, e3, Bool.and_self]

theorem eats_or {op : IOp} {d g : Option Ope} {f v : Int} {s : Sfx} {u : Bool} (h : eats (inst op d (some (.reg s f u)) g) = some v) : v = f := by
  simp only [inst, eats] at h
  split at h
  · cases h; rfl
  · cases h

/-- two operands, the result in a new register -/
theorem Use.op2 {n : Nat} {s s1 s2 s' : GState} {c1 c2 : List Immc} {R : Int → Prop} {op : IOp} {t tr : DType} {z : Sfx} {f : Int} {u : Bool} {o : Ope}
    (h1 : Use n s c1 s1 (· = f)) (h2 : Use n s1 c2 s2 R) (ho : Val tr o R) (hr : s'.reg = s2.reg + 1)
    (hok : (∀ s r u, o = .reg s r u → r ≠ f) → okX n (inst op (some (.reg (len t) (s2.reg + 1) t.isUnsigned)) (some (.reg z f u)) (some o)) = true) :
    Use n s (c1 ++ (c2 ++ [inst op (some (.reg (len t) (s2.reg + 1) t.isUnsigned)) (some (.reg z f u)) (some o)])) s' (· = s2.reg + 1) := by
  have hf := (h1.res f rfl).1
  have r2 := h2.reg
  rw [← List.append_assoc]
  refine (h1.seq h2).add (by omega) ?_ (hok ?_) ?_
  · intro v hv
    rcases hv with hv | hv
    · simp only [inst, reads, List.append_nil, List.mem_append] at hv
      rcases hv with hv | hv
      · simp only [RSpec.opeRegs, List.mem_singleton] at hv
        exact .inl (.inl hv)
      · exact .inl (.inr (ho.regs hv))
    · cases hv; right; omega
  · rintro z' r u' rfl
    have := (h2.res r (ho.regs (by simp [RSpec.opeRegs]))).1
    omega
  · rintro v rfl
    refine ⟨.inr (by omega), fun he => ?_⟩
    have := eats_or he
    omega

/-! ### expressions -/

/-- what is claimed of the code of an expression -/
def Codes (n : Nat) (Γ : Types) (e : SExpr) (code : GM Unit) : Prop :=
  ∀ {s c s'}, Rel Γ s → s.mem ≤ n → code s = .ok ((), c, s') →
    ∃ r, s'.exprReg = some (len e.dt, r, e.dt.isUnsigned) ∧ Use n s c s' (· = r) ∧ (CSem.fresh e = true → r = s'.reg)

theorem Rel.frame {Γ : Types} {s s' : GState} {c : List Immc} (h : Rel Γ s) (hg : Good s c s') : Rel Γ s' := h.same hg.1.syms (by rw [hg.1.mem]; omega) hg.1.tags
theorem mem_frame {n : Nat} {s s' : GState} {c : List Immc} (h : s.mem ≤ n) (hg : Good s c s') : s'.mem ≤ n := by rw [hg.1.mem]; exact h
theorem Rel.reg {Γ : Types} {s : GState} (h : Rel Γ s) (r l : Int) : Rel Γ { s with reg := r, lab := l } := h.same rfl (by dsimp only; omega)

/-- an operand that is loaded or stored -/
theorem place_sym {n : Nat} {Γ : Types} {s s' : GState} {m : Str} {o : Ope} {c : List Immc} (hs : Rel Γ s) (hm : s.mem ≤ n) (h : symOpe m s = .ok (o, c, s')) (t t' : DType) :
    c = [] ∧ s' = s ∧ Place n Γ (.un .addr t (.ident t' m)) o (fun _ => False) := by
  obtain ⟨rfl, rfl, y, hl, ⟨-, m', -, rfl⟩ | ⟨k, hk, rfl⟩⟩ := symOpe_ok h
  · exact ⟨rfl, rfl, .inl ⟨_, rfl⟩⟩
  · exact ⟨rfl, rfl, .inr (.inr ⟨k, rfl, fun z hz => hs.holds hm hz hl hk⟩)⟩

theorem Place.regs {n : Nat} {Γ : Types} {e : SExpr} {o : Ope} {R : Int → Prop} (h : Place n Γ e o R) {v : Int} (hv : v ∈ RSpec.opeRegs (some o)) : R v := by
  rcases h with ⟨m, rfl⟩ | ⟨r, rfl, h⟩ | ⟨k, rfl, -⟩
  · simp [RSpec.opeRegs] at hv
  · simp only [RSpec.opeRegs, List.mem_singleton] at hv
    exact hv ▸ h
  · simp [RSpec.opeRegs] at hv

theorem okX_load {n : Nat} {Γ : Types} {e : SExpr} {o : Ope} {R : Int → Prop} (h : Place n Γ e o R) {z : Sfx} (ht : target Γ e z = true) {r : Int} {u : Bool} :
    okX n (Gen.load (.reg z r u) o) = true := by
  rcases h with ⟨m, rfl⟩ | ⟨r, rfl, h⟩ | ⟨k, rfl, h⟩
  · rfl
  · rfl
  · have := h z ht
    simp [okX, Gen.load, inst, allowed, shapeB, litLoadsB, widensB, this]

theorem okX_store {n : Nat} {Γ : Types} {e : SExpr} {o : Ope} {R : Int → Prop} (h : Place n Γ e o R) {z : Sfx} (ht : target Γ e z = true) {r : Int} {u : Bool} :
    okX n (inst .store (some o) (some (.reg z r u)) none) = true := by
  rcases h with ⟨m, rfl⟩ | ⟨r, rfl, h⟩ | ⟨k, rfl, h⟩
  · rfl
  · rfl
  · have := h z ht
    simp [okX, inst, allowed, shapeB, litFitsB, IMach.width, this]

theorem touch_store {n : Nat} {Γ : Types} {e : SExpr} {o : Ope} {R : Int → Prop} (h : Place n Γ e o R) {z : Sfx} {r v : Int} {u : Bool}
    (hv : Touch (inst .store (some o) (some (.reg z r u)) none) v) : v = r ∨ R v := by
  rcases h with ⟨m, rfl⟩ | ⟨r, rfl, h⟩ | ⟨k, rfl, -⟩ <;> rcases hv with hv | hv
  · simp only [inst, reads, RSpec.opeRegs, List.append_nil, List.mem_singleton] at hv; exact .inl hv
  · cases hv
  · simp only [inst, reads, RSpec.opeRegs, List.append_nil, List.mem_append, List.mem_singleton] at hv
    rcases hv with hv | hv
    · exact .inl hv
    · exact .inr (hv ▸ h)
  · cases hv
  · simp only [inst, reads, RSpec.opeRegs, List.append_nil, List.mem_singleton] at hv; exact .inl hv
  · cases hv

theorem eats_store {o : Ope} {z : Sfx} {r : Int} {u : Bool} : eats (inst .store (some o) (some (.reg z r u)) none) = none := rfl

theorem Use.store {n : Nat} {s s' : GState} {c : List Immc} {Γ : Types} {e : SExpr} {o : Ope} {R R' : Int → Prop} (h : Use n s c s' R') (hp : Place n Γ e o R)
    {z : Sfx} {r : Int} {u : Bool} (ht : target Γ e z = true) (hr : R' r) (hR : ∀ v, R v → R' v) :
    Use n s (c ++ [inst .store (some o) (some (.reg z r u)) none]) s' R' := by
  refine h.add (by omega) ?_ (okX_store hp ht) fun v hv => ⟨.inl hv, by rw [eats_store]; nofun⟩
  intro v hv
  rcases touch_store hp hv with rfl | hv
  · exact .inl hr
  · exact .inl (hR v hv)

theorem assign_use {n : Nat} {Γ : Types} {t : DType} {l r : SExpr} (hl : GUse n Γ false none l (expr l)) (hr : GUse n Γ false none r (expr r)) (hf : CSem.fresh l = true)
    (ht : target Γ l (len r.dt) = true) (ha : alike r.dt t = true) : Codes n Γ (.bin .assign t l r) (assignCode (expr l) (expr r)) := by
  intro s c s' hs hm h
  obtain ⟨sf, id, us, c1, s1, p, c2, s2, h1, h2, rfl, rfl⟩ := assignCode_ok h
  have g1 := (expr_inv r).reg h1
  obtain ⟨_, he, k1, kf⟩ := hr.regOf hs hm h1
  cases he
  obtain ⟨R, k2, hp⟩ := hl.ptr rfl rfl hf (hs.frame g1) (mem_frame hm g1) h2
  simp only [alike, Bool.and_eq_true, decide_eq_true_eq] at ha
  refine ⟨id, ?_, ?_, ?_⟩
  · show some (len r.dt, id, r.dt.isUnsigned) = some (len t, id, t.isUnsigned)
    rw [ha.1, ha.2]
  · rw [← List.append_assoc]
    exact ((k1.seq k2).store hp ht (.inl rfl) fun v hv => .inr hv).to rfl rfl (by rintro v rfl; exact .inl rfl)
  · intro hf'
    unfold CSem.fresh at hf'
    split at hf' <;> first | cases hf' | skip
    · rename_i heq
      cases heq
      rw [expr] at h2
      obtain ⟨-, rfl, -⟩ := symOpe_ok h2
      exact kf hf'
    all_goals first | (rename_i heq; cases heq; done) | (rename_i _ _ hx _ _ _ _; exact absurd rfl (hx _ _ _))

theorem okX_label {n : Nat} {i : Int} : okX n (labelAt i) = true := rfl
theorem okX_goto {n : Nat} {i : Int} : okX n (jump i) = true := rfl
theorem touch_label {i : Int} (v : Int) : ¬ Touch (labelAt i) v := by
  rintro (h | h)
  · simp [labelAt, reads] at h
  · cases h
theorem touch_goto {i : Int} (v : Int) : ¬ Touch (jump i) v := by
  rintro (h | h)
  · simp [jump, inst, reads, RSpec.opeRegs, labelOpe] at h
  · cases h

theorem Use.jump {n : Nat} {s s1 : GState} {c : List Immc} {R R0 : Int → Prop} {j : Name → Immc} (h : Use n s c s1 R) (hj : Jump n j R) (m : Name) (h0 : ∀ v, R0 v → R v) :
    Use n s (c ++ [j m]) s1 R0 := by
  obtain ⟨j1, j2, j3⟩ := hj m
  exact h.add (by omega) (fun v hv => .inl (j2 v hv)) j1 fun v hv => ⟨.inl (h0 v hv), by rw [j3]; nofun⟩

/-- a load into a register that has been reserved -/
theorem Use.into {n : Nat} {s s1 : GState} {c : List Immc} {R R0 : Int → Prop} {z : Sfx} {d : Int} {u : Bool} {o : Ope} (h : Use n s c s1 R) (hd : R d)
    (ho : ∀ v ∈ RSpec.opeRegs (some o), R v) (hok : okX n (Gen.load (.reg z d u) o) = true) (h0 : ∀ v, R0 v → R v) : Use n s (c ++ [Gen.load (.reg z d u) o]) s1 R0 := by
  refine h.add (by omega) ?_ hok fun v hv => ⟨.inl (h0 v hv), ?_⟩
  · intro v hv
    rcases touch_load hv with hv | ⟨_, _, hv⟩ | hv
    · exact .inl (ho v hv)
    · cases hv; exact .inl hd
    · cases hv
  · cases o <;> simp [Gen.load, inst, eats, swallows]

theorem cond_use {n : Nat} {Γ : Types} {t : DType} {c l r : SExpr} (hc : GUse n Γ true none c (expr c)) (hl : GUse n Γ false none l (expr l))
    (hr : GUse n Γ false none r (expr r)) (z1 : zext l.dt t = false) (z2 : zext r.dt t = false) : Codes n Γ (.cond t c l r) (condCode t (expr c) (expr l) (expr r)) := by
  intro s code s' hs hm h
  obtain ⟨j, c1, s1, a, c2, s2, b, c3, s3, h1, h2, h3, rfl, rfl⟩ := condCode_ok h
  have g1 := ((expr_inv c).jmp h1).1
  have g2 := (expr_inv l).reg h2
  have hs0 : Rel Γ { s with lab := s.lab + 1 + 1 } := hs.same rfl (by dsimp only; omega)
  have hs1 : Rel Γ s1 := hs0.frame g1
  have hm1 : s1.mem ≤ n := mem_frame (s := { s with lab := s.lab + 1 + 1 }) hm g1
  have hs1' : Rel Γ { s1 with reg := s1.reg + 1 } := hs1.same rfl (by dsimp only; omega)
  obtain ⟨R1, k1, hj⟩ := hc.jmp rfl hs0 hm h1
  obtain ⟨ra, rfl, k2, -⟩ := hl.regOf hs1' hm1 h2
  obtain ⟨rb, rfl, k3, -⟩ := hr.regOf (hs1'.frame g2) (mem_frame (s := { s1 with reg := s1.reg + 1 }) hm1 g2) h3
  refine ⟨s1.reg + 1, rfl, ?_, nofun⟩
  have k4 : Use n s (c1 ++ [j (labelName (s.lab + 1))]) { s1 with reg := s1.reg + 1 } (· = s1.reg + 1) :=
    ((k1.jump hj (labelName (s.lab + 1)) (R0 := fun _ => False) nofun).to (s0 := s) rfl rfl (fun _ h => h)).bump (by dsimp only; omega)
      (by rintro v rfl; right; dsimp only; omega)
  have k5 := (k4.seq k2).into (R0 := (· = s1.reg + 1)) (z := len t) (d := s1.reg + 1) (u := t.isUnsigned) (o := .reg (len l.dt) ra l.dt.isUnsigned) (.inl rfl)
    (by intro v hv; simp only [RSpec.opeRegs, List.mem_singleton] at hv; exact .inr hv) (okX_conv z1) (fun v hv => .inl hv)
  have k6 := (k5.skip (x := jump (s.lab + 1 + 1)) touch_goto okX_goto).skip (x := labelAt (s.lab + 1)) touch_label okX_label
  have k7 := (k6.seq k3).into (R0 := (· = s1.reg + 1)) (z := len t) (d := s1.reg + 1) (u := t.isUnsigned) (o := .reg (len r.dt) rb r.dt.isUnsigned) (.inl rfl)
    (by intro v hv; simp only [RSpec.opeRegs, List.mem_singleton] at hv; exact .inr hv) (okX_conv z2) (fun v hv => .inl hv)
  have k8 := (k7.skip (x := labelAt (s.lab + 1 + 1)) touch_label okX_label).to (s0 := s)
    (s2 := { s3 with exprReg := some (Sfx.get t.nbytes, s1.reg + 1, t.isUnsigned) }) rfl rfl (fun _ h => h)
  simpa [len] using k8

theorem logical_use {n : Nat} {Γ : Types} {op : SBin} {b : Bool} {t : DType} {l r : SExpr} (hl : GUse n Γ true none l (expr l)) (hr : GUse n Γ true none r (expr r))
    (ht : len t ≠ .none) : Codes n Γ (.bin op t l r) (logicalCode b t (expr l) (expr r)) := by
  intro s code s' hs hm h
  obtain ⟨j, c1, s1, k, c2, s2, h1, h2, rfl, rfl⟩ := logicalCode_ok h
  have g1 := ((expr_inv l).jmp h1).1
  have hs0 : Rel Γ { s with lab := s.lab + 1 + 1 } := hs.same rfl (by dsimp only; omega)
  obtain ⟨R1, k1, hj⟩ := hl.jmp rfl hs0 hm h1
  obtain ⟨R2, k2, hk⟩ := hr.jmp rfl (hs0.frame g1) (mem_frame (s := { s with lab := s.lab + 1 + 1 }) hm g1) h2
  refine ⟨s2.reg + 1, rfl, ?_, fun _ => rfl⟩
  have lit : ∀ v : Int, v = 0 ∨ v = 1 → ∀ d u, okX n (Gen.load (.reg (len t) d u) (intOpe (len t) v)) = true := by
    intro v hv d u
    have : immFits (len t) v = true := by
      rcases hv with rfl | rfl
      · exact fits_zero _
      · exact fits_one ht
    have := fits_loads this
    simp [okX, Gen.load, inst, allowed, shapeB, litLoadsB, widensB, inFrameB, intOpe, this]
  have k3 := (k1.jump hj (labelName (s.lab + 1)) (R0 := fun _ => False) nofun).seq k2
  have k4 : Use n { s with lab := s.lab + 1 + 1 } (c1 ++ [j (labelName (s.lab + 1))] ++ c2 ++ [k (labelName (s.lab + 1))]) { s2 with reg := s2.reg + 1 } (· = s2.reg + 1) :=
    (k3.jump (j := k) (R0 := fun _ => False) (fun m => ⟨(hk m).1, fun v hv => .inr ((hk m).2.1 v hv), (hk m).2.2⟩) (labelName (s.lab + 1)) nofun).bump
      (by dsimp only; omega) (by rintro v rfl; right; dsimp only; omega)
  have k5 := k4.into (R0 := (· = s2.reg + 1)) (z := len t) (d := s2.reg + 1) (u := t.isUnsigned) (o := intOpe (len t) (if b then 0 else 1)) rfl
    (by simp [intOpe, RSpec.opeRegs]) (lit _ (by cases b <;> simp) _ _) (fun v hv => hv)
  have k6 := (k5.skip (x := jump (s.lab + 1 + 1)) touch_goto okX_goto).skip (x := labelAt (s.lab + 1)) touch_label okX_label
  have k7 := k6.into (R0 := (· = s2.reg + 1)) (z := len t) (d := s2.reg + 1) (u := t.isUnsigned) (o := intOpe (len t) (if b then 1 else 0)) rfl
    (by simp [intOpe, RSpec.opeRegs]) (lit _ (by cases b <;> simp) _ _) (fun v hv => hv)
  have k8 := (k7.skip (x := labelAt (s.lab + 1 + 1)) touch_label okX_label).to (s0 := s)
    (s2 := { s2 with reg := s2.reg + 1, exprReg := some (Sfx.get t.nbytes, s2.reg + 1, t.isUnsigned) }) rfl rfl (fun _ h => h)
  simpa [len] using k8

/-- What comes after the code of the left operand `l`: the value is in a new register, and the code can follow whatever has put the left operand into a register. -/
def Later (n : Nat) (Γ : Types) (t : DType) (l : SExpr) (code : GM Unit) : Prop :=
  ∀ {s c s'}, Rel Γ s → s.mem ≤ n → code s = .ok ((), c, s') →
    ∃ a c1 s1 c', (expr l).reg s = .ok (a, c1, s1) ∧ c = c1 ++ c' ∧ s1.reg ≤ s'.reg ∧
      ∀ {s0 : GState} {b : List Immc} {f : Int}, a = .reg (len l.dt) f l.dt.isUnsigned → Use n s0 b s1 (· = f) →
        s'.exprReg = some (len t, s'.reg, t.isUnsigned) ∧ Use n s0 (b ++ c') s' (· = s'.reg)

theorem Later.codes {n : Nat} {Γ : Types} {e : SExpr} {l : SExpr} {code : GM Unit} (h : Later n Γ e.dt l code) (hl : GUse n Γ false none l (expr l)) : Codes n Γ e code := by
  intro s c s' hs hm hc
  obtain ⟨a, c1, s1, c', h1, rfl, -, h2⟩ := h hs hm hc
  obtain ⟨f, rfl, k1, -⟩ := hl.regOf hs hm h1
  obtain ⟨h3, h4⟩ := h2 rfl k1
  exact ⟨_, h3, h4, fun _ => rfl⟩

theorem arith_later {n : Nat} {Γ : Types} {i : IOp} {t : DType} {l r : SExpr} (hr : GUse n Γ false none r (expr r))
    (hok : ∀ {d f : Int} {o : Ope} {R : Int → Prop}, Val r.dt o R → (∀ s r u, o = .reg s r u → r ≠ f) →
      (∃ s c s', (expr r).int none s = .ok (o, c, s')) →
      okX n (inst i (some (.reg (len t) d t.isUnsigned)) (some (.reg (len l.dt) f l.dt.isUnsigned)) (some o)) = true) :
    Later n Γ t l (arithCode i t (expr l) (expr r)) := by
  intro s code s' hs hm h
  obtain ⟨a, c1, s1, b, c2, s2, h1, h2, rfl, rfl⟩ := arithCode_ok h
  have g1 := (expr_inv l).reg h1
  obtain ⟨R, k2, k3, -⟩ := hr.int rfl (hs.frame g1) (mem_frame hm g1) h2
  have r2 := k2.reg
  refine ⟨a, c1, s1, _, h1, rfl, by dsimp only; omega, ?_⟩
  rintro s0 b f rfl k1
  exact ⟨rfl, k1.op2 k2 k3 rfl fun hf => hok k3 hf ⟨_, _, _, h2⟩⟩

/-- a comparison and its jump, after the code of the left operand -/
theorem cmp_later {n : Nat} {Γ : Types} {i : IOp} {l r : SExpr} (hr : GUse n Γ false none r (expr r))
    (hop : i = .jeq ∨ i = .jneq ∨ i = .jlt ∨ i = .jgt ∨ i = .jleq ∨ i = .jgeq) (hd : len l.dt = len r.dt)
    {s s' : GState} {j : Name → Immc} {c : List Immc} (hs : Rel Γ s) (hm : s.mem ≤ n) (h : jmpCmp i (expr l) (expr r) s = .ok (j, c, s')) :
    ∃ a c1 s1 c', (expr l).reg s = .ok (a, c1, s1) ∧ c = c1 ++ c' ∧ s1.reg ≤ s'.reg ∧
      ∀ {s0 : GState} {b : List Immc} {f : Int}, a = .reg (len l.dt) f l.dt.isUnsigned → Use n s0 b s1 (· = f) → ∃ R, Use n s0 (b ++ c') s' R ∧ Jump n j R := by
  obtain ⟨a, c1, s1, b, c2, h1, h2, rfl, rfl⟩ := jmpCmp_ok h
  have g1 := (expr_inv l).reg h1
  obtain ⟨R, k2, k3, -⟩ := hr.int rfl (hs.frame g1) (mem_frame hm g1) h2
  refine ⟨a, c1, s1, _, h1, rfl, k2.reg, ?_⟩
  rintro s0 b f rfl k1
  refine ⟨_, k1.seq k2, fun m => ⟨okX_jump hop k3 hd ?_, ?_, ?_⟩⟩
  · rintro z r u rfl
    have := (k1.res f rfl).1
    have := (k2.res r (k3.regs (by simp [RSpec.opeRegs]))).1
    omega
  · intro v hv
    rcases hv with hv | hv
    · simp only [inst, reads, List.append_nil, List.mem_append] at hv
      rcases hv with hv | hv
      · simp only [RSpec.opeRegs, List.mem_singleton] at hv
        exact .inl hv
      · exact .inr (k3.regs hv)
    · cases hv
  · rcases hop with rfl | rfl | rfl | rfl | rfl | rfl <;> rfl

theorem cmp_use {n : Nat} {Γ : Types} {i : IOp} {l r : SExpr} (hl : GUse n Γ false none l (expr l)) (hr : GUse n Γ false none r (expr r))
    (hop : i = .jeq ∨ i = .jneq ∨ i = .jlt ∨ i = .jgt ∨ i = .jleq ∨ i = .jgeq) (hd : len l.dt = len r.dt)
    {s s' : GState} {j : Name → Immc} {c : List Immc} (hs : Rel Γ s) (hm : s.mem ≤ n) (h : jmpCmp i (expr l) (expr r) s = .ok (j, c, s')) :
    ∃ R, Use n s c s' R ∧ Jump n j R := by
  obtain ⟨a, c1, s1, c', h1, rfl, -, h2⟩ := cmp_later hr hop hd hs hm h
  obtain ⟨f, rfl, k1, -⟩ := hl.regOf hs hm h1
  exact h2 rfl k1

theorem padd_later {n : Nat} {Γ : Types} {i : IOp} {t : DType} {l r : SExpr} (hr : GUse n Γ false none r (expr r))
    (hi : i = .add ∨ i = .sub) (h1 : len l.dt = .quad) (h2 : len r.dt ≠ .byte) (h3 : (r.dt.isUnsigned && decide (len r.dt = .long)) = false)
    (h4 : immFits (len r.dt) (stride l.dt) = true) : Later n Γ t l (ptrAddCode i t l.dt (expr l) (expr r)) := by
  intro s code s' hs hm h
  obtain ⟨a, c1, s1, b, c2, s2, t', j1, j2, jt, rfl, rfl⟩ := ptrAddCode_ok h
  have g1 := (expr_inv l).reg j1
  obtain ⟨g, rfl, k2, -⟩ := hr.regOf (hs.frame g1) (mem_frame hm g1) j2
  have r2 := k2.reg
  refine ⟨a, c1, s1, _, j1, rfl, by dsimp only; omega, ?_⟩
  rintro s0 b f rfl k1
  have hst : stride l.dt = t'.nbytes := by rw [jt]; rfl
  rw [hst] at h4
  have b1 := (k1.res f rfl).1
  have b2 := (k2.res g rfl).1
  have m1 : okX n (inst .mul (some (.reg (len r.dt) g r.dt.isUnsigned)) (some (.reg (len r.dt) g r.dt.isUnsigned)) (some (intOpe (len r.dt) t'.nbytes))) = true := by
    simp [okX, inst, allowed, shapeB, IMach.width, intOpe, wider_self, pairB, widens_self, widens_int, destB_self, litFitsB, h4, h2]
  have m2 : ∀ d, okX n (inst i (some (.reg (len t) d t.isUnsigned)) (some (.reg (len l.dt) f l.dt.isUnsigned)) (some (.reg (len r.dt) g r.dt.isUnsigned))) = true := by
    intro d
    have w : widensB true (.reg (len r.dt) g r.dt.isUnsigned) .quad = false := by
      unfold widensB
      split
      · rename_i heq
        simp only [Ope.reg.injEq] at heq
        rw [heq.1, heq.2.2] at h3
        simpa using h3
      · rfl
    have ne : g ≠ f := by omega
    rcases hi with rfl | rfl <;>
      simp [okX, inst, allowed, shapeB, IMach.width, h1, wider_quad, pairB, widens_self, w, destB, litFitsB, ne]
  refine ⟨rfl, ?_⟩
  have k3 := (k1.seq k2).add (s' := s2) (R' := fun v => v = f ∨ v = g) (by omega) (x := inst .mul (some (.reg (len r.dt) g r.dt.isUnsigned))
      (some (.reg (len r.dt) g r.dt.isUnsigned)) (some (intOpe (len r.dt) t'.nbytes))) (by
    intro v hv
    rcases hv with hv | hv
    · simp [inst, reads, RSpec.opeRegs, intOpe] at hv
      exact .inl (.inr hv)
    · cases hv; exact .inl (.inr rfl)) m1 (fun v hv => ⟨.inl hv, by simp [inst, eats, swallows]⟩)
  have k4 := k3.add (s' := { s2 with reg := s2.reg + 1, exprReg := some (Sfx.get t.nbytes, s2.reg + 1, t.isUnsigned) }) (R' := (· = s2.reg + 1)) (by dsimp only; omega)
    (x := inst i (some (.reg (len t) (s2.reg + 1) t.isUnsigned)) (some (.reg (len l.dt) f l.dt.isUnsigned)) (some (.reg (len r.dt) g r.dt.isUnsigned))) (by
    intro v hv
    rcases hv with hv | hv
    · simp [inst, reads, RSpec.opeRegs] at hv
      exact .inl hv
    · cases hv; right; dsimp only; omega) (m2 _) (by
    rintro v rfl
    refine ⟨.inr (by dsimp only; omega), fun he => ?_⟩
    have := eats_or he
    omega)
  simpa [len, sfxOf] using k4

theorem touch_addr {d : Ope} {o : Ope} {v : Int} (ho : (∃ m, o = .label m) ∨ ∃ k, o = .mem k) {z : Sfx} {r : Int} {u : Bool} (hd : d = .reg z r u)
    (h : Touch (inst .addr (some d) (some o) none) v) : v = r := by
  subst hd
  rcases h with h | h
  · rcases ho with ⟨m, rfl⟩ | ⟨k, rfl⟩ <;> simp [inst, reads, RSpec.opeRegs] at h
  · cases h; rfl

theorem addr_use {n : Nat} {Γ : Types} {e : SExpr} {src : GM Ope}
    (h1 : ∀ {s o c s'}, src s = .ok (o, c, s') → c = [] ∧ s' = s ∧ ((∃ m, o = .label m) ∨ ∃ k, o = .mem k)) : Codes n Γ e (addrCode e.dt src) := by
  intro s code s' hs hm h
  obtain ⟨o, c1, s1, h2, rfl, rfl⟩ := addrCode_ok h
  obtain ⟨rfl, rfl, ho⟩ := h1 h2
  refine ⟨_, rfl, ?_, fun _ => rfl⟩
  refine (Use.nil (s := s1) (s' := s1) rfl).add (by dsimp only; omega) ?_ ?_ ?_
  · intro v hv
    rw [touch_addr ho rfl hv]
    right; dsimp only; omega
  · rcases ho with ⟨m, rfl⟩ | ⟨k, rfl⟩ <;> rfl
  · rintro v rfl
    refine ⟨.inr (by dsimp only; omega), ?_⟩
    rcases ho with ⟨m, rfl⟩ | ⟨k, rfl⟩ <;> simp [inst, eats]

theorem indir_use {n : Nat} {Γ : Types} {t : DType} {e : SExpr} (he : GUse n Γ false none e (expr e)) (hf : CSem.fresh e = true) (ht : target Γ e (len t) = true) :
    Codes n Γ (.un .indir t e) (indirCode t (expr e)) := by
  intro s code s' hs hm h
  obtain ⟨p, c1, s1, h1, rfl, rfl⟩ := indirCode_ok h
  obtain ⟨R, k1, hp⟩ := he.ptr rfl rfl hf hs hm h1
  exact ⟨_, rfl, k1.load rfl (fun v hv => hp.regs hv) (okX_load hp ht), fun _ => rfl⟩

theorem near_offset {m : Str} : ∀ {ms : Members} {o : Nat}, near ms = true → offsetIn m ms = some o → o < 2 ^ 31
  | .nil, _, _, h => by cases h
  | .cons n _ o' ms, o, hn, h => by
    simp only [near, Bool.and_eq_true, decide_eq_true_eq] at hn
    simp only [offsetIn] at h
    split at h
    · cases h; exact hn.1
    · exact near_offset hn.2 h

theorem lookup_small {n : Str} {t : DType} : ∀ {ts : List (List (Str × DType))}, smallTags ts = true → lookup n ts = some t → small t = true
  | [], _, h => by cases h
  | sc :: ts, hs, h => by
    simp only [smallTags, List.all_cons, Bool.and_eq_true] at hs
    simp only [lookup] at h
    cases he : sc.lookup n with
    | none => rw [he] at h; exact lookup_small (ts := ts) hs.2 h
    | some t' =>
      rw [he] at h
      cases h
      exact List.all_eq_true.1 hs.1 _ (lookup_mem he)

theorem offset_val {te : DType} {o : Nat} (h1 : len te = .quad) (hu : te.isUnsigned = false) (ho : o < 2 ^ 31) : Val te (intOpe .quad o) fun _ => False := by
  refine .inr ⟨⟨.int, o⟩, by rw [h1]; rfl, ?_, by rw [hu]; rfl⟩
  rw [h1]
  simp [immFits, Sfx.bits]
  omega

/-- the address of a member -/
theorem memberAddr_use {n : Nat} {Γ : Types} {t : DType} {e : SExpr} {m : Str} (he : GUse n Γ false none e (expr e)) (ht : len t = .quad) (hq : points e.dt = true)
    {s s' : GState} {c : List Immc} (hs : Rel Γ s) (hm : s.mem ≤ n) (h : memberAddrCode t e.dt (expr e) m s = .ok ((), c, s')) :
    s'.exprReg = some (len t, s'.reg, t.isUnsigned) ∧ Use n s c s' (· = s'.reg) := by
  obtain ⟨a, c1, s1, ms, o, h1, h2, h3, rfl, rfl⟩ := memberAddrCode_ok h
  have g1 := (expr_inv e).reg h1
  obtain ⟨r, rfl, k1, -⟩ := he.regOf hs hm h1
  have hs1 := hs.frame g1
  obtain ⟨-, -, h2⟩ := membersOf_ok h2
  have ho : o < 2 ^ 31 := by
    rcases h2 with ⟨b, a, e1⟩ | ⟨n', b, a, b', a', e1, e2⟩
    · rw [e1] at hq
      exact near_offset hq h3
    · exact near_offset (lookup_small hs1.1 e2) h3
  have hd : len e.dt = .quad ∧ e.dt.isUnsigned = false := by
    rcases h2 with ⟨b, a, e1⟩ | ⟨n', b, a, b', a', e1, e2⟩ <;> rw [e1] <;> exact ⟨rfl, rfl⟩
  have hv := offset_val hd.1 hd.2 ho
  exact ⟨rfl, k1.op2 (Use.nil (s' := s1) rfl) hv (s' := { s1 with reg := s1.reg + 1, exprReg := some (Sfx.get t.nbytes, s1.reg + 1, t.isUnsigned) }) rfl fun hf =>
    okX_arith (.inl rfl) hv rfl (ht.trans hd.1.symm) hf⟩

theorem pos_use {n : Nat} {Γ : Types} {t : DType} {e : SExpr} (he : GUse n Γ false none e (expr e)) (ha : alike e.dt t = true) :
    Codes n Γ (.un .pos t e) (posCode (expr e)) := by
  intro s code s' hs hm h
  obtain ⟨sf, r, us, s1, h1, rfl⟩ := posCode_ok h
  obtain ⟨_, e1, k1, kf⟩ := he.regOf hs hm h1
  cases e1
  simp only [alike, Bool.and_eq_true, decide_eq_true_eq] at ha
  refine ⟨r, ?_, k1.to rfl rfl (fun _ h => h), fun h => ?_⟩
  · show some (len e.dt, r, e.dt.isUnsigned) = some (len t, r, t.isUnsigned)
    rw [ha.1, ha.2]
  · unfold CSem.fresh at h
    exact kf h

/-- one operand, the result in a new register -/
theorem Use.op1 {n : Nat} {s s1 s' : GState} {c : List Immc} {R : Int → Prop} {i : IOp} (hi : i = .neg ∨ i = .not) {t te : DType} {f : Int}
    (k1 : Use n s c s1 R) (hR : R f) (ht : len t = len te) (hr : s'.reg = s1.reg + 1) :
    Use n s (c ++ [inst i (some (.reg (len t) (s1.reg + 1) t.isUnsigned)) (some (.reg (len te) f te.isUnsigned)) none]) s' (· = s1.reg + 1) := by
  have := (k1.res f hR).1
  refine k1.add (by omega) ?_ ?_ ?_
  · intro v hv
    rcases hv with hv | hv
    · simp [inst, reads, RSpec.opeRegs] at hv
      exact .inl (hv ▸ hR)
    · cases hv; right; omega
  · rcases hi with rfl | rfl <;> simp [okX, inst, allowed, shapeB, ht, destB_self]
  · rintro v rfl
    refine ⟨.inr (by omega), fun he => ?_⟩
    have := eats_or he
    omega

theorem un_use {n : Nat} {Γ : Types} {op : SUn} {i : IOp} (hi : i = .neg ∨ i = .not) {t : DType} {e : SExpr} (he : GUse n Γ false none e (expr e))
    (hr : ∀ {s o c s'}, (expr e).int none s = .ok (o, c, s') → ∃ sf r u, o = .reg sf r u) (ht : len t = len e.dt) :
    Codes n Γ (.un op t e) (unCode i t (expr e)) := by
  intro s code s' hs hm h
  obtain ⟨a, c1, s1, h1, rfl, rfl⟩ := unCode_ok h
  obtain ⟨R, k1, k2, -⟩ := he.int rfl hs hm h1
  obtain ⟨sf, f, u, rfl⟩ := hr h1
  rcases k2 with ⟨r, e1, hR⟩ | ⟨l, e1, -⟩ <;> cases e1
  exact ⟨_, rfl, k1.op1 hi hR ht rfl, fun _ => rfl⟩

theorem incLit_step {t : DType} {l : ILit} (h : incLit t = some l) : l.value = step t := by
  unfold incLit at h
  unfold step
  split at h
  · cases h; cases t <;> first | rfl | contradiction
  · split at h
    · cases h; cases t <;> first | rfl | contradiction
    · split at h
      · cases h; simp
      · cases h

theorem okX_inc {n : Nat} {i : IOp} (hi : i = .add ∨ i = .sub) {z : Sfx} {d : Int} {u : Bool} {l : ILit} (h : immFits z l.value = true) :
    okX n (inst i (some (.reg z d u)) (some (.reg z d u)) (some (.int z l))) = true := by
  rcases hi with rfl | rfl <;> simp [okX, inst, allowed, shapeB, IMach.width, wider_self, pairB, widens_self, widens_int, destB_self, litFitsB, h]

theorem eats_inc {i : IOp} {z : Sfx} {d : Int} {u : Bool} {o : Option Ope} : eats (inst i (some (.reg z d u)) (some (.reg z d u)) o) = none := by
  simp [inst, eats, isReg]

theorem Use.inc {n : Nat} {s s1 : GState} {c : List Immc} {R : Int → Prop} {i : IOp} (hi : i = .add ∨ i = .sub) {z : Sfx} {d : Int} {u : Bool} {l : ILit}
    (h : Use n s c s1 R) (hd : R d) (hf : immFits z l.value = true) : Use n s (c ++ [inst i (some (.reg z d u)) (some (.reg z d u)) (some (.int z l))]) s1 R := by
  refine h.add (by omega) ?_ (okX_inc hi hf) fun v hv => ⟨.inl hv, by rw [eats_inc]; nofun⟩
  intro v hv
  rcases hv with hv | hv
  · simp [inst, reads, RSpec.opeRegs] at hv
    exact .inl (hv ▸ hd)
  · cases hv; exact .inl hd

theorem pre_use {n : Nat} {Γ : Types} {op : SUn} {i : IOp} (hi : i = .add ∨ i = .sub) {t : DType} {e : SExpr} (he : GUse n Γ false none e (expr e))
    (hf : CSem.fresh e = true) (ht : target Γ e (len t) = true) (hl : immFits (len t) (step t) = true) :
    Codes n Γ (.un op t e) (incdecCode i false t (expr e)) := by
  intro s code s' hs hm h
  obtain ⟨p, c1, s1, l, h1, h2, rfl, rfl⟩ := incdecPre_ok h
  obtain ⟨R, k1, hp⟩ := he.ptr rfl rfl hf hs hm h1
  rw [← incLit_step h2] at hl
  refine ⟨_, rfl, ?_, fun _ => rfl⟩
  have k2 : Use n s c1 { s1 with reg := s1.reg + 1 } (fun v => R v ∨ v = s1.reg + 1) :=
    k1.bump (by dsimp only; omega) (by rintro v (hv | rfl); exact .inl hv; right; dsimp only; omega)
  have k3 := k2.into (R0 := fun v => R v ∨ v = s1.reg + 1) (z := len t) (d := s1.reg + 1) (u := t.isUnsigned) (o := p) (.inr rfl) (fun v hv => .inl (hp.regs hv))
    (okX_load hp ht) (fun _ h => h)
  have k4 := (k3.inc hi (z := len t) (u := t.isUnsigned) (.inr rfl) hl).store hp (u := t.isUnsigned) ht (.inr rfl) (fun v hv => .inl hv)
  have k5 := k4.to (s0 := s) (s2 := { s1 with reg := s1.reg + 1, exprReg := some (Sfx.get t.nbytes, s1.reg + 1, t.isUnsigned) }) (R' := (· = s1.reg + 1)) rfl rfl
    (fun v hv => .inr hv)
  simpa [len] using k5

theorem post_use {n : Nat} {Γ : Types} {op : SUn} {i : IOp} (hi : i = .add ∨ i = .sub) {t : DType} {e : SExpr} (he : GUse n Γ false none e (expr e))
    (hf : CSem.fresh e = true) (ht : target Γ e (len t) = true) (hl : immFits (len t) (step t) = true) :
    Codes n Γ (.un op t e) (incdecCode i true t (expr e)) := by
  intro s code s' hs hm h
  obtain ⟨p, c1, s1, l, h1, h2, rfl, rfl⟩ := incdecPost_ok h
  obtain ⟨R, k1, hp⟩ := he.ptr rfl rfl hf hs hm h1
  rw [← incLit_step h2] at hl
  refine ⟨_, rfl, ?_, fun _ => rfl⟩
  have k2 : Use n s c1 { s1 with reg := s1.reg + 1 + 1 } (fun v => R v ∨ v = s1.reg + 1 ∨ v = s1.reg + 1 + 1) :=
    k1.bump (by dsimp only; omega) (by rintro v (hv | rfl | rfl); exact .inl hv; all_goals (right; dsimp only; omega))
  have k3 := k2.into (R0 := fun v => R v ∨ v = s1.reg + 1 ∨ v = s1.reg + 1 + 1) (z := len t) (d := s1.reg + 1) (u := t.isUnsigned) (o := p) (.inr (.inl rfl))
    (fun v hv => .inl (hp.regs hv)) (okX_load hp ht) (fun _ h => h)
  have k3' := k3.into (R0 := fun v => R v ∨ v = s1.reg + 1 ∨ v = s1.reg + 1 + 1) (z := len t) (d := s1.reg + 1 + 1) (u := t.isUnsigned)
    (o := .reg (len t) (s1.reg + 1) t.isUnsigned) (.inr (.inr rfl))
    (by intro v hv; simp only [RSpec.opeRegs, List.mem_singleton] at hv; exact .inr (.inl hv)) (by
      simp [okX, Gen.load, inst, allowed, shapeB, litLoadsB, widens_self, inFrameB]) (fun _ h => h)
  have k4 := (k3'.inc hi (z := len t) (u := t.isUnsigned) (.inr (.inl rfl)) hl).store hp (u := t.isUnsigned) ht (.inr (.inl rfl)) (fun v hv => .inl hv)
  have k5 := k4.to (s0 := s) (s2 := { s1 with reg := s1.reg + 1 + 1, exprReg := some (Sfx.get t.nbytes, s1.reg + 1 + 1, t.isUnsigned) }) (R' := (· = s1.reg + 1 + 1)) rfl rfl
    (fun v hv => .inr (.inr hv))
  simpa [len] using k5

theorem toU64_small {v : Int} (h1 : 0 ≤ v) (h2 : v < 2 ^ 32) : toU64 v = v := by unfold toU64; omega
theorem toS64_small {v : Int} (h1 : 0 ≤ v) (h2 : v < 2 ^ 32) : toS64 v = v := by unfold toS64; omega
theorem lit_uns (k : Nat) (u : Bool) : (litTypeGet k u).isUnsigned = u := by
  unfold litTypeGet
  cases u <;> split <;> first | rfl | (split <;> rfl)
theorem lit_value {t : DType} {l : ILit} (h1 : 0 ≤ l.value) (h2 : l.value < 2 ^ 32) : (dtypedLit t l).value = l.value ∧ (dtypedLit t l).type.isUnsigned = t.isUnsigned := by
  unfold dtypedLit
  split
  · rename_i h
    exact ⟨toU64_small h1 h2, by rw [lit_uns, h]⟩
  · rename_i h
    exact ⟨toS64_small h1 h2, by rw [lit_uns]; simpa using h⟩

/-- an expression that is a literal needs no code -/
theorem lit_int : ∀ (e : SExpr) {Γ : Types} {b : Bool} {o : Option DType} {v : Int}, plain Γ b o e = true → litVal e = some v → ∀ {s p c s'}, (expr e).int o s = .ok (p, c, s') →
    ∃ l : ILit, p = .int (len (o.getD e.dt)) l ∧ l.value = v
  | .ilit t l, Γ, b, o, v, hp, hv, s, p, c, s', h => by
    rw [expr] at h
    obtain ⟨rfl, rfl, rfl⟩ := pure_ok.1 h
    simp only [plain, Bool.and_eq_true, decide_eq_true_eq] at hp
    have := fits_big hp.1.1
    cases hv
    exact ⟨_, rfl, (lit_value hp.2 (by omega)).1⟩
  | .un .cast t e, Γ, b, o, v, hp, hv, s, p, c, s', h => by
    rw [expr] at h
    rw [litVal] at hv
    rw [plain] at hp
    exact lit_int e (o := some (o.getD t)) hp hv h
  | .ident .., _, _, _, _, _, hv, _, _, _, _, _ | .str .., _, _, _, _, _, hv, _, _, _, _, _ | .bin .., _, _, _, _, _, hv, _, _, _, _, _
  | .cond .., _, _, _, _, _, hv, _, _, _, _, _ | .call .., _, _, _, _, _, hv, _, _, _, _, _ | .tomember .., _, _, _, _, _, hv, _, _, _, _, _
  | .un .addr .., _, _, _, _, _, hv, _, _, _, _, _ | .un .preinc .., _, _, _, _, _, hv, _, _, _, _, _ | .un .predec .., _, _, _, _, _, hv, _, _, _, _, _
  | .un .postinc .., _, _, _, _, _, hv, _, _, _, _, _ | .un .postdec .., _, _, _, _, _, hv, _, _, _, _, _ | .un .indir .., _, _, _, _, _, hv, _, _, _, _, _
  | .un .pos .., _, _, _, _, _, hv, _, _, _, _, _ | .un .neg .., _, _, _, _, _, hv, _, _, _, _, _ | .un .not .., _, _, _, _, _, hv, _, _, _, _, _
  | .un .lnot .., _, _, _, _, _, hv, _, _, _, _, _ => by simp [litVal] at hv

theorem plainInt_reg {code : GM Unit} {o : Option DType} {s s' : GState} {p : Ope} {c : List Immc} (h : (G.plain code).int o s = .ok (p, c, s')) : ∃ sf r u, p = .reg sf r u := by
  simp only [G.plain, G.of, bind_ok] at h
  obtain ⟨_, c1, s1, c2, ha, hb, rfl⟩ := h
  obtain ⟨sf', r', u', he, ⟨rfl, rfl, rfl, rfl⟩ | ⟨t, rfl, rfl, rfl, rfl⟩⟩ := castReg_ok hb
  · exact ⟨_, _, _, rfl⟩
  · exact ⟨_, _, _, rfl⟩

/-- an expression that is not a literal has a register -/
theorem nolit_int : ∀ (e : SExpr) {o : Option DType}, litVal e = none → ∀ {s p c s'}, (expr e).int o s = .ok (p, c, s') → ∃ sf r u, p = .reg sf r u
  | .ilit t l, o, hv, _, _, _, _, _ => by simp [litVal] at hv
  | .ident .., o, hv, _, _, _, _, h => by rw [expr] at h; exact plainInt_reg h
  | .str .., o, hv, _, _, _, _, h => by rw [expr] at h; exact plainInt_reg h
  | .bin .., o, hv, _, _, _, _, h => by rw [expr] at h; exact plainInt_reg h
  | .cond .., o, hv, _, _, _, _, h => by rw [expr] at h; exact plainInt_reg h
  | .call .., o, hv, _, _, _, _, h => by rw [expr] at h; exact plainInt_reg h
  | .tomember .., o, hv, _, _, _, _, h => by rw [expr] at h; exact plainInt_reg h
  | .un op t e, o, hv, s, p, c, s', h => by
    cases op with
    | cast =>
      rw [expr] at h
      rw [litVal] at hv
      exact nolit_int e (o := some (o.getD t)) hv h
    | addr =>
      cases e with
      | ident t' n => rw [expr] at h; exact plainInt_reg h
      | str t' n => rw [expr] at h; exact plainInt_reg h
      | tomember t' d a m => rw [expr] at h; exact plainInt_reg h
      | un op' t' d =>
        cases op' with
        | indir => rw [expr] at h; exact plainInt_reg h
        | _ => rw [expr] at h <;> first | exact plainInt_reg h | nofun
      | _ => rw [expr] at h <;> first | exact plainInt_reg h | nofun
    | _ => rw [expr] at h; exact plainInt_reg h

theorem cjmp_ops {op : SBin} {d : Bool} {i : IOp} (h : cjmp op d = some i) :
    (i = .jeq ∨ i = .jneq ∨ i = .jlt ∨ i = .jgt ∨ i = .jleq ∨ i = .jgeq) ∧
    (op = .equal ∨ op = .nequal ∨ op = .less ∨ op = .greater ∨ op = .lesseq ∨ op = .greatereq) := by
  cases op <;> simp [cjmp] at h <;> subst h <;> cases d <;> simp

/-- a binary node other than a comparison -/
theorem GUse.nocmp {n : Nat} {Γ : Types} {b : Bool} {o : Option DType} {op : SBin} {t : DType} {l r : SExpr} (hj : ∀ d, cjmp op d = none) (hc : conv o t = true)
    (h1 : Codes n Γ (.bin op t l r) (binCode op t l.dt (expr l) (expr r))) : GUse n Γ b o (.bin op t l r) (expr (.bin op t l r)) := by
  rw [expr]
  have hp : GUse n Γ b o (.bin op t l r) (G.plain (binCode op t l.dt (expr l) (expr r))) := .plain hc h1
  refine ⟨hp.code, hp.int, hp.ptr, ?_⟩
  intro ho d s j c s' hs hm h
  simp only [G.bin, hj] at h
  exact hp.jmp ho hs hm h

/-- a comparison that is a condition -/
theorem GUse.cmp {n : Nat} {Γ : Types} {o : Option DType} {op : SBin} {t : DType} {l r : SExpr} (hj : ∀ d, cjmp op d ≠ none) (hl : GUse n Γ false none l (expr l))
    (hr : GUse n Γ false none r (expr r)) (hd : len l.dt = len r.dt) : GUse n Γ true o (.bin op t l r) (expr (.bin op t l r)) := by
  refine ⟨nofun, nofun, nofun, ?_⟩
  intro ho d s j c s' hs hm h
  rw [expr] at h
  simp only [G.bin] at h
  cases hi : cjmp op d with
  | none => exact absurd hi (hj d)
  | some i =>
    rw [hi] at h
    exact cmp_use hl hr (cjmp_ops hi).1 hd hs hm h

/-- a binary node other than a comparison, after the code of the left operand -/
theorem bin_later {n : Nat} {Γ : Types} {op : SBin} (h0 : op ≠ .land ∧ op ≠ .lor) {t : DType} {l r : SExpr}
    (hr : GUse n Γ false none r (expr r)) (hrp : plain Γ false none r = true) (ho : operands false op t l r = true) :
    Later n Γ t l (binCode op t l.dt (expr l) (expr r)) ∧ ∀ d, cjmp op d = none := by
  have arith : ∀ {i : IOp}, (i = .add ∨ i = .sub ∨ i = .and ∨ i = .or ∨ i = .xor) → len l.dt = len r.dt → len t = len l.dt →
      Later n Γ t l (arithCode i t (expr l) (expr r)) := fun hi e1 e2 => arith_later hr fun hv hf _ => okX_arith hi hv e1 e2 hf
  have shift : ∀ {i : IOp}, (i = .sal ∨ i = .sar ∧ l.dt.isUnsigned = false) → len t = len l.dt → (len r.dt).bits ≤ (len l.dt).bits →
      (∃ v, litVal r = some v ∧ 0 ≤ v ∧ v < (len l.dt).bits) → Later n Γ t l (arithCode i t (expr l) (expr r)) := by
    rintro i hi e1 e2 ⟨v, e3, e4, e5⟩
    refine arith_later hr fun hv hf hx => ?_
    obtain ⟨s, c, s', hx⟩ := hx
    obtain ⟨l', rfl, hl'⟩ := lit_int r hrp e3 hx
    exact okX_shift hi e2 e1 (by omega) (by omega)
  cases op with
  | land => exact absurd rfl h0.1
  | lor => exact absurd rfl h0.2
  | add | sub | and | or | xor =>
    simp only [operands, Bool.and_eq_true, decide_eq_true_eq] at ho
    exact ⟨arith (by simp [binOp]) ho.1 ho.2, fun _ => rfl⟩
  | mul =>
    simp only [operands, Bool.and_eq_true, decide_eq_true_eq] at ho
    exact ⟨arith_later hr fun hv hf _ => okX_mul hv ho.1.1 ho.1.2 ho.2 hf, fun _ => rfl⟩
  | lshift | rshift =>
    simp only [operands, Bool.and_eq_true, Bool.or_eq_true, Bool.not_eq_true', decide_eq_true_eq] at ho
    obtain ⟨⟨⟨e1, e2⟩, e3⟩, e4⟩ := ho
    refine ⟨shift ?_ e1 e2 ?_, fun _ => rfl⟩
    · first
        | exact .inl rfl
        | exact .inr ⟨rfl, e3.resolve_left nofun⟩
    · split at e4
      · rename_i v hv
        simp only [Bool.and_eq_true, decide_eq_true_eq] at e4
        exact ⟨v, hv, e4⟩
      · cases e4
  | padd | psub =>
    simp only [operands, Bool.and_eq_true, Bool.not_eq_true', decide_eq_true_eq] at ho
    exact ⟨padd_later hr (by simp [binOp]) ho.1.1.1 ho.1.1.2 ho.1.2 ho.2, fun _ => rfl⟩
  | _ => simp [operands] at ho

/-- the operators that compare -/
theorem operands_cmp {b : Bool} {op : SBin} {t : DType} {l r : SExpr} (h0 : op ≠ .land ∧ op ≠ .lor) (ho : operands b op t l r = true) :
    operands false op t l r = true ∨ (b = true ∧ (∀ d, cjmp op d ≠ none) ∧ len l.dt = len r.dt) := by
  cases op with
  | equal | nequal | less | greater | lesseq | greatereq =>
    simp only [operands, Bool.and_eq_true, decide_eq_true_eq] at ho
    exact .inr ⟨ho.1, fun d => by cases d <;> simp [cjmp], ho.2⟩
  | land => exact absurd rfl h0.1
  | lor => exact absurd rfl h0.2
  | _ => exact .inl ho

theorem bin_use {n : Nat} {Γ : Types} {b : Bool} {o : Option DType} {op : SBin} (h0 : op ≠ .assign ∧ op ≠ .land ∧ op ≠ .lor) {t : DType} {l r : SExpr}
    (hl : GUse n Γ false none l (expr l)) (hr : GUse n Γ false none r (expr r)) (hrp : plain Γ false none r = true) (ho : operands b op t l r = true) (hc : conv o t = true) :
    GUse n Γ b o (.bin op t l r) (expr (.bin op t l r)) := by
  rcases operands_cmp h0.2 ho with ho | ⟨rfl, hj, hd⟩
  · obtain ⟨k1, k2⟩ := bin_later (n := n) h0.2 hr hrp ho
    exact .nocmp k2 hc (k1.codes hl)
  · exact .cmp hj hl hr hd

/-- the code of an expression of the part -/
theorem expr_use (n : Nat) : ∀ (e : SExpr) {Γ : Types} {b : Bool} {o : Option DType}, plain Γ b o e = true → GUse n Γ b o e (expr e)
  | .ident t m, Γ, b, o, hp => by
    simp only [plain, Bool.and_eq_true] at hp
    rw [expr]
    refine .plain hp.2 ?_
    intro s c s' hs hm h
    obtain ⟨p, c1, s1, h1, rfl, rfl⟩ := primaryCode_ok h
    obtain ⟨rfl, rfl, hpl⟩ := place_sym hs hm h1 t t
    exact ⟨_, rfl, (Use.nil rfl).load rfl (fun v hv => hpl.regs hv) (okX_load hpl hp.1), fun _ => rfl⟩
  | .str t id, Γ, b, o, hp => by
    simp only [plain] at hp
    rw [expr]
    refine .plain hp ?_
    intro s c s' hs hm h
    obtain ⟨p, c1, s1, h1, rfl, rfl⟩ := primaryCode_ok h
    obtain ⟨rfl, rfl, rfl⟩ := pure_ok.1 h1
    exact ⟨_, rfl, (Use.nil rfl).load rfl (by simp [RSpec.opeRegs]) rfl, fun _ => rfl⟩
  | .ilit t l, Γ, b, o, hp => by
    simp only [plain, Bool.and_eq_true, decide_eq_true_eq] at hp
    have hb := fits_big hp.1.1
    rw [expr]
    refine .of ?_ ?_
    · rintro rfl s c s' hs hm h
      obtain ⟨p, c1, s1, h1, rfl, rfl⟩ := primaryCode_ok h
      obtain ⟨rfl, rfl, rfl⟩ := pure_ok.1 h1
      refine ⟨_, rfl, (Use.nil rfl).load rfl (by simp [RSpec.opeRegs]) ?_, fun _ => rfl⟩
      have : (if len t = .quad then immFits64 l.value else immFits (len t) l.value) = true := fits_loads hp.1.1
      simp [okX, Gen.load, inst, allowed, shapeB, litLoadsB, widensB, inFrameB, this]
    · intro s p c s' hs hm h
      obtain ⟨rfl, rfl, rfl⟩ := pure_ok.1 h
      obtain ⟨v1, v2⟩ := lit_value (t := o.getD t) hp.2 (by omega : l.value < 2 ^ 32)
      exact ⟨_, Use.nil rfl, .inr ⟨_, rfl, by rw [v1]; exact hp.1.2, v2⟩, fun _ => nofun⟩
  | .bin op t l r, Γ, b, o, hp => by
    by_cases h0 : op ≠ .assign ∧ op ≠ .land ∧ op ≠ .lor
    · have hp' : plain Γ false none l = true ∧ plain Γ false none r = true ∧ operands b op t l r = true ∧ conv o t = true := by
        cases op <;> first | exact absurd rfl h0.1 | exact absurd rfl h0.2.1 | exact absurd rfl h0.2.2 |
          (simp only [plain, Bool.and_eq_true] at hp; exact ⟨hp.1.1.1, hp.1.1.2, hp.1.2, hp.2⟩)
      exact bin_use h0 (expr_use n l hp'.1) (expr_use n r hp'.2.1) hp'.2.1 hp'.2.2.1 hp'.2.2.2
    · cases op with
      | assign =>
        simp only [plain, Bool.and_eq_true] at hp
        exact .nocmp (fun _ => rfl) hp.2 (assign_use (expr_use n l hp.1.1.1.1.2) (expr_use n r hp.1.1.1.1.1) hp.1.1.1.2 hp.1.1.2 hp.1.2)
      | land =>
        simp only [plain, Bool.and_eq_true, operands, decide_eq_true_eq] at hp
        exact .nocmp (fun _ => rfl) hp.2 (logical_use (expr_use n l hp.1.1.1) (expr_use n r hp.1.1.2) hp.1.2)
      | lor =>
        simp only [plain, Bool.and_eq_true, operands, decide_eq_true_eq] at hp
        exact .nocmp (fun _ => rfl) hp.2 (logical_use (expr_use n l hp.1.1.1) (expr_use n r hp.1.1.2) hp.1.2)
      | _ => exact absurd ⟨nofun, nofun, nofun⟩ h0
  | .cond t c l r, Γ, b, o, hp => by
    simp only [plain, Bool.and_eq_true, Bool.not_eq_true'] at hp
    rw [expr]
    exact .plain hp.2 (cond_use (expr_use n c hp.1.1.1.1.1) (expr_use n l hp.1.1.1.1.2) (expr_use n r hp.1.1.1.2) hp.1.1.2 hp.1.2)
  | .un .addr t (.ident t' m), Γ, b, o, hp => by
    simp only [plain] at hp
    rw [expr]
    have := GUse.plain (n := n) (Γ := Γ) (b := b) (o := o) (e := .un .addr t (.ident t' m)) (code := addrCode t (symOpe m)) hp (addr_use (e := .un .addr t (.ident t' m)) (src := symOpe m) fun h => by
      obtain ⟨rfl, rfl, y, hl, ⟨-, m', -, rfl⟩ | ⟨k, hk, rfl⟩⟩ := symOpe_ok h
      · exact ⟨rfl, rfl, .inl ⟨_, rfl⟩⟩
      · exact ⟨rfl, rfl, .inr ⟨_, rfl⟩⟩)
    refine ⟨this.code, this.int, ?_, this.jmp⟩
    intro _ _ _ s p c s' hs hm h
    obtain ⟨rfl, rfl, hpl⟩ := place_sym hs hm h t t'
    exact ⟨_, Use.nil rfl, hpl⟩
  | .un .addr t (.str t' id), Γ, b, o, hp => by
    simp only [plain] at hp
    rw [expr]
    exact .plain hp (addr_use (e := .un .addr t (.str t' id)) fun h => by obtain ⟨rfl, rfl, rfl⟩ := pure_ok.1 h; exact ⟨rfl, rfl, .inl ⟨_, rfl⟩⟩)
  | .un .addr t (.un .indir t' e), Γ, b, o, hp => by
    simp only [plain, Bool.and_eq_true] at hp
    have he := expr_use n e hp.1.1
    rw [expr]
    refine .plain hp.2 ?_
    intro s c s' hs hm h
    obtain ⟨r, k1, k2, k3⟩ := he.code rfl rfl hs hm h
    have ha := hp.1.2
    simp only [alike, Bool.and_eq_true, decide_eq_true_eq] at ha
    refine ⟨r, ?_, k2, fun h => k3 (by unfold CSem.fresh at h; exact h)⟩
    rw [k1]
    show some (len e.dt, r, e.dt.isUnsigned) = some (len t, r, t.isUnsigned)
    rw [ha.1, ha.2]
  | .un .cast t e, Γ, b, o, hp => by
    simp only [plain] at hp
    have he := expr_use n e hp
    rw [expr]
    refine .of (fun _ => by intro s c s' _ _ h; simp [fatal_ok] at h) ?_
    intro s p c s' hs hm h
    obtain ⟨R, k1, k2, k3⟩ := he.int rfl hs hm h
    exact ⟨R, k1, k2, fun _ => k3 (.inr nofun)⟩
  | .un .preinc t e, Γ, b, o, hp => by
    simp only [plain, Bool.and_eq_true] at hp
    rw [expr]
    exact .plain hp.2 (pre_use (.inl rfl) (expr_use n e hp.1.1.1.1) hp.1.1.1.2 hp.1.1.2 hp.1.2)
  | .un .predec t e, Γ, b, o, hp => by
    simp only [plain, Bool.and_eq_true] at hp
    rw [expr]
    exact .plain hp.2 (pre_use (.inr rfl) (expr_use n e hp.1.1.1.1) hp.1.1.1.2 hp.1.1.2 hp.1.2)
  | .un .postinc t e, Γ, b, o, hp => by
    simp only [plain, Bool.and_eq_true] at hp
    rw [expr]
    exact .plain hp.2 (post_use (.inl rfl) (expr_use n e hp.1.1.1.1) hp.1.1.1.2 hp.1.1.2 hp.1.2)
  | .un .postdec t e, Γ, b, o, hp => by
    simp only [plain, Bool.and_eq_true] at hp
    rw [expr]
    exact .plain hp.2 (post_use (.inr rfl) (expr_use n e hp.1.1.1.1) hp.1.1.1.2 hp.1.1.2 hp.1.2)
  | .un .indir t e, Γ, b, o, hp => by
    simp only [plain, Bool.and_eq_true] at hp
    rw [expr]
    exact .plain hp.2 (indir_use (expr_use n e hp.1.1.1) hp.1.1.2 hp.1.2)
  | .un .pos t e, Γ, b, o, hp => by
    simp only [plain, Bool.and_eq_true] at hp
    rw [expr]
    exact .plain hp.2 (pos_use (expr_use n e hp.1.1) hp.1.2)
  | .un .neg t e, Γ, b, o, hp => by
    simp only [plain, Bool.and_eq_true, decide_eq_true_eq, Option.isNone_iff_eq_none] at hp
    rw [expr]
    exact .plain hp.2 (un_use (.inl rfl) (expr_use n e hp.1.1.1) (nolit_int e hp.1.1.2) hp.1.2)
  | .un .not t e, Γ, b, o, hp => by
    simp only [plain, Bool.and_eq_true, decide_eq_true_eq, Option.isNone_iff_eq_none] at hp
    rw [expr]
    exact .plain hp.2 (un_use (.inr rfl) (expr_use n e hp.1.1.1) (nolit_int e hp.1.1.2) hp.1.2)
  | .un .lnot t e, Γ, b, o, hp => by simp [plain] at hp
  | .un .addr t (.ilit ..), Γ, b, o, hp | .un .addr t (.bin ..), Γ, b, o, hp | .un .addr t (.cond ..), Γ, b, o, hp | .un .addr t (.call ..), Γ, b, o, hp
  | .un .addr t (.un .lnot ..), Γ, b, o, hp => by simp [plain] at hp
  | .un .addr t (.un .cast ..), Γ, b, o, hp | .un .addr t (.un .addr ..), Γ, b, o, hp | .un .addr t (.un .preinc ..), Γ, b, o, hp | .un .addr t (.un .predec ..), Γ, b, o, hp
  | .un .addr t (.un .postinc ..), Γ, b, o, hp | .un .addr t (.un .postdec ..), Γ, b, o, hp | .un .addr t (.un .pos ..), Γ, b, o, hp | .un .addr t (.un .neg ..), Γ, b, o, hp
  | .un .addr t (.un .not ..), Γ, b, o, hp => by simp [plain] at hp
  | .call .., Γ, b, o, hp => by simp [plain] at hp
  | .un .addr t (.tomember t' e a m), Γ, b, o, hp => by
    simp only [plain, Bool.and_eq_true, decide_eq_true_eq] at hp
    rw [expr]
    refine .plain hp.2 ?_
    intro s c s' hs hm h
    obtain ⟨k1, k2⟩ := memberAddr_use (expr_use n e hp.1.1.1) hp.1.2 hp.1.1.2 hs hm h
    exact ⟨_, k1, k2, fun _ => rfl⟩
  | .tomember t e a m, Γ, b, o, hp => by
    simp only [plain, Bool.and_eq_true] at hp
    rw [expr]
    refine .plain hp.2 ?_
    intro s c s' hs hm h
    obtain ⟨sf, r, us, c1, s1, h1, h2, rfl, rfl⟩ := memberCode_ok h
    obtain ⟨k1, k2⟩ := memberAddr_use (expr_use n e hp.1.1) rfl hp.1.2 hs hm h1
    rw [h2] at k1
    cases k1
    exact ⟨_, rfl, k2.load rfl (by simp [RSpec.opeRegs]) rfl, fun _ => rfl⟩

end Plain
end Umlcc
