import Verif.Lemma.SimExec
import Verif.Lemma.GenLabel
import Verif.Spec.Fragment
import Verif.Spec.GenSem
/-!
The code generated for expressions computes their values.
-/
namespace Umlcc
namespace Sim
open IMach (Val St Env Mem)
open RSpec (Mach UniqueLabels)
open CSem (InRange rep Ctx eval evalArgs safe safeArgs fresh isPtr)
open Gen

variable {W : Type}

/-- the generator's tables describe the context of evaluation -/
structure Rel (C : Ctx W) (E : Env W) (s : GState) : Prop extends CSem.Describes C E s where
  lim : C.lim = true

theorem Rel.of {C : Ctx W} {E : Env W} {s s' : GState} (h : Rel C E s) (h1 : s'.syms = s.syms) (h2 : s'.tags = s.tags) : Rel C E s' :=
  ⟨⟨h.call, h.ok, h.str, by rw [h1]; exact h.addr, by rw [h2]; exact h.tag⟩, h.lim⟩

theorem Rel.may {C : Ctx W} {E : Env W} {s : GState} (h : Rel C E s) {q : Sfx × Bool} {a : Int} (hm : C.may q a = true) (o : Option Ope) :
    IMach.may E o (BitVec.ofInt 64 a) q.1.nbytes = true := by
  unfold Ctx.may at hm
  rw [h.ok] at hm
  unfold IMach.may
  split
  · rfl
  · exact hm

theorem Rel.frame {C : Ctx W} {E : Env W} {s s' : GState} (h : Rel C E s) (f : Frame s s') : Rel C E s' := h.of f.syms f.tags

/-- registers up to a number are unchanged -/
def Keep (n : Int) (R R' : Int → Val) : Prop := ∀ r ≤ n, R' r = R r

theorem Keep.refl (n : Int) (R : Int → Val) : Keep n R R := fun _ _ => rfl
theorem Keep.trans {n m : Int} {R R' R'' : Int → Val} (h : Keep n R R') (k : Keep m R' R'') (hn : n ≤ m) : Keep n R R'' :=
  fun r hr => (k r (by omega)).trans (h r hr)
theorem Keep.upd {n r : Int} {R : Int → Val} {v : Val} (h : n < r) : Keep n R (upd R r v) := fun q hq => upd_other (by omega)

/-- the machine's state with the memory and world of an evaluation -/
def res (st : St W) (σ : Mem × W) : St W := { st with mem := σ.1, w := σ.2 }

@[simp] theorem res_mem (st : St W) (σ : Mem × W) : (res st σ).mem = σ.1 := rfl
@[simp] theorem res_w (st : St W) (σ : Mem × W) : (res st σ).w = σ.2 := rfl
@[simp] theorem res_out (st : St W) (σ : Mem × W) : (res st σ).out = st.out := rfl
theorem res_self (st : St W) : res st (st.mem, st.w) = st := rfl
@[simp] theorem res_res (st : St W) (σ σ' : Mem × W) : res (res st σ) σ' = res st σ' := rfl

/-- code for an expression: it leaves the value in the expression's register -/
def CodeSim (C : Ctx W) (E : Env W) (P : List Immc) (e : SExpr) (g : GM Unit) : Prop :=
  ∀ {s c s'}, g s = .ok ((), c, s') → Rel C E s → safe none e = true → ∀ {p R st x}, At P p c → eval C e (st.mem, st.w) = some x →
    ∃ R', Steps E P ⟨p, R, st⟩ ⟨p + c.length, R', res st x.2⟩ ∧ Keep s.reg R R' ∧ ∀ q, rep e.dt = some q →
      ∃ r, s'.exprReg = some (q.1, r, q.2) ∧ R' r = ⟨q.1, BitVec.ofInt _ x.1⟩ ∧ s.reg < r ∧ r ≤ s'.reg ∧ (fresh e = true → r = s'.reg)

/-- code for an operand, converted to the type of a cast -/
def IntSim (C : Ctx W) (E : Env W) (P : List Immc) (e : SExpr) (g : Option DType → GM Ope) : Prop :=
  ∀ {cast s o c s'}, g cast s = .ok (o, c, s') → Rel C E s → safe cast e = true → ∀ {p R st x q}, At P p c →
    eval C e (st.mem, st.w) = some x → (rep e.dt).isSome = true → rep (cast.getD e.dt) = some q →
    ∃ R', Steps E P ⟨p, R, st⟩ ⟨p + c.length, R', res st x.2⟩ ∧ Keep s.reg R R' ∧ Holds R' o q x.1 ∧
      ∀ sf r u, o = .reg sf r u → s.reg < r ∧ r ≤ s'.reg ∧ (fresh e = true ∨ cast.isSome = true → r = s'.reg)

/-- code for an operand in a register -/
def RegSim (C : Ctx W) (E : Env W) (P : List Immc) (e : SExpr) (g : GM Ope) : Prop :=
  ∀ {s o c s'}, g s = .ok (o, c, s') → Rel C E s → safe none e = true → ∀ {p R st x q}, At P p c →
    eval C e (st.mem, st.w) = some x → rep e.dt = some q →
    ∃ R' r, Steps E P ⟨p, R, st⟩ ⟨p + c.length, R', res st x.2⟩ ∧ Keep s.reg R R' ∧ o = .reg q.1 r q.2 ∧
      R' r = ⟨q.1, BitVec.ofInt _ x.1⟩ ∧ s.reg < r ∧ r ≤ s'.reg ∧ (fresh e = true → r = s'.reg)

/-- code for a place -/
def PtrSim (C : Ctx W) (E : Env W) (P : List Immc) (e : SExpr) (g : GM Ope) : Prop :=
  ∀ {s o c s'}, g s = .ok (o, c, s') → Rel C E s → safe none e = true → fresh e = true → isPtr e.dt = true →
    ∀ {p R st x}, At P p c → eval C e (st.mem, st.w) = some x →
    ∃ R', Steps E P ⟨p, R, st⟩ ⟨p + c.length, R', res st x.2⟩ ∧ Keep s.reg R R' ∧ Place E R' o (BitVec.ofInt 64 x.1) ∧
      ∀ r, o = .ptr r → r ≤ s'.reg

/-- code for a branch on the truth of an expression -/
def JmpSim (C : Ctx W) (E : Env W) (P : List Immc) (e : SExpr) (g : Bool → GM (Name → Immc)) : Prop :=
  ∀ {b s j c s'}, g b s = .ok (j, c, s') → Rel C E s → safe none e = true → ∀ {p R st x n k lt vis}, At P p c →
    P[p + c.length]? = some (j n) → P[k]? = some (.label lt vis n) → eval C e (st.mem, st.w) = some x → (rep e.dt).isSome = true →
    ∃ R', Steps E P ⟨p, R, st⟩ ⟨if decide (x.1 ≠ 0) = b then k else p + c.length + 1, R', res st x.2⟩ ∧ Keep s.reg R R'

structure GSim (C : Ctx W) (E : Env W) (P : List Immc) (e : SExpr) (g : G) : Prop where
  code : CodeSim C E P e g.code
  int : IntSim C E P e g.int
  ptr : PtrSim C E P e g.ptr
  jmp : JmpSim C E P e g.jmp

variable {C : Ctx W} {E : Env W} {P : List Immc}

theorem Steps.to {m : Mach Val (St W)} {p p' : Nat} {R : Int → Val} {st : St W} (h : Steps E P m ⟨p, R, st⟩) (e : p = p') :
    Steps E P m ⟨p', R, st⟩ := e ▸ h

macro "len" : tactic => `(tactic| (simp only [List.length_append, List.length_cons, List.length_nil] <;> omega))

theorem regSim {e : SExpr} {g : G} (hi : GInv g) (h : IntSim C E P e g.int) : RegSim C E P e g.reg := by
  intro s o c s' hg hr hs p R st x q hc hx hq
  have hq0 := (rep_get hq).2.2.1
  obtain ⟨sf, r, u, rfl, h1 | ⟨l, c0, s0, h1, rfl, rfl, rfl, rfl⟩⟩ := reg_ok hg
  · obtain ⟨R', k1, k2, k3, k4⟩ := h (R := R) h1 hr hs hc hx (by rw [hq]; rfl) hq
    obtain ⟨k5, k6, k7⟩ := k4 _ _ _ rfl
    rcases k3 with ⟨r', e, k3⟩ | ⟨l, e, _⟩
    · cases e
      exact ⟨R', r, k1, k2, rfl, k3, k5, k6, fun hf => k7 (.inl hf)⟩
    · cases e
  · simp only [at_append, At, and_true] at hc
    obtain ⟨R', k1, k2, k3, -⟩ := h (R := R) h1 hr hs hc.1 hx (by rw [hq]; rfl) hq
    rcases k3 with ⟨r', e, k3⟩ | ⟨l', e, k4, k5⟩
    · cases e
    · cases e
      have hl := load_same (E := E) (st := res st x.2) hq0 (.inr ⟨l, rfl, k4, k5⟩ : Holds R' (.int q.1 l) q x.1) hc.2
      have hf := (hi.int h1).1.reg
      refine ⟨_, s0.reg + 1, (k1.trans hl).to (by len), ?_, by rw [k4], by simp, by omega, by simp, by simp⟩
      exact k2.trans (.upd (by omega)) hf

/-- the branch on a register -/
theorem jmpSim (hu : UniqueLabels P) {e : SExpr} {reg : GM Ope} (h : RegSim C E P e reg) : JmpSim C E P e (jmpZero reg) := by
  intro b s j c s' hg hr hs p R st x n k lt vis hc hj hk hx hq
  obtain ⟨sf, r, u, h1, rfl⟩ := jmpZero_ok hg
  obtain ⟨q, hq⟩ := Option.isSome_iff_exists.1 hq
  obtain ⟨R', i, k1, k2, k3, k4, -⟩ := h (R := R) h1 hr hs hc hx hq
  cases k3
  have hq0 := (rep_get hq).2.2.1
  have hz : InRange q 0 := CSem.ofBool_range hq0 false
  have := cond_steps (E := E) (st := res st x.2) (v := decide (decide (x.1 ≠ 0) = b)) (b := 0) (u := false) hu
    (by cases b <;> rfl) hq0 (Holds.reg k4) (.inr ⟨⟨.int, 0⟩, rfl, rfl, rfl⟩)
    (cjmp_ok (op := .nequal) hq0 (CSem.eval_range e hq hx) hz rfl (by cases b <;> rfl)) hj hk
  refine ⟨R', ?_, k2⟩
  have := k1.trans this
  simpa only [decide_eq_true_eq] using this

/-- children with the common way of getting at a value -/
theorem GSim.of (hu : UniqueLabels P) {e : SExpr} {cd : GM Unit} {int : Option DType → GM Ope} (hi : GInv (G.of cd int)) (h1 : CodeSim C E P e cd)
    (h2 : IntSim C E P e int) : GSim C E P e (G.of cd int) where
  code := h1
  int := h2
  ptr := by
    intro s o c s' hg hr hs hf hp p R st x hc hx
    obtain ⟨hg', rfl⟩ := ptrOf_ok hg
    obtain ⟨R', k1, k2, k3⟩ := h1 (R := R) hg' hr hs hc hx
    obtain ⟨r, _, k4, _, _, k5⟩ := k3 _ (CSem.ptr_rep hp)
    refine ⟨R', k1, k2, .inl ⟨_, rfl, ?_⟩, fun r hr => by cases hr; omega⟩
    rw [← k5 hf]
    exact k4
  jmp := jmpSim hu (regSim (g := ⟨cd, int, ptrOf cd, fun _ => ub⟩) ⟨hi.code, hi.int, hi.ptr, fun h => by simp [ub_ok] at h⟩ h2)

theorem GSim.plain (hu : UniqueLabels P) {e : SExpr} {cd : GM Unit} (hi : GInv (G.plain cd)) (hs0 : ∀ o, safe o e = safe none e)
    (h1 : CodeSim C E P e cd) : GSim C E P e (G.plain cd) := by
  refine GSim.of hu hi h1 ?_
  intro cast s o c s' hg hr hs p R st x q hc hx hq1 hq
  simp only [bind_ok] at hg
  obtain ⟨_, c1, s1, c2, ha, hb, rfl⟩ := hg
  simp only [at_append] at hc
  rw [hs0] at hs
  obtain ⟨q1, hq1⟩ := Option.isSome_iff_exists.1 hq1
  obtain ⟨R', k1, k2, k3⟩ := h1 (R := R) ha hr hs hc.1 hx
  obtain ⟨r, k4, k5, k6, k7, k8⟩ := k3 _ hq1
  obtain ⟨sf, i, u, h2, ⟨rfl, rfl, rfl, rfl⟩ | ⟨t, rfl, rfl, rfl, rfl⟩⟩ := castReg_ok hb
  · rw [k4] at h2
    cases h2
    simp only [Option.getD_none] at hq
    rw [hq] at hq1
    cases hq1
    refine ⟨R', k1.to (by len), k2, Holds.reg k5, fun sf r u he => ?_⟩
    cases he
    exact ⟨k6, k7, fun hf => k8 (by simpa using hf)⟩
  · rw [k4] at h2
    cases h2
    simp only [Option.getD_some] at hq
    have hq0 := (rep_get hq1).2.2.1
    obtain ⟨e1, e2, hq2, -⟩ := rep_get hq
    simp only [At, and_true, e1, e2] at hc
    have hl := load_conv (E := E) (st := res st x.2) hq2 hq0 (CSem.eval_range e hq1 hx) k5 hc.2
    refine ⟨_, (k1.trans hl).to (by len), k2.trans (.upd (by omega)) (by omega : s.reg ≤ s1.reg), ?_, ?_⟩
    · rw [e1, e2]
      exact Holds.reg (by simp)
    · intro sf r' u he
      cases he
      exact ⟨by omega, by simp, fun _ => rfl⟩

/-! ### parts -/

theorem symSim {n : Str} {s s' : GState} {o : Ope} {c : List Immc} (h : symOpe n s = .ok (o, c, s')) (hr : Rel C E s) {R : Int → Val} :
    c = [] ∧ s' = s ∧ ∃ a, C.addr n = some a ∧ Place E R o a ∧ ∀ r, o ≠ .ptr r := by
  obtain ⟨rfl, rfl, y, hl, h⟩ := symOpe_ok h
  obtain ⟨a, h1, h2, h3⟩ := hr.addr n y hl
  refine ⟨rfl, rfl, a, h1, ?_⟩
  rcases h with ⟨hy, m, hm, rfl⟩ | ⟨k, hk, rfl⟩
  · exact ⟨.inr (.inr ⟨m, rfl, h2 hy m hm⟩), nofun⟩
  · exact ⟨.inr (.inl ⟨k, rfl, h3 k hk⟩), nofun⟩

theorem ofInt_toInt (a : BitVec 64) : BitVec.ofInt 64 a.toInt = a := BitVec.ofInt_toInt

theorem identSim {t : DType} {n : Str} : CodeSim C E P (.ident t n) (primaryCode t (symOpe n)) := by
  intro s c s' hg hr hs p R st x hc hx
  obtain ⟨o, c1, s1, h1, rfl, rfl⟩ := primaryCode_ok hg
  obtain ⟨rfl, rfl, a, h2, h3, -⟩ := symSim h1 hr (R := R)
  obtain ⟨q, a', hq, h4, hm, rfl⟩ := CSem.eval_ident hx
  rw [h2] at h4
  cases h4
  obtain ⟨e1, e2, hq0, -⟩ := rep_get hq
  simp only [List.nil_append, At, and_true, e1, e2] at hc
  rw [← ofInt_toInt a] at h3
  refine ⟨_, load_place (q := q) hq0 h3 (hr.may hm _) hc, .upd (by omega), ?_⟩
  intro q' hq'
  rw [SExpr.dt, hq] at hq'
  cases hq'
  exact ⟨s1.reg + 1, by rw [e1, e2], by simp, by omega, by simp, by simp⟩

theorem toU64_mod (v : Int) : toU64 v % 2 ^ 64 = v % 2 ^ 64 := by unfold toU64; omega
theorem toS64_mod (v : Int) : toS64 v % 2 ^ 64 = v % 2 ^ 64 := by unfold toS64; omega

theorem dtypedLit_holds {t : DType} {q : Sfx × Bool} (h : rep t = some q) (l : ILit) (R : Int → Val) :
    Holds R (.int (Sfx.get t.nbytes) (dtypedLit t l)) q l.value := by
  obtain ⟨e1, e2, -⟩ := rep_get h
  refine .inr ⟨_, by rw [e1], ?_, ?_⟩
  · unfold dtypedLit litTypeGet
    rw [e2]
    cases q.2
    · simp only [Bool.false_eq_true, if_false]
      repeat' split
      all_goals rfl
    · simp only [if_true]
      repeat' split
      all_goals rfl
  · have hv : (dtypedLit t l).value % 2 ^ 64 = l.value % 2 ^ 64 := by
      unfold dtypedLit
      split
      · exact toU64_mod _
      · exact toS64_mod _
    apply ofInt_eq.2
    have hd : (2 : Int) ^ q.1.bits ∣ 2 ^ 64 := by
      cases q.1 <;> simp only [Sfx.bits] <;> decide
    rw [← Int.emod_emod_of_dvd _ hd, hv, Int.emod_emod_of_dvd _ hd]

theorem litSim (hu : UniqueLabels P) {t : DType} {l : ILit} : GSim C E P (.ilit t l) (expr (.ilit t l)) := by
  have hi := expr_inv (.ilit t l)
  rw [expr] at hi ⊢
  refine .of hu hi ?_ ?_
  · intro s c s' hg hr hs p R st x hc hx
    obtain ⟨o, c1, s1, h1, rfl, rfl⟩ := primaryCode_ok hg
    obtain ⟨rfl, rfl, rfl⟩ := pure_ok.1 h1
    obtain ⟨q, hq, h4, rfl⟩ := CSem.eval_ilit hx
    obtain ⟨e1, e2, hq0, -⟩ := rep_get hq
    simp only [List.nil_append, At, and_true, e1, e2] at hc
    refine ⟨_, load_steps hq0 hc (b := BitVec.ofInt _ l.value) ?_, .upd (by omega), ?_⟩
    · have : IMach.place E (RSpec.eraseOpe (some (.int q.1 l))) (rv R (some (.int q.1 l))) = none := rfl
      simp only [IMach.fetch, this]
      simp [RSpec.eraseOpe, IMach.src, hq0]
    · intro q' hq'
      rw [SExpr.dt, hq] at hq'
      cases hq'
      exact ⟨s1.reg + 1, by rw [e1, e2], by simp, by omega, by simp, by simp⟩
  · intro cast s o c s' hg hr hs p R st x q hc hx hq1 hq
    obtain ⟨rfl, rfl, rfl⟩ := pure_ok.1 hg
    obtain ⟨q', hq', h4, rfl⟩ := CSem.eval_ilit hx
    exact ⟨R, Steps.refl _, .refl _ _, dtypedLit_holds hq l R, nofun⟩

theorem Holds.congr {R : Int → Val} {o : Ope} {q : Sfx × Bool} {v w : Int} (h : Holds R o q v) (e : BitVec.ofInt q.1.bits v = BitVec.ofInt q.1.bits w) :
    Holds R o q w := by
  rcases h with ⟨r, h1, h2⟩ | ⟨l, h1, h2, h3⟩
  · exact .inl ⟨r, h1, by rw [h2, e]⟩
  · exact .inr ⟨l, h1, h2, by rw [h3, e]⟩

theorem fits_range {a b : Sfx × Bool} {v : Int} (hb : b.1 ≠ .none) (h : CSem.fits a b = true) (hv : InRange a v) : InRange b v := by
  obtain ⟨s, u⟩ := a
  obtain ⟨s', u'⟩ := b
  unfold InRange at *
  cases s <;> cases s' <;> cases u <;> cases u' <;>
    first
    | exact absurd rfl hb
    | exact absurd h (by decide)
    | (simp only [Sfx.bits, if_true, if_false, Bool.false_eq_true] at *; omega)

theorem castSim (hu : UniqueLabels P) {t : DType} {e : SExpr} (he : GSim C E P e (expr e)) : GSim C E P (.un .cast t e) (expr (.un .cast t e)) := by
  have hi := expr_inv (.un .cast t e)
  rw [expr] at hi ⊢
  refine .of hu hi ?_ ?_
  · intro s c s' hg
    simp [fatal_ok] at hg
  · intro cast s o c s' hg hr hs p R st x q hc hx hq1 hq
    obtain ⟨y, h1, ⟨h2, rfl⟩ | ⟨h2, qt, h3, h4, rfl⟩⟩ := CSem.eval_cast hx
    · obtain ⟨q', hq1⟩ := Option.isSome_iff_exists.1 hq1
      have := (rep_get hq1).2.2.2
      rw [SExpr.dt, h2] at this; cases this
    · obtain ⟨qe, hqe⟩ := Option.isSome_iff_exists.1 h4
      simp only [safe, Bool.and_eq_true] at hs
      obtain ⟨R', k1, k2, k3, k4⟩ := he.int (R := R) hg hr hs.2 hc h1 h4 (q := q) (by simpa [SExpr.dt] using hq)
      refine ⟨R', k1, k2, k3.congr ?_, fun sf r u ho => ?_⟩
      · cases cast with
        | none =>
          simp only [Option.getD_none, SExpr.dt] at hq
          rw [hq] at h3
          cases h3
          rw [ofInt_wrap]
        | some t3 =>
          simp only [Option.getD_some] at hq
          have hc := hs.1
          simp only [Option.all_some, CSem.collapses, hq, h3, hqe, Bool.or_eq_true, decide_eq_true_eq] at hc
          rcases hc with hc | hc
          · rw [ofInt_wrap_le qt hc]
          · have hqt := (rep_get h3).2.2.1
            rw [wrap_eq (fits_range hqt hc (CSem.eval_range e hqe h1)) hqt]
      · obtain ⟨a1, a2, a3⟩ := k4 sf r u ho
        exact ⟨a1, a2, fun _ => a3 (.inr rfl)⟩

/-- the end of the code of an expression whose value is in a new register -/
theorem fin (e : SExpr) {t : DType} (ht : e.dt = t) {q : Sfx × Bool} (hq : rep t = some q) {s s2 : GState} {p p' : Nat} {R R2 : Int → Val} {st : St W} {x : Int × Mem × W}
    {i : Int} {E' : Option (Sfx × Int × Bool)} (h : Steps E P ⟨p, R, st⟩ ⟨p', upd R2 i ⟨q.1, BitVec.ofInt _ x.1⟩, res st x.2⟩) (hk : Keep s.reg R R2) (h1 : s.reg < i)
    (hi : i = s2.reg) (he : E' = some (Sfx.get t.nbytes, i, t.isUnsigned)) :
    ∃ R', Steps E P ⟨p, R, st⟩ ⟨p', R', res st x.2⟩ ∧ Keep s.reg R R' ∧ ∀ q, rep e.dt = some q →
      ∃ r, E' = some (q.1, r, q.2) ∧ R' r = ⟨q.1, BitVec.ofInt _ x.1⟩ ∧ s.reg < r ∧ r ≤ s2.reg ∧ (fresh e = true → r = s2.reg) := by
  refine ⟨_, h, hk.trans (.upd h1) (by omega), ?_⟩
  intro q' hq'
  rw [ht, hq] at hq'
  cases hq'
  obtain ⟨e1, e2, -⟩ := rep_get hq
  exact ⟨i, by rw [he, e1, e2], by simp, h1, by omega, fun _ => hi⟩

theorem assignSim {t : DType} {l r : SExpr} (hl : GSim C E P l (expr l)) (hr : GSim C E P r (expr r)) :
    CodeSim C E P (.bin .assign t l r) (assignCode (expr l) (expr r)) := by
  intro s c s' hg hR hs p R st x hc hx
  obtain ⟨sf, id, us, c1, s1, o, c2, s2, h1, h2, rfl, rfl⟩ := assignCode_ok hg
  obtain ⟨q, y, z, hq, hq1, hp, hy, hz, hm, rfl⟩ := CSem.eval_assign hx
  have hq0 := (rep_get hq).2.2.1
  simp only [safe, Bool.and_eq_true] at hs
  simp only [at_append, At, and_true] at hc
  have f1 := ((expr_inv r).reg h1).1
  have f2 := ((expr_inv l).ptr h2).1
  obtain ⟨R1, i, k1, k2, k3, k4, k5, k6, k7⟩ := regSim (expr_inv r) hr.int (R := R) h1 hR hs.2 hc.1 hy hq1
  obtain ⟨rfl, rfl, rfl⟩ : sf = q.1 ∧ id = i ∧ us = q.2 := by cases k3; exact ⟨rfl, rfl, rfl⟩
  obtain ⟨R2, l1, l2, l3, l4⟩ := hl.ptr (R := R1) (st := res st y.2) h2 (hR.frame f1) hs.1.2 hs.1.1 hp hc.2.1 hz
  have k4' : R2 id = ⟨q.1, BitVec.ofInt _ y.1⟩ := (l2 id k6).trans k4
  have l5 := store_steps (E := E) (st := res st z.2) hq0 l3 (Holds.reg k4') (hR.may hm _) hc.2.2
  refine ⟨R2, ((k1.trans l1).trans l5).to (by len), k2.trans l2 f1.reg, ?_⟩
  intro q' hq'
  rw [SExpr.dt, hq] at hq'
  cases hq'
  have f3 := f2.reg
  refine ⟨id, rfl, k4', k5, by dsimp only; omega, ?_⟩
  intro hf
  unfold fresh at hf
  split at hf <;> try (simp at hf; done)
  · rename_i h
    cases h
    rename_i t1 t2 n
    rw [expr] at h2
    obtain ⟨_, rfl, -⟩ := symSim h2 (hR.frame f1) (R := R)
    exact k7 hf
  all_goals simp_all

theorem logicalSim (hu : UniqueLabels P) {op : SBin} {b : Bool} (hop : (op, b) = (.lor, true) ∨ (op, b) = (.land, false)) {t : DType} {l r : SExpr}
    (hl : GSim C E P l (expr l)) (hr : GSim C E P r (expr r)) :
    CodeSim C E P (.bin op t l r) (logicalCode b t (expr l) (expr r)) := by
  intro s c s' hg hR hs p R st x hc hx
  obtain ⟨j, c1, s1, k, c2, s2, h1, h2, rfl, rfl⟩ := logicalCode_ok hg
  obtain ⟨ht, hlt, hrt, y, hy, hx⟩ := CSem.eval_logical hop hx
  obtain ⟨q, hq⟩ := Option.isSome_iff_exists.1 ht
  have hs' : safe none l = true ∧ safe none r = true := by
    rcases hop with hop | hop <;> cases hop <;> simpa only [safe, Bool.and_eq_true] using hs
  obtain ⟨e1, e2, hq0, -⟩ := rep_get hq
  simp only [at_append, At, and_true, e1, e2] at hc
  obtain ⟨a1, a2, a3, a4, a5, a6, a7, a8, a9⟩ := hc
  have g1 := ((expr_inv l).jmp h1).1
  have f1 := (Good.start (r := s.reg) (e := s.exprReg) g1 (by omega) (by omega)).1
  have f2 := ((expr_inv r).jmp h2).1.1
  have f1r := f1.reg
  have f2r := f2.reg
  obtain ⟨R1, k1, k2⟩ := hl.jmp (R := R) h1 (hR.of rfl rfl) hs'.1 a1 a2 a7 hy hlt
  have v1 : (if b = true then 1 else 0 : Int) = CSem.ofBool b := rfl
  have v0 : (if b = true then 0 else 1 : Int) = CSem.ofBool (!b) := by cases b <;> rfl
  rw [v1] at a8
  rw [v0] at a5
  have short : ∀ {R2 : Int → Val} {st2 : St W}, Steps E P ⟨p + c1.length + 1 + c2.length + 1 + 1 + 1, R2, st2⟩
      ⟨p + c1.length + 1 + c2.length + 1 + 1 + 1 + 1 + 1 + 1, upd R2 (s2.reg + 1) ⟨q.1, BitVec.ofInt _ (CSem.ofBool b)⟩, st2⟩ :=
    fun {R2 st2} => ((step_label a7).trans (load_same hq0 .lit a8)).trans (step_label a9)
  have long : ∀ {R2 : Int → Val} {st2 : St W}, Steps E P ⟨p + c1.length + 1 + c2.length + 1, R2, st2⟩
      ⟨p + c1.length + 1 + c2.length + 1 + 1 + 1 + 1 + 1 + 1, upd R2 (s2.reg + 1) ⟨q.1, BitVec.ofInt _ (CSem.ofBool (!b))⟩, st2⟩ :=
    fun {R2 st2} => ((load_same hq0 .lit a5).trans (step_jmp hu a6 a9)).trans (step_label a9)
  rcases hx with ⟨hb, rfl⟩ | ⟨hb, z, hz, rfl⟩
  · rw [if_pos hb] at k1
    exact fin (.bin _ t l r) rfl hq (s2 := { s2 with reg := s2.reg + 1, exprReg := some (Sfx.get t.nbytes, s2.reg + 1, t.isUnsigned) })
      ((k1.trans short).to (by len)) k2 (by omega) rfl rfl
  · rw [if_neg hb] at k1
    obtain ⟨R2, l1, l2⟩ := hr.jmp (R := R1) (st := res st y.2) h2 ((hR.of rfl rfl).frame f1) hs'.2 a3 a4 a7 hz hrt
    have hk := k2.trans l2 f1r
    by_cases hb2 : decide (z.1 ≠ 0) = b
    · rw [if_pos hb2] at l1
      rw [hb2]
      exact fin (.bin _ t l r) rfl hq (s2 := { s2 with reg := s2.reg + 1, exprReg := some (Sfx.get t.nbytes, s2.reg + 1, t.isUnsigned) })
        (((k1.trans l1).trans short).to (by len)) hk (by omega) rfl rfl
    · rw [if_neg hb2] at l1
      have : decide (z.1 ≠ 0) = !b := by
        revert hb2
        cases decide (z.1 ≠ 0) <;> cases b <;> simp
      rw [this]
      exact fin (.bin _ t l r) rfl hq (s2 := { s2 with reg := s2.reg + 1, exprReg := some (Sfx.get t.nbytes, s2.reg + 1, t.isUnsigned) })
        (((k1.trans l1).trans long).to (by len)) hk (by omega) rfl rfl

/-- two operands of the same type, the second possibly a literal -/
theorem operands {l r : SExpr} (hl : GSim C E P l (expr l)) (hr : GSim C E P r (expr r)) {s s1 s2 : GState} {a b : Ope} {c1 c2 : List Immc}
    (h1 : (expr l).reg s = .ok (a, c1, s1)) (h2 : (expr r).int none s1 = .ok (b, c2, s2)) (hR : Rel C E s) (hsl : safe none l = true) (hsr : safe none r = true)
    {p : Nat} {R : Int → Val} {st : St W} (hc1 : At P p c1) (hc2 : At P (p + c1.length) c2) {y z : Int × Mem × W}
    (hy : eval C l (st.mem, st.w) = some y) (hz : eval C r y.2 = some z) {q q' : Sfx × Bool} (hq : rep l.dt = some q) (hq' : rep r.dt = some q') :
    ∃ R' i, a = .reg q.1 i q.2 ∧ Steps E P ⟨p, R, st⟩ ⟨p + c1.length + c2.length, R', res st z.2⟩ ∧ Keep s.reg R R' ∧
      R' i = ⟨q.1, BitVec.ofInt _ y.1⟩ ∧ Holds R' b q' z.1 ∧ s.reg ≤ s2.reg := by
  have f1 := ((expr_inv l).reg h1).1
  have f2 := ((expr_inv r).int h2).1
  obtain ⟨R1, i, k1, k2, k3, k4, k5, k6, k7⟩ := regSim (expr_inv l) hl.int (R := R) h1 hR hsl hc1 hy hq
  obtain ⟨R2, l1, l2, l3, l4⟩ := hr.int (R := R1) (st := res st y.2) h2 (hR.frame f1) hsr hc2 hz (by rw [hq']; rfl) hq'
  have := f1.reg
  have := f2.reg
  exact ⟨R2, i, k3, k1.trans l1, k2.trans l2 f1.reg, (l2 i k6).trans k4, l3, by omega⟩

theorem arithSim {op : SBin} {t : DType} {l r : SExpr} (hl : GSim C E P l (expr l)) (hr : GSim C E P r (expr r))
    (ho : op ≠ .assign ∧ op ≠ .lor ∧ op ≠ .land ∧ op ≠ .padd ∧ op ≠ .psub ∧ op ≠ .pdiff) :
    CodeSim C E P (.bin op t l r) (arithCode (binOp op) t (expr l) (expr r)) := by
  intro s c s' hg hR hs p R st x hc hx
  obtain ⟨a, c1, s1, b, c2, s2, h1, h2, rfl, rfl⟩ := arithCode_ok hg
  obtain ⟨o1, o2, o3, o4, o5, o6⟩ := ho
  obtain ⟨y, z, v, hy, hz, hv, rfl⟩ := CSem.eval_bin o1 o2 o3 hx
  have hs' : safe none l = true ∧ safe none r = true := by
    cases op <;> first | exact absurd rfl o1 | simpa only [safe, Bool.and_eq_true] using hs
  simp only [at_append, At, and_true] at hc
  obtain ⟨b1, b2, b3⟩ := hc
  unfold CSem.binary at hv
  split at hv
  all_goals try (
    simp only [Option.bind_eq_bind, Option.bind_eq_some_iff, CSem.need_some, Option.some.injEq] at hv
    obtain ⟨_, ⟨t1, t2, t3⟩, w, hw, rfl⟩ := hv
    obtain ⟨q, hq⟩ := Option.isSome_iff_exists.1 t1
    obtain ⟨qt, hqt⟩ := Option.isSome_iff_exists.1 t3
    obtain ⟨R', i, rfl, k1, k2, k3, k4, k5⟩ := operands hl hr h1 h2 hR hs'.1 hs'.2 (R := R) b1 b2 hy hz hq (t2 ▸ hq)
    have hq0 := (rep_get hq).2.2.1
    obtain ⟨e1, e2, hqt0, -⟩ := rep_get hqt
    rw [e1, e2] at b3
    have := set_steps (E := E) (st := res st z.2) rfl hqt0 hq0 (Holds.reg k3) k4
      (rel_ok hq0 (CSem.eval_range l hq hy) (CSem.eval_range r (t2 ▸ hq) hz) hw) b3
    exact fin (.bin _ t l r) rfl hqt (s2 := { s2 with reg := s2.reg + 1, exprReg := some (Sfx.get t.nbytes, s2.reg + 1, t.isUnsigned) })
      ((k1.trans this).to (by len)) k2 (by omega) rfl rfl)
  all_goals try (
    simp only [Option.bind_eq_bind, Option.bind_eq_some_iff, CSem.need_some] at hv
    obtain ⟨q, hq, _, ⟨t1, t2⟩, hv⟩ := hv
    obtain ⟨R', i, rfl, k1, k2, k3, k4, k5⟩ := operands hl hr h1 h2 hR hs'.1 hs'.2 (R := R) b1 b2 hy hz t1 t2
    obtain ⟨e1, e2, hq0, -⟩ := rep_get hq
    rw [e1, e2] at b3
    have := arith_same (E := E) (st := res st z.2) rfl hq0 (Holds.reg k3) k4 (shift_ok _ hq0 (CSem.eval_range l t1 hy) hv).2 b3
    exact fin (.bin _ t l r) rfl hq (s2 := { s2 with reg := s2.reg + 1, exprReg := some (Sfx.get t.nbytes, s2.reg + 1, t.isUnsigned) })
      ((k1.trans this).to (by len)) k2 (by omega) rfl rfl)
  all_goals try (first | exact absurd rfl o4 | exact absurd rfl o5 | exact absurd rfl o6)
  simp only [Option.bind_eq_bind, Option.bind_eq_some_iff, CSem.need_some] at hv
  obtain ⟨q, hq, _, ⟨t1, t2⟩, hv⟩ := hv
  obtain ⟨R', i, rfl, k1, k2, k3, k4, k5⟩ := operands hl hr h1 h2 hR hs'.1 hs'.2 (R := R) b1 b2 hy hz t1 t2
  obtain ⟨e1, e2, hq0, -⟩ := rep_get hq
  rw [e1, e2] at b3
  have hop : isArith (binOp op) = true := by cases op <;> first | rfl | (exact absurd rfl ‹_›) | (exact absurd hv (by simp [CSem.arith]))
  have := arith_same (E := E) (st := res st z.2) hop hq0 (Holds.reg k3) k4 (arith_ok _ hq0 (CSem.eval_range l t1 hy) (CSem.eval_range r t2 hz) hv).2 b3
  exact fin (.bin _ t l r) rfl hq (s2 := { s2 with reg := s2.reg + 1, exprReg := some (Sfx.get t.nbytes, s2.reg + 1, t.isUnsigned) })
    ((k1.trans this).to (by len)) k2 (by omega) rfl rfl

/-- two operands in registers -/
theorem regOperands {l r : SExpr} (hl : GSim C E P l (expr l)) (hr : GSim C E P r (expr r)) {s s1 s2 : GState} {a b : Ope} {c1 c2 : List Immc}
    (h1 : (expr l).reg s = .ok (a, c1, s1)) (h2 : (expr r).reg s1 = .ok (b, c2, s2)) (hR : Rel C E s) (hsl : safe none l = true) (hsr : safe none r = true)
    {p : Nat} {R : Int → Val} {st : St W} (hc1 : At P p c1) (hc2 : At P (p + c1.length) c2) {y z : Int × Mem × W}
    (hy : eval C l (st.mem, st.w) = some y) (hz : eval C r y.2 = some z) {q q' : Sfx × Bool} (hq : rep l.dt = some q) (hq' : rep r.dt = some q') :
    ∃ R' i j, a = .reg q.1 i q.2 ∧ b = .reg q'.1 j q'.2 ∧ Steps E P ⟨p, R, st⟩ ⟨p + c1.length + c2.length, R', res st z.2⟩ ∧ Keep s.reg R R' ∧
      R' i = ⟨q.1, BitVec.ofInt _ y.1⟩ ∧ R' j = ⟨q'.1, BitVec.ofInt _ z.1⟩ ∧ s.reg < i ∧ i < j ∧ j ≤ s2.reg := by
  have f1 := ((expr_inv l).reg h1).1
  obtain ⟨R1, i, k1, k2, k3, k4, k5, k6, k7⟩ := regSim (expr_inv l) hl.int (R := R) h1 hR hsl hc1 hy hq
  obtain ⟨R2, j, l1, l2, l3, l4, l5, l6, l7⟩ := regSim (expr_inv r) hr.int (R := R1) (st := res st y.2) h2 (hR.frame f1) hsr hc2 hz hq'
  exact ⟨R2, i, j, k3, l3, k1.trans l1, k2.trans l2 f1.reg, (l2 i k6).trans k4, l4, k5, by omega, l6⟩

theorem ptrAddSim {op : SBin} (hop : op = .padd ∨ op = .psub) {t : DType} {l r : SExpr} (hl : GSim C E P l (expr l)) (hr : GSim C E P r (expr r)) :
    CodeSim C E P (.bin op t l r) (ptrAddCode (binOp op) t l.dt (expr l) (expr r)) := by
  intro s c s' hg hR hs p R st x hc hx
  obtain ⟨a, c1, s1, b, c2, s2, t', h1, h2, ht', rfl, rfl⟩ := ptrAddCode_ok hg
  obtain ⟨y, z, v, hy, hz, hv, rfl⟩ := CSem.eval_bin (by rcases hop with rfl | rfl <;> nofun) (by rcases hop with rfl | rfl <;> nofun)
    (by rcases hop with rfl | rfl <;> nofun) hx
  have hs' : safe none l = true ∧ safe none r = true := by
    rcases hop with rfl | rfl <;> simpa only [safe, Bool.and_eq_true] using hs
  simp only [at_append, At, and_true] at hc
  obtain ⟨b1, b2, b3, b4⟩ := hc
  obtain ⟨q, hq, hp, hn, hlim, hv⟩ : ∃ q, rep r.dt = some q ∧ isPtr t = true ∧ t'.nbytes ≠ 0 ∧ InRange q (z.1 * t'.nbytes) ∧
      CSem.ptrAt (if op = .padd then y.1 + z.1 * t'.nbytes else y.1 - z.1 * t'.nbytes) = some v := by
    rw [ht'] at hv
    rcases hop with rfl | rfl
    all_goals
      simp only [CSem.binary, Option.bind_eq_bind, Option.bind_eq_some_iff, CSem.need_some, hR.lim, forall_const] at hv
      obtain ⟨q, hq, _, ⟨h1, h2, h3⟩, hv⟩ := hv
      exact ⟨q, hq, h1, h2, h3, hv⟩
  obtain ⟨rfl, hv⟩ := CSem.ptrAt_some hv
  obtain ⟨R', i, j, rfl, rfl, k1, k2, k3, k4, k5, k6, k7⟩ := regOperands hl hr h1 h2 hR hs'.1 hs'.2 (R := R) b1 b2 hy hz (q := (.quad, false)) (by rw [ht']; rfl) hq
  have hq0 := (rep_get hq).2.2.1
  have hqt := CSem.ptr_rep hp
  obtain ⟨e1, e2, -⟩ := rep_get hqt
  simp only [sfxOf] at b3
  rw [e1, e2] at b4
  have m1 := arith_same (E := E) (st := res st z.2) (v := z.1 * t'.nbytes) rfl hq0 (Holds.reg k4) .lit
    (by simp only [IMach.arith, ISem.bin, BitVec.ofInt_mul]) b3
  have hi : upd R' j ⟨q.1, BitVec.ofInt _ (z.1 * t'.nbytes)⟩ i = ⟨.quad, BitVec.ofInt _ y.1⟩ := by rw [upd_other (by omega), k3]
  have hj : upd R' j ⟨q.1, BitVec.ofInt _ (z.1 * t'.nbytes)⟩ j = ⟨q.1, BitVec.ofInt _ (z.1 * t'.nbytes)⟩ := by simp
  have hw : IMach.wider (IMach.width (RSpec.eraseOpe (some (.reg .quad i false)))) (IMach.width (RSpec.eraseOpe (some (.reg q.1 j q.2)))) = .quad := by
    simp only [RSpec.eraseOpe, IMach.width, IMach.wider]
    cases q.1 <;> rfl
  have m2 := arith_steps (E := E) (st := res st z.2) (R := upd R' j ⟨q.1, BitVec.ofInt _ (z.1 * t'.nbytes)⟩) (op := binOp op)
    (v := BitVec.ofInt _ (if op = .padd then y.1 + z.1 * t'.nbytes else y.1 - z.1 * t'.nbytes)) (by rcases hop with rfl | rfl <;> rfl)
    (by decide) hw (Holds.src (q := (.quad, false)) (v := y.1) (Holds.reg (q := (.quad, false)) hi) (by decide)) (src_reg hq0 hlim hj .quad)
    (by rcases hop with rfl | rfl
        · simp only [binOp, IMach.arith, ISem.bin, BitVec.ofInt_add, if_true]
        · simp only [binOp, IMach.arith, ISem.bin, ofInt_sub, reduceCtorEq, if_false]) b4
  rw [conv_self] at m2
  have hk : Keep s.reg R (upd R' j ⟨q.1, BitVec.ofInt _ (z.1 * t'.nbytes)⟩) := k2.trans (.upd (by omega)) (Int.le_refl _)
  exact fin (.bin _ t l r) rfl hqt (s2 := { s2 with reg := s2.reg + 1, exprReg := some (Sfx.get t.nbytes, s2.reg + 1, t.isUnsigned) })
    (((k1.trans m1).trans m2).to (by len)) hk (by omega) rfl rfl

theorem tdiv_range {s : Sfx} {a b : Int} (ha : InRange (s, false) a) (hb : 0 < b) : InRange (s, false) (a.tdiv b) := by
  rw [range_sig] at *
  by_cases h : 0 ≤ a
  · have h1 := Int.tdiv_nonneg h (Int.le_of_lt hb)
    have h2 : a.tdiv b ≤ a := by
      rw [Int.tdiv_eq_ediv_of_nonneg h]
      exact Int.ediv_le_self _ h
    omega
  · have h0 : 0 ≤ -a := by omega
    have h1 := Int.tdiv_nonneg h0 (Int.le_of_lt hb)
    have h2 : (-a).tdiv b ≤ -a := by
      rw [Int.tdiv_eq_ediv_of_nonneg h0]
      exact Int.ediv_le_self _ h0
    rw [Int.neg_tdiv] at h1 h2
    omega

theorem ptrDiffSim {t : DType} {l r : SExpr} (hl : GSim C E P l (expr l)) (hr : GSim C E P r (expr r)) :
    CodeSim C E P (.bin .pdiff t l r) (ptrDiffCode t l.dt (expr l) (expr r)) := by
  intro s c s' hg hR hs p R st x hc hx
  obtain ⟨a, c1, s1, b, c2, s2, t', h1, h2, ht', rfl, rfl⟩ := ptrDiffCode_ok hg
  obtain ⟨y, z, v, hy, hz, hv, rfl⟩ := CSem.eval_bin (op := .pdiff) nofun nofun nofun hx
  simp only [safe, Bool.and_eq_true] at hs
  simp only [at_append, At, and_true] at hc
  obtain ⟨b1, b2, b3, b4⟩ := hc
  rw [ht'] at hv
  simp only [CSem.binary, Option.bind_eq_bind, Option.bind_eq_some_iff, CSem.need_some, hR.lim, forall_const, Option.some.injEq] at hv
  obtain ⟨⟨qs, qu⟩, hq, _, ⟨hp, hqq, hn0, hn, _, hd, hlim⟩, rfl⟩ := hv
  dsimp only at hqq hlim
  subst hqq
  obtain ⟨R', i, j, rfl, rfl, k1, k2, k3, k4, k5, k6, k7⟩ := regOperands hl hr h1 h2 hR hs.1 hs.2 (R := R) b1 b2 hy hz (q := (.quad, false)) (by rw [ht']; rfl)
    (CSem.ptr_rep hp)
  obtain ⟨e1, e2, hq0, -⟩ := rep_get hq
  rw [e1, e2] at b3 b4
  have m1 := arith_steps (E := E) (st := res st z.2) (R := R') (op := .sub) (v := BitVec.ofInt _ (y.1 - z.1)) rfl hq0
    (fo := .reg .quad i false) (so := .reg .quad j false) (wider_self .quad)
    (Holds.src (q := (.quad, false)) (v := y.1) (Holds.reg (q := (.quad, false)) k3) (by decide))
    (Holds.src (q := (.quad, false)) (v := z.1) (Holds.reg (q := (.quad, false)) k4) (by decide))
    (by simp only [IMach.arith, ISem.bin, ofInt_sub]) b3
  rw [conv_self] at m1
  have hi : upd R' (s2.reg + 1) ⟨.quad, BitVec.ofInt _ (y.1 - z.1)⟩ (s2.reg + 1) = ⟨.quad, BitVec.ofInt _ (y.1 - z.1)⟩ := by simp
  have hnp : (0 : Int) < t'.nbytes := by omega
  have hdiv : ISem.divmod .div qu (BitVec.ofInt Sfx.quad.bits (y.1 - z.1)) (BitVec.ofInt Sfx.quad.bits t'.nbytes) =
      some (BitVec.ofInt Sfx.quad.bits ((y.1 - z.1).tdiv t'.nbytes)) := by
    cases qu
    · refine (divmod_sig hd (range_sig.2 ?_) (by decide) (by omega) (tdiv_range hd hnp)).1
      simp only [Sfx.bits]; omega
    · have hh := hlim rfl
      have hd' := range_sig.1 hd
      simp only [Sfx.bits] at hd'
      refine (divmod_uns (s := .quad) (range_uns.2 ?_) (range_uns.2 ?_) (by omega)).1
      · simp only [Sfx.bits]; omega
      · simp only [Sfx.bits]; omega
  have m2 := arith_same (E := E) (st := res st z.2) (q := (.quad, qu)) (v := (y.1 - z.1).tdiv t'.nbytes) (op := .div) rfl hq0 (Holds.reg hi) .lit
    hdiv b4
  have hk : Keep s.reg R (upd R' (s2.reg + 1) ⟨.quad, BitVec.ofInt _ (y.1 - z.1)⟩) := k2.trans (.upd (by omega)) (Int.le_refl _)
  have e : BitVec.ofInt Sfx.quad.bits ((y.1 - z.1).tdiv t'.nbytes) = BitVec.ofInt Sfx.quad.bits (CSem.wrap (.quad, qu) ((y.1 - z.1).tdiv t'.nbytes)) :=
    (ofInt_wrap (.quad, qu) _).symm
  rw [e] at m2
  exact fin (.bin _ t l r) rfl hq (s2 := { s2 with reg := s2.reg + 1, exprReg := some (Sfx.get t.nbytes, s2.reg + 1, t.isUnsigned) })
    (((k1.trans m1).trans m2).to (by len)) hk (by omega) rfl rfl

theorem binSim (hu : UniqueLabels P) {op : SBin} {t : DType} {l r : SExpr} (hl : GSim C E P l (expr l)) (hr : GSim C E P r (expr r)) :
    GSim C E P (.bin op t l r) (expr (.bin op t l r)) := by
  have hi := expr_inv (.bin op t l r)
  have hcode : CodeSim C E P (.bin op t l r) (binCode op t l.dt (expr l) (expr r)) := by
    unfold binCode
    split
    · exact assignSim hl hr
    · exact logicalSim hu (.inl rfl) hl hr
    · exact logicalSim hu (.inr rfl) hl hr
    · exact ptrAddSim (.inl rfl) hl hr
    · exact ptrAddSim (.inr rfl) hl hr
    · exact ptrDiffSim hl hr
    · exact arithSim hl hr ⟨‹_›, ‹_›, ‹_›, ‹_›, ‹_›, ‹_›⟩
  have hp := GSim.plain hu (.plain (binCode_good (expr_inv l) (expr_inv r))) (by intro o; cases op <;> simp only [safe]) hcode
  rw [expr]
  refine ⟨hp.code, hp.int, hp.ptr, ?_⟩
  intro b s j c s' hg hR hs p R st x n k lt vis hc hj hk hx hq
  simp only [G.bin] at hg
  cases hcj : cjmp op b with
  | none => rw [hcj] at hg; exact hp.jmp hg hR hs hc hj hk hx hq
  | some o =>
    rw [hcj] at hg
    obtain ⟨a, c1, s1, b', c2, h1, h2, rfl, rfl⟩ := jmpCmp_ok hg
    have hn : op ≠ .assign ∧ op ≠ .lor ∧ op ≠ .land := by
      refine ⟨?_, ?_, ?_⟩ <;> rintro rfl <;> cases hcj
    obtain ⟨y, z, v, hy, hz, hv, rfl⟩ := CSem.eval_bin hn.1 hn.2.1 hn.2.2 hx
    have hs' : safe none l = true ∧ safe none r = true := by
      cases op <;> first | exact absurd rfl hn.1 | simpa only [safe, Bool.and_eq_true] using hs
    simp only [at_append] at hc
    have hcmp : ∃ w q, rep l.dt = some q ∧ rep r.dt = some q ∧ CSem.compare op y.1 z.1 = some w ∧ v = CSem.ofBool w := by
      unfold CSem.binary at hv
      split at hv
      all_goals try (cases hcj; done)
      all_goals try (
        simp only [Option.bind_eq_bind, Option.bind_eq_some_iff, CSem.need_some, Option.some.injEq] at hv
        obtain ⟨_, ⟨t1, t2, t3⟩, w, hw, rfl⟩ := hv
        obtain ⟨q, hq⟩ := Option.isSome_iff_exists.1 t1
        exact ⟨w, q, hq, t2 ▸ hq, hw, rfl⟩)
      cases op <;> first | (cases hcj; done) | (exfalso; simp_all; done)
    obtain ⟨w, q, hql, hqr, hw, rfl⟩ := hcmp
    obtain ⟨R', i, rfl, k1, k2, k3, k4, k5⟩ := operands hl hr h1 h2 hR hs'.1 hs'.2 (R := R) hc.1 hc.2 hy hz hql hqr
    have hq0 := (rep_get hql).2.2.1
    have hbr : isCond o = true := by cases op <;> cases b <;> cases hcj <;> rfl
    rw [List.length_append, ← Nat.add_assoc] at hj
    have := cond_steps (E := E) (st := res st z.2) hu hbr hq0 (Holds.reg k3) k4
      (cjmp_ok hq0 (CSem.eval_range l hql hy) (CSem.eval_range r hqr hz) hw hcj) hj hk
    refine ⟨R', (k1.trans this).to ?_, k2⟩
    have e : decide (CSem.ofBool w ≠ 0) = w := by cases w <;> rfl
    rw [e]
    by_cases hwb : w = b
    · simp [hwb]
    · simp only [hwb, decide_false, Bool.false_eq_true, if_false]
      len

end Sim
end Umlcc
