import Verif.Lemma.SimExpr
/-!
The remaining forms of expressions, and the simulation of all of them.
-/
namespace Umlcc
namespace Sim
open IMach (Val St Env Mem)
open RSpec (Mach UniqueLabels)
open CSem (InRange rep Ctx eval evalArgs safe safeArgs fresh isPtr)
open Gen

variable {W : Type} {C : Ctx W} {E : Env W} {P : List Immc}

theorem Place.upd {R : Int → Val} {o : Ope} {a : BitVec 64} {n i : Int} {v : Val} (h : Place E R o a) (ho : ∀ r, o = .ptr r → r ≤ n) (hn : n < i) :
    Place E (upd R i v) o a := by
  rcases h with ⟨r, rfl, h⟩ | h | h
  · have := ho r rfl
    exact .inl ⟨r, rfl, by rw [upd_other (by omega), h]⟩
  · exact .inr (.inl h)
  · exact .inr (.inr h)

theorem condSim (hu : UniqueLabels P) {t : DType} {e l r : SExpr} (he : GSim C E P e (expr e)) (hl : GSim C E P l (expr l)) (hr : GSim C E P r (expr r)) :
    CodeSim C E P (.cond t e l r) (condCode t (expr e) (expr l) (expr r)) := by
  intro s c s' hg hR hs p R st x hc hx
  obtain ⟨j, c1, s1, a, c2, s2, b, c3, s3, h1, h2, h3, rfl, rfl⟩ := condCode_ok hg
  obtain ⟨q, y, hq, hqe, hql, hqr, hy, hx⟩ := CSem.eval_cond hx
  obtain ⟨e1, e2, hq0, -⟩ := rep_get hq
  simp only [safe, Bool.and_eq_true] at hs
  simp only [at_append, At, and_true, e1, e2] at hc
  obtain ⟨a1, a2, a3, a4, a5, a6, a7, a8, a9⟩ := hc
  have g1 := ((expr_inv e).jmp h1).1
  have f1 := (Good.start (r := s.reg) (e := s.exprReg) g1 (by omega) (by omega)).1
  have f2 := ((expr_inv l).reg h2).1
  have f3 := ((expr_inv r).reg h3).1
  have f1r : s.reg ≤ s1.reg := f1.reg
  have f2r : s1.reg + 1 ≤ s2.reg := f2.reg
  have f3r : s2.reg ≤ s3.reg := f3.reg
  obtain ⟨R1, k1, k2⟩ := he.jmp (R := R) h1 (hR.of rfl rfl) hs.1.1 a1 a2 a6 hy hqe
  have hend : ∀ {R2 : Int → Val} {n : Int}, Keep s1.reg R1 R2 → Steps E P ⟨p, R, st⟩ ⟨p + c1.length + 1 + c2.length + 1 + 1 + 1 + c3.length + 1 + 1,
      upd R2 (s1.reg + 1) ⟨q.1, BitVec.ofInt _ x.1⟩, res st x.2⟩ →
      ∃ R', Steps E P ⟨p, R, st⟩ ⟨p + c1.length + 1 + c2.length + 1 + 1 + 1 + c3.length + 1 + 1, R', res st x.2⟩ ∧ Keep s.reg R R' ∧
        ∀ q, rep (SExpr.cond t e l r).dt = some q → ∃ i, some (Sfx.get t.nbytes, s1.reg + 1, t.isUnsigned) = some (q.1, i, q.2) ∧
          R' i = ⟨q.1, BitVec.ofInt _ x.1⟩ ∧ s.reg < i ∧ i ≤ s3.reg ∧ (fresh (.cond t e l r) = true → i = n) := by
    intro R2 n hk hst
    have k2' : Keep s.reg R R1 := k2
    refine ⟨_, hst, (k2'.trans hk f1r).trans (.upd (by omega)) (Int.le_refl _), ?_⟩
    intro q' hq'
    rw [SExpr.dt, hq] at hq'
    cases hq'
    exact ⟨s1.reg + 1, by rw [e1, e2], by simp, by omega, by omega, by simp [fresh]⟩
  rcases hx with ⟨hy0, hx⟩ | ⟨hy0, hx⟩
  · rw [if_neg (by simpa using hy0)] at k1
    obtain ⟨R2, i, l1, l2, rfl, l4, l5, l6, -⟩ := regSim (expr_inv l) hl.int (R := R1) (st := res st y.2) h2 ((hR.of rfl rfl).frame f1 |>.of rfl rfl) hs.1.2 a3 hx hql
    have m1 := load_same (E := E) (st := res st x.2) (q := q) hq0 (Holds.reg l4) a4
    have := (((k1.trans l1).trans m1).trans (step_jmp hu a5 a9)).trans (step_label a9)
    have hk : Keep s1.reg R1 R2 := fun r hr => l2 r (by dsimp only; omega)
    obtain ⟨R', b1, b2, b3⟩ := hend (n := s3.reg) hk (this.to (by omega))
    exact ⟨R', b1.to (by len), b2, b3⟩
  · rw [if_pos (by simpa using hy0)] at k1
    obtain ⟨R2, i, l1, l2, rfl, l4, l5, l6, -⟩ := regSim (expr_inv r) hr.int (R := R1) (st := res st y.2) h3
      ((((hR.of rfl rfl).frame f1).of (s' := { s1 with reg := s1.reg + 1 }) rfl rfl).frame f2) hs.2 a7 hx hqr
    have m1 := load_same (E := E) (st := res st x.2) (q := q) hq0 (Holds.reg l4) a8
    have := (((k1.trans (step_label a6)).trans l1).trans m1).trans (step_label a9)
    have hk : Keep s1.reg R1 R2 := fun r hr => l2 r (by omega)
    obtain ⟨R', b1, b2, b3⟩ := hend (n := s3.reg) hk (this.to (by omega))
    exact ⟨R', b1.to (by len), b2, b3⟩

theorem addrSim {e : SExpr} {t : DType} (ht : e.dt = t) (hp : isPtr t = true) {src : GM Ope} {s s' : GState} {c : List Immc} (hg : addrCode t src s = .ok ((), c, s'))
    {a : BitVec 64} (hsrc : ∀ {o c1 s1}, src s = .ok (o, c1, s1) → c1 = [] ∧ s1 = s ∧ ∀ R, Place E R o a)
    {p : Nat} {R : Int → Val} {st : St W} (hc : At P p c) :
    ∃ R', Steps E P ⟨p, R, st⟩ ⟨p + c.length, R', st⟩ ∧ Keep s.reg R R' ∧ ∀ q, rep e.dt = some q →
      ∃ r, s'.exprReg = some (q.1, r, q.2) ∧ R' r = ⟨q.1, BitVec.ofInt _ a.toInt⟩ ∧ s.reg < r ∧ r ≤ s'.reg ∧ (fresh e = true → r = s'.reg) := by
  obtain ⟨o, c1, s1, h1, rfl, rfl⟩ := addrCode_ok hg
  obtain ⟨rfl, rfl, h2⟩ := hsrc h1
  have hq := CSem.ptr_rep hp
  obtain ⟨e1, e2, -⟩ := rep_get hq
  simp only [List.nil_append, At, and_true, e1, e2] at hc
  have := addr_steps (E := E) (st := st) (h2 R) hc
  rw [← ofInt_toInt a] at this
  exact fin e ht hq (x := (a.toInt, st.mem, st.w)) (s2 := { s1 with reg := s1.reg + 1 }) this (.refl _ _) (by omega) rfl rfl

theorem addrIdentSim (hu : UniqueLabels P) {t t' : DType} {n : Str} : GSim C E P (.un .addr t (.ident t' n)) (expr (.un .addr t (.ident t' n))) := by
  have hi := expr_inv (.un .addr t (.ident t' n))
  rw [expr] at hi ⊢
  have hcode : CodeSim C E P (.un .addr t (.ident t' n)) (addrCode t (symOpe n)) := by
    intro s c s' hg hR hs p R st x hc hx
    obtain ⟨hp, a, ha, rfl⟩ := CSem.eval_addrIdent hx
    refine addrSim (e := .un .addr t (.ident t' n)) rfl hp hg (a := a) ?_ hc
    intro o c1 s1 h1
    obtain ⟨rfl, rfl, a', h2, h3, -⟩ := symSim h1 hR (R := R)
    refine ⟨rfl, rfl, fun R => ?_⟩
    obtain ⟨-, -, a', h2, h3, -⟩ := symSim h1 hR (R := R)
    rw [ha] at h2
    cases h2
    exact h3
  have hp := GSim.plain hu (e := .un .addr t (.ident t' n)) (.plain hi.code) (by intro o; simp only [safe]) hcode
  refine ⟨hp.code, hp.int, ?_, hp.jmp⟩
  intro s o c s' hg hR hs hf hpt p R st x hc hx
  obtain ⟨hp, a, ha, rfl⟩ := CSem.eval_addrIdent hx
  obtain ⟨rfl, rfl, a', h2, h3, h4⟩ := symSim hg hR (R := R)
  rw [ha] at h2
  cases h2
  rw [← ofInt_toInt a] at h3
  exact ⟨R, Steps.refl _, .refl _ _, h3, fun r hr => absurd hr (h4 r)⟩

theorem addrStrSim (hu : UniqueLabels P) {t t' : DType} {n : Int} : GSim C E P (.un .addr t (.str t' n)) (expr (.un .addr t (.str t' n))) := by
  have hi := expr_inv (.un .addr t (.str t' n))
  rw [expr] at hi ⊢
  refine .plain hu hi (by intro o; simp only [safe]) ?_
  intro s c s' hg hR hs p R st x hc hx
  obtain ⟨hp, rfl⟩ := CSem.eval_addrStr hx
  refine addrSim (e := .un .addr t (.str t' n)) rfl hp hg (a := C.str n) ?_ hc
  intro o c1 s1 h1
  obtain ⟨rfl, rfl, rfl⟩ := pure_ok.1 h1
  exact ⟨rfl, rfl, fun R => .inr (.inr ⟨_, rfl, hR.str n⟩)⟩

theorem memberOffset_eq (m : Str) : ∀ ms : Members, CSem.memberOffset m ms = offsetIn m ms
  | .nil => rfl
  | .cons n t o ms => by simp only [CSem.memberOffset, offsetIn, memberOffset_eq m ms]

theorem offset_eq {s s' : GState} {t : DType} {ms : Members} {c : List Immc} {m : Str} {o o' : Nat} (hR : Rel C E s) (h : membersOf t s = .ok (ms, c, s'))
    (h1 : offsetIn m ms = some o) (h2 : C.offset t m = some o') : o' = o := by
  have key := memberOffset_eq m
  obtain ⟨rfl, rfl, ⟨b, a, rfl⟩ | ⟨n, b, a, b', a', rfl, hl⟩⟩ := membersOf_ok h
  · simp only [Ctx.offset, key, h1, Option.some.injEq] at h2
    exact h2.symm
  · simp only [Ctx.offset, hR.tag _ _ _ _ hl, Option.bind_some, key, h1, Option.some.injEq] at h2
    exact h2.symm

theorem memberAddr {t : DType} (ht : isPtr t = true) {e : SExpr} (he : GSim C E P e (expr e)) {m : Str} {s s' : GState} {c : List Immc}
    (hg : memberAddrCode t e.dt (expr e) m s = .ok ((), c, s')) (hR : Rel C E s) (hs : safe none e = true) {p : Nat} {R : Int → Val} {st : St W} (hc : At P p c)
    {y : Int × Mem × W} (hy : eval C e (st.mem, st.w) = some y) {o : Nat} (ho : C.offset e.dt m = some o) :
    ∃ R1, ∃ s1 : GState, Steps E P ⟨p, R, st⟩ ⟨p + c.length, upd R1 (s1.reg + 1) ⟨.quad, BitVec.ofInt _ (y.1 + o)⟩, res st y.2⟩ ∧ Keep s.reg R R1 ∧ s.reg ≤ s1.reg ∧
      s' = { s1 with reg := s1.reg + 1, exprReg := some (Sfx.get t.nbytes, s1.reg + 1, t.isUnsigned) } := by
  obtain ⟨a, c1, s1, ms, o', h1, h2, h3, rfl, rfl⟩ := memberAddrCode_ok hg
  have f1 := ((expr_inv e).reg h1).1
  cases offset_eq (hR.frame f1) h2 h3 ho
  obtain ⟨e1, e2, -⟩ := rep_get (CSem.ptr_rep ht)
  simp only [at_append, At, and_true, e1, e2] at hc
  obtain ⟨R1, i, k1, k2, rfl, k4, k5, k6, -⟩ := regSim (expr_inv e) he.int (R := R) h1 hR hs hc.1 hy (CSem.ptr_rep (CSem.offset_ptr ho))
  have m1 := arith_same (E := E) (st := res st y.2) (q := (.quad, false)) (v := y.1 + o) rfl (by decide) (Holds.reg (q := (.quad, false)) k4) .lit
    (by simp only [IMach.arith, ISem.bin, BitVec.ofInt_add]) hc.2
  exact ⟨R1, s1, (k1.trans m1).to (by len), k2, by omega, rfl⟩

theorem addrMemberSim {t t' mt : DType} {e : SExpr} {m : Str} (he : GSim C E P e (expr e)) :
    CodeSim C E P (.un .addr t (.tomember t' e mt m)) (memberAddrCode t e.dt (expr e) m) := by
  intro s c s' hg hR hs p R st x hc hx
  obtain ⟨hp, y, o, hy, ho, hr, rfl⟩ := CSem.eval_addrMember hx
  simp only [safe] at hs
  obtain ⟨R1, s1, k1, k2, k3, rfl⟩ := memberAddr hp he hg hR hs (R := R) hc hy ho
  exact fin (.un .addr t (.tomember t' e mt m)) rfl (CSem.ptr_rep hp) (x := (y.1 + o, y.2)) k1 k2 (by omega) rfl rfl

theorem tomemberSim {t mt : DType} {e : SExpr} {m : Str} (he : GSim C E P e (expr e)) :
    CodeSim C E P (.tomember t e mt m) (memberCode t e.dt (expr e) m) := by
  intro s c s' hg hR hs p R st x hc hx
  obtain ⟨q, y, o, hq, hy, ho, hr, hm, rfl⟩ := CSem.eval_tomember hx
  simp only [safe] at hs
  obtain ⟨sf, r, us, c1, s1, h1, h2, rfl, rfl⟩ := memberCode_ok hg
  obtain ⟨e1, e2, hq0, -⟩ := rep_get hq
  simp only [at_append, At, and_true, e1, e2] at hc
  obtain ⟨R1, s2, k1, k2, k3, rfl⟩ := memberAddr (t := .ptr t) rfl he h1 hR hs (R := R) hc.1 hy ho
  cases h2
  have m1 := load_place (E := E) (st := res st y.2) (R := upd R1 (s2.reg + 1) ⟨.quad, BitVec.ofInt _ (y.1 + o)⟩) (a := y.1 + o) hq0
    (.inl ⟨s2.reg + 1, rfl, upd_same _ _ _⟩) (hR.may hm _) hc.2
  have h3 := (k1.trans m1).to (p' := p + (c1 ++ [load (.reg (Sfx.get t.nbytes) (s2.reg + 1 + 1) t.isUnsigned) (.ptr (s2.reg + 1))]).length) (by len)
  exact fin (.tomember t e mt m) rfl hq (s2 := { s2 with reg := s2.reg + 1 + 1 }) h3 (k2.trans (.upd (by omega)) (Int.le_refl _)) (by dsimp only; omega) rfl rfl

theorem addrIndirSim {t t' : DType} {e : SExpr} (he : GSim C E P e (expr e)) : CodeSim C E P (.un .addr t (.un .indir t' e)) (expr e).code := by
  intro s c s' hg hR hs p R st x hc hx
  obtain ⟨hp, hp', hx⟩ := CSem.eval_addrIndir hx
  simp only [safe] at hs
  obtain ⟨R1, k1, k2, k3⟩ := he.code (R := R) hg hR hs hc hx
  refine ⟨R1, k1, k2, fun q hq => ?_⟩
  rw [SExpr.dt, CSem.ptr_rep hp, ← CSem.ptr_rep hp'] at hq
  obtain ⟨r, a1, a2, a3, a4, a5⟩ := k3 q hq
  exact ⟨r, a1, a2, a3, a4, fun hf => a5 (by simpa only [fresh] using hf)⟩

theorem indirSim {t : DType} {e : SExpr} (he : GSim C E P e (expr e)) : CodeSim C E P (.un .indir t e) (indirCode t (expr e)) := by
  intro s c s' hg hR hs p R st x hc hx
  obtain ⟨o, c1, s1, h1, rfl, rfl⟩ := indirCode_ok hg
  obtain ⟨q, y, hq, hp, hy, hm, rfl⟩ := CSem.eval_indir hx
  simp only [safe, Bool.and_eq_true] at hs
  obtain ⟨e1, e2, hq0, -⟩ := rep_get hq
  simp only [at_append, At, and_true, e1, e2] at hc
  have f1 := ((expr_inv e).ptr h1).1.reg
  obtain ⟨R1, k1, k2, k3, k4⟩ := he.ptr (R := R) h1 hR hs.2 hs.1 hp hc.1 hy
  have m1 := load_place (E := E) (st := res st y.2) hq0 k3 (hR.may hm _) hc.2
  exact fin (.un .indir t e) rfl hq (x := (_, y.2)) (s2 := { s1 with reg := s1.reg + 1 }) ((k1.trans m1).to (by len)) k2 (by omega) rfl rfl

theorem posSim {t : DType} {e : SExpr} (he : GSim C E P e (expr e)) : CodeSim C E P (.un .pos t e) (posCode (expr e)) := by
  intro s c s' hg hR hs p R st x hc hx
  obtain ⟨sf, r, us, s1, h1, rfl⟩ := posCode_ok hg
  obtain ⟨q, hq, hqe, hx⟩ := CSem.eval_pos hx
  simp only [safe] at hs
  obtain ⟨R1, i, k1, k2, k3, k4, k5, k6, k7⟩ := regSim (expr_inv e) he.int (R := R) h1 hR hs hc hx hqe
  cases k3
  refine ⟨R1, k1, k2, fun q' hq' => ?_⟩
  rw [SExpr.dt, hq] at hq'
  cases hq'
  exact ⟨r, rfl, k4, k5, k6, fun hf => k7 (by simpa only [fresh] using hf)⟩

theorem unSim {op : SUn} {iop : IOp} (hop : (op, iop) = (.neg, .neg) ∨ (op, iop) = (.not, .not)) {t : DType} {e : SExpr} (he : GSim C E P e (expr e)) :
    CodeSim C E P (.un op t e) (unCode iop t (expr e)) := by
  intro s c s' hg hR hs p R st x hc hx
  obtain ⟨o, c1, s1, h1, rfl, rfl⟩ := unCode_ok hg
  have hs' : safe none e = true := by rcases hop with hop | hop <;> cases hop <;> simpa only [safe] using hs
  obtain ⟨q, y, v, hq, hqe, hy, hv, rfl⟩ : ∃ q y v, rep t = some q ∧ rep e.dt = some q ∧ eval C e (st.mem, st.w) = some y ∧
      ISem.un iop (BitVec.ofInt q.1.bits y.1) = some (BitVec.ofInt q.1.bits v) ∧ x = (v, y.2) := by
    rcases hop with hop | hop <;> cases hop
    · obtain ⟨q, y, v, h1, h2, h3, h4, rfl⟩ := CSem.eval_neg hx
      refine ⟨q, y, v, h1, h2, h3, ?_, rfl⟩
      rw [(fit_some h4).2, BitVec.ofInt_neg]
      rfl
    · obtain ⟨q, y, h1, h2, h3, rfl⟩ := CSem.eval_not hx
      refine ⟨q, y, _, h1, h2, h3, ?_, rfl⟩
      rw [ofInt_wrap, ofInt_sub, BitVec.ofInt_neg]
      simp only [ISem.un, BitVec.not_eq_neg_add]
      rfl
  obtain ⟨e1, e2, hq0, -⟩ := rep_get hq
  simp only [at_append, At, and_true, e1, e2] at hc
  have f1 := ((expr_inv e).int h1).1.reg
  obtain ⟨R1, k1, k2, k3, -⟩ := he.int (R := R) h1 hR hs' hc.1 hy (by rw [hqe]; rfl) (q := q) hqe
  have m1 := un_steps (E := E) (st := res st y.2) (by rcases hop with hop | hop <;> cases hop <;> simp) hq0 k3 hv hc.2
  exact fin (.un op t e) rfl hq (x := (v, y.2)) (s2 := { s1 with reg := s1.reg + 1 }) ((k1.trans m1).to (by len)) k2 (by omega) rfl rfl

theorem lnotSim {t : DType} {e : SExpr} (he : GSim C E P e (expr e)) : CodeSim C E P (.un .lnot t e) (lnotCode t (expr e)) := by
  intro s c s' hg hR hs p R st x hc hx
  obtain ⟨o, c1, s1, h1, rfl, rfl⟩ := lnotCode_ok hg
  obtain ⟨hq, hqe, y, hy, rfl⟩ := CSem.eval_lnot hx
  obtain ⟨q, hq⟩ := Option.isSome_iff_exists.1 hq
  obtain ⟨qe, hqe⟩ := Option.isSome_iff_exists.1 hqe
  simp only [safe] at hs
  obtain ⟨e1, e2, hq0, -⟩ := rep_get hq
  have hqe0 := (rep_get hqe).2.2.1
  simp only [at_append, At, and_true, e1, e2] at hc
  obtain ⟨R1, i, k1, k2, rfl, k4, k5, k6, -⟩ := regSim (expr_inv e) he.int (R := R) h1 hR hs hc.1 hy hqe
  have hz : InRange qe 0 := CSem.ofBool_range hqe0 false
  have m1 := set_steps (E := E) (st := res st y.2) (u := false) (b := 0) rfl hq0 hqe0 (Holds.reg k4) .lit
    (rel_ok (op := .equal) hqe0 (CSem.eval_range e hqe hy) hz rfl) hc.2
  exact fin (.un .lnot t e) rfl hq (x := (_, y.2)) (s2 := { s1 with reg := s1.reg + 1 }) ((k1.trans m1).to (by len)) k2 (by omega) rfl rfl

theorem incdec_ok {op : IOp} {d : Int} (hop : (op, d) = (.add, 1) ∨ (op, d) = (.sub, -1)) {t : DType} {q : Sfx × Bool} {l : ILit} (hq : rep t = some q)
    (hl : incLit t = some l) {a v : Int} (h : CSem.incdec t q a d = some v) (du fu : Bool) :
    IMach.arith op du fu (BitVec.ofInt q.1.bits a) (BitVec.ofInt q.1.bits l.value) = some (BitVec.ofInt q.1.bits v) := by
  have key : BitVec.ofInt q.1.bits v = BitVec.ofInt q.1.bits (a + d * l.value) := by
    unfold CSem.incdec at h
    split at h
    · rename_i t
      cases hq
      split at h
      · cases h
      · rename_i hn
        obtain ⟨rfl, -⟩ := CSem.ptrAt_some h
        have : t.nbytes > 0 := by omega
        simp only [incLit, DType.isSigned, DType.isUnsigned, Bool.false_eq_true, if_false, this, if_true, Option.some.injEq] at hl
        subst hl
        rfl
    · rename_i hne
      have hv : l.value = 1 := by
        cases t <;> first | (cases hq; done) | (simp only [incLit, DType.isSigned, DType.isUnsigned, Bool.false_eq_true, if_false, if_true, Option.some.injEq] at hl; subst hl; rfl) | skip
        exact (hne _ rfl).elim
      rw [hv, Int.mul_one]
      split at h
      · cases h
        rw [ofInt_wrap]
      · exact (fit_some h).2
  rw [key]
  rcases hop with hop | hop <;> cases hop
  · simp only [IMach.arith, ISem.bin, Int.one_mul, BitVec.ofInt_add]
  · have : a + -1 * l.value = a - l.value := by omega
    rw [this]
    simp only [IMach.arith, ISem.bin, ofInt_sub]

theorem preSim {op : SUn} {iop : IOp} (hop : (op, iop) = (.preinc, .add) ∨ (op, iop) = (.predec, .sub)) {t : DType} {e : SExpr} (he : GSim C E P e (expr e)) :
    CodeSim C E P (.un op t e) (incdecCode iop false t (expr e)) := by
  intro s c s' hg hR hs p R st x hc hx
  obtain ⟨o, c1, s1, l, h1, hl, rfl, rfl⟩ := incdecPre_ok hg
  obtain ⟨q, y, v, hq, hp, hy, hm, hv, rfl⟩ := CSem.eval_pre (by rcases hop with hop | hop <;> cases hop <;> simp) hx
  have hs' : fresh e = true ∧ safe none e = true := by rcases hop with hop | hop <;> cases hop <;> simpa only [safe, Bool.and_eq_true] using hs
  obtain ⟨e1, e2, hq0, -⟩ := rep_get hq
  simp only [at_append, At, and_true, e1, e2] at hc
  obtain ⟨a1, a2, a3, a4⟩ := hc
  have f1 := ((expr_inv e).ptr h1).1.reg
  obtain ⟨R1, k1, k2, k3, k4⟩ := he.ptr (R := R) h1 hR hs'.2 hs'.1 hp a1 hy
  have m1 := load_place (E := E) (st := res st y.2) hq0 k3 (hR.may hm _) a2
  have m2 := arith_same (E := E) (st := res st y.2) (v := v) (R := upd R1 (s1.reg + 1) ⟨q.1, BitVec.ofInt _ (CSem.load q y.2.1 y.1)⟩) (op := iop)
    (by rcases hop with hop | hop <;> cases hop <;> rfl) hq0 (Holds.reg (upd_same _ _ _)) (.inr ⟨l, rfl, rfl, rfl⟩)
    (incdec_ok (by rcases hop with hop | hop <;> cases hop <;> simp [CSem.stepOf]) hq hl hv _ _) a3
  have m3 := store_steps (E := E) (st := res st y.2) (v := v)
    (R := upd (upd R1 (s1.reg + 1) ⟨q.1, BitVec.ofInt _ (CSem.load q y.2.1 y.1)⟩) (s1.reg + 1) ⟨q.1, BitVec.ofInt _ v⟩) hq0
    ((k3.upd k4 (by omega)).upd k4 (by omega)) (Holds.reg (upd_same _ _ _)) (hR.may hm _) a4
  exact fin (.un op t e) rfl hq (x := (v, CSem.store q y.2.1 y.1 v, y.2.2)) (s2 := { s1 with reg := s1.reg + 1 }) ((((k1.trans m1).trans m2).trans m3).to (by len))
    (k2.trans (.upd (by omega)) (Int.le_refl _)) (by omega) rfl rfl

theorem postSim {op : SUn} {iop : IOp} (hop : (op, iop) = (.postinc, .add) ∨ (op, iop) = (.postdec, .sub)) {t : DType} {e : SExpr} (he : GSim C E P e (expr e)) :
    CodeSim C E P (.un op t e) (incdecCode iop true t (expr e)) := by
  intro s c s' hg hR hs p R st x hc hx
  obtain ⟨o, c1, s1, l, h1, hl, rfl, rfl⟩ := incdecPost_ok hg
  obtain ⟨q, y, v, hq, hp, hy, hm, hv, rfl⟩ := CSem.eval_post (by rcases hop with hop | hop <;> cases hop <;> simp) hx
  have hs' : fresh e = true ∧ safe none e = true := by rcases hop with hop | hop <;> cases hop <;> simpa only [safe, Bool.and_eq_true] using hs
  obtain ⟨e1, e2, hq0, -⟩ := rep_get hq
  simp only [at_append, At, and_true, e1, e2] at hc
  obtain ⟨a1, a2, a2', a3, a4⟩ := hc
  have f1 := ((expr_inv e).ptr h1).1.reg
  obtain ⟨R1, k1, k2, k3, k4⟩ := he.ptr (R := R) h1 hR hs'.2 hs'.1 hp a1 hy
  have m1 := load_place (E := E) (st := res st y.2) hq0 k3 (hR.may hm _) a2
  rw [res_mem] at m1
  generalize hR2 : upd R1 (s1.reg + 1) ⟨q.1, BitVec.ofInt _ (CSem.load q y.2.1 y.1)⟩ = R2 at *
  have r1 : R2 (s1.reg + 1) = ⟨q.1, BitVec.ofInt _ (CSem.load q y.2.1 y.1)⟩ := by rw [← hR2, upd_same]
  have p1 : Place E R2 o (BitVec.ofInt 64 y.1) := by rw [← hR2]; exact k3.upd k4 (by omega)
  have hk2 : Keep s.reg R R2 := by rw [← hR2]; exact k2.trans (.upd (by omega)) (Int.le_refl _)
  have m1' := load_same (E := E) (st := res st y.2) (q := q) (v := CSem.load q y.2.1 y.1) hq0 (Holds.reg r1) a2'
  generalize hR3 : upd R2 (s1.reg + 1 + 1) ⟨q.1, BitVec.ofInt _ (CSem.load q y.2.1 y.1)⟩ = R3 at *
  have r2 : R3 (s1.reg + 1) = ⟨q.1, BitVec.ofInt _ (CSem.load q y.2.1 y.1)⟩ := by rw [← hR3, upd_other (by omega), r1]
  have r3 : R3 (s1.reg + 1 + 1) = ⟨q.1, BitVec.ofInt _ (CSem.load q y.2.1 y.1)⟩ := by rw [← hR3, upd_same]
  have p2 : Place E R3 o (BitVec.ofInt 64 y.1) := by rw [← hR3]; exact p1.upd k4 (by omega)
  have hk3 : Keep s.reg R R3 := by rw [← hR3]; exact hk2.trans (.upd (by omega)) (Int.le_refl _)
  have m2 := arith_same (E := E) (st := res st y.2) (v := v) (R := R3) (op := iop)
    (by rcases hop with hop | hop <;> cases hop <;> rfl) hq0 (Holds.reg r2) (.inr ⟨l, rfl, rfl, rfl⟩)
    (incdec_ok (by rcases hop with hop | hop <;> cases hop <;> simp [CSem.stepOf]) hq hl hv _ _) a3
  have m3 := store_steps (E := E) (st := res st y.2) (v := v) (R := upd R3 (s1.reg + 1) ⟨q.1, BitVec.ofInt _ v⟩) hq0
    (p2.upd k4 (by omega)) (Holds.reg (upd_same _ _ _)) (hR.may hm _) a4
  refine ⟨_, ((((k1.trans m1).trans m1').trans m2).trans m3).to (by len), hk3.trans (.upd (by omega)) (Int.le_refl _), ?_⟩
  intro q' hq'
  rw [SExpr.dt, hq] at hq'
  cases hq'
  exact ⟨s1.reg + 1 + 1, by rw [e1, e2], by rw [upd_other (by omega), r3], by omega, by simp, by simp⟩

/-! ### calls -/

/-- arguments stored from number `i` on -/
def stored (i : Nat) : List Val → List (Nat × Val)
  | [] => []
  | v :: vs => (i, v) :: stored (i + 1) vs

theorem stored_lookup : ∀ (vs : List Val) (i k : Nat), (stored i vs).lookup (i + k) = vs[k]?
  | [], i, k => by simp [stored]
  | v :: vs, i, 0 => by simp [stored]
  | v :: vs, i, k + 1 => by
    have : (i + (k + 1) == i) = false := by simp
    rw [stored, List.lookup_cons, this]
    have := stored_lookup vs (i + 1) k
    rw [show i + 1 + k = i + (k + 1) by omega] at this
    simpa using this

theorem gather_take (vs : List Val) : ∀ n ≤ vs.length, IMach.gather (stored 0 vs) n = some (vs.take n)
  | 0, _ => rfl
  | n + 1, h => by
    have h1 := stored_lookup vs 0 n
    rw [Nat.zero_add, List.getElem?_eq_getElem (by omega)] at h1
    simp only [IMach.gather, gather_take vs n (by omega), h1]
    rw [List.take_add_one, List.getElem?_eq_getElem (by omega)]
    rfl

theorem gather_stored (vs : List Val) : IMach.gather (stored 0 vs) vs.length = some vs := by
  rw [gather_take vs _ (Nat.le_refl _), List.take_length]

/-- code for arguments -/
def ArgsSim (C : Ctx W) (E : Env W) (P : List Immc) (as : SArgs) : Prop :=
  ∀ {i s c s'}, argsCode i (args as) s = .ok ((), c, s') → Rel C E s → safeArgs as = true → ∀ {p R st xs rest}, At P p c →
    evalArgs C as (st.mem, st.w) = some xs → st.out = [] :: rest →
    ∃ R', Steps E P ⟨p, R, st⟩ ⟨p + c.length, R', { res st xs.2 with out := stored i xs.1 :: rest }⟩ ∧ Keep s.reg R R' ∧ xs.1.length = (args as).length

theorem argsSim_nil : ArgsSim C E P .nil := by
  intro i s c s' hg hR hs p R st xs rest hc hx ho
  rw [args, argsCode] at hg
  obtain ⟨-, rfl, rfl⟩ := pure_ok.1 hg
  simp only [evalArgs, Option.some.injEq] at hx
  subst hx
  refine ⟨R, ?_, .refl _ _, by simp [args]⟩
  have : { res st (st.mem, st.w) with out := stored i [] :: rest } = st := by
    rw [stored, ← ho]
    rfl
  dsimp only
  rw [this]
  exact Steps.refl _

theorem argsSim_cons {e : SExpr} {as : SArgs} (he : GSim C E P e (expr e)) (has : ArgsSim C E P as) : ArgsSim C E P (.cons e as) := by
  intro i s c s' hg hR hs p R st xs rest hc hx ho
  rw [args] at hg
  obtain ⟨c1, s1, a, c2, h1, h2, rfl⟩ := argsCode_ok hg
  obtain ⟨ys, y, q, hys, hy, hq, rfl⟩ := CSem.evalArgs_cons hx
  simp only [safeArgs, Bool.and_eq_true] at hs
  simp only [at_append, At, and_true] at hc
  have f1 := (argsCode_good (args_inv as) h1).1
  obtain ⟨R1, k1, k2, k3⟩ := has (R := R) h1 hR hs.2 hc.1 hys ho
  obtain ⟨R2, l1, l2, l3, -⟩ := he.int (R := R1) (st := { res st ys.2 with out := stored (i + 1) ys.1 :: rest }) (s' := s') h2 (hR.frame f1) hs.1 hc.2.1 hy
    (by rw [hq]; rfl) (q := q) hq
  have m1 := starg_steps (E := E) (st := res { res st ys.2 with out := stored (i + 1) ys.1 :: rest } y.2) (rep_get hq).2.2.1 l3 rfl hc.2.2
  exact ⟨R2, ((k1.trans l1).trans m1).to (by len), k2.trans l2 f1.reg, by simp [args, k3]⟩

theorem setWidth_ofInt {n : Nat} (z : BitVec 64) : BitVec.ofInt n (z.toNat : Int) = z.setWidth n := by
  rw [BitVec.ofInt_natCast]
  simp

theorem callSim {t : DType} {f : SExpr} {as : SArgs} (hf : GSim C E P f (expr f)) (has : ArgsSim C E P as) :
    CodeSim C E P (.call t f as) (callCode t (expr f) (args as)) := by
  intro s c s' hg hR hs p R st x hc hx
  obtain ⟨c1, s1, o, c2, s2, d, c3, s3, h1, h2, h3, rfl, h4⟩ := callCode_ok hg
  obtain ⟨hp, ys, y, sz, z, hys, hy, hz, hx⟩ := CSem.eval_call hx
  simp only [safe, Bool.and_eq_true] at hs
  simp only [callEnd, at_append, At, and_true] at hc
  obtain ⟨a1, a2, a3, a4, a5⟩ := hc
  have f1 := (argsCode_good (args_inv as) h1).1
  have f1r := f1.reg
  have f2r := ((expr_inv f).ptr h2).1.reg
  have m1 : Steps E P ⟨p, R, st⟩ ⟨p + 1, R, { st with out := [] :: st.out }⟩ := step_eff (v := IMach.noVal) (b := false) a1 nofun rfl rfl
  obtain ⟨R1, k1, k2, k3⟩ := has (R := R) (st := { st with out := [] :: st.out }) h1 hR hs.2 a2 hys rfl
  obtain ⟨R2, l1, l2, l3, l4⟩ := hf.ptr (R := R1) (st := { res st ys.2 with out := stored 0 ys.1 :: st.out }) h2 (hR.frame f1) hs.1.2 hs.1.1 hp a3 hy
  have hk : Keep s.reg R R2 := k2.trans l2 f1r
  have hex : ∀ d : Option Ope, IMach.width (RSpec.eraseOpe d) = sz → IMach.exec E .call (RSpec.eraseOpe d) (RSpec.eraseOpe (some o)) (RSpec.eraseOpe (some (intOpe .none (args as).length))) (rv R2 (some o))
      (rv R2 (some (intOpe .none (args as).length))) none (res { res st ys.2 with out := stored 0 ys.1 :: st.out } y.2) =
      some ({ res st (z.1, z.2.1) with out := stored 0 ys.1 :: st.out }, IMach.result (IMach.width (RSpec.eraseOpe d)) (z.2.2.setWidth _), false) := by
    intro d hd
    have hn : IMach.litNat (RSpec.eraseOpe (some (intOpe .none (args as).length))) = some ys.1.length := by
      simp [RSpec.eraseOpe, intOpe, IMach.litNat, k3]
    have hcall : E.call (BitVec.ofInt 64 y.1) ys.1 (IMach.width (RSpec.eraseOpe d)) y.2.1 y.2.2 = some z := by rw [← hR.call, hd]; exact hz
    simp only [IMach.exec, l3.place, hn, gather_stored, res, hcall]
  have m3 : ∀ {p : Nat} {R : Int → Val}, P[p]? = some (inst .clean none (some (intOpe .none (args as).length)) none) →
      Steps E P ⟨p, R, { res st (z.1, z.2.1) with out := stored 0 ys.1 :: st.out }⟩ ⟨p + 1, R, res st (z.1, z.2.1)⟩ :=
    fun h => step_eff (v := IMach.noVal) (b := false) h nofun rfl rfl
  have hpre := (m1.trans k1).trans l1
  rcases h4 with ⟨hv, rfl, rfl⟩ | ⟨hv, rfl, rfl⟩
  · rcases hx with ⟨-, hsz, rfl⟩ | ⟨hv', _⟩
    · have m2 := step_eff (env := E) a4 nofun rfl (hex none hsz.symm)
      have hst := (hpre.trans m2).trans (m3 a5)
      refine ⟨R2, hst.to (by simp only [callEnd]; len), hk, fun q hq => ?_⟩
      have := (rep_get hq).2.2.2
      rw [SExpr.dt, hv] at this
      cases this
    · rw [hv] at hv'
      cases hv'
  · rcases hx with ⟨hv', _⟩ | ⟨-, q, hq, hsz, rfl⟩
    · rw [hv] at hv'
      cases hv'
    obtain ⟨e1, e2, hq0, -⟩ := rep_get hq
    rw [e1, e2] at a4
    have m2 := step_reg (env := E) a4 (by decide) (hex (some (.reg q.1 (s2.reg + 1) q.2)) hsz.symm)
    have e : IMach.result (IMach.width (RSpec.eraseOpe (some (.reg q.1 (s2.reg + 1) q.2)))) (z.2.2.setWidth _) =
        (⟨q.1, BitVec.ofInt q.1.bits (CSem.wrap q z.2.2.toNat)⟩ : Val) := by
      rw [ofInt_wrap, setWidth_ofInt]
      rfl
    rw [e] at m2
    have hst := (hpre.trans m2).trans (m3 a5)
    exact fin (.call t f as) rfl hq (x := (CSem.wrap q z.2.2.toNat, z.1, z.2.1)) (s2 := { s2 with reg := s2.reg + 1 }) (hst.to (by simp only [callEnd]; len)) hk (by omega) rfl rfl

/-! ### all expressions -/

theorem noneSim (hu : UniqueLabels P) {e : SExpr} {cd : GM Unit} (hi : GInv (G.plain cd)) (hs0 : ∀ o, safe o e = safe none e)
    (h : ∀ σ, eval C e σ = none) : GSim C E P e (G.plain cd) :=
  .plain hu hi hs0 (by intro s c s' hg hR hs p R st x hc hx; rw [h] at hx; cases hx)

/-- expressions with one operand -/
theorem unarySim (hu : UniqueLabels P) {op : SUn} {t : DType} {e : SExpr} (he : GSim C E P e (expr e))
    (h1 : ∀ t' d a m, e = .tomember t' d a m → GSim C E P d (expr d)) (h2 : ∀ t' d, e = .un .indir t' d → GSim C E P d (expr d)) :
    GSim C E P (.un op t e) (expr (.un op t e)) := by
  have hi := expr_inv (.un op t e)
  cases op
  case cast => exact castSim hu he
  case addr =>
    cases e
    case ident => exact addrIdentSim hu
    case str => exact addrStrSim hu
    case tomember t' d a m =>
      rw [expr] at hi ⊢
      exact .plain hu hi (by intro o; simp only [safe]) (addrMemberSim (h1 _ _ _ _ rfl))
    case un op' t' d =>
      cases op'
      case indir =>
        rw [expr] at hi ⊢
        exact .plain hu hi (by intro o; simp only [safe]) (addrIndirSim (h2 _ _ rfl))
      all_goals
        simp only [expr] at hi ⊢
        exact noneSim hu hi (by intro o; simp [safe]) (by intro σ; simp [eval])
    all_goals
      simp only [expr] at hi ⊢
      exact noneSim hu hi (by intro o; simp [safe]) (by intro σ; simp [eval])
  case preinc => rw [expr] at hi ⊢; exact .plain hu hi (by intro o; simp only [safe]) (preSim (.inl rfl) he)
  case predec => rw [expr] at hi ⊢; exact .plain hu hi (by intro o; simp only [safe]) (preSim (.inr rfl) he)
  case postinc => rw [expr] at hi ⊢; exact .plain hu hi (by intro o; simp only [safe]) (postSim (.inl rfl) he)
  case postdec => rw [expr] at hi ⊢; exact .plain hu hi (by intro o; simp only [safe]) (postSim (.inr rfl) he)
  case indir => rw [expr] at hi ⊢; exact .plain hu hi (by intro o; simp only [safe]) (indirSim he)
  case pos => rw [expr] at hi ⊢; exact .plain hu hi (by intro o; simp only [safe]) (posSim he)
  case neg => rw [expr] at hi ⊢; exact .plain hu hi (by intro o; simp only [safe]) (unSim (.inl rfl) he)
  case not => rw [expr] at hi ⊢; exact .plain hu hi (by intro o; simp only [safe]) (unSim (.inr rfl) he)
  case lnot => rw [expr] at hi ⊢; exact .plain hu hi (by intro o; simp only [safe]) (lnotSim he)

mutual
/-- the code generated for an expression computes it -/
theorem exprSim (hu : UniqueLabels P) : ∀ e : SExpr, GSim C E P e (expr e)
  | .ident t n => by
    have hi := expr_inv (.ident t n)
    rw [expr] at hi ⊢
    exact .plain hu hi (by intro o; simp only [safe]) identSim
  | .str t n => by
    have hi := expr_inv (.str t n)
    rw [expr] at hi ⊢
    exact noneSim hu hi (by intro o; simp only [safe]) (by intro σ; simp only [eval])
  | .ilit t l => litSim hu
  | .bin op t l r => binSim hu (exprSim hu l) (exprSim hu r)
  | .cond t c l r => by
    have hi := expr_inv (.cond t c l r)
    rw [expr] at hi ⊢
    exact .plain hu hi (by intro o; simp only [safe]) (condSim (t := t) hu (exprSim hu c) (exprSim hu l) (exprSim hu r))
  | .un op t (.tomember t' d a m) => unarySim hu (exprSim hu _) (fun _ _ _ _ h => by cases h; exact exprSim hu d) nofun
  | .un op t (.un o t' d) => unarySim hu (exprSim hu _) nofun (fun _ _ h => by cases h; exact exprSim hu d)
  | .un op t (.ident t' n) => unarySim hu (exprSim hu _) nofun nofun
  | .un op t (.str t' n) => unarySim hu (exprSim hu _) nofun nofun
  | .un op t (.ilit t' n) => unarySim hu (exprSim hu _) nofun nofun
  | .un op t (.bin o t' l r) => unarySim hu (exprSim hu _) nofun nofun
  | .un op t (.cond t' c l r) => unarySim hu (exprSim hu _) nofun nofun
  | .un op t (.call t' f as) => unarySim hu (exprSim hu _) nofun nofun
  | .call t f as => by
    have hi := expr_inv (.call t f as)
    rw [expr] at hi ⊢
    exact .plain hu hi (by intro o; simp only [safe]) (callSim (t := t) (exprSim hu f) (argsSim hu as))
  | .tomember t e mt m => by
    have hi := expr_inv (.tomember t e mt m)
    rw [expr] at hi ⊢
    exact .plain hu hi (by intro o; simp only [safe]) (tomemberSim (t := t) (mt := mt) (m := m) (exprSim hu e))
theorem argsSim (hu : UniqueLabels P) : ∀ as : SArgs, ArgsSim C E P as
  | .nil => argsSim_nil
  | .cons e as => argsSim_cons (exprSim hu e) (argsSim hu as)
end

end Sim
end Umlcc
