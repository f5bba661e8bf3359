import Verif.Lemma.StmtBase
/-!
C36: the code of statements does what they mean.
-/
namespace Umlcc
namespace Sim
open IMach (Val St Env Mem)
open RSpec (Mach UniqueLabels)
open CSem (InRange rep Ctx eval safe)
open CStm
open Gen

variable {W : Type} {I : Impl W} {E : Env W} {P : List Immc}

def StmtSim (I : Impl W) (E : Env W) (P : List Immc) (n : Nat) : Prop :=
  ∀ (b : SStmt) {V : Vars} {m : Mode} {s s' : GState} {c : List Immc} {p k : Nat} {R : Int → Val} {st : St W} {r : Res × Mem × W},
    stmt b s = .ok ((), c, s') → sound b = true → Agree E V s → -1 ≤ s.lab → At P p c → Entry P s s' p m k →
    Okay (fun T => hits T b) (fun q => casesIn q b) (dflts b) m → exec I n V m b (st.mem, st.w) = some r →
    Ends E P ⟨k, R, st⟩ s (p + c.length) st (n - size b) r.2 r.1

def ItemSim (I : Impl W) (E : Env W) (P : List Immc) (n : Nat) : Prop :=
  ∀ (b : SItem) {V : Vars} {m : Mode} {s s' : GState} {c : List Immc} {p k : Nat} {R : Int → Val} {st : St W} {r : Res × Mem × W},
    item b s = .ok ((), c, s') → soundItem b = true → Agree E V s → -1 ≤ s.lab → At P p c → Entry P s s' p m k →
    Okay (fun T => hitsItem T b) (fun q => casesInItem q b) (dfltsItem b) m → execItem I n V m b (st.mem, st.w) = some r →
    Ends E P ⟨k, R, st⟩ s (p + c.length) st (n - sizeItem b) r.2 r.1

def ItemsSim (I : Impl W) (E : Env W) (P : List Immc) (n : Nat) : Prop :=
  ∀ (b : SItems) {V : Vars} {m : Mode} {s s' : GState} {c : List Immc} {p k : Nat} {R : Int → Val} {st : St W} {r : Res × Mem × W},
    items b s = .ok ((), c, s') → soundAll b = true → Agree E V s → -1 ≤ s.lab → At P p c → Entry P s s' p m k →
    Okay (fun T => hitsAny T b) (fun q => casesInAll q b) (dfltsAll b) m → execs I n V m b (st.mem, st.w) = some r →
    Ends E P ⟨k, R, st⟩ s (p + c.length) st (n - sizes b) r.2 r.1

/-- the code of a `for` after its first part -/
structure ForAt (I : Impl W) (E : Env W) (P : List Immc) (V1 V2 : Vars) (e nx b : SStmt) (s2 s3 s4 s5 : GState) (c2 c3 c4 : List Immc) (L1 L2 L3 : Int) (p : Nat) : Prop where
  cond : forCond e (labelName L3) s2 = .ok ((), c2, s3)
  body : stmt b { s3 with cont := L2, brk := L3 } = .ok ((), c3, s4)
  next : stmt nx { s4 with cont := s3.cont, brk := s3.brk } = .ok ((), c4, s5)
  agree : Agree E V1 s2
  sc : scope I b V1 = some V2
  se : simple e = true
  sn : simple nx = true
  sb : sound b = true
  lab : -1 ≤ s2.lab
  code : At P p (labelAt L1 :: (c2 ++ (c3 ++ (labelAt L2 :: (c4 ++ [jump L1, labelAt L3])))))

def LoopSim (I : Impl W) (E : Env W) (P : List Immc) (n : Nat) : Prop :=
  ∀ {V1 V2 : Vars} {e nx b : SStmt} {s2 s3 s4 s5 : GState} {c2 c3 c4 : List Immc} {L1 L2 L3 : Int} {p : Nat} {R : Int → Val} {st : St W} {r : Res × Mem × W},
    ForAt I E P V1 V2 e nx b s2 s3 s4 s5 c2 c3 c4 L1 L2 L3 p → execLoop I n V1 V2 e nx b (st.mem, st.w) = some r →
    Ends E P ⟨p, R, st⟩ s3 (p + 1 + c2.length + c3.length + 1 + c4.length + 1 + 1) st (n - (size nx + size b + 1)) r.2 r.1

def NextSim (I : Impl W) (E : Env W) (P : List Immc) (n : Nat) : Prop :=
  ∀ {V1 V2 : Vars} {e nx b : SStmt} {s2 s3 s4 s5 : GState} {c2 c3 c4 : List Immc} {L1 L2 L3 : Int} {p : Nat} {R : Int → Val} {st : St W} {r : Res × Mem × W},
    ForAt I E P V1 V2 e nx b s2 s3 s4 s5 c2 c3 c4 L1 L2 L3 p → execNext I n V1 V2 e nx b (st.mem, st.w) = some r →
    Ends E P ⟨p + 1 + c2.length + c3.length, R, st⟩ s3 (p + 1 + c2.length + c3.length + 1 + c4.length + 1 + 1) st (n - (size nx + size b + 1)) r.2 r.1

/-- where the parts of a `for` are -/
structure ForPos (P : List Immc) (c2 c3 c4 : List Immc) (L1 L2 L3 : Int) (p : Nat) : Prop where
  l1 : LabelAt P p L1
  cond : At P (p + 1) c2
  body : At P (p + 1 + c2.length) c3
  l2 : LabelAt P (p + 1 + c2.length + c3.length) L2
  next : At P (p + 1 + c2.length + c3.length + 1) c4
  jmp : P[p + 1 + c2.length + c3.length + 1 + c4.length]? = some (jump L1)
  l3 : LabelAt P (p + 1 + c2.length + c3.length + 1 + c4.length + 1) L3

theorem ForAt.pos {V1 V2 : Vars} {e nx b : SStmt} {s2 s3 s4 s5 : GState} {c2 c3 c4 : List Immc} {L1 L2 L3 : Int} {p : Nat}
    (h : ForAt I E P V1 V2 e nx b s2 s3 s4 s5 c2 c3 c4 L1 L2 L3 p) : ForPos P c2 c3 c4 L1 L2 L3 p := by
  obtain ⟨a1, h⟩ := h.code
  obtain ⟨a2, h⟩ := at_append.1 h
  obtain ⟨a3, h⟩ := at_append.1 h
  obtain ⟨a4, h⟩ := h
  obtain ⟨a5, a6, a7, -⟩ := at_append.1 h
  exact ⟨.mk a1, a2, a3, .mk a4, a5, a6, .mk a7⟩

theorem simple_okay {b : SStmt} (h : simple b = true) : sound b = true := by cases b <;> simp_all [simple, sound]

theorem test_some {C : Ctx W} {c : SExpr} {σ : Mem × W} {x : Bool × Mem × W} (h : test C c σ = some x) :
    ∃ y, eval C c σ = some y ∧ (rep c.dt).isSome = true ∧ x = (decide (y.1 ≠ 0), y.2) := by
  simp only [test, Option.bind_eq_bind, Option.bind_eq_some_iff] at h
  obtain ⟨_, h1, y, h2, h3⟩ := h
  cases h3
  exact ⟨y, h2, CSem.need_some.1 h1, rfl⟩

/-- the branch on a controlling expression to a label if it is false -/
theorem test_sim (hu : UniqueLabels P) {C : Ctx W} {c : SExpr} {s s' : GState} {j : Name → Immc} {c1 : List Immc} (h : (expr c).jmp false s = .ok (j, c1, s'))
    (hr : Rel C E s) (hs : safe none c = true) {p k : Nat} {n : Name} {lt : LblType} {vis : Vis} (hp : At P p c1) (hj : P[p + c1.length]? = some (j n))
    (hk : P[k]? = some (.label lt vis n)) {st : St W} {x : Bool × Mem × W} (ht : test C c (st.mem, st.w) = some x) (R : Int → Val) :
    ∃ R', Steps E P ⟨p, R, st⟩ ⟨if x.1 then p + c1.length + 1 else k, R', res st x.2⟩ := by
  obtain ⟨y, h1, h2, rfl⟩ := test_some ht
  obtain ⟨R', k1, -⟩ := (exprSim hu c).jmp h hr hs (R := R) hp hj hk h1 h2
  refine ⟨R', ?_⟩
  by_cases e : y.1 = 0
  · simpa [e] using k1
  · simpa [e] using k1

theorem items_sim (hf : Fits I E) {n : Nat} (hi : ItemSim I E P n) (hs : ItemsSim I E P n) : ItemsSim I E P (n + 1) := by
  intro b V m s s' c p k R st r h hso ha hlab hp he ho hx
  cases b with
  | nil =>
    simp only [items] at h
    cases h
    cases m with
    | run =>
      simp only [execs] at hx
      cases hx
      cases he
      exact ⟨R, .refl _⟩
    | seek T => simp [execs] at hx
  | cons i is =>
    obtain ⟨c1, s1, c2, h1, h2, rfl⟩ := items_cons h
    simp only [soundAll, Bool.and_eq_true] at hso
    obtain ⟨p1, p2⟩ := at_append.1 hp
    have g := item_good i h1
    have hlab1 : -1 ≤ s1.lab := by have := g.lab; omega
    have rest : ∀ {V1 : Vars} {m' : Mode} {k' : Nat} {R' : Int → Val} {st' : St W} {r : Res × Mem × W}, scopeItem I i V = some V1 → Entry P s1 s' (p + c1.length) m' k' →
        Okay (fun T => hitsAny T is) (fun q => casesInAll q is) (dfltsAll is) m' → execs I n V1 m' is (st'.mem, st'.w) = some r →
        Ends E P ⟨k', R', st'⟩ s (p + (c1 ++ c2).length) st' (n - sizes is) r.2 r.1 := by
      intro V1 m' k' R' st' r hv he ho hx
      exact ((hs is h2 hso.2 (item_agree hf i h1 hso.1 hv ha) hlab1 p2 he ho hx).of g.brk g.cont g.ret).to (by len)
    cases m with
    | run =>
      simp only [execs, Option.bind_eq_bind, Option.bind_eq_some_iff] at hx
      obtain ⟨V1, hv, y, hy, hx⟩ := hx
      have a := hi i (m := .run) h1 hso.1 ha hlab p1 (show k = p from he) trivial (R := R) hy
      exact (a.mono (by simp only [sizes]; omega)).seq hx fun R' hx => (rest (m' := .run) (st' := res st y.2) hv rfl trivial hx).mono (by simp only [sizes]; omega)
    | seek T =>
      simp only [execs, Option.bind_eq_bind, Option.bind_eq_some_iff] at hx
      obtain ⟨V1, hv, hx⟩ := hx
      have k1 := item_cases i h1 hso.1
      have k2 := items_cases is h2 hso.2
      simp only [hitsAny, casesInAll, dfltsAll] at ho
      split at hx
      · rename_i ht
        simp only [Option.bind_eq_some_iff] at hx
        obtain ⟨y, hy, hx⟩ := hx
        obtain ⟨e1, o1⟩ := Entry.left (p' := p) k1 k2 (dfltsItem_zero i) (dfltsAll_zero is) ho he ht
        have a := hi i h1 hso.1 ha hlab p1 e1 o1 (R := R) hy
        exact (a.mono (by simp only [sizes]; omega)).seq hx fun R' hx => (rest (m' := .run) (st' := res st y.2) hv rfl trivial hx).mono (by simp only [sizes]; omega)
      · rename_i ht
        simp only [Bool.not_eq_true] at ht
        obtain ⟨e1, o1⟩ := Entry.right (p' := p + c1.length) k1 k2 ho he ht
        exact (rest (m' := .seek T) hv e1 o1 hx).mono (by simp only [sizes]; omega)

theorem item_sim (hu : UniqueLabels P) (hf : Fits I E) (hl : I.base.lim = true) {n : Nat} (hs : StmtSim I E P n) : ItemSim I E P (n + 1) := by
  intro b V m s s' c p k R st r h hso ha hlab hp he ho hx
  cases b with
  | stmt b =>
    simp only [item] at h
    simp only [soundItem] at hso
    simp only [hitsItem, casesInItem, dfltsItem] at ho
    simp only [execItem] at hx
    exact (hs b h hso ha hlab hp he ho hx).mono (by simp only [sizeItem]; omega)
  | decls ds =>
    simp only [item] at h
    simp only [soundItem] at hso
    cases m with
    | seek T => simp [execItem] at hx
    | run =>
      simp only [execItem, Option.bind_eq_bind, Option.bind_eq_some_iff] at hx
      obtain ⟨σ, hd, hx⟩ := hx
      cases hx
      cases he
      exact decls_sim hu hf hl h ha hso hp hd
  | tag n t =>
    simp only [item] at h
    cases m with
    | seek T => simp [execItem] at hx
    | run =>
      simp only [execItem] at hx
      cases hx
      cases he
      obtain ⟨rfl, -⟩ := tagDecl_keep h
      exact ⟨R, .refl _⟩

/-- the body of a `for`, then what follows -/
theorem forBody_sim {n : Nat} (hs : StmtSim I E P n) (hn : NextSim I E P n) {V1 V2 : Vars} {e nx b : SStmt} {s2 s3 s4 s5 : GState} {c2 c3 c4 : List Immc} {L1 L2 L3 : Int}
    {p k : Nat} {m : Mode} (h : ForAt I E P V1 V2 e nx b s2 s3 s4 s5 c2 c3 c4 L1 L2 L3 p)
    (he : Entry P s3 s4 (p + 1 + c2.length) m k) (ho : Okay (fun T => hits T b) (fun q => casesIn q b) (dflts b) m) {R : Int → Val} {st : St W}
    {y r : Res × Mem × W} (hy : exec I n V1 m b (st.mem, st.w) = some y) (hr : y.1.afterBody y.2 (execNext I n V1 V2 e nx b) = some r) :
    Ends E P ⟨k, R, st⟩ s3 (p + 1 + c2.length + c3.length + 1 + c4.length + 1 + 1) st (n - (size nx + size b + 1)) r.2 r.1 := by
  have hp := h.pos
  have f := forCond_frame h.cond
  have hlab : -1 ≤ s3.lab := by have := f.lab; have := h.lab; omega
  have he' : Entry P { s3 with cont := L2, brk := L3 } s4 (p + 1 + c2.length) m k := by
    cases m with
    | run => exact he
    | seek T => exact he.of rfl rfl rfl
  have a := hs b h.body h.sb ((h.agree.frame f).of rfl rfl rfl) hlab hp.body he' ho (R := R) hy
  exact (a.mono (by omega)).body hr rfl hp.l2 hp.l3 (fun R => .refl _) fun R' hx => hn (st := res st y.2) h hx

theorem next_sim (hu : UniqueLabels P) (hf : Fits I E) {n : Nat} (hs : StmtSim I E P n) (hlp : LoopSim I E P n) : NextSim I E P (n + 1) := by
  intro V1 V2 e nx b s2 s3 s4 s5 c2 c3 c4 L1 L2 L3 p R st r h hx
  have hp := h.pos
  simp only [execNext, Option.bind_eq_bind, Option.bind_eq_some_iff] at hx
  obtain ⟨y, hy, hx⟩ := hx
  have f := forCond_frame h.cond
  have g := stmt_good b h.body
  have hlab : -1 ≤ s4.lab := by have := f.lab; have := h.lab; have := g.lab; simp only at this; omega
  have ag := stmt_agree hf b h.body h.sb h.sc ((h.agree.frame f).of rfl rfl rfl)
  have a := hs nx (m := .run) (k := p + 1 + c2.length + c3.length + 1) h.next (simple_okay h.sn) (ag.of rfl rfl rfl) hlab hp.next rfl trivial (R := R) hy
  have a := (a.mono (d' := n - (size nx + size b + 1)) (by omega)).of (s := s3) rfl rfl g.ret
  have a := a.seq hx fun R' hx => Ends.pre' (jump_steps hu hp.jmp hp.l1) (hlp (st := res st y.2) h hx)
  exact Ends.move' hp.l2.moves a (by omega)

theorem loop_sim (hu : UniqueLabels P) (hf : Fits I E) (hl : I.base.lim = true) {n : Nat} (hs : StmtSim I E P n) (hn : NextSim I E P n) : LoopSim I E P (n + 1) := by
  intro V1 V2 e nx b s2 s3 s4 s5 c2 c3 c4 L1 L2 L3 p R st r h hx
  have hp := h.pos
  simp only [execLoop, Option.bind_eq_bind, Option.bind_eq_some_iff] at hx
  obtain ⟨x, ht, hx⟩ := hx
  obtain ⟨lt, vis, hl3⟩ := hp.l3
  have ht' : ∃ R', Steps E P ⟨p + 1, R, st⟩ ⟨if x.1 then p + 1 + c2.length else p + 1 + c2.length + c3.length + 1 + c4.length + 1, R', res st x.2⟩ := by
    rcases forCond_ok h.cond with ⟨e, j, c1, rfl, h1, rfl⟩ | ⟨hne, rfl, rfl⟩
    · simp only [testFor] at ht
      obtain ⟨a1, a2, -⟩ := at_append.1 hp.cond
      obtain ⟨R', k⟩ := test_sim hu h1 (h.agree.rel hf hl) h.se a1 a2 hl3 ht R
      refine ⟨R', k.to ?_⟩
      split <;> len
    · have : x = (true, (st.mem, st.w)) := by
        cases e with
        | expr e => exact absurd rfl (hne e)
        | null => simpa [testFor] using ht.symm
        | _ => simp [testFor] at ht
      subst this
      exact ⟨R, .refl _⟩
  obtain ⟨R', ht'⟩ := ht'
  have pre := hp.l1.moves (E := E) (R := R) (st := st)
  split at hx
  · rename_i hc
    rw [if_pos hc] at ht'
    simp only [Option.bind_eq_some_iff] at hx
    obtain ⟨y, hy, hx⟩ := hx
    exact Ends.move (pre.trans ht') (forBody_sim (m := .run) hs hn (st := res st x.2) h rfl trivial hy hx) (by omega)
  · rename_i hc
    rw [if_neg hc] at ht'
    cases hx
    exact ⟨R', (pre.trans ht').steps.trans hp.l3.steps⟩

theorem endLabel_some {c : List Immc} {n : Name} (h : endLabel c = some n) : ∃ c0 lt vis, c = c0 ++ [.label lt vis n] := by
  unfold endLabel at h
  split at h
  · cases h
  · split at h
    · rename_i lt vis m hl
      cases h
      obtain ⟨c0, rfl⟩ := List.getLast?_eq_some_iff.1 hl
      exact ⟨c0, _, _, rfl⟩
    · cases h

theorem ite_sim (hu : UniqueLabels P) (hf : Fits I E) (hl : I.base.lim = true) {n : Nat} (hs : StmtSim I E P n) {e : SExpr} {t : SStmt} {V : Vars} {m : Mode} {s s' : GState} {c : List Immc} {p k : Nat} {R : Int → Val} {st : St W}
    {r : Res × Mem × W} (h : stmt (.ite e t) s = .ok ((), c, s')) (hso : sound (.ite e t) = true) (ha : Agree E V s) (hlab : -1 ≤ s.lab) (hp : At P p c) (he : Entry P s s' p m k)
    (ho : Okay (fun T => hits T (.ite e t)) (fun q => casesIn q (.ite e t)) (dflts (.ite e t)) m) (hx : exec I (n + 1) V m (.ite e t) (st.mem, st.w) = some r) :
    Ends E P ⟨k, R, st⟩ s (p + c.length) st (n + 1 - size (.ite e t)) r.2 r.1 := by
  simp only [stmt] at h
  obtain ⟨j, c1, s1, c2, h1, h2, h3⟩ := iteCode_ok h
  simp only [sound, Bool.and_eq_true] at hso
  have f := ((expr_inv e).jmp h1).1.1
  have f4 := f.lab
  simp only at f4
  have facts : ∃ nE kE lt vis, At P p c1 ∧ P[p + c1.length]? = some (j nE) ∧ At P (p + c1.length + 1) c2 ∧ P[kE]? = some (.label lt vis nE) ∧ kE + 1 = p + c.length ∧
      (p + c1.length + 1 + c2.length = p + c.length ∨ p + c1.length + 1 + c2.length = kE) := by
    rcases h3 with ⟨nE, hE, rfl⟩ | ⟨-, rfl⟩
    · obtain ⟨a1, a2, a3⟩ := at_append.1 hp
      obtain ⟨c0, lt, vis, rfl⟩ := endLabel_some hE
      obtain ⟨-, a4, -⟩ := at_append.1 a3
      exact ⟨nE, _, lt, vis, a1, a2, a3, a4, by len, .inl (by len)⟩
    · obtain ⟨a1, a2, a3⟩ := at_append.1 hp
      obtain ⟨a3, a4, -⟩ := at_append.1 a3
      exact ⟨_, _, _, _, a1, a2, a3, a4, by len, .inr rfl⟩
  obtain ⟨nE, kE, lt, vis, a1, a2, a3, a4, a5, a6⟩ := facts
  have body : ∀ {m' : Mode} {k' : Nat} {R' : Int → Val} {st' : St W} {r : Res × Mem × W}, Entry P s1 s' (p + c1.length + 1) m' k' →
      Okay (fun T => hits T t) (fun q => casesIn q t) (dflts t) m' → exec I n V m' t (st'.mem, st'.w) = some r →
      Ends E P ⟨k', R', st'⟩ s (p + c.length) st' (n + 1 - size (.ite e t)) r.2 r.1 := by
    intro m' k' R' st' r he ho hx
    have a := ((hs t h2 hso.2 (ha.of f.syms f.tags f.mem) (by omega) a3 he ho (R := R') hx).of (s := s) f.brk f.cont f.ret).mono (d' := n + 1 - size (.ite e t)) (by simp only [size]; omega)
    rcases a6 with e | e
    · exact a.to e
    · rw [e] at a
      exact (a.post fun R => step_label a4).to a5
  cases m with
  | run =>
    cases he
    simp only [exec, Option.bind_eq_bind, Option.bind_eq_some_iff] at hx
    obtain ⟨x, ht, hx⟩ := hx
    obtain ⟨R', g⟩ := test_sim hu h1 ((ha.rel hf hl).of rfl rfl) hso.1 a1 a2 a4 ht R
    split at hx
    · rename_i hc
      rw [if_pos hc] at g
      exact Ends.pre g (body (m' := .run) (st' := res st x.2) rfl trivial hx)
    · rename_i hc
      rw [if_neg hc] at g
      cases hx
      exact ⟨R', (g.trans (step_label a4)).to a5⟩
  | seek T =>
    simp only [exec] at hx
    simp only [hits, casesIn, dflts] at ho
    exact body (m' := .seek T) (he.of f.cases rfl rfl) ho hx

theorem itee_sim (hu : UniqueLabels P) (hf : Fits I E) (hl : I.base.lim = true) {n : Nat} (hs : StmtSim I E P n) {e : SExpr} {t u : SStmt} {V : Vars} {m : Mode} {s s' : GState} {c : List Immc} {p k : Nat} {R : Int → Val} {st : St W}
    {r : Res × Mem × W} (h : stmt (.itee e t u) s = .ok ((), c, s')) (hso : sound (.itee e t u) = true) (ha : Agree E V s) (hlab : -1 ≤ s.lab) (hp : At P p c) (he : Entry P s s' p m k)
    (ho : Okay (fun T => hits T (.itee e t u)) (fun q => casesIn q (.itee e t u)) (dflts (.itee e t u)) m) (hx : exec I (n + 1) V m (.itee e t u) (st.mem, st.w) = some r) :
    Ends E P ⟨k, R, st⟩ s (p + c.length) st (n + 1 - size (.itee e t u)) r.2 r.1 := by
  simp only [stmt] at h
  obtain ⟨j, c1, s1, c2, s2, c3, h1, h2, h3, h4⟩ := iteeCode_ok h
  simp only [sound, Bool.and_eq_true] at hso
  have f := ((expr_inv e).jmp h1).1.1
  have g := stmt_good t h2
  have f4 := f.lab
  have g4 := g.lab
  simp only at f4
  have facts : ∃ nE kE lt vis, At P p c1 ∧ P[p + c1.length]? = some (j (labelName (s.lab + 1))) ∧ At P (p + c1.length + 1) c2 ∧
      P[p + c1.length + 1 + c2.length]? = some (inst .jmp (some (.label nE)) none none) ∧ P[p + c1.length + 1 + c2.length + 1]? = some (labelAt (s.lab + 1)) ∧
      At P (p + c1.length + 1 + c2.length + 2) c3 ∧ P[kE]? = some (.label lt vis nE) ∧ kE + 1 = p + c.length ∧
      (p + c1.length + 1 + c2.length + 2 + c3.length = p + c.length ∨ p + c1.length + 1 + c2.length + 2 + c3.length = kE) := by
    rcases h4 with ⟨nE, hE, rfl⟩ | ⟨-, rfl⟩
    · obtain ⟨a1, a2, a3⟩ := at_append.1 hp
      obtain ⟨a3, a4, a5⟩ := at_append.1 a3
      have a5' := a5
      obtain ⟨c0, lt, vis, hc0⟩ := endLabel_some hE
      have hlen : (labelAt (s.lab + 1) :: c3).length = c0.length + 1 := by rw [hc0]; simp
      rw [hc0] at a5'
      obtain ⟨-, a6, -⟩ := at_append.1 a5'
      simp only [List.length_cons] at hlen
      exact ⟨nE, _, lt, vis, a1, a2, a3, a4, a5.1, a5.2, a6, by len, .inl (by len)⟩
    · obtain ⟨a1, a2, a3⟩ := at_append.1 hp
      obtain ⟨a3, a4, a5, a6⟩ := at_append.1 a3
      obtain ⟨a6, a7, -⟩ := at_append.1 a6
      exact ⟨_, _, _, _, a1, a2, a3, a4, a5, a6, a7, by len, .inr rfl⟩
  obtain ⟨nE, kE, lt, vis, a1, a2, a3, a4, a5, a6, a7, a8, a9⟩ := facts
  have left : ∀ {m' : Mode} {k' : Nat} {R' : Int → Val} {st' : St W} {r : Res × Mem × W}, Entry P s1 s2 (p + c1.length + 1) m' k' →
      Okay (fun T => hits T t) (fun q => casesIn q t) (dflts t) m' → exec I n V m' t (st'.mem, st'.w) = some r →
      Ends E P ⟨k', R', st'⟩ s (p + c.length) st' (n + 1 - size (.itee e t u)) r.2 r.1 := by
    intro m' k' R' st' r he ho hx
    have a := ((hs t h2 hso.1.2 (ha.of f.syms f.tags f.mem) (by omega) a3 he ho (R := R') hx).of (s := s) f.brk f.cont f.ret).mono (d' := n + 1 - size (.itee e t u)) (by simp only [size]; omega)
    exact (a.post fun R => (step_jmp hu a4 a7).trans (step_label a7)).to a8
  have right : ∀ {V1 : Vars} {m' : Mode} {k' : Nat} {R' : Int → Val} {st' : St W} {r : Res × Mem × W}, scope I t V = some V1 →
      Entry P s2 s' (p + c1.length + 1 + c2.length + 2) m' k' →
      Okay (fun T => hits T u) (fun q => casesIn q u) (dflts u) m' → exec I n V1 m' u (st'.mem, st'.w) = some r →
      Ends E P ⟨k', R', st'⟩ s (p + c.length) st' (n + 1 - size (.itee e t u)) r.2 r.1 := by
    intro V1 m' k' R' st' r hv he ho hx
    have ag := stmt_agree hf t h2 hso.1.2 hv (ha.of f.syms f.tags f.mem)
    have a := ((hs u h3 hso.2 ag (by omega) a6 he ho (R := R') hx).of (s := s) (g.brk.trans f.brk) (g.cont.trans f.cont) (g.ret.trans f.ret)).mono (d' := n + 1 - size (.itee e t u)) (by simp only [size]; omega)
    rcases a9 with e | e
    · exact a.to e
    · rw [e] at a
      exact (a.post fun R => step_label a7).to a8
  cases m with
  | run =>
    cases he
    simp only [exec, Option.bind_eq_bind, Option.bind_eq_some_iff] at hx
    obtain ⟨V1, hv, x, ht, hx⟩ := hx
    obtain ⟨R', gs⟩ := test_sim hu h1 ((ha.rel hf hl).of rfl rfl) hso.1.1 a1 a2 a5 ht R
    split at hx
    · rename_i hc
      rw [if_pos hc] at gs
      exact Ends.pre gs (left (m' := .run) (st' := res st x.2) rfl trivial hx)
    · rename_i hc
      rw [if_neg hc] at gs
      exact Ends.pre (gs.trans (step_label a5)) (right (m' := .run) (st' := res st x.2) hv rfl trivial hx)
  | seek T =>
    simp only [exec, Option.bind_eq_bind, Option.bind_eq_some_iff] at hx
    obtain ⟨V1, hv, hx⟩ := hx
    simp only [hits, casesIn, dflts] at ho
    have k1 := (stmt_cases t h2 hso.1.2).from (s := s) f.cases f.dflt (by omega)
    have k2 := stmt_cases u h3 hso.2
    split at hx
    · rename_i hT
      obtain ⟨e1, o1⟩ := Entry.left (p' := p) k1 k2 (dflts_zero t) (dflts_zero u) ho he hT
      exact left (m' := .seek T) (e1.of f.cases rfl rfl) o1 hx
    · rename_i hT
      simp only [Bool.not_eq_true] at hT
      obtain ⟨e1, o1⟩ := Entry.right (p' := p + c1.length + 1 + c2.length + 2) k1 k2 ho he hT
      exact right (m' := .seek T) hv e1 o1 hx

/-- the loop from its beginning on -/
def WhileSim (I : Impl W) (E : Env W) (P : List Immc) (n : Nat) : Prop :=
  ∀ {e : SExpr} {b : SStmt} {V : Vars} {s s' : GState} {c : List Immc} {p : Nat} {R : Int → Val} {st : St W} {r : Res × Mem × W},
    stmt (.while e b) s = .ok ((), c, s') → sound (.while e b) = true → Agree E V s → -1 ≤ s.lab → At P p c → exec I n V .run (.while e b) (st.mem, st.w) = some r →
    Ends E P ⟨p, R, st⟩ s (p + c.length) st (n - (size b + 1)) r.2 r.1

/-- the body of a `while`, then the loop again -/
theorem whileBody_sim (hu : UniqueLabels P) {n : Nat} (hs : StmtSim I E P n) (hw : WhileSim I E P n) {e : SExpr} {b : SStmt} {V : Vars} {s s1 s2 s' : GState} {j : Name → Immc}
    {c c1 c2 : List Immc} {p : Nat} (h : stmt (.while e b) s = .ok ((), c, s')) (hso : sound (.while e b) = true) (ha : Agree E V s) (hlab : -1 ≤ s.lab) (hp : At P p c)
    (h1 : (expr e).jmp false { s with lab := s.lab + 1 + 1 } = .ok (j, c1, s1)) (h2 : stmt b { s1 with cont := s.lab + 1, brk := s.lab + 1 + 1 } = .ok ((), c2, s2))
    (hc : c = labelAt (s.lab + 1) :: (c1 ++ (j (labelName (s.lab + 1 + 1)) :: (c2 ++ [jump (s.lab + 1), labelAt (s.lab + 1 + 1)]))))
    {m : Mode} {k : Nat} {R : Int → Val} {st : St W} {y r : Res × Mem × W} (he : Entry P s1 s2 (p + 1 + c1.length + 1) m k)
    (ho : Okay (fun T => hits T b) (fun q => casesIn q b) (dflts b) m) (hy : exec I n V m b (st.mem, st.w) = some y)
    (hr : y.1.afterBody y.2 (exec I n V .run (.while e b)) = some r) :
    Ends E P ⟨k, R, st⟩ s (p + 1 + c1.length + 1 + c2.length + 1 + 1) st (n - (size b + 1)) r.2 r.1 := by
  have again : ∀ {R' : Int → Val} {st' : St W} {r : Res × Mem × W}, exec I n V .run (.while e b) (st'.mem, st'.w) = some r →
      Ends E P ⟨p, R', st'⟩ s (p + c.length) st' (n - (size b + 1)) r.2 r.1 := fun hx => hw h hso ha hlab hp hx
  subst hc
  simp only [sound, Bool.and_eq_true] at hso
  have f := ((expr_inv e).jmp h1).1.1
  have f4 := f.lab
  simp only at f4
  obtain ⟨a0, a1⟩ := hp
  obtain ⟨a1, a2, a3⟩ := at_append.1 a1
  obtain ⟨a3, a4, a5, -⟩ := at_append.1 a3
  have he' : Entry P { s1 with cont := s.lab + 1, brk := s.lab + 1 + 1 } s2 (p + 1 + c1.length + 1) m k := by
    cases m with
    | run => exact he
    | seek T => exact he.of rfl rfl rfl
  have a := hs b h2 hso.2 (ha.of f.syms f.tags f.mem) (by simp only; omega) a3 he' ho (R := R) hy
  refine (a.mono (d' := n - (size b + 1)) (by omega)).body hr f.ret (.mk a0) (.mk a5) (fun R => jump_steps hu a4 (.mk a0)) fun R'' hx => (again (st' := res st y.2) hx).to ?_
  len

theorem whileRun_sim (hu : UniqueLabels P) (hf : Fits I E) (hl : I.base.lim = true) {n : Nat} (hs : StmtSim I E P n) (hw : WhileSim I E P n) : WhileSim I E P (n + 1) := by
  intro e b V s s' c p R st r h hso ha hlab hp hx
  have h' := h
  simp only [stmt] at h
  obtain ⟨j, c1, s1, c2, s2, h1, h2, hc, -⟩ := whileCode_ok h
  have body := @whileBody_sim W I E P hu n hs hw e b V s s1 s2 s' j c c1 c2 p h' hso ha hlab hp h1 h2 hc
  subst hc
  simp only [sound, Bool.and_eq_true] at hso
  obtain ⟨a0, a1⟩ := hp
  obtain ⟨a1, a2, a3⟩ := at_append.1 a1
  obtain ⟨a3, a4, a5, -⟩ := at_append.1 a3
  refine Ends.to (q := p + 1 + c1.length + 1 + c2.length + 1 + 1) ?_ (by len)
  simp only [exec, Option.bind_eq_bind, Option.bind_eq_some_iff] at hx
  obtain ⟨x, ht, hx⟩ := hx
  obtain ⟨R', g⟩ := test_sim hu h1 ((ha.rel hf hl).of rfl rfl) hso.1 a1 a2 a5 ht R
  have pre := LabelAt.moves (E := E) (R := R) (st := st) (.mk a0)
  split at hx
  · rename_i hc
    rw [if_pos hc] at g
    simp only [Option.bind_eq_some_iff] at hx
    obtain ⟨y, hy, hx⟩ := hx
    exact Ends.move (pre.trans g) (body (m := .run) (st := res st x.2) rfl trivial hy hx) (by omega)
  · rename_i hc
    rw [if_neg hc] at g
    cases hx
    exact ⟨R', (pre.trans g).steps.trans (step_label a5)⟩

theorem while_sim (hu : UniqueLabels P) (hf : Fits I E) (hl : I.base.lim = true) {n : Nat} (hs : StmtSim I E P n) (hw : WhileSim I E P n) {e : SExpr} {b : SStmt} {V : Vars} {m : Mode} {s s' : GState} {c : List Immc} {p k : Nat} {R : Int → Val} {st : St W}
    {r : Res × Mem × W} (h : stmt (.while e b) s = .ok ((), c, s')) (hso : sound (.while e b) = true) (ha : Agree E V s) (hlab : -1 ≤ s.lab) (hp : At P p c) (he : Entry P s s' p m k)
    (ho : Okay (fun T => hits T (.while e b)) (fun q => casesIn q (.while e b)) (dflts (.while e b)) m) (hx : exec I (n + 1) V m (.while e b) (st.mem, st.w) = some r) :
    Ends E P ⟨k, R, st⟩ s (p + c.length) st (n + 1 - size (.while e b)) r.2 r.1 := by
  cases m with
  | run =>
    cases he
    exact (whileRun_sim hu hf hl hs hw h hso ha hlab hp hx).mono (by simp only [size]; omega)
  | seek T =>
    have h' := h
    simp only [stmt] at h
    obtain ⟨j, c1, s1, c2, s2, h1, h2, hc, rfl⟩ := whileCode_ok h
    have body := @whileBody_sim W I E P hu n hs hw e b V s s1 s2 _ j c c1 c2 p h' hso ha hlab hp h1 h2 hc
    subst hc
    have f := ((expr_inv e).jmp h1).1.1
    simp only [exec, Option.bind_eq_bind, Option.bind_eq_some_iff] at hx
    obtain ⟨y, hy, hx⟩ := hx
    simp only [hits, casesIn, dflts] at ho
    exact ((body (m := .seek T) (he.of f.cases rfl rfl) ho hy hx).mono (by simp only [size]; omega)).to (by len)

theorem for_sim {n : Nat} (hf : Fits I E) (hs : StmtSim I E P n) (hi : ItemSim I E P n) (hlp : LoopSim I E P n) (hn : NextSim I E P n) {i : SItem} {e nx b : SStmt} {V : Vars} {m : Mode} {s s' : GState}
    {c : List Immc} {p k : Nat} {R : Int → Val} {st : St W} {r : Res × Mem × W} (h : stmt (.for i e nx b) s = .ok ((), c, s')) (hso : sound (.for i e nx b) = true) (ha : Agree E V s)
    (hlab : -1 ≤ s.lab) (hp : At P p c) (he : Entry P s s' p m k)
    (ho : Okay (fun T => hits T (.for i e nx b)) (fun q => casesIn q (.for i e nx b)) (dflts (.for i e nx b)) m)
    (hx : exec I (n + 1) V m (.for i e nx b) (st.mem, st.w) = some r) : Ends E P ⟨k, R, st⟩ s (p + c.length) st (n + 1 - size (.for i e nx b)) r.2 r.1 := by
  obtain ⟨s1, hc, rfl⟩ := stmt_for h
  obtain ⟨c1, s2, c2, s3, c3, s4, c4, h1, h2, h3, h4, rfl⟩ := forCode_ok hc
  simp only [sound, Bool.and_eq_true] at hso
  obtain ⟨⟨⟨⟨i1, i2⟩, i3⟩, i4⟩, i5⟩ := hso
  simp only [exec, Option.bind_eq_bind, Option.bind_eq_some_iff] at hx
  obtain ⟨V1, v1, V2, v2, hx⟩ := hx
  obtain ⟨p1, p2⟩ := at_append.1 hp
  have g := item_good i h1
  have f := forCond_frame h2
  have g4 := g.lab
  simp only at g4
  have ag := item_agree hf i h1 i1 v1 (ha.enter.of rfl rfl rfl)
  have fa : ForAt I E P V1 V2 e nx b s2 s3 s4 s1 c2 c3 c4 (s.lab + 1) (s.lab + 1 + 1) (s.lab + 1 + 1 + 1) (p + c1.length) :=
    ⟨h2, h3, h4, ag, v2, i3, i4, i5, by omega, p2⟩
  refine Ends.to (q := p + c1.length + 1 + c2.length + c3.length + 1 + c4.length + 1 + 1) ?_ (by len)
  have eb : s3.brk = s.brk := f.brk.trans g.brk
  have ec : s3.cont = s.cont := f.cont.trans g.cont
  have er : s3.ret = s.ret := f.ret.trans g.ret
  cases m with
  | run =>
    simp only [Option.bind_eq_some_iff] at hx
    obtain ⟨y, hy, hx⟩ := hx
    cases he
    have a := hi i (m := .run) (k := p) h1 i1 (ha.enter.of rfl rfl rfl) (by simp only; omega) p1 rfl trivial (R := R) hy
    have a := (a.of (s := s) rfl rfl rfl).mono (d' := n + 1 - size (.for i e nx b)) (by simp only [size]; omega)
    exact a.seq hx fun R' hx => ((hlp (st := res st y.2) fa hx).of eb ec er).mono (by simp only [size]; omega)
  | seek T =>
    simp only [Option.bind_eq_some_iff] at hx
    obtain ⟨y, hy, hx⟩ := hx
    simp only [hits, casesIn, dflts] at ho
    obtain ⟨a1, a2, -⟩ := plainItem_cases h1 i2
    obtain ⟨d1, d2, -⟩ := simple_cases h4 i4
    simp only at a1 a2 d1 d2
    exact ((forBody_sim (m := .seek T) hs hn fa (he.of (by rw [f.cases, a1]) d1.symm d2.symm) ho hy hx).of eb ec er).mono (by simp only [size]; omega)

theorem cmpd_sim {n : Nat} (hs : ItemsSim I E P n) {is : SItems} {V : Vars} {m : Mode} {s s' : GState} {c : List Immc} {p k : Nat} {R : Int → Val} {st : St W}
    {r : Res × Mem × W} (h : stmt (.cmpd is) s = .ok ((), c, s')) (hso : sound (.cmpd is) = true) (ha : Agree E V s) (hlab : -1 ≤ s.lab) (hp : At P p c) (he : Entry P s s' p m k)
    (ho : Okay (fun T => hits T (.cmpd is)) (fun q => casesIn q (.cmpd is)) (dflts (.cmpd is)) m) (hx : exec I (n + 1) V m (.cmpd is) (st.mem, st.w) = some r) :
    Ends E P ⟨k, R, st⟩ s (p + c.length) st (n + 1 - size (.cmpd is)) r.2 r.1 := by
  obtain ⟨s1, h1, rfl⟩ := stmt_cmpd h
  simp only [sound] at hso
  simp only [exec] at hx
  simp only [hits, casesIn, dflts] at ho
  have he' : Entry P { s with syms := [] :: s.syms, tags := [] :: s.tags } s1 p m k := by
    cases m with
    | run => exact he
    | seek T => exact he.of rfl rfl rfl
  exact ((hs is h1 hso ha.enter hlab hp he' ho hx).of rfl rfl rfl).mono (by simp only [size]; omega)

theorem case_sim (hu : UniqueLabels P) {n : Nat} (hs : StmtSim I E P n) {v : SExpr} {b : SStmt} {V : Vars} {m : Mode} {s s' : GState} {c : List Immc} {p k : Nat} {R : Int → Val} {st : St W}
    {r : Res × Mem × W} (h : stmt (.case v b) s = .ok ((), c, s')) (hso : sound (.case v b) = true) (ha : Agree E V s) (hlab : -1 ≤ s.lab) (hp : At P p c) (he : Entry P s s' p m k)
    (ho : Okay (fun T => hits T (.case v b)) (fun q => casesIn q (.case v b)) (dflts (.case v b)) m) (hx : exec I (n + 1) V m (.case v b) (st.mem, st.w) = some r) :
    Ends E P ⟨k, R, st⟩ s (p + c.length) st (n + 1 - size (.case v b)) r.2 r.1 := by
  obtain ⟨cs, t, l, c1, hc, rfl, h1, rfl⟩ := stmt_case h
  simp only [sound] at hso
  obtain ⟨p1, p2⟩ := hp
  have L : LabelAt P p (s.lab + 1) := .mk p1
  have body : ∀ {m' : Mode} {k' : Nat}, Entry P { s with lab := s.lab + 1, cases := some (cs ++ [(s.lab + 1, l)]) } s' (p + 1) m' k' →
      Okay (fun T => hits T b) (fun q => casesIn q b) (dflts b) m' → exec I n V m' b (st.mem, st.w) = some r →
      Ends E P ⟨k', R, st⟩ s (p + (labelAt (s.lab + 1) :: c1).length) st (n + 1 - size (.case (.ilit t l) b)) r.2 r.1 := by
    intro m' k' he ho hx
    exact (((hs b h1 hso (ha.of rfl rfl rfl) (by simp only; omega) p2 he ho hx).of rfl rfl rfl).to (by len)).mono (by simp only [size]; omega)
  have go : exec I n V .run b (st.mem, st.w) = some r → Ends E P ⟨p, R, st⟩ s (p + (labelAt (s.lab + 1) :: c1).length) st (n + 1 - size (.case (.ilit t l) b)) r.2 r.1 :=
    fun hx => Ends.pre' L.steps (body (m' := .run) (k' := p + 1) rfl trivial hx)
  cases m with
  | run =>
    cases he
    simp only [exec] at hx
    exact go hx
  | seek T =>
    simp only [exec] at hx
    cases T with
    | dflt =>
      simp only [Label.is, Bool.false_eq_true, if_false] at hx
      simp only [hits, Label.is, Bool.false_or, casesIn, dflts] at ho
      exact body (m' := .seek .dflt) he ho hx
    | value q v =>
      obtain ⟨a1, a2, a3⟩ := ho
      simp only [casesIn, Bool.and_eq_true] at a3
      obtain ⟨a3, a4⟩ := a3
      cases hcon : Lay.constant (.ilit t l) with
      | none => simp [hcon] at a3
      | some w =>
        simp only [hcon, decide_eq_true_eq] at a3
        have e := is_lit (v := v) hcon a1 a3
        obtain ⟨cs', new, id, l', b1, b2, b3, b4⟩ := he
        rw [hc] at b1
        cases b1
        obtain ⟨new', d1, d2⟩ := (stmt_cases b h1 hso).value _ rfl
        rw [d1] at b2
        simp only [List.append_assoc, List.singleton_append, Option.some.injEq, List.append_cancel_left_eq] at b2
        subst b2
        by_cases hv : l.value = v
        · simp only [e, hv, beq_self_eq_true, if_true] at hx
          simp only [firstCase, List.find?_cons, hv, beq_self_eq_true, Option.some.injEq, Prod.mk.injEq] at b3
          obtain ⟨rfl, -⟩ := b3
          rw [b4.unique hu L]
          exact go hx
        · have hv' : (l.value == v) = false := by simp [hv]
          simp only [e, hv', Bool.false_eq_true, if_false] at hx
          simp only [firstCase, List.find?_cons, hv'] at b3
          simp only [hits, e, hv', Bool.false_or] at a2
          exact body (m' := .seek (.value q v)) ⟨_, _, _, _, rfl, d1, b3, b4⟩ ⟨a1, a2, a4⟩ hx

theorem dflt_sim (hu : UniqueLabels P) {n : Nat} (hs : StmtSim I E P n) {b : SStmt} {V : Vars} {m : Mode} {s s' : GState} {c : List Immc} {p k : Nat} {R : Int → Val} {st : St W}
    {r : Res × Mem × W} (h : stmt (.dflt b) s = .ok ((), c, s')) (hso : sound (.dflt b) = true) (ha : Agree E V s) (hlab : -1 ≤ s.lab) (hp : At P p c) (he : Entry P s s' p m k)
    (ho : Okay (fun T => hits T (.dflt b)) (fun q => casesIn q (.dflt b)) (dflts (.dflt b)) m) (hx : exec I (n + 1) V m (.dflt b) (st.mem, st.w) = some r) :
    Ends E P ⟨k, R, st⟩ s (p + c.length) st (n + 1 - size (.dflt b)) r.2 r.1 := by
  obtain ⟨c1, h1, rfl⟩ := stmt_dflt h
  simp only [sound] at hso
  obtain ⟨p1, p2⟩ := hp
  have L : LabelAt P p (s.lab + 1) := .mk p1
  have body : ∀ {m' : Mode} {k' : Nat}, Entry P { s with lab := s.lab + 1, dflt := s.lab + 1 } s' (p + 1) m' k' →
      Okay (fun T => hits T b) (fun q => casesIn q b) (dflts b) m' → exec I n V m' b (st.mem, st.w) = some r →
      Ends E P ⟨k', R, st⟩ s (p + (labelAt (s.lab + 1) :: c1).length) st (n + 1 - size (.dflt b)) r.2 r.1 := by
    intro m' k' he ho hx
    exact (((hs b h1 hso (ha.of rfl rfl rfl) (by simp only; omega) p2 he ho hx).of rfl rfl rfl).to (by len)).mono (by simp only [size]; omega)
  have go : exec I n V .run b (st.mem, st.w) = some r → Ends E P ⟨p, R, st⟩ s (p + (labelAt (s.lab + 1) :: c1).length) st (n + 1 - size (.dflt b)) r.2 r.1 :=
    fun hx => Ends.pre' L.steps (body (m' := .run) (k' := p + 1) rfl trivial hx)
  cases m with
  | run =>
    cases he
    simp only [exec] at hx
    exact go hx
  | seek T =>
    simp only [exec] at hx
    cases T with
    | dflt =>
      simp only [if_true] at hx
      obtain ⟨-, a2⟩ := ho
      simp only [dflts] at a2
      have hz : dflts b = 0 := by omega
      have e := (stmt_cases b h1 hso).same ((dflts_zero b).1 hz)
      simp only [Entry, e] at he
      rw [LabelAt.unique hu he L]
      exact go hx
    | value q v =>
      simp only [reduceCtorEq, if_false] at hx
      have ho' : Okay (fun T => hits T b) (fun q => casesIn q b) (dflts b) (.seek (.value q v)) := by
        obtain ⟨a1, a2, a3⟩ := ho
        exact ⟨a1, by simpa [hits] using a2, by simpa [casesIn] using a3⟩
      exact body (m' := .seek (.value q v)) he ho' hx

/-- statements without statements inside -/
theorem plain_sim (hu : UniqueLabels P) (hf : Fits I E) (hl : I.base.lim = true) {n : Nat} {b : SStmt} (hb : (∃ e, b = .ret e) ∨ (∃ e, b = .expr e) ∨ b = .cont ∨ b = .brk ∨ b = .null) {V : Vars} {m : Mode} {s s' : GState} {c : List Immc} {p k : Nat} {R : Int → Val} {st : St W}
    {r : Res × Mem × W} (h : stmt b s = .ok ((), c, s')) (hso : sound b = true) (ha : Agree E V s) (hlab : -1 ≤ s.lab) (hp : At P p c) (he : Entry P s s' p m k)
    (ho : Okay (fun T => hits T b) (fun q => casesIn q b) (dflts b) m) (hx : exec I (n + 1) V m b (st.mem, st.w) = some r) :
    Ends E P ⟨k, R, st⟩ s (p + c.length) st (n + 1 - size b) r.2 r.1 := by
  cases m with
  | seek T => rcases hb with ⟨e, rfl⟩ | ⟨e, rfl⟩ | rfl | rfl | rfl <;> simp [exec] at hx
  | run =>
    cases he
    rcases hb with ⟨e, rfl⟩ | ⟨e, rfl⟩ | rfl | rfl | rfl
    · cases e with
      | none =>
        simp only [stmt, Option.map_none] at h
        obtain ⟨rfl, rfl⟩ := returnCode_none h
        simp only [exec, Option.some.injEq] at hx
        subst hx
        exact ⟨R, fun k hk => jump_steps hu hp.1 hk⟩
      | some e =>
        simp only [stmt, Option.map_some] at h
        obtain ⟨o, c1, h1, rfl⟩ := returnCode_some h
        simp only [exec, Option.bind_eq_bind, Option.bind_eq_some_iff] at hx
        obtain ⟨q, hq, x, hx, h2⟩ := hx
        cases h2
        obtain ⟨p1, p2, p3, -⟩ := at_append.1 hp
        obtain ⟨R', k1, -, k2, -⟩ := (exprSim hu e).int (cast := none) (R := R) h1 (ha.rel hf hl) hso p1 hx (by rw [hq]; rfl) hq
        have f := ((expr_inv e).int h1).1
        refine ⟨R', fun k hk => ?_⟩
        have k3 := stret_steps (E := E) (st := res st x.2) (rep_get hq).2.2.1 (d := none) (so := none) nofun k2 p2
        have k4 := jump_steps (E := E) (R := R') (st := { res st x.2 with ret := some ⟨q.1, BitVec.ofInt _ x.1⟩ }) hu p3 (k := k) (by rw [f.ret]; exact hk)
        exact (k1.trans k3).trans k4
    · simp only [stmt, modify_bind] at h
      simp only [exec, Option.bind_eq_bind, Option.bind_eq_some_iff] at hx
      obtain ⟨x, hx, h2⟩ := hx
      cases h2
      obtain ⟨R', k1, -⟩ := (exprSim hu e).code (R := R) h ((ha.rel hf hl).of rfl rfl) hso hp hx
      exact ⟨R', k1⟩
    · simp only [stmt] at h
      gm at h
      obtain ⟨rfl, rfl⟩ := h
      simp only [exec, Option.some.injEq] at hx
      subst hx
      exact ⟨R, fun k hk => jump_steps hu hp.1 hk⟩
    · simp only [stmt] at h
      gm at h
      obtain ⟨rfl, rfl⟩ := h
      simp only [exec, Option.some.injEq] at hx
      subst hx
      exact ⟨R, fun k hk => jump_steps hu hp.1 hk⟩
    · simp only [stmt] at h
      cases h
      simp only [exec, Option.some.injEq] at hx
      subst hx
      exact ⟨R, .refl _⟩

/-- a label defined in code that is part of a program is at some place -/
theorem label_in {c : List Immc} {p : Nat} (hp : At P p c) {is : List Int} (hd : defs c = is.map labelName) {id : Int} (hi : id ∈ is) : ∃ k, LabelAt P k id := by
  obtain ⟨x, hx, hn⟩ := mem_defs.1 (show labelName id ∈ defs c by rw [hd]; exact List.mem_map_of_mem hi)
  cases x <;> simp only [RSpec.isLabelNamed, Bool.false_eq_true] at hn
  rename_i lt vis nm
  have hn := of_decide_eq_true hn
  subst hn
  obtain ⟨a, b, rfl⟩ := List.append_of_mem hx
  exact ⟨_, _, _, (at_append.1 hp).2.1⟩

theorem switch_sim (hu : UniqueLabels P) (hf : Fits I E) (hl : I.base.lim = true) {n : Nat} (hs : StmtSim I E P n) {e : SExpr} {b : SStmt} {V : Vars} {m : Mode} {s s' : GState} {c : List Immc} {p k : Nat} {R : Int → Val} {st : St W}
    {r : Res × Mem × W} (h : stmt (.switch e b) s = .ok ((), c, s')) (hso : sound (.switch e b) = true) (ha : Agree E V s) (hlab : -1 ≤ s.lab) (hp : At P p c) (he : Entry P s s' p m k)
    (ho : Okay (fun T => hits T (.switch e b)) (fun q => casesIn q (.switch e b)) (dflts (.switch e b)) m) (hx : exec I (n + 1) V m (.switch e b) (st.mem, st.w) = some r) :
    Ends E P ⟨k, R, st⟩ s (p + c.length) st (n + 1 - size (.switch e b)) r.2 r.1 := by
  cases m with
  | seek T => simp [exec] at hx
  | run =>
  cases he
  simp only [stmt] at h
  obtain ⟨o, c1, s1, c2, s2, h1, h2, rfl, rfl⟩ := switchCode_ok h
  simp only [sound, Bool.and_eq_true] at hso
  simp only [exec, Option.bind_eq_bind, Option.bind_eq_some_iff] at hx
  obtain ⟨q, hq, _, hn, x, hev, hx⟩ := hx
  obtain ⟨hd, hci⟩ := CSem.need_some.1 hn
  have hci := hci hl
  have hq0 := (rep_get hq).2.2.1
  have f := ((expr_inv e).reg h1).1
  have f4 := f.lab
  obtain ⟨a1, a2⟩ := at_append.1 hp
  obtain ⟨a2, a3, a4⟩ := at_append.1 a2
  obtain ⟨a4, a5, -⟩ := at_append.1 a4
  obtain ⟨R', r', k1, -, rfl, k2, -⟩ := regSim (expr_inv e) (exprSim hu e).int (R := R) h1 (ha.rel hf hl) hso.1 a1 hev hq
  have k := stmt_cases b h2 hso.2
  obtain ⟨new, n1, n2⟩ := k.value [] rfl
  simp only [List.nil_append] at n1
  obtain ⟨n2, n3⟩ := n2 q hq0 hci
  obtain ⟨is, g1, -, -, -, g5, extra, g6, g7⟩ := (stmt_good b h2).labels
  simp only [Option.map_some, List.nil_append] at g6
  rw [n1] at g6
  cases g6
  rw [n1] at a2 a3 a4 a5 ⊢
  simp only [Option.getD_some] at a2 a3 a4 a5 ⊢
  have hlen : (caseJumps (.reg q.1 r' q.2) new).length = new.length := by simp [caseJumps]
  have L : LabelAt P _ (s1.lab + 1) := .mk a5
  have hin : ∀ c ∈ new, InRange q c.2.value ∧ ∃ k, LabelAt P k c.1 := fun c hc => ⟨n3 c hc, label_in a4 g1 (g7 c hc)⟩
  obtain ⟨j1, j2⟩ := caseJumps_steps (E := E) (st := res st x.2) hu hq0 k2 (CSem.eval_range e hq hev) a2 hin
  have body : ∀ {T : Label} {k' : Nat} {y : Res × Mem × W}, Entry P { s1 with lab := s1.lab + 1, cases := some [], dflt := -1, brk := s1.lab + 1 } s2
      (p + c1.length + (caseJumps (.reg q.1 r' q.2) new).length + 1) (.seek T) k' →
      Okay (fun T => hits T b) (fun q => casesIn q b) (dflts b) (.seek T) → exec I n V (.seek T) b x.2 = some y →
      Steps E P ⟨p + c1.length, R', res st x.2⟩ ⟨k', R', res st x.2⟩ →
      Ends E P ⟨p, R, st⟩ s (p + c1.length + (caseJumps (.reg q.1 r' q.2) new).length + 1 + c2.length + 1) st (n + 1 - size (.switch e b)) y.2 y.1.afterSwitch := by
    intro T k' y he ho hy hst
    have a := hs b (st := res st x.2) (R := R') h2 hso.2 (ha.of f.syms f.tags f.mem) (by simp only; omega) a4 he ho hy
    exact Ends.pre (k1.trans hst) ((a.mono (by simp only [size]; omega)).switch f.cont f.ret L)
  refine Ends.to (q := p + c1.length + (caseJumps (.reg q.1 r' q.2) new).length + 1 + c2.length + 1) ?_ (by len)
  simp only [choose] at hx
  by_cases hv : hits (.value q x.1) b = true
  · simp only [hv, if_true, Option.bind_eq_some_iff] at hx
    obtain ⟨y, hy, hx⟩ := hx
    cases hx
    have := n2 x.1
    simp only [hv] at this
    obtain ⟨⟨id, l⟩, hfc⟩ := Option.isSome_iff_exists.1 this.symm
    have hm : (id, l) ∈ new := List.mem_of_find?_eq_some hfc
    obtain ⟨k0, hk0⟩ := (hin _ hm).2
    exact body (T := .value q x.1) ⟨[], new, id, l, rfl, by rw [n1]; rfl, hfc, hk0⟩ ⟨hq0, hv, hci⟩ hy (j1 id l k0 hfc hk0)
  · simp only [Bool.not_eq_true] at hv
    simp only [hv, Bool.false_eq_true, if_false] at hx
    have hfc : firstCase x.1 new = none := by
      have := n2 x.1
      simp only [hv] at this
      cases hfc : firstCase x.1 new with
      | none => rfl
      | some y => rw [hfc] at this; cases this
    have j2 := j2 hfc
    rw [← hlen] at j2
    by_cases hdf : hits .dflt b = true
    · simp only [hdf, if_true, Option.bind_eq_some_iff] at hx
      obtain ⟨y, hy, hx⟩ := hx
      cases hx
      have hgt := k.new hdf
      simp only at hgt
      have hpos : s2.dflt > 0 := by omega
      rw [if_pos hpos] at a3
      have hmem : s2.dflt ∈ is := by
        rcases g5 with e | e
        · simp only at e; omega
        · exact e
      obtain ⟨k0, hk0⟩ := label_in a4 g1 hmem
      exact body (T := .dflt) hk0 ⟨hdf, hd⟩ hy (j2.trans (jump_steps hu a3 hk0))
    · simp only [Bool.not_eq_true] at hdf
      simp only [hdf, Bool.false_eq_true, if_false, Option.some.injEq] at hx
      subst hx
      have hsame := k.same hdf
      simp only at hsame
      rw [if_neg (by omega)] at a3
      exact ⟨R', ((k1.trans j2).trans (jump_steps hu a3 L)).trans L.steps⟩

theorem stmt_sim (hu : UniqueLabels P) (hf : Fits I E) (hl : I.base.lim = true) {n : Nat} (hs : StmtSim I E P n) (his : ItemsSim I E P n) (hi : ItemSim I E P n) (hlp : LoopSim I E P n)
    (hn : NextSim I E P n) (hw : WhileSim I E P n) : StmtSim I E P (n + 1) := by
  intro b V m s s' c p k R st r h hso ha hlab hp he ho hx
  cases b with
  | cmpd is => exact cmpd_sim his h hso ha hlab hp he ho hx
  | case v b => exact case_sim hu hs h hso ha hlab hp he ho hx
  | dflt b => exact dflt_sim hu hs h hso ha hlab hp he ho hx
  | ite e t => exact ite_sim hu hf hl hs h hso ha hlab hp he ho hx
  | itee e t u => exact itee_sim hu hf hl hs h hso ha hlab hp he ho hx
  | switch e b => exact switch_sim hu hf hl hs h hso ha hlab hp he ho hx
  | «while» e b => exact while_sim hu hf hl hs hw h hso ha hlab hp he ho hx
  | «for» i e nx b => exact for_sim hf hs hi hlp hn h hso ha hlab hp he ho hx
  | ret e => exact plain_sim hu hf hl (.inl ⟨e, rfl⟩) h hso ha hlab hp he ho hx
  | expr e => exact plain_sim hu hf hl (.inr (.inl ⟨e, rfl⟩)) h hso ha hlab hp he ho hx
  | cont => exact plain_sim hu hf hl (.inr (.inr (.inl rfl))) h hso ha hlab hp he ho hx
  | brk => exact plain_sim hu hf hl (.inr (.inr (.inr (.inl rfl)))) h hso ha hlab hp he ho hx
  | null => exact plain_sim hu hf hl (.inr (.inr (.inr (.inr rfl)))) h hso ha hlab hp he ho hx

/-- The code of statements does what they mean, for any bound on the depth of execution. -/
theorem all_sim (hu : UniqueLabels P) (hf : Fits I E) (hl : I.base.lim = true) : ∀ n, StmtSim I E P n ∧ ItemSim I E P n ∧ ItemsSim I E P n ∧ LoopSim I E P n ∧ NextSim I E P n ∧ WhileSim I E P n
  | 0 => by
    refine ⟨?_, ?_, ?_, ?_, ?_, ?_⟩
    · intro b V m s s' c p k R st r _ _ _ _ _ _ _ hx
      simp only [exec, Option.some.injEq] at hx
      subst hx
      exact ⟨0, _, rfl, by omega, rfl, rfl⟩
    · intro b V m s s' c p k R st r _ _ _ _ _ _ _ hx
      simp only [execItem, Option.some.injEq] at hx
      subst hx
      exact ⟨0, _, rfl, by omega, rfl, rfl⟩
    · intro b V m s s' c p k R st r _ _ _ _ _ _ _ hx
      simp only [execs, Option.some.injEq] at hx
      subst hx
      exact ⟨0, _, rfl, by omega, rfl, rfl⟩
    · unfold LoopSim
      intros
      rename_i hx
      simp only [execLoop, Option.some.injEq] at hx
      subst hx
      exact ⟨0, _, rfl, by omega, rfl, rfl⟩
    · unfold NextSim
      intros
      rename_i hx
      simp only [execNext, Option.some.injEq] at hx
      subst hx
      exact ⟨0, _, rfl, by omega, rfl, rfl⟩
    · unfold WhileSim
      intros
      rename_i hx
      simp only [exec, Option.some.injEq] at hx
      subst hx
      exact ⟨0, _, rfl, by omega, rfl, rfl⟩
  | n + 1 => by
    obtain ⟨h1, h2, h3, h4, h5, h6⟩ := all_sim hu hf hl n
    exact ⟨stmt_sim hu hf hl h1 h3 h2 h4 h5 h6, item_sim hu hf hl h1, items_sim hf h2 h3, loop_sim hu hf hl h1 h5, next_sim hu hf h1 h4, whileRun_sim hu hf hl h1 h6⟩

end Sim
end Umlcc
