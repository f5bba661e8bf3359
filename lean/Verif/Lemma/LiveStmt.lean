import Verif.Lemma.LiveExprs
import Verif.Lemma.GenLabelStmt
import Verif.Spec.CStmt
/-!
Live registers in the code of statements and functions: no register is live between statements.
-/
namespace Umlcc
namespace Live
open RSpec (reads writes target isLabelNamed opeRegs branches)
open Gen hiding Branch Branch.defs
open CSem (fresh safe safeArgs)
open CStm (safeInit safeInits simple sound soundItem soundAll hitsNothing)
open Flow

/-- no registers -/
def Nul : RS := fun _ => False

/-- a code with no register live at its beginning and end -/
abbrev Typ0 (Λ : Name → RS) (D : RS) (c : List Immc) : Prop := Typ Λ Nul D c Nul Nul

/-- nothing is live at a label -/
def Off (Λ : Name → RS) (id : Int) : Prop := ∀ v, ¬ Λ (labelName id) v

/-- the sets at numbered labels -/
def Agr (Λ : Name → RS) (Λe : Int → RS) (lo hi : Int) : Prop := ∀ id, lo < id → id ≤ hi → Λ (labelName id) = Λe id

theorem Typ0.nil {Λ : Name → RS} {D : RS} : Typ0 Λ D [] := ⟨fun _ => Iff.rfl, fun _ h => h.elim⟩

theorem Typ0.append {Λ : Name → RS} {D : RS} {c1 c2 : List Immc} (h1 : Typ0 Λ D c1) (h2 : Typ0 Λ (fun v => D v ∨ wset c1 v) c2) : Typ0 Λ D (c1 ++ c2) :=
  Typ.append (h1.mono (fun _ h => .inl h) fun _ => Iff.rfl) h2

theorem Typ0.label {Λ : Name → RS} {D : RS} {t : LblType} {vis : Vis} {n : Name} {c : List Immc} (hn : ∀ v, ¬ Λ n v) (h : Typ0 Λ D c) :
    Typ0 Λ D (.label t vis n :: c) :=
  Typ.label (fun _ h => h.elim) (fun v => ⟨fun h => h.elim, fun h => hn v h⟩) h

theorem Typ0.jump {Λ : Name → RS} {D : RS} {n : Name} {c : List Immc} (hn : ∀ v, ¬ Λ n v) (h : Typ0 Λ D c) :
    Typ0 Λ D (inst .jmp (some (.label n)) none none :: c) :=
  Typ.jmp (fun _ h => h.elim) (fun v h => hn v h) (.inl hn) h

theorem Typ0.inst {Λ : Name → RS} {D : RS} {op : IOp} {d f g : Option Ope} {c : List Immc} (ho : branches op = false) (hw : writes (inst op d f g) = none)
    (hr : ∀ v, v ∉ reads (inst op d f g)) (h : Typ0 Λ D c) : Typ0 Λ D (inst op d f g :: c) :=
  Typ.inst ho (fun _ h => h.elim) (fun v hv => (hr v hv).elim) (fun _ h _ => h) (fun _ hv => absurd (hw.symm.trans hv) nofun)
    (h.mono (fun _ => id) fun _ => ⟨.inl, fun h => h.elim id fun h => absurd (hw.symm.trans h) nofun⟩)

/-- the code of an expression whose value is not used -/
theorem Code.typ0 {s s' : GState} {c : List Immc} {R : RS} (h : Code s c s' R) {D : RS} (hD : ∀ v, D v → v ≤ s.reg) :
    ∃ Λe, ∀ Λ, Agr Λ Λe s.lab s'.lab → Typ0 Λ D c := by
  obtain ⟨Λe, t⟩ := h.typ Nul D Nul Nul (fun _ h => h.elim) hD (fun _ h => h.elim) (.inr ⟨fun _ h => h, fun _ h => h⟩)
  exact ⟨Λe, fun Λ hΛ => (t Λ hΛ).cast (fun _ => Iff.rfl) fun v => ⟨fun h => h.elim id id, .inl⟩⟩

/-- the code of an expression whose value is used by what follows -/
theorem Code.typ1 {s s' : GState} {c : List Immc} {R : RS} (h : Code s c s' R) {D : RS} (hD : ∀ v, D v → v ≤ s.reg) :
    ∃ Λe, ∀ Λ, Agr Λ Λe s.lab s'.lab → ∀ c', (∀ v, R v → rset c' v) → Typ Λ Nul (fun v => D v ∨ wset c v) c' R Nul → Typ0 Λ D (c ++ c') := by
  obtain ⟨Λe, t⟩ := h.typ Nul D R R (fun _ h => h.elim) hD (fun _ => id) (.inl fun _ => id)
  refine ⟨Λe, fun Λ hΛ c' hc h' => Typ.append ((t Λ hΛ).mono (fun v hv => .inr (hc v hv)) fun _ => Iff.rfl) ?_⟩
  exact h'.cast (fun v => ⟨.inr, fun h => h.elim (fun h => h.elim) id⟩) fun _ => Iff.rfl

/-- a condition with a branch to a label where nothing is live -/
theorem Code.cjump {s s' : GState} {c : List Immc} {R : RS} (h : Code s c s' R) {j : Name → Immc} (hj : Branch j R) {D : RS} (hD : ∀ v, D v → v ≤ s.reg) :
    ∃ Λe, ∀ Λ, Agr Λ Λe s.lab s'.lab → ∀ n c', (∀ v, ¬ Λ n v) → Typ0 Λ (fun v => D v ∨ wset c v) c' → Typ0 Λ D (c ++ (j n :: c')) := by
  obtain ⟨Λe, t⟩ := h.typ1 hD
  refine ⟨Λe, fun Λ hΛ n c' hn h' => t Λ hΛ _ (fun v hv => rset_cons.2 (.inl ((hj.reads n v).2 hv))) ?_⟩
  exact Typ.open (A' := Nul) hj (fun v hv => .inr (h.res v hv)) (fun _ => id) (fun _ h => h.elim) (fun v h => (hn v h).elim) (.inl hn) h'

/-- What the code of a statement does with registers: those it writes are new; no register is live at its beginning and end, at the labels of cases, nor at
those of the loop around. -/
structure SLive (fc fb : Bool) (s : GState) (c : List Immc) (s' : GState) : Prop where
  cont : s'.cont = s.cont
  brk : s'.brk = s.brk
  ret : s'.ret = s.ret
  reg : s.reg ≤ s'.reg
  lab : s.lab ≤ s'.lab
  wr : ∀ v, wset c v → s.reg < v ∧ v ≤ s'.reg
  typ : ∃ extra, s'.cases = s.cases.map (· ++ extra) ∧ (∀ p ∈ extra, s.lab < p.1 ∧ p.1 ≤ s'.lab) ∧ ∀ D : RS, (∀ v, D v → v ≤ s.reg) →
    ∃ Λe : Int → RS, (∀ p ∈ extra, ∀ v, ¬ Λe p.1 v) ∧ (s'.dflt = s.dflt ∨ (s.lab < s'.dflt ∧ s'.dflt ≤ s'.lab) ∧ ∀ v, ¬ Λe s'.dflt v) ∧
      ∀ Λ, Agr Λ Λe s.lab s'.lab → Off Λ s.ret → (fc = true → Off Λ s.cont) → (fb = true → Off Λ s.brk) → Typ0 Λ D c

theorem SLive.of {fc fb : Bool} {s s' : GState} {c : List Immc} {R : RS} (h : Code s c s' R) (f : Frame s s') : SLive fc fb s c s' :=
  ⟨f.cont, f.brk, f.ret, h.reg, h.lab, h.wr, [], by simp [f.cases], by simp, fun D hD => by
    obtain ⟨Λe, t⟩ := h.typ0 hD
    exact ⟨Λe, by simp, .inl f.dflt, fun Λ hΛ _ _ _ => t Λ hΛ⟩⟩

theorem SLive.refl {fc fb : Bool} (s : GState) : SLive fc fb s [] s := .of (.nil s) (.refl s)

theorem SLive.mono {fc fb fc' fb' : Bool} {s s' : GState} {c : List Immc} (h : SLive fc fb s c s') (h1 : fc = true → fc' = true)
    (h2 : fb = true → fb' = true) : SLive fc' fb' s c s' := by
  obtain ⟨f1, f2, f3, f4, f5, f6, ex, a1, a2, a3⟩ := h
  refine ⟨f1, f2, f3, f4, f5, f6, ex, a1, a2, fun D hD => ?_⟩
  obtain ⟨Λe, t1, t2, t⟩ := a3 D hD
  exact ⟨Λe, t1, t2, fun Λ hΛ hr hc hb => t Λ hΛ hr (fun h => hc (h1 h)) fun h => hb (h2 h)⟩

theorem dbound {s s' : GState} {c : List Immc} {D : RS} (hr : s.reg ≤ s'.reg) (hw : ∀ v, wset c v → s.reg < v ∧ v ≤ s'.reg) (hD : ∀ v, D v → v ≤ s.reg) :
    ∀ v, D v ∨ wset c v → v ≤ s'.reg := by
  intro v hv
  rcases hv with h | h
  · have := hD v h; omega
  · exact (hw v h).2

/-- sets at labels up to one, and beyond it -/
def glue (m : Int) (Λ1 Λ2 : Int → RS) (id : Int) : RS := if id ≤ m then Λ1 id else Λ2 id
theorem glue_le {m id : Int} {Λ1 Λ2 : Int → RS} (h : id ≤ m) : glue m Λ1 Λ2 id = Λ1 id := if_pos h
theorem glue_gt {m id : Int} {Λ1 Λ2 : Int → RS} (h : m < id) : glue m Λ1 Λ2 id = Λ2 id := if_neg (by omega)

theorem SLive.trans {fc fb : Bool} {a b d : GState} {x y : List Immc} (h : SLive fc fb a x b) (k : SLive fc fb b y d) : SLive fc fb a (x ++ y) d := by
  obtain ⟨f1, f2, f3, f4, f5, f6, ex, a1, a2, a3⟩ := h
  obtain ⟨g1, g2, g3, g4, g5, g6, ey, b1, b2, b3⟩ := k
  refine ⟨g1.trans f1, g2.trans f2, g3.trans f3, by omega, by omega, ?_, ex ++ ey, ?_, ?_, ?_⟩
  · intro v hv
    rcases wset_append.1 hv with h | h
    · have := f6 v h; omega
    · have := g6 v h; omega
  · rw [b1, a1]; cases a.cases <;> simp
  · intro p hp
    rcases List.mem_append.1 hp with h | h
    · have := a2 p h; omega
    · have := b2 p h; omega
  · intro D hD
    obtain ⟨Λ1, s1, s2, t1⟩ := a3 D hD
    obtain ⟨Λ2, u1, u2, t2⟩ := b3 _ (dbound f4 f6 hD)
    refine ⟨glue b.lab Λ1 Λ2, ?_, ?_, ?_⟩
    · intro p hp
      rcases List.mem_append.1 hp with h | h
      · have := a2 p h
        rw [glue_le (by omega)]
        exact s1 p h
      · have := b2 p h
        rw [glue_gt (by omega)]
        exact u1 p h
    · rcases u2 with e | ⟨h, e⟩
      · rw [e]
        rcases s2 with e' | ⟨h', e'⟩
        · exact .inl e'
        · refine .inr ⟨by omega, ?_⟩
          rw [glue_le (by omega)]
          exact e'
      · refine .inr ⟨by omega, ?_⟩
        rw [glue_gt (by omega)]
        exact e
    · intro Λ hΛ hr hc hb
      refine Typ0.append (t1 Λ (fun id p q => (hΛ id p (by omega)).trans (glue_le q)) hr hc hb) (t2 Λ (fun id p q => (hΛ id (by omega) q).trans (glue_gt p)) ?_ ?_ ?_)
      · rwa [f3]
      · rwa [f1]
      · rwa [f2]

theorem SLive.same {fc fb : Bool} {a b d : GState} {x : List Immc} (h : SLive fc fb a x b) (k : Same b d) (hr : d.reg = b.reg) : SLive fc fb a x d := by
  obtain ⟨k1, k2, k3, k4, k5, k6⟩ := k
  obtain ⟨f1, f2, f3, f4, f5, f6, f7⟩ := h
  exact ⟨k1.trans f1, k2.trans f2, k3.trans f3, by omega, by omega, by rwa [hr], by rw [k4, k5, k6]; exact f7⟩

theorem SLive.same_left {fc fb : Bool} {a b d : GState} {x : List Immc} (k : Same a b) (hr : b.reg = a.reg) (h : SLive fc fb b x d) : SLive fc fb a x d := by
  obtain ⟨k1, k2, k3, k4, k5, k6⟩ := k
  obtain ⟨f1, f2, f3, f4, f5, f6, f7⟩ := h
  rw [k1] at f1
  rw [k2] at f2
  rw [k3] at f3
  rw [hr] at f6
  rw [k4, k5, k6, k1, k2, k3, hr] at f7
  exact ⟨f1, f2, f3, by omega, by omega, f6, f7⟩

theorem SLive.after {fc fb : Bool} {a b d : GState} {x : List Immc} (h : SLive fc fb b x d) (k : Same a b) (hr : b.reg = a.reg) : SLive fc fb a x d := .same_left k hr h

/-- what the code of a statement inside of another one may assume -/
def Inner (fc fb : Bool) (Λ : Name → RS) (s : GState) : Prop := Off Λ s.ret ∧ (fc = true → Off Λ s.cont) ∧ (fb = true → Off Λ s.brk)

/-- a statement with up to three statements inside of it -/
theorem SLive.wrap {fc fb f1c f1b f2c f2b f3c f3b : Bool} {s s' a1 b1 a2 b2 a3 b3 : GState} {x1 x2 x3 code : List Immc}
    (h1 : SLive f1c f1b a1 x1 b1) (h2 : SLive f2c f2b a2 x2 b2) (h3 : SLive f3c f3b a3 x3 b3)
    (hcont : s'.cont = s.cont) (hbrk : s'.brk = s.brk) (hret : s'.ret = s.ret) (hreg : s.reg ≤ s'.reg)
    (hlab : s.lab ≤ a1.lab ∧ b1.lab ≤ a2.lab ∧ b2.lab ≤ a3.lab ∧ b3.lab ≤ s'.lab)
    (hcases : a1.cases = s.cases ∧ a2.cases = b1.cases ∧ a3.cases = b2.cases ∧ s'.cases = b3.cases)
    (hdflt : a1.dflt = s.dflt ∧ a2.dflt = b1.dflt ∧ a3.dflt = b2.dflt ∧ s'.dflt = b3.dflt)
    (wr : ∀ v, wset code v → s.reg < v ∧ v ≤ s'.reg)
    (typ : ∀ D : RS, (∀ v, D v → v ≤ s.reg) → ∃ D1 D2 D3 : RS, (∀ v, D1 v → v ≤ a1.reg) ∧ (∀ v, D2 v → v ≤ a2.reg) ∧ (∀ v, D3 v → v ≤ a3.reg) ∧
      ∃ Λa : Int → RS, ∀ Λ : Name → RS, (∀ id, s.lab < id → id ≤ s'.lab → ¬ (a1.lab < id ∧ id ≤ b1.lab) → ¬ (a2.lab < id ∧ id ≤ b2.lab) → ¬ (a3.lab < id ∧ id ≤ b3.lab) →
        Λ (labelName id) = Λa id) → Inner fc fb Λ s → Inner f1c f1b Λ a1 ∧ Inner f2c f2b Λ a2 ∧ Inner f3c f3b Λ a3 ∧
        (Typ0 Λ D1 x1 → Typ0 Λ D2 x2 → Typ0 Λ D3 x3 → Typ0 Λ D code)) : SLive fc fb s code s' := by
  obtain ⟨-, -, -, -, l1, -, e1, c1, p1, t1⟩ := h1
  obtain ⟨-, -, -, -, l2, -, e2, c2, p2, t2⟩ := h2
  obtain ⟨-, -, -, -, l3, -, e3, c3, p3, t3⟩ := h3
  obtain ⟨la, lb, lc, ld⟩ := hlab
  refine ⟨hcont, hbrk, hret, hreg, by omega, wr, e1 ++ (e2 ++ e3), ?_, ?_, ?_⟩
  · rw [hcases.2.2.2, c3, hcases.2.2.1, c2, hcases.2.1, c1, hcases.1]
    cases s.cases <;> simp
  · intro p hp
    simp only [List.mem_append] at hp
    rcases hp with h | h | h
    · have := p1 p h; omega
    · have := p2 p h; omega
    · have := p3 p h; omega
  · intro D hD
    obtain ⟨D1, D2, D3, d1, d2, d3, Λa, t⟩ := typ D hD
    obtain ⟨Λ1, q1, r1, t1⟩ := t1 D1 d1
    obtain ⟨Λ2, q2, r2, t2⟩ := t2 D2 d2
    obtain ⟨Λ3, q3, r3, t3⟩ := t3 D3 d3
    let Λe : Int → RS := glue a1.lab Λa (glue b1.lab Λ1 (glue a2.lab Λa (glue b2.lab Λ2 (glue a3.lab Λa (glue b3.lab Λ3 Λa)))))
    have v1 : ∀ id, a1.lab < id → id ≤ b1.lab → Λe id = Λ1 id := fun id x y => by
      simp only [Λe]; rw [glue_gt x, glue_le y]
    have v2 : ∀ id, a2.lab < id → id ≤ b2.lab → Λe id = Λ2 id := fun id x y => by
      simp only [Λe]; rw [glue_gt (by omega), glue_gt (by omega), glue_gt x, glue_le y]
    have v3 : ∀ id, a3.lab < id → id ≤ b3.lab → Λe id = Λ3 id := fun id x y => by
      simp only [Λe]; rw [glue_gt (by omega), glue_gt (by omega), glue_gt (by omega), glue_gt (by omega), glue_gt x, glue_le y]
    have v0 : ∀ id, ¬ (a1.lab < id ∧ id ≤ b1.lab) → ¬ (a2.lab < id ∧ id ≤ b2.lab) → ¬ (a3.lab < id ∧ id ≤ b3.lab) → Λe id = Λa id := fun id x y z => by
      simp only [Λe, glue]
      repeat' split
      all_goals first | rfl | omega
    refine ⟨Λe, ?_, ?_, ?_⟩
    · intro p hp
      simp only [List.mem_append] at hp
      rcases hp with h | h | h
      · rw [v1 _ (p1 p h).1 (p1 p h).2]; exact q1 p h
      · rw [v2 _ (p2 p h).1 (p2 p h).2]; exact q2 p h
      · rw [v3 _ (p3 p h).1 (p3 p h).2]; exact q3 p h
    · rw [hdflt.2.2.2]
      rcases r3 with r3 | ⟨r3, r3'⟩
      · rw [r3, hdflt.2.2.1]
        rcases r2 with r2 | ⟨r2, r2'⟩
        · rw [r2, hdflt.2.1]
          rcases r1 with r1 | ⟨r1, r1'⟩
          · exact .inl (r1.trans hdflt.1)
          · exact .inr ⟨by omega, by rw [v1 _ r1.1 r1.2]; exact r1'⟩
        · exact .inr ⟨by omega, by rw [v2 _ r2.1 r2.2]; exact r2'⟩
      · exact .inr ⟨by omega, by rw [v3 _ r3.1 r3.2]; exact r3'⟩
    · intro Λ hΛ hr hc hb
      obtain ⟨i1, i2, i3, t⟩ := t Λ (fun id x y z1 z2 z3 => (hΛ id x y).trans (v0 id z1 z2 z3)) ⟨hr, hc, hb⟩
      refine t (t1 Λ (fun id x y => ?_) i1.1 i1.2.1 i1.2.2) (t2 Λ (fun id x y => ?_) i2.1 i2.2.1 i2.2.2) (t3 Λ (fun id x y => ?_) i3.1 i3.2.1 i3.2.2)
      · exact (hΛ id (by omega) (by omega)).trans (v1 id x y)
      · exact (hΛ id (by omega) (by omega)).trans (v2 id x y)
      · exact (hΛ id (by omega) (by omega)).trans (v3 id x y)

theorem Off.of {Λ : Name → RS} {id : Int} (h : Λ (labelName id) = Nul) : Off Λ id := fun v hv => by rw [h] at hv; exact hv

/-- the sets with nothing live at one label -/
def put (i : Int) (Λ : Int → RS) (id : Int) : RS := if id = i then Nul else Λ id
theorem put_eq {i : Int} {Λ : Int → RS} : put i Λ i = Nul := if_pos rfl
theorem put_ne {i id : Int} {Λ : Int → RS} (h : id ≠ i) : put i Λ id = Λ id := if_neg h

theorem iteCode_live {p : Bool} {g : G} (hg : GLive p g) (hi : GInv g) {t : GM Unit} {fc fb : Bool} (ht : ∀ {s c s'}, t s = .ok ((), c, s') → SLive fc fb s c s')
    {s s' : GState} {code : List Immc} (h : iteCode g t s = .ok ((), code, s')) : SLive fc fb s code s' := by
  obtain ⟨j, c1, s1, c2, h1, h2, h3⟩ := iteCode_ok h
  obtain ⟨R, g1, hj⟩ := hg.jmp h1
  obtain ⟨⟨f, -⟩, -⟩ := hi.jmp h1
  have k := ht h2
  have r1 : s.reg ≤ s1.reg := g1.reg
  have r2 := k.reg
  have l1 : s.lab + 1 ≤ s1.lab := g1.lab
  have w1 : ∀ v, wset c1 v → s.reg < v ∧ v ≤ s1.reg := g1.wr
  have l2 := k.lab
  have w2 := k.wr
  refine SLive.wrap k (SLive.refl (fc := false) (fb := false) s') (SLive.refl (fc := false) (fb := false) s') (k.cont.trans f.cont) (k.brk.trans f.brk) (k.ret.trans f.ret)
    (by omega) (by omega) ⟨f.cases, rfl, rfl, rfl⟩ ⟨f.dflt, rfl, rfl, rfl⟩ ?_ ?_
  · intro v hv
    have hv' : wset c1 v ∨ wset c2 v := by
      rcases h3 with ⟨n, hn, rfl⟩ | ⟨hn, rfl⟩ <;> simp only [wset_append, hj.wset, wset_cons, wset_nil, or_false] at hv
      · exact hv
      · rcases hv with hv | hv | hv
        · exact .inl hv
        · exact .inr hv
        · cases hv
    rcases hv' with hv | hv
    · have := w1 v hv; omega
    · have := w2 v hv; omega
  · intro D hD
    obtain ⟨Λ1, t1⟩ := g1.cjump hj (D := D) hD
    refine ⟨fun v => D v ∨ wset c1 v, Nul, Nul, dbound r1 w1 hD, fun _ h => h.elim, fun _ h => h.elim, put (s.lab + 1) Λ1, ?_⟩
    intro Λ hΛ hin
    have e1 : Agr Λ Λ1 (s.lab + 1) s1.lab := fun id x y => (hΛ id (by omega) (by omega) (by omega) (by omega) (by omega)).trans (put_ne (by omega))
    have e2 : Off Λ (s.lab + 1) := .of ((hΛ _ (by omega) (by omega) (by omega) (by omega) (by omega)).trans put_eq)
    refine ⟨⟨?_, ?_, ?_⟩, ⟨?_, nofun, nofun⟩, ⟨?_, nofun, nofun⟩, ?_⟩
    · rw [f.ret]; exact hin.1
    · rw [f.cont]; exact hin.2.1
    · rw [f.brk]; exact hin.2.2
    · rw [k.ret, f.ret]; exact hin.1
    · rw [k.ret, f.ret]; exact hin.1
    · intro t2 _ _
      rcases h3 with ⟨n, hn, rfl⟩ | ⟨hn, rfl⟩
      · exact t1 Λ e1 n c2 (fun v hv => (t2.endLabel hn v).1 hv) t2
      · exact t1 Λ e1 _ _ e2 (t2.append (Typ0.label e2 Typ0.nil))

theorem iteeCode_live {p : Bool} {g : G} (hg : GLive p g) (hi : GInv g) {t e : GM Unit} {fc fb : Bool} (ht : ∀ {s c s'}, t s = .ok ((), c, s') → SLive fc fb s c s')
    (he : ∀ {s c s'}, e s = .ok ((), c, s') → SLive fc fb s c s')
    {s s' : GState} {code : List Immc} (h : iteeCode g t e s = .ok ((), code, s')) : SLive fc fb s code s' := by
  obtain ⟨j, c1, s1, c2, s2, c3, h1, h2, h3, h4⟩ := iteeCode_ok h
  obtain ⟨R, g1, hj⟩ := hg.jmp h1
  obtain ⟨⟨f, -⟩, -⟩ := hi.jmp h1
  have k := ht h2
  have m := he h3
  have r1 : s.reg ≤ s1.reg := g1.reg
  have r2 := k.reg
  have r3 := m.reg
  have l1 : s.lab + 1 + 1 ≤ s1.lab := g1.lab
  have w1 : ∀ v, wset c1 v → s.reg < v ∧ v ≤ s1.reg := g1.wr
  have l2 := k.lab
  have w2 := k.wr
  have l3 := m.lab
  have w3 := m.wr
  refine SLive.wrap k m (SLive.refl (fc := false) (fb := false) s') ((m.cont.trans k.cont).trans f.cont) ((m.brk.trans k.brk).trans f.brk) ((m.ret.trans k.ret).trans f.ret)
    (by omega) (by omega) ⟨f.cases, rfl, rfl, rfl⟩ ⟨f.dflt, rfl, rfl, rfl⟩ ?_ ?_
  · intro v hv
    have hv' : wset c1 v ∨ wset c2 v ∨ wset c3 v := by
      rcases h4 with ⟨n, hn, rfl⟩ | ⟨hn, rfl⟩ <;> simp only [wset_append, hj.wset, wset_cons, wset_nil, or_false] at hv
      · rcases hv with hv | hv | hv | hv | hv
        · exact .inl hv
        · exact .inr (.inl hv)
        · cases hv
        · cases hv
        · exact .inr (.inr hv)
      · rcases hv with hv | hv | hv | hv | hv | hv
        · exact .inl hv
        · exact .inr (.inl hv)
        · cases hv
        · cases hv
        · exact .inr (.inr hv)
        · cases hv
    rcases hv' with hv | hv | hv
    · have := w1 v hv; omega
    · have := w2 v hv; omega
    · have := w3 v hv; omega
  · intro D hD
    obtain ⟨Λ1, t1⟩ := g1.cjump hj (D := D) hD
    have d1 := dbound r1 w1 hD
    refine ⟨fun v => D v ∨ wset c1 v, fun v => (D v ∨ wset c1 v) ∨ wset c2 v, Nul, d1, dbound r2 w2 d1, fun _ h => h.elim, put (s.lab + 1) (put (s.lab + 1 + 1) Λ1), ?_⟩
    intro Λ hΛ hin
    have e1 : Agr Λ Λ1 (s.lab + 1 + 1) s1.lab := fun id x y =>
      (hΛ id (by omega) (by omega) (by omega) (by omega) (by omega)).trans ((put_ne (by omega)).trans (put_ne (by omega)))
    have e2 : Off Λ (s.lab + 1) := .of ((hΛ _ (by omega) (by omega) (by omega) (by omega) (by omega)).trans put_eq)
    have e3 : Off Λ (s.lab + 1 + 1) := .of ((hΛ _ (by omega) (by omega) (by omega) (by omega) (by omega)).trans ((put_ne (by omega)).trans put_eq))
    refine ⟨⟨?_, ?_, ?_⟩, ⟨?_, ?_, ?_⟩, ⟨?_, nofun, nofun⟩, ?_⟩
    · rw [f.ret]; exact hin.1
    · rw [f.cont]; exact hin.2.1
    · rw [f.brk]; exact hin.2.2
    · rw [k.ret, f.ret]; exact hin.1
    · rw [k.cont, f.cont]; exact hin.2.1
    · rw [k.brk, f.brk]; exact hin.2.2
    · rw [m.ret, k.ret, f.ret]; exact hin.1
    · intro t2 t3 _
      rcases h4 with ⟨n, hn, rfl⟩ | ⟨hn, rfl⟩
      · have t4 : Typ0 Λ (fun v => (D v ∨ wset c1 v) ∨ wset c2 v) (labelAt (s.lab + 1) :: c3) := Typ0.label e2 t3
        exact t1 Λ e1 _ _ e2 (t2.append (Typ0.jump (fun v hv => (t4.endLabel hn v).1 hv) t4))
      · exact t1 Λ e1 _ _ e2 (t2.append (Typ0.jump e3 (Typ0.label e2 (t3.append (Typ0.label e3 Typ0.nil)))))

theorem whileCode_live {p : Bool} {g : G} (hg : GLive p g) (hi : GInv g) {t : GM Unit} {fc fb : Bool} (ht : ∀ {s c s'}, t s = .ok ((), c, s') → SLive fc fb s c s')
    {s s' : GState} {code : List Immc} (h : whileCode g t s = .ok ((), code, s')) : SLive false false s code s' := by
  obtain ⟨j, c1, s1, c2, s2, h1, h2, rfl, rfl⟩ := whileCode_ok h
  obtain ⟨R, g1, hj⟩ := hg.jmp h1
  obtain ⟨⟨f, -⟩, -⟩ := hi.jmp h1
  have k := ht h2
  have r1 : s.reg ≤ s1.reg := g1.reg
  have r2 : s1.reg ≤ s2.reg := k.reg
  have l1 : s.lab + 1 + 1 ≤ s1.lab := g1.lab
  have w1 : ∀ v, wset c1 v → s.reg < v ∧ v ≤ s1.reg := g1.wr
  have l2 : s1.lab ≤ s2.lab := k.lab
  have w2 : ∀ v, wset c2 v → s1.reg < v ∧ v ≤ s2.reg := k.wr
  have kr : s2.ret = s1.ret := k.ret
  refine SLive.wrap k (SLive.refl (fc := false) (fb := false) s2) (SLive.refl (fc := false) (fb := false) s2) f.cont f.brk (kr.trans f.ret)
    (by dsimp only; omega) (by dsimp only; omega) ⟨f.cases, rfl, rfl, rfl⟩ ⟨f.dflt, rfl, rfl, rfl⟩ ?_ ?_
  · intro v hv
    dsimp only
    simp only [wset_append, hj.wset, wset_cons, wset_nil, or_false] at hv
    rcases hv with hv | hv | hv | hv | hv
    · cases hv
    · have := w1 v hv; omega
    · have := w2 v hv; omega
    · cases hv
    · cases hv
  · intro D hD
    obtain ⟨Λ1, t1⟩ := g1.cjump hj (D := D) hD
    refine ⟨fun v => D v ∨ wset c1 v, Nul, Nul, dbound r1 w1 hD, fun _ h => h.elim, fun _ h => h.elim, put (s.lab + 1) (put (s.lab + 1 + 1) Λ1), ?_⟩
    intro Λ hΛ hin
    dsimp only at hΛ
    have e1 : Agr Λ Λ1 (s.lab + 1 + 1) s1.lab := fun id x y =>
      (hΛ id (by omega) (by omega) (by omega) (by omega) (by omega)).trans ((put_ne (by omega)).trans (put_ne (by omega)))
    have e2 : Off Λ (s.lab + 1) := .of ((hΛ _ (by omega) (by omega) (by omega) (by omega) (by omega)).trans put_eq)
    have e3 : Off Λ (s.lab + 1 + 1) := .of ((hΛ _ (by omega) (by omega) (by omega) (by omega) (by omega)).trans ((put_ne (by omega)).trans put_eq))
    refine ⟨⟨?_, fun _ => e2, fun _ => e3⟩, ⟨?_, nofun, nofun⟩, ⟨?_, nofun, nofun⟩, ?_⟩
    · dsimp only; rw [f.ret]; exact hin.1
    · rw [kr, f.ret]; exact hin.1
    · rw [kr, f.ret]; exact hin.1
    · intro t2 _ _
      exact Typ0.label e2 (t1 Λ e1 _ _ e3 (t2.append (Typ0.jump e2 (Typ0.label e3 Typ0.nil))))

theorem forCode_live {i : GM Unit} {c : SStmt} (hc : simple c = true) {n b : GM Unit} {fc fb fc' fb' : Bool}
    (hi : ∀ {s c s'}, i s = .ok ((), c, s') → SLive fc fb s c s') (hn : ∀ {s c s'}, n s = .ok ((), c, s') → SLive fc fb s c s')
    (hb : ∀ {s c s'}, b s = .ok ((), c, s') → SLive fc' fb' s c s')
    {s s' : GState} {code : List Immc} (h : forCode i (forCond c) n b s = .ok ((), code, s')) : SLive fc fb s code s' := by
  obtain ⟨c1, s1, c2, s2, c3, s3, c4, h1, h2, h3, h4, rfl⟩ := forCode_ok h
  have k1 := hi h1
  have k3 := hb h3
  have k4 := hn h4
  have l1 : s.lab + 1 + 1 + 1 ≤ s1.lab := k1.lab
  have l3 : s2.lab ≤ s3.lab := k3.lab
  have l4 : s3.lab ≤ s'.lab := k4.lab
  have r1 : s.reg ≤ s1.reg := k1.reg
  have r3 : s2.reg ≤ s3.reg := k3.reg
  have r4 : s3.reg ≤ s'.reg := k4.reg
  have w1 : ∀ v, wset c1 v → s.reg < v ∧ v ≤ s1.reg := k1.wr
  have w3 : ∀ v, wset c3 v → s2.reg < v ∧ v ≤ s3.reg := k3.wr
  have w4 : ∀ v, wset c4 v → s3.reg < v ∧ v ≤ s'.reg := k4.wr
  have q1 : s1.cont = s.cont ∧ s1.brk = s.brk ∧ s1.ret = s.ret := ⟨k1.cont, k1.brk, k1.ret⟩
  have q3 : s3.ret = s2.ret := k3.ret
  have q4 : s'.cont = s2.cont ∧ s'.brk = s2.brk ∧ s'.ret = s3.ret := ⟨k4.cont, k4.brk, k4.ret⟩
  obtain ⟨f, w2, t2⟩ : Frame s1 s2 ∧ (∀ v, wset c2 v → s1.reg < v ∧ v ≤ s2.reg) ∧ ∀ D : RS, (∀ v, D v → v ≤ s1.reg) → ∃ Λe, ∀ Λ, Agr Λ Λe s1.lab s2.lab →
      Off Λ (s.lab + 1 + 1 + 1) → ∀ c', Typ0 Λ (fun v => D v ∨ wset c2 v) c' → Typ0 Λ D (c2 ++ c') := by
    rcases forCond_ok h2 with ⟨e, j, c2', rfl, g1, rfl⟩ | ⟨-, rfl, rfl⟩
    · simp only [simple] at hc
      obtain ⟨R, g, hj⟩ := (expr_live e none hc).jmp g1
      refine ⟨((expr_inv e).jmp g1).1.1, ?_, ?_⟩
      · intro v hv
        rw [wset_append, hj.wset] at hv
        exact g.wr v (hv.elim id fun h => (wset_nil h).elim)
      · intro D hD
        obtain ⟨Λe, t⟩ := g.cjump hj hD
        refine ⟨Λe, fun Λ hΛ ho c' h' => ?_⟩
        rw [List.append_assoc]
        refine t Λ hΛ _ c' ho (h'.mono (fun _ => id) fun v => ?_)
        rw [wset_append, hj.wset]
        simp [wset_nil]
    · refine ⟨.refl _, fun v h => (wset_nil h).elim, fun D hD => ⟨fun _ => Nul, fun Λ _ _ c' h' => ?_⟩⟩
      exact h'.mono (fun _ => id) fun v => by simp [wset_nil]
  have l2 := f.lab
  have r2 := f.reg
  refine SLive.wrap k1 k3 k4 ?_ ?_ ?_ (by omega) (by dsimp only; omega) ⟨rfl, f.cases, rfl, rfl⟩ ⟨rfl, f.dflt, rfl, rfl⟩ ?_ ?_
  · rw [q4.1, f.cont, q1.1]
  · rw [q4.2.1, f.brk, q1.2.1]
  · rw [q4.2.2, q3, f.ret, q1.2.2]
  · intro v hv
    simp only [wset_append, wset_cons, wset_nil, or_false] at hv
    rcases hv with hv | hv | hv | hv | hv | hv | hv | hv
    · have := w1 v hv; omega
    · cases hv
    · have := w2 v hv; omega
    · have := w3 v hv; omega
    · cases hv
    · have := w4 v hv; omega
    · cases hv
    · cases hv
  · intro D hD
    have d1 := dbound r1 w1 hD
    have d2 := dbound r2 w2 d1
    have d3 := dbound r3 w3 d2
    obtain ⟨Λ2, t2⟩ := t2 _ d1
    refine ⟨D, fun v => (D v ∨ wset c1 v) ∨ wset c2 v, fun v => ((D v ∨ wset c1 v) ∨ wset c2 v) ∨ wset c3 v, hD, d2, d3,
      put (s.lab + 1) (put (s.lab + 1 + 1) (put (s.lab + 1 + 1 + 1) Λ2)), ?_⟩
    intro Λ hΛ hin
    dsimp only at hΛ
    have e1 : Agr Λ Λ2 s1.lab s2.lab := fun id x y =>
      (hΛ id (by omega) (by omega) (by omega) (by omega) (by omega)).trans ((put_ne (by omega)).trans ((put_ne (by omega)).trans (put_ne (by omega))))
    have e2 : Off Λ (s.lab + 1) := .of ((hΛ _ (by omega) (by omega) (by omega) (by omega) (by omega)).trans put_eq)
    have e3 : Off Λ (s.lab + 1 + 1) := .of ((hΛ _ (by omega) (by omega) (by omega) (by omega) (by omega)).trans ((put_ne (by omega)).trans put_eq))
    have e4 : Off Λ (s.lab + 1 + 1 + 1) := .of ((hΛ _ (by omega) (by omega) (by omega) (by omega) (by omega)).trans ((put_ne (by omega)).trans ((put_ne (by omega)).trans put_eq)))
    refine ⟨hin, ⟨?_, fun _ => e3, fun _ => e4⟩, ⟨?_, ?_, ?_⟩, ?_⟩
    · dsimp only; rw [f.ret, q1.2.2]; exact hin.1
    · dsimp only; rw [q3, f.ret, q1.2.2]; exact hin.1
    · dsimp only; rw [f.cont, q1.1]; exact hin.2.1
    · dsimp only; rw [f.brk, q1.2.1]; exact hin.2.2
    · intro t1 t3 t4
      exact t1.append (Typ0.label e2 (t2 Λ e1 e4 _ (t3.append (Typ0.label e3 (t4.append (Typ0.jump e2 (Typ0.label e4 Typ0.nil)))))))

theorem wset_caseJumps {o : Ope} {cs : List (Int × ILit)} {v : Int} : ¬ wset (caseJumps o cs) v := by
  induction cs with
  | nil => exact wset_nil
  | cons p cs ih =>
    intro h
    rcases wset_cons.1 h with h | h
    · cases h
    · exact ih h

/-- the jumps to the cases, nothing being live there -/
theorem caseJumps_typ {Λ : Name → RS} {D : RS} {o : Ope} {c : List Immc} (hD : ∀ v, opeSet o v → D v) (h : Typ0 Λ D c) : ∀ {cs : List (Int × ILit)},
    cs ≠ [] → (∀ p ∈ cs, Off Λ p.1) → Typ Λ Nul D (caseJumps o cs ++ c) (opeSet o) Nul
  | [], hn, _ => absurd rfl hn
  | [p], _, hp => Typ.branch (A' := Nul) rfl hD (fun v hv => by simpa [reads_inst, opeRegs, labelOpe, opeSet] using (reads_inst.1 hv)) (fun _ h => h.elim)
      (fun v hv => (hp p (by simp) v hv).elim) (.inl (hp p (by simp))) h
  | p :: q :: cs, _, hp => Typ.branch (A' := opeSet o) rfl hD (fun v hv => by simpa [reads_inst, opeRegs, labelOpe, opeSet] using (reads_inst.1 hv)) (fun _ => id)
      (fun v hv => (hp p (by simp) v hv).elim) (.inl (hp p (by simp))) (caseJumps_typ hD h (cs := q :: cs) (by simp) fun x hx => hp x (by simp [hx]))

theorem switchCode_live {p : Bool} {g : G} (hg : GLive p g) (hi : GInv g) {t : GM Unit} {fc fb : Bool} (ht : ∀ {s c s'}, t s = .ok ((), c, s') → SLive fc fb s c s')
    {s s' : GState} {code : List Immc} (h : switchCode g t s = .ok ((), code, s')) : SLive fc false s code s' := by
  obtain ⟨o, c1, s1, c2, s2, h1, h2, rfl, rfl⟩ := switchCode_ok h
  have g1 := hg.reg h1
  have f := (hi.reg h1).1
  obtain ⟨k1, k2, k3, r2, l2, w2, ex, b1, b2, t2⟩ := ht h2
  dsimp only at k1 k3 r2 l2 w2 b1 b2 t2
  simp only [Option.map_some, List.nil_append] at b1
  have r1 : s.reg ≤ s1.reg := g1.reg
  have l1 : s.lab ≤ s1.lab := g1.lab
  have w1 : ∀ v, wset c1 v → s.reg < v ∧ v ≤ s1.reg := g1.wr
  refine ⟨k1.trans f.cont, f.brk, k3.trans f.ret, by dsimp only; omega, by dsimp only; omega, ?_, [], by simp [f.cases], by simp, ?_⟩
  · intro v hv
    dsimp only
    simp only [wset_append, wset_cons, wset_nil, or_false] at hv
    rcases hv with hv | hv | hv | hv | hv
    · have := w1 v hv; omega
    · exact (wset_caseJumps hv).elim
    · cases hv
    · have := w2 v hv; omega
    · cases hv
  · intro D hD
    dsimp only
    have d1 := dbound r1 w1 hD
    obtain ⟨Λ2, p1, p2, t2⟩ := t2 _ d1
    rw [b1, Option.getD_some]
    obtain ⟨Λ1, t1⟩ : ∃ Λ1, ∀ Λ, Agr Λ Λ1 s.lab s1.lab → (∀ p ∈ ex, Off Λ p.1) → ∀ c', Typ0 Λ (fun v => D v ∨ wset c1 v) c' → Typ0 Λ D (c1 ++ (caseJumps o ex ++ c')) := by
      by_cases hx : ex = []
      · subst hx
        obtain ⟨Λ1, t1⟩ := g1.typ0 hD
        exact ⟨Λ1, fun Λ hΛ _ c' h' => (t1 Λ hΛ).append h'⟩
      · obtain ⟨Λ1, t1⟩ := g1.typ1 hD
        refine ⟨Λ1, fun Λ hΛ he c' h' => t1 Λ hΛ _ ?_ (caseJumps_typ (fun v hv => .inr (g1.res v hv)) h' hx he)⟩
        intro v hv
        cases ex with
        | nil => exact absurd rfl hx
        | cons p ex => exact rset_cons.2 (.inl (reads_inst.2 (.inl hv)))
    refine ⟨put (s1.lab + 1) (glue s1.lab Λ1 Λ2), by simp, .inl f.dflt, ?_⟩
    intro Λ hΛ hr hc _
    have e1 : Agr Λ Λ1 s.lab s1.lab := fun id x y => (hΛ id x (by omega)).trans ((put_ne (by omega)).trans (glue_le y))
    have e2 : Agr Λ Λ2 (s1.lab + 1) s2.lab := fun id x y => (hΛ id (by omega) y).trans ((put_ne (by omega)).trans (glue_gt (by omega)))
    have e3 : Off Λ (s1.lab + 1) := .of ((hΛ _ (by omega) (by omega)).trans put_eq)
    refine t1 Λ e1 ?_ _ (Typ0.jump ?_ ((t2 Λ e2 ?_ ?_ ?_).append (Typ0.label e3 Typ0.nil)))
    · intro p hp v hv
      have := b2 p hp
      rw [e2 _ this.1 this.2] at hv
      exact p1 p hp v hv
    · split
      · rcases p2 with h | ⟨h, h'⟩
        · omega
        · intro v hv
          rw [e2 _ h.1 h.2] at hv
          exact h' v hv
      · exact e3
    · rw [f.ret]; exact hr
    · rw [f.cont]; exact hc
    · exact fun _ => e3

/-- code of declarations and their initialisers -/
abbrev DLive (s : GState) (c : List Immc) (s' : GState) : Prop := SLive false false s c s'

theorem localScalar_live {p : Bool} {t : DType} {g : G} (hg : GLive p g) (hi : GInv g) {s s' : GState} {c : List Immc} (h : localScalar t g s = .ok ((), c, s')) :
    DLive s c s' := by
  obtain ⟨o, c1, s1, h1, rfl, rfl⟩ := localScalar_ok h
  have k : Code s (c1 ++ [inst .store (some (.mem s.initOff)) (some o) none]) s1 Nul :=
    (hg.int h1).use rfl rfl (fun v => by rw [reads_inst]; simp [opeSet, opeRegs]) (fun _ h => h.elim) rfl rfl
  exact (SLive.of k (hi.int h1).1).same ⟨rfl, rfl, rfl, rfl, rfl, rfl⟩ rfl

theorem arrayInit_live {t : DType} : ∀ {n : Nat} {gs : List (DType → GM Unit)}
    (_ : ∀ g ∈ gs, ∀ {t s c s'}, g t s = .ok ((), c, s') → DLive s c s') {s s' : GState} {c : List Immc},
    arrayInit t n gs s = .ok ((), c, s') → DLive s c s'
  | 0, _, _, s, s', c, h => by
    simp only [arrayInit] at h
    gm at h
    obtain ⟨rfl, rfl⟩ := h
    exact .refl s
  | n + 1, [], _, s, s', c, h => by simp [arrayInit, ub_ok] at h
  | n + 1, g :: gs, hg, s, s', c, h => by
    obtain ⟨c1, s1, c2, h1, h2, rfl⟩ := arrayInit_cons h
    exact SLive.trans (hg g (by simp) h1) (arrayInit_live (fun g' hg' => hg g' (by simp [hg'])) h2)

theorem localMembers_live {off : Int} : ∀ {ms : List (DType × Nat)} {gs : List (DType → GM Unit)}
    (_ : ∀ g ∈ gs, ∀ {t s c s'}, g t s = .ok ((), c, s') → DLive s c s') {s s' : GState} {c : List Immc},
    localMembers off ms gs s = .ok ((), c, s') → DLive s c s'
  | [], _, _, s, s', c, h => by
    simp only [localMembers] at h
    gm at h
    obtain ⟨rfl, rfl⟩ := h
    exact .refl s
  | _ :: _, [], _, s, s', c, h => by simp [localMembers, ub_ok] at h
  | (t, o) :: ms, g :: gs, hg, s, s', c, h => by
    obtain ⟨c1, s1, c2, h1, h2, rfl⟩ := localMembers_cons h
    exact SLive.trans (SLive.after (a := s) (hg g (by simp) h1) ⟨rfl, rfl, rfl, rfl, rfl, rfl⟩ rfl)
      (localMembers_live (fun g' hg' => hg g' (by simp [hg'])) h2)

theorem localStruct_live {t : DType} {gs : List (DType → GM Unit)} (hg : ∀ g ∈ gs, ∀ {t s c s'}, g t s = .ok ((), c, s') → DLive s c s')
    {s s' : GState} {c : List Immc} (h : localStruct t gs s = .ok ((), c, s')) : DLive s c s' := by
  obtain ⟨ms, b, a, _, h2⟩ := localStruct_ok h
  exact localMembers_live hg h2

mutual
theorem localInit_live : ∀ (i : SInit), safeInit i = true → ∀ {t : DType} {s s' : GState} {c : List Immc}, localInit i t s = .ok ((), c, s') → DLive s c s'
  | .expr e, hs, t, s, s', c, h => by
    simp only [localInit] at h
    simp only [safeInit] at hs
    split at h
    · exact localScalar_live (expr_live e none hs) (expr_inv e) h
    · simp [ub_ok] at h
  | .str u b, _, t, s, s', c, h => by
    simp only [localInit] at h
    split at h
    · rw [localString_run, Out.ok.injEq, Prod.mk.injEq, Prod.mk.injEq] at h
      obtain ⟨_, rfl, rfl⟩ := h
      have k := (Code.nil s).skip (op := .str) (d := some (.mem s.initOff)) (f := some (.str b)) (g := none) rfl rfl fun v => by rw [reads_inst]; simp [opeRegs]
      exact SLive.same (b := s) (.of k (.refl s)) ⟨rfl, rfl, rfl, rfl, rfl, rfl⟩ rfl
    · simp [ub_ok] at h
  | .list is, hs, t, s, s', c, h => by
    simp only [localInit] at h
    simp only [safeInit] at hs
    split at h
    · exact arrayInit_live (localInits_live is hs) h
    · exact localStruct_live (localInits_live is hs) h
    · exact localStruct_live (localInits_live is hs) h
    · simp [ub_ok] at h
theorem localInits_live : ∀ (is : SInits), safeInits is = true → ∀ g ∈ localInits is, ∀ {t : DType} {s : GState} {c : List Immc} {s' : GState},
    g t s = .ok ((), c, s') → DLive s c s'
  | .nil, _, g, hg, _, _, _, _, _ => by simp [localInits] at hg
  | .cons i is, hs, g, hg, t, s, c, s', h => by
    simp only [localInits, List.mem_cons] at hg
    simp only [safeInits, Bool.and_eq_true] at hs
    rcases hg with rfl | hg
    · exact localInit_live i hs.1 h
    · exact localInits_live is hs.2 g hg h
end

theorem declare_reg (s : GState) (n : Str) (t : DType) : (s.declare n t).reg = s.reg := by
  unfold GState.declare
  split
  · split <;> rfl
  · rfl

theorem localDecl_live {d : SDecl} (hd : d.init.all safeInit = true) {s s' : GState} {c : List Immc} (h : localDecl d s = .ok ((), c, s')) : DLive s c s' := by
  obtain ⟨n, _, ⟨_, rfl, rfl⟩ | ⟨i, y, s1, e, _, h1, rfl⟩⟩ := localDecl_ok h
  · exact SLive.same (SLive.refl s) (declare_same s n _) (declare_reg s n _)
  · have g := localInit_live i (by simpa [e] using hd) h1
    have k : Same s { s.declare n d.dt with initOff := y.loc.off } := by
      obtain ⟨k1, k2, k3, k4, k5, k6⟩ := declare_same s n d.dt
      exact ⟨k1, k2, k3, k4, k5, k6⟩
    exact (SLive.same_left k (declare_reg s n _) g).same ⟨rfl, rfl, rfl, rfl, rfl, rfl⟩ rfl

theorem localDecls_live : ∀ {ds : List SDecl}, (ds.all fun d => d.init.all safeInit) = true → ∀ {s s' : GState} {c : List Immc}, localDecls ds s = .ok ((), c, s') → DLive s c s'
  | [], _, s, s', c, h => by
    simp only [localDecls] at h
    gm at h
    obtain ⟨rfl, rfl⟩ := h
    exact .refl s
  | d :: ds, hd, s, s', c, h => by
    obtain ⟨c1, s1, c2, h1, h2, rfl⟩ := localDecls_cons h
    simp only [List.all_cons, Bool.and_eq_true] at hd
    exact SLive.trans (localDecl_live hd.1 h1) (localDecls_live hd.2 h2)

theorem SLive.jump {fc fb : Bool} {s : GState} {id : Int}
    (h : id = s.ret ∨ (fc = true ∧ id = s.cont) ∨ (fb = true ∧ id = s.brk)) : SLive fc fb s [Gen.jump id] s := by
  refine ⟨rfl, rfl, rfl, by omega, by omega, ?_, [], by simp, by simp, ?_⟩
  · intro v hv
    rcases wset_cons.1 hv with h | h
    · cases h
    · exact (wset_nil h).elim
  · intro D hD
    refine ⟨fun _ => Nul, by simp, .inl rfl, ?_⟩
    intro Λ _ hr hc hb
    refine Typ0.jump ?_ Typ0.nil
    rcases h with rfl | ⟨h, rfl⟩ | ⟨h, rfl⟩
    · exact hr
    · exact hc h
    · exact hb h

/-- a label in front of a statement -/
theorem SLive.label {fc fb : Bool} {s s1 s' : GState} {c : List Immc} (h : SLive fc fb s1 c s') (h1 : s1.cont = s.cont) (h2 : s1.brk = s.brk)
    (h3 : s1.ret = s.ret) (h4 : s1.lab = s.lab + 1) (h4' : s1.reg = s.reg)
    (h5 : (s1.dflt = s.dflt ∨ s1.dflt = s.lab + 1) ∧ ∃ ex, s1.cases = s.cases.map (· ++ ex) ∧ ∀ p ∈ ex, p.1 = s.lab + 1) :
    SLive fc fb s (labelAt (s.lab + 1) :: c) s' := by
  obtain ⟨f1, f2, f3, f4, f5, f6, ex, a1, a2, a3⟩ := h
  obtain ⟨h5, ey, h6, h7⟩ := h5
  refine ⟨f1.trans h1, f2.trans h2, f3.trans h3, by omega, by omega, ?_, ey ++ ex, ?_, ?_, ?_⟩
  · intro v hv
    rcases wset_cons.1 hv with h | h
    · cases h
    · rw [← h4']; exact f6 v h
  · rw [a1, h6]
    cases s.cases <;> simp
  · intro p hp
    rcases List.mem_append.1 hp with h | h
    · have := h7 p h; omega
    · have := a2 p h; omega
  · intro D hD
    obtain ⟨Λe, t1, t2, t⟩ := a3 D (by rwa [h4'])
    refine ⟨put (s.lab + 1) Λe, ?_, ?_, ?_⟩
    · intro p hp
      rcases List.mem_append.1 hp with h | h
      · rw [h7 p h, put_eq]; exact fun _ h => h
      · rw [put_ne (by have := a2 p h; omega)]; exact t1 p h
    · rcases t2 with h | ⟨h, h'⟩
      · rcases h5 with e | e
        · exact .inl (h.trans e)
        · exact .inr ⟨by omega, by rw [h, e, put_eq]; exact fun _ h => h⟩
      · exact .inr ⟨by omega, by rw [put_ne (by omega)]; exact h'⟩
    · intro Λ hΛ hr hc hb
      refine Typ0.label (Off.of ((hΛ _ (by omega) (by omega)).trans put_eq)) (t Λ ?_ (by rwa [h3]) (by rwa [h1]) (by rwa [h2]))
      exact fun id x y => (hΛ id (by omega) y).trans (put_ne (by omega))

mutual
theorem stmt_live : ∀ (b : SStmt), sound b = true → ∀ {s s' : GState} {c : List Immc}, stmt b s = .ok ((), c, s') → SLive (freeCont b) (freeBrk b) s c s'
  | .cmpd is, hs, s, s', c, h => by
    obtain ⟨s1, h1, rfl⟩ := stmt_cmpd h
    simp only [sound] at hs
    have := items_live is hs h1
    simp only [freeCont, freeBrk]
    exact (SLive.after (a := s) this ⟨rfl, rfl, rfl, rfl, rfl, rfl⟩ rfl).same ⟨rfl, rfl, rfl, rfl, rfl, rfl⟩ rfl
  | .case v b, hs, s, s', c, h => by
    obtain ⟨cs, t, l, c1, hc, rfl, h1, rfl⟩ := stmt_case h
    simp only [sound] at hs
    simp only [freeCont, freeBrk]
    exact SLive.label (stmt_live b hs h1) rfl rfl rfl rfl rfl ⟨.inl rfl, [(s.lab + 1, l)], by simp [hc], by simp⟩
  | .dflt b, hs, s, s', c, h => by
    obtain ⟨c1, h1, rfl⟩ := stmt_dflt h
    simp only [sound] at hs
    simp only [freeCont, freeBrk]
    exact SLive.label (stmt_live b hs h1) rfl rfl rfl rfl rfl ⟨.inr rfl, [], by simp, by simp⟩
  | .cont, _, s, s', c, h => by
    simp only [stmt] at h
    gm at h
    obtain ⟨rfl, rfl⟩ := h
    exact SLive.jump (.inr (.inl ⟨by simp [freeCont], rfl⟩))
  | .brk, _, s, s', c, h => by
    simp only [stmt] at h
    gm at h
    obtain ⟨rfl, rfl⟩ := h
    exact SLive.jump (.inr (.inr ⟨by simp [freeBrk], rfl⟩))
  | .ret none, _, s, s', c, h => by
    simp only [stmt, Option.map_none] at h
    obtain ⟨rfl, rfl⟩ := returnCode_none h
    exact SLive.jump (.inl rfl)
  | .ret (some e), hs, s, s', c, h => by
    simp only [stmt, Option.map_some] at h
    simp only [sound] at hs
    obtain ⟨o, c1, h1, rfl⟩ := returnCode_some h
    have k : Code s (c1 ++ [inst .stret none (some o) none]) s' Nul :=
      ((expr_live e none hs).int h1).use rfl rfl (fun v => by rw [reads_inst]; simp [opeSet, opeRegs]) (fun _ h => h.elim) rfl rfl
    have := (SLive.of (fc := freeCont (.ret (some e))) (fb := freeBrk (.ret (some e))) k ((expr_inv e).int h1).1).trans (SLive.jump (id := s'.ret) (.inl rfl))
    simpa using this
  | .expr e, hs, s, s', c, h => by
    simp only [stmt] at h
    simp only [sound] at hs
    gm at h
    exact SLive.same_left (a := s) (b := { s with exprReg := none }) ⟨rfl, rfl, rfl, rfl, rfl, rfl⟩ rfl
      (SLive.of ((expr_live e none hs).code h) ((expr_inv e).code h).1)
  | .null, _, s, s', c, h => by
    simp only [stmt] at h
    gm at h
    obtain ⟨rfl, rfl⟩ := h
    exact .refl s
  | .ite g t, hs, s, s', c, h => by
    simp only [stmt] at h
    simp only [sound, Bool.and_eq_true] at hs
    simp only [freeCont, freeBrk]
    exact iteCode_live (expr_live g none hs.1) (expr_inv g) (stmt_live t hs.2) h
  | .itee g t e, hs, s, s', c, h => by
    simp only [stmt] at h
    simp only [sound, Bool.and_eq_true] at hs
    simp only [freeCont, freeBrk]
    exact iteeCode_live (expr_live g none hs.1.1) (expr_inv g) (fun h => (stmt_live t hs.1.2 h).mono (by simp +contextual) (by simp +contextual))
      (fun h => (stmt_live e hs.2 h).mono (by simp +contextual) (by simp +contextual)) h
  | .switch g b, hs, s, s', c, h => by
    simp only [stmt] at h
    simp only [sound, Bool.and_eq_true] at hs
    simp only [freeCont, freeBrk]
    exact switchCode_live (expr_live g none hs.1) (expr_inv g) (stmt_live b hs.2) h
  | .while g b, hs, s, s', c, h => by
    simp only [stmt] at h
    simp only [sound, Bool.and_eq_true] at hs
    simp only [freeCont, freeBrk]
    exact whileCode_live (expr_live g none hs.1) (expr_inv g) (stmt_live b hs.2) h
  | .for i g n b, hs, s, s', c, h => by
    obtain ⟨s1, h1, rfl⟩ := stmt_for h
    simp only [sound, Bool.and_eq_true] at hs
    obtain ⟨⟨⟨⟨hs1, -⟩, hs3⟩, hs4⟩, hs5⟩ := hs
    simp only [freeCont, freeBrk]
    have hn : sound n = true := by cases n <;> simp_all [simple, sound]
    have := forCode_live (fc := freeContItem i || freeCont n) (fb := freeBrkItem i || freeBrk n) hs3
      (fun h => (item_live i hs1 h).mono (by simp +contextual) (by simp +contextual))
      (fun h => (stmt_live n hn h).mono (by simp +contextual) (by simp +contextual)) (stmt_live b hs5) h1
    exact (SLive.after (a := s) this ⟨rfl, rfl, rfl, rfl, rfl, rfl⟩ rfl).same ⟨rfl, rfl, rfl, rfl, rfl, rfl⟩ rfl
theorem item_live : ∀ (i : SItem), soundItem i = true → ∀ {s s' : GState} {c : List Immc}, item i s = .ok ((), c, s') → SLive (freeContItem i) (freeBrkItem i) s c s'
  | .stmt b, hs, s, s', c, h => by
    simp only [item] at h
    simp only [soundItem] at hs
    simp only [freeContItem, freeBrkItem]
    exact stmt_live b hs h
  | .decls ds, hs, s, s', c, h => by
    simp only [item] at h
    simp only [soundItem] at hs
    exact (localDecls_live hs h).mono nofun nofun
  | .tag n t, _, s, s', c, h => by
    simp only [item] at h
    obtain ⟨rfl, tg, rfl⟩ := tagDecl_ok h
    exact (SLive.refl s).same ⟨rfl, rfl, rfl, rfl, rfl, rfl⟩ rfl
theorem items_live : ∀ (is : SItems), soundAll is = true → ∀ {s s' : GState} {c : List Immc}, items is s = .ok ((), c, s') → SLive (freeConts is) (freeBrks is) s c s'
  | .nil, _, s, s', c, h => by
    simp only [items] at h
    gm at h
    obtain ⟨rfl, rfl⟩ := h
    exact .refl s
  | .cons i is, hs, s, s', c, h => by
    obtain ⟨c1, s1, c2, h1, h2, rfl⟩ := items_cons h
    simp only [soundAll, Bool.and_eq_true] at hs
    simp only [freeConts, freeBrks]
    exact ((item_live i hs.1 h1).mono (by simp +contextual) (by simp +contextual)).trans
      ((items_live is hs.2 h2).mono (by simp +contextual) (by simp +contextual))
end

theorem paramsCode_live : ∀ {ps : Params} {i : Nat} {s s' : GState} {c : List Immc}, paramsCode i ps s = .ok ((), c, s') →
    s'.reg = s.reg ∧ (∀ v, ¬ wset c v) ∧ ∀ Λ D, Typ0 Λ D c
  | .nil, i, s, s', c, h => by
    simp only [paramsCode] at h
    gm at h
    obtain ⟨rfl, rfl⟩ := h
    exact ⟨rfl, fun _ => wset_nil, fun _ _ => Typ0.nil⟩
  | .cons n t ps, i, s, s', c, h => by
    obtain ⟨m, c1, rfl, _, h1, rfl⟩ := paramsCode_cons h
    obtain ⟨k1, k2, k3⟩ := paramsCode_live h1
    refine ⟨k1, fun v hv => ?_, fun Λ D => Typ0.inst rfl rfl (fun v => by rw [reads_inst]; simp [opeRegs]) (k3 Λ D)⟩
    rcases wset_cons.1 hv with h | h
    · cases h
    · exact k2 v h

/-- the code of a function, with nothing live at its beginning and end -/
theorem funcCode_live {n : Str} {t : DType} {b : SItems} {s s' : GState} {code : List Immc} (h : funcCode n t b s = .ok ((), code, s'))
    (hs : soundAll b = true) (hc : freeConts b = false) (hb : freeBrks b = false) (hl : -1 ≤ s.lab) (hn : n.head? ≠ some 46) :
    ∃ Λ, Typ0 Λ Nul code := by
  obtain ⟨name, ps, rt, pc, s1, bc, s2, h0, rfl, h1, h2, rfl, rfl⟩ := funcCode_ok h
  obtain ⟨hnm, -, -⟩ := nameOf_ok h0
  obtain ⟨fp, k⟩ := paramsCode_good h1
  obtain ⟨e1, e2, e3⟩ := paramsCode_live h1
  have hr : s1.ret = s.lab + 1 := k.ret
  have hlb : s1.lab = s.lab + 1 := k.lab
  obtain ⟨f1, f2, f3, f4, f5, f6, ex, a1, a2, a3⟩ := items_live b hs h2
  obtain ⟨Λe, -, -, t⟩ := a3 Nul (fun _ h => h.elim)
  let Λ : Name → RS := fun m v => ∃ id : Int, s1.lab < id ∧ m = labelName id ∧ Λe id v
  have g1 : ∀ id : Int, s1.lab < id → Λ (labelName id) = Λe id := by
    intro id x
    funext v
    refine propext ⟨?_, fun h => ⟨id, x, rfl, h⟩⟩
    rintro ⟨id', x', e, h⟩
    rw [labelName_inj (by omega) (by omega) e]
    exact h
  have g2 : Off Λ (s.lab + 1) := by
    rintro v ⟨id, x, e, -⟩
    have := labelName_inj (by omega) (by omega) e
    omega
  have g3 : ∀ v, ¬ Λ name v := by
    rintro v ⟨id, x, e, -⟩
    apply hn
    rw [← hnm, e]
    rfl
  refine ⟨Λ, Typ0.label g3 (Typ0.inst rfl rfl (fun v => by rw [reads_inst]; simp [opeRegs, intOpe]) ((e3 Λ _).append (Typ0.append ?_ (Typ0.label g2 ?_))))⟩
  · refine (t Λ (fun id x _ => g1 id x) (by rw [hr]; exact g2) (by rw [hc]; nofun) (by rw [hb]; nofun)).mono (fun _ => id) fun v => ?_
    exact ⟨fun h => h.elim, fun h => h.elim id fun h => (e2 v h).elim⟩
  · exact Typ0.inst rfl rfl (fun v => by rw [reads_inst]; simp [opeRegs, intOpe]) Typ0.nil

end Live
end Umlcc
