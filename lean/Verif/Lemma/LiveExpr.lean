import Verif.Lemma.LiveTyp
import Verif.Spec.Fragment
/-!
Live registers in the code of expressions.
-/
namespace Umlcc
namespace Live
open RSpec (reads writes target isLabelNamed opeRegs branches)
open Gen
open CSem (fresh safe safeArgs)

/-- the registers of an operand -/
def opeSet (o : Ope) : RS := fun v => v ∈ opeRegs (some o)
/-- the register of the expression generated last -/
def exprSet (s : GState) : RS := fun v => ∃ sf u, s.exprReg = some (sf, v, u)

/-- The code `c` generated between two states, with its value in the registers `R`: all registers it writes are new, and around any registers `F` live across it, it can be
given sets. Either the value is read afterwards (`K`), or nothing is live across or after it. -/
structure Code (s : GState) (c : List Immc) (s' : GState) (R : RS) : Prop where
  reg : s.reg ≤ s'.reg
  lab : s.lab ≤ s'.lab
  wr : ∀ v, wset c v → s.reg < v ∧ v ≤ s'.reg
  res : ∀ v, R v → wset c v
  typ : ∀ F D K B : RS, (∀ v, F v → D v) → (∀ v, D v → v ≤ s.reg) → (∀ v, B v → R v) → ((∀ v, R v → K v) ∨ (∀ v, ¬ F v) ∧ ∀ v, ¬ B v) →
    ∃ Λe : Int → RS, ∀ Λ : Name → RS, (∀ id, s.lab < id → id ≤ s'.lab → Λ (labelName id) = Λe id) → Typ Λ K D c F (fun v => F v ∨ B v)

theorem Code.nil (s : GState) : Code s [] s (fun _ => False) where
  reg := by omega
  lab := by omega
  wr v h := (wset_nil h).elim
  res v h := h.elim
  typ F D K B hF hD hB hK := ⟨fun _ _ => False, fun Λ _ => ⟨fun v => by have := hB v; simp; exact fun h => (this h).elim, hF⟩⟩

theorem Code.congr {s s' : GState} {c : List Immc} {R R' : RS} (h : Code s c s' R) (e : ∀ v, R v ↔ R' v) : Code s c s' R' := by
  rw [← show R = R' from funext fun v => propext (e v)]
  exact h

/-- states that differ elsewhere -/
theorem Code.to {s s' s2 : GState} {c : List Immc} {R : RS} (h : Code s c s' R) (hr : s2.reg = s'.reg) (hl : s2.lab = s'.lab) : Code s c s2 R := by
  obtain ⟨h1, h2, h3, h4, h5⟩ := h
  exact ⟨by omega, by omega, by rwa [hr], h4, by rwa [hl]⟩

theorem Code.seq {s s1 s2 : GState} {c1 c2 : List Immc} {R1 R2 : RS} (h1 : Code s c1 s1 R1) (h2 : Code s1 c2 s2 R2) : Code s (c1 ++ c2) s2 (fun v => R1 v ∨ R2 v) where
  reg := by have := h1.reg; have := h2.reg; omega
  lab := by have := h1.lab; have := h2.lab; omega
  wr v h := by
    have := h1.reg; have := h2.reg
    rcases wset_append.1 h with h | h
    · have := h1.wr v h; omega
    · have := h2.wr v h; omega
  res v h := wset_append.2 (h.imp (h1.res v) (h2.res v))
  typ F D K B hF hD hB hK := by
    obtain ⟨Λ1, t1⟩ := h1.typ F D (fun v => K v ∨ rset c2 v) (fun v => B v ∧ R1 v) hF hD (fun v h => h.2) (by
      rcases hK with hK | hK
      · exact .inl fun v h => .inl (hK v (.inl h))
      · exact .inr ⟨hK.1, fun v h => hK.2 v h.1⟩)
    have hd : ∀ v, (F v ∨ B v ∧ R1 v) → D v ∨ wset c1 v := fun v hv => hv.imp (hF v) fun h => h1.res v h.2
    obtain ⟨Λ2, t2⟩ := h2.typ (fun v => F v ∨ B v ∧ R1 v) (fun v => D v ∨ wset c1 v) K (fun v => B v ∧ R2 v) hd (by
      intro v hv
      rcases hv with hv | hv
      · have := hD v hv; have := h1.reg; omega
      · have := h1.wr v hv; omega) (fun v h => h.2) (by
      rcases hK with hK | hK
      · exact .inl fun v h => hK v (.inr h)
      · exact .inr ⟨fun v h => h.elim (hK.1 v) fun h => hK.2 v h.1, fun v h => hK.2 v h.1⟩)
    refine ⟨fun id => if id ≤ s1.lab then Λ1 id else Λ2 id, fun Λ hΛ => ?_⟩
    have b1 := h1.lab
    have b2 := h2.lab
    refine ((t1 Λ fun id a b => ?_).append (t2 Λ fun id a b => ?_)).cast (fun _ => Iff.rfl) fun v => ?_
    · exact (hΛ id a (by omega)).trans (if_pos b)
    · exact (hΛ id (by omega) b).trans (if_neg (by omega))
    · have := hB v
      grind

/-- a code whose value is read by the instructions `t` after it, which do not branch -/
theorem Code.tail {s s1 s' : GState} {c t : List Immc} {R1 R : RS} (h : Code s c s1 R1) (hr : s1.reg ≤ s'.reg) (hl : s'.lab = s1.lab)
    (hw : ∀ v, wset t v → s.reg < v ∧ v ≤ s'.reg) (hR : ∀ v, R v → wset c v ∨ wset t v) (hread : ∀ v, R1 v → rset t v)
    (ht : ∀ (F D K B : RS) (Λ : Name → RS), (∀ v, F v → D v) → (∀ v, R1 v → D v) → (∀ v, D v → v ≤ s1.reg) → (∀ v, B v → R v) →
      Typ Λ K D t (fun v => F v ∨ R1 v) (fun v => F v ∨ B v)) : Code s (c ++ t) s' R where
  reg := by have := h.reg; omega
  lab := by rw [hl]; exact h.lab
  wr v hv := by
    rcases wset_append.1 hv with hv | hv
    · have := h.wr v hv; omega
    · exact hw v hv
  res v hv := wset_append.2 (hR v hv)
  typ F D K B hF hD hB hK := by
    obtain ⟨Λ1, t1⟩ := h.typ F D (fun v => K v ∨ rset t v) R1 hF hD (fun _ => id) (.inl fun v hv => .inr (hread v hv))
    refine ⟨Λ1, fun Λ hΛ => (t1 Λ fun id a b => hΛ id a (by omega)).append ?_⟩
    refine ht F _ K B Λ (fun v hv => .inl (hF v hv)) (fun v hv => .inr (h.res v hv)) ?_ hB
    intro v hv
    have := h.reg
    rcases hv with hv | hv
    · have := hD v hv; omega
    · have := h.wr v hv; omega

theorem reads_inst {op : IOp} {d f g : Option Ope} {v : Int} : v ∈ reads (inst op d f g) ↔ v ∈ opeRegs f ∨ v ∈ opeRegs g ∨ (∃ id, d = some (.ptr id) ∧ v = id) := by
  unfold inst reads
  simp only [List.mem_append, or_assoc]
  cases d with
  | none => simp
  | some d => cases d <;> simp

theorem writes_reg {op : IOp} {sf : Sfx} {r : Int} {u : Bool} {f g : Option Ope} : writes (inst op (some (.reg sf r u)) f g) = some r := rfl

/-- an instruction that reads the value and puts its result in a new register -/
theorem Code.last {s s1 s' : GState} {c : List Immc} {R1 : RS} (h : Code s c s1 R1) {op : IOp} {f g : Option Ope} {sf : Sfx} {u : Bool} (ho : branches op = false)
    (hR : ∀ v, R1 v ↔ v ∈ opeRegs f ∨ v ∈ opeRegs g) (hl : s'.lab = s1.lab) (hr : s'.reg = s1.reg + 1) :
    Code s (c ++ [inst op (some (.reg sf (s1.reg + 1) u)) f g]) s' (fun v => v = s1.reg + 1) := by
  have hb := h.reg
  refine h.tail (by omega) hl ?_ ?_ ?_ ?_
  · intro v hv
    simp only [wset_cons, writes_reg, Option.some.injEq, wset_nil, or_false] at hv
    omega
  · intro v hv
    exact .inr (wset_cons.2 (.inl (by rw [hv]; rfl)))
  · intro v hv
    exact rset_cons.2 (.inl (reads_inst.2 (by rw [← or_assoc]; exact .inl ((hR v).1 hv))))
  · intro F D K B Λ hF hR1 hD hB
    refine Typ.inst (A' := fun v => F v ∨ B v) ho (fun v hv => hv.elim (hF v) (hR1 v)) ?_ ?_ ?_ ?_
    · intro v hv
      rcases reads_inst.1 hv with hv | hv | ⟨id, hv, _⟩
      · exact .inr ((hR v).2 (.inl hv))
      · exact .inr ((hR v).2 (.inr hv))
      · cases hv
    · intro v hv hw
      rcases hv with hv | hv
      · exact .inl hv
      · exact absurd (by rw [hB v hv]; rfl) hw
    · intro v hv
      cases hv
      exact .inl fun w hw => by have := hD w hw; omega
    · exact ⟨fun _ => Iff.rfl, fun v hv => hv.imp (hF v) fun h => by rw [hB v h]; rfl⟩

/-- an instruction that reads the value and writes no register -/
theorem Code.use {s s1 s' : GState} {c : List Immc} {R1 R : RS} (h : Code s c s1 R1) {op : IOp} {d f g : Option Ope} (ho : branches op = false)
    (hw : writes (inst op d f g) = none) (hR1 : ∀ v, R1 v ↔ v ∈ reads (inst op d f g)) (hR : ∀ v, R v → R1 v) (hl : s'.lab = s1.lab) (hr : s'.reg = s1.reg) :
    Code s (c ++ [inst op d f g]) s' R := by
  refine h.tail (by omega) hl ?_ ?_ ?_ ?_
  · intro v hv
    simp only [wset_cons, hw, wset_nil, or_false] at hv
    cases hv
  · exact fun v hv => .inl (h.res v (hR v hv))
  · exact fun v hv => rset_cons.2 (.inl ((hR1 v).1 hv))
  · intro F D K B Λ hF hD1 hD hB
    refine Typ.inst (A' := fun v => F v ∨ B v) ho (fun v hv => hv.elim (hF v) (hD1 v)) (fun v hv => .inr ((hR1 v).2 hv)) ?_ ?_ ?_
    · exact fun v hv _ => hv.imp id fun h => hR v (hB v h)
    · intro v hv
      exact absurd (hw.symm.trans hv) nofun
    · exact ⟨fun _ => Iff.rfl, fun v hv => .inl (hv.elim (hF v) fun h => hD1 v (hR v (hB v h)))⟩

theorem Code.ptrAdd {s s1 s' : GState} {c : List Immc} {R1 : RS} {a : Ope} {sf sb : Sfx} {b : Int} {u ub : Bool} {n : Int} (h : Code s c s1 (fun v => R1 v ∨ v = b)) {op : IOp}
    (ho : branches op = false) (ha : ∀ v, R1 v ↔ v ∈ opeRegs (some a)) (hl : s'.lab = s1.lab) (hr : s'.reg = s1.reg + 1) :
    Code s (c ++ [inst .mul (some (.reg sb b ub)) (some (.reg sb b ub)) (some (intOpe sb n)), inst op (some (.reg sf (s1.reg + 1) u)) (some a) (some (.reg sb b ub))]) s'
      (fun v => v = s1.reg + 1) := by
  have hb := h.reg
  have hbw := h.wr b (h.res b (.inr rfl))
  refine h.tail (by omega) hl ?_ ?_ ?_ ?_
  · intro v hv
    simp only [wset_cons, writes_reg, Option.some.injEq, wset_nil, or_false] at hv
    omega
  · exact fun v hv => .inr (wset_cons.2 (.inr (wset_cons.2 (.inl (by rw [hv]; rfl)))))
  · intro v hv
    simp only [rset_cons, reads_inst]
    rcases hv with hv | rfl
    · exact .inr (.inl (.inl ((ha v).1 hv)))
    · exact .inl (.inl (by simp [opeRegs]))
  · intro F D K B Λ hF hR1 hD hB
    refine Typ.inst (A' := fun v => F v ∨ R1 v ∨ v = b) rfl (fun v hv => hv.elim (hF v) (hR1 v)) ?_ (fun v hv _ => hv) ?_ ?_
    · intro v hv
      simp [reads, opeRegs, intOpe] at hv
      exact .inr (.inr hv)
    · intro v hv
      cases hv
      exact .inr (.inl (rset_cons.2 (.inl (by simp [reads, opeRegs]))))
    · refine Typ.inst (A' := fun v => F v ∨ B v) ho (fun v hv => .inl (hv.elim (hF v) (hR1 v))) ?_ ?_ ?_ ?_
      · intro v hv
        rcases reads_inst.1 hv with hv | hv | ⟨id, hv, _⟩
        · exact .inr (.inl ((ha v).2 hv))
        · exact .inr (.inr (by simpa [opeRegs] using hv))
        · cases hv
      · exact fun v hv hw => hv.elim .inl fun hv => absurd (by rw [hB v hv]; rfl) hw
      · intro v hv
        cases hv
        refine .inl fun w hw => ?_
        rcases hw with hw | hw
        · have := hD w hw; omega
        · cases hw; omega
      · exact ⟨fun _ => Iff.rfl, fun v hv => hv.elim (fun h => .inl (.inl (hF v h))) fun h => .inr (by rw [hB v h]; rfl)⟩

theorem Code.ptrDiff {s s1 s' : GState} {c : List Immc} {R1 : RS} {a b : Ope} {sf : Sfx} {u : Bool} {n : Int} (h : Code s c s1 R1)
    (hR : ∀ v, R1 v ↔ v ∈ opeRegs (some a) ∨ v ∈ opeRegs (some b)) (hl : s'.lab = s1.lab) (hr : s'.reg = s1.reg + 1) :
    Code s (c ++ [inst .sub (some (.reg sf (s1.reg + 1) u)) (some a) (some b), inst .div (some (.reg sf (s1.reg + 1) u)) (some (.reg sf (s1.reg + 1) u)) (some (intOpe sf n))]) s'
      (fun v => v = s1.reg + 1) := by
  have hb := h.reg
  refine h.tail (by omega) hl ?_ ?_ ?_ ?_
  · intro v hv
    simp only [wset_cons, writes_reg, Option.some.injEq, wset_nil, or_false] at hv
    omega
  · exact fun v hv => .inr (wset_cons.2 (.inl (by rw [hv]; rfl)))
  · intro v hv
    simp only [rset_cons, reads_inst]
    exact .inl (by have := (hR v).1 hv; grind)
  · intro F D K B Λ hF hR1 hD hB
    refine Typ.inst (A' := fun v => F v ∨ v = s1.reg + 1) rfl (fun v hv => hv.elim (hF v) (hR1 v)) ?_ ?_ ?_ ?_
    · intro v hv
      rcases reads_inst.1 hv with hv | hv | ⟨id, hv, _⟩
      · exact .inr ((hR v).2 (.inl hv))
      · exact .inr ((hR v).2 (.inr hv))
      · cases hv
    · exact fun v hv hw => hv.elim .inl fun hv => absurd (by rw [hv]; rfl) hw
    · intro v hv
      cases hv
      exact .inl fun w hw => by have := hD w hw; omega
    · refine Typ.inst (A' := fun v => F v ∨ B v) rfl (fun v hv => hv.imp (hF v) fun h => by rw [h]; rfl) ?_ ?_ ?_ ?_
      · intro v hv
        simp [reads, opeRegs, intOpe] at hv
        exact .inr hv
      · exact fun v hv _ => hv.imp id (hB v)
      · intro v hv
        cases hv
        exact .inr (.inl (rset_cons.2 (.inl (by simp [reads, opeRegs]))))
      · exact ⟨fun _ => Iff.rfl, fun v hv => hv.elim (fun h => .inl (.inl (hF v h))) fun h => .inr (by rw [hB v h]; rfl)⟩

theorem Code.preInc {s s1 s' : GState} {c : List Immc} {R1 : RS} {p : Ope} {sf : Sfx} {u : Bool} {l : ILit} {op : IOp} (h : Code s c s1 R1) (ho : branches op = false)
    (hR : ∀ v, R1 v ↔ v ∈ opeRegs (some p)) (hp : ∀ sf r u, p ≠ .reg sf r u) (hl : s'.lab = s1.lab) (hr : s'.reg = s1.reg + 1) :
    Code s (c ++ [load (.reg sf (s1.reg + 1) u) p, inst op (some (.reg sf (s1.reg + 1) u)) (some (.reg sf (s1.reg + 1) u)) (some (.int sf l)),
      inst .store (some p) (some (.reg sf (s1.reg + 1) u)) none]) s' (fun v => v = s1.reg + 1) := by
  have hb := h.reg
  have hwp : writes (inst .store (some p) (some (.reg sf (s1.reg + 1) u)) none) = none := by cases p <;> first | rfl | exact absurd rfl (hp _ _ _)
  refine h.tail (by omega) hl ?_ ?_ ?_ ?_
  · intro v hv
    simp only [wset_cons, writes_reg, hwp, Option.some.injEq, wset_nil, or_false] at hv
    rcases hv with hv | hv | hv
    · omega
    · omega
    · cases hv
  · exact fun v hv => .inr (wset_cons.2 (.inl (by rw [hv]; rfl)))
  · intro v hv
    simp only [rset_cons, reads_inst]
    exact .inl (.inl ((hR v).1 hv))
  · intro F D K B Λ hF hR1 hD hB
    refine Typ.inst (A' := fun v => F v ∨ R1 v ∨ v = s1.reg + 1) rfl (fun v hv => hv.elim (hF v) (hR1 v)) ?_ ?_ ?_ ?_
    · intro v hv
      rcases reads_inst.1 hv with hv | hv | ⟨id, hv, _⟩
      · exact .inr ((hR v).2 hv)
      · cases hv
      · cases hv
    · exact fun v hv hw => hv.elim .inl fun hv => hv.elim .inr fun hv => absurd (by rw [hv]; rfl) hw
    · intro v hv
      cases hv
      exact .inl fun w hw => by have := hD w hw; omega
    · have hd2 : ∀ v, F v ∨ R1 v ∨ v = s1.reg + 1 → D v ∨ writes (inst .load (some (.reg sf (s1.reg + 1) u)) (some p) none) = some v := by
        rintro v (hv | hv | rfl)
        · exact .inl (hF v hv)
        · exact .inl (hR1 v hv)
        · exact .inr rfl
      refine Typ.inst (A' := fun v => F v ∨ R1 v ∨ v = s1.reg + 1) ho hd2 ?_ (fun v hv _ => hv) ?_ ?_
      · intro v hv
        simp [reads, opeRegs] at hv
        exact .inr (.inr hv)
      · intro v hv
        cases hv
        exact .inr (.inl (rset_cons.2 (.inl (by simp [reads, opeRegs]))))
      · refine Typ.inst (A' := fun v => F v ∨ B v) rfl (fun v hv => .inl (hd2 v hv)) ?_ ?_ ?_ ?_
        · intro v hv
          rcases reads_inst.1 hv with hv | hv | ⟨id, hv, rfl⟩
          · exact .inr (.inr (by simpa [opeRegs] using hv))
          · cases hv
          · cases hv
            exact .inr (.inl ((hR _).2 (by simp [opeRegs])))
        · exact fun v hv _ => hv.imp id fun h => .inr (hB v h)
        · exact fun v hv => absurd (hwp.symm.trans hv) nofun
        · exact ⟨fun _ => Iff.rfl, fun v hv => .inl (.inl (hd2 v (hv.imp id fun h => .inr (hB v h))))⟩

theorem Code.postInc {s s1 s' : GState} {c : List Immc} {R1 : RS} {p : Ope} {sf : Sfx} {u : Bool} {l : ILit} {op : IOp} (h : Code s c s1 R1) (ho : branches op = false)
    (hR : ∀ v, R1 v ↔ v ∈ opeRegs (some p)) (hp : ∀ sf r u, p ≠ .reg sf r u) (hl : s'.lab = s1.lab) (hr : s'.reg = s1.reg + 1 + 1) :
    Code s (c ++ [load (.reg sf (s1.reg + 1) u) p, load (.reg sf (s1.reg + 1 + 1) u) (.reg sf (s1.reg + 1) u),
      inst op (some (.reg sf (s1.reg + 1) u)) (some (.reg sf (s1.reg + 1) u)) (some (.int sf l)),
      inst .store (some p) (some (.reg sf (s1.reg + 1) u)) none]) s' (fun v => v = s1.reg + 1 + 1) := by
  have hb := h.reg
  have hwp : writes (inst .store (some p) (some (.reg sf (s1.reg + 1) u)) none) = none := by cases p <;> first | rfl | exact absurd rfl (hp _ _ _)
  refine h.tail (by omega) hl ?_ ?_ ?_ ?_
  · intro v hv
    simp only [wset_cons, writes_reg, hwp, Option.some.injEq, wset_nil, or_false] at hv
    rcases hv with hv | hv | hv | hv
    · omega
    · omega
    · omega
    · cases hv
  · exact fun v hv => .inr (wset_cons.2 (.inr (wset_cons.2 (.inl (by rw [hv]; rfl)))))
  · intro v hv
    simp only [rset_cons, reads_inst]
    exact .inl (.inl ((hR v).1 hv))
  · intro F D K B Λ hF hR1 hD hB
    refine Typ.inst (A' := fun v => F v ∨ R1 v ∨ v = s1.reg + 1) rfl (fun v hv => hv.elim (hF v) (hR1 v)) ?_ ?_ ?_ ?_
    · intro v hv
      rcases reads_inst.1 hv with hv | hv | ⟨id, hv, _⟩
      · exact .inr ((hR v).2 hv)
      · cases hv
      · cases hv
    · exact fun v hv hw => hv.elim .inl fun hv => hv.elim .inr fun hv => absurd (by rw [hv]; rfl) hw
    · intro v hv
      cases hv
      exact .inl fun w hw => by have := hD w hw; omega
    · have hd2 : ∀ v, F v ∨ R1 v ∨ v = s1.reg + 1 → D v ∨ writes (inst .load (some (.reg sf (s1.reg + 1) u)) (some p) none) = some v := by
        rintro v (hv | hv | rfl)
        · exact .inl (hF v hv)
        · exact .inl (hR1 v hv)
        · exact .inr rfl
      have hd3 : ∀ v, F v ∨ R1 v ∨ v = s1.reg + 1 ∨ B v → (D v ∨ writes (inst .load (some (.reg sf (s1.reg + 1) u)) (some p) none) = some v) ∨
          writes (load (.reg sf (s1.reg + 1 + 1) u) (.reg sf (s1.reg + 1) u)) = some v := by
        rintro v (hv | hv | hv | hv)
        · exact .inl (hd2 v (.inl hv))
        · exact .inl (hd2 v (.inr (.inl hv)))
        · exact .inl (hd2 v (.inr (.inr hv)))
        · exact .inr (by rw [hB v hv]; rfl)
      refine Typ.inst (A' := fun v => F v ∨ R1 v ∨ v = s1.reg + 1 ∨ B v) rfl hd2 ?_ ?_ ?_ ?_
      · intro v hv
        simp [reads, opeRegs] at hv
        exact .inr (.inr hv)
      · rintro v (hv | hv | hv | hv) hw
        · exact .inl hv
        · exact .inr (.inl hv)
        · exact .inr (.inr hv)
        · exact absurd (by rw [hB v hv]; rfl) hw
      · intro v hv
        cases hv
        refine .inl fun w hw => ?_
        rcases hw with hw | hw
        · have := hD w hw; omega
        · cases hw; omega
      · refine Typ.inst (A' := fun v => F v ∨ R1 v ∨ v = s1.reg + 1 ∨ B v) ho hd3 ?_ (fun v hv _ => hv) ?_ ?_
        · intro v hv
          simp [reads, opeRegs] at hv
          exact .inr (.inr (.inl hv))
        · intro v hv
          cases hv
          exact .inr (.inl (rset_cons.2 (.inl (by simp [reads, opeRegs]))))
        · refine Typ.inst (A' := fun v => F v ∨ B v) rfl (fun v hv => .inl (hd3 v hv)) ?_ ?_ ?_ ?_
          · intro v hv
            rcases reads_inst.1 hv with hv | hv | ⟨id, hv, rfl⟩
            · exact .inr (.inr (.inl (by simpa [opeRegs] using hv)))
            · cases hv
            · cases hv
              exact .inr (.inl ((hR _).2 (by simp [opeRegs])))
          · exact fun v hv _ => hv.imp id fun h => .inr (.inr h)
          · exact fun v hv => absurd (hwp.symm.trans hv) nofun
          · exact ⟨fun _ => Iff.rfl, fun v hv => .inl (.inl (hd3 v (hv.imp id fun h => .inr (.inr h))))⟩

/-- an instruction that reads and writes no register -/
theorem Code.skip {s s' : GState} {c : List Immc} {R : RS} (h : Code s c s' R) {op : IOp} {d f g : Option Ope} (ho : branches op = false)
    (hw : writes (inst op d f g) = none) (hr : ∀ v, v ∉ reads (inst op d f g)) : Code s (c ++ [inst op d f g]) s' R where
  reg := h.reg
  lab := h.lab
  wr v hv := by
    rcases wset_append.1 hv with hv | hv
    · exact h.wr v hv
    · simp only [wset_cons, hw, wset_nil, or_false] at hv; cases hv
  res v hv := wset_append.2 (.inl (h.res v hv))
  typ F D K B hF hD hB hK := by
    obtain ⟨Λe, t⟩ := h.typ F D K B hF hD hB hK
    refine ⟨Λe, fun Λ hΛ => ((t Λ hΛ).mono (fun _ => .inl) fun _ => Iff.rfl).append ?_⟩
    have hd : ∀ v, F v ∨ B v → D v ∨ wset c v := fun v hv => hv.imp (hF v) fun hb => h.res v (hB v hb)
    exact Typ.inst (A' := fun v => F v ∨ B v) ho hd (fun v hv => absurd hv (hr v)) (fun v hv _ => hv) (fun v hv => absurd (hw.symm.trans hv) nofun)
      ⟨fun _ => Iff.rfl, fun v hv => .inl (hd v hv)⟩

theorem Code.skip_left {s s' : GState} {c : List Immc} {R : RS} (h : Code s c s' R) {op : IOp} {d f g : Option Ope} (ho : branches op = false)
    (hw : writes (inst op d f g) = none) (hr : ∀ v, v ∉ reads (inst op d f g)) : Code s (inst op d f g :: c) s' R := by
  have h0 := ((Code.nil s).skip ho hw hr).seq h
  exact h0.congr fun v => by simp

/-- a branch with an open label and the registers it reads -/
def Branch (j : Name → Immc) (R : RS) : Prop :=
  ∃ op f g, branches op = true ∧ (j = fun n => inst op (some (.label n)) f g) ∧ ∀ v, R v ↔ v ∈ opeRegs f ∨ v ∈ opeRegs g

theorem Branch.reads {j : Name → Immc} {R : RS} (h : Branch j R) (n : Name) (v : Int) : v ∈ reads (j n) ↔ R v := by
  obtain ⟨op, f, g, hb, rfl, hR⟩ := h
  rw [reads_inst, hR]
  simp

theorem Typ.open {Λ : Name → RS} {K D A A' B : RS} {j : Name → Immc} {R : RS} {n : Name} {c : List Immc} (h : Branch j R) (hd : ∀ v, A v → D v)
    (hr : ∀ v, R v → A v) (hf : ∀ v, A' v → A v) (hj : ∀ v, Λ n v → A v)
    (hw : (∀ v, ¬ Λ n v) ∨ n ∈ defs c) (ht : Typ Λ K D c A' B) : Typ Λ K D (j n :: c) A B := by
  have hr' := h.reads n
  obtain ⟨op, f, g, hb, rfl, hR⟩ := h
  exact Typ.branch hb hd (fun v hv => hr v ((hr' v).1 hv)) hf hj hw ht

theorem Branch.wset {j : Name → Immc} {R : RS} (h : Branch j R) {n : Name} {c : List Immc} {v : Int} : wset (j n :: c) v ↔ wset c v := by
  obtain ⟨op, f, g, hb, rfl, hR⟩ := h
  rw [wset_cons]
  simp [inst, writes]

theorem Branch.defs {j : Name → Immc} {R : RS} (h : Branch j R) {n : Name} {c : List Immc} : Gen.defs (j n :: c) = Gen.defs c := by
  obtain ⟨op, f, g, hb, rfl, hR⟩ := h
  rfl

theorem Code.start {s s' : GState} {c : List Immc} {R : RS} {r l : Int} {e : Option (Sfx × Int × Bool)} (h : Code { s with reg := r, lab := l, exprReg := e } c s' R) :
    r ≤ s'.reg ∧ l ≤ s'.lab := ⟨h.reg, h.lab⟩

theorem Code.cond {s s0 s1 s1' s2 s3 s' : GState} {c1 c2 c3 : List Immc} {Rc : RS} {j : Name → Immc} {a b : Ope} {sf : Sfx} {u : Bool}
    (h0r : s0.reg = s.reg) (h0l : s0.lab = s.lab + 1 + 1) (h1 : Code s0 c1 s1 Rc) (hj : Branch j Rc) (h1r : s1'.reg = s1.reg + 1) (h1l : s1'.lab = s1.lab)
    (h2 : Code s1' c2 s2 (opeSet a)) (h3 : Code s2 c3 s3 (opeSet b)) (hr' : s'.reg = s3.reg) (hl' : s'.lab = s3.lab) :
    Code s (c1 ++ (j (labelName (s.lab + 1)) :: (c2 ++ (load (.reg sf (s1.reg + 1) u) a :: jump (s.lab + 1 + 1) :: labelAt (s.lab + 1) :: (c3 ++
        [load (.reg sf (s1.reg + 1) u) b, labelAt (s.lab + 1 + 1)]))))) s' (fun v => v = s1.reg + 1) := by
  have r1 := h1.reg
  have r2 := h2.reg
  have r3 := h3.reg
  have l1 := h1.lab
  have l2 := h2.lab
  have l3 := h3.lab
  refine ⟨by omega, by omega, ?_, ?_, ?_⟩
  · intro v hv
    simp only [wset_append, wset_cons, hj.wset, writes_reg, wset_nil, Option.some.injEq, or_false] at hv
    rcases hv with hv | hv | hv | hv | hv | hv | hv | hv
    · have := h1.wr v hv; omega
    · have := h2.wr v hv; omega
    · omega
    · cases hv
    · cases hv
    · have := h3.wr v hv; omega
    · omega
    · cases hv
  · intro v hv
    simp only [wset_append, wset_cons, hj.wset, writes_reg, Option.some.injEq]
    exact .inr (.inr (.inl hv.symm))
  · intro F D K B hF hD hB hK
    have hFK : ∀ v, v = s1.reg + 1 → K v ∨ ∀ w, F w ∨ B w → w = v := by
      intro v hv
      rcases hK with hK | hK
      · exact .inl (hK v hv)
      · exact .inr fun w hw => (hw.elim (hK.1 w) (hK.2 w)).elim
    obtain ⟨Λ1, t1⟩ := h1.typ F D (fun v => K v ∨ rset (j (labelName (s.lab + 1)) :: (c2 ++ (load (.reg sf (s1.reg + 1) u) a :: jump (s.lab + 1 + 1) :: labelAt (s.lab + 1) :: (c3 ++
        [load (.reg sf (s1.reg + 1) u) b, labelAt (s.lab + 1 + 1)])))) v) Rc hF (by rw [h0r]; exact hD) (fun _ => id)
      (.inl fun v hv => .inr (rset_cons.2 (.inl ((hj.reads _ v).2 hv))))
    obtain ⟨Λ2, t2⟩ := h2.typ F (fun v => D v ∨ wset c1 v) (fun v => K v ∨ rset (load (.reg sf (s1.reg + 1) u) a :: jump (s.lab + 1 + 1) :: labelAt (s.lab + 1) :: (c3 ++
        [load (.reg sf (s1.reg + 1) u) b, labelAt (s.lab + 1 + 1)])) v) (opeSet a) (fun v hv => .inl (hF v hv))
      (by
        intro v hv
        rcases hv with hv | hv
        · have := hD v hv; omega
        · have := h1.wr v hv; omega) (fun _ => id)
      (.inl fun v hv => .inr (rset_cons.2 (.inl (reads_inst.2 (.inl hv)))))
    obtain ⟨Λ3, t3⟩ := h3.typ F (fun v => ((D v ∨ wset c1 v) ∨ wset c2 v) ∨ v = s1.reg + 1)
      (fun v => K v ∨ rset [load (.reg sf (s1.reg + 1) u) b, labelAt (s.lab + 1 + 1)] v) (opeSet b) (fun v hv => .inl (.inl (.inl (hF v hv))))
      (by
        intro v hv
        rcases hv with ((hv | hv) | hv) | hv
        · have := hD v hv; omega
        · have := h1.wr v hv; omega
        · have := h2.wr v hv; omega
        · omega) (fun _ => id)
      (.inl fun v hv => .inr (rset_cons.2 (.inl (reads_inst.2 (.inl hv)))))
    refine ⟨fun id => if id = s.lab + 1 then F else if id = s.lab + 1 + 1 then (fun v => F v ∨ B v) else if id ≤ s1.lab then Λ1 id else if id ≤ s2.lab then Λ2 id else Λ3 id,
      fun Λ hΛ => ?_⟩
    have eno : Λ (labelName (s.lab + 1)) = F := (hΛ _ (by omega) (by omega)).trans (if_pos rfl)
    have edone : Λ (labelName (s.lab + 1 + 1)) = fun v => F v ∨ B v := (hΛ _ (by omega) (by omega)).trans ((if_neg (by omega)).trans (if_pos rfl))
    refine (t1 Λ fun id x y => (hΛ id (by omega) (by omega)).trans ?_).append ?_
    · dsimp only; rw [if_neg (by omega), if_neg (by omega), if_pos (by omega)]
    refine Typ.open (A' := F) hj (fun v hv => hv.imp (hF v) (h1.res v)) (fun v hv => .inr hv) (fun v hv => .inl hv) (fun v hv => .inl (by rwa [eno] at hv))
      (.inr (by simp [defs_append, defs_inst, defs_label])) ?_
    refine (t2 Λ fun id x y => (hΛ id (by omega) (by omega)).trans ?_).append ?_
    · dsimp only; rw [if_neg (by omega), if_neg (by omega), if_neg (by omega), if_pos (by omega)]
    have hF1 : ∀ v, F v → (D v ∨ wset c1 v) ∨ wset c2 v := fun v hv => .inl (.inl (hF v hv))
    refine Typ.inst (A' := fun v => F v ∨ B v) rfl (fun v hv => hv.elim (hF1 v) (fun h => .inr (h2.res v h))) ?_ ?_ ?_ ?_
    · intro v hv
      rcases reads_inst.1 hv with hv | hv | ⟨id, hv, _⟩
      · exact .inr hv
      · cases hv
      · cases hv
    · exact fun v hv hw => hv.elim .inl fun hv => absurd (by rw [hB v hv]; rfl) hw
    · intro v hv
      cases hv
      exact .inr (.inr (hFK _ rfl))
    have hd : ∀ v, F v ∨ B v → ((D v ∨ wset c1 v) ∨ wset c2 v) ∨ writes (.inst ⟨.load, some (.reg sf (s1.reg + 1) u), some a, none⟩) = some v :=
      fun v hv => hv.imp (hF1 v) fun h => by rw [hB v h]; rfl
    refine Typ.jmp (A' := F) hd (fun v hv => by rwa [edone] at hv) (.inr (by simp [defs_append, defs_inst, defs_label])) ?_
    refine Typ.label (fun v hv => hd v (.inl hv)) (fun v => by rw [eno]) ?_
    refine Typ.mono (fun _ => id) ((t3 Λ fun id x y => (hΛ id (by omega) (by omega)).trans ?_).append ?_) (fun v => by
      show _ ∨ _ ↔ _ ∨ some (s1.reg + 1) = some v
      rw [Option.some.injEq, eq_comm (a := v)])
    · dsimp only; rw [if_neg (by omega), if_neg (by omega), if_neg (by omega), if_neg (by omega)]
    refine Typ.inst (A' := fun v => F v ∨ B v) rfl (fun v hv => hv.elim (fun h => .inl (.inl (hF1 v h))) (fun h => .inr (h3.res v h))) ?_ ?_ ?_ ?_
    · intro v hv
      rcases reads_inst.1 hv with hv | hv | ⟨id, hv, _⟩
      · exact .inr hv
      · cases hv
      · cases hv
    · exact fun v hv hw => hv.elim .inl fun hv => absurd (by rw [hB v hv]; rfl) hw
    · intro v hv
      cases hv
      exact .inr (.inr (hFK _ rfl))
    have hd' : ∀ v, F v ∨ B v → ((((D v ∨ wset c1 v) ∨ wset c2 v) ∨ v = s1.reg + 1) ∨ wset c3 v) ∨
        writes (.inst ⟨.load, some (.reg sf (s1.reg + 1) u), some b, none⟩) = some v :=
      fun v hv => hv.elim (fun h => .inl (.inl (.inl (hF1 v h)))) fun h => .inr (by rw [hB v h]; rfl)
    exact Typ.label hd' (fun v => by rw [edone]) ⟨fun _ => Iff.rfl, hd'⟩

theorem Code.logical {s s0 s1 s2 s' : GState} {c1 c2 : List Immc} {R1 R2 : RS} {j k : Name → Immc} {a b : Int} {sf : Sfx} {u : Bool}
    (h0r : s0.reg = s.reg) (h0l : s0.lab = s.lab + 1 + 1) (h1 : Code s0 c1 s1 R1) (hj : Branch j R1) (h2 : Code s1 c2 s2 R2) (hk : Branch k R2)
    (hr' : s'.reg = s2.reg + 1) (hl' : s'.lab = s2.lab) :
    Code s (c1 ++ (j (labelName (s.lab + 1)) :: (c2 ++ [k (labelName (s.lab + 1)), load (.reg sf (s2.reg + 1) u) (intOpe sf a),
        jump (s.lab + 1 + 1), labelAt (s.lab + 1), load (.reg sf (s2.reg + 1) u) (intOpe sf b), labelAt (s.lab + 1 + 1)]))) s' (fun v => v = s2.reg + 1) := by
  have r1 := h1.reg
  have r2 := h2.reg
  have l1 := h1.lab
  have l2 := h2.lab
  refine ⟨by omega, by omega, ?_, ?_, ?_⟩
  · intro v hv
    simp only [wset_append, wset_cons, hj.wset, hk.wset, writes_reg, wset_nil, Option.some.injEq, or_false] at hv
    rcases hv with hv | hv | hv | hv | hv | hv | hv
    · have := h1.wr v hv; omega
    · have := h2.wr v hv; omega
    · omega
    · cases hv
    · cases hv
    · omega
    · cases hv
  · intro v hv
    simp only [wset_append, wset_cons, hj.wset, hk.wset, writes_reg, Option.some.injEq]
    exact .inr (.inr (.inl hv.symm))
  · intro F D K B hF hD hB hK
    have hFK : ∀ v, v = s2.reg + 1 → K v ∨ ∀ w, F w ∨ B w → w = v := by
      intro v hv
      rcases hK with hK | hK
      · exact .inl (hK v hv)
      · exact .inr fun w hw => (hw.elim (hK.1 w) (hK.2 w)).elim
    obtain ⟨Λ1, t1⟩ := h1.typ F D (fun v => K v ∨ rset (j (labelName (s.lab + 1)) :: (c2 ++ [k (labelName (s.lab + 1)), load (.reg sf (s2.reg + 1) u) (intOpe sf a),
        jump (s.lab + 1 + 1), labelAt (s.lab + 1), load (.reg sf (s2.reg + 1) u) (intOpe sf b), labelAt (s.lab + 1 + 1)])) v) R1 hF (by rw [h0r]; exact hD) (fun _ => id)
      (.inl fun v hv => .inr (rset_cons.2 (.inl ((hj.reads _ v).2 hv))))
    obtain ⟨Λ2, t2⟩ := h2.typ F (fun v => D v ∨ wset c1 v) (fun v => K v ∨ rset [k (labelName (s.lab + 1)), load (.reg sf (s2.reg + 1) u) (intOpe sf a),
        jump (s.lab + 1 + 1), labelAt (s.lab + 1), load (.reg sf (s2.reg + 1) u) (intOpe sf b), labelAt (s.lab + 1 + 1)] v) R2 (fun v hv => .inl (hF v hv))
      (by
        intro v hv
        rcases hv with hv | hv
        · have := hD v hv; omega
        · have := h1.wr v hv; omega) (fun _ => id)
      (.inl fun v hv => .inr (rset_cons.2 (.inl ((hk.reads _ v).2 hv))))
    refine ⟨fun id => if id = s.lab + 1 then F else if id = s.lab + 1 + 1 then (fun v => F v ∨ B v) else if id ≤ s1.lab then Λ1 id else Λ2 id, fun Λ hΛ => ?_⟩
    have eno : Λ (labelName (s.lab + 1)) = F := (hΛ _ (by omega) (by omega)).trans (if_pos rfl)
    have edone : Λ (labelName (s.lab + 1 + 1)) = fun v => F v ∨ B v := (hΛ _ (by omega) (by omega)).trans ((if_neg (by omega)).trans (if_pos rfl))
    refine (t1 Λ fun id x y => (hΛ id (by omega) (by omega)).trans ?_).append ?_
    · dsimp only; rw [if_neg (by omega), if_neg (by omega), if_pos (by omega)]
    refine Typ.open (A' := F) hj (fun v hv => hv.imp (hF v) (h1.res v)) (fun v hv => .inr hv) (fun v hv => .inl hv) (fun v hv => .inl (by rwa [eno] at hv))
      (.inr (by simp [defs_append, hk.defs, defs_inst, defs_label])) ?_
    refine (t2 Λ fun id x y => (hΛ id (by omega) (by omega)).trans ?_).append ?_
    · dsimp only; rw [if_neg (by omega), if_neg (by omega), if_neg (by omega)]
    have hF1 : ∀ v, F v → (D v ∨ wset c1 v) ∨ wset c2 v := fun v hv => .inl (.inl (hF v hv))
    refine Typ.open (A' := F) hk (fun v hv => hv.elim (hF1 v) (fun h => .inr (h2.res v h))) (fun v hv => .inr hv) (fun v hv => .inl hv) (fun v hv => .inl (by rwa [eno] at hv))
      (.inr (by simp [defs_inst, defs_label])) ?_
    have hnr : ∀ {n : Int} {v}, v ∉ reads (load (.reg sf (s2.reg + 1) u) (intOpe sf n)) := by
      intro n v; rw [reads_inst]; simp [opeRegs, intOpe]
    refine Typ.inst (A' := fun v => F v ∨ B v) rfl hF1 (fun v hv => absurd hv hnr) ?_ ?_ ?_
    · exact fun v hv hw => hv.elim id fun hv => absurd (by rw [hB v hv]; rfl) hw
    · intro v hv
      cases hv
      exact .inr (.inr (hFK _ rfl))
    have hd : ∀ v, F v ∨ B v → ((D v ∨ wset c1 v) ∨ wset c2 v) ∨ writes (load (.reg sf (s2.reg + 1) u) (intOpe sf a)) = some v :=
      fun v hv => hv.imp (hF1 v) fun h => by rw [hB v h]; rfl
    refine Typ.jmp (A' := F) hd (fun v hv => by rwa [edone] at hv) (.inr (by simp [defs_inst, defs_label])) ?_
    refine Typ.label (fun v hv => hd v (.inl hv)) (fun v => by rw [eno]) ?_
    refine Typ.inst (A' := fun v => F v ∨ B v) rfl (fun v hv => hd v (.inl hv)) (fun v hv => absurd hv hnr) ?_ ?_ ?_
    · exact fun v hv hw => hv.elim id fun hv => absurd (by rw [hB v hv]; rfl) hw
    · intro v hv
      cases hv
      exact .inr (.inr (hFK _ rfl))
    have hd' : ∀ v, F v ∨ B v → (((D v ∨ wset c1 v) ∨ wset c2 v) ∨ writes (load (.reg sf (s2.reg + 1) u) (intOpe sf a)) = some v) ∨
        writes (load (.reg sf (s2.reg + 1) u) (intOpe sf b)) = some v :=
      fun v hv => .inl (hd v hv)
    exact Typ.label hd' (fun v => by rw [edone]) ⟨fun _ => Iff.rfl, hd'⟩

end Live
end Umlcc
