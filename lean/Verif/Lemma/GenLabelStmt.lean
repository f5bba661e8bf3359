import Verif.Lemma.GenLabel
import Verif.Spec.Flow
/-!
Labels of the code of statements and functions.
-/
namespace Umlcc
namespace Gen
open RSpec (target isLabelNamed UniqueLabels branches)
open Flow

/-- What the code of a statement does with labels: those defined are new and distinct; those used are among them, or are the label of the function's
end, or those of the loop around if `fc`, `fb` say so; remembered cases and the default label are among those defined. -/
structure SGood (fc fb : Bool) (s : GState) (c : List Immc) (s' : GState) : Prop where
  cont : s'.cont = s.cont
  brk : s'.brk = s.brk
  ret : s'.ret = s.ret
  lab : s.lab ≤ s'.lab
  labels : ∃ is : List Int, defs c = is.map labelName ∧ is.Nodup ∧ (∀ i ∈ is, s.lab < i ∧ i ≤ s'.lab) ∧
    (∀ n ∈ uses c, (∃ i ∈ is, n = labelName i) ∨ n = labelName s.ret ∨ (fc = true ∧ n = labelName s.cont) ∨ (fb = true ∧ n = labelName s.brk)) ∧
    (s'.dflt = s.dflt ∨ s'.dflt ∈ is) ∧ ∃ extra, s'.cases = s.cases.map (· ++ extra) ∧ ∀ p ∈ extra, p.1 ∈ is

theorem SGood.of {fc fb : Bool} {s s' : GState} {c : List Immc} (h : Good s c s') : SGood fc fb s c s' := by
  obtain ⟨f, is, a1, a2, a3, a4⟩ := h
  exact ⟨f.cont, f.brk, f.ret, f.lab, is, a1, a2, a3, fun n hn => .inl (a4 n hn), .inl f.dflt, [], by simp [f.cases], by simp⟩

theorem SGood.mono {fc fb fc' fb' : Bool} {s s' : GState} {c : List Immc} (h : SGood fc fb s c s') (h1 : fc = true → fc' = true)
    (h2 : fb = true → fb' = true) : SGood fc' fb' s c s' := by
  obtain ⟨f1, f2, f3, f4, is, a1, a2, a3, a4, a5⟩ := h
  refine ⟨f1, f2, f3, f4, is, a1, a2, a3, ?_, a5⟩
  intro n hn
  rcases a4 n hn with h | h | ⟨h, e⟩ | ⟨h, e⟩
  · exact .inl h
  · exact .inr (.inl h)
  · exact .inr (.inr (.inl ⟨h1 h, e⟩))
  · exact .inr (.inr (.inr ⟨h2 h, e⟩))

theorem SGood.trans {fc fb : Bool} {a b d : GState} {x y : List Immc} (h : SGood fc fb a x b) (k : SGood fc fb b y d) : SGood fc fb a (x ++ y) d := by
  obtain ⟨f1, f2, f3, f4, is, a1, a2, a3, a4, a5, ex, a6, a7⟩ := h
  obtain ⟨g1, g2, g3, g4, js, b1, b2, b3, b4, b5, ey, b6, b7⟩ := k
  refine ⟨g1.trans f1, g2.trans f2, g3.trans f3, by omega, is ++ js, by simp [defs_append, a1, b1], ?_, ?_, ?_, ?_, ex ++ ey, ?_, ?_⟩
  · rw [List.nodup_append]
    refine ⟨a2, b2, fun x hx y hy => ?_⟩
    have := a3 x hx
    have := b3 y hy
    omega
  · intro i hi
    rcases List.mem_append.1 hi with h | h
    · have := a3 i h; omega
    · have := b3 i h; omega
  · intro n hn
    rw [uses_append] at hn
    rcases List.mem_append.1 hn with h | h
    · rcases a4 n h with ⟨i, hi, e⟩ | h
      · exact .inl ⟨i, by simp [hi], e⟩
      · exact .inr h
    · rcases b4 n h with ⟨i, hi, e⟩ | h
      · exact .inl ⟨i, by simp [hi], e⟩
      · rw [f1, f2, f3] at h
        exact .inr h
  · rcases b5 with h | h
    · rcases a5 with h' | h'
      · exact .inl (h.trans h')
      · exact .inr (by simp [h, h'])
    · exact .inr (by simp [h])
  · rw [b6, a6]
    cases a.cases <;> simp
  · intro p hp
    rcases List.mem_append.1 hp with h | h
    · simp [a7 p h]
    · simp [b7 p h]

/-- changes of the state that labels do not depend on -/
structure Same (s s' : GState) : Prop where
  cont : s'.cont = s.cont
  brk : s'.brk = s.brk
  ret : s'.ret = s.ret
  lab : s'.lab = s.lab
  cases : s'.cases = s.cases
  dflt : s'.dflt = s.dflt

theorem SGood.same {fc fb : Bool} {a b d : GState} {x : List Immc} (h : SGood fc fb a x b) (k : Same b d) : SGood fc fb a x d := by
  obtain ⟨k1, k2, k3, k4, k5, k6⟩ := k
  obtain ⟨f1, f2, f3, f4, f5⟩ := h
  exact ⟨k1.trans f1, k2.trans f2, k3.trans f3, by omega, by rw [k4, k5, k6]; exact f5⟩

theorem SGood.same_left {fc fb : Bool} {a b d : GState} {x : List Immc} (k : Same a b) (h : SGood fc fb b x d) : SGood fc fb a x d := by
  obtain ⟨k1, k2, k3, k4, k5, k6⟩ := k
  obtain ⟨f1, f2, f3, f4, f5⟩ := h
  rw [k1] at f1
  rw [k2] at f2
  rw [k3] at f3
  rw [k4, k5, k6, k1, k2, k3] at f5
  exact ⟨f1, f2, f3, by omega, f5⟩

theorem SGood.after {fc fb : Bool} {a b d : GState} {x : List Immc} (h : SGood fc fb b x d) (k : Same a b) : SGood fc fb a x d := .same_left k h

theorem SGood.refl {fc fb : Bool} (s : GState) : SGood fc fb s [] s := .of (.refl s)

theorem mem_endLabel {c : List Immc} {n : Name} (h : endLabel c = some n) : n ∈ defs c := by
  unfold endLabel at h
  split at h
  · simp at h
  · split at h
    · rename_i k v m hl
      simp only [Option.some.injEq] at h
      subst h
      exact mem_defs.2 ⟨_, List.mem_of_getLast? hl, by simp [isLabelNamed]⟩
    · simp at h

theorem iteCode_good {g : G} (hg : GInv g) {t : GM Unit} {fc fb : Bool} (ht : ∀ {s c s'}, t s = .ok ((), c, s') → SGood fc fb s c s')
    {s s' : GState} {code : List Immc} (h : iteCode g t s = .ok ((), code, s')) : SGood fc fb s code s' := by
  obtain ⟨j, c1, s1, c2, h1, h2, h3⟩ := iteCode_ok h
  obtain ⟨g1, hj⟩ := hg.jmp h1
  have g1' := Good.start (r := s.reg) (e := s.exprReg) g1 (by omega) (by omega)
  have f1 := g1.1.lab
  dsimp only at f1
  obtain ⟨is, a1, a2, a3, a4⟩ := g1'.2
  have f := g1'.1
  obtain ⟨p1, p2, p3, p4, js, b1, b2, b3, b4, b5, ex, b6, b7⟩ := ht h2
  rw [f.cont] at p1
  rw [f.brk] at p2
  rw [f.ret] at p3
  rw [f.cont, f.brk, f.ret] at b4
  rw [f.dflt] at b5
  rw [f.cases] at b6
  rcases h3 with ⟨n, hn, rfl⟩ | ⟨hn, rfl⟩
  · have hd := mem_endLabel hn
    rw [b1, List.mem_map] at hd
    obtain ⟨k, hk, rfl⟩ := hd
    refine ⟨p1, p2, p3, by omega, is ++ js, ?_, ?_, ?_, ?_, ?_, ex, b6, ?_⟩
    · simp [defs_append, hj.defs, a1, b1]
    · simp only [List.nodup_append]
      grind
    · intro i hi
      simp only [List.mem_append] at hi
      grind
    · intro n hn
      simp only [uses_append, hj.uses, List.mem_append, List.mem_cons] at hn
      rcases hn with hn | rfl | hn
      · obtain ⟨i, hi, e⟩ := a4 n hn; exact .inl ⟨i, by simp [hi], e⟩
      · exact .inl ⟨_, by simp [hk], rfl⟩
      · rcases b4 n hn with ⟨i, hi, e⟩ | h
        · exact .inl ⟨i, by simp [hi], e⟩
        · exact .inr h
    · exact b5.imp id fun h => by simp [h]
    · intro p hp; simp [b7 p hp]
  · refine ⟨p1, p2, p3, by omega, is ++ (js ++ [s.lab + 1]), ?_, ?_, ?_, ?_, ?_, ex, b6, ?_⟩
    · simp [defs_append, hj.defs, defs_label, defs_nil, a1, b1]
    · simp only [List.nodup_append, List.nodup_cons, List.mem_append, List.mem_cons, List.not_mem_nil, or_false]
      grind
    · intro i hi
      simp only [List.mem_append, List.mem_cons, List.not_mem_nil, or_false] at hi
      grind
    · intro n hn
      simp only [uses_append, hj.uses, uses_label, uses_nil, List.append_nil, List.mem_append, List.mem_cons] at hn
      rcases hn with hn | rfl | hn
      · obtain ⟨i, hi, e⟩ := a4 n hn; exact .inl ⟨i, by simp [hi], e⟩
      · exact .inl ⟨_, by simp, rfl⟩
      · rcases b4 n hn with ⟨i, hi, e⟩ | h
        · exact .inl ⟨i, by simp [hi], e⟩
        · exact .inr h
    · exact b5.imp id fun h => by simp [h]
    · intro p hp; simp [b7 p hp]

theorem iteeCode_good {g : G} (hg : GInv g) {t e : GM Unit} {fc fb : Bool} (ht : ∀ {s c s'}, t s = .ok ((), c, s') → SGood fc fb s c s')
    (he : ∀ {s c s'}, e s = .ok ((), c, s') → SGood fc fb s c s')
    {s s' : GState} {code : List Immc} (h : iteeCode g t e s = .ok ((), code, s')) : SGood fc fb s code s' := by
  obtain ⟨j, c1, s1, c2, s2, c3, h1, h2, h3, h4⟩ := iteeCode_ok h
  obtain ⟨g1, hj⟩ := hg.jmp h1
  have g1' := Good.start (r := s.reg) (e := s.exprReg) g1 (by omega) (by omega)
  have f1 := g1.1.lab
  dsimp only at f1
  obtain ⟨is, a1, a2, a3, a4⟩ := g1'.2
  have f := g1'.1
  obtain ⟨q1, q2, q3, q4, js, b1, b2, b3, b4, b5, ex, b6, b7⟩ := (ht h2).trans (he h3)
  rw [defs_append] at b1
  rw [uses_append] at b4
  rw [f.cont] at q1
  rw [f.brk] at q2
  rw [f.ret] at q3
  rw [f.cont, f.brk, f.ret] at b4
  rw [f.dflt] at b5
  rw [f.cases] at b6
  obtain ⟨js1, js2, rfl, e1, e2⟩ : ∃ js1 js2, js = js1 ++ js2 ∧ defs c2 = js1.map labelName ∧ defs c3 = js2.map labelName := by
    obtain ⟨l1, l2, h1, h2, h3⟩ := List.map_eq_append_iff.1 b1.symm
    exact ⟨l1, l2, h1, h2.symm, h3.symm⟩
  rcases h4 with ⟨n, hn, rfl⟩ | ⟨hn, rfl⟩
  · have hd := mem_endLabel hn
    rw [defs_label, List.mem_cons, e2, List.mem_map] at hd
    have hk : ∃ k ∈ is ++ (js1 ++ ((s.lab + 1) :: js2)), n = labelName k := by
      rcases hd with rfl | ⟨k, hk, rfl⟩
      · exact ⟨_, by simp, rfl⟩
      · exact ⟨k, by simp [hk], rfl⟩
    refine ⟨q1, q2, q3, by omega, is ++ (js1 ++ ((s.lab + 1) :: js2)), ?_, ?_, ?_, ?_, ?_, ex, b6, ?_⟩
    · simp [defs_append, hj.defs, defs_inst, defs_label, a1, e1, e2]
    · simp only [List.nodup_append, List.nodup_cons, List.mem_append, List.mem_cons] at b2 b3 ⊢
      grind
    · intro i hi
      simp only [List.mem_append, List.mem_cons] at hi b3
      grind
    · intro m hm
      simp only [uses_append, hj.uses, uses_label, uses_jump, List.mem_append, List.mem_cons] at hm
      rcases hm with hm | rfl | hm | rfl | hm
      · obtain ⟨i, hi, e⟩ := a4 m hm; exact .inl ⟨i, by simp [hi], e⟩
      · exact .inl ⟨_, by simp, rfl⟩
      · rcases b4 m (by simp [hm]) with ⟨i, hi, e⟩ | h
        · exact .inl ⟨i, by simp only [List.mem_append, List.mem_cons] at hi ⊢; grind, e⟩
        · exact .inr h
      · exact .inl hk
      · rcases b4 m (by simp [hm]) with ⟨i, hi, e⟩ | h
        · exact .inl ⟨i, by simp only [List.mem_append, List.mem_cons] at hi ⊢; grind, e⟩
        · exact .inr h
    · refine b5.imp id fun h => ?_
      simp only [List.mem_append, List.mem_cons] at h ⊢
      grind
    · intro p hp
      have := b7 p hp
      simp only [List.mem_append, List.mem_cons] at this ⊢
      grind
  · refine ⟨q1, q2, q3, by omega, is ++ (js1 ++ ((s.lab + 1) :: (js2 ++ [s.lab + 1 + 1]))), ?_, ?_, ?_, ?_, ?_, ex, b6, ?_⟩
    · simp [defs_append, hj.defs, defs_inst, defs_label, defs_nil, a1, e1, e2]
    · simp only [List.nodup_append, List.nodup_cons, List.mem_append, List.mem_cons, List.not_mem_nil, or_false] at b2 b3 ⊢
      grind
    · intro i hi
      simp only [List.mem_append, List.mem_cons, List.not_mem_nil, or_false] at hi b3
      grind
    · intro m hm
      simp only [uses_append, hj.uses, uses_label, uses_jumpTo, uses_nil, List.append_nil, List.mem_append, List.mem_cons] at hm
      rcases hm with hm | rfl | hm | rfl | hm
      · obtain ⟨i, hi, e⟩ := a4 m hm; exact .inl ⟨i, by simp [hi], e⟩
      · exact .inl ⟨_, by simp, rfl⟩
      · rcases b4 m (by simp [hm]) with ⟨i, hi, e⟩ | h
        · exact .inl ⟨i, by simp only [List.mem_append, List.mem_cons] at hi ⊢; grind, e⟩
        · exact .inr h
      · exact .inl ⟨_, by simp, rfl⟩
      · rcases b4 m (by simp [hm]) with ⟨i, hi, e⟩ | h
        · exact .inl ⟨i, by simp only [List.mem_append, List.mem_cons] at hi ⊢; grind, e⟩
        · exact .inr h
    · refine b5.imp id fun h => ?_
      simp only [List.mem_append, List.mem_cons] at h ⊢
      grind
    · intro p hp
      have := b7 p hp
      simp only [List.mem_append, List.mem_cons] at this ⊢
      grind

theorem uses_caseJumps (o : Ope) (cs : List (Int × ILit)) : uses (caseJumps o cs) = cs.map fun p => labelName p.1 := by
  induction cs with
  | nil => rfl
  | cons p cs ih => exact congrArg (labelName p.1 :: ·) ih

theorem defs_caseJumps (o : Ope) (cs : List (Int × ILit)) : defs (caseJumps o cs) = [] := by
  induction cs with
  | nil => rfl
  | cons p cs ih => exact ih

theorem switchCode_good {g : G} (hg : GInv g) {t : GM Unit} {fc fb : Bool} (ht : ∀ {s c s'}, t s = .ok ((), c, s') → SGood fc fb s c s')
    {s s' : GState} {code : List Immc} (h : switchCode g t s = .ok ((), code, s')) : SGood fc false s code s' := by
  obtain ⟨o, c1, s1, c2, s2, h1, h2, rfl, rfl⟩ := switchCode_ok h
  obtain ⟨f, is, a1, a2, a3, a4⟩ := hg.reg h1
  have f1 := f.lab
  obtain ⟨q1, q2, q3, q4, js, b1, b2, b3, b4, b5, ex, b6, b7⟩ := ht h2
  dsimp only at q1 q2 q3 q4 b3 b4 b5 b6
  simp only [Option.map_some, List.nil_append] at b6
  refine ⟨q1.trans f.cont, f.brk, q3.trans f.ret, by dsimp only; omega, is ++ (js ++ [s1.lab + 1]), ?_, ?_, ?_, ?_, .inl f.dflt, [], by simp [f.cases], by simp⟩
  · simp [defs_append, defs_caseJumps, defs_inst, defs_label, defs_nil, a1, b1]
  · simp only [List.nodup_append, List.nodup_cons, List.mem_append, List.mem_cons, List.not_mem_nil, or_false]
    grind
  · intro i hi
    simp only [List.mem_append, List.mem_cons, List.not_mem_nil, or_false] at hi
    dsimp only
    grind
  · intro m hm
    simp only [uses_append, uses_caseJumps, uses_label, uses_jumpTo, uses_nil, List.append_nil, List.mem_append, List.mem_cons, b6, Option.getD_some,
      List.mem_map] at hm
    rcases hm with hm | ⟨p, hp, rfl⟩ | rfl | hm
    · obtain ⟨i, hi, e⟩ := a4 m hm; exact .inl ⟨i, by simp [hi], e⟩
    · exact .inl ⟨_, by simp [b7 p hp], rfl⟩
    · split
      · rcases b5 with h | h
        · omega
        · exact .inl ⟨_, by simp [h], rfl⟩
      · exact .inl ⟨_, by simp, rfl⟩
    · rcases b4 m hm with ⟨i, hi, e⟩ | h | ⟨h, e⟩ | ⟨h, e⟩
      · exact .inl ⟨i, by simp [hi], e⟩
      · rw [f.ret] at h; exact .inr (.inl h)
      · rw [f.cont] at e; exact .inr (.inr (.inl ⟨h, e⟩))
      · exact .inl ⟨_, by simp, e⟩

theorem whileCode_good {g : G} (hg : GInv g) {t : GM Unit} {fc fb : Bool} (ht : ∀ {s c s'}, t s = .ok ((), c, s') → SGood fc fb s c s')
    {s s' : GState} {code : List Immc} (h : whileCode g t s = .ok ((), code, s')) : SGood false false s code s' := by
  obtain ⟨j, c1, s1, c2, s2, h1, h2, rfl, rfl⟩ := whileCode_ok h
  obtain ⟨g1, hj⟩ := hg.jmp h1
  have g1' := Good.start (r := s.reg) (e := s.exprReg) g1 (by omega) (by omega)
  have f1 := g1.1.lab
  dsimp only at f1
  obtain ⟨is, a1, a2, a3, a4⟩ := g1'.2
  have f := g1'.1
  obtain ⟨q1, q2, q3, q4, js, b1, b2, b3, b4, b5, ex, b6, b7⟩ := ht h2
  dsimp only at q1 q2 q3 q4 b3 b4 b5 b6
  rw [f.ret] at b4
  rw [f.dflt] at b5
  rw [f.cases] at b6
  refine ⟨f.cont, f.brk, q3.trans f.ret, by dsimp only; omega, (s.lab + 1) :: (is ++ (js ++ [s.lab + 1 + 1])), ?_, ?_, ?_, ?_, ?_, ex, b6, ?_⟩
  · simp [defs_append, hj.defs, defs_inst, defs_label, defs_nil, a1, b1]
  · simp only [List.nodup_append, List.nodup_cons, List.mem_append, List.mem_cons, List.not_mem_nil, or_false]
    grind
  · intro i hi
    simp only [List.mem_append, List.mem_cons, List.not_mem_nil, or_false] at hi
    dsimp only
    grind
  · intro m hm
    simp only [uses_append, uses_label, hj.uses, uses_jumpTo, uses_nil, List.mem_append, List.mem_cons, List.not_mem_nil, or_false] at hm
    rcases hm with hm | rfl | hm | rfl
    · obtain ⟨i, hi, e⟩ := a4 m hm; exact .inl ⟨i, by simp [hi], e⟩
    · exact .inl ⟨_, by simp, rfl⟩
    · rcases b4 m hm with ⟨i, hi, e⟩ | h | ⟨h, e⟩ | ⟨h, e⟩
      · exact .inl ⟨i, by simp [hi], e⟩
      · exact .inr (.inl h)
      · exact .inl ⟨_, by simp, e⟩
      · exact .inl ⟨_, by simp, e⟩
    · exact .inl ⟨_, by simp, rfl⟩
  · exact b5.imp id fun h => by simp [h]
  · intro p hp; simp [b7 p hp]

theorem forCond_good {c : SStmt} {n : Name} {s s' : GState} {code : List Immc} (h : forCond c n s = .ok ((), code, s')) :
    Frame s s' ∧ ∃ is : List Int, defs code = is.map labelName ∧ is.Nodup ∧ (∀ i ∈ is, s.lab < i ∧ i ≤ s'.lab) ∧
      ∀ m ∈ uses code, (∃ i ∈ is, m = labelName i) ∨ m = n := by
  rcases forCond_ok h with ⟨e, j, c1, rfl, h1, rfl⟩ | ⟨_, rfl, rfl⟩
  · obtain ⟨⟨f, is, a1, a2, a3, a4⟩, hj⟩ := (expr_inv e).jmp h1
    refine ⟨f, is, by simp [defs_append, hj.defs, defs_nil, a1], a2, a3, ?_⟩
    intro m hm
    simp only [uses_append, hj.uses, uses_nil, List.mem_append, List.mem_cons, List.not_mem_nil, or_false] at hm
    exact hm.imp (a4 m) id
  · exact ⟨.refl _, [], rfl, List.nodup_nil, by simp, by simp [uses]⟩

theorem forCode_good {i : GM Unit} {c : SStmt} {n b : GM Unit} {fc fb fc' fb' : Bool}
    (hi : ∀ {s c s'}, i s = .ok ((), c, s') → SGood fc fb s c s') (hn : ∀ {s c s'}, n s = .ok ((), c, s') → SGood fc fb s c s')
    (hb : ∀ {s c s'}, b s = .ok ((), c, s') → SGood fc' fb' s c s')
    {s s' : GState} {code : List Immc} (h : forCode i (forCond c) n b s = .ok ((), code, s')) : SGood fc fb s code s' := by
  obtain ⟨c1, s1, c2, s2, c3, s3, c4, h1, h2, h3, h4, rfl⟩ := forCode_ok h
  obtain ⟨p1, p2, p3, p4, is, a1, a2, a3, a4, a5, ex, a6, a7⟩ := hi h1
  obtain ⟨f, js, b1, b2, b3, b4⟩ := forCond_good h2
  obtain ⟨q1, q2, q3, q4, ks, d1, d2, d3, d4, d5, ey, d6, d7⟩ := hb h3
  obtain ⟨r1, r2, r3, r4, ls, e1, e2, e3, e4, e5, ez, e6, e7⟩ := hn h4
  have f4 := f.lab
  dsimp only at p1 p2 p3 p4 a3 a4 a5 a6 q1 q2 q3 q4 d3 d4 d5 d6 r1 r2 r3 r4 e3 e4 e5 e6
  have w1 : s'.cont = s.cont := by rw [r1, f.cont, p1]
  have w2 : s'.brk = s.brk := by rw [r2, f.brk, p2]
  have w3 : s'.ret = s.ret := by rw [r3, q3, f.ret, p3]
  rw [f.ret, p3] at d4
  rw [f.cont, f.brk, q3, f.ret, p1, p2, p3] at e4
  have u : ∀ {P : Prop} {m : Name} (t : List Int), (∃ i ∈ t, m = labelName i) ∨ P →
      (∀ i ∈ t, i ∈ is ++ ((s.lab + 1) :: (js ++ (ks ++ ((s.lab + 1 + 1) :: (ls ++ [s.lab + 1 + 1 + 1])))))) →
      (∃ i ∈ is ++ ((s.lab + 1) :: (js ++ (ks ++ ((s.lab + 1 + 1) :: (ls ++ [s.lab + 1 + 1 + 1]))))), m = labelName i) ∨ P := by
    rintro P m t (⟨i, hi, e⟩ | h) ht
    · exact .inl ⟨i, ht i hi, e⟩
    · exact .inr h
  refine ⟨w1, w2, w3, by omega, is ++ ((s.lab + 1) :: (js ++ (ks ++ ((s.lab + 1 + 1) :: (ls ++ [s.lab + 1 + 1 + 1]))))), ?_, ?_, ?_, ?_, ?_,
    ex ++ (ey ++ ez), ?_, ?_⟩
  · simp [defs_append, defs_inst, defs_label, defs_nil, a1, b1, d1, e1]
  · clear u a4 b4 d4 e4 h1 h2 h3 h4 hi hn hb h a6 d6 e6 a7 d7 e7
    simp only [List.nodup_append, List.nodup_cons, List.mem_append, List.mem_cons, List.not_mem_nil, or_false]
    grind
  · intro i hi
    simp only [List.mem_append, List.mem_cons, List.not_mem_nil, or_false] at hi
    grind
  · intro m hm
    simp only [uses_append, uses_label, uses_jumpTo, uses_nil, List.mem_append, List.mem_cons, List.not_mem_nil, or_false] at hm
    rcases hm with hm | hm | hm | hm | rfl
    · exact u is (a4 m hm) (by simp +contextual)
    · rcases b4 m hm with ⟨i, hi, e⟩ | rfl
      · exact .inl ⟨i, by simp [hi], e⟩
      · exact .inl ⟨_, by simp, rfl⟩
    · rcases d4 m hm with ⟨i, hi, e⟩ | h | ⟨h, e⟩ | ⟨h, e⟩
      · exact .inl ⟨i, by simp [hi], e⟩
      · exact .inr (.inl h)
      · exact .inl ⟨_, by simp, e⟩
      · exact .inl ⟨_, by simp, e⟩
    · exact u ls (e4 m hm) (by simp +contextual)
    · exact .inl ⟨_, by simp, rfl⟩
  · rcases e5 with h | h
    · rcases d5 with h' | h'
      · rcases a5 with h'' | h''
        · exact .inl (by rw [h, h', f.dflt, h''])
        · exact .inr (by simp [h, h', f.dflt, h''])
      · exact .inr (by simp [h, h'])
    · exact .inr (by simp [h])
  · rw [e6, d6, f.cases, a6]
    cases s.cases <;> simp
  · intro p hp
    simp only [List.mem_append] at hp
    rcases hp with h | h | h
    · simp [a7 p h]
    · simp [d7 p h]
    · simp [e7 p h]


/-- effect of declarations and their initialisers -/
def DGood (s : GState) (c : List Immc) (s' : GState) : Prop := SGood false false s c s'

theorem localScalar_good {t : DType} {g : G} (hg : GInv g) {s s' : GState} {c : List Immc} (h : localScalar t g s = .ok ((), c, s')) :
    DGood s c s' := by
  obtain ⟨o, c1, s1, h1, rfl, rfl⟩ := localScalar_ok h
  exact (SGood.of ((hg.int h1).flat (by flat))).same ⟨rfl, rfl, rfl, rfl, rfl, rfl⟩

theorem arrayInit_good {t : DType} : ∀ {n : Nat} {gs : List (DType → GM Unit)}
    (_ : ∀ g ∈ gs, ∀ {t s c s'}, g t s = .ok ((), c, s') → DGood s c s') {s s' : GState} {c : List Immc},
    arrayInit t n gs s = .ok ((), c, s') → DGood s c s'
  | 0, _, _, s, s', c, h => SGood.of (pure_good h)
  | n + 1, [], _, s, s', c, h => by simp [arrayInit, ub_ok] at h
  | n + 1, g :: gs, hg, s, s', c, h => by
    obtain ⟨c1, s1, c2, h1, h2, rfl⟩ := arrayInit_cons h
    exact SGood.trans (hg g (by simp) h1) (arrayInit_good (fun g' hg' => hg g' (by simp [hg'])) h2)

theorem localMembers_good {off : Int} : ∀ {ms : List (DType × Nat)} {gs : List (DType → GM Unit)}
    (_ : ∀ g ∈ gs, ∀ {t s c s'}, g t s = .ok ((), c, s') → DGood s c s') {s s' : GState} {c : List Immc},
    localMembers off ms gs s = .ok ((), c, s') → DGood s c s'
  | [], _, _, s, s', c, h => by
    simp only [localMembers] at h
    exact SGood.of (pure_good h)
  | _ :: _, [], _, s, s', c, h => by simp [localMembers, ub_ok] at h
  | (t, o) :: ms, g :: gs, hg, s, s', c, h => by
    obtain ⟨c1, s1, c2, h1, h2, rfl⟩ := localMembers_cons h
    exact SGood.trans (SGood.after (a := s) (hg g (by simp) h1) ⟨rfl, rfl, rfl, rfl, rfl, rfl⟩)
      (localMembers_good (fun g' hg' => hg g' (by simp [hg'])) h2)

theorem localStruct_good {t : DType} {gs : List (DType → GM Unit)} (hg : ∀ g ∈ gs, ∀ {t s c s'}, g t s = .ok ((), c, s') → DGood s c s')
    {s s' : GState} {c : List Immc} (h : localStruct t gs s = .ok ((), c, s')) : DGood s c s' := by
  obtain ⟨ms, b, a, _, h2⟩ := localStruct_ok h
  exact localMembers_good hg h2

mutual
theorem localInit_good : ∀ (i : SInit) {t : DType} {s s' : GState} {c : List Immc}, localInit i t s = .ok ((), c, s') → DGood s c s'
  | .expr e, t, s, s', c, h => by
    simp only [localInit] at h
    split at h
    · exact localScalar_good (expr_inv e) h
    · simp [ub_ok] at h
  | .str u b, t, s, s', c, h => by
    simp only [localInit] at h
    split at h
    · rw [localString_run, Out.ok.injEq, Prod.mk.injEq, Prod.mk.injEq] at h
      obtain ⟨_, rfl, rfl⟩ := h
      exact SGood.same (b := s) (SGood.of ((Good.refl s).flat (y := [_]) (by flat))) ⟨rfl, rfl, rfl, rfl, rfl, rfl⟩
    · simp [ub_ok] at h
  | .list is, t, s, s', c, h => by
    simp only [localInit] at h
    split at h
    · exact arrayInit_good (localInits_good is) h
    · exact localStruct_good (localInits_good is) h
    · exact localStruct_good (localInits_good is) h
    · simp [ub_ok] at h
theorem localInits_good : ∀ (is : SInits), ∀ g ∈ localInits is, ∀ {t : DType} {s : GState} {c : List Immc} {s' : GState},
    g t s = .ok ((), c, s') → DGood s c s'
  | .nil, g, hg, _, _, _, _, _ => by simp [localInits] at hg
  | .cons i is, g, hg, t, s, c, s', h => by
    simp only [localInits, List.mem_cons] at hg
    rcases hg with rfl | hg
    · exact localInit_good i h
    · exact localInits_good is g hg h
end

theorem declare_same (s : GState) (n : Str) (t : DType) : Same s (s.declare n t) := by
  unfold GState.declare
  split
  · split <;> exact ⟨rfl, rfl, rfl, rfl, rfl, rfl⟩
  · exact ⟨rfl, rfl, rfl, rfl, rfl, rfl⟩

theorem localDecl_good {d : SDecl} {s s' : GState} {c : List Immc} (h : localDecl d s = .ok ((), c, s')) : DGood s c s' := by
  obtain ⟨n, _, ⟨_, rfl, rfl⟩ | ⟨i, y, s1, _, _, h1, rfl⟩⟩ := localDecl_ok h
  · exact SGood.same (SGood.refl s) (declare_same s n _)
  · have g := localInit_good i h1
    have k : Same s { s.declare n d.dt with initOff := y.loc.off } := by
      obtain ⟨k1, k2, k3, k4, k5, k6⟩ := declare_same s n d.dt
      exact ⟨k1, k2, k3, k4, k5, k6⟩
    exact (SGood.same_left k g).same ⟨rfl, rfl, rfl, rfl, rfl, rfl⟩

theorem localDecls_good : ∀ {ds : List SDecl} {s s' : GState} {c : List Immc}, localDecls ds s = .ok ((), c, s') → DGood s c s'
  | [], s, s', c, h => SGood.of (pure_good h)
  | d :: ds, s, s', c, h => by
    obtain ⟨c1, s1, c2, h1, h2, rfl⟩ := localDecls_cons h
    exact SGood.trans (localDecl_good h1) (localDecls_good h2)

theorem SGood.jump {fc fb : Bool} {s : GState} {id : Int}
    (h : id = s.ret ∨ (fc = true ∧ id = s.cont) ∨ (fb = true ∧ id = s.brk)) : SGood fc fb s [Gen.jump id] s := by
  refine ⟨rfl, rfl, rfl, by omega, [], rfl, List.nodup_nil, by simp, ?_, .inl rfl, [], by simp, by simp⟩
  intro n hn
  simp only [uses_jumpTo, uses_nil, List.mem_cons, List.not_mem_nil, or_false] at hn
  subst hn
  rcases h with rfl | ⟨h, rfl⟩ | ⟨h, rfl⟩
  · exact .inr (.inl rfl)
  · exact .inr (.inr (.inl ⟨h, rfl⟩))
  · exact .inr (.inr (.inr ⟨h, rfl⟩))

/-- a label in front of a statement -/
theorem SGood.label {fc fb : Bool} {s s1 s' : GState} {c : List Immc} (h : SGood fc fb s1 c s') (h1 : s1.cont = s.cont) (h2 : s1.brk = s.brk)
    (h3 : s1.ret = s.ret) (h4 : s1.lab = s.lab + 1)
    (h5 : (s1.dflt = s.dflt ∨ s1.dflt = s.lab + 1) ∧ ∃ ex, s1.cases = s.cases.map (· ++ ex) ∧ ∀ p ∈ ex, p.1 = s.lab + 1) :
    SGood fc fb s (labelAt (s.lab + 1) :: c) s' := by
  obtain ⟨f1, f2, f3, f4, is, a1, a2, a3, a4, a5, ex, a6, a7⟩ := h
  obtain ⟨h5, ey, h6, h7⟩ := h5
  rw [h1, h2, h3] at a4
  refine ⟨f1.trans h1, f2.trans h2, f3.trans h3, by omega, (s.lab + 1) :: is, by simp [defs_label, a1], ?_, ?_, ?_, ?_, ey ++ ex, ?_, ?_⟩
  · rw [List.nodup_cons]
    exact ⟨fun h => by have := a3 _ h; omega, a2⟩
  · intro i hi
    rcases List.mem_cons.1 hi with rfl | h
    · omega
    · have := a3 i h; omega
  · intro n hn
    rw [uses_label] at hn
    rcases a4 n hn with ⟨i, hi, e⟩ | h
    · exact .inl ⟨i, by simp [hi], e⟩
    · exact .inr h
  · rcases a5 with h | h
    · rcases h5 with h' | h'
      · exact .inl (h.trans h')
      · exact .inr (by simp [h, h'])
    · exact .inr (by simp [h])
  · rw [a6, h6]
    cases s.cases <;> simp
  · intro p hp
    rcases List.mem_append.1 hp with h | h
    · simp [h7 p h]
    · simp [a7 p h]

mutual
theorem stmt_good : ∀ (b : SStmt) {s s' : GState} {c : List Immc}, stmt b s = .ok ((), c, s') → SGood (freeCont b) (freeBrk b) s c s'
  | .cmpd is, s, s', c, h => by
    obtain ⟨s1, h1, rfl⟩ := stmt_cmpd h
    have := items_good is h1
    simp only [freeCont, freeBrk]
    exact (SGood.after (a := s) this ⟨rfl, rfl, rfl, rfl, rfl, rfl⟩).same ⟨rfl, rfl, rfl, rfl, rfl, rfl⟩
  | .case v b, s, s', c, h => by
    obtain ⟨cs, t, l, c1, hc, rfl, h1, rfl⟩ := stmt_case h
    simp only [freeCont, freeBrk]
    exact SGood.label (stmt_good b h1) rfl rfl rfl rfl ⟨.inl rfl, [(s.lab + 1, l)], by simp [hc], by simp⟩
  | .dflt b, s, s', c, h => by
    obtain ⟨c1, h1, rfl⟩ := stmt_dflt h
    simp only [freeCont, freeBrk]
    exact SGood.label (stmt_good b h1) rfl rfl rfl rfl ⟨.inr rfl, [], by simp, by simp⟩
  | .cont, s, s', c, h => by
    simp only [stmt] at h
    gm at h
    obtain ⟨rfl, rfl⟩ := h
    exact SGood.jump (.inr (.inl ⟨by simp [freeCont], rfl⟩))
  | .brk, s, s', c, h => by
    simp only [stmt] at h
    gm at h
    obtain ⟨rfl, rfl⟩ := h
    exact SGood.jump (.inr (.inr ⟨by simp [freeBrk], rfl⟩))
  | .ret none, s, s', c, h => by
    simp only [stmt, Option.map_none] at h
    obtain ⟨rfl, rfl⟩ := returnCode_none h
    exact SGood.jump (.inl rfl)
  | .ret (some e), s, s', c, h => by
    simp only [stmt, Option.map_some] at h
    obtain ⟨o, c1, h1, rfl⟩ := returnCode_some h
    have g := ((expr_inv e).int h1).flat (y := [inst .stret none (some o) none]) (by flat)
    have := (SGood.of (fc := freeCont (.ret (some e))) (fb := freeBrk (.ret (some e))) g).trans (SGood.jump (id := s'.ret) (.inl rfl))
    simpa using this
  | .expr e, s, s', c, h => by
    simp only [stmt] at h
    gm at h
    have := (expr_inv e).code h
    exact SGood.same_left (a := s) (b := { s with exprReg := none }) ⟨rfl, rfl, rfl, rfl, rfl, rfl⟩ (SGood.of this)
  | .null, s, s', c, h => by
    simp only [stmt] at h
    exact SGood.of (pure_good h)
  | .ite g t, s, s', c, h => by
    simp only [stmt] at h
    simp only [freeCont, freeBrk]
    exact iteCode_good (expr_inv g) (stmt_good t) h
  | .itee g t e, s, s', c, h => by
    simp only [stmt] at h
    simp only [freeCont, freeBrk]
    exact iteeCode_good (expr_inv g) (fun h => (stmt_good t h).mono (by simp +contextual) (by simp +contextual))
      (fun h => (stmt_good e h).mono (by simp +contextual) (by simp +contextual)) h
  | .switch g b, s, s', c, h => by
    simp only [stmt] at h
    simp only [freeCont, freeBrk]
    exact switchCode_good (expr_inv g) (stmt_good b) h
  | .while g b, s, s', c, h => by
    simp only [stmt] at h
    simp only [freeCont, freeBrk]
    exact whileCode_good (expr_inv g) (stmt_good b) h
  | .for i g n b, s, s', c, h => by
    obtain ⟨s1, h1, rfl⟩ := stmt_for h
    simp only [freeCont, freeBrk]
    have := forCode_good (fc := freeContItem i || freeCont n) (fb := freeBrkItem i || freeBrk n)
      (fun h => (item_good i h).mono (by simp +contextual) (by simp +contextual))
      (fun h => (stmt_good n h).mono (by simp +contextual) (by simp +contextual)) (stmt_good b) h1
    exact (SGood.after (a := s) this ⟨rfl, rfl, rfl, rfl, rfl, rfl⟩).same ⟨rfl, rfl, rfl, rfl, rfl, rfl⟩
theorem item_good : ∀ (i : SItem) {s s' : GState} {c : List Immc}, item i s = .ok ((), c, s') → SGood (freeContItem i) (freeBrkItem i) s c s'
  | .stmt b, s, s', c, h => by
    simp only [item] at h
    simp only [freeContItem, freeBrkItem]
    exact stmt_good b h
  | .decls ds, s, s', c, h => by
    simp only [item] at h
    exact (localDecls_good h).mono nofun nofun
  | .tag n t, s, s', c, h => by
    simp only [item] at h
    obtain ⟨rfl, tg, rfl⟩ := tagDecl_ok h
    exact (SGood.refl s).same ⟨rfl, rfl, rfl, rfl, rfl, rfl⟩
theorem items_good : ∀ (is : SItems) {s s' : GState} {c : List Immc}, items is s = .ok ((), c, s') → SGood (freeConts is) (freeBrks is) s c s'
  | .nil, s, s', c, h => by
    simp only [items] at h
    exact SGood.of (pure_good h)
  | .cons i is, s, s', c, h => by
    obtain ⟨c1, s1, c2, h1, h2, rfl⟩ := items_cons h
    simp only [freeConts, freeBrks]
    exact ((item_good i h1).mono (by simp +contextual) (by simp +contextual)).trans
      ((items_good is h2).mono (by simp +contextual) (by simp +contextual))
end

theorem paramsCode_good : ∀ {ps : Params} {i : Nat} {s s' : GState} {c : List Immc}, paramsCode i ps s = .ok ((), c, s') →
    Flat c ∧ Same s s'
  | .nil, i, s, s', c, h => by
    simp only [paramsCode] at h
    gm at h
    obtain ⟨rfl, rfl⟩ := h
    exact ⟨flat_nil, rfl, rfl, rfl, rfl, rfl, rfl⟩
  | .cons n t ps, i, s, s', c, h => by
    obtain ⟨m, c1, rfl, _, h1, rfl⟩ := paramsCode_cons h
    obtain ⟨f, k1, k2, k3, k4, k5, k6⟩ := paramsCode_good h1
    exact ⟨flat_cons rfl f, k1, k2, k3, k4, k5, k6⟩

/-- labels of a function: its name, and new numbered ones -/
theorem funcCode_labels {n : Str} {t : DType} {b : SItems} {s s' : GState} {code : List Immc} (h : funcCode n t b s = .ok ((), code, s'))
    (hc : freeConts b = false) (hb : freeBrks b = false) :
    ∃ (name : Name) (is : List Int), name.1 = n ∧ defs code = name :: is.map labelName ∧ is.Nodup ∧ (∀ i ∈ is, s.lab < i ∧ i ≤ s'.lab) ∧
      (∀ m ∈ uses code, ∃ i ∈ is, m = labelName i) ∧ s.lab ≤ s'.lab := by
  obtain ⟨name, ps, rt, pc, s1, bc, s2, h0, rfl, h1, h2, rfl, rfl⟩ := funcCode_ok h
  obtain ⟨hn, -, -⟩ := nameOf_ok h0
  obtain ⟨fp, k⟩ := paramsCode_good h1
  obtain ⟨f1, f2, f3, f4, is, a1, a2, a3, a4, -⟩ := items_good b h2
  have hr : s1.ret = s.lab + 1 := k.ret
  have hl : s1.lab = s.lab + 1 := k.lab
  refine ⟨name, is ++ [s.lab + 1], hn, ?_, ?_, ?_, ?_, by dsimp only; omega⟩
  · show name :: defs (pc ++ (bc ++ [labelAt (s.lab + 1), inst .leave none (some (intOpe .quad s2.mem)) none])) = _
    simp [defs_append, fp.1, a1, defs_label, defs_inst, defs_nil]
  · simp only [List.nodup_append, List.nodup_cons, List.mem_cons, List.not_mem_nil, or_false]
    refine ⟨a2, ⟨not_false, List.nodup_nil⟩, ?_⟩
    rintro i hi j rfl
    have := a3 i hi
    omega
  · intro i hi
    dsimp only
    simp only [List.mem_append, List.mem_cons, List.not_mem_nil, or_false] at hi
    rcases hi with hi | rfl
    · have := a3 i hi; omega
    · omega
  · intro m hm
    have hm' : m ∈ uses (pc ++ (bc ++ [labelAt (s.lab + 1), inst .leave none (some (intOpe .quad s2.mem)) none])) := hm
    simp only [uses_append, fp.2, uses_label, uses_inst (op := .leave) rfl, uses_nil, List.nil_append, List.append_nil] at hm'
    rcases a4 m hm' with ⟨i, hi, e⟩ | h | ⟨h, _⟩ | ⟨h, _⟩
    · exact ⟨i, by simp [hi], e⟩
    · exact ⟨s.lab + 1, by simp, by rw [h, hr]⟩
    · simp [hc] at h
    · simp [hb] at h

end Gen
end Umlcc
