import Verif.Lemma.Immcgen
/-!
What a successful run of each generating function consists of.
-/
namespace Umlcc
namespace Gen

/-- load instruction -/
abbrev load (d s : Ope) : Immc := inst .load (some d) (some s) none
/-- jump instruction -/
abbrev jump (id : Int) : Immc := inst .jmp (some (labelOpe id)) none none

theorem reg_ok {g : G} {s s' : GState} {o : Ope} {c : List Immc} (h : g.reg s = .ok (o, c, s')) :
    ∃ sf r u, o = .reg sf r u ∧ (g.int none s = .ok (o, c, s') ∨
      ∃ l c0 s0, g.int none s = .ok (.int sf l, c0, s0) ∧ r = s0.reg + 1 ∧ u = l.type.isUnsigned ∧
        c = c0 ++ [load o (.int sf l)] ∧ s' = { s0 with reg := s0.reg + 1 }) := by
  simp only [G.reg, bind_ok] at h
  obtain ⟨a, c1, s1, c2, h1, h, rfl⟩ := h
  cases a with
  | reg sf r u =>
    gm at h
    obtain ⟨rfl, rfl, rfl⟩ := h
    exact ⟨sf, r, u, rfl, .inl (by simpa using h1)⟩
  | int sf l =>
    gm at h
    obtain ⟨rfl, rfl, rfl⟩ := h
    exact ⟨sf, _, _, rfl, .inr ⟨l, _, _, h1, rfl, rfl, rfl, rfl⟩⟩
  | _ => simp [ub_ok] at h

theorem castReg_ok {cast : Option DType} {s s' : GState} {o : Ope} {c : List Immc} (h : castReg cast s = .ok (o, c, s')) :
    ∃ sf r u, s.exprReg = some (sf, r, u) ∧
      ((cast = none ∧ o = .reg sf r u ∧ c = [] ∧ s' = s) ∨
       ∃ t, cast = some t ∧ o = .reg (Sfx.get t.nbytes) (s.reg + 1) t.isUnsigned ∧ c = [load o (.reg sf r u)] ∧
        s' = { s with reg := s.reg + 1 }) := by
  simp only [castReg, bind_ok] at h
  obtain ⟨a, c1, s1, c2, h1, h, rfl⟩ := h
  obtain ⟨rfl, rfl, sf, r, u, he, rfl⟩ := exprOpe_ok h1
  refine ⟨sf, r, u, he, ?_⟩
  cases cast with
  | none =>
    gm at h
    obtain ⟨rfl, rfl, rfl⟩ := h
    exact .inl ⟨rfl, rfl, rfl, rfl⟩
  | some t =>
    gm at h
    obtain ⟨rfl, rfl, rfl⟩ := h
    exact .inr ⟨t, rfl, rfl, rfl, rfl⟩

theorem ptrOf_ok {code : GM Unit} {s s' : GState} {o : Ope} {c : List Immc} (h : ptrOf code s = .ok (o, c, s')) :
    code s = .ok ((), c, s') ∧ o = .ptr s'.reg := by
  simp only [ptrOf] at h
  gm at h
  obtain ⟨a, c1, s1, c2, h1, ⟨rfl, rfl, rfl⟩, rfl⟩ := h
  exact ⟨by simpa using h1, rfl⟩

theorem jmpZero_ok {reg : GM Ope} {b : Bool} {s s' : GState} {j : Name → Immc} {c : List Immc}
    (h : jmpZero reg b s = .ok (j, c, s')) :
    ∃ sf r u, reg s = .ok (.reg sf r u, c, s') ∧
      j = fun n => inst (if b then .jneq else .jeq) (some (.label n)) (some (.reg sf r u)) (some (intOpe sf 0)) := by
  simp only [jmpZero, bind_ok] at h
  obtain ⟨a, c1, s1, c2, h1, h, rfl⟩ := h
  cases a with
  | reg sf r u =>
    gm at h
    obtain ⟨rfl, rfl, rfl⟩ := h
    exact ⟨sf, r, u, by simpa using h1, rfl⟩
  | _ => simp [ub_ok] at h

theorem jmpCmp_ok {op : IOp} {l r : G} {s s' : GState} {j : Name → Immc} {c : List Immc}
    (h : jmpCmp op l r s = .ok (j, c, s')) :
    ∃ a c1 s1 b c2, l.reg s = .ok (a, c1, s1) ∧ r.int none s1 = .ok (b, c2, s') ∧ c = c1 ++ c2 ∧
      j = fun n => inst op (some (.label n)) (some a) (some b) := by
  simp only [jmpCmp] at h
  gm at h
  obtain ⟨a, c1, s1, c2, h1, ⟨b, c3, s2, c4, h2, ⟨rfl, rfl, rfl⟩, rfl⟩, rfl⟩ := h
  exact ⟨a, c1, s1, b, c3, h1, h2, by simp, rfl⟩

theorem assignCode_ok {l r : G} {s s' : GState} {u : Unit} {c : List Immc} (h : assignCode l r s = .ok (u, c, s')) :
    ∃ sf id us c1 s1 p c2 s2, r.reg s = .ok (.reg sf id us, c1, s1) ∧ l.ptr s1 = .ok (p, c2, s2) ∧
      c = c1 ++ (c2 ++ [inst .store (some p) (some (.reg sf id us)) none]) ∧
      s' = { s2 with exprReg := some (sf, id, us) } := by
  simp only [assignCode] at h
  gm at h
  obtain ⟨a, c1, s1, c2, h1, ⟨p, c3, s2, c4, h2, ⟨c5, h3, rfl⟩, rfl⟩, rfl⟩ := h
  obtain ⟨sf, id, us, rfl, -⟩ := reg_ok h1
  obtain ⟨rfl, rfl⟩ := setExpr_reg.1 h3
  exact ⟨_, _, _, _, _, _, _, _, h1, h2, rfl, rfl⟩

theorem condCode_ok {t : DType} {c l r : G} {s s' : GState} {u : Unit} {code : List Immc}
    (h : condCode t c l r s = .ok (u, code, s')) :
    ∃ j c1 s1 a c2 s2 b c3 s3, c.jmp false { s with lab := s.lab + 1 + 1 } = .ok (j, c1, s1) ∧
      l.reg { s1 with reg := s1.reg + 1 } = .ok (a, c2, s2) ∧ r.reg s2 = .ok (b, c3, s3) ∧
      code = c1 ++ (j (labelName (s.lab + 1)) :: (c2 ++ (
        load (.reg (Sfx.get t.nbytes) (s1.reg + 1) t.isUnsigned) a :: jump (s.lab + 1 + 1) :: labelAt (s.lab + 1) :: (c3 ++
        [load (.reg (Sfx.get t.nbytes) (s1.reg + 1) t.isUnsigned) b, labelAt (s.lab + 1 + 1)])))) ∧
      s' = { s3 with exprReg := some (Sfx.get t.nbytes, s1.reg + 1, t.isUnsigned) } := by
  simp only [condCode] at h
  gm at h
  obtain ⟨j, c1, s1, _, h1, ⟨_, ⟨a, c2, s2, _, h2, ⟨_, ⟨b, c3, s3, _, h3, ⟨rfl, rfl⟩, rfl⟩, rfl⟩, rfl⟩, rfl⟩, rfl⟩ := h
  exact ⟨_, _, _, _, _, _, _, _, _, h1, h2, h3, rfl, rfl⟩

theorem logicalCode_ok {b : Bool} {t : DType} {l r : G} {s s' : GState} {u : Unit} {code : List Immc}
    (h : logicalCode b t l r s = .ok (u, code, s')) :
    ∃ j c1 s1 k c2 s2, l.jmp b { s with lab := s.lab + 1 + 1 } = .ok (j, c1, s1) ∧ r.jmp b s1 = .ok (k, c2, s2) ∧
      code = c1 ++ (j (labelName (s.lab + 1)) :: (c2 ++ [k (labelName (s.lab + 1)),
        load (.reg (Sfx.get t.nbytes) (s2.reg + 1) t.isUnsigned) (intOpe (Sfx.get t.nbytes) (if b then 0 else 1)),
        jump (s.lab + 1 + 1), labelAt (s.lab + 1),
        load (.reg (Sfx.get t.nbytes) (s2.reg + 1) t.isUnsigned) (intOpe (Sfx.get t.nbytes) (if b then 1 else 0)),
        labelAt (s.lab + 1 + 1)])) ∧
      s' = { s2 with reg := s2.reg + 1, exprReg := some (Sfx.get t.nbytes, s2.reg + 1, t.isUnsigned) } := by
  simp only [logicalCode] at h
  gm at h
  obtain ⟨j, c1, s1, _, h1, ⟨_, ⟨k, c2, s2, _, h2, ⟨rfl, rfl⟩, rfl⟩, rfl⟩, rfl⟩ := h
  exact ⟨_, _, _, _, _, _, h1, h2, rfl, rfl⟩

theorem arithCode_ok {op : IOp} {t : DType} {l r : G} {s s' : GState} {u : Unit} {code : List Immc}
    (h : arithCode op t l r s = .ok (u, code, s')) :
    ∃ a c1 s1 b c2 s2, l.reg s = .ok (a, c1, s1) ∧ r.int none s1 = .ok (b, c2, s2) ∧
      code = c1 ++ (c2 ++ [inst op (some (.reg (Sfx.get t.nbytes) (s2.reg + 1) t.isUnsigned)) (some a) (some b)]) ∧
      s' = { s2 with reg := s2.reg + 1, exprReg := some (Sfx.get t.nbytes, s2.reg + 1, t.isUnsigned) } := by
  simp only [arithCode] at h
  gm at h
  obtain ⟨a, c1, s1, _, h1, ⟨b, c2, s2, _, h2, ⟨rfl, rfl⟩, rfl⟩, rfl⟩ := h
  exact ⟨_, _, _, _, _, _, h1, h2, rfl, rfl⟩

theorem strideOf_ok {t : DType} {s s' : GState} {n : Nat} {c : List Immc} (h : strideOf t s = .ok (n, c, s')) :
    c = [] ∧ s' = s ∧ ∃ t', t = .ptr t' ∧ n = t'.nbytes := by
  cases t <;> simp only [strideOf, pure_ok, ub_ok] at h
  obtain ⟨rfl, rfl, rfl⟩ := h
  exact ⟨rfl, rfl, _, rfl, rfl⟩

theorem ptrAddCode_ok {op : IOp} {t lt : DType} {l r : G} {s s' : GState} {u : Unit} {code : List Immc}
    (h : ptrAddCode op t lt l r s = .ok (u, code, s')) :
    ∃ a c1 s1 b c2 s2 t', l.reg s = .ok (a, c1, s1) ∧ r.reg s1 = .ok (b, c2, s2) ∧ lt = .ptr t' ∧
      code = c1 ++ (c2 ++ [inst .mul (some b) (some b) (some (intOpe (sfxOf b) t'.nbytes)),
        inst op (some (.reg (Sfx.get t.nbytes) (s2.reg + 1) t.isUnsigned)) (some a) (some b)]) ∧
      s' = { s2 with reg := s2.reg + 1, exprReg := some (Sfx.get t.nbytes, s2.reg + 1, t.isUnsigned) } := by
  simp only [ptrAddCode] at h
  gm at h
  obtain ⟨a, c1, s1, _, h1, ⟨b, c2, s2, _, h2, ⟨n, c3, s3, _, h3, ⟨rfl, rfl⟩, rfl⟩, rfl⟩, rfl⟩ := h
  obtain ⟨rfl, rfl, t', rfl, rfl⟩ := strideOf_ok h3
  exact ⟨_, _, _, _, _, _, _, h1, h2, rfl, rfl, rfl⟩

theorem ptrDiffCode_ok {t lt : DType} {l r : G} {s s' : GState} {u : Unit} {code : List Immc}
    (h : ptrDiffCode t lt l r s = .ok (u, code, s')) :
    ∃ a c1 s1 b c2 s2 t', l.reg s = .ok (a, c1, s1) ∧ r.reg s1 = .ok (b, c2, s2) ∧ lt = .ptr t' ∧
      code = c1 ++ (c2 ++ [inst .sub (some (.reg (Sfx.get t.nbytes) (s2.reg + 1) t.isUnsigned)) (some a) (some b),
        inst .div (some (.reg (Sfx.get t.nbytes) (s2.reg + 1) t.isUnsigned)) (some (.reg (Sfx.get t.nbytes) (s2.reg + 1) t.isUnsigned))
          (some (intOpe (Sfx.get t.nbytes) t'.nbytes))]) ∧
      s' = { s2 with reg := s2.reg + 1, exprReg := some (Sfx.get t.nbytes, s2.reg + 1, t.isUnsigned) } := by
  simp only [ptrDiffCode] at h
  gm at h
  obtain ⟨a, c1, s1, _, h1, ⟨b, c2, s2, _, h2, ⟨n, c3, s3, _, h3, ⟨rfl, rfl⟩, rfl⟩, rfl⟩, rfl⟩ := h
  obtain ⟨rfl, rfl, t', rfl, rfl⟩ := strideOf_ok h3
  exact ⟨_, _, _, _, _, _, _, h1, h2, rfl, rfl, rfl⟩

theorem symOpe_ok {n : Str} {s s' : GState} {o : Ope} {c : List Immc} (h : symOpe n s = .ok (o, c, s')) :
    c = [] ∧ s' = s ∧ ∃ y, lookup n s.syms = some y ∧
      ((y.loc = .label ∧ ∃ m : Name, m.1 = n ∧ o = .label m) ∨ ∃ k : Nat, y.loc = .mem k ∧ o = .mem k) := by
  simp only [symOpe, get_bind] at h
  cases hl : lookup n s.syms with
  | none => simp [hl, ub_ok] at h
  | some y =>
    obtain ⟨loc, dt⟩ := y
    cases loc with
    | label =>
      simp only [hl] at h
      gm at h
      obtain ⟨m, c1, s1, _, h1, ⟨rfl, rfl, rfl⟩, rfl⟩ := h
      obtain ⟨hm, rfl, rfl⟩ := nameOf_ok h1
      exact ⟨rfl, rfl, _, rfl, .inl ⟨rfl, _, hm, rfl⟩⟩
    | mem k =>
      simp only [hl] at h
      gm at h
      obtain ⟨rfl, rfl, rfl⟩ := h
      exact ⟨rfl, rfl, _, rfl, .inr ⟨k, rfl, rfl⟩⟩

theorem addrCode_ok {t : DType} {src : GM Ope} {s s' : GState} {u : Unit} {code : List Immc}
    (h : addrCode t src s = .ok (u, code, s')) :
    ∃ o c1 s1, src s = .ok (o, c1, s1) ∧
      code = c1 ++ [inst .addr (some (.reg (Sfx.get t.nbytes) (s1.reg + 1) t.isUnsigned)) (some o) none] ∧
      s' = { s1 with reg := s1.reg + 1, exprReg := some (Sfx.get t.nbytes, s1.reg + 1, t.isUnsigned) } := by
  simp only [addrCode] at h
  gm at h
  obtain ⟨a, c1, s1, _, h1, ⟨rfl, rfl⟩, rfl⟩ := h
  exact ⟨_, _, _, h1, rfl, rfl⟩

theorem primaryCode_ok {t : DType} {src : GM Ope} {s s' : GState} {u : Unit} {code : List Immc}
    (h : primaryCode t src s = .ok (u, code, s')) :
    ∃ o c1 s1, src s = .ok (o, c1, s1) ∧
      code = c1 ++ [load (.reg (Sfx.get t.nbytes) (s1.reg + 1) t.isUnsigned) o] ∧
      s' = { s1 with reg := s1.reg + 1, exprReg := some (Sfx.get t.nbytes, s1.reg + 1, t.isUnsigned) } := by
  simp only [primaryCode] at h
  gm at h
  obtain ⟨a, c1, s1, _, h1, ⟨rfl, rfl⟩, rfl⟩ := h
  exact ⟨_, _, _, h1, rfl, rfl⟩

theorem membersOf_ok {t : DType} {s s' : GState} {ms : Members} {c : List Immc} (h : membersOf t s = .ok (ms, c, s')) :
    c = [] ∧ s' = s ∧ ((∃ b a, t = .ptr (.ustruct ms b a)) ∨
      ∃ n b a b' a', t = .ptr (.nstruct n b a) ∧ lookup n s.tags = some (.ustruct ms b' a')) := by
  unfold membersOf at h
  split at h
  · gm at h
    obtain ⟨rfl, rfl, rfl⟩ := h
    exact ⟨rfl, rfl, .inl ⟨_, _, rfl⟩⟩
  · rename_i n b a
    rw [get_bind] at h
    generalize hl : lookup n s.tags = x at h
    split at h
    · gm at h
      obtain ⟨rfl, rfl, rfl⟩ := h
      exact ⟨rfl, rfl, .inr ⟨_, _, _, _, _, rfl, hl⟩⟩
    · simp [ub_ok] at h
  · simp [ub_ok] at h

theorem memberAddrCode_ok {t st : DType} {e : G} {m : Str} {s s' : GState} {u : Unit} {code : List Immc}
    (h : memberAddrCode t st e m s = .ok (u, code, s')) :
    ∃ a c1 s1 ms o, e.reg s = .ok (a, c1, s1) ∧ membersOf st s1 = .ok (ms, [], s1) ∧ offsetIn m ms = some o ∧
      code = c1 ++ [inst .add (some (.reg (Sfx.get t.nbytes) (s1.reg + 1) t.isUnsigned)) (some a) (some (intOpe .quad o))] ∧
      s' = { s1 with reg := s1.reg + 1, exprReg := some (Sfx.get t.nbytes, s1.reg + 1, t.isUnsigned) } := by
  simp only [memberAddrCode] at h
  gm at h
  obtain ⟨a, c1, s1, _, h1, ⟨ms, c2, s2, _, h2, h, rfl⟩, rfl⟩ := h
  obtain ⟨rfl, rfl, -⟩ := membersOf_ok h2
  cases ho : offsetIn m ms with
  | none => simp [ho, ub_ok] at h
  | some o =>
    simp only [ho] at h
    gm at h
    obtain ⟨rfl, rfl⟩ := h
    exact ⟨_, _, _, _, _, h1, h2, ho, rfl, rfl⟩

theorem memberCode_ok {t st : DType} {e : G} {m : Str} {s s' : GState} {u : Unit} {code : List Immc}
    (h : memberCode t st e m s = .ok (u, code, s')) :
    ∃ sf r us c1 s1, memberAddrCode (.ptr t) st e m s = .ok ((), c1, s1) ∧ s1.exprReg = some (sf, r, us) ∧
      code = c1 ++ [load (.reg (Sfx.get t.nbytes) (s1.reg + 1) t.isUnsigned) (.ptr r)] ∧
      s' = { s1 with reg := s1.reg + 1, exprReg := some (Sfx.get t.nbytes, s1.reg + 1, t.isUnsigned) } := by
  simp only [memberCode] at h
  gm at h
  obtain ⟨a, c1, s1, _, h1, h, rfl⟩ := h
  cases he : s1.exprReg with
  | none => simp [he, ub_ok] at h
  | some x =>
    obtain ⟨sf, r, us⟩ := x
    simp only [he] at h
    gm at h
    obtain ⟨rfl, rfl⟩ := h
    exact ⟨_, _, _, _, _, h1, he, rfl, rfl⟩

theorem indirCode_ok {t : DType} {e : G} {s s' : GState} {u : Unit} {code : List Immc}
    (h : indirCode t e s = .ok (u, code, s')) :
    ∃ p c1 s1, e.ptr s = .ok (p, c1, s1) ∧
      code = c1 ++ [load (.reg (Sfx.get t.nbytes) (s1.reg + 1) t.isUnsigned) p] ∧
      s' = { s1 with reg := s1.reg + 1, exprReg := some (Sfx.get t.nbytes, s1.reg + 1, t.isUnsigned) } := by
  simp only [indirCode] at h
  gm at h
  obtain ⟨a, c1, s1, _, h1, ⟨rfl, rfl⟩, rfl⟩ := h
  exact ⟨_, _, _, h1, rfl, rfl⟩

theorem posCode_ok {e : G} {s s' : GState} {u : Unit} {code : List Immc} (h : posCode e s = .ok (u, code, s')) :
    ∃ sf r us s1, e.reg s = .ok (.reg sf r us, code, s1) ∧ s' = { s1 with exprReg := some (sf, r, us) } := by
  simp only [posCode] at h
  gm at h
  obtain ⟨a, c1, s1, c2, h1, h2, rfl⟩ := h
  obtain ⟨sf, r, us, rfl, -⟩ := reg_ok h1
  obtain ⟨rfl, rfl⟩ := setExpr_reg.1 h2
  exact ⟨sf, r, us, s1, by simpa using h1, rfl⟩

theorem unCode_ok {op : IOp} {t : DType} {e : G} {s s' : GState} {u : Unit} {code : List Immc}
    (h : unCode op t e s = .ok (u, code, s')) :
    ∃ a c1 s1, e.int none s = .ok (a, c1, s1) ∧
      code = c1 ++ [inst op (some (.reg (Sfx.get t.nbytes) (s1.reg + 1) t.isUnsigned)) (some a) none] ∧
      s' = { s1 with reg := s1.reg + 1, exprReg := some (Sfx.get t.nbytes, s1.reg + 1, t.isUnsigned) } := by
  simp only [unCode] at h
  gm at h
  obtain ⟨a, c1, s1, _, h1, ⟨rfl, rfl⟩, rfl⟩ := h
  exact ⟨_, _, _, h1, rfl, rfl⟩

theorem lnotCode_ok {t : DType} {e : G} {s s' : GState} {u : Unit} {code : List Immc}
    (h : lnotCode t e s = .ok (u, code, s')) :
    ∃ a c1 s1, e.reg s = .ok (a, c1, s1) ∧
      code = c1 ++ [inst .seteq (some (.reg (Sfx.get t.nbytes) (s1.reg + 1) t.isUnsigned)) (some a) (some (intOpe (sfxOf a) 0))] ∧
      s' = { s1 with reg := s1.reg + 1, exprReg := some (Sfx.get t.nbytes, s1.reg + 1, t.isUnsigned) } := by
  simp only [lnotCode] at h
  gm at h
  obtain ⟨a, c1, s1, _, h1, ⟨rfl, rfl⟩, rfl⟩ := h
  exact ⟨_, _, _, h1, rfl, rfl⟩

/-- the step of increments and decrements -/
def incLit (t : DType) : Option ILit :=
  if t.isSigned then some ⟨.int, 1⟩
  else if t.isUnsigned then some ⟨.uint, 1⟩
  else match t with
    | .ptr t => some ⟨.int, if t.nbytes > 0 then (t.nbytes : Int) else 1⟩
    | _ => none

theorem incOpe_ok {sf : Sfx} {t : DType} {s s' : GState} {o : Ope} {c : List Immc} (h : incOpe sf t s = .ok (o, c, s')) :
    c = [] ∧ s' = s ∧ ∃ l, incLit t = some l ∧ o = .int sf l := by
  unfold incOpe at h
  unfold incLit
  split
  · rw [if_pos ‹_›] at h
    gm at h
    obtain ⟨rfl, rfl, rfl⟩ := h
    exact ⟨rfl, rfl, _, rfl, rfl⟩
  · rw [if_neg ‹_›] at h
    split
    · rw [if_pos ‹_›] at h
      gm at h
      obtain ⟨rfl, rfl, rfl⟩ := h
      exact ⟨rfl, rfl, _, rfl, rfl⟩
    · rw [if_neg ‹_›] at h
      cases t <;> first | (simp [ub_ok] at h; done) | skip
      gm at h
      obtain ⟨rfl, rfl, rfl⟩ := h
      refine ⟨rfl, rfl, _, rfl, ?_⟩
      simp [intOpe]

theorem incdecPre_ok {op : IOp} {t : DType} {e : G} {s s' : GState} {u : Unit} {code : List Immc}
    (h : incdecCode op false t e s = .ok (u, code, s')) :
    ∃ p c1 s1 l, e.ptr s = .ok (p, c1, s1) ∧ incLit t = some l ∧
      code = c1 ++ [load (.reg (Sfx.get t.nbytes) (s1.reg + 1) t.isUnsigned) p,
        inst op (some (.reg (Sfx.get t.nbytes) (s1.reg + 1) t.isUnsigned)) (some (.reg (Sfx.get t.nbytes) (s1.reg + 1) t.isUnsigned))
          (some (.int (Sfx.get t.nbytes) l)),
        inst .store (some p) (some (.reg (Sfx.get t.nbytes) (s1.reg + 1) t.isUnsigned)) none] ∧
      s' = { s1 with reg := s1.reg + 1, exprReg := some (Sfx.get t.nbytes, s1.reg + 1, t.isUnsigned) } := by
  simp only [incdecCode] at h
  gm at h
  obtain ⟨p, c1, s1, _, h1, ⟨_, ⟨o, c2, s2, _, h2, h, rfl⟩, rfl⟩, rfl⟩ := h
  obtain ⟨rfl, rfl, l, hl, rfl⟩ := incOpe_ok h2
  simp only [Bool.false_eq_true, if_false] at h
  gm at h
  obtain ⟨rfl, rfl⟩ := h
  exact ⟨_, _, _, _, h1, hl, rfl, rfl⟩

theorem incdecPost_ok {op : IOp} {t : DType} {e : G} {s s' : GState} {u : Unit} {code : List Immc}
    (h : incdecCode op true t e s = .ok (u, code, s')) :
    ∃ p c1 s1 l, e.ptr s = .ok (p, c1, s1) ∧ incLit t = some l ∧
      code = c1 ++ [load (.reg (Sfx.get t.nbytes) (s1.reg + 1) t.isUnsigned) p,
        load (.reg (Sfx.get t.nbytes) (s1.reg + 1 + 1) t.isUnsigned) (.reg (Sfx.get t.nbytes) (s1.reg + 1) t.isUnsigned),
        inst op (some (.reg (Sfx.get t.nbytes) (s1.reg + 1) t.isUnsigned)) (some (.reg (Sfx.get t.nbytes) (s1.reg + 1) t.isUnsigned))
          (some (.int (Sfx.get t.nbytes) l)),
        inst .store (some p) (some (.reg (Sfx.get t.nbytes) (s1.reg + 1) t.isUnsigned)) none] ∧
      s' = { s1 with reg := s1.reg + 1 + 1, exprReg := some (Sfx.get t.nbytes, s1.reg + 1 + 1, t.isUnsigned) } := by
  simp only [incdecCode] at h
  gm at h
  obtain ⟨p, c1, s1, _, h1, ⟨_, ⟨o, c2, s2, _, h2, h, rfl⟩, rfl⟩, rfl⟩ := h
  obtain ⟨rfl, rfl, l, hl, rfl⟩ := incOpe_ok h2
  simp only [if_true] at h
  gm at h
  obtain ⟨rfl, rfl⟩ := h
  exact ⟨_, _, _, _, h1, hl, rfl, rfl⟩

theorem argsCode_ok {i : Nat} {g : G} {gs : List G} {s s' : GState} {u : Unit} {code : List Immc}
    (h : argsCode i (g :: gs) s = .ok (u, code, s')) :
    ∃ c1 s1 a c2, argsCode (i + 1) gs s = .ok ((), c1, s1) ∧ g.int none s1 = .ok (a, c2, s') ∧
      code = c1 ++ (c2 ++ [inst .starg (some (.arg (sfxOf a) i false)) (some a) none]) := by
  simp only [argsCode] at h
  gm at h
  obtain ⟨_, c1, s1, _, h1, ⟨a, c2, s2, _, h2, ⟨rfl, rfl⟩, rfl⟩, rfl⟩ := h
  exact ⟨_, _, _, _, h1, h2, rfl⟩

theorem callDest_ok {t : DType} {s s' : GState} {o : Option Ope} {c : List Immc} (h : callDest t s = .ok (o, c, s')) :
    c = [] ∧ ((t.isVoid = true ∧ o = none ∧ s' = s) ∨
      (t.isVoid = false ∧ o = some (.reg (Sfx.get t.nbytes) (s.reg + 1) t.isUnsigned) ∧ s' = { s with reg := s.reg + 1 })) := by
  unfold callDest at h
  cases hv : t.isVoid
  · simp only [hv, Bool.false_eq_true, if_false] at h
    gm at h
    obtain ⟨rfl, rfl, rfl⟩ := h
    exact ⟨rfl, .inr ⟨rfl, rfl, rfl⟩⟩
  · simp only [hv, if_true] at h
    gm at h
    obtain ⟨rfl, rfl, rfl⟩ := h
    exact ⟨rfl, .inl ⟨rfl, rfl, rfl⟩⟩

/-- the call with its arguments already stored -/
def callEnd (d : Option Ope) (p : Ope) (n : Nat) : List Immc :=
  [inst .call d (some p) (some (intOpe .none n)), inst .clean none (some (intOpe .none n)) none]

theorem callCode_ok {t : DType} {f : G} {gs : List G} {s s' : GState} {u : Unit} {code : List Immc}
    (h : callCode t f gs s = .ok (u, code, s')) :
    ∃ c1 s1 p c2 s2 d c3 s3, argsCode 0 gs s = .ok ((), c1, s1) ∧ f.ptr s1 = .ok (p, c2, s2) ∧ callDest t s2 = .ok (d, c3, s3) ∧
      code = inst .prep none (some (intOpe .none gs.length)) none :: (c1 ++ (c2 ++ callEnd d p gs.length)) ∧
      ((t.isVoid = true ∧ d = none ∧ s' = { s2 with exprReg := none }) ∨
       (t.isVoid = false ∧ d = some (.reg (Sfx.get t.nbytes) (s2.reg + 1) t.isUnsigned) ∧
        s' = { s2 with reg := s2.reg + 1, exprReg := some (Sfx.get t.nbytes, s2.reg + 1, t.isUnsigned) })) := by
  simp only [callCode] at h
  gm at h
  obtain ⟨_, ⟨_, c1, s1, _, h1, ⟨p, c2, s2, _, h2, ⟨d, c3, s3, _, h3, ⟨c4, h, rfl⟩, rfl⟩, rfl⟩, rfl⟩, rfl⟩ := h
  obtain ⟨rfl, h4 | h4⟩ := callDest_ok h3
  · obtain ⟨ht, rfl, rfl⟩ := h4
    simp only [setVoid, modify_run, Out.ok.injEq, Prod.mk.injEq, true_and] at h
    obtain ⟨rfl, rfl⟩ := h
    exact ⟨_, _, _, _, _, _, _, _, h1, h2, h3, by simp [callEnd], .inl ⟨ht, rfl, rfl⟩⟩
  · obtain ⟨ht, rfl, rfl⟩ := h4
    gm at h
    obtain ⟨rfl, rfl⟩ := h
    exact ⟨_, _, _, _, _, _, _, _, h1, h2, h3, by simp [callEnd], .inr ⟨ht, rfl, rfl⟩⟩

end Gen
end Umlcc
