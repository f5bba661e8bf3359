import Verif.Lemma.TidyCode
/-!
The code of expressions without side effects reads every register once.
-/
namespace Umlcc
namespace Tidy
open RSpec (reads writes opeRegs branches)
open Gen hiding Branch Branch.defs
open CSem (fresh safe safeArgs)
open Live (reads_inst GLive expr_live args_live)

/-- the register of the expression generated last -/
def exprRegs (s : GState) : List Int := match s.exprReg with | some (_, r, _) => [r] | none => []

/-- a jump to a label that is given later, and the registers it reads -/
def Branch (j : Name → Immc) (R : List Int) : Prop := ∃ op f g, (j = fun n => inst op (some (.label n)) f g) ∧ opeRegs f ++ opeRegs g = R

/-- an operand that is no register, and whose pointer is the register allocated last -/
def Place (s : GState) (o : Ope) : Prop := (∀ sf r u, o ≠ .reg sf r u) ∧ ∀ r, o = .ptr r → r = s.reg

/-- what the generators of an expression without side effects do -/
structure GRuns (k : Nat) (p : Bool) (g : G) : Prop where
  code : ∀ {s c s'}, g.code s = .ok ((), c, s') → Runs s c s' (exprRegs s') k
  int : ∀ {cast s o c s'}, g.int cast s = .ok (o, c, s') → Runs s c s' (opeRegs (some o)) k
  ptr : p = true → ∀ {s o c s'}, g.ptr s = .ok (o, c, s') → Runs s c s' (opeRegs (some o)) k ∧ Place s' o
  jmp : ∀ {b s j c s'}, g.jmp b s = .ok (j, c, s') → ∃ R, Runs s c s' R k ∧ Branch j R

def Fine (k : Nat) (code : GM Unit) : Prop := ∀ {s c s'}, code s = .ok ((), c, s') → Runs s c s' (exprRegs s') k

theorem Runs.fin {s s1 : GState} {c : List Immc} {R : List Int} {k : Nat} (h : Runs s c s1 R k) {op : IOp} {f g : Option Ope} {sf : Sfx} {u : Bool} (ho : op.isJump = false)
    (hR : opeRegs f ++ opeRegs g = R) : Runs s (c ++ [inst op (some (.reg sf (s1.reg + 1) u)) f g]) { s1 with reg := s1.reg + 1, exprReg := some (sf, s1.reg + 1, u) }
      (exprRegs { s1 with reg := s1.reg + 1, exprReg := some (sf, s1.reg + 1, u) }) k :=
  h.last (by simpa [inst, reads] using hR) rfl ho rfl

theorem Runs.cast {s s' : GState} {c : List Immc} {R R' : List Int} {k : Nat} (h : Runs s c s' R k) (e : R = R') : Runs s c s' R' k := e ▸ h

theorem reg_runs {k : Nat} {i : Option DType → GM Ope} {g : GM Ope} {j : Bool → GM (Name → Immc)} {code : GM Unit} {s s' : GState} {o : Ope} {c : List Immc}
    (hi : ∀ {cast s o c s'}, i cast s = .ok (o, c, s') → Runs s c s' (opeRegs (some o)) k) (h : G.reg ⟨code, i, g, j⟩ s = .ok (o, c, s')) :
    Runs s c s' (opeRegs (some o)) k := by
  obtain ⟨sf, r, u, rfl, h1 | ⟨l, c0, s0, h1, rfl, rfl, rfl, rfl⟩⟩ := reg_ok h
  · exact hi h1
  · exact (hi h1).last (t := { s0 with reg := s0.reg + 1 }) (by simp [load, inst, reads, opeRegs]) rfl rfl rfl

theorem GRuns.reg {k : Nat} {p : Bool} {g : G} (h : GRuns k p g) {s : GState} {o : Ope} {c : List Immc} {s' : GState} (hr : g.reg s = .ok (o, c, s')) :
    Runs s c s' (opeRegs (some o)) k := reg_runs h.int hr

theorem GRuns.of {k : Nat} {p : Bool} {code : GM Unit} {int : Option DType → GM Ope} (h1 : Fine k code)
    (h2 : ∀ {cast s o c s'}, int cast s = .ok (o, c, s') → Runs s c s' (opeRegs (some o)) k)
    (h3 : p = true → ∀ {s c s'}, code s = .ok ((), c, s') → ∃ sf u, s'.exprReg = some (sf, s'.reg, u)) : GRuns k p (G.of code int) where
  code := h1
  int := h2
  ptr hp {s o c s'} h := by
    obtain ⟨h', rfl⟩ := ptrOf_ok h
    obtain ⟨sf, u, he⟩ := h3 hp h'
    exact ⟨(h1 h').cast (by simp [exprRegs, he, opeRegs]), nofun, fun r hr => by cases hr; rfl⟩
  jmp {b s j c s'} h := by
    obtain ⟨sf, r, u, h', rfl⟩ := jmpZero_ok h
    exact ⟨_, reg_runs h2 h', _, _, _, rfl, by simp [opeRegs, intOpe]⟩

theorem GRuns.plain {k : Nat} {p : Bool} {code : GM Unit} (h1 : Fine k code)
    (h3 : p = true → ∀ {s c s'}, code s = .ok ((), c, s') → ∃ sf u, s'.exprReg = some (sf, s'.reg, u)) : GRuns k p (G.plain code) := by
  refine GRuns.of h1 ?_ h3
  intro cast s o c s' h
  simp only [bind_ok] at h
  obtain ⟨_, c1, s1, c2, ha, hb, rfl⟩ := h
  obtain ⟨sf, r, u, he, ⟨_, rfl, rfl, rfl⟩ | ⟨t, _, rfl, rfl, rfl⟩⟩ := castReg_ok hb
  · rw [List.append_nil]
    exact (h1 ha).cast (by simp [exprRegs, he, opeRegs])
  · exact (h1 ha).last (t := { s1 with reg := s1.reg + 1 }) (by simp [load, inst, reads, opeRegs, exprRegs, he]) rfl rfl rfl

theorem GRuns.bin {kl kr k : Nat} {p pl pr : Bool} {op : SBin} {code : GM Unit} {l r : G} (h1 : Fine k code)
    (h3 : p = true → ∀ {s c s'}, code s = .ok ((), c, s') → ∃ sf u, s'.exprReg = some (sf, s'.reg, u))
    (hl : GRuns kl pl l) (hr : GRuns kr pr r) (hk : ∀ {b o}, cjmp op b = some o → kl ≤ k ∧ 1 + kr ≤ k) : GRuns k p (G.bin op code l r) := by
  have hp := GRuns.plain h1 h3
  refine ⟨hp.code, hp.int, hp.ptr, ?_⟩
  intro b s j c s' h
  simp only [G.bin] at h
  cases hc : cjmp op b with
  | none => rw [hc] at h; exact hp.jmp h
  | some o =>
    rw [hc] at h
    obtain ⟨a, c1, s1, b', c2, h1, h2, rfl, rfl⟩ := jmpCmp_ok h
    obtain ⟨sf, r, u, rfl, -⟩ := reg_ok h1
    exact ⟨_, (hl.reg h1).seq (hr.int h2) (hk hc).1 (hk hc).2, _, _, _, rfl, rfl⟩

theorem Branch.reads {j : Name → Immc} {R : List Int} (h : Branch j R) (n : Name) : RSpec.reads (j n) = R := by
  obtain ⟨op, f, g, rfl, rfl⟩ := h
  simp [inst, RSpec.reads]
theorem Branch.writes {j : Name → Immc} {R : List Int} (h : Branch j R) (n : Name) : RSpec.writes (j n) = none := by
  obtain ⟨op, f, g, rfl, rfl⟩ := h
  rfl

theorem Branch.aims {j : Name → Immc} {R : List Int} (h : Branch j R) (n : Name) (hj : (j n).isJump = true) : RSpec.target (j n) ≠ none := by
  obtain ⟨op, f, g, rfl, rfl⟩ := h
  cases op <;> first | cases hj; done | nofun

/-- the jump after a condition -/
theorem Runs.jmp {s s1 : GState} {c : List Immc} {R : List Int} {k : Nat} (h : Runs s c s1 R k) {j : Name → Immc} (hj : Branch j R) (n : Name) : Runs s (c ++ [j n]) s1 [] k :=
  h.use (by rw [hj.reads]) (hj.writes n) (hj.aims n)

/-- the value of one side of `?:` is put in its place -/
theorem Runs.into {s s1 : GState} {c : List Immc} {d : Int} {a : Ope} {k : Nat} {sf : Sfx} {u : Bool} (h : Runs s c s1 (d :: opeRegs (some a)) k) :
    Runs s (c ++ [load (.reg sf d u) a]) s1 [d] k := by
  have hd := h.nd
  refine h.add (Int.le_refl _) (Nat.le_refl _) ?_ ?_ ?_ ?_ (by simp) ?_ ?_ nofun
  · intro v hv; simp [load, inst, reads, opeRegs] at hv ⊢; exact .inr hv
  · intro v hv; cases hv; simp
  · intro _; simp [load, inst, reads, opeRegs]; exact (List.nodup_cons.1 hd).2
  · intro h; cases h
  · intro v hv
    obtain rfl := List.mem_singleton.1 hv
    exact ⟨.inl (by simp), fun hs => hs.2.1 rfl⟩
  · intro w hw; cases hw; simp

theorem condCode_runs {kc kl kr k : Nat} {pc pl pr : Bool} {t : DType} {c l r : G} (hc : GRuns kc pc c) (hl : GRuns kl pl l) (hr : GRuns kr pr r) (h1 : kc ≤ k) (h2 : 1 + kl ≤ k)
    (h3 : 1 + kr ≤ k) : Fine k (condCode t c l r) := by
  intro s code s' h
  obtain ⟨j, c1, s1, a, c2, s2, b, c3, s3, g1, g2, g3, rfl, rfl⟩ := condCode_ok h
  obtain ⟨R, r1, hj⟩ := hc.jmp g1
  have e1 := ((r1.jmp hj (labelName (s.lab + 1))).bump (t := { s1 with reg := s1.reg + 1 }) (R' := [s1.reg + 1]) (by simp; omega) (by simp) (by simp; omega)).seq (k := k) (hl.reg g2) h1 (by simpa using h2)
  have e2 := ((e1.into (sf := Sfx.get t.nbytes) (u := t.isUnsigned)).skip (x := jump (s.lab + 1 + 1)) rfl rfl).skip (x := labelAt (s.lab + 1)) rfl rfl
  have e3 := ((e2.seq (k := k) (hr.reg g3) (Nat.le_refl _) (by simpa using h3)).into (sf := Sfx.get t.nbytes) (u := t.isUnsigned)).skip (x := labelAt (s.lab + 1 + 1)) rfl rfl
  have := e3.to (t := s) (t' := { s3 with exprReg := some (Sfx.get t.nbytes, s1.reg + 1, t.isUnsigned) }) rfl rfl (Nat.le_refl _)
  simpa [exprRegs] using this

theorem logicalCode_runs {kl kr k : Nat} {pl pr b : Bool} {t : DType} {l r : G} (hl : GRuns kl pl l) (hr : GRuns kr pr r) (h1 : kl ≤ k) (h2 : kr ≤ k) : Fine k (logicalCode b t l r) := by
  intro s code s' h
  obtain ⟨j, c1, s1, j', c2, s2, g1, g2, rfl, rfl⟩ := logicalCode_ok h
  obtain ⟨R, r1, hj⟩ := hl.jmp g1
  obtain ⟨R', r2, hj'⟩ := hr.jmp g2
  have e1 := ((r1.jmp hj (labelName (s.lab + 1))).seq (k := k) r2 h1 (by simpa using h2)).jmp hj' (labelName (s.lab + 1))
  have e2 := e1.bump (t := { s2 with reg := s2.reg + 1 }) (R' := [s2.reg + 1]) (by simp; omega) (by simp) (by simp; omega)
  have e3 := (((Runs.into (a := intOpe (Sfx.get t.nbytes) (if b then 0 else 1)) (sf := Sfx.get t.nbytes) (u := t.isUnsigned) e2).skip (x := jump (s.lab + 1 + 1)) rfl rfl).skip
    (x := labelAt (s.lab + 1)) rfl rfl)
  have e4 := (Runs.into (a := intOpe (Sfx.get t.nbytes) (if b then 1 else 0)) (sf := Sfx.get t.nbytes) (u := t.isUnsigned) e3).skip (x := labelAt (s.lab + 1 + 1)) rfl rfl
  have := e4.to (t := s) (t' := { s2 with reg := s2.reg + 1, exprReg := some (Sfx.get t.nbytes, s2.reg + 1, t.isUnsigned) }) rfl rfl (Nat.le_refl _)
  simpa [exprRegs] using this

theorem notJump {op : IOp} (h : branches op = false) : op.isJump = false := by cases op <;> first | rfl | cases h

/-- an instruction with a register as its source and its destination -/
theorem Runs.inPlace {s s1 : GState} {c : List Immc} {R : List Int} {b : Int} {k : Nat} (h : Runs s c s1 R k) (hb : b ∈ R) (hk : R.length ≤ k + 1) {op : IOp} {sf : Sfx} {u : Bool} {o : Ope}
    (ho : op.isJump = false) (hn : opeRegs (some o) = []) (hc : op ≠ .call := by exact nofun) : Runs s (c ++ [inst op (some (.reg sf b u)) (some (.reg sf b u)) (some o)]) s1 R k := by
  have hr : reads (inst op (some (.reg sf b u)) (some (.reg sf b u)) (some o)) = [b] := by simp [inst, reads, hn]; rfl
  refine h.add (Int.le_refl _) (Nat.le_refl _) ?_ ?_ ?_ ?_ h.nd ?_ ?_ fun h => absurd (by simpa [isCall, inst] using h) hc
  · rw [hr]; intro v hv; obtain rfl := List.mem_singleton.1 hv; exact hb
  · intro v hv; cases hv; exact .inl hb
  · intro _; rw [hr]; simp
  · intro h; exact absurd (ho.symm.trans h) nofun
  · intro v hv
    refine ⟨.inl hv, fun hs => ?_⟩
    have := hs.1
    rw [hr] at this
    obtain rfl := List.mem_singleton.1 this
    exact hs.2.1 rfl
  · intro w hw
    cases hw
    have : (R.filter (· < b)).length < R.length := by
      rw [← List.countP_eq_length_filter]
      refine Nat.lt_of_le_of_ne List.countP_le_length fun e => ?_
      have := List.countP_eq_length.1 e b hb
      simp at this
    omega

theorem ptrAdd_runs {s s2 : GState} {c : List Immc} {ra rb : Int} {sa sb sf : Sfx} {ua ub u : Bool} {k : Nat} {n : Int} (h : Runs s c s2 [ra, rb] k) (hk : 1 ≤ k) {op : IOp}
    (ho : op.isJump = false) : Runs s (c ++ [inst .mul (some (.reg sb rb ub)) (some (.reg sb rb ub)) (some (intOpe sb n)),
      inst op (some (.reg sf (s2.reg + 1) u)) (some (.reg sa ra ua)) (some (.reg sb rb ub))]) { s2 with reg := s2.reg + 1, exprReg := some (sf, s2.reg + 1, u) }
      (exprRegs { s2 with reg := s2.reg + 1, exprReg := some (sf, s2.reg + 1, u) }) k := by
  have := (h.inPlace (b := rb) (by simp) (by simp; omega) (op := .mul) (sf := sb) (u := ub) (o := intOpe sb n) rfl rfl).fin (op := op) (sf := sf) (u := u) (f := some (.reg sa ra ua))
    (g := some (.reg sb rb ub)) ho rfl
  simpa using this

theorem ptrDiff_runs {s s2 : GState} {c : List Immc} {ra rb : Int} {sa sb sf : Sfx} {ua ub u : Bool} {k : Nat} {n : Int} (h : Runs s c s2 [ra, rb] k) :
    Runs s (c ++ [inst .sub (some (.reg sf (s2.reg + 1) u)) (some (.reg sa ra ua)) (some (.reg sb rb ub)),
      inst .div (some (.reg sf (s2.reg + 1) u)) (some (.reg sf (s2.reg + 1) u)) (some (intOpe sf n))]) { s2 with reg := s2.reg + 1, exprReg := some (sf, s2.reg + 1, u) }
      (exprRegs { s2 with reg := s2.reg + 1, exprReg := some (sf, s2.reg + 1, u) }) k := by
  have := (h.fin (op := .sub) (sf := sf) (u := u) (f := some (.reg sa ra ua)) (g := some (.reg sb rb ub)) rfl rfl).inPlace (b := s2.reg + 1) (by simp [exprRegs]) (by simp [exprRegs])
    (op := .div) (sf := sf) (u := u) (o := intOpe sf n) rfl rfl
  simpa using this

theorem binCode_runs {kl kr k : Nat} {pl pr : Bool} {op : SBin} (ha : op ≠ .assign) {t lt : DType} {l r : G} (hl : GRuns kl pl l) (hr : GRuns kr pr r) (h1 : kl ≤ k)
    (h2 : (if op = .land ∨ op = .lor then kr else 1 + kr) ≤ k) : Fine k (binCode op t lt l r) := by
  intro s code s' h
  have pair : ∀ {a b : Ope} {c1 c2 : List Immc} {s s1 s2 : GState}, op ≠ .land → op ≠ .lor → l.reg s = .ok (a, c1, s1) → Runs s1 c2 s2 (opeRegs (some b)) kr →
      Runs s (c1 ++ c2) s2 (opeRegs (some a) ++ opeRegs (some b)) k := by
    intro a b c1 c2 s s1 s2 n1 n2 g1 g2
    have := hl.reg g1
    obtain ⟨sf, r, u, rfl, -⟩ := reg_ok g1
    exact this.seq g2 h1 (by simpa [n1, n2, opeRegs] using h2)
  unfold binCode at h
  split at h
  · exact absurd rfl ha
  · exact logicalCode_runs hl hr h1 (by simpa using h2) h
  · exact logicalCode_runs hl hr h1 (by simpa using h2) h
  · obtain ⟨a, c1, s1, b, c2, s2, t', g1, g2, _, rfl, rfl⟩ := ptrAddCode_ok h
    have e := pair nofun nofun g1 (hr.reg g2)
    obtain ⟨sa, ra, ua, rfl, -⟩ := reg_ok g1
    obtain ⟨sb, rb, ub, rfl, -⟩ := reg_ok g2
    rw [← List.append_assoc]
    exact ptrAdd_runs e (by simp at h2; omega) rfl
  · obtain ⟨a, c1, s1, b, c2, s2, t', g1, g2, _, rfl, rfl⟩ := ptrAddCode_ok h
    have e := pair nofun nofun g1 (hr.reg g2)
    obtain ⟨sa, ra, ua, rfl, -⟩ := reg_ok g1
    obtain ⟨sb, rb, ub, rfl, -⟩ := reg_ok g2
    rw [← List.append_assoc]
    exact ptrAdd_runs e (by simp at h2; omega) rfl
  · obtain ⟨a, c1, s1, b, c2, s2, t', g1, g2, _, rfl, rfl⟩ := ptrDiffCode_ok h
    have e := pair nofun nofun g1 (hr.reg g2)
    obtain ⟨sa, ra, ua, rfl, -⟩ := reg_ok g1
    obtain ⟨sb, rb, ub, rfl, -⟩ := reg_ok g2
    rw [← List.append_assoc]
    exact ptrDiff_runs e
  · obtain ⟨a, c1, s1, b, c2, s2, g1, g2, rfl, rfl⟩ := arithCode_ok h
    have e := pair (by rintro rfl; simp_all) (by rintro rfl; simp_all) g1 (hr.int g2)
    rw [← List.append_assoc]
    refine e.fin (notJump ?_) rfl
    rcases binOp_flat (op := op) with hb | rfl | rfl | rfl | rfl
    · exact hb
    all_goals simp_all

theorem symOpe_runs {n : Str} {s s' : GState} {o : Ope} {c : List Immc} (h : symOpe n s = .ok (o, c, s')) : Runs s c s' (opeRegs (some o)) 0 := by
  obtain ⟨rfl, rfl, y, -, ⟨-, m, -, rfl⟩ | ⟨k, -, rfl⟩⟩ := symOpe_ok h
  · exact .nil rfl 0
  · exact .nil rfl 0

theorem symOpe_place {k : Nat} {n : Str} {s : GState} {o : Ope} {c : List Immc} {s' : GState} (h : symOpe n s = .ok (o, c, s')) : Runs s c s' (opeRegs (some o)) k ∧ Place s' o := by
  refine ⟨(symOpe_runs h).to rfl rfl (Nat.zero_le _), ?_⟩
  obtain ⟨rfl, rfl, y, -, ⟨-, m, -, rfl⟩ | ⟨k, -, rfl⟩⟩ := symOpe_ok h <;> exact ⟨nofun, nofun⟩

theorem pure_runs {o o' : Ope} (ho : opeRegs (some o) = []) {s s' : GState} {c : List Immc} (h : (pure o : GM Ope) s = .ok (o', c, s')) : Runs s c s' (opeRegs (some o')) 0 := by
  obtain ⟨rfl, rfl, rfl⟩ := pure_ok.1 h
  rw [ho]
  exact .nil rfl 0

theorem primaryCode_runs {t : DType} {src : GM Ope} (hs : ∀ {s o c s'}, src s = .ok (o, c, s') → Runs s c s' (opeRegs (some o)) 0) : Fine 0 (primaryCode t src) := by
  intro s code s' h
  obtain ⟨o, c1, s1, h1, rfl, rfl⟩ := primaryCode_ok h
  exact (hs h1).fin rfl (by simp [opeRegs])

theorem addrCode_runs {t : DType} {src : GM Ope} (hs : ∀ {s o c s'}, src s = .ok (o, c, s') → Runs s c s' (opeRegs (some o)) 0) : Fine 0 (addrCode t src) := by
  intro s code s' h
  obtain ⟨o, c1, s1, h1, rfl, rfl⟩ := addrCode_ok h
  exact (hs h1).fin rfl (by simp [opeRegs])

theorem memberAddrCode_runs {k : Nat} {p : Bool} {t st : DType} {e : G} {m : Str} (he : GRuns k p e) : Fine k (memberAddrCode t st e m) := by
  intro s code s' h
  obtain ⟨a, c1, s1, ms, o, h1, _, _, rfl, rfl⟩ := memberAddrCode_ok h
  exact (he.reg h1).fin rfl (by simp [opeRegs, intOpe])

theorem memberCode_runs {k : Nat} {p : Bool} {t st : DType} {e : G} {m : Str} (he : GRuns k p e) : Fine k (memberCode t st e m) := by
  intro s code s' h
  obtain ⟨sf, r, us, c1, s1, h1, h2, rfl, rfl⟩ := memberCode_ok h
  exact (memberAddrCode_runs he h1).fin rfl (by simp [exprRegs, h2, opeRegs])

theorem argsCode_runs {k : Nat} : ∀ {gs : List G} (_ : ∀ g ∈ gs, ∃ p, GRuns k p g) {i : Nat} {s s' : GState} {code : List Immc}
    (_ : argsCode i gs s = .ok ((), code, s')), Runs s code s' [] k
  | [], _, _, _, _, _, h => by
    obtain ⟨-, rfl, rfl⟩ := pure_ok.1 h
    exact .nil rfl k
  | g :: gs, hg, i, s, s', code, h => by
    obtain ⟨c1, s1, a, c2, h1, h2, rfl⟩ := argsCode_ok h
    rw [← List.append_assoc]
    obtain ⟨p, hg0⟩ := hg g (by simp)
    exact ((argsCode_runs (fun g hg' => hg g (by simp [hg'])) h1).seq (k := k) (hg0.int h2) (Nat.le_refl _) (by simp)).use (by simp [inst, reads, opeRegs]) rfl

theorem callCode_runs {kf ka k : Nat} {t : DType} {f : G} {gs : List G} (hf : GRuns kf true f) (hg : ∀ g ∈ gs, ∃ p, GRuns ka p g) (h1 : kf ≤ k) (h2 : ka ≤ k) : Fine k (callCode t f gs) := by
  intro s code s' h
  obtain ⟨c1, s1, p, c2, s2, d, c3, s3, g1, g2, _, rfl, h4⟩ := callCode_ok h
  have e0 := (Runs.nil (s := s) (s' := s) rfl ka).skip (x := inst .prep none (some (intOpe .none gs.length)) none) rfl rfl
  have e1 := (e0.seq (k := ka) (argsCode_runs hg g1) (Nat.le_refl _) (by simp)).seq (k := k) (hf.ptr rfl g2).1 h2 (by simpa using h1)
  rcases h4 with ⟨_, rfl, rfl⟩ | ⟨_, rfl, rfl⟩
  · have e2 := (e1.use (x := inst .call none (some p) (some (intOpe .none gs.length))) (by simp [inst, reads, opeRegs, intOpe]) rfl).skip
      (x := inst .clean none (some (intOpe .none gs.length)) none) rfl rfl
    have := e2.to (t := s) (t' := { s2 with exprReg := none }) rfl rfl (Nat.le_refl _)
    simpa [exprRegs, callEnd] using this
  · have e2 := (e1.fin (op := .call) (f := some p) (g := some (intOpe .none gs.length)) (sf := Sfx.get t.nbytes) (u := t.isUnsigned) rfl (by simp [opeRegs, intOpe])).skip
      (x := inst .clean none (some (intOpe .none gs.length)) none) rfl rfl
    simpa [callEnd] using e2

theorem fatal_fine {k : Nat} : Fine k fatal := by
  intro s c s' h
  simp [fatal_ok] at h

theorem GRuns.mono {k k' : Nat} {p : Bool} {g : G} (h : GRuns k p g) (hk : k ≤ k') : GRuns k' p g where
  code h1 := (h.code h1).to rfl rfl hk
  int h1 := (h.int h1).to rfl rfl hk
  ptr hp _ _ _ _ h1 := ⟨(h.ptr hp h1).1.to rfl rfl hk, (h.ptr hp h1).2⟩
  jmp h1 := by obtain ⟨R, r, b⟩ := h.jmp h1; exact ⟨R, r.to rfl rfl hk, b⟩

theorem un_runs {op : SUn} {t : DType} {e : SExpr} {o : Option DType} (hs : safe o (.un op t e) = true) (hc : clean (.un op t e) = true)
    (he : ∀ o, safe o e = true → clean e = true → GRuns (need e) (fresh e) (expr e))
    (hm : ∀ t' d a m, e = .tomember t' d a m → safe none d = true → clean d = true → GRuns (need d) (fresh d) (expr d))
    (hi : ∀ t' d, e = .un .indir t' d → safe none d = true → clean d = true → GRuns (need d) (fresh d) (expr d)) :
    GRuns (need (.un op t e)) (fresh (.un op t e)) (expr (.un op t e)) := by
  have top := (expr_live _ o hs).top
  simp only [clean, Bool.and_eq_true] at hc
  have he := fun o h => he o h hc.2
  simp only [need]
  cases op with
  | cast =>
    simp only [safe, Bool.and_eq_true] at hs
    have he' := he _ hs.2
    rw [expr] at top ⊢
    exact .of fatal_fine (fun h => he'.int h) top
  | addr =>
    cases e with
    | ident t' n =>
      rw [expr] at top ⊢
      have := GRuns.plain (p := fresh (.un .addr t (.ident t' n))) (k := 0) (code := addrCode t (symOpe n)) (addrCode_runs symOpe_runs) top
      exact ⟨this.code, this.int, fun _ => symOpe_place, this.jmp⟩
    | str t' id => rw [expr] at top ⊢; exact .plain (addrCode_runs (pure_runs rfl)) top
    | tomember t' d a m =>
      rw [expr] at top ⊢
      exact .plain (memberAddrCode_runs (hm _ _ _ _ rfl (by simpa only [safe] using hs) (by simpa only [clean] using hc.2))) top
    | un op' t' d =>
      cases op' with
      | indir =>
        have h := hi _ _ rfl (by simpa only [safe] using hs) (by simpa [clean, changes] using hc.2)
        rw [expr] at top ⊢
        simp only [need]
        exact .plain h.code top
      | _ => rw [expr] at top ⊢ <;> first | exact .plain fatal_fine top | nofun
    | _ => rw [expr] at top ⊢ <;> first | exact .plain fatal_fine top | nofun
  | preinc => cases hc.1
  | predec => cases hc.1
  | postinc => cases hc.1
  | postdec => cases hc.1
  | indir =>
    simp only [safe, Bool.and_eq_true] at hs
    have h := he none hs.2
    rw [hs.1] at h
    rw [expr] at top ⊢
    refine .plain (fun hc => ?_) top
    obtain ⟨p, c1, s1, h1, rfl, rfl⟩ := indirCode_ok hc
    exact (h.ptr rfl h1).1.fin rfl (by simp [opeRegs])
  | pos =>
    have h := he none (by simpa only [safe] using hs)
    rw [expr] at top ⊢
    refine .plain (fun hc => ?_) top
    obtain ⟨sf, r, us, s1, h1, rfl⟩ := posCode_ok hc
    exact (h.reg h1).to rfl rfl (Nat.le_refl _)
  | neg =>
    have h := he none (by simpa only [safe] using hs)
    rw [expr] at top ⊢
    refine .plain (fun hc => ?_) top
    obtain ⟨a, c1, s1, h1, rfl, rfl⟩ := unCode_ok hc
    exact (h.int h1).fin rfl (by simp [opeRegs])
  | not =>
    have h := he none (by simpa only [safe] using hs)
    rw [expr] at top ⊢
    refine .plain (fun hc => ?_) top
    obtain ⟨a, c1, s1, h1, rfl, rfl⟩ := unCode_ok hc
    exact (h.int h1).fin rfl (by simp [opeRegs])
  | lnot =>
    have h := he none (by simpa only [safe] using hs)
    rw [expr] at top ⊢
    refine .plain (fun hc => ?_) top
    obtain ⟨a, c1, s1, h1, rfl, rfl⟩ := lnotCode_ok hc
    exact (h.reg h1).fin rfl (by simp [opeRegs, intOpe])

theorem bin_runs {op : SBin} {t : DType} {l r : SExpr} {o : Option DType} (hs : safe o (.bin op t l r) = true) (hc : clean (.bin op t l r) = true)
    (hl : safe none l = true → clean l = true → GRuns (need l) (fresh l) (expr l)) (hr : safe none r = true → clean r = true → GRuns (need r) (fresh r) (expr r)) :
    GRuns (need (.bin op t l r)) (fresh (.bin op t l r)) (expr (.bin op t l r)) := by
  have top := (expr_live _ o hs).top
  simp only [clean, Bool.and_eq_true, decide_eq_true_eq] at hc
  obtain ⟨⟨ha, hcl⟩, hcr⟩ := hc
  have hs' : safe none l = true ∧ safe none r = true := by
    cases op <;> first | exact absurd rfl ha | simpa only [safe, Bool.and_eq_true] using hs
  have h1 := hl hs'.1 hcl
  have h2 := hr hs'.2 hcr
  have e1 : need l ≤ need (.bin op t l r) := by simp only [need]; split <;> omega
  rw [expr] at top ⊢
  refine .bin (binCode_runs ha h1 h2 e1 ?_) top h1 h2 ?_
  · simp only [need]; split <;> omega
  · intro b o' hj
    refine ⟨e1, ?_⟩
    have : ¬ (op = .land ∨ op = .lor) := by rintro (rfl | rfl) <;> cases b <;> cases hj
    simp only [need, if_neg this]
    omega

mutual
theorem expr_runs : ∀ (e : SExpr) (o : Option DType), safe o e = true → clean e = true → GRuns (need e) (fresh e) (expr e)
  | .ident t n, o, hs, _ => by
    have top := (expr_live (.ident t n) o hs).top
    rw [expr] at top ⊢
    exact .plain (primaryCode_runs symOpe_runs) top
  | .str t id, o, hs, _ => by
    have top := (expr_live (.str t id) o hs).top
    rw [expr] at top ⊢
    exact .plain (primaryCode_runs (pure_runs rfl)) top
  | .ilit t l, o, hs, _ => by
    have top := (expr_live (.ilit t l) o hs).top
    rw [expr] at top ⊢
    exact .of (primaryCode_runs (pure_runs rfl)) (pure_runs rfl) top
  | .bin op t l r, _, hs, hc => bin_runs hs hc (expr_runs l none) (expr_runs r none)
  | .cond t c l r, o, hs, hc => by
    have top := (expr_live (.cond t c l r) o hs).top
    simp only [safe, Bool.and_eq_true] at hs
    simp only [clean, Bool.and_eq_true] at hc
    rw [expr] at top ⊢
    refine .plain (condCode_runs (expr_runs c none hs.1.1 hc.1.1) (expr_runs l none hs.1.2 hc.1.2) (expr_runs r none hs.2 hc.2) ?_ ?_ ?_) top <;> simp only [need] <;> omega
  | .un op t (.tomember t' d a m), _, hs, hc => un_runs hs hc (fun o h => expr_runs _ o h) (fun _ _ _ _ h => by cases h; exact expr_runs d none) nofun
  | .un op t (.un o t' d), _, hs, hc => un_runs hs hc (fun o h => expr_runs _ o h) nofun (fun _ _ h => by cases h; exact expr_runs d none)
  | .un op t (.ident t' n), _, hs, hc => un_runs hs hc (fun o h => expr_runs _ o h) nofun nofun
  | .un op t (.str t' n), _, hs, hc => un_runs hs hc (fun o h => expr_runs _ o h) nofun nofun
  | .un op t (.ilit t' n), _, hs, hc => un_runs hs hc (fun o h => expr_runs _ o h) nofun nofun
  | .un op t (.bin o t' l r), _, hs, hc => un_runs hs hc (fun o h => expr_runs _ o h) nofun nofun
  | .un op t (.cond t' c l r), _, hs, hc => un_runs hs hc (fun o h => expr_runs _ o h) nofun nofun
  | .un op t (.call t' f as), _, hs, hc => un_runs hs hc (fun o h => expr_runs _ o h) nofun nofun
  | .call t f as, o, hs, hc => by
    have top := (expr_live (.call t f as) o hs).top
    simp only [safe, Bool.and_eq_true] at hs
    simp only [clean, Bool.and_eq_true] at hc
    have h := expr_runs f none hs.1.2 hc.1
    rw [hs.1.1] at h
    rw [expr] at top ⊢
    refine .plain (callCode_runs h (args_runs as hs.2 hc.2) ?_ ?_) top <;> simp only [need] <;> omega
  | .tomember t e a m, o, hs, hc => by
    have top := (expr_live (.tomember t e a m) o hs).top
    rw [expr] at top ⊢
    simp only [need]
    exact .plain (memberCode_runs (expr_runs e none (by simpa only [safe] using hs) (by simpa only [clean] using hc))) top
theorem args_runs : ∀ as : SArgs, safeArgs as = true → cleanArgs as = true → ∀ g ∈ args as, ∃ p, GRuns (needArgs as) p g
  | .nil, _, _ => by simp [args]
  | .cons e as, hs, hc => by
    simp only [safeArgs, Bool.and_eq_true] at hs
    simp only [cleanArgs, Bool.and_eq_true] at hc
    intro g hg
    rw [args] at hg
    rcases List.mem_cons.1 hg with rfl | h
    · exact ⟨_, (expr_runs e none hs.1 hc.1).mono (by simp only [needArgs]; omega)⟩
    · obtain ⟨p, h⟩ := args_runs as hs.2 hc.2 g h
      exact ⟨p, h.mono (by simp only [needArgs]; omega)⟩
end

end Tidy
end Umlcc
