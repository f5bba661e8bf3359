import Verif.Lemma.LiveExpr
/-!
Live registers in the code of all expressions of the fragment.
-/
namespace Umlcc
namespace Live
open RSpec (reads writes target isLabelNamed opeRegs branches)
open Gen hiding Branch Branch.defs
open CSem (fresh safe safeArgs)

/-- what the generators of an expression do with registers; `p` if its value is in the register allocated last -/
structure GLive (p : Bool) (g : G) : Prop where
  code : ∀ {s c s'}, g.code s = .ok ((), c, s') → Code s c s' (exprSet s')
  int : ∀ {cast s o c s'}, g.int cast s = .ok (o, c, s') → Code s c s' (opeSet o)
  ptr : p = true → ∀ {s o c s'}, g.ptr s = .ok (o, c, s') → Code s c s' (opeSet o) ∧ ∀ sf r u, o ≠ .reg sf r u
  jmp : ∀ {b s j c s'}, g.jmp b s = .ok (j, c, s') → ∃ R, Code s c s' R ∧ Branch j R
  top : p = true → ∀ {s c s'}, g.code s = .ok ((), c, s') → ∃ sf u, s'.exprReg = some (sf, s'.reg, u)
  intTop : ∀ {cast s sf r u c s'}, (p || cast.isSome) = true → g.int cast s = .ok (.reg sf r u, c, s') → r = s'.reg

theorem opeSet_reg {sf : Sfx} {r : Int} {u : Bool} {v : Int} : opeSet (.reg sf r u) v ↔ v = r := by simp [opeSet, opeRegs]
theorem exprSet_reg {s : GState} {sf : Sfx} {r : Int} {u : Bool} (h : s.exprReg = some (sf, r, u)) {v : Int} : exprSet s v ↔ v = r := by
  unfold exprSet
  rw [h]
  constructor
  · rintro ⟨_, _, h⟩; cases h; rfl
  · rintro rfl; exact ⟨_, _, rfl⟩

theorem reg_live {g : GM Ope} {i : Option DType → GM Ope} {j : Bool → GM (Name → Immc)} {code : GM Unit} {s s' : GState} {o : Ope} {c : List Immc}
    (hi : ∀ {cast s o c s'}, i cast s = .ok (o, c, s') → Code s c s' (opeSet o)) (h : G.reg ⟨code, i, g, j⟩ s = .ok (o, c, s')) :
    Code s c s' (opeSet o) := by
  obtain ⟨sf, r, u, rfl, h1 | ⟨l, c0, s0, h1, rfl, rfl, rfl, rfl⟩⟩ := reg_ok h
  · exact hi h1
  · exact ((hi h1).last (s' := { s0 with reg := s0.reg + 1 }) rfl (fun v => by simp [opeSet, opeRegs]) rfl rfl).congr fun v => opeSet_reg.symm

theorem GLive.reg {p : Bool} {g : G} (h : GLive p g) {s : GState} {o : Ope} {c : List Immc} {s' : GState} (hr : g.reg s = .ok (o, c, s')) :
    Code s c s' (opeSet o) := reg_live h.int hr

theorem GLive.regTop {p : Bool} {g : G} (h : GLive p g) (hp : p = true) {s : GState} {sf : Sfx} {r : Int} {u : Bool} {c : List Immc} {s' : GState}
    (hr : g.reg s = .ok (.reg sf r u, c, s')) : r = s'.reg := by
  obtain ⟨sf, r, u, he, h1 | ⟨l, c0, s0, h1, rfl, rfl, rfl, rfl⟩⟩ := reg_ok hr
  · cases he
    exact h.intTop (cast := none) (by simp [hp]) h1
  · cases he; rfl

theorem GLive.of {p : Bool} {code : GM Unit} {int : Option DType → GM Ope} (h1 : ∀ {s c s'}, code s = .ok ((), c, s') → Code s c s' (exprSet s'))
    (h2 : ∀ {cast s o c s'}, int cast s = .ok (o, c, s') → Code s c s' (opeSet o))
    (h3 : p = true → ∀ {s c s'}, code s = .ok ((), c, s') → ∃ sf u, s'.exprReg = some (sf, s'.reg, u))
    (h4 : ∀ {cast s sf r u c s'}, (p || cast.isSome) = true → int cast s = .ok (.reg sf r u, c, s') → r = s'.reg) : GLive p (G.of code int) where
  code := h1
  int := h2
  ptr hp {s o c s'} h := by
    obtain ⟨h', rfl⟩ := ptrOf_ok h
    obtain ⟨sf, u, he⟩ := h3 hp h'
    exact ⟨(h1 h').congr fun v => by rw [exprSet_reg he]; simp [opeSet, opeRegs], nofun⟩
  jmp {b s j c s'} h := by
    obtain ⟨sf, r, u, h', rfl⟩ := jmpZero_ok h
    refine ⟨_, reg_live h2 h', _, _, _, ?_, rfl, fun v => by simp [opeSet, opeRegs, intOpe]⟩
    cases b <;> rfl
  top := h3
  intTop := h4

theorem castReg_live {cast : Option DType} {s0 s s' : GState} {o : Ope} {c0 c : List Immc} (h0 : Code s0 c0 s (exprSet s)) (h : castReg cast s = .ok (o, c, s')) :
    Code s0 (c0 ++ c) s' (opeSet o) := by
  obtain ⟨sf, r, u, he, ⟨_, rfl, rfl, rfl⟩ | ⟨t, _, rfl, rfl, rfl⟩⟩ := castReg_ok h
  · rw [List.append_nil]
    exact h0.congr fun v => by rw [exprSet_reg he, opeSet_reg]
  · exact (h0.last (s' := { s with reg := s.reg + 1 }) rfl (fun v => by rw [exprSet_reg he]; simp [opeRegs]) rfl rfl).congr fun v => opeSet_reg.symm

theorem GLive.plain {p : Bool} {code : GM Unit} (h1 : ∀ {s c s'}, code s = .ok ((), c, s') → Code s c s' (exprSet s'))
    (h3 : p = true → ∀ {s c s'}, code s = .ok ((), c, s') → ∃ sf u, s'.exprReg = some (sf, s'.reg, u)) : GLive p (G.plain code) := by
  refine GLive.of h1 ?_ h3 ?_
  · intro cast s o c s' h
    simp only [bind_ok] at h
    obtain ⟨_, c1, s1, c2, ha, hb, rfl⟩ := h
    exact castReg_live (h1 ha) hb
  · intro cast s sf r u c s' hp h
    simp only [bind_ok] at h
    obtain ⟨_, c1, s1, c2, ha, hb, rfl⟩ := h
    obtain ⟨sf', r', u', he, ⟨rfl, ho, rfl, rfl⟩ | ⟨t, _, ho, rfl, rfl⟩⟩ := castReg_ok hb
    · obtain ⟨sf2, u2, h2⟩ := h3 (by simpa using hp) ha
      rw [h2] at he
      cases he; cases ho; rfl
    · cases ho; rfl

theorem GLive.bin {p pl pr : Bool} {op : SBin} {code : GM Unit} {l r : G} (h1 : ∀ {s c s'}, code s = .ok ((), c, s') → Code s c s' (exprSet s'))
    (h3 : p = true → ∀ {s c s'}, code s = .ok ((), c, s') → ∃ sf u, s'.exprReg = some (sf, s'.reg, u))
    (hl : GLive pl l) (hr : GLive pr r) : GLive p (G.bin op code l r) := by
  have hp := GLive.plain h1 h3
  refine ⟨hp.code, hp.int, hp.ptr, ?_, hp.top, hp.intTop⟩
  intro b s j c s' h
  simp only [G.bin] at h
  cases hc : cjmp op b with
  | none => rw [hc] at h; exact hp.jmp h
  | some o =>
    rw [hc] at h
    obtain ⟨a, c1, s1, b', c2, h1, h2, rfl, rfl⟩ := jmpCmp_ok h
    exact ⟨_, (hl.reg h1).seq (hr.int h2), _, _, _, cjmp_branch hc, rfl, fun v => Iff.rfl⟩

/-- the generator of a new register's value -/
def Lives (code : GM Unit) : Prop := ∀ {s c s'}, code s = .ok ((), c, s') → Code s c s' (exprSet s')
def Tops (code : GM Unit) : Prop := ∀ {s c s'}, code s = .ok ((), c, s') → ∃ sf u, s'.exprReg = some (sf, s'.reg, u)

theorem condCode_live {pc pl pr : Bool} {t : DType} {c l r : G} (hc : GLive pc c) (hl : GLive pl l) (hr : GLive pr r) : Lives (condCode t c l r) := by
  intro s code s' h
  obtain ⟨j, c1, s1, a, c2, s2, b, c3, s3, h1, h2, h3, rfl, rfl⟩ := condCode_ok h
  obtain ⟨R, g1, hj⟩ := hc.jmp h1
  exact (Code.cond (s := s) (s0 := { s with lab := s.lab + 1 + 1 }) (s1 := s1) (s1' := { s1 with reg := s1.reg + 1 }) (s' := { s3 with exprReg := some (Sfx.get t.nbytes, s1.reg + 1, t.isUnsigned) }) rfl rfl g1 hj rfl rfl (hl.reg h2) (hr.reg h3) rfl rfl).congr
    fun v => (exprSet_reg rfl).symm

theorem logicalCode_live {pl pr b : Bool} {t : DType} {l r : G} (hl : GLive pl l) (hr : GLive pr r) : Lives (logicalCode b t l r) := by
  intro s code s' h
  obtain ⟨j, c1, s1, k, c2, s2, h1, h2, rfl, rfl⟩ := logicalCode_ok h
  obtain ⟨R, g1, hj⟩ := hl.jmp h1
  obtain ⟨R', g2, hk⟩ := hr.jmp h2
  exact (Code.logical (s := s) (s0 := { s with lab := s.lab + 1 + 1 }) (s' := { s2 with reg := s2.reg + 1, exprReg := some (Sfx.get t.nbytes, s2.reg + 1, t.isUnsigned) }) rfl rfl g1 hj g2 hk rfl rfl).congr
    fun v => (exprSet_reg rfl).symm

/-- the last instruction of an expression -/
theorem Code.fin {s s1 : GState} {c : List Immc} {R1 : RS} (h : Code s c s1 R1) {op : IOp} {f g : Option Ope} {sf : Sfx} {u : Bool} (ho : branches op = false)
    (hR : ∀ v, R1 v ↔ v ∈ opeRegs f ∨ v ∈ opeRegs g) : Code s (c ++ [inst op (some (.reg sf (s1.reg + 1) u)) f g]) { s1 with reg := s1.reg + 1, exprReg := some (sf, s1.reg + 1, u) }
      (exprSet { s1 with reg := s1.reg + 1, exprReg := some (sf, s1.reg + 1, u) }) :=
  (h.last (s' := { s1 with reg := s1.reg + 1, exprReg := some (sf, s1.reg + 1, u) }) ho hR rfl rfl).congr fun _ => (exprSet_reg rfl).symm

theorem arithCode_live {pl pr : Bool} {op : IOp} (ho : branches op = false) {t : DType} {l r : G} (hl : GLive pl l) (hr : GLive pr r) : Lives (arithCode op t l r) := by
  intro s code s' h
  obtain ⟨a, c1, s1, b, c2, s2, h1, h2, rfl, rfl⟩ := arithCode_ok h
  rw [← List.append_assoc]
  exact ((hl.reg h1).seq (hr.int h2)).fin ho fun v => Iff.rfl

theorem assignCode_live {pr : Bool} {l r : G} (hl : GLive true l) (hr : GLive pr r) : Lives (assignCode l r) := by
  intro s code s' h
  obtain ⟨sf, id, us, c1, s1, p, c2, s2, h1, h2, rfl, rfl⟩ := assignCode_ok h
  obtain ⟨g2, hp⟩ := hl.ptr rfl h2
  rw [← List.append_assoc]
  refine (((hr.reg h1).seq g2).use (s' := { s2 with exprReg := some (sf, id, us) }) (R := fun v => v = id) rfl ?_ ?_ ?_ rfl rfl).congr fun v => (exprSet_reg rfl).symm
  · cases p <;> first | rfl | exact absurd rfl (hp _ _ _)
  · intro v
    rw [reads_inst, opeSet_reg]
    cases p <;> simp [opeSet, opeRegs]
    exact absurd rfl (hp _ _ _)
  · exact fun v hv => .inl (opeSet_reg.2 hv)

theorem binCode_live {pl pr : Bool} {op : SBin} (ha : op = .assign → pl = true) {t lt : DType} {l r : G} (hl : GLive pl l) (hr : GLive pr r) : Lives (binCode op t lt l r) := by
  intro s code s' h
  unfold binCode at h
  split at h
  · cases ha rfl
    exact assignCode_live hl hr h
  · exact logicalCode_live hl hr h
  · exact logicalCode_live hl hr h
  · obtain ⟨a, c1, s1, b, c2, s2, t', h1, h2, _, rfl, rfl⟩ := ptrAddCode_ok h
    obtain ⟨sf, id, u, rfl, -⟩ := reg_ok h2
    rw [← List.append_assoc]
    exact (Code.ptrAdd (s' := { s2 with reg := s2.reg + 1, exprReg := some (Sfx.get t.nbytes, s2.reg + 1, t.isUnsigned) }) (R1 := opeSet a)
      (((hl.reg h1).seq (hr.reg h2)).congr fun v => by rw [opeSet_reg]) rfl (fun v => Iff.rfl) rfl rfl).congr fun v => (exprSet_reg rfl).symm
  · obtain ⟨a, c1, s1, b, c2, s2, t', h1, h2, _, rfl, rfl⟩ := ptrAddCode_ok h
    obtain ⟨sf, id, u, rfl, -⟩ := reg_ok h2
    rw [← List.append_assoc]
    exact (Code.ptrAdd (s' := { s2 with reg := s2.reg + 1, exprReg := some (Sfx.get t.nbytes, s2.reg + 1, t.isUnsigned) }) (R1 := opeSet a)
      (((hl.reg h1).seq (hr.reg h2)).congr fun v => by rw [opeSet_reg]) rfl (fun v => Iff.rfl) rfl rfl).congr fun v => (exprSet_reg rfl).symm
  · obtain ⟨a, c1, s1, b, c2, s2, t', h1, h2, _, rfl, rfl⟩ := ptrDiffCode_ok h
    rw [← List.append_assoc]
    exact (Code.ptrDiff (s' := { s2 with reg := s2.reg + 1, exprReg := some (Sfx.get t.nbytes, s2.reg + 1, t.isUnsigned) })
      ((hl.reg h1).seq (hr.reg h2)) (fun v => Iff.rfl) rfl rfl).congr fun v => (exprSet_reg rfl).symm
  · refine arithCode_live ?_ hl hr h
    rcases binOp_flat (op := op) with hb | rfl | rfl | rfl | rfl
    · exact hb
    all_goals simp_all

theorem binCode_top {op : SBin} (ha : op ≠ .assign) {t lt : DType} {l r : G} : Tops (binCode op t lt l r) := by
  intro s code s' h
  unfold binCode at h
  split at h
  · exact absurd rfl ha
  · obtain ⟨_, _, _, _, _, _, _, _, rfl, rfl⟩ := logicalCode_ok h; exact ⟨_, _, rfl⟩
  · obtain ⟨_, _, _, _, _, _, _, _, rfl, rfl⟩ := logicalCode_ok h; exact ⟨_, _, rfl⟩
  · obtain ⟨_, _, _, _, _, _, _, _, _, _, rfl, rfl⟩ := ptrAddCode_ok h; exact ⟨_, _, rfl⟩
  · obtain ⟨_, _, _, _, _, _, _, _, _, _, rfl, rfl⟩ := ptrAddCode_ok h; exact ⟨_, _, rfl⟩
  · obtain ⟨_, _, _, _, _, _, _, _, _, _, rfl, rfl⟩ := ptrDiffCode_ok h; exact ⟨_, _, rfl⟩
  · obtain ⟨_, _, _, _, _, _, _, _, rfl, rfl⟩ := arithCode_ok h; exact ⟨_, _, rfl⟩

theorem symOpe_live {n : Str} {s s' : GState} {o : Ope} {c : List Immc} (h : symOpe n s = .ok (o, c, s')) : Code s c s' (opeSet o) ∧ ∀ sf r u, o ≠ .reg sf r u := by
  obtain ⟨rfl, rfl, y, -, ⟨-, m, -, rfl⟩ | ⟨k, -, rfl⟩⟩ := symOpe_ok h
  · exact ⟨(Code.nil s').congr fun v => by simp [opeSet, opeRegs], nofun⟩
  · exact ⟨(Code.nil s').congr fun v => by simp [opeSet, opeRegs], nofun⟩

theorem pure_live {o o' : Ope} (ho : opeRegs (some o) = []) {s s' : GState} {c : List Immc} (h : (pure o : GM Ope) s = .ok (o', c, s')) : Code s c s' (opeSet o') := by
  obtain ⟨rfl, rfl, rfl⟩ := pure_ok.1 h
  exact (Code.nil s').congr fun v => by simp [opeSet, ho]

theorem primaryCode_live {t : DType} {src : GM Ope} (hs : ∀ {s o c s'}, src s = .ok (o, c, s') → Code s c s' (opeSet o)) : Lives (primaryCode t src) := by
  intro s code s' h
  obtain ⟨o, c1, s1, h1, rfl, rfl⟩ := primaryCode_ok h
  exact (hs h1).fin rfl fun v => by simp [opeSet, opeRegs]
theorem primaryCode_top {t : DType} {src : GM Ope} : Tops (primaryCode t src) := by
  intro s code s' h
  obtain ⟨o, c1, s1, h1, rfl, rfl⟩ := primaryCode_ok h
  exact ⟨_, _, rfl⟩

theorem addrCode_live {t : DType} {src : GM Ope} (hs : ∀ {s o c s'}, src s = .ok (o, c, s') → Code s c s' (opeSet o)) : Lives (addrCode t src) := by
  intro s code s' h
  obtain ⟨o, c1, s1, h1, rfl, rfl⟩ := addrCode_ok h
  exact (hs h1).fin rfl fun v => by simp [opeSet, opeRegs]
theorem addrCode_top {t : DType} {src : GM Ope} : Tops (addrCode t src) := by
  intro s code s' h
  obtain ⟨o, c1, s1, h1, rfl, rfl⟩ := addrCode_ok h
  exact ⟨_, _, rfl⟩

theorem memberAddrCode_live {p : Bool} {t st : DType} {e : G} {m : Str} (he : GLive p e) : Lives (memberAddrCode t st e m) := by
  intro s code s' h
  obtain ⟨a, c1, s1, ms, o, h1, _, _, rfl, rfl⟩ := memberAddrCode_ok h
  exact (he.reg h1).fin rfl fun v => by simp [opeSet, opeRegs, intOpe]
theorem memberAddrCode_top {t st : DType} {e : G} {m : Str} : Tops (memberAddrCode t st e m) := by
  intro s code s' h
  obtain ⟨a, c1, s1, ms, o, h1, _, _, rfl, rfl⟩ := memberAddrCode_ok h
  exact ⟨_, _, rfl⟩

theorem memberCode_live {p : Bool} {t st : DType} {e : G} {m : Str} (he : GLive p e) : Lives (memberCode t st e m) := by
  intro s code s' h
  obtain ⟨sf, r, us, c1, s1, h1, h2, rfl, rfl⟩ := memberCode_ok h
  exact (memberAddrCode_live he h1).fin rfl fun v => by rw [exprSet_reg h2]; simp [opeRegs]
theorem memberCode_top {t st : DType} {e : G} {m : Str} : Tops (memberCode t st e m) := by
  intro s code s' h
  obtain ⟨sf, r, us, c1, s1, h1, h2, rfl, rfl⟩ := memberCode_ok h
  exact ⟨_, _, rfl⟩

theorem incdecCode_live {op : IOp} (ho : branches op = false) {post : Bool} {t : DType} {e : G} (he : GLive true e) : Lives (incdecCode op post t e) := by
  intro s code s' h
  cases post
  · obtain ⟨p, c1, s1, l, h1, _, rfl, rfl⟩ := incdecPre_ok h
    obtain ⟨g, hp⟩ := he.ptr rfl h1
    exact (g.preInc (s' := { s1 with reg := s1.reg + 1, exprReg := some (Sfx.get t.nbytes, s1.reg + 1, t.isUnsigned) }) ho (fun v => Iff.rfl) hp rfl rfl).congr
      fun v => (exprSet_reg rfl).symm
  · obtain ⟨p, c1, s1, l, h1, _, rfl, rfl⟩ := incdecPost_ok h
    obtain ⟨g, hp⟩ := he.ptr rfl h1
    exact (g.postInc (s' := { s1 with reg := s1.reg + 1 + 1, exprReg := some (Sfx.get t.nbytes, s1.reg + 1 + 1, t.isUnsigned) }) ho (fun v => Iff.rfl) hp rfl rfl).congr
      fun v => (exprSet_reg rfl).symm
theorem incdecCode_top {op : IOp} {post : Bool} {t : DType} {e : G} : Tops (incdecCode op post t e) := by
  intro s code s' h
  cases post
  · obtain ⟨p, c1, s1, l, h1, _, rfl, rfl⟩ := incdecPre_ok h; exact ⟨_, _, rfl⟩
  · obtain ⟨p, c1, s1, l, h1, _, rfl, rfl⟩ := incdecPost_ok h; exact ⟨_, _, rfl⟩

theorem argsCode_live : ∀ {gs : List G} (_ : ∀ g ∈ gs, ∃ p, GLive p g) {i : Nat} {s s' : GState} {code : List Immc}
    (_ : argsCode i gs s = .ok ((), code, s')), Code s code s' (fun _ => False)
  | [], _, _, _, _, _, h => by
    obtain ⟨-, rfl, rfl⟩ := pure_ok.1 h
    exact .nil _
  | g :: gs, hg, i, s, s', code, h => by
    obtain ⟨c1, s1, a, c2, h1, h2, rfl⟩ := argsCode_ok h
    rw [← List.append_assoc]
    obtain ⟨p, hg0⟩ := hg g (by simp)
    refine ((argsCode_live (fun g hg' => hg g (by simp [hg'])) h1).seq (hg0.int h2)).use (s' := s') (R := fun _ => False) rfl rfl ?_ (fun _ h => h.elim) rfl rfl
    intro v
    rw [reads_inst]
    simp [opeSet, opeRegs]

theorem callCode_live {t : DType} {f : G} {gs : List G} (hf : GLive true f) (hg : ∀ g ∈ gs, ∃ p, GLive p g) : Lives (callCode t f gs) := by
  intro s code s' h
  obtain ⟨c1, s1, p, c2, s2, d, c3, s3, h1, h2, _, rfl, h4⟩ := callCode_ok h
  obtain ⟨g2, hp⟩ := hf.ptr rfl h2
  have g3 := (argsCode_live hg h1).seq g2
  have hi : ∀ {n : Nat} {v : Int}, v ∉ opeRegs (some (intOpe .none n)) := by simp [opeRegs, intOpe]
  rw [← List.append_assoc]
  refine Code.skip_left ?_ rfl rfl (fun v hv => by simp [reads_inst, opeRegs, intOpe] at hv)
  show Code s ((c1 ++ c2) ++ ([_] ++ [_])) s' _
  rw [← List.append_assoc]
  refine Code.skip ?_ rfl rfl (fun v hv => by simp [reads_inst, opeRegs, intOpe] at hv)
  rcases h4 with ⟨_, rfl, rfl⟩ | ⟨_, rfl, rfl⟩
  · refine (g3.use (s' := { s2 with exprReg := none }) (R := fun _ => False) rfl rfl ?_ (fun _ h => h.elim) rfl rfl).congr fun v => ?_
    · intro v
      rw [reads_inst]
      simp [opeSet, opeRegs, intOpe]
    · simp [exprSet]
  · exact g3.fin rfl fun v => by simp [opeSet, opeRegs, intOpe]

theorem callCode_top {t : DType} (ht : t.isVoid = false) {f : G} {gs : List G} : Tops (callCode t f gs) := by
  intro s code s' h
  obtain ⟨c1, s1, p, c2, s2, d, c3, s3, h1, h2, _, rfl, h4⟩ := callCode_ok h
  rcases h4 with ⟨h, _⟩ | ⟨_, _, rfl⟩
  · rw [ht] at h; cases h
  · exact ⟨_, _, rfl⟩

theorem unCode_live {p : Bool} {op : IOp} (ho : branches op = false) {t : DType} {e : G} (he : GLive p e) : Lives (unCode op t e) := by
  intro s code s' h
  obtain ⟨a, c1, s1, h1, rfl, rfl⟩ := unCode_ok h
  exact (he.int h1).fin ho fun v => by simp [opeSet, opeRegs]
theorem unCode_top {op : IOp} {t : DType} {e : G} : Tops (unCode op t e) := by
  intro s code s' h
  obtain ⟨a, c1, s1, h1, rfl, rfl⟩ := unCode_ok h
  exact ⟨_, _, rfl⟩

theorem fatal_live : Lives fatal := by
  intro s c s' h
  simp [fatal_ok] at h
theorem fatal_top : Tops fatal := by
  intro s c s' h
  simp [fatal_ok] at h

theorem fatal_glive : GLive true (G.plain fatal) := .plain fatal_live fun _ => fatal_top

theorem un_live {op : SUn} {t : DType} {e : SExpr} {o : Option DType} (hs : safe o (.un op t e) = true) (he : ∀ o, safe o e = true → GLive (fresh e) (expr e))
    (hm : ∀ t' d a m, e = .tomember t' d a m → safe none d = true → GLive (fresh d) (expr d))
    (hi : ∀ t' d, e = .un .indir t' d → safe none d = true → GLive (fresh d) (expr d)) : GLive (fresh (.un op t e)) (expr (.un op t e)) := by
  cases op with
  | cast =>
    simp only [safe, Bool.and_eq_true] at hs
    have he' := he _ hs.2
    rw [expr]
    refine .of fatal_live (fun h => he'.int h) (fun _ => fatal_top) (fun _ h => he'.intTop (by simp) h)
  | addr =>
    have plainIndir : (∀ t' d, e ≠ .un .indir t' d) → fresh (.un .addr t e) = true := by
      intro hne
      unfold fresh
      split <;> simp_all
    cases e with
    | ident t' n =>
      have := GLive.plain (p := true) (code := addrCode t (symOpe n)) (addrCode_live fun h => (symOpe_live h).1) fun _ => addrCode_top
      rw [expr, plainIndir nofun]
      exact ⟨this.code, this.int, fun _ => symOpe_live, this.jmp, this.top, this.intTop⟩
    | str t' id => rw [expr, plainIndir nofun]; exact .plain (addrCode_live (pure_live rfl)) fun _ => addrCode_top
    | tomember t' d a m =>
      rw [expr, plainIndir nofun]
      exact .plain (memberAddrCode_live (hm _ _ _ _ rfl (by simpa only [safe] using hs))) fun _ => memberAddrCode_top
    | un op' t' d =>
      cases op' with
      | indir =>
        have h := hi _ _ rfl (by simpa only [safe] using hs)
        rw [expr]
        exact .plain h.code fun hp => h.top (by simpa only [fresh] using hp)
      | _ => rw [expr] <;> first | (rw [plainIndir nofun]; exact fatal_glive) | nofun
    | _ => rw [expr] <;> first | (rw [plainIndir nofun]; exact fatal_glive) | nofun
  | preinc =>
    simp only [safe, Bool.and_eq_true] at hs
    have h := he none hs.2
    rw [hs.1] at h
    rw [expr]
    exact .plain (incdecCode_live rfl h) fun _ => incdecCode_top
  | predec =>
    simp only [safe, Bool.and_eq_true] at hs
    have h := he none hs.2
    rw [hs.1] at h
    rw [expr]
    exact .plain (incdecCode_live rfl h) fun _ => incdecCode_top
  | postinc =>
    simp only [safe, Bool.and_eq_true] at hs
    have h := he none hs.2
    rw [hs.1] at h
    rw [expr]
    exact .plain (incdecCode_live rfl h) fun _ => incdecCode_top
  | postdec =>
    simp only [safe, Bool.and_eq_true] at hs
    have h := he none hs.2
    rw [hs.1] at h
    rw [expr]
    exact .plain (incdecCode_live rfl h) fun _ => incdecCode_top
  | indir =>
    simp only [safe, Bool.and_eq_true] at hs
    have h := he none hs.2
    rw [hs.1] at h
    rw [expr]
    refine .plain (fun hc => ?_) fun _ => ?_
    · obtain ⟨p, c1, s1, h1, rfl, rfl⟩ := indirCode_ok hc
      exact (h.ptr rfl h1).1.fin rfl fun v => by simp [opeSet, opeRegs]
    · intro s c s' hc
      obtain ⟨p, c1, s1, h1, rfl, rfl⟩ := indirCode_ok hc
      exact ⟨_, _, rfl⟩
  | pos =>
    have h := he none (by simpa only [safe] using hs)
    rw [expr]
    refine .plain (fun hc => ?_) fun hp => ?_
    · obtain ⟨sf, r, us, s1, h1, rfl⟩ := posCode_ok hc
      exact ((h.reg h1).to (s2 := { s1 with exprReg := some (sf, r, us) }) rfl rfl).congr fun v => by rw [opeSet_reg]; exact (exprSet_reg rfl).symm
    · intro s c s' hc
      obtain ⟨sf, r, us, s1, h1, rfl⟩ := posCode_ok hc
      have := h.regTop (by simpa only [fresh] using hp) h1
      subst this
      exact ⟨_, _, rfl⟩
  | neg => rw [expr]; exact .plain (unCode_live rfl (he none (by simpa only [safe] using hs))) fun _ => unCode_top
  | not => rw [expr]; exact .plain (unCode_live rfl (he none (by simpa only [safe] using hs))) fun _ => unCode_top
  | lnot =>
    have h := he none (by simpa only [safe] using hs)
    rw [expr]
    refine .plain (fun hc => ?_) fun _ => ?_
    · obtain ⟨a, c1, s1, h1, rfl, rfl⟩ := lnotCode_ok hc
      exact (h.reg h1).fin rfl fun v => by simp [opeSet, opeRegs, intOpe]
    · intro s c s' hc
      obtain ⟨a, c1, s1, h1, rfl, rfl⟩ := lnotCode_ok hc
      exact ⟨_, _, rfl⟩

theorem bin_live {op : SBin} {t : DType} {l r : SExpr} {o : Option DType} (hs : safe o (.bin op t l r) = true) (hl : safe none l = true → GLive (fresh l) (expr l))
    (hr : safe none r = true → GLive (fresh r) (expr r)) : GLive (fresh (.bin op t l r)) (expr (.bin op t l r)) := by
  rw [expr]
  by_cases ha : op = .assign
  · subst ha
    simp only [safe, Bool.and_eq_true] at hs
    have h1 := hl hs.1.2
    have h2 := hr hs.2
    refine .bin (binCode_live (fun _ => hs.1.1) h1 h2) ?_ h1 h2
    intro hp s c s' hc
    have hf : (∃ t' t'' n, l = .un .addr t' (.ident t'' n)) ∧ fresh r = true := by
      unfold fresh at hp
      split at hp <;> simp_all
    obtain ⟨⟨t', t'', n, rfl⟩, hf⟩ := hf
    obtain ⟨sf, id, us, c1, s1, p, c2, s2, k1, k2, rfl, rfl⟩ := assignCode_ok hc
    have e1 := h2.regTop hf k1
    have e2 : s2 = s1 := by
      rw [expr] at k2
      exact (symOpe_ok k2).2.1
    subst e2 e1
    exact ⟨_, _, rfl⟩
  · have hs' : safe none l = true ∧ safe none r = true := by
      cases op <;> first | exact absurd rfl ha | simpa only [safe, Bool.and_eq_true] using hs
    exact .bin (binCode_live (fun h => absurd h ha) (hl hs'.1) (hr hs'.2)) (fun _ => binCode_top ha) (hl hs'.1) (hr hs'.2)

mutual
theorem expr_live : ∀ (e : SExpr) (o : Option DType), safe o e = true → GLive (fresh e) (expr e)
  | .ident t n, _, _ => by rw [expr]; exact .plain (primaryCode_live fun h => (symOpe_live h).1) fun _ => primaryCode_top
  | .str t id, _, _ => by rw [expr]; exact .plain (primaryCode_live (pure_live rfl)) fun _ => primaryCode_top
  | .ilit t l, _, _ => by
    rw [expr]
    refine .of (primaryCode_live (pure_live rfl)) (pure_live rfl) (fun _ => primaryCode_top) ?_
    intro cast s sf r u c s' _ h
    obtain ⟨h, _⟩ := pure_ok.1 h
    cases h
  | .bin op t l r, _, hs => bin_live hs (expr_live l none) (expr_live r none)
  | .cond t c l r, _, hs => by
    simp only [safe, Bool.and_eq_true] at hs
    rw [expr]
    exact .plain (condCode_live (expr_live c none hs.1.1) (expr_live l none hs.1.2) (expr_live r none hs.2)) (fun h => by simp [fresh] at h)
  | .un op t (.tomember t' d a m), _, hs => un_live hs (fun o h => expr_live _ o h) (fun _ _ _ _ h => by cases h; exact expr_live d none) nofun
  | .un op t (.un o t' d), _, hs => un_live hs (fun o h => expr_live _ o h) nofun (fun _ _ h => by cases h; exact expr_live d none)
  | .un op t (.ident t' n), _, hs => un_live hs (fun o h => expr_live _ o h) nofun nofun
  | .un op t (.str t' n), _, hs => un_live hs (fun o h => expr_live _ o h) nofun nofun
  | .un op t (.ilit t' n), _, hs => un_live hs (fun o h => expr_live _ o h) nofun nofun
  | .un op t (.bin o t' l r), _, hs => un_live hs (fun o h => expr_live _ o h) nofun nofun
  | .un op t (.cond t' c l r), _, hs => un_live hs (fun o h => expr_live _ o h) nofun nofun
  | .un op t (.call t' f as), _, hs => un_live hs (fun o h => expr_live _ o h) nofun nofun
  | .call t f as, _, hs => by
    simp only [safe, Bool.and_eq_true] at hs
    have h := expr_live f none hs.1.2
    rw [hs.1.1] at h
    rw [expr]
    exact .plain (callCode_live h (args_live as hs.2)) fun hp => callCode_top (by simpa [fresh] using hp)
  | .tomember t e a m, _, hs => by
    rw [expr]
    exact .plain (memberCode_live (expr_live e none (by simpa only [safe] using hs))) fun _ => memberCode_top
theorem args_live : ∀ as : SArgs, safeArgs as = true → ∀ g ∈ args as, ∃ p, GLive p g
  | .nil, _ => by simp [args]
  | .cons e as, hs => by
    simp only [safeArgs, Bool.and_eq_true] at hs
    intro g hg
    rw [args] at hg
    rcases List.mem_cons.1 hg with rfl | h
    · exact ⟨_, expr_live e none hs.1⟩
    · exact args_live as hs.2 g h
end

end Live
end Umlcc
