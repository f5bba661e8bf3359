import Verif.Lemma.GenInvStmt
import Verif.Spec.Usable
/-!
What operands the instructions have that are generated for usable expressions and statements (helper lemmas for C74).
-/
namespace Umlcc
namespace Tidy
open Gen

/-- what is asked of the code: `q`: whether anything is asked, `m`: calls through names of objects are not excluded, `c`: there may be calls, `v`: calls have destinations, `L`: the names of the objects -/
structure Kind where
  q : Bool
  m : Bool
  c : Bool
  v : Bool
  L : List Str

/-- calls have destinations -/
def Kind.val (K : Kind) : Kind := { K with v := true }

/-- calls need no destinations -/
def Kind.any (K : Kind) : Kind := { K with v := false }

def isReg : Ope → Bool
  | .reg _ _ _ => true
  | _ => false
def isInt : Ope → Bool
  | .int _ _ => true
  | _ => false
def isVal (o : Ope) : Bool := isReg o || isInt o
def isPtr : Ope → Bool
  | .ptr _ => true
  | _ => false
def isLabel : Ope → Bool
  | .label _ => true
  | _ => false
def isMem : Ope → Bool
  | .mem _ => true
  | _ => false
def isPlace (o : Ope) : Bool := isPtr o || isLabel o || isMem o
def isStr : Ope → Bool
  | .str _ => true
  | _ => false
def isArg : Ope → Bool
  | .arg _ i _ => decide (0 ≤ i)
  | _ => false

/-- operands that the machine code generator accepts -/
def fitInst (K : Kind) (i : Inst) : Bool :=
  match i.op with
  | .load => i.dst.any isReg && i.fst.any fun o => isVal o || isPlace o
  | .addr => i.dst.any isReg && i.fst.any fun o => isLabel o || isMem o
  | .str => i.dst.isSome && i.fst.any isStr
  | .store => i.dst.any isPlace && i.fst.any isVal
  | .ldarg => i.dst.isSome && i.fst.any isArg
  | .starg | .stret => i.fst.any isVal
  | .neg | .not => i.dst.any isReg && i.fst.any isVal
  | .sal | .sar => i.dst.any isReg && i.fst.any isReg && i.snd.any isInt
  | .jmp => i.dst.any isLabel
  | .jeq | .jneq | .jgt | .jgeq | .jlt | .jleq => i.dst.any isLabel && i.fst.any isReg && i.snd.any isVal
  | .call => K.c && i.dst.all isReg && (!K.v || i.dst.isSome) && (i.fst.any fun o => isPtr o || isLabel o || K.m && isMem o) && i.snd.any isInt
  | .prep | .clean | .enter | .leave => i.fst.any isInt
  | _ => i.dst.any isReg && i.fst.any isReg && i.snd.any isVal

def Fit (K : Kind) : Immc → Prop
  | .inst i => fitInst K i = true
  | .label _ _ _ => True
  | .data _ => False

/-- objects have listed names -/
def I (K : Kind) (s : GState) : Prop := K.m = true ∨ ∀ sc ∈ s.syms, ∀ p ∈ sc, p.2.loc ≠ .label → p.1 ∈ K.L

def Piece (K : Kind) (s : GState) (c : List Immc) (s' : GState) : Prop := I K s → (∀ x ∈ c, Fit K x) ∧ I K s'

variable {K : Kind}

theorem Piece.refl (s : GState) : Piece K s [] s := fun h => ⟨by simp, h⟩
theorem Piece.seq {s s1 s' : GState} {a b : List Immc} (h : Piece K s a s1) (g : Piece K s1 b s') : Piece K s (a ++ b) s' := fun hI => by
  obtain ⟨h1, h2⟩ := h hI
  obtain ⟨g1, g2⟩ := g h2
  exact ⟨fun x hx => (List.mem_append.1 hx).elim (h1 x) (g1 x), g2⟩
theorem Piece.to {s s' t t' : GState} {c : List Immc} (h : Piece K s c s') (h1 : t.syms = s.syms) (h2 : t'.syms = s'.syms) : Piece K t c t' := by
  unfold Piece I at h ⊢
  rwa [h1, h2]
theorem Piece.one (s : GState) {x : Immc} (h : Fit K x) : Piece K s [x] s := fun hI => ⟨by simpa using h, hI⟩
/-- items that fit -/
theorem Piece.many (s : GState) {c : List Immc} (h : ∀ x ∈ c, Fit K x) : Piece K s c s := fun hI => ⟨h, hI⟩
/-- more items -/
theorem Piece.add {s s' t : GState} {a b : List Immc} (h : Piece K s a s') (hb : ∀ x ∈ b, Fit K x) (ht : t.syms = s'.syms) : Piece K s (a ++ b) t :=
  (h.seq (Piece.many s' hb)).to rfl ht

theorem Fit.val {x : Immc} (h : Fit K.val x) : Fit K.any x := by
  cases x with
  | inst i =>
    obtain ⟨op, d, f, g⟩ := i
    cases op <;> first | exact h | skip
    simp only [Fit, fitInst, Kind.val, Kind.any, Bool.and_eq_true, Bool.not_true, Bool.false_or] at h ⊢
    simp [h]
  | _ => exact h

def FineFit (K : Kind) (code : GM Unit) : Prop := ∀ {s c s'}, code s = .ok ((), c, s') → Piece K s c s'

structure GFit (K : Kind) (g : G) : Prop where
  code : FineFit K g.code
  int : ∀ {cast s o c s'}, g.int cast s = .ok (o, c, s') → Piece K s c s' ∧ isVal o = true
  ptr : ∀ {s o c s'}, g.ptr s = .ok (o, c, s') → Piece K s c s' ∧ isPlace o = true
  jmp : ∀ {b s j c s'}, g.jmp b s = .ok (j, c, s') → Piece K s c s' ∧ ∀ n, Fit K (j n)

theorem fit_label (i : Int) : Fit K (labelAt i) := trivial
theorem fit_jump (i : Int) : Fit K (jump i) := rfl
theorem fit_load {d o : Ope} (h : isReg d = true) (ho : isVal o = true ∨ isPlace o = true) : Fit K (load d o) := by simp [Fit, load, inst, fitInst, h, ho]

theorem reg_fit {i : Option DType → GM Ope} {g : GM Ope} {j : Bool → GM (Name → Immc)} {code : GM Unit} {s s' : GState} {o : Ope} {c : List Immc}
    (hi : ∀ {cast s o c s'}, i cast s = .ok (o, c, s') → Piece K s c s' ∧ isVal o = true) (h : G.reg ⟨code, i, g, j⟩ s = .ok (o, c, s')) : Piece K s c s' ∧ isReg o = true := by
  obtain ⟨sf, r, u, rfl, h1 | ⟨l, c0, s0, h1, rfl, rfl, rfl, rfl⟩⟩ := reg_ok h
  · exact ⟨(hi h1).1, rfl⟩
  · exact ⟨(hi h1).1.add (by simp; exact fit_load rfl (.inl rfl)) rfl, rfl⟩

theorem GFit.reg {g : G} (h : GFit K g) {s s' : GState} {o : Ope} {c : List Immc} (hr : g.reg s = .ok (o, c, s')) : Piece K s c s' ∧ isReg o = true := reg_fit h.int hr

theorem GFit.of {code : GM Unit} {int : Option DType → GM Ope} (h1 : FineFit K code)
    (h2 : ∀ {cast s o c s'}, int cast s = .ok (o, c, s') → Piece K s c s' ∧ isVal o = true) : GFit K (G.of code int) where
  code := h1
  int := h2
  ptr {s o c s'} h := by
    obtain ⟨h', rfl⟩ := ptrOf_ok h
    exact ⟨h1 h', rfl⟩
  jmp {b s j c s'} h := by
    obtain ⟨sf, r, u, h', rfl⟩ := jmpZero_ok h
    exact ⟨(reg_fit h2 h').1, fun n => by cases b <;> rfl⟩

theorem GFit.plain {code : GM Unit} (h1 : FineFit K code) : GFit K (G.plain code) := by
  refine GFit.of h1 ?_
  intro cast s o c s' h
  simp only [bind_ok] at h
  obtain ⟨_, c1, s1, c2, ha, hb, rfl⟩ := h
  obtain ⟨sf, r, u, he, ⟨_, rfl, rfl, rfl⟩ | ⟨t, _, rfl, rfl, rfl⟩⟩ := castReg_ok hb
  · rw [List.append_nil]
    exact ⟨h1 ha, rfl⟩
  · exact ⟨(h1 ha).add (by simp; exact fit_load rfl (.inl rfl)) rfl, rfl⟩

theorem isReg_val {o : Ope} (h : isReg o = true) : isVal o = true := by simp [isVal, h]

theorem cjmp_fit {op : SBin} {b : Bool} {j : IOp} (h : cjmp op b = some j) {n : Name} {x y : Ope} (hx : isReg x = true) (hy : isVal y = true) :
    Fit K (inst j (some (.label n)) (some x) (some y)) := by
  cases op <;> cases b <;> cases h <;> simp [Fit, inst, fitInst, isLabel, hx, hy]

theorem GFit.bin {op : SBin} {code : GM Unit} {l r : G} (h1 : FineFit K code) (hl : GFit K l) (hr : GFit K r) : GFit K (G.bin op code l r) := by
  have hp := GFit.plain h1
  refine ⟨hp.code, hp.int, hp.ptr, ?_⟩
  intro b s j c s' h
  simp only [G.bin] at h
  cases hc : cjmp op b with
  | none => rw [hc] at h; exact hp.jmp h
  | some o =>
    rw [hc] at h
    obtain ⟨a, c1, s1, b', c2, h1, h2, rfl, rfl⟩ := jmpCmp_ok h
    exact ⟨(hl.reg h1).1.seq (hr.int h2).1, fun n => cjmp_fit hc (hl.reg h1).2 (hr.int h2).2⟩

theorem condCode_fit {t : DType} {c l r : G} (hc : GFit K c) (hl : GFit K l) (hr : GFit K r) : FineFit K (condCode t c l r) := by
  intro s code s' h
  obtain ⟨j, c1, s1, a, c2, s2, b, c3, s3, g1, g2, g3, rfl, rfl⟩ := condCode_ok h
  obtain ⟨r1, hj⟩ := hc.jmp g1
  obtain ⟨r2, ha⟩ := hl.reg g2
  obtain ⟨r3, hb⟩ := hr.reg g3
  have e1 := (r1.add (b := [j (labelName (s.lab + 1))]) (t := { s1 with reg := s1.reg + 1 }) (by simp; exact hj _) rfl).seq r2
  have e2 := e1.add (t := s2) (b := [load (.reg (Sfx.get t.nbytes) (s1.reg + 1) t.isUnsigned) a, jump (s.lab + 1 + 1), labelAt (s.lab + 1)])
    (by simp [fit_jump, fit_label]; exact fit_load rfl (.inl (isReg_val ha))) rfl
  have e3 := (e2.seq r3).add (t := { s3 with exprReg := some (Sfx.get t.nbytes, s1.reg + 1, t.isUnsigned) })
    (b := [load (.reg (Sfx.get t.nbytes) (s1.reg + 1) t.isUnsigned) b, labelAt (s.lab + 1 + 1)]) (by simp [fit_label]; exact fit_load rfl (.inl (isReg_val hb))) rfl
  simpa using e3.to (t := s) rfl rfl

theorem logicalCode_fit {b : Bool} {t : DType} {l r : G} (hl : GFit K l) (hr : GFit K r) : FineFit K (logicalCode b t l r) := by
  intro s code s' h
  obtain ⟨j, c1, s1, j', c2, s2, g1, g2, rfl, rfl⟩ := logicalCode_ok h
  obtain ⟨r1, hj⟩ := hl.jmp g1
  obtain ⟨r2, hj'⟩ := hr.jmp g2
  have e1 := (r1.add (b := [j (labelName (s.lab + 1))]) (t := s1) (by simp; exact hj _) rfl).seq r2
  have hd : ∀ i : Int, Fit K (load (.reg (Sfx.get t.nbytes) (s2.reg + 1) t.isUnsigned) (intOpe (Sfx.get t.nbytes) i)) := fun _ => fit_load rfl (.inl rfl)
  have e2 := e1.add (t := { s2 with reg := s2.reg + 1, exprReg := some (Sfx.get t.nbytes, s2.reg + 1, t.isUnsigned) })
    (b := [j' (labelName (s.lab + 1)), load (.reg (Sfx.get t.nbytes) (s2.reg + 1) t.isUnsigned) (intOpe (Sfx.get t.nbytes) (if b then 0 else 1)),
        jump (s.lab + 1 + 1), labelAt (s.lab + 1),
        load (.reg (Sfx.get t.nbytes) (s2.reg + 1) t.isUnsigned) (intOpe (Sfx.get t.nbytes) (if b then 1 else 0)), labelAt (s.lab + 1 + 1)])
    (by simp [fit_jump, fit_label, hj', hd]) rfl
  simpa using e2.to (t := s) rfl rfl

/-- operations on two values -/
def twoVals : IOp → Bool
  | .add | .sub | .mul | .div | .mod | .and | .or | .xor | .seteq | .setneq | .setgt | .setgeq | .setlt | .setleq => true
  | _ => false

theorem fit_two {op : IOp} {d x y : Ope} (ho : twoVals op = true) (hd : isReg d = true) (hx : isReg x = true) (hy : isVal y = true) :
    Fit K (inst op (some d) (some x) (some y)) := by
  cases op <;> first | cases ho; done | simp [Fit, inst, fitInst, hd, hx, hy]

theorem binCode_fit {op : SBin} {t lt : DType} {l r : G} (hl : GFit K l) (hr : GFit K r)
    (hs : op = .lshift ∨ op = .rshift → ∀ {s o c s'}, r.int none s = .ok (o, c, s') → isInt o = true) (ha : op ≠ .assign) : FineFit K (binCode op t lt l r) := by
  intro s code s' h
  unfold binCode at h
  split at h
  · exact absurd rfl ha
  · exact logicalCode_fit hl hr h
  · exact logicalCode_fit hl hr h
  · obtain ⟨a, c1, s1, b, c2, s2, t', g1, g2, _, rfl, rfl⟩ := ptrAddCode_ok h
    obtain ⟨r1, h1⟩ := hl.reg g1
    obtain ⟨r2, h2⟩ := hr.reg g2
    rw [← List.append_assoc]
    exact (r1.seq r2).add (by simp; exact ⟨fit_two rfl h2 h2 rfl, fit_two rfl rfl h1 (isReg_val h2)⟩) rfl
  · obtain ⟨a, c1, s1, b, c2, s2, t', g1, g2, _, rfl, rfl⟩ := ptrAddCode_ok h
    obtain ⟨r1, h1⟩ := hl.reg g1
    obtain ⟨r2, h2⟩ := hr.reg g2
    rw [← List.append_assoc]
    exact (r1.seq r2).add (by simp; exact ⟨fit_two rfl h2 h2 rfl, fit_two rfl rfl h1 (isReg_val h2)⟩) rfl
  · obtain ⟨a, c1, s1, b, c2, s2, t', g1, g2, _, rfl, rfl⟩ := ptrDiffCode_ok h
    obtain ⟨r1, h1⟩ := hl.reg g1
    obtain ⟨r2, h2⟩ := hr.reg g2
    rw [← List.append_assoc]
    exact (r1.seq r2).add (by simp; exact ⟨fit_two rfl rfl h1 (isReg_val h2), fit_two rfl rfl rfl rfl⟩) rfl
  · obtain ⟨a, c1, s1, b, c2, s2, g1, g2, rfl, rfl⟩ := arithCode_ok h
    obtain ⟨r1, h1⟩ := hl.reg g1
    obtain ⟨r2, h2⟩ := hr.int g2
    rw [← List.append_assoc]
    refine (r1.seq r2).add ?_ rfl
    simp only [List.mem_singleton, forall_eq]
    cases op <;> first | (exfalso; simp_all; done) | exact fit_two rfl rfl h1 h2 | skip
    · have := hs (.inl rfl) g2; simp [Fit, inst, fitInst, binOp, h1, this]; rfl
    · have := hs (.inr rfl) g2; simp [Fit, inst, fitInst, binOp, h1, this]; rfl

theorem assignCode_fit {l r : G} (hl : GFit K l) (hr : GFit K r) : FineFit K (assignCode l r) := by
  intro s code s' h
  obtain ⟨sf, id, us, c1, s1, p, c2, s2, g1, g2, rfl, rfl⟩ := assignCode_ok h
  obtain ⟨r1, h1⟩ := hr.reg g1
  obtain ⟨r2, h2⟩ := hl.ptr g2
  rw [← List.append_assoc]
  exact (r1.seq r2).add (by simp [Fit, inst, fitInst, h2, isVal, isReg]) rfl

theorem symOpe_fit {n : Str} {s s' : GState} {o : Ope} {c : List Immc} (h : symOpe n s = .ok (o, c, s')) : Piece K s c s' ∧ (isLabel o = true ∨ isMem o = true) := by
  obtain ⟨rfl, rfl, y, -, ⟨-, m, -, rfl⟩ | ⟨k, -, rfl⟩⟩ := symOpe_ok h
  · exact ⟨.refl _, .inl rfl⟩
  · exact ⟨.refl _, .inr rfl⟩

theorem pure_fit {o o' : Ope} {s s' : GState} {c : List Immc} (h : (pure o : GM Ope) s = .ok (o', c, s')) : Piece K s c s' ∧ o' = o := by
  obtain ⟨rfl, rfl, rfl⟩ := pure_ok.1 h
  exact ⟨.refl _, rfl⟩

theorem primaryCode_fit {t : DType} {src : GM Ope} (hs : ∀ {s o c s'}, src s = .ok (o, c, s') → Piece K s c s' ∧ (isVal o = true ∨ isPlace o = true)) : FineFit K (primaryCode t src) := by
  intro s code s' h
  obtain ⟨o, c1, s1, h1, rfl, rfl⟩ := primaryCode_ok h
  exact (hs h1).1.add (by simp; exact fit_load rfl (hs h1).2) rfl

theorem addrCode_fit {t : DType} {src : GM Ope} (hs : ∀ {s o c s'}, src s = .ok (o, c, s') → Piece K s c s' ∧ (isLabel o = true ∨ isMem o = true)) : FineFit K (addrCode t src) := by
  intro s code s' h
  obtain ⟨o, c1, s1, h1, rfl, rfl⟩ := addrCode_ok h
  exact (hs h1).1.add (by simp [Fit, inst, fitInst, isReg, (hs h1).2]) rfl

theorem memberAddrCode_fit {t st : DType} {e : G} {m : Str} (he : GFit K e) : FineFit K (memberAddrCode t st e m) := by
  intro s code s' h
  obtain ⟨a, c1, s1, ms, o, h1, _, _, rfl, rfl⟩ := memberAddrCode_ok h
  exact (he.reg h1).1.add (by simp; exact fit_two rfl rfl (he.reg h1).2 rfl) rfl

theorem memberCode_fit {t st : DType} {e : G} {m : Str} (he : GFit K e) : FineFit K (memberCode t st e m) := by
  intro s code s' h
  obtain ⟨sf, r, us, c1, s1, h1, h2, rfl, rfl⟩ := memberCode_ok h
  exact (memberAddrCode_fit he h1).add (by simp; exact fit_load rfl (.inr rfl)) rfl

theorem incdecCode_fit {op : IOp} (ho : twoVals op = true) {post : Bool} {t : DType} {e : G} (he : GFit K e) : FineFit K (incdecCode op post t e) := by
  intro s code s' h
  cases post
  · obtain ⟨p, c1, s1, l, h1, _, rfl, rfl⟩ := incdecPre_ok h
    obtain ⟨g, hp⟩ := he.ptr h1
    refine g.add ?_ rfl
    simp only [List.mem_cons, List.not_mem_nil, or_false, forall_eq_or_imp, forall_eq]
    exact ⟨fit_load rfl (.inr hp), fit_two ho rfl rfl rfl, by simp [Fit, inst, fitInst, isVal, isReg, hp]⟩
  · obtain ⟨p, c1, s1, l, h1, _, rfl, rfl⟩ := incdecPost_ok h
    obtain ⟨g, hp⟩ := he.ptr h1
    refine g.add ?_ rfl
    simp only [List.mem_cons, List.not_mem_nil, or_false, forall_eq_or_imp, forall_eq]
    exact ⟨fit_load rfl (.inr hp), fit_load rfl (.inl rfl), fit_two ho rfl rfl rfl, by simp [Fit, inst, fitInst, isVal, isReg, hp]⟩

theorem argsCode_fit : ∀ {gs : List G} (_ : ∀ g ∈ gs, GFit K g) {i : Nat} {s s' : GState} {code : List Immc} (_ : argsCode i gs s = .ok ((), code, s')), Piece K s code s'
  | [], _, _, _, _, _, h => by
    obtain ⟨-, rfl, rfl⟩ := pure_ok.1 h
    exact .refl _
  | g :: gs, hg, i, s, s', code, h => by
    obtain ⟨c1, s1, a, c2, h1, h2, rfl⟩ := argsCode_ok h
    rw [← List.append_assoc]
    obtain ⟨r, ha⟩ := (hg g (by simp)).int h2
    exact ((argsCode_fit (fun g hg' => hg g (by simp [hg'])) h1).seq r).add (by simp [Fit, inst, fitInst, ha]) rfl

theorem callCode_fit {t : DType} {f : G} {gs : List G} (hf : GFit K f) (hg : ∀ g ∈ gs, GFit K g) (hc : K.c = true) (hv : K.v = true → t.isVoid = false)
    (hp : ∀ {s o c s'}, I K s → f.ptr s = .ok (o, c, s') → isPtr o = true ∨ isLabel o = true ∨ K.m = true) : FineFit K (callCode t f gs) := by
  intro s code s' h hI
  obtain ⟨c1, s1, p, c2, s2, d, c3, s3, g1, g2, _, rfl, h4⟩ := callCode_ok h
  have e1 := argsCode_fit hg g1
  have e2 := hf.ptr g2
  have hfn : isPtr p = true ∨ isLabel p = true ∨ K.m = true := hp (e1 hI).2 g2
  have hfn : (isPtr p || isLabel p || K.m && isMem p) = true := by
    have := e2.2
    simp only [isPlace, Bool.or_eq_true] at this
    rcases hfn with h | h | h
    · simp [h]
    · simp [h]
    · simpa [h, or_assoc] using this
  have key : ∀ d : Option Ope, d.all isReg = true → (K.v = true → d.isSome = true) → ∀ x ∈ callEnd d p gs.length, Fit K x := by
    intro d h1 h2 x hx
    simp only [callEnd, List.mem_cons, List.not_mem_nil, or_false] at hx
    rcases hx with rfl | rfl
    · simp only [Fit, inst, fitInst, hc, h1, Option.any_some, hfn, Bool.true_and, Bool.and_true, isInt, intOpe]
      cases hK : K.v
      · rfl
      · simpa using h2 hK
    · rfl
  have e0 := (Piece.one (K := K) s (x := inst .prep none (some (intOpe .none gs.length)) none) rfl).seq (e1.seq e2.1)
  rcases h4 with ⟨hvo, rfl, rfl⟩ | ⟨_, rfl, rfl⟩
  · have := e0.add (b := callEnd none p gs.length) (t := { s2 with exprReg := none }) (key _ rfl fun h => by rw [hv h] at hvo; cases hvo) rfl
    simpa using this hI
  · have := e0.add (b := callEnd (some (.reg (Sfx.get t.nbytes) (s2.reg + 1) t.isUnsigned)) p gs.length)
      (t := { s2 with reg := s2.reg + 1, exprReg := some (Sfx.get t.nbytes, s2.reg + 1, t.isUnsigned) }) (key _ rfl fun _ => rfl) rfl
    simpa using this hI

theorem fatal_fit : FineFit K fatal := by
  intro s c s' h
  simp [fatal_ok] at h

theorem lit_int : ∀ (e : SExpr), (Plain.litVal e).isSome = true → ∀ {cast s o c s'}, (expr e).int cast s = .ok (o, c, s') → isInt o = true
  | .ilit t l, _, cast, s, o, c, s', h => by
    rw [expr] at h
    obtain ⟨rfl, -, -⟩ := pure_ok.1 h
    rfl
  | .un .cast t e, hl, cast, s, o, c, s', h => by
    rw [expr] at h
    exact lit_int e (by simpa [Plain.litVal] using hl) h
  | .un .addr .., hl, _, _, _, _, _, _ => by simp [Plain.litVal] at hl
  | .un .preinc .., hl, _, _, _, _, _, _ => by simp [Plain.litVal] at hl
  | .un .predec .., hl, _, _, _, _, _, _ => by simp [Plain.litVal] at hl
  | .un .postinc .., hl, _, _, _, _, _, _ => by simp [Plain.litVal] at hl
  | .un .postdec .., hl, _, _, _, _, _, _ => by simp [Plain.litVal] at hl
  | .un .indir .., hl, _, _, _, _, _, _ => by simp [Plain.litVal] at hl
  | .un .pos .., hl, _, _, _, _, _, _ => by simp [Plain.litVal] at hl
  | .un .neg .., hl, _, _, _, _, _, _ => by simp [Plain.litVal] at hl
  | .un .not .., hl, _, _, _, _, _, _ => by simp [Plain.litVal] at hl
  | .un .lnot .., hl, _, _, _, _, _, _ => by simp [Plain.litVal] at hl
  | .ident .., hl, _, _, _, _, _, _ => by simp [Plain.litVal] at hl
  | .str .., hl, _, _, _, _, _, _ => by simp [Plain.litVal] at hl
  | .bin .., hl, _, _, _, _, _, _ => by simp [Plain.litVal] at hl
  | .cond .., hl, _, _, _, _, _, _ => by simp [Plain.litVal] at hl
  | .call .., hl, _, _, _, _, _, _ => by simp [Plain.litVal] at hl
  | .tomember .., hl, _, _, _, _, _, _ => by simp [Plain.litVal] at hl

theorem lookup_mem {α : Type} {n : Str} {y : α} : ∀ {l : List (List (Str × α))}, lookup n l = some y → ∃ sc ∈ l, (n, y) ∈ sc
  | [], h => by simp [lookup] at h
  | sc :: scs, h => by
    simp only [lookup, Option.or_eq_some_iff] at h
    rcases h with h | ⟨_, h⟩
    · refine ⟨sc, by simp, ?_⟩
      rw [List.lookup_eq_some_iff] at h
      obtain ⟨a, b, rfl, -⟩ := h
      simp
    · obtain ⟨sc', h1, h2⟩ := lookup_mem h
      exact ⟨sc', by simp [h1], h2⟩

/-- the function that is called -/
theorem callee_ptr {f : SExpr} (h : callee K.L f = true) {s s' : GState} {o : Ope} {c : List Immc} (hI : I K s) (hp : (expr f).ptr s = .ok (o, c, s')) :
    isPtr o = true ∨ isLabel o = true ∨ K.m = true := by
  by_cases hf : ∃ t t' n, f = .un .addr t (.ident t' n)
  · obtain ⟨t, t', n, rfl⟩ := hf
    rw [expr] at hp
    obtain ⟨-, -, y, hy, ⟨-, m, -, rfl⟩ | ⟨k, hk, rfl⟩⟩ := symOpe_ok hp
    · exact .inr (.inl rfl)
    · rcases hI with hI | hI
      · exact .inr (.inr hI)
      · obtain ⟨sc, h1, h2⟩ := lookup_mem hy
        have := hI sc h1 _ h2 (by simp [hk])
        simp [callee, this] at h
  · have : (expr f).ptr = ptrOf (expr f).code := by
      cases f with
      | un op t e =>
        cases op with
        | addr =>
          cases e with
          | ident t' n => exact absurd ⟨_, _, _, rfl⟩ hf
          | un o t' d => cases o <;> simp only [expr] <;> rfl
          | _ => simp only [expr]; rfl
        | _ => simp only [expr]; rfl
      | _ => simp only [expr]; rfl
    rw [this] at hp
    obtain ⟨-, rfl⟩ := ptrOf_ok hp
    exact .inl rfl

theorem un_fit {op : SUn} {t : DType} {e : SExpr} (he : GFit K (expr e)) (hm : ∀ t' d a m, e = .tomember t' d a m → GFit K (expr d))
    (hd : ∀ t' d, e = .un .indir t' d → GFit K (expr d)) : GFit K (expr (.un op t e)) := by
  cases op with
  | addr =>
    cases e with
    | ident a n =>
      have := GFit.plain (K := K) (addrCode_fit (t := t) (fun h => symOpe_fit (n := n) h))
      simp only [expr]
      exact ⟨this.code, this.int, fun h => ⟨(symOpe_fit h).1, by have := (symOpe_fit (K := K) h).2; simp [isPlace, or_assoc, this]⟩, this.jmp⟩
    | str a i => simp only [expr]; exact .plain (addrCode_fit fun h => ⟨(pure_fit h).1, by rw [(pure_fit (K := K) h).2]; exact .inl rfl⟩)
    | tomember a d b m => simp only [expr]; exact .plain (memberAddrCode_fit (hm _ _ _ _ rfl))
    | un o a d =>
      cases o with
      | indir => simp only [expr]; exact .plain (hd _ _ rfl).code
      | _ => simp only [expr]; exact .plain fatal_fit
    | _ => simp only [expr]; exact .plain fatal_fit
  | cast => simp only [expr]; exact .of fatal_fit fun h => he.int h
  | preinc => simp only [expr]; exact .plain (incdecCode_fit rfl he)
  | predec => simp only [expr]; exact .plain (incdecCode_fit rfl he)
  | postinc => simp only [expr]; exact .plain (incdecCode_fit rfl he)
  | postdec => simp only [expr]; exact .plain (incdecCode_fit rfl he)
  | indir =>
    simp only [expr]
    refine .plain fun h => ?_
    obtain ⟨p, c1, s1, h1, rfl, rfl⟩ := indirCode_ok h
    exact (he.ptr h1).1.add (by simp; exact fit_load rfl (.inr (he.ptr h1).2)) rfl
  | pos =>
    simp only [expr]
    refine .plain fun h => ?_
    obtain ⟨sf, r, us, s1, h1, rfl⟩ := posCode_ok h
    exact (he.reg h1).1.to rfl rfl
  | neg =>
    simp only [expr]
    refine .plain fun h => ?_
    obtain ⟨a, c1, s1, h1, rfl, rfl⟩ := unCode_ok h
    exact (he.int h1).1.add (by simp [Fit, inst, fitInst, isReg, (he.int h1).2]) rfl
  | not =>
    simp only [expr]
    refine .plain fun h => ?_
    obtain ⟨a, c1, s1, h1, rfl, rfl⟩ := unCode_ok h
    exact (he.int h1).1.add (by simp [Fit, inst, fitInst, isReg, (he.int h1).2]) rfl
  | lnot =>
    simp only [expr]
    refine .plain fun h => ?_
    obtain ⟨a, c1, s1, h1, rfl, rfl⟩ := lnotCode_ok h
    exact (he.reg h1).1.add (by simp; exact fit_two rfl rfl (he.reg h1).2 rfl) rfl

mutual
theorem expr_fit : ∀ e : SExpr, usable K.c K.L e = true → GFit K (expr e)
  | .ident t n, _ => by
    simp only [expr]
    exact .plain (primaryCode_fit fun h => ⟨(symOpe_fit h).1, .inr (by have := (symOpe_fit (K := K) h).2; simp [isPlace, or_assoc, this])⟩)
  | .str t id, _ => by simp only [expr]; exact .plain (primaryCode_fit fun h => ⟨(pure_fit h).1, .inr (by rw [(pure_fit (K := K) h).2]; rfl)⟩)
  | .ilit t l, _ => by
    simp only [expr]
    exact .of (primaryCode_fit fun h => ⟨(pure_fit h).1, .inl (by rw [(pure_fit (K := K) h).2]; rfl)⟩) fun h => ⟨(pure_fit h).1, by rw [(pure_fit (K := K) h).2]; rfl⟩
  | .bin op t l r, hu => by
    simp only [usable, Bool.and_eq_true, Bool.or_eq_true, decide_eq_true_eq] at hu
    have hl := expr_fit l hu.1.1
    have hr := expr_fit r hu.1.2
    simp only [expr]
    by_cases ha : op = .assign
    · subst ha; exact .bin (assignCode_fit hl hr) hl hr
    · refine .bin (binCode_fit hl hr (fun ho => lit_int r ?_) ha) hl hr
      rcases hu.2 with h | h
      · rcases ho with rfl | rfl
        · exact absurd rfl h.1
        · exact absurd rfl h.2
      · exact h
  | .cond t c l r, hu => by
    simp only [usable, Bool.and_eq_true] at hu
    simp only [expr]
    exact .plain (condCode_fit (expr_fit c hu.1.1) (expr_fit l hu.1.2) (expr_fit r hu.2))
  | .un op t (.tomember a d b m), hu => by
    simp only [usable] at hu
    exact un_fit (expr_fit _ (by simpa only [usable] using hu)) (fun _ _ _ _ h => by cases h; exact expr_fit d hu) nofun
  | .un op t (.un o a d), hu => by
    simp only [usable] at hu
    exact un_fit (expr_fit _ (by simpa only [usable] using hu)) nofun (fun _ _ h => by cases h; exact expr_fit d hu)
  | .un op t (.ident a n), _ => un_fit (expr_fit _ (by simp [usable])) nofun nofun
  | .un op t (.str a n), _ => un_fit (expr_fit _ (by simp [usable])) nofun nofun
  | .un op t (.ilit a n), _ => un_fit (expr_fit _ (by simp [usable])) nofun nofun
  | .un op t (.bin o a l r), hu => un_fit (expr_fit (.bin o a l r) (by rw [usable] at hu; exact hu)) nofun nofun
  | .un op t (.cond a c l r), hu => un_fit (expr_fit (.cond a c l r) (by rw [usable] at hu; exact hu)) nofun nofun
  | .un op t (.call a f as), hu => un_fit (expr_fit (.call a f as) (by rw [usable] at hu; exact hu)) nofun nofun
  | .call t f as, hu => by
    simp only [usable, Bool.and_eq_true, Bool.not_eq_true'] at hu
    obtain ⟨⟨⟨⟨h1, h2⟩, h3⟩, h4⟩, h5⟩ := hu
    simp only [expr]
    exact .plain (callCode_fit (expr_fit f h4) (args_fit as h5) h1 (fun _ => h2) (fun hI => callee_ptr h3 hI))
  | .tomember t e a m, hu => by
    simp only [usable] at hu
    simp only [expr]
    exact .plain (memberCode_fit (expr_fit e hu))
theorem args_fit : ∀ as : SArgs, usableArgs K.c K.L as = true → ∀ g ∈ args as, GFit K g
  | .nil, _ => by simp [args]
  | .cons e as, hu => by
    simp only [usableArgs, Bool.and_eq_true] at hu
    intro g hg
    simp only [args, List.mem_cons] at hg
    rcases hg with rfl | hg
    · exact expr_fit e hu.1
    · exact args_fit as hu.2 g hg
end

end Tidy
end Umlcc
