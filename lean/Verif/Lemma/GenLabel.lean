import Verif.Lemma.GenInvStmt
import Verif.Spec.Regalloc
/-!
Labels of generated code: which are defined, which are jumped to, and what the generators leave unchanged in their state.
-/
namespace Umlcc
namespace Gen
open RSpec (target isLabelNamed UniqueLabels branches)

/-! ### names of numbered labels -/

/-- value of decimal digits -/
def decVal : List UInt8 → Nat := List.foldl (fun a d => a * 10 + (d.toNat - 48)) 0

theorem decVal_append (l : List UInt8) (d : UInt8) : decVal (l ++ [d]) = decVal l * 10 + (d.toNat - 48) := by
  simp [decVal]

theorem decAux_val : ∀ fuel n, n < fuel → decVal (decAux fuel n) = n
  | 0, _ => by omega
  | fuel + 1, n => by
    intro h
    simp only [decAux]
    split
    · simp only [decVal, List.foldl_cons, List.foldl_nil, UInt8.toNat_ofNat']
      omega
    · rw [decVal_append, decAux_val fuel (n / 10) (by omega)]
      simp only [UInt8.toNat_ofNat']
      omega

theorem dec_inj {i j : Int} (hi : 0 ≤ i) (hj : 0 ≤ j) (h : dec i = dec j) : i = j := by
  obtain ⟨n, rfl⟩ := Int.eq_ofNat_of_zero_le hi
  obtain ⟨m, rfl⟩ := Int.eq_ofNat_of_zero_le hj
  have e : decVal (decAux (n + 1) n) = decVal (decAux (m + 1) m) := congrArg decVal h
  rw [decAux_val _ _ (by omega), decAux_val _ _ (by omega)] at e
  rw [e]

theorem labelName_inj {i j : Int} (hi : 0 ≤ i) (hj : 0 ≤ j) (h : labelName i = labelName j) : i = j := by
  have := congrArg Subtype.val h
  simp only [labelName, List.cons.injEq, true_and] at this
  exact dec_inj hi hj this

theorem stringName_inj {i j : Int} (hi : 0 ≤ i) (hj : 0 ≤ j) (h : stringName i = stringName j) : i = j := by
  have := congrArg Subtype.val h
  simp only [stringName, List.cons.injEq, true_and] at this
  exact dec_inj hi hj this

/-! ### labels defined and used -/

/-- names of the labels in a code -/
def defs : List Immc → List Name
  | [] => []
  | .label _ _ n :: c => n :: defs c
  | _ :: c => defs c

/-- names of the labels jumped to -/
def uses (c : List Immc) : List Name := c.filterMap target

theorem defs_append (a b : List Immc) : defs (a ++ b) = defs a ++ defs b := by
  induction a with
  | nil => rfl
  | cons x a ih => cases x <;> simp [defs, ih]

theorem defs_inst {op : IOp} {d f g : Option Ope} {c : List Immc} : defs (inst op d f g :: c) = defs c := rfl
theorem defs_label {id : Int} {c : List Immc} : defs (labelAt id :: c) = labelName id :: defs c := rfl
theorem defs_nil : defs [] = [] := rfl

theorem uses_append (a b : List Immc) : uses (a ++ b) = uses a ++ uses b := by simp [uses]
theorem uses_nil : uses [] = [] := rfl
theorem uses_label {id : Int} {c : List Immc} : uses (labelAt id :: c) = uses c := rfl
theorem uses_jump {n : Name} {c : List Immc} : uses (inst .jmp (some (.label n)) none none :: c) = n :: uses c := rfl
theorem uses_jumpTo {id : Int} {c : List Immc} : uses (jump id :: c) = labelName id :: uses c := rfl
theorem uses_inst {op : IOp} {d f g : Option Ope} {c : List Immc} (h : branches op = false) :
    uses (inst op d f g :: c) = uses c := by
  unfold uses
  rw [List.filterMap_cons_none]
  unfold inst target
  split <;> simp_all
theorem uses_branch {op : IOp} {n : Name} {f g : Option Ope} {c : List Immc} (h : branches op = true) :
    uses (inst op (some (.label n)) f g :: c) = n :: uses c := by
  unfold uses
  rw [List.filterMap_cons_some]
  simp [inst, target, h]

theorem mem_defs {n : Name} {c : List Immc} : n ∈ defs c ↔ ∃ x ∈ c, isLabelNamed n x = true := by
  induction c with
  | nil => simp [defs]
  | cons x c ih =>
    cases x <;> simp only [defs, List.mem_cons, ih, isLabelNamed]
    case label k v m =>
      constructor
      · rintro (rfl | ⟨x, hx, h⟩)
        · exact ⟨_, .inl rfl, by simp⟩
        · exact ⟨x, .inr hx, h⟩
      · rintro ⟨x, rfl | hx, h⟩
        · exact .inl (by simpa [eq_comm] using h)
        · exact .inr ⟨x, hx, h⟩
    all_goals
      constructor
      · rintro ⟨x, hx, h⟩
        exact ⟨x, .inr hx, h⟩
      · rintro ⟨x, rfl | hx, h⟩
        · simp at h
        · exact ⟨x, hx, h⟩

/-- a code without repeated labels has unique labels -/
theorem unique_of_nodup {c : List Immc} (h : (defs c).Nodup) : UniqueLabels c := by
  induction c with
  | nil => intro i j n x y hi; simp at hi
  | cons z c ih =>
    intro i j n x y hi hj hx hy
    have hc : (defs c).Nodup := by
      cases z <;> simp only [defs, List.nodup_cons] at h
      · exact h
      · exact h
      · exact h.2
    have key : ∀ {k : Nat} {w : Immc}, c[k]? = some w → isLabelNamed n w = true → isLabelNamed n z = true → False := by
      intro k w hk hw hz
      have hm : n ∈ defs c := mem_defs.2 ⟨w, List.mem_of_getElem? hk, hw⟩
      cases z <;> simp [isLabelNamed] at hz
      subst hz
      simp only [defs, List.nodup_cons] at h
      exact h.1 hm
    cases i with
    | zero =>
      simp only [List.getElem?_cons_zero, Option.some.injEq] at hi
      subst hi
      cases j with
      | zero => rfl
      | succ j => exact (key (by simpa using hj) hy hx).elim
    | succ i =>
      cases j with
      | zero =>
        simp only [List.getElem?_cons_zero, Option.some.injEq] at hj
        subst hj
        exact (key (by simpa using hi) hx hy).elim
      | succ j =>
        have := ih hc i j n x y (by simpa using hi) (by simpa using hj) hx hy
        omega

/-! ### state kept by expressions -/

/-- Generating an expression only moves the counters forward and sets the expression's register. -/
structure Frame (s s' : GState) : Prop where
  syms : s'.syms = s.syms
  mem : s'.mem = s.mem
  tags : s'.tags = s.tags
  initOff : s'.initOff = s.initOff
  cont : s'.cont = s.cont
  brk : s'.brk = s.brk
  ret : s'.ret = s.ret
  cases : s'.cases = s.cases
  dflt : s'.dflt = s.dflt
  reg : s.reg ≤ s'.reg
  lab : s.lab ≤ s'.lab

theorem Frame.refl (s : GState) : Frame s s := ⟨rfl, rfl, rfl, rfl, rfl, rfl, rfl, rfl, rfl, by omega, by omega⟩

theorem Frame.trans {a b c : GState} (h : Frame a b) (k : Frame b c) : Frame a c :=
  ⟨k.syms.trans h.syms, k.mem.trans h.mem, k.tags.trans h.tags, k.initOff.trans h.initOff, k.cont.trans h.cont, k.brk.trans h.brk,
    k.ret.trans h.ret, k.cases.trans h.cases, k.dflt.trans h.dflt, by have := h.reg; have := k.reg; omega, by have := h.lab; have := k.lab; omega⟩

/-- Labels of a code: those defined are numbered within bounds and distinct, those used are among them. -/
def Closed (lo hi : Int) (c : List Immc) : Prop :=
  ∃ is : List Int, defs c = is.map labelName ∧ is.Nodup ∧ (∀ i ∈ is, lo < i ∧ i ≤ hi) ∧ ∀ n ∈ uses c, ∃ i ∈ is, n = labelName i

theorem Closed.nil (lo hi : Int) : Closed lo hi [] := ⟨[], rfl, List.nodup_nil, by simp, by simp [uses]⟩

theorem Closed.append {lo mid hi : Int} {a b : List Immc} (h1 : lo ≤ mid) (h2 : mid ≤ hi) (ha : Closed lo mid a) (hb : Closed mid hi b) :
    Closed lo hi (a ++ b) := by
  obtain ⟨is, a1, a2, a3, a4⟩ := ha
  obtain ⟨js, b1, b2, b3, b4⟩ := hb
  refine ⟨is ++ js, by simp [defs_append, a1, b1], ?_, ?_, ?_⟩
  · rw [List.nodup_append]
    refine ⟨a2, b2, ?_⟩
    intro x hx y hy
    have := a3 x hx
    have := b3 y hy
    omega
  · intro i hi
    rcases List.mem_append.1 hi with h | h
    · have := a3 i h; omega
    · have := b3 i h; omega
  · intro n hn
    rw [uses_append] at hn
    rcases List.mem_append.1 hn with h | h
    · obtain ⟨i, hi, e⟩ := a4 n h; exact ⟨i, by simp [hi], e⟩
    · obtain ⟨i, hi, e⟩ := b4 n h; exact ⟨i, by simp [hi], e⟩

/-- code without labels and jumps -/
def Flat (c : List Immc) : Prop := defs c = [] ∧ uses c = []

theorem Flat.closed {c : List Immc} (h : Flat c) (lo hi : Int) : Closed lo hi c :=
  ⟨[], by simp [h.1], List.nodup_nil, by simp, by simp [h.2]⟩

theorem flat_nil : Flat [] := ⟨rfl, rfl⟩
theorem flat_cons {op : IOp} {d f g : Option Ope} {c : List Immc} (h : branches op = false) (hc : Flat c) : Flat (inst op d f g :: c) :=
  ⟨hc.1, (uses_inst h).trans hc.2⟩

theorem Closed.flat {lo hi : Int} {a b : List Immc} (ha : Closed lo hi a) (hb : Flat b) : Closed lo hi (a ++ b) := by
  obtain ⟨is, a1, a2, a3, a4⟩ := ha
  exact ⟨is, by simp [defs_append, a1, hb.1], a2, a3, by simpa [uses_append, hb.2] using a4⟩

theorem Closed.flat_left {lo hi : Int} {a b : List Immc} (ha : Flat a) (hb : Closed lo hi b) : Closed lo hi (a ++ b) := by
  obtain ⟨is, a1, a2, a3, a4⟩ := hb
  exact ⟨is, by simp [defs_append, a1, ha.1], a2, a3, by simpa [uses_append, ha.2] using a4⟩

theorem Closed.mono {lo lo' hi hi' : Int} {c : List Immc} (h : Closed lo hi c) (h1 : lo' ≤ lo) (h2 : hi ≤ hi') : Closed lo' hi' c := by
  obtain ⟨is, a1, a2, a3, a4⟩ := h
  exact ⟨is, a1, a2, fun i hi => by have := a3 i hi; omega, a4⟩

/-- what a generator of an expression part does -/
def Good (s : GState) (c : List Immc) (s' : GState) : Prop := Frame s s' ∧ Closed s.lab s'.lab c

theorem Good.trans {a b c : GState} {x y : List Immc} (h : Good a x b) (k : Good b y c) : Good a (x ++ y) c :=
  ⟨h.1.trans k.1, h.2.append h.1.lab k.1.lab k.2⟩

theorem Good.flat {a b : GState} {x y : List Immc} (h : Good a x b) (k : Flat y) : Good a (x ++ y) b :=
  ⟨h.1, h.2.flat k⟩

theorem Good.refl (s : GState) : Good s [] s := ⟨.refl s, .nil _ _⟩

/-- a jump with an open label -/
def Branch (j : Name → Immc) : Prop :=
  ∃ op f g, branches op = true ∧ j = fun n => inst op (some (.label n)) f g

structure GInv (g : G) : Prop where
  code : ∀ {s c s'}, g.code s = .ok ((), c, s') → Good s c s'
  int : ∀ {cast s o c s'}, g.int cast s = .ok (o, c, s') → Good s c s'
  ptr : ∀ {s o c s'}, g.ptr s = .ok (o, c, s') → Good s c s'
  jmp : ∀ {b s j c s'}, g.jmp b s = .ok (j, c, s') → Good s c s' ∧ Branch j

theorem Good.regs {a b : GState} {x : List Immc} (h : Good a x b) {r : Int} (hr : b.reg ≤ r) {e : Option (Sfx × Int × Bool)} :
    Good a x { b with reg := r, exprReg := e } := by
  obtain ⟨⟨h1, h2, h3, h4, h5, h6, h7, h8, h9, h10, h11⟩, h12⟩ := h
  exact ⟨⟨h1, h2, h3, h4, h5, h6, h7, h8, h9, by dsimp only; omega, h11⟩, h12⟩

theorem GInv.reg {g : G} (h : GInv g) {s : GState} {o : Ope} {c : List Immc} {s' : GState} (hr : g.reg s = .ok (o, c, s')) : Good s c s' := by
  obtain ⟨sf, r, u, rfl, h1 | ⟨l, c0, s0, h1, rfl, rfl, rfl, rfl⟩⟩ := reg_ok hr
  · exact h.int h1
  · exact ((h.int h1).flat (flat_cons rfl flat_nil)).regs (by omega)

theorem castReg_good {cast : Option DType} {s s' : GState} {o : Ope} {c : List Immc} (h : castReg cast s = .ok (o, c, s')) : Good s c s' := by
  obtain ⟨sf, r, u, _, ⟨_, _, rfl, rfl⟩ | ⟨t, _, rfl, rfl, rfl⟩⟩ := castReg_ok h
  · exact .refl _
  · exact ((Good.refl s).flat (flat_cons rfl flat_nil)).regs (by omega)

theorem GInv.of {code : GM Unit} {int : Option DType → GM Ope} (h1 : ∀ {s c s'}, code s = .ok ((), c, s') → Good s c s')
    (h2 : ∀ {cast s o c s'}, int cast s = .ok (o, c, s') → Good s c s') : GInv (G.of code int) where
  code := h1
  int := h2
  ptr h := by obtain ⟨h', rfl⟩ := ptrOf_ok h; exact h1 h'
  jmp {b s j c s'} h := by
    obtain ⟨sf, r, u, h', rfl⟩ := jmpZero_ok h
    refine ⟨?_, _, _, _, ?_, rfl⟩
    · obtain ⟨sf, r, u, ho, h1 | ⟨l, c0, s0, h1, _, _, rfl, rfl⟩⟩ := reg_ok h'
      · exact h2 h1
      · exact ((h2 h1).flat (flat_cons rfl flat_nil)).regs (by omega)
    · cases b <;> rfl

theorem GInv.plain {code : GM Unit} (h1 : ∀ {s c s'}, code s = .ok ((), c, s') → Good s c s') : GInv (G.plain code) := by
  refine GInv.of h1 ?_
  intro cast s o c s' h
  simp only [bind_ok] at h
  obtain ⟨_, c1, s1, c2, ha, hb, rfl⟩ := h
  exact (h1 ha).trans (castReg_good hb)

theorem cjmp_branch {op : SBin} {b : Bool} {o : IOp} (h : cjmp op b = some o) : branches o = true := by
  cases op <;> simp [cjmp] at h <;> (subst h; cases b <;> rfl)

theorem GInv.bin {op : SBin} {code : GM Unit} {l r : G} (h1 : ∀ {s c s'}, code s = .ok ((), c, s') → Good s c s')
    (hl : GInv l) (hr : GInv r) : GInv (G.bin op code l r) := by
  have hp := GInv.plain h1
  refine ⟨hp.code, hp.int, hp.ptr, ?_⟩
  intro b s j c s' h
  simp only [G.bin] at h
  cases hc : cjmp op b with
  | none => rw [hc] at h; exact hp.jmp h
  | some o =>
    rw [hc] at h
    obtain ⟨a, c1, s1, b', c2, h1, h2, rfl, rfl⟩ := jmpCmp_ok h
    exact ⟨(hl.reg h1).trans (hr.int h2), _, _, _, cjmp_branch hc, rfl⟩

theorem Branch.defs {j : Name → Immc} (h : Branch j) (n : Name) (c : List Immc) : defs (j n :: c) = defs c := by
  obtain ⟨op, f, g, _, rfl⟩ := h; rfl
theorem Branch.uses {j : Name → Immc} (h : Branch j) (n : Name) (c : List Immc) : uses (j n :: c) = n :: uses c := by
  obtain ⟨op, f, g, hb, rfl⟩ := h; exact uses_branch hb

/-- a state differing in the label counter, register counter and expression register only -/
theorem Good.start {s b : GState} {x : List Immc} {r : Int} {l : Int} {e : Option (Sfx × Int × Bool)}
    (h : Good { s with reg := r, exprReg := e, lab := l } x b) (hr : s.reg ≤ r) (hl : s.lab ≤ l) : Frame s b ∧ Closed l b.lab x := by
  obtain ⟨⟨h1, h2, h3, h4, h5, h6, h7, h8, h9, h10, h11⟩, h12⟩ := h
  dsimp only at h10 h11
  exact ⟨⟨h1, h2, h3, h4, h5, h6, h7, h8, h9, by omega, by omega⟩, h12⟩

theorem condCode_good {t : DType} {c l r : G} (hc : GInv c) (hl : GInv l) (hr : GInv r) {s s' : GState} {code : List Immc}
    (h : condCode t c l r s = .ok ((), code, s')) : Good s code s' := by
  obtain ⟨j, c1, s1, a, c2, s2, b, c3, s3, h1, h2, h3, rfl, rfl⟩ := condCode_ok h
  obtain ⟨g1, hj⟩ := hc.jmp h1
  have g1' := Good.start (r := s.reg) (e := s.exprReg) g1 (by omega) (by omega)
  have g2 := Good.start (s := s1) (l := s1.lab) (e := s1.exprReg) (hl.reg h2) (by omega) (by omega)
  have g3 := hr.reg h3
  have f := (g1'.1.trans g2.1).trans g3.1
  have f1 := g1.1.lab
  have f2 := g2.1.lab
  have f3 := g3.1.lab
  dsimp only at f1
  obtain ⟨is, a1, a2, a3, a4⟩ := g1'.2
  obtain ⟨js, b1, b2, b3, b4⟩ := g2.2
  obtain ⟨ks, d1, d2, d3, d4⟩ := g3.2
  refine ⟨⟨f.syms, f.mem, f.tags, f.initOff, f.cont, f.brk, f.ret, f.cases, f.dflt, f.reg, f.lab⟩, ?_⟩
  refine ⟨is ++ (js ++ ((s.lab + 1) :: (ks ++ [s.lab + 1 + 1]))), ?_, ?_, ?_, ?_⟩
  · simp [defs_append, hj.defs, defs_inst, defs_label, defs_nil, a1, b1, d1]
  · simp only [List.nodup_append, List.nodup_cons, List.mem_append, List.mem_cons, List.not_mem_nil, or_false]
    grind
  · intro i hi
    simp only [List.mem_append, List.mem_cons, List.not_mem_nil, or_false] at hi
    grind
  · intro n hn
    simp only [uses_append, hj.uses, uses_inst (op := .load) rfl, uses_jumpTo, uses_label, uses_nil, List.append_nil, List.mem_append,
      List.mem_cons] at hn
    rcases hn with hn | rfl | hn | rfl | hn
    · obtain ⟨i, hi, e⟩ := a4 n hn; exact ⟨i, by simp [hi], e⟩
    · exact ⟨_, by simp, rfl⟩
    · obtain ⟨i, hi, e⟩ := b4 n hn; exact ⟨i, by simp [hi], e⟩
    · exact ⟨_, by simp, rfl⟩
    · obtain ⟨i, hi, e⟩ := d4 n hn; exact ⟨i, by simp [hi], e⟩


theorem logicalCode_good {b : Bool} {t : DType} {l r : G} (hl : GInv l) (hr : GInv r) {s s' : GState} {code : List Immc}
    (h : logicalCode b t l r s = .ok ((), code, s')) : Good s code s' := by
  obtain ⟨j, c1, s1, k, c2, s2, h1, h2, rfl, rfl⟩ := logicalCode_ok h
  obtain ⟨g1, hj⟩ := hl.jmp h1
  obtain ⟨g2, hk⟩ := hr.jmp h2
  have g1' := Good.start (r := s.reg) (e := s.exprReg) g1 (by omega) (by omega)
  have f := g1'.1.trans g2.1
  have f1 := g1.1.lab
  have f2 := g2.1.lab
  dsimp only at f1
  obtain ⟨is, a1, a2, a3, a4⟩ := g1'.2
  obtain ⟨js, b1, b2, b3, b4⟩ := g2.2
  refine ⟨⟨f.syms, f.mem, f.tags, f.initOff, f.cont, f.brk, f.ret, f.cases, f.dflt, by have := f.reg; dsimp only; omega, f.lab⟩, ?_⟩
  refine ⟨is ++ (js ++ [s.lab + 1, s.lab + 1 + 1]), ?_, ?_, ?_, ?_⟩
  · simp [defs_append, hj.defs, hk.defs, defs_inst, defs_label, defs_nil, a1, b1]
  · simp only [List.nodup_append, List.nodup_cons, List.mem_append, List.mem_cons, List.not_mem_nil, or_false]
    grind
  · intro i hi
    simp only [List.mem_append, List.mem_cons, List.not_mem_nil, or_false] at hi
    grind
  · intro n hn
    simp only [uses_append, hj.uses, hk.uses, uses_inst (op := .load) rfl, uses_jumpTo, uses_label, uses_nil, List.mem_append,
      List.mem_cons, List.not_mem_nil, or_false] at hn
    rcases hn with hn | rfl | hn | rfl | rfl
    · obtain ⟨i, hi, e⟩ := a4 n hn; exact ⟨i, by simp [hi], e⟩
    · exact ⟨_, by simp, rfl⟩
    · obtain ⟨i, hi, e⟩ := b4 n hn; exact ⟨i, by simp [hi], e⟩
    · exact ⟨_, by simp, rfl⟩
    · exact ⟨_, by simp, rfl⟩

/-- the end of the code of an expression: an instruction that is not a jump, with a new register as result -/
theorem Good.last {a b : GState} {x y : List Immc} (h : Good a x b) (k : Flat y) {r : Int} (hr : b.reg ≤ r)
    {e : Option (Sfx × Int × Bool)} : Good a (x ++ y) { b with reg := r, exprReg := e } := (h.flat k).regs hr

macro "flat" : tactic => `(tactic| (repeat (first | exact flat_nil | refine flat_cons rfl ?_)))

theorem arithCode_good {op : IOp} (ho : branches op = false) {t : DType} {l r : G} (hl : GInv l) (hr : GInv r) {s s' : GState} {code : List Immc}
    (h : arithCode op t l r s = .ok ((), code, s')) : Good s code s' := by
  obtain ⟨a, c1, s1, b, c2, s2, h1, h2, rfl, rfl⟩ := arithCode_ok h
  rw [← List.append_assoc]
  exact ((hl.reg h1).trans (hr.int h2)).last (flat_cons ho flat_nil) (by omega)

theorem binOp_flat {op : SBin} : branches (binOp op) = false ∨ op = .assign ∨ op = .lor ∨ op = .land ∨ op = .pdiff := by
  cases op <;> simp [binOp, branches]

theorem binCode_good {op : SBin} {t lt : DType} {l r : G} (hl : GInv l) (hr : GInv r) {s s' : GState} {code : List Immc}
    (h : binCode op t lt l r s = .ok ((), code, s')) : Good s code s' := by
  unfold binCode at h
  split at h
  · obtain ⟨sf, id, us, c1, s1, p, c2, s2, h1, h2, rfl, rfl⟩ := assignCode_ok h
    rw [← List.append_assoc]
    exact ((hr.reg h1).trans (hl.ptr h2)).last (by flat) (by omega)
  · exact logicalCode_good hl hr h
  · exact logicalCode_good hl hr h
  · obtain ⟨a, c1, s1, b, c2, s2, t', h1, h2, _, rfl, rfl⟩ := ptrAddCode_ok h
    rw [← List.append_assoc]
    exact ((hl.reg h1).trans (hr.reg h2)).last (flat_cons rfl (flat_cons rfl flat_nil)) (by omega)
  · obtain ⟨a, c1, s1, b, c2, s2, t', h1, h2, _, rfl, rfl⟩ := ptrAddCode_ok h
    rw [← List.append_assoc]
    exact ((hl.reg h1).trans (hr.reg h2)).last (flat_cons rfl (flat_cons rfl flat_nil)) (by omega)
  · obtain ⟨a, c1, s1, b, c2, s2, t', h1, h2, _, rfl, rfl⟩ := ptrDiffCode_ok h
    rw [← List.append_assoc]
    exact ((hl.reg h1).trans (hr.reg h2)).last (by flat) (by omega)
  · refine arithCode_good ?_ hl hr h
    rcases binOp_flat (op := op) with hb | rfl | rfl | rfl | rfl
    · exact hb
    all_goals simp_all

theorem symOpe_good {n : Str} {s s' : GState} {o : Ope} {c : List Immc} (h : symOpe n s = .ok (o, c, s')) : Good s c s' := by
  obtain ⟨rfl, rfl, -⟩ := symOpe_ok h
  exact .refl _

theorem pure_good {α : Type} {a b : α} {s s' : GState} {c : List Immc} (h : (pure a : GM α) s = .ok (b, c, s')) : Good s c s' := by
  obtain ⟨-, rfl, rfl⟩ := pure_ok.1 h
  exact .refl _

theorem primaryCode_good {t : DType} {src : GM Ope} (hs : ∀ {s o c s'}, src s = .ok (o, c, s') → Good s c s') {s s' : GState} {code : List Immc}
    (h : primaryCode t src s = .ok ((), code, s')) : Good s code s' := by
  obtain ⟨o, c1, s1, h1, rfl, rfl⟩ := primaryCode_ok h
  exact (hs h1).last (by flat) (by omega)

theorem addrCode_good {t : DType} {src : GM Ope} (hs : ∀ {s o c s'}, src s = .ok (o, c, s') → Good s c s') {s s' : GState} {code : List Immc}
    (h : addrCode t src s = .ok ((), code, s')) : Good s code s' := by
  obtain ⟨o, c1, s1, h1, rfl, rfl⟩ := addrCode_ok h
  exact (hs h1).last (by flat) (by omega)

theorem memberAddrCode_good {t st : DType} {e : G} {m : Str} (he : GInv e) {s s' : GState} {code : List Immc}
    (h : memberAddrCode t st e m s = .ok ((), code, s')) : Good s code s' := by
  obtain ⟨a, c1, s1, ms, o, h1, _, _, rfl, rfl⟩ := memberAddrCode_ok h
  exact (he.reg h1).last (by flat) (by omega)

theorem memberCode_good {t st : DType} {e : G} {m : Str} (he : GInv e) {s s' : GState} {code : List Immc}
    (h : memberCode t st e m s = .ok ((), code, s')) : Good s code s' := by
  obtain ⟨sf, r, us, c1, s1, h1, _, rfl, rfl⟩ := memberCode_ok h
  exact (memberAddrCode_good he h1).last (by flat) (by omega)

theorem incdecCode_good {op : IOp} (ho : branches op = false) {post : Bool} {t : DType} {e : G} (he : GInv e) {s s' : GState} {code : List Immc}
    (h : incdecCode op post t e s = .ok ((), code, s')) : Good s code s' := by
  cases post
  · obtain ⟨p, c1, s1, l, h1, _, rfl, rfl⟩ := incdecPre_ok h
    exact (he.ptr h1).last (flat_cons rfl (flat_cons ho (flat_cons rfl flat_nil))) (by omega)
  · obtain ⟨p, c1, s1, l, h1, _, rfl, rfl⟩ := incdecPost_ok h
    exact (he.ptr h1).last (flat_cons rfl (flat_cons rfl (flat_cons ho (flat_cons rfl flat_nil)))) (by omega)

theorem argsCode_good : ∀ {gs : List G} (_ : ∀ g ∈ gs, GInv g) {i : Nat} {s s' : GState} {code : List Immc}
    (_ : argsCode i gs s = .ok ((), code, s')), Good s code s'
  | [], _, _, _, _, _, h => pure_good h
  | g :: gs, hg, i, s, s', code, h => by
    obtain ⟨c1, s1, a, c2, h1, h2, rfl⟩ := argsCode_ok h
    rw [← List.append_assoc]
    exact ((argsCode_good (fun g hg' => hg g (by simp [hg'])) h1).trans ((hg g (by simp)).int h2)).flat (by flat)

theorem callCode_good {t : DType} {f : G} {gs : List G} (hf : GInv f) (hg : ∀ g ∈ gs, GInv g) {s s' : GState} {code : List Immc}
    (h : callCode t f gs s = .ok ((), code, s')) : Good s code s' := by
  obtain ⟨c1, s1, p, c2, s2, d, c3, s3, h1, h2, _, rfl, h4⟩ := callCode_ok h
  have g : Good s (inst .prep none (some (intOpe .none gs.length)) none :: (c1 ++ (c2 ++ callEnd d p gs.length))) s2 := by
    have g1 := argsCode_good hg h1
    have g2 := (g1.trans (hf.ptr h2)).flat (y := callEnd d p gs.length) (by unfold callEnd; flat)
    rw [List.append_assoc] at g2
    exact ⟨g2.1, g2.2.flat_left (a := [inst .prep none (some (intOpe .none gs.length)) none]) (by flat)⟩
  rcases h4 with ⟨_, _, rfl⟩ | ⟨_, _, rfl⟩
  · exact g.regs (by omega)
  · exact g.regs (by omega)

theorem unCode_good {op : IOp} (ho : branches op = false) {t : DType} {e : G} (he : GInv e) {s s' : GState} {code : List Immc}
    (h : unCode op t e s = .ok ((), code, s')) : Good s code s' := by
  obtain ⟨a, c1, s1, h1, rfl, rfl⟩ := unCode_ok h
  exact (he.int h1).last (flat_cons ho flat_nil) (by omega)

theorem fatal_good {α : Type} {a : α} {s s' : GState} {c : List Immc} (h : (fatal : GM α) s = .ok (a, c, s')) : Good s c s' := by
  simp [fatal_ok] at h

theorem un_inv {op : SUn} {t : DType} {e : SExpr} (he : GInv (expr e)) (hm : ∀ t' d a m, e = .tomember t' d a m → GInv (expr d))
    (hi : ∀ t' d, e = .un .indir t' d → GInv (expr d)) : GInv (expr (.un op t e)) := by
  cases op with
  | cast =>
    rw [expr]
    exact .of fatal_good he.int
  | addr =>
    cases e with
    | ident t' n =>
      have := GInv.plain (code := addrCode t (symOpe n)) (addrCode_good symOpe_good)
      rw [expr]
      exact ⟨this.code, this.int, symOpe_good, this.jmp⟩
    | str t' id => rw [expr]; exact .plain (addrCode_good pure_good)
    | tomember t' d a m => rw [expr]; exact .plain (memberAddrCode_good (hm _ _ _ _ rfl))
    | un op' t' d =>
      cases op' with
      | indir => rw [expr]; exact .plain (hi _ _ rfl).code
      | _ => rw [expr] <;> first | exact .plain fatal_good | nofun
    | _ => rw [expr] <;> first | exact .plain fatal_good | nofun
  | preinc => rw [expr]; exact .plain (incdecCode_good rfl he)
  | predec => rw [expr]; exact .plain (incdecCode_good rfl he)
  | postinc => rw [expr]; exact .plain (incdecCode_good rfl he)
  | postdec => rw [expr]; exact .plain (incdecCode_good rfl he)
  | indir =>
    rw [expr]
    refine .plain fun h => ?_
    obtain ⟨p, c1, s1, h1, rfl, rfl⟩ := indirCode_ok h
    exact (he.ptr h1).last (by flat) (by omega)
  | pos =>
    rw [expr]
    refine .plain fun h => ?_
    obtain ⟨sf, r, us, s1, h1, rfl⟩ := posCode_ok h
    exact (he.reg h1).regs (by omega)
  | neg => rw [expr]; exact .plain (unCode_good rfl he)
  | not => rw [expr]; exact .plain (unCode_good rfl he)
  | lnot =>
    rw [expr]
    refine .plain fun h => ?_
    obtain ⟨a, c1, s1, h1, rfl, rfl⟩ := lnotCode_ok h
    exact (he.reg h1).last (by flat) (by omega)

mutual
theorem expr_inv : ∀ e : SExpr, GInv (expr e)
  | .ident t n => by rw [expr]; exact .plain (primaryCode_good symOpe_good)
  | .str t id => by rw [expr]; exact .plain (primaryCode_good pure_good)
  | .ilit t l => by rw [expr]; exact .of (primaryCode_good pure_good) pure_good
  | .bin op t l r => by rw [expr]; exact .bin (binCode_good (expr_inv l) (expr_inv r)) (expr_inv l) (expr_inv r)
  | .cond t c l r => by rw [expr]; exact .plain (condCode_good (expr_inv c) (expr_inv l) (expr_inv r))
  | .un op t (.tomember t' d a m) => un_inv (expr_inv _) (fun _ _ _ _ h => by cases h; exact expr_inv d) nofun
  | .un op t (.un o t' d) => un_inv (expr_inv _) nofun (fun _ _ h => by cases h; exact expr_inv d)
  | .un op t (.ident t' n) => un_inv (expr_inv _) nofun nofun
  | .un op t (.str t' n) => un_inv (expr_inv _) nofun nofun
  | .un op t (.ilit t' n) => un_inv (expr_inv _) nofun nofun
  | .un op t (.bin o t' l r) => un_inv (expr_inv _) nofun nofun
  | .un op t (.cond t' c l r) => un_inv (expr_inv _) nofun nofun
  | .un op t (.call t' f as) => un_inv (expr_inv _) nofun nofun
  | .call t f as => by rw [expr]; exact .plain (callCode_good (expr_inv f) (args_inv as))
  | .tomember t e a m => by rw [expr]; exact .plain (memberCode_good (expr_inv e))
theorem args_inv : ∀ as : SArgs, ∀ g ∈ args as, GInv g
  | .nil => by simp [args]
  | .cons e as => by
    intro g hg
    rw [args] at hg
    rcases List.mem_cons.1 hg with rfl | h
    · exact expr_inv e
    · exact args_inv as g h
end

end Gen
end Umlcc
