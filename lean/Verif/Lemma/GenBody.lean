import Verif.Model.Immcgen
/-!
Helper lemmas: what kinds of items the code of expressions and statements consists of.
-/
namespace Umlcc
namespace Gen

/-- an instruction other than `ENTER` and `LEAVE`, or a numbered label -/
def Body : Immc → Prop
  | .inst i => i.op ≠ .enter ∧ i.op ≠ .leave
  | .label t _ _ => t = .normal
  | .data _ => False

/-- an item of an object with initial values -/
def IsData : Immc → Prop
  | .data _ => True
  | _ => False

/-- only the innermost scope has changed, label numbers have been used up -/
structure Tails (s s' : GState) : Prop where
  syms : s'.syms.tail = s.syms.tail
  tags : s'.tags.tail = s.tags.tail
  lab : s.lab ≤ s'.lab

/-- how the state may change -/
class Change (R : GState → GState → Prop) : Prop where
  refl (s : GState) : R s s
  trans {a b c : GState} : R a b → R b c → R a c

theorem Tails.refl (s : GState) : Tails s s := ⟨rfl, rfl, Int.le_refl _⟩
instance : Change Tails := ⟨.refl, fun h k => ⟨k.1.trans h.1, k.2.trans h.2, Int.le_trans h.3 k.3⟩⟩
instance : Change Eq := ⟨fun _ => rfl, fun h k => h.trans k⟩

/-- only items with property `P` are generated, the result has property `Q`, the state changes as `R` says -/
def EmitP (P : Immc → Prop) (R : GState → GState → Prop) (m : GM α) (Q : α → Prop) : Prop := ∀ s a c s', m s = .ok (a, c, s') → (∀ x ∈ c, P x) ∧ Q a ∧ R s s'
abbrev Emit (m : GM α) (Q : α → Prop) : Prop := EmitP Body Tails m Q

abbrev T {α : Type} : α → Prop := fun _ => True

set_option linter.unusedSectionVars false

variable {P : Immc → Prop} {R : GState → GState → Prop} [Change R]

theorem EmitP.bind {m : GM α} {f : α → GM β} {Q : α → Prop} {S : β → Prop} (h : EmitP P R m Q) (hf : ∀ a, Q a → EmitP P R (f a) S) : EmitP P R (m >>= f) S := by
  intro s b c s' e
  change GM.bind m f s = _ at e
  unfold GM.bind at e
  cases hm : m s with
  | ok p =>
    obtain ⟨a, c1, s1⟩ := p
    simp only [hm] at e
    cases hf' : f a s1 with
    | ok q =>
      obtain ⟨b1, c2, s2⟩ := q
      simp only [hf', Out.ok.injEq, Prod.mk.injEq] at e
      obtain ⟨rfl, rfl, rfl⟩ := e
      obtain ⟨h1, h2, h5⟩ := h _ _ _ _ hm
      obtain ⟨h3, h4, h6⟩ := hf a h2 _ _ _ _ hf'
      exact ⟨fun x hx => (List.mem_append.1 hx).elim (h1 x) (h3 x), h4, Change.trans h5 h6⟩
    | _ => simp [hf'] at e
  | _ => simp [hm] at e

theorem EmitP.pure {a : α} {Q : α → Prop} (h : Q a) : EmitP P R (pure a : GM α) Q := by
  intro s b c s' e
  cases e
  exact ⟨by simp, h, Change.refl _⟩
theorem EmitP.get : EmitP P R get T := by
  intro s b c s' e
  cases e
  exact ⟨by simp, trivial, Change.refl _⟩
theorem EmitP.modify {f : GState → GState} (h : ∀ s, R s (f s)) : EmitP P R (modify f) T := by
  intro s b c s' e
  cases e
  exact ⟨by simp, trivial, h _⟩
theorem EmitP.emit {x : Immc} (h : P x) : EmitP P R (emit x) T := by
  intro s b c s' e
  cases e
  exact ⟨by simpa using h, trivial, Change.refl _⟩
theorem EmitP.emits {xs : List Immc} (h : ∀ x ∈ xs, P x) : EmitP P R (emits xs) T := by
  intro s b c s' e
  cases e
  exact ⟨h, trivial, Change.refl _⟩
theorem EmitP.ub {Q : α → Prop} : EmitP P R (ub : GM α) Q := by
  intro s b c s' e
  cases e
theorem EmitP.fatal {Q : α → Prop} : EmitP P R (fatal : GM α) Q := by
  intro s b c s' e
  cases e
theorem EmitP.lift {x : Out α} : EmitP P R (lift x) T := by
  intro s b c s' e
  unfold Gen.lift at e
  cases x <;> simp at e
  obtain ⟨rfl, rfl, rfl⟩ := e
  exact ⟨by simp, trivial, Change.refl _⟩
theorem EmitP.capture {m : GM α} (h : EmitP P R m T) : EmitP P R (capture m) fun p => ∀ x ∈ p.2, P x := by
  intro s b c s' e
  unfold Gen.capture at e
  cases hm : m s with
  | ok p =>
    simp only [hm, Out.ok.injEq, Prod.mk.injEq] at e
    obtain ⟨rfl, rfl, rfl⟩ := e
    exact ⟨by simp, (h _ _ _ _ hm).1, (h _ _ _ _ hm).2.2⟩
  | _ => simp [hm] at e
theorem EmitP.nameOf {n : Str} : EmitP P R (nameOf n) T := by
  intro s b c s' e
  unfold Gen.nameOf at e
  split at e
  · cases e
    exact ⟨by simp, trivial, Change.refl _⟩
  · cases e

theorem tail_define {α : Type} {n : Str} {x : α} (l : List (List (Str × α))) : (define n x l).tail = l.tail := by cases l <;> rfl

/-- a block: what is declared in it goes out of scope -/
theorem EmitP.block {m : GM Unit} (h : EmitP P Tails m T) : EmitP P Tails (do enter; m; leave) T := by
  intro s u c s' e
  change GM.bind enter (fun _ => GM.bind m fun _ => leave) s = _ at e
  simp only [GM.bind, enter, leave, Gen.modify] at e
  cases hm : m { s with syms := [] :: s.syms, tags := [] :: s.tags } with
  | ok p =>
    obtain ⟨a, c1, s1⟩ := p
    simp only [hm, Out.ok.injEq, Prod.mk.injEq] at e
    obtain ⟨-, rfl, rfl⟩ := e
    obtain ⟨h1, -, h2, h3, h4⟩ := h _ _ _ _ hm
    refine ⟨by simpa using h1, trivial, ?_, ?_, h4⟩
    · exact congrArg List.tail h2
    · exact congrArg List.tail h3
  | _ => simp [hm] at e

theorem body_inst {op : IOp} {a b c : Option Ope} (h : op ≠ .enter ∧ op ≠ .leave) : Body (inst op a b c) := h
theorem body_label (i : Int) : Body (labelAt i) := rfl

/-- all ways to generate code for an expression -/
structure GBody (g : G) : Prop where
  code : Emit g.code T
  int : ∀ c, Emit (g.int c) T
  ptr : Emit g.ptr T
  jmp : ∀ b, Emit (g.jmp b) fun j => ∀ n, Body (j n)

syntax "solve_em" : tactic
macro_rules | `(tactic| solve_em) => `(tactic| fail)
macro "em1" : tactic => `(tactic| first
  | exact EmitP.get
  | exact EmitP.modify (fun _ => ⟨rfl, rfl, Int.le_refl _⟩)
  | exact EmitP.ub
  | exact EmitP.fatal
  | exact EmitP.lift
  | exact EmitP.nameOf
  | exact EmitP.pure trivial
  | exact EmitP.emit (body_label _)
  | exact EmitP.emit (body_inst (by decide))
  | exact EmitP.emit (body_inst ⟨by assumption, by assumption⟩)
  | exact EmitP.emits (by assumption)
  | with_reducible assumption
  | with_reducible solve_em
  | with_reducible refine EmitP.bind (GBody.jmp (by assumption) _) fun _ _ => ?_
  | with_reducible refine EmitP.bind (Q := T) ?_ fun _ _ => ?_
  | split)
macro "em" : tactic => `(tactic| repeat' em1)

theorem newReg_em : Emit newReg T := by unfold newReg; em
macro_rules | `(tactic| solve_em) => `(tactic| exact newReg_em)
theorem newLabel_em : Emit newLabel T := by
  unfold newLabel
  refine (EmitP.modify fun s => ⟨rfl, rfl, ?_⟩).bind fun _ _ => EmitP.get.bind fun _ _ => .pure trivial
  show s.lab ≤ s.lab + 1
  omega
macro_rules | `(tactic| solve_em) => `(tactic| exact newLabel_em)
theorem destReg_em {t : DType} : Emit (destReg t) T := by unfold destReg; em
macro_rules | `(tactic| solve_em) => `(tactic| exact destReg_em)
theorem setExpr_em {o : Ope} : Emit (setExpr o) T := by unfold setExpr; em
macro_rules | `(tactic| solve_em) => `(tactic| exact setExpr_em)
theorem setVoid_em : Emit setVoid T := by unfold setVoid; em
macro_rules | `(tactic| solve_em) => `(tactic| exact setVoid_em)
theorem exprOpe_em : Emit exprOpe T := by unfold exprOpe; em
macro_rules | `(tactic| solve_em) => `(tactic| exact exprOpe_em)
theorem castReg_em {c : Option DType} : Emit (castReg c) T := by unfold castReg; em
macro_rules | `(tactic| solve_em) => `(tactic| exact castReg_em)
theorem symOpe_em {n : Str} : Emit (symOpe n) T := by unfold symOpe; em
macro_rules | `(tactic| solve_em) => `(tactic| exact symOpe_em)
theorem strideOf_em {t : DType} : Emit (strideOf t) T := by unfold strideOf; em
macro_rules | `(tactic| solve_em) => `(tactic| exact strideOf_em)
theorem membersOf_em {t : DType} : Emit (membersOf t) T := by unfold membersOf; em
macro_rules | `(tactic| solve_em) => `(tactic| exact membersOf_em)
theorem incOpe_em {s : Sfx} {t : DType} : Emit (incOpe s t) T := by unfold incOpe; em
macro_rules | `(tactic| solve_em) => `(tactic| exact incOpe_em)
theorem callDest_em {t : DType} : Emit (callDest t) T := by unfold callDest; em
macro_rules | `(tactic| solve_em) => `(tactic| exact callDest_em)

theorem GBody.reg {g : G} (h : ∀ c, Emit (g.int c) T) : Emit g.reg T := by
  have := h none
  unfold G.reg
  em

theorem jmpZero_em {reg : GM Ope} (h : Emit reg T) (b : Bool) : Emit (jmpZero reg b) fun j => ∀ n, Body (j n) := by
  unfold jmpZero
  refine h.bind fun o _ => ?_
  split
  · refine EmitP.pure fun n => ?_
    cases b <;> exact body_inst (by decide)
  · exact EmitP.ub

theorem ptrOf_em {m : GM Unit} (h : Emit m T) : Emit (ptrOf m) T := by unfold ptrOf; em

theorem GBody.of {code : GM Unit} {int : Option DType → GM Ope} (h1 : Emit code T) (h2 : ∀ c, Emit (int c) T) : GBody (G.of code int) :=
  ⟨h1, h2, ptrOf_em h1, fun b => jmpZero_em (GBody.reg h2) b⟩
theorem GBody.plain {code : GM Unit} (h1 : Emit code T) : GBody (G.plain code) := .of h1 fun _ => h1.bind fun _ _ => castReg_em

theorem jmpCmp_em {op : IOp} (h1 : op ≠ .enter) (h2 : op ≠ .leave) {l r : G} (hl : GBody l) (hr : GBody r) : Emit (jmpCmp op l r) fun j => ∀ n, Body (j n) := by
  unfold jmpCmp
  exact (GBody.reg hl.int).bind fun _ _ => (hr.int none).bind fun _ _ => EmitP.pure fun n => ⟨h1, h2⟩

theorem cjmp_body {op : SBin} {b : Bool} {j : IOp} (h : cjmp op b = some j) : j ≠ .enter ∧ j ≠ .leave := by
  cases op <;> cases b <;> cases h <;> exact ⟨by decide, by decide⟩

theorem GBody.bin {op : SBin} {code : GM Unit} {l r : G} (h1 : Emit code T) (hl : GBody l) (hr : GBody r) : GBody (G.bin op code l r) := by
  have hp := GBody.plain h1
  refine ⟨hp.code, hp.int, hp.ptr, fun b => ?_⟩
  simp only [G.bin]
  split
  · rename_i j hj
    exact jmpCmp_em (cjmp_body hj).1 (cjmp_body hj).2 hl hr
  · exact hp.jmp b

macro_rules | `(tactic| solve_em) => `(tactic| exact GBody.reg (GBody.int (by assumption)))
macro_rules | `(tactic| solve_em) => `(tactic| exact GBody.int (by assumption) _)
macro_rules | `(tactic| solve_em) => `(tactic| exact GBody.ptr (by assumption))
macro_rules | `(tactic| solve_em) => `(tactic| exact GBody.code (by assumption))

theorem emit_jump {j : Name → Immc} (h : ∀ n, Body (j n)) {n : Name} : Emit (emit (j n)) T := .emit (h n)
macro_rules | `(tactic| solve_em) => `(tactic| exact emit_jump (by assumption))

theorem assignCode_em {l r : G} (hl : GBody l) (hr : GBody r) : Emit (assignCode l r) T := by unfold assignCode; em
theorem condCode_em {t : DType} {c l r : G} (hc : GBody c) (hl : GBody l) (hr : GBody r) : Emit (condCode t c l r) T := by unfold condCode; em
theorem logicalCode_em {b : Bool} {t : DType} {l r : G} (hl : GBody l) (hr : GBody r) : Emit (logicalCode b t l r) T := by unfold logicalCode; em
theorem arithCode_em {op : IOp} (h1 : op ≠ .enter) (h2 : op ≠ .leave) {t : DType} {l r : G} (hl : GBody l) (hr : GBody r) : Emit (arithCode op t l r) T := by
  unfold arithCode; em
theorem ptrAddCode_em {op : IOp} (h1 : op ≠ .enter) (h2 : op ≠ .leave) {t lt : DType} {l r : G} (hl : GBody l) (hr : GBody r) : Emit (ptrAddCode op t lt l r) T := by
  unfold ptrAddCode; em
theorem ptrDiffCode_em {t lt : DType} {l r : G} (hl : GBody l) (hr : GBody r) : Emit (ptrDiffCode t lt l r) T := by unfold ptrDiffCode; em
theorem addrCode_em {t : DType} {src : GM Ope} (h : Emit src T) : Emit (addrCode t src) T := by unfold addrCode; em
theorem memberAddrCode_em {t st : DType} {e : G} {m : Str} (h : GBody e) : Emit (memberAddrCode t st e m) T := by unfold memberAddrCode; em
theorem memberCode_em {t st : DType} {e : G} {m : Str} (h : GBody e) : Emit (memberCode t st e m) T := by
  unfold memberCode
  have := @memberAddrCode_em (.ptr t) st e m h
  em
theorem indirCode_em {t : DType} {e : G} (h : GBody e) : Emit (indirCode t e) T := by unfold indirCode; em
theorem posCode_em {e : G} (h : GBody e) : Emit (posCode e) T := by unfold posCode; em
theorem unCode_em {op : IOp} (h1 : op ≠ .enter) (h2 : op ≠ .leave) {t : DType} {e : G} (h : GBody e) : Emit (unCode op t e) T := by unfold unCode; em
theorem lnotCode_em {t : DType} {e : G} (h : GBody e) : Emit (lnotCode t e) T := by unfold lnotCode; em
theorem incdecCode_em {op : IOp} (h1 : op ≠ .enter) (h2 : op ≠ .leave) {b : Bool} {t : DType} {e : G} (h : GBody e) : Emit (incdecCode op b t e) T := by
  unfold incdecCode; em
theorem primaryCode_em {t : DType} {src : GM Ope} (h : Emit src T) : Emit (primaryCode t src) T := by unfold primaryCode; em
theorem argsCode_em : ∀ {gs : List G} (_ : ∀ g ∈ gs, GBody g) {i : Nat}, Emit (argsCode i gs) T
  | [], _, _ => EmitP.pure trivial
  | g :: gs, h, i => by
    unfold argsCode
    have h1 := argsCode_em (fun g hg => h g (List.mem_cons_of_mem _ hg)) (i := i + 1)
    have h2 := h g (List.mem_cons_self ..)
    em
theorem callCode_em {t : DType} {f : G} {gs : List G} (hf : GBody f) (hg : ∀ g ∈ gs, GBody g) : Emit (callCode t f gs) T := by
  unfold callCode
  have h1 := argsCode_em hg (i := 0)
  em
theorem binOp_body (op : SBin) : binOp op ≠ .enter ∧ binOp op ≠ .leave := by cases op <;> exact ⟨by decide, by decide⟩
theorem binCode_em {op : SBin} {t lt : DType} {l r : G} (hl : GBody l) (hr : GBody r) : Emit (binCode op t lt l r) T := by
  have hb := binOp_body op
  unfold binCode
  split
  · exact assignCode_em hl hr
  · exact logicalCode_em hl hr
  · exact logicalCode_em hl hr
  · exact ptrAddCode_em hb.1 hb.2 hl hr
  · exact ptrAddCode_em hb.1 hb.2 hl hr
  · exact ptrDiffCode_em hl hr
  · exact arithCode_em hb.1 hb.2 hl hr

theorem un_body {op : SUn} {t : DType} {e : SExpr} (he : GBody (expr e)) (hm : ∀ t' d a m, e = .tomember t' d a m → GBody (expr d))
    (hd : ∀ t' d, e = .un .indir t' d → GBody (expr d)) : GBody (expr (.un op t e)) := by
  cases op with
  | addr =>
    cases e with
    | ident a n =>
      have := GBody.plain (addrCode_em (t := t) (symOpe_em (n := n)))
      simp only [expr]
      exact ⟨this.code, this.int, symOpe_em, this.jmp⟩
    | str a i => simp only [expr]; exact .plain (addrCode_em (EmitP.pure trivial))
    | tomember a d b m => simp only [expr]; exact .plain (memberAddrCode_em (hm _ _ _ _ rfl))
    | un o a d =>
      cases o with
      | indir => simp only [expr]; exact .plain (hd _ _ rfl).code
      | _ => simp only [expr]; exact .plain EmitP.fatal
    | _ => simp only [expr]; exact .plain EmitP.fatal
  | cast => simp only [expr]; exact .of EmitP.fatal fun c => he.int _
  | preinc => simp only [expr]; exact .plain (incdecCode_em (by decide) (by decide) he)
  | predec => simp only [expr]; exact .plain (incdecCode_em (by decide) (by decide) he)
  | postinc => simp only [expr]; exact .plain (incdecCode_em (by decide) (by decide) he)
  | postdec => simp only [expr]; exact .plain (incdecCode_em (by decide) (by decide) he)
  | indir => simp only [expr]; exact .plain (indirCode_em he)
  | pos => simp only [expr]; exact .plain (posCode_em he)
  | neg => simp only [expr]; exact .plain (unCode_em (by decide) (by decide) he)
  | not => simp only [expr]; exact .plain (unCode_em (by decide) (by decide) he)
  | lnot => simp only [expr]; exact .plain (lnotCode_em he)

mutual
theorem expr_body : ∀ e : SExpr, GBody (expr e)
  | .ident t n => by simp only [expr]; exact .plain (primaryCode_em symOpe_em)
  | .str t id => by simp only [expr]; exact .plain (primaryCode_em (EmitP.pure trivial))
  | .ilit t l => by simp only [expr]; exact .of (primaryCode_em (EmitP.pure trivial)) fun c => EmitP.pure trivial
  | .bin op t l r => by simp only [expr]; exact .bin (binCode_em (expr_body l) (expr_body r)) (expr_body l) (expr_body r)
  | .cond t c l r => by simp only [expr]; exact .plain (condCode_em (expr_body c) (expr_body l) (expr_body r))
  | .un op t (.tomember a d b m) => un_body (expr_body _) (fun _ _ _ _ h => by cases h; exact expr_body d) (fun _ _ h => by cases h)
  | .un op t (.un o a d) => un_body (expr_body _) (fun _ _ _ _ h => by cases h) (fun _ _ h => by cases h; exact expr_body d)
  | .un op t (.ident a n) => un_body (expr_body _) (fun _ _ _ _ h => by cases h) (fun _ _ h => by cases h)
  | .un op t (.str a n) => un_body (expr_body _) (fun _ _ _ _ h => by cases h) (fun _ _ h => by cases h)
  | .un op t (.ilit a n) => un_body (expr_body _) (fun _ _ _ _ h => by cases h) (fun _ _ h => by cases h)
  | .un op t (.bin o a l r) => un_body (expr_body _) (fun _ _ _ _ h => by cases h) (fun _ _ h => by cases h)
  | .un op t (.cond a c l r) => un_body (expr_body _) (fun _ _ _ _ h => by cases h) (fun _ _ h => by cases h)
  | .un op t (.call a f as) => un_body (expr_body _) (fun _ _ _ _ h => by cases h) (fun _ _ h => by cases h)
  | .call t f as => by simp only [expr]; exact .plain (callCode_em (expr_body f) (args_body as))
  | .tomember t e a m => by simp only [expr]; exact .plain (memberCode_em (expr_body e))
theorem args_body : ∀ as : SArgs, ∀ g ∈ args as, GBody g
  | .nil => by simp [args]
  | .cons e as => by
    intro g hg
    simp only [args, List.mem_cons] at hg
    rcases hg with rfl | hg
    · exact expr_body e
    · exact args_body as g hg
end

/-! ### declarations -/

theorem defineLabel_em {n : Str} {t : DType} : EmitP P Tails (defineLabel n t) T := by
  refine .modify fun s => ?_
  split
  · exact ⟨tail_define _, rfl, Int.le_refl _⟩
  · exact .refl _
theorem defineMem_em {n : Str} {t : DType} : EmitP P Tails (defineMem n t) T := by
  refine .modify fun s => ?_
  split
  · exact ⟨tail_define _, rfl, Int.le_refl _⟩
  · exact .refl _
theorem tagDecl_em {n : Str} {t : DType} : EmitP P Tails (tagDecl n t) T := by
  unfold tagDecl
  split
  · refine EmitP.get.bind fun _ _ => ?_
    split
    · exact EmitP.lift.bind fun _ _ => .modify fun _ => ⟨rfl, tail_define _, Int.le_refl _⟩
    · exact .pure trivial
  · exact .ub
  · exact .pure trivial
theorem localIdent_em {n : Str} {t : DType} : Emit (localIdent n t) T := by unfold localIdent; split; exact defineMem_em; exact defineLabel_em
macro_rules | `(tactic| solve_em) => `(tactic| exact localIdent_em)
theorem localScalar_em {t : DType} {g : G} (h : GBody g) : Emit (localScalar t g) T := by unfold localScalar; em
theorem localString_em {t : DType} {b : List UInt8} : Emit (localString t b) T := by unfold localString; em
theorem structType_em {t : DType} : EmitP P R (structType t) T := by unfold structType; em
macro_rules | `(tactic| solve_em) => `(tactic| exact structType_em)
theorem arrayInit_em {t : DType} : ∀ {n : Nat} {gs : List (DType → GM Unit)} (_ : ∀ g ∈ gs, ∀ t, EmitP P R (g t) T), EmitP P R (arrayInit t n gs) T
  | 0, _, _ => by unfold arrayInit; em
  | _ + 1, [], _ => by unfold arrayInit; em
  | n + 1, g :: gs, h => by
    unfold arrayInit
    exact (h g (List.mem_cons_self ..) t).bind fun _ _ => arrayInit_em fun g hg => h g (List.mem_cons_of_mem _ hg)
theorem localMembers_em {off : Int} : ∀ {ms : List (DType × Nat)} {gs : List (DType → GM Unit)} (_ : ∀ g ∈ gs, ∀ t, Emit (g t) T), Emit (localMembers off ms gs) T
  | [], _, _ => by unfold localMembers; em
  | _ :: _, [], _ => by unfold localMembers; em
  | (t, o) :: ms, g :: gs, h => by
    unfold localMembers
    exact (EmitP.modify (by exact fun _ => ⟨rfl, rfl, Int.le_refl _⟩)).bind fun _ _ => (h g (List.mem_cons_self ..) t).bind fun _ _ => localMembers_em fun g hg => h g (List.mem_cons_of_mem _ hg)
theorem localStruct_em {t : DType} {gs : List (DType → GM Unit)} (h : ∀ g ∈ gs, ∀ t, Emit (g t) T) : Emit (localStruct t gs) T := by
  unfold localStruct
  refine structType_em.bind fun _ _ => EmitP.get.bind fun _ _ => ?_
  split
  · exact localMembers_em h
  · exact EmitP.ub
mutual
theorem localInit_em : ∀ (i : SInit) (t : DType), Emit (localInit i t) T
  | .expr e, t => by
    simp only [localInit]
    split
    · exact localScalar_em (expr_body e)
    · exact EmitP.ub
  | .str a b, t => by
    cases t <;> simp only [localInit] <;> first | exact localString_em | exact EmitP.ub
  | .list is, t => by
    cases t <;> simp only [localInit] <;> first | exact arrayInit_em (localInits_em is) | exact localStruct_em (localInits_em is) | exact EmitP.ub
theorem localInits_em : ∀ (is : SInits), ∀ g ∈ localInits is, ∀ t, Emit (g t) T
  | .nil => by simp [localInits]
  | .cons i is => by
    intro g hg t
    simp only [localInits, List.mem_cons] at hg
    rcases hg with rfl | hg
    · exact localInit_em i t
    · exact localInits_em is g hg t
end
theorem localDecl_em (d : SDecl) : Emit (localDecl d) T := by
  have := localInit_em
  unfold localDecl
  split
  · em
  · refine localIdent_em.bind fun _ _ => ?_
    split
    · em
    · refine EmitP.get.bind fun _ _ => ?_
      split
      · em
      · exact (EmitP.modify (by exact fun _ => ⟨rfl, rfl, Int.le_refl _⟩)).bind fun _ _ => (this _ _).bind fun _ _ => EmitP.modify (by exact fun _ => ⟨rfl, rfl, Int.le_refl _⟩)
theorem localDecls_em : ∀ ds : List SDecl, Emit (localDecls ds) T
  | [] => EmitP.pure trivial
  | d :: ds => (localDecl_em d).bind fun _ _ => localDecls_em ds

/-! ### statements -/

theorem addCase_em {v : SExpr} {id : Int} : Emit (addCase v id) T := by unfold addCase; em
macro_rules | `(tactic| solve_em) => `(tactic| exact addCase_em)
theorem iteCode_em {c : G} {t : GM Unit} (hc : GBody c) (ht : Emit t T) : Emit (iteCode c t) T := by
  unfold iteCode
  refine newLabel_em.bind fun _ _ => (hc.jmp _).bind fun j hj => ht.capture.bind fun p hp => ?_
  obtain ⟨u, body⟩ := p
  simp only at hp ⊢
  split
  · exact (emit_jump hj).bind fun _ _ => EmitP.emits hp
  · exact (emit_jump hj).bind fun _ _ => (EmitP.emits hp).bind fun _ _ => EmitP.emit (body_label _)
theorem iteeCode_em {c : G} {t e : GM Unit} (hc : GBody c) (ht : Emit t T) (he : Emit e T) : Emit (iteeCode c t e) T := by
  unfold iteeCode
  refine newLabel_em.bind fun no _ => newLabel_em.bind fun _ _ => (hc.jmp _).bind fun j hj => (emit_jump hj).bind fun _ _ => ht.bind fun _ _ =>
    (EmitP.capture ((EmitP.emit (body_label no)).bind fun _ _ => he)).bind fun p hp => ?_
  obtain ⟨u, body⟩ := p
  simp only at hp ⊢
  split
  · exact (EmitP.emit (body_inst (by decide))).bind fun _ _ => EmitP.emits hp
  · exact (EmitP.emit (body_inst (by decide))).bind fun _ _ => (EmitP.emits hp).bind fun _ _ => EmitP.emit (body_label _)
theorem caseJumps_body {o : Ope} {cs : List (Int × ILit)} : ∀ x ∈ caseJumps o cs, Body x := by
  intro x hx
  simp only [caseJumps, List.mem_map] at hx
  obtain ⟨p, -, rfl⟩ := hx
  exact body_inst (by decide)
theorem switchCode_em {c : G} {b : GM Unit} (hc : GBody c) (hb : Emit b T) : Emit (switchCode c b) T := by
  unfold switchCode
  refine (GBody.reg hc.int).bind fun _ _ => newLabel_em.bind fun _ _ => EmitP.get.bind fun _ _ => (EmitP.modify (by exact fun _ => ⟨rfl, rfl, Int.le_refl _⟩)).bind fun _ _ => hb.capture.bind fun p hp => ?_
  obtain ⟨u, bc⟩ := p
  simp only at hp ⊢
  refine EmitP.get.bind fun _ _ => (EmitP.emits caseJumps_body).bind fun _ _ => ?_
  refine (EmitP.emit (body_inst (by decide))).bind fun _ _ => (EmitP.modify (by exact fun _ => ⟨rfl, rfl, Int.le_refl _⟩)).bind fun _ _ => (EmitP.emits hp).bind fun _ _ => EmitP.emit (body_label _)
theorem inLoop_em {a b : Int} {m : GM Unit} (h : Emit m T) : Emit (inLoop a b m) T := by unfold inLoop; em
theorem whileCode_em {c : G} {b : GM Unit} (hc : GBody c) (hb : Emit b T) : Emit (whileCode c b) T := by
  unfold whileCode
  refine newLabel_em.bind fun _ _ => newLabel_em.bind fun _ _ => (EmitP.emit (body_label _)).bind fun _ _ => (hc.jmp _).bind fun j hj => (emit_jump hj).bind fun _ _ =>
    (inLoop_em hb).bind fun _ _ => (EmitP.emit (body_inst (by decide))).bind fun _ _ => EmitP.emit (body_label _)
theorem forCond_em (c : SStmt) (n : Name) : Emit (forCond c n) T := by
  unfold forCond
  split
  · exact ((expr_body _).jmp _).bind fun j hj => emit_jump hj
  · em
theorem forCode_em {i : GM Unit} {c : SStmt} {n b : GM Unit} (hi : Emit i T) (hn : Emit n T) (hb : Emit b T) : Emit (forCode i (forCond c) n b) T := by
  unfold forCode
  refine newLabel_em.bind fun _ _ => newLabel_em.bind fun _ _ => newLabel_em.bind fun _ _ => hi.bind fun _ _ => (EmitP.emit (body_label _)).bind fun _ _ =>
    (forCond_em c _).bind fun _ _ => (inLoop_em hb).bind fun _ _ => (EmitP.emit (body_label _)).bind fun _ _ => hn.bind fun _ _ =>
    (EmitP.emit (body_inst (by decide))).bind fun _ _ => EmitP.emit (body_label _)
theorem returnCode_em (e : Option SExpr) : Emit (returnCode (e.map expr)) T := by
  unfold returnCode
  cases e with
  | none => simp only [Option.map_none]; em
  | some e =>
    simp only [Option.map_some]
    have := expr_body e
    em

mutual
theorem stmt_body : ∀ s : SStmt, Emit (stmt s) T
  | .cmpd is => by simp only [stmt]; exact (items_body is).block
  | .case v b => by
    simp only [stmt]
    exact newLabel_em.bind fun _ _ => addCase_em.bind fun _ _ => (EmitP.emit (body_label _)).bind fun _ _ => stmt_body b
  | .dflt b => by
    simp only [stmt]
    exact newLabel_em.bind fun _ _ => (EmitP.modify (by exact fun _ => ⟨rfl, rfl, Int.le_refl _⟩)).bind fun _ _ => (EmitP.emit (body_label _)).bind fun _ _ => stmt_body b
  | .cont => by simp only [stmt]; em
  | .brk => by simp only [stmt]; em
  | .ret e => by simp only [stmt]; exact returnCode_em e
  | .expr e => by
    simp only [stmt]
    have := expr_body e
    em
  | .null => by simp only [stmt]; em
  | .ite c t => by simp only [stmt]; exact iteCode_em (expr_body c) (stmt_body t)
  | .itee c t e => by simp only [stmt]; exact iteeCode_em (expr_body c) (stmt_body t) (stmt_body e)
  | .switch c b => by simp only [stmt]; exact switchCode_em (expr_body c) (stmt_body b)
  | .while c b => by simp only [stmt]; exact whileCode_em (expr_body c) (stmt_body b)
  | .for i c n b => by
    simp only [stmt]
    exact (forCode_em (item_body i) (stmt_body n) (stmt_body b)).block
theorem item_body : ∀ i : SItem, Emit (item i) T
  | .stmt s => by simp only [item]; exact stmt_body s
  | .decls ds => by simp only [item]; exact localDecls_em ds
  | .tag n t => by simp only [item]; exact tagDecl_em
theorem items_body : ∀ is : SItems, Emit (items is) T
  | .nil => by simp only [items]; em
  | .cons i is => by simp only [items]; exact (item_body i).bind fun _ _ => items_body is
end

theorem paramsCode_em : ∀ (ps : Params) (i : Nat), Emit (paramsCode i ps) T
  | .nil, _ => by simp only [paramsCode]; em
  | .cons none _ _, _ => by simp only [paramsCode]; em
  | .cons (some n) t ps, i => by
    simp only [paramsCode]
    refine EmitP.get.bind fun _ _ => ?_
    split
    · exact defineMem_em.bind fun _ _ => EmitP.get.bind fun _ _ => (EmitP.emit (body_inst (by decide))).bind fun _ _ => paramsCode_em ps (i + 1)
    · em

/-! ### objects -/

theorem globalScalar_em {t : DType} {e : SExpr} : EmitP IsData Eq (globalScalar t e) T := by
  unfold globalScalar
  split
  · split
    all_goals first | exact .emit trivial | exact .fatal
  · exact .ub
theorem padding_em {n : Int} : EmitP IsData Eq (padding n) T := by
  unfold padding
  split
  · exact .emit trivial
  · exact .pure trivial
theorem globalMembers_em {size : Nat} : ∀ {ms : List (DType × Nat)} {gs : List (DType → GM Unit)} (_ : ∀ g ∈ gs, ∀ t, EmitP IsData Eq (g t) T), EmitP IsData Eq (globalMembers size ms gs) T
  | [], _, _ => by unfold globalMembers; exact .pure trivial
  | _ :: _, [], _ => by unfold globalMembers; exact .ub
  | (t, o) :: ms, g :: gs, h => by
    unfold globalMembers
    exact (h g (List.mem_cons_self ..) t).bind fun _ _ => padding_em.bind fun _ _ => globalMembers_em fun g hg => h g (List.mem_cons_of_mem _ hg)
theorem globalStruct_em {t : DType} {gs : List (DType → GM Unit)} (h : ∀ g ∈ gs, ∀ t, EmitP IsData Eq (g t) T) : EmitP IsData Eq (globalStruct t gs) T := by
  unfold globalStruct
  refine structType_em.bind fun _ _ => ?_
  split
  · exact globalMembers_em h
  · exact .ub
mutual
theorem globalInit_em : ∀ (i : SInit) (t : DType), EmitP IsData Eq (globalInit i t) T
  | .expr e, t => by
    simp only [globalInit]
    split
    · exact globalScalar_em
    · exact .ub
  | .str a b, t => by
    cases t <;> simp only [globalInit] <;> first | exact .emit trivial | exact .ub
  | .list is, t => by
    cases t <;> simp only [globalInit] <;> first | exact arrayInit_em (globalInits_em is) | exact globalStruct_em (globalInits_em is) | exact .ub
theorem globalInits_em : ∀ (is : SInits), ∀ g ∈ globalInits is, ∀ t, EmitP IsData Eq (g t) T
  | .nil => by simp [globalInits]
  | .cons i is => by
    intro g hg t
    simp only [globalInits, List.mem_cons] at hg
    rcases hg with rfl | hg
    · exact globalInit_em i t
    · exact globalInits_em is g hg t
end

end Gen
end Umlcc
