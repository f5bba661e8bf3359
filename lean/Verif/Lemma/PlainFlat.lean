import Verif.Lemma.GenBody
import Verif.Lemma.PlainExpr
/-!
Code of expressions without jumps.
-/
namespace Umlcc
namespace Plain
open Gen
open RSpec (reads writes)

/-- neither a jump nor a label -/
def Straight (x : Immc) : Prop := RSpec.target x = none ∧ x.isLabel = false

/-- any change of the state -/
def Any (_ _ : GState) : Prop := True
instance : Change Any := ⟨fun _ => trivial, fun _ _ => trivial⟩

abbrev EmitS (m : GM α) : Prop := EmitP Straight Any m T

structure GFlat (g : G) : Prop where
  code : EmitS g.code
  int : ∀ c, EmitS (g.int c)
  ptr : EmitS g.ptr

theorem straight_inst {op : IOp} {a b c : Option Ope} (h : RSpec.branches op = false) : Straight (inst op a b c) := by
  refine ⟨?_, rfl⟩
  cases a with
  | none => rfl
  | some o => cases o <;> simp [inst, RSpec.target, h]

syntax "solve_es" : tactic
macro_rules | `(tactic| solve_es) => `(tactic| fail)
macro "es1" : tactic => `(tactic| first
  | exact EmitP.get
  | exact EmitP.modify (fun _ => trivial)
  | exact EmitP.ub
  | exact EmitP.fatal
  | exact EmitP.lift
  | exact EmitP.nameOf
  | exact EmitP.pure trivial
  | exact EmitP.emit (straight_inst (by rfl))
  | exact EmitP.emit (straight_inst (by assumption))
  | with_reducible assumption
  | with_reducible solve_es
  | with_reducible refine EmitP.bind (Q := T) ?_ fun _ _ => ?_
  | split)
macro "es" : tactic => `(tactic| repeat' es1)

theorem newReg_es : EmitS newReg := by unfold newReg; es
macro_rules | `(tactic| solve_es) => `(tactic| exact newReg_es)
theorem destReg_es {t : DType} : EmitS (destReg t) := by unfold destReg; es
macro_rules | `(tactic| solve_es) => `(tactic| exact destReg_es)
theorem setExpr_es {o : Ope} : EmitS (setExpr o) := by unfold setExpr; es
macro_rules | `(tactic| solve_es) => `(tactic| exact setExpr_es)
theorem exprOpe_es : EmitS exprOpe := by unfold exprOpe; es
macro_rules | `(tactic| solve_es) => `(tactic| exact exprOpe_es)
theorem castReg_es {c : Option DType} : EmitS (castReg c) := by unfold castReg; es
macro_rules | `(tactic| solve_es) => `(tactic| exact castReg_es)
theorem symOpe_es {n : Str} : EmitS (symOpe n) := by unfold symOpe; es
macro_rules | `(tactic| solve_es) => `(tactic| exact symOpe_es)
theorem strideOf_es {t : DType} : EmitS (strideOf t) := by unfold strideOf; es
macro_rules | `(tactic| solve_es) => `(tactic| exact strideOf_es)
theorem membersOf_es {t : DType} : EmitS (membersOf t) := by unfold membersOf; es
macro_rules | `(tactic| solve_es) => `(tactic| exact membersOf_es)
theorem incOpe_es {s : Sfx} {t : DType} : EmitS (incOpe s t) := by unfold incOpe; es
macro_rules | `(tactic| solve_es) => `(tactic| exact incOpe_es)

theorem reg_es {g : G} (h : ∀ c, EmitS (g.int c)) : EmitS g.reg := by
  have := h none
  unfold G.reg
  es

macro_rules | `(tactic| solve_es) => `(tactic| exact reg_es (GFlat.int (by assumption)))
macro_rules | `(tactic| solve_es) => `(tactic| exact GFlat.int (by assumption) _)
macro_rules | `(tactic| solve_es) => `(tactic| exact GFlat.ptr (by assumption))
macro_rules | `(tactic| solve_es) => `(tactic| exact GFlat.code (by assumption))

theorem ptrOf_es {m : GM Unit} (h : EmitS m) : EmitS (ptrOf m) := by unfold ptrOf; es
theorem GFlat.of {code : GM Unit} {int : Option DType → GM Ope} (h1 : EmitS code) (h2 : ∀ c, EmitS (int c)) : GFlat (G.of code int) := ⟨h1, h2, ptrOf_es h1⟩
theorem GFlat.plain {code : GM Unit} (h1 : EmitS code) : GFlat (G.plain code) := .of h1 fun _ => h1.bind fun _ _ => castReg_es
theorem GFlat.bin {op : SBin} {code : GM Unit} {l r : G} (h1 : EmitS code) : GFlat (G.bin op code l r) := by
  have hp := GFlat.plain h1
  exact ⟨hp.code, hp.int, hp.ptr⟩

theorem assignCode_es {l r : G} (hl : GFlat l) (hr : GFlat r) : EmitS (assignCode l r) := by unfold assignCode; es
theorem arithCode_es {op : IOp} (h : RSpec.branches op = false) {t : DType} {l r : G} (hl : GFlat l) (hr : GFlat r) : EmitS (arithCode op t l r) := by unfold arithCode; es
theorem ptrAddCode_es {op : IOp} (h : RSpec.branches op = false) {t lt : DType} {l r : G} (hl : GFlat l) (hr : GFlat r) : EmitS (ptrAddCode op t lt l r) := by unfold ptrAddCode; es
theorem ptrDiffCode_es {t lt : DType} {l r : G} (hl : GFlat l) (hr : GFlat r) : EmitS (ptrDiffCode t lt l r) := by unfold ptrDiffCode; es
theorem addrCode_es {t : DType} {src : GM Ope} (h : EmitS src) : EmitS (addrCode t src) := by unfold addrCode; es
theorem memberAddrCode_es {t st : DType} {e : G} {m : Str} (h : GFlat e) : EmitS (memberAddrCode t st e m) := by unfold memberAddrCode; es
theorem memberCode_es {t st : DType} {e : G} {m : Str} (h : GFlat e) : EmitS (memberCode t st e m) := by
  unfold memberCode
  have := @memberAddrCode_es (.ptr t) st e m h
  es
theorem indirCode_es {t : DType} {e : G} (h : GFlat e) : EmitS (indirCode t e) := by unfold indirCode; es
theorem posCode_es {e : G} (h : GFlat e) : EmitS (posCode e) := by unfold posCode; es
theorem unCode_es {op : IOp} (ho : RSpec.branches op = false) {t : DType} {e : G} (h : GFlat e) : EmitS (unCode op t e) := by unfold unCode; es
theorem lnotCode_es {t : DType} {e : G} (h : GFlat e) : EmitS (lnotCode t e) := by unfold lnotCode; es
theorem incdecCode_es {op : IOp} (ho : RSpec.branches op = false) {b : Bool} {t : DType} {e : G} (h : GFlat e) : EmitS (incdecCode op b t e) := by unfold incdecCode; es
theorem primaryCode_es {t : DType} {src : GM Ope} (h : EmitS src) : EmitS (primaryCode t src) := by unfold primaryCode; es

theorem binCode_es {op : SBin} (h1 : op ≠ .land) (h2 : op ≠ .lor) {t lt : DType} {l r : G} (hl : GFlat l) (hr : GFlat r) : EmitS (binCode op t lt l r) := by
  cases op
  case land => exact absurd rfl h1
  case lor => exact absurd rfl h2
  case assign => exact assignCode_es hl hr
  case pdiff => exact ptrDiffCode_es hl hr
  case padd => exact ptrAddCode_es (op := .add) rfl hl hr
  case psub => exact ptrAddCode_es (op := .sub) rfl hl hr
  all_goals
    simp only [binCode]
    exact arithCode_es (by simp [binOp, RSpec.branches]) hl hr

theorem argsCode_es : ∀ (gs : List G) (i : Nat), (∀ g ∈ gs, GFlat g) → EmitS (argsCode i gs)
  | [], _, _ => by unfold argsCode; es
  | g :: gs, i, h => by
    have h1 := argsCode_es gs (i + 1) fun x hx => h x (by simp [hx])
    have h2 := h g (by simp)
    unfold argsCode
    es
theorem callDest_es {t : DType} : EmitS (callDest t) := by unfold callDest; es
macro_rules | `(tactic| solve_es) => `(tactic| exact callDest_es)
theorem setVoid_es : EmitS setVoid := by unfold setVoid; es
macro_rules | `(tactic| solve_es) => `(tactic| exact setVoid_es)
theorem callCode_es {t : DType} {f : G} {gs : List G} (hf : GFlat f) (hg : ∀ g ∈ gs, GFlat g) : EmitS (callCode t f gs) := by
  have := argsCode_es gs 0 hg
  unfold callCode
  es

mutual
/-- an expression without jumps has code without jumps -/
theorem expr_flat : ∀ e : SExpr, flat e = true → GFlat (expr e)
  | .ident t n, _ => by simp only [expr]; exact .plain (primaryCode_es symOpe_es)
  | .str t id, _ => by simp only [expr]; exact .plain (primaryCode_es (EmitP.pure trivial))
  | .ilit t l, _ => by simp only [expr]; exact .of (primaryCode_es (EmitP.pure trivial)) fun c => EmitP.pure trivial
  | .bin op t l r, h => by
    simp only [flat, Bool.and_eq_true, decide_eq_true_eq] at h
    simp only [expr]
    exact .bin (binCode_es h.1.1.1 h.1.1.2 (expr_flat l h.1.2) (expr_flat r h.2))
  | .un .cast t e, h => by
    have he := expr_flat e (by simpa [flat] using h)
    simp only [expr]; exact .of EmitP.fatal fun c => he.int _
  | .un .addr t (.ident _ n), _ => by
    have := GFlat.plain (addrCode_es (t := t) (symOpe_es (n := n)))
    simp only [expr]
    exact ⟨this.code, this.int, symOpe_es⟩
  | .un .addr t (.str _ n), _ => by simp only [expr]; exact .plain (addrCode_es (EmitP.pure trivial))
  | .un .addr t (.tomember _ e _ m), h => by
    have he := expr_flat e (by simpa [flat] using h)
    simp only [expr]; exact .plain (memberAddrCode_es he)
  | .un .addr t (.un .indir _ e), h => by
    have he := expr_flat e (by simpa [flat] using h)
    simp only [expr]; exact .plain he.code
  | .un .addr t (.ilit _ _), _ => by simp only [expr]; exact .plain EmitP.fatal
  | .un .addr t (.bin _ _ _ _), _ => by simp only [expr]; exact .plain EmitP.fatal
  | .un .addr t (.cond _ _ _ _), _ => by simp only [expr]; exact .plain EmitP.fatal
  | .un .addr t (.call _ _ _), _ => by simp only [expr]; exact .plain EmitP.fatal
  | .un .addr t (.un .addr _ _), _ | .un .addr t (.un .cast _ _), _ | .un .addr t (.un .preinc _ _), _ | .un .addr t (.un .predec _ _), _ | .un .addr t (.un .postinc _ _), _
  | .un .addr t (.un .postdec _ _), _ | .un .addr t (.un .pos _ _), _ | .un .addr t (.un .neg _ _), _ | .un .addr t (.un .not _ _), _ | .un .addr t (.un .lnot _ _), _ => by
    simp only [expr]; exact .plain EmitP.fatal
  | .un .preinc t e, h => by simp only [expr]; exact .plain (incdecCode_es rfl (expr_flat e (by simpa [flat] using h)))
  | .un .predec t e, h => by simp only [expr]; exact .plain (incdecCode_es rfl (expr_flat e (by simpa [flat] using h)))
  | .un .postinc t e, h => by simp only [expr]; exact .plain (incdecCode_es rfl (expr_flat e (by simpa [flat] using h)))
  | .un .postdec t e, h => by simp only [expr]; exact .plain (incdecCode_es rfl (expr_flat e (by simpa [flat] using h)))
  | .un .indir t e, h => by simp only [expr]; exact .plain (indirCode_es (expr_flat e (by simpa [flat] using h)))
  | .un .pos t e, h => by simp only [expr]; exact .plain (posCode_es (expr_flat e (by simpa [flat] using h)))
  | .un .neg t e, h => by simp only [expr]; exact .plain (unCode_es rfl (expr_flat e (by simpa [flat] using h)))
  | .un .not t e, h => by simp only [expr]; exact .plain (unCode_es rfl (expr_flat e (by simpa [flat] using h)))
  | .un .lnot t e, h => by simp only [expr]; exact .plain (lnotCode_es (expr_flat e (by simpa [flat] using h)))
  | .tomember t e a m, h => by simp only [expr]; exact .plain (memberCode_es (expr_flat e (by simpa [flat] using h)))
  | .call t f as, h => by
    simp only [flat, Bool.and_eq_true] at h
    simp only [expr]; exact .plain (callCode_es (expr_flat f h.1) (args_flat as h.2))
theorem args_flat : ∀ as : SArgs, flatArgs as = true → ∀ g ∈ args as, GFlat g
  | .nil, _, g, hg => by simp [args] at hg
  | .cons e as, h, g, hg => by
    simp only [flatArgs, Bool.and_eq_true] at h
    simp only [args, List.mem_cons] at hg
    rcases hg with rfl | hg
    · exact expr_flat e h.1
    · exact args_flat as h.2 g hg
end

end Plain
end Umlcc
