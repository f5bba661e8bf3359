import Verif.Lemma.Runs
/-!
Exactly the expressions that fit are translated.
-/
namespace Umlcc
namespace Gen
open Tr (Names Sym fits fitsArgs isCast hasMember membersIn namesOf declared)

/-- the expression is translated where it fits -/
def ET (Γ : Names) (e : SExpr) : Prop :=
  ∃ v, GT (expr e) Γ (fits Γ false e) (fits Γ true e) v ∧ (isCast e = false → fits Γ true e = (fits Γ false e && v))

theorem ET.plain {Γ : Names} {e : SExpr} {code : GM Unit} (he : expr e = G.plain code) (hf : fits Γ true e = fits Γ false e)
    (h : ∀ s, Sees Γ s → Runs code s (fits Γ false e) fun _ s' => Keeps s s' ∧ s'.exprReg.isSome = true) : ET Γ e :=
  ⟨true, by rw [hf, he]; simpa using GT.plain h, fun _ => by rw [hf]; simp⟩

theorem bin_et {Γ : Names} {op : SBin} {t : DType} {l r : SExpr} (hl : ET Γ l) (hr : ET Γ r) : ET Γ (.bin op t l r) := by
  obtain ⟨v, hl, -⟩ := hl
  obtain ⟨w, hr, -⟩ := hr
  have hf : fits Γ true (.bin op t l r) = fits Γ false (.bin op t l r) := by cases op <;> simp only [fits]
  have hc : ∀ s, Sees Γ s → Runs (binCode op t l.dt (expr l) (expr r)) s (fits Γ false (.bin op t l r)) fun _ s' => Keeps s s' ∧ s'.exprReg.isSome = true := by
    intro s hs
    cases op with
    | assign => simp only [fits, binCode]; exact assign_runs hl hr hs
    | lor => simp only [fits, binCode]; exact logical_runs hl hr hs
    | land => simp only [fits, binCode]; exact logical_runs hl hr hs
    | padd => simp only [fits, binCode]; exact ptrAdd_runs hl hr hs
    | psub => simp only [fits, binCode]; exact ptrAdd_runs hl hr hs
    | pdiff => simp only [fits, binCode]; exact ptrDiff_runs hl hr hs
    | _ => simp only [fits, binCode]; exact arith_runs hl hr hs
  refine ⟨true, ?_, fun _ => by rw [hf]; simp⟩
  rw [hf]
  have g := GT.plain (Γ := Γ) hc
  simp only [Bool.and_true] at g
  simp only [expr, G.bin]
  refine ⟨g.code, g.int, g.ptr, ?_⟩
  intro b s hs
  dsimp only
  cases hj : cjmp op b with
  | none => exact g.jmp b s hs
  | some j =>
    have hb : fits Γ false (.bin op t l r) = (fits Γ true l && fits Γ true r) := by cases op <;> simp_all [cjmp, fits]
    rw [hb]
    dsimp only
    refine (hl.reg s hs).bind ?_
    rintro f s1 ⟨-, k1⟩
    refine (hr.int none s1 (hs.keep k1)).last ?_
    rintro x s2 ⟨-, k2⟩
    exact .pure (k1.trans k2)

mutual
theorem expr_et {Γ : Names} : ∀ e, ET Γ e
  | .ident t n => .plain (by rw [expr]) (by simp only [fits]) fun s hs => by simp only [fits]; exact primary_runs (symOpe_runs hs)
  | .str t id => .plain (by rw [expr]) (by simp only [fits]) fun s hs => by simp only [fits]; exact primary_runs (.pure rfl)
  | .ilit t l => by
    refine ⟨true, ?_, fun _ => by simp [fits]⟩
    simp only [expr, fits]
    exact .of (fun s _ => primary_runs (.pure rfl)) fun c s _ => .pure ⟨trivial, Keeps.refl⟩
  | .bin op t l r => bin_et (expr_et l) (expr_et r)
  | .cond t c l r => .plain (by rw [expr]) (by simp only [fits]) fun s hs => by
    obtain ⟨_, hc, -⟩ := expr_et (Γ := Γ) c
    obtain ⟨_, hl, -⟩ := expr_et (Γ := Γ) l
    obtain ⟨_, hr, -⟩ := expr_et (Γ := Γ) r
    simp only [fits]
    exact cond_runs hc hl hr hs
  | .un .cast t e => by
    obtain ⟨v, h, -⟩ := expr_et (Γ := Γ) e
    refine ⟨true, ?_, fun h => by simp [isCast] at h⟩
    simp only [expr, fits, Bool.false_and, Bool.true_and]
    exact .of (fun s _ => .fatal) fun c s hs => h.int _ s hs
  | .un .addr t (.ident u n) => by
    refine ⟨true, ?_, fun _ => by simp [fits]⟩
    have g := GT.plain (Γ := Γ) (b := declared Γ n) (v := true) fun s hs => addr_runs (t := t) (symOpe_runs hs)
    simp only [Bool.and_true] at g
    simp only [expr, fits]
    exact ⟨g.code, g.int, fun s hs => (symOpe_runs hs).mono fun _ _ h => h ▸ Keeps.refl, g.jmp⟩
  | .un .addr t (.str u id) => .plain (by rw [expr]) (by simp only [fits]) fun s hs => by simp only [fits]; exact addr_runs (.pure rfl)
  | .un .addr t (.tomember u e w m) => .plain (by rw [expr]) (by simp only [fits]) fun s hs => by
    obtain ⟨_, h, -⟩ := expr_et (Γ := Γ) e
    simp only [fits]
    exact memberAddr_runs h hs
  | .un .addr t (.un .indir u e) => by
    obtain ⟨v, h, hv⟩ := expr_et (Γ := Γ) e
    have hb : (!isCast e && fits Γ false e) = fits Γ false e := by
      cases e with
      | un op t e => cases op <;> simp [isCast, fits]
      | _ => simp [isCast]
    have hb2 : (!isCast e && fits Γ true e) = (fits Γ false e && v) := by
      cases hc : isCast e with
      | false => simp [hv hc]
      | true => rw [← hb, hc]; simp
    refine ⟨v, ?_, fun _ => by simp only [fits]; rw [hb, hb2]⟩
    simp only [expr, fits]
    rw [hb, hb2]
    exact .plain h.code
  | .un .addr t (.ilit _ _) | .un .addr t (.bin _ _ _ _) | .un .addr t (.cond _ _ _ _) | .un .addr t (.call _ _ _)
  | .un .addr t (.un .cast _ _) | .un .addr t (.un .preinc _ _) | .un .addr t (.un .predec _ _) | .un .addr t (.un .addr _ _)
  | .un .addr t (.un .pos _ _) | .un .addr t (.un .neg _ _) | .un .addr t (.un .not _ _) | .un .addr t (.un .lnot _ _)
  | .un .addr t (.un .postinc _ _) | .un .addr t (.un .postdec _ _) =>
    .plain (code := fatal) (by simp only [expr]) (by simp only [fits]) fun s hs => by simp only [fits]; exact .fatal
  | .un .preinc t e | .un .predec t e | .un .postinc t e | .un .postdec t e => .plain (by rw [expr]) (by simp only [fits]) fun s hs => by
    obtain ⟨_, h, -⟩ := expr_et (Γ := Γ) e
    simp only [fits]
    exact incdec_runs h hs
  | .un .indir t e => .plain (by rw [expr]) (by simp only [fits]) fun s hs => by
    obtain ⟨_, h, -⟩ := expr_et (Γ := Γ) e
    simp only [fits]
    exact indir_runs h hs
  | .un .pos t e => .plain (by rw [expr]) (by simp only [fits]) fun s hs => by
    obtain ⟨_, h, -⟩ := expr_et (Γ := Γ) e
    simp only [fits]
    exact pos_runs h hs
  | .un .neg t e | .un .not t e => .plain (by rw [expr]) (by simp only [fits]) fun s hs => by
    obtain ⟨_, h, -⟩ := expr_et (Γ := Γ) e
    simp only [fits]
    exact un_runs h hs
  | .un .lnot t e => .plain (by rw [expr]) (by simp only [fits]) fun s hs => by
    obtain ⟨_, h, -⟩ := expr_et (Γ := Γ) e
    simp only [fits]
    exact lnot_runs h hs
  | .call t f as => by
    obtain ⟨_, h, -⟩ := expr_et (Γ := Γ) f
    have ha := args_et (Γ := Γ) as
    have hb : fits Γ true (.call t f as) = (fits Γ false (.call t f as) && !t.isVoid) := by
      simp only [fits, Bool.not_true, Bool.not_false, Bool.false_or, Bool.true_or, Bool.true_and]
      rw [Bool.and_assoc, Bool.and_comm]
    refine ⟨!t.isVoid, ?_, fun _ => hb⟩
    rw [hb, expr]
    refine .plain fun s hs => ?_
    simp only [fits, Bool.not_false, Bool.true_or, Bool.true_and]
    exact argsCode_runs (fun s i hs => ha i s hs) h hs
  | .tomember t e u m => .plain (by rw [expr]) (by simp only [fits]) fun s hs => by
    obtain ⟨_, h, -⟩ := expr_et (Γ := Γ) e
    simp only [fits]
    exact member_runs h hs
theorem args_et {Γ : Names} : ∀ as i s, Sees Γ s → Runs (argsCode i (args as)) s (fitsArgs Γ as) fun _ s' => Keeps s s'
  | .nil, i, s, _ => by simp only [args, fitsArgs]; exact .pure Keeps.refl
  | .cons e as, i, s, hs => by
    obtain ⟨_, h, -⟩ := expr_et (Γ := Γ) e
    have ha := args_et (Γ := Γ) as
    simp only [args, fitsArgs]
    refine Runs.cast (b := fitsArgs Γ as && fits Γ true e) ?_ (Bool.and_comm _ _)
    refine (ha (i + 1) s hs).bind fun _ s1 k1 => ?_
    refine (h.int none s1 (hs.keep k1)).last ?_
    rintro o s2 ⟨-, k2⟩
    exact emit_keeps (k1.trans k2)
end

end Gen
end Umlcc
