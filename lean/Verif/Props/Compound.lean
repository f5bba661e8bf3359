import Verif.Lemma.ResInv
import Verif.Lemma.CSem
import Verif.Spec.Syntax
import Verif.Props.GenExpr
/-!
C29: how often a compound assignment evaluates its left side. (C30: the type of pointer differences.)
-/
namespace Umlcc
namespace Res
open CSem (Ctx eval rep store need_some)
open IMach (Mem)
open Syn (Expr AsgOp)

variable {W : Type}

/-- What C29 asks of the tree `T` for `l op= r`, where `L` and `R` are the trees for `l` and `r`: whenever `T` has a value, its effects are those of `r`, those of
one evaluation of the lvalue `l`, and storing the value there. The order of the first two is left open. -/
def Once (C : Ctx W) (L R T : SExpr) : Prop :=
  ∀ σ x, eval C T σ = some x → ∃ q a y, rep L.dt = some q ∧
    ((eval C (decay R) σ = some y ∧ eval C (toPtr L) y.2 = some a ∧ x.2 = (store q a.2.1 a.1 x.1, a.2.2)) ∨
     (eval C (toPtr L) σ = some a ∧ eval C (decay R) a.2 = some y ∧ x.2 = (store q y.2.1 a.1 x.1, y.2.2)))

/-- C29 in full -/
def C29_full : Prop := ∀ (W : Type) (C : Ctx W) (n : Nat) (s s1 s2 s' : RState) (op : AsgOp) (l r : Expr) (L R T : SExpr), op ≠ .asg →
  (resolver n).expr l.ast s = .ok (some L, s1) → (resolver n).expr r.ast s1 = .ok (some R, s2) → (resolver n).expr (Expr.assign op l r).ast s = .ok (some T, s') →
  Once C L R T

/-- no assignment, `++`, `--` or call in the expression -/
def effectFree : SExpr → Bool
  | .ident _ _ | .str _ _ | .ilit _ _ => true
  | .bin op _ l r => decide (op ≠ .assign) && effectFree l && effectFree r
  | .cond _ c l r => effectFree c && effectFree l && effectFree r
  | .un op _ e => decide (op ≠ .preinc ∧ op ≠ .predec ∧ op ≠ .postinc ∧ op ≠ .postdec) && effectFree e
  | .call _ _ _ => false
  | .tomember _ e _ _ => effectFree e

/-- such expressions change nothing -/
theorem quiet {C : Ctx W} : ∀ (e : SExpr), effectFree e = true → ∀ {σ : Mem × W} {x : Int × Mem × W}, eval C e σ = some x → x.2 = σ
  | .ident t n, _, σ, x, h => by obtain ⟨q, a, -, -, -, rfl⟩ := CSem.eval_ident h; rfl
  | .str t n, _, σ, x, h => by simp [eval] at h
  | .ilit t l, _, σ, x, h => by obtain ⟨q, -, -, rfl⟩ := CSem.eval_ilit h; rfl
  | .bin op t l r, hf, σ, x, h => by
    simp only [effectFree, Bool.and_eq_true, decide_eq_true_eq] at hf
    obtain ⟨⟨h1, h2⟩, h3⟩ := hf
    by_cases hlor : op = .lor
    · subst hlor
      obtain ⟨-, -, -, y, h4, ⟨-, rfl⟩ | ⟨-, z, h5, rfl⟩⟩ := CSem.eval_logical (b := true) (.inl rfl) h
      · exact quiet l (x := y) h2 h4
      · exact (quiet r h3 h5).trans (quiet l h2 h4)
    · by_cases hland : op = .land
      · subst hland
        obtain ⟨-, -, -, y, h4, ⟨-, rfl⟩ | ⟨-, z, h5, rfl⟩⟩ := CSem.eval_logical (b := false) (.inr rfl) h
        · exact quiet l (x := y) h2 h4
        · exact (quiet r h3 h5).trans (quiet l h2 h4)
      · obtain ⟨y, z, v, h4, h5, -, rfl⟩ := CSem.eval_bin h1 hlor hland h
        exact (quiet r h3 h5).trans (quiet l h2 h4)
  | .cond t c l r, hf, σ, x, h => by
    simp only [effectFree, Bool.and_eq_true] at hf
    obtain ⟨q, y, -, -, -, -, h4, ⟨-, h5⟩ | ⟨-, h5⟩⟩ := CSem.eval_cond h
    · exact (quiet l hf.1.2 h5).trans (quiet c hf.1.1 h4)
    · exact (quiet r hf.2 h5).trans (quiet c hf.1.1 h4)
  | .un .addr t e, hf, σ, x, h => by
    simp only [effectFree, Bool.and_eq_true] at hf
    have hf := hf.2
    match e, hf, h with
    | .ident _ _, _, h => obtain ⟨-, a, -, rfl⟩ := CSem.eval_addrIdent h; rfl
    | .str _ _, _, h => obtain ⟨-, rfl⟩ := CSem.eval_addrStr h; rfl
    | .tomember _ e _ _, hf, h =>
      obtain ⟨-, y, o, h4, -, -, rfl⟩ := CSem.eval_addrMember h
      exact quiet e (x := y) (by simpa [effectFree] using hf) h4
    | .un .indir _ e, hf, h => exact quiet e (by simpa [effectFree] using hf) (CSem.eval_addrIndir h).2.2
    | .ilit _ _, _, h | .bin _ _ _ _, _, h | .cond _ _ _ _, _, h | .call _ _ _, _, h => simp [eval] at h
    | .un .addr _ _, _, h | .un .cast _ _, _, h | .un .preinc _ _, _, h | .un .predec _ _, _, h | .un .postinc _ _, _, h | .un .postdec _ _, _, h
    | .un .pos _ _, _, h | .un .neg _ _, _, h | .un .not _ _, _, h | .un .lnot _ _, _, h => simp [eval] at h
  | .un .cast t e, hf, σ, x, h => by
    simp only [effectFree, Bool.and_eq_true] at hf
    obtain ⟨y, h4, ⟨-, rfl⟩ | ⟨-, q, -, -, rfl⟩⟩ := CSem.eval_cast h <;> exact quiet e (x := y) hf.2 h4
  | .un .indir t e, hf, σ, x, h => by
    simp only [effectFree, Bool.and_eq_true] at hf
    obtain ⟨q, y, -, -, h4, -, rfl⟩ := CSem.eval_indir h
    exact quiet e (x := y) hf.2 h4
  | .un .pos t e, hf, σ, x, h => by
    simp only [effectFree, Bool.and_eq_true] at hf
    exact quiet e hf.2 (CSem.eval_pos h).choose_spec.2.2
  | .un .neg t e, hf, σ, x, h => by
    simp only [effectFree, Bool.and_eq_true] at hf
    obtain ⟨q, y, v, -, -, h4, -, rfl⟩ := CSem.eval_neg h
    exact quiet e (x := y) hf.2 h4
  | .un .not t e, hf, σ, x, h => by
    simp only [effectFree, Bool.and_eq_true] at hf
    obtain ⟨q, y, -, -, h4, rfl⟩ := CSem.eval_not h
    exact quiet e (x := y) hf.2 h4
  | .un .lnot t e, hf, σ, x, h => by
    simp only [effectFree, Bool.and_eq_true] at hf
    obtain ⟨-, -, y, h4, rfl⟩ := CSem.eval_lnot h
    exact quiet e (x := y) hf.2 h4
  | .un .preinc t e, hf, σ, x, h | .un .predec t e, hf, σ, x, h | .un .postinc t e, hf, σ, x, h | .un .postdec t e, hf, σ, x, h => by
    simp [effectFree] at hf
  | .call t f as, hf, σ, x, h => by simp [effectFree] at hf
  | .tomember t e mt m, hf, σ, x, h => by
    simp only [effectFree] at hf
    obtain ⟨q, y, o, -, h4, -, -, -, rfl⟩ := CSem.eval_tomember h
    exact quiet e (x := y) hf h4

theorem casts_eval {C : Ctx W} (ts : List DType) : ∀ (e : SExpr) {σ : Mem × W} {x : Int × Mem × W}, eval C (casts ts e) σ = some x →
    ∃ v, eval C e σ = some (v, x.2) := by
  induction ts with
  | nil => intro e σ x h; exact ⟨x.1, h⟩
  | cons t ts ih =>
    intro e σ x h
    obtain ⟨v, h1⟩ := ih _ h
    obtain ⟨y, h2, ⟨-, h3⟩ | ⟨-, q, -, -, h3⟩⟩ := CSem.eval_cast h1
    · exact ⟨y.1, by rw [h2]; rw [Prod.mk.injEq] at h3; rw [h3.2]⟩
    · exact ⟨y.1, by rw [h2]; rw [Prod.mk.injEq] at h3; rw [h3.2]⟩

theorem decay_bin {C : Ctx W} {op : SBin} {t : DType} {l r : SExpr} {σ : Mem × W} {x : Int × Mem × W} (h : eval C (decay (.bin op t l r)) σ = some x) :
    eval C (.bin op t l r) σ = some x := by
  unfold decay at h
  split at h
  · simp [eval] at h
  · simp [eval] at h
  · exact h

theorem decay_free {e : SExpr} (h : effectFree e = true) : effectFree (decay e) = true := by
  unfold decay
  split <;> simp [effectFree, h]

/-- the operator that the compiler puts into the assignment -/
theorem operator_ok {R : Rec} {op : AstT} {o : AstT} {l r : Ast} {B : SExpr} {s s' : RState} (ho : compoundOp op = some o)
    (h : expr R (.node o [l, r]) s = .ok (some B, s')) :
    ∃ L' R' s1 b t A A', R.expr l s = .ok (some L', s1) ∧ R.expr r s1 = .ok (some R', s') ∧ B = .bin b t A A' ∧ b ≠ .assign ∧ b ≠ .lor ∧ b ≠ .land ∧
      ∃ ts us, (A = casts ts (decay L') ∧ A' = casts us (decay R')) ∨ (A = casts ts (decay R') ∧ A' = casts us (decay L')) := by
  have harith : ∀ b : SBin, b ≠ .assign → b ≠ .lor → b ≠ .land → arith R b (.node o [l, r]) s = .ok (some B, s') →
      ∃ L' R' s1 b t A A', R.expr l s = .ok (some L', s1) ∧ R.expr r s1 = .ok (some R', s') ∧ B = .bin b t A A' ∧ b ≠ .assign ∧ b ≠ .lor ∧ b ≠ .land ∧
      ∃ ts us, (A = casts ts (decay L') ∧ A' = casts us (decay R')) ∨ (A = casts ts (decay R') ∧ A' = casts us (decay L')) := by
    intro b hb1 hb2 hb3 h
    unfold arith at h
    obtain ⟨⟨l', r'⟩, s1, h1, h⟩ := ok_bind.1 h
    obtain ⟨x, y, L, R', s2, hx, hy, h2, h3, rfl, rfl⟩ := operands_ok h1
    cases hx; cases hy
    simp only [ok_bind, ok_require, ok_pure] at h
    obtain ⟨-, s4, ⟨-, rfl⟩, rfl, rfl⟩ := h
    exact ⟨L, R', s2, b, _, _, _, h2, h3, rfl, hb1, hb2, hb3, _, _, .inl ⟨rfl, rfl⟩⟩
  cases op <;> cases ho
  case mulAssign | divAssign | modAssign | lshiftAssign | rshiftAssign | andAssign | xorAssign | orAssign =>
    exact harith _ (by decide) (by decide) (by decide) h
  case addAssign =>
    have h : addExpr R (.node .add [l, r]) s = .ok (some B, s') := h
    unfold addExpr at h
    obtain ⟨⟨l', r'⟩, s1, h1, h⟩ := ok_bind.1 h
    obtain ⟨x, y, L, R', s2, hx, hy, h2, h3, rfl, rfl⟩ := operands_ok h1
    cases hx; cases hy
    simp only [ok_ite, ok_pure, ok_fail, and_false, or_false] at h
    obtain ⟨-, rfl, rfl⟩ | ⟨-, ⟨-, rfl, rfl⟩ | ⟨-, -, rfl, rfl⟩⟩ := h
    · exact ⟨L, R', s2, _, _, _, _, h2, h3, rfl, by decide, by decide, by decide, _, _, .inl ⟨rfl, rfl⟩⟩
    · exact ⟨L, R', s2, _, _, _, _, h2, h3, rfl, by decide, by decide, by decide, [], [], .inl ⟨rfl, rfl⟩⟩
    · exact ⟨L, R', s2, _, _, _, _, h2, h3, rfl, by decide, by decide, by decide, [], [], .inr ⟨rfl, rfl⟩⟩
  case subAssign =>
    have h : subExpr R (.node .sub [l, r]) s = .ok (some B, s') := h
    unfold subExpr at h
    obtain ⟨⟨l', r'⟩, s1, h1, h⟩ := ok_bind.1 h
    obtain ⟨x, y, L, R', s2, hx, hy, h2, h3, rfl, rfl⟩ := operands_ok h1
    cases hx; cases hy
    simp only [ok_ite, ok_pure, ok_fail, and_false, or_false] at h
    obtain ⟨-, rfl, rfl⟩ | ⟨-, ⟨-, rfl, rfl⟩ | ⟨-, -, rfl, rfl⟩⟩ := h
    · exact ⟨L, R', s2, _, _, _, _, h2, h3, rfl, by decide, by decide, by decide, _, _, .inl ⟨rfl, rfl⟩⟩
    · exact ⟨L, R', s2, _, _, _, _, h2, h3, rfl, by decide, by decide, by decide, [], [], .inl ⟨rfl, rfl⟩⟩
    · exact ⟨L, R', s2, _, _, _, _, h2, h3, rfl, by decide, by decide, by decide, [], [], .inl ⟨rfl, rfl⟩⟩

theorem compound_expr {R : Rec} {op : AsgOp} (hop : op ≠ .asg) (l r : Ast) :
    ∃ o, compoundOp op.node = some o ∧ expr R (.node op.node [l, r]) = assignment R (.node .assign [l, .node o [l, r]]) := by
  cases op
  case asg => exact absurd rfl hop
  all_goals exact ⟨_, rfl, rfl⟩

/-- C29 for left sides without effects. The compiler resolves the left side twice (`L` for the assignment and `L'` inside the operator). Missing: left sides with
effects, for which the property fails. -/
theorem C29_once_partial (C : Ctx W) (n : Nat) (s s' : RState) (op : AsgOp) (l r : Expr) (T : SExpr) (hop : op ≠ .asg)
    (h : (resolver n).expr (Expr.assign op l r).ast s = .ok (some T, s')) :
    ∃ n1 n2 s1 s2 L L' R, (resolver n1).expr l.ast s = .ok (some L, s1) ∧ (resolver n2).expr l.ast s1 = .ok (some L', s2) ∧ (resolver n2).expr r.ast s2 = .ok (some R, s') ∧
      (effectFree L = true → effectFree L' = true → Once C L R T) := by
  match n, h with
  | 0, h => simp [resolver, Rec.bot, Res.hang] at h
  | n + 1, h =>
    simp only [Expr.ast] at h
    have h : expr (resolver n) (.node op.node [l.ast, r.ast]) s = .ok (some T, s') := h
    obtain ⟨o, ho, he⟩ := compound_expr (R := resolver n) hop l.ast r.ast
    rw [he] at h
    obtain ⟨x, y, L, B, s1, hx, hy, h1, h2, -, -, rfl⟩ := assignment_ok h
    cases hx; cases hy
    match n, h1, h2 with
    | 0, h1, h2 => simp [resolver, Rec.bot, Res.hang] at h1
    | n + 1, h1, h2 =>
      obtain ⟨L', R', s2, b, t, A, A', h3, h4, rfl, hb1, hb2, hb3, ts, us, hA⟩ := operator_ok ho h2
      refine ⟨n + 1, n, s1, s2, L, L', R', h1, h3, h4, fun hL hL' σ x hx => ?_⟩
      obtain ⟨q, y, z, h5, -, -, h6, h7, -, rfl⟩ := CSem.eval_assign hx
      have hB : ∃ v, eval C (.bin b t A A') σ = some (v, y.2) := by
        split at h6
        · exact ⟨y.1, decay_bin h6⟩
        · obtain ⟨v, h8⟩ := casts_eval [L.dt] _ h6
          exact ⟨v, decay_bin h8⟩
      obtain ⟨v, hB⟩ := hB
      obtain ⟨y1, z1, w, k1, k2, -, k4⟩ := CSem.eval_bin hb1 hb2 hb3 hB
      rw [Prod.mk.injEq] at k4
      have hR : ∃ v, eval C (decay R') σ = some (v, y.2) := by
        obtain ⟨rfl, rfl⟩ | ⟨rfl, rfl⟩ := hA
        · obtain ⟨v1, k1⟩ := casts_eval _ _ k1
          obtain ⟨v2, k2⟩ := casts_eval _ _ k2
          have := quiet _ (decay_free hL') k1
          simp only at this
          rw [this] at k2
          exact ⟨v2, by rw [k2, k4.2]⟩
        · obtain ⟨v1, k1⟩ := casts_eval _ _ k1
          obtain ⟨v2, k2⟩ := casts_eval _ _ k2
          have := quiet _ (decay_free hL') k2
          simp only at this
          exact ⟨v1, by rw [k1, k4.2, this]⟩
      obtain ⟨v', hR⟩ := hR
      exact ⟨q, z, _, h5, .inl ⟨hR, h7, rfl⟩⟩

/-! #### samples -/

/-- a scope with `int *p` and `int x` -/
def scopeState : RState := { initial with syms := [[([112], .obj (.ptr .int)), ([120], .obj .int)]] }

private def one : Expr := .int ⟨.int, 1⟩
private def px : SExpr := .ident (.ptr .int) [112]
private def lit1 : SExpr := .ilit .int ⟨.int, 1⟩

/-- `*(p + x) += x++`: the theorem applies -/
example : ∃ T s', (resolver 9).expr (Expr.assign .add (.un .indir (.bin .add (.ident [112]) (.ident [120]))) (.postinc (.ident [120]))).ast scopeState = .ok (some T, s') ∧
    ∃ L s1, (resolver 8).expr (Expr.un .indir (.bin .add (.ident [112]) (.ident [120]))).ast scopeState = .ok (some L, s1) ∧ effectFree L = true :=
  ⟨_, _, rfl, _, _, rfl, by decide⟩

/-- `*p++` -/
def stepping : Expr := .un .indir (.postinc (.ident [112]))
def steppingTree : SExpr := .un .indir .int (.un .postinc (.ptr .int) (toPtr px))
/-- `*p++ += 1` as resolved: `p++` is there twice -/
def steppingTwice : SExpr := .bin .assign .int (toPtr steppingTree) (.bin .add .int steppingTree lit1)

theorem stepping_resolved : (resolver 9).expr stepping.ast scopeState = .ok (some steppingTree, scopeState) ∧
    (resolver 9).expr one.ast scopeState = .ok (some lit1, scopeState) ∧
    (resolver 9).expr (Expr.assign .add stepping one).ast scopeState = .ok (some steppingTwice, scopeState) := ⟨rfl, rfl, rfl⟩

/-- C29 fails: `*p++ += 1` adds 8 to `p`, not 4 (and stores the sum in the element after the one it read). -/
theorem C29_violated : ¬ C29_full := by
  intro h
  have h := h Nat (CSem.ctxOf Gen.sampleEnv Gen.sampleState false) 9 _ _ _ _ .add stepping one _ _ _ (by decide) stepping_resolved.1 stepping_resolved.2.1 stepping_resolved.2.2
  obtain ⟨x, hx, hv⟩ := Option.map_eq_some_iff.1
    (show (eval (CSem.ctxOf Gen.sampleEnv Gen.sampleState false) steppingTwice (Gen.sampleMem, 0)).map (fun x => x.2.1 4084) = some 4 by decide +kernel)
  obtain ⟨q, a, y, hq, h⟩ := h _ _ hx
  cases hq
  have hy : ∀ σ : Mem × Nat, eval (CSem.ctxOf Gen.sampleEnv Gen.sampleState false) (decay lit1) σ = some (1, σ) := fun _ => rfl
  have ha : (eval (CSem.ctxOf Gen.sampleEnv Gen.sampleState false) (toPtr steppingTree) (Gen.sampleMem, 0)).map (fun a => (a.1, a.2.1 4084)) = some (4092, 0) := by
    decide +kernel
  have key : eval (CSem.ctxOf Gen.sampleEnv Gen.sampleState false) (toPtr steppingTree) (Gen.sampleMem, 0) = some a ∧ x.2 = (store (.long, false) a.2.1 a.1 x.1, a.2.2) := by
    obtain ⟨h1, h2, h3⟩ | ⟨h1, h2, h3⟩ := h
    · rw [hy] at h1; cases h1; exact ⟨h2, h3⟩
    · rw [hy] at h2; cases h2; exact ⟨h1, h3⟩
  rw [key.1] at ha
  simp only [Option.map_some, Option.some.injEq, Prod.mk.injEq] at ha
  rw [key.2] at hv
  simp only [store, ha.1] at hv
  have h5 : X86.writeLE a.2.1 (BitVec.ofInt 64 4092) 4 (x.1 % 2 ^ 32).toNat 4084 = a.2.1 4084 := by
    simp [X86.writeLE]
  have h6 := (h5.symm.trans hv).symm.trans ha.2
  revert h6
  decide

/-- C30: the compiler gives every difference of pointers the unsigned type `unsigned long long`. -/
theorem C30_type (n : Nat) (s s' : RState) (l r : Expr) (T : SExpr) (h : (resolver n).expr (Expr.bin .sub l r).ast s = .ok (some T, s')) (L R : SExpr)
    (hT : T = .bin .pdiff T.dt L R) : T.dt = .ullong := by
  match n, h with
  | 0, h => simp [resolver, Rec.bot, Res.hang] at h
  | n + 1, h =>
    have h : subExpr (resolver n) (.node .sub [l.ast, r.ast]) s = .ok (some T, s') := h
    unfold subExpr at h
    obtain ⟨⟨l', r'⟩, s1, h1, h⟩ := ok_bind.1 h
    simp only [ok_ite, ok_pure, ok_fail, and_false, or_false] at h
    obtain ⟨-, rfl, rfl⟩ | ⟨-, ⟨-, rfl, rfl⟩ | ⟨-, -, rfl, rfl⟩⟩ := h
    · simp at hT
    · simp at hT
    · rfl

example : ∃ s' L R, (resolver 9).expr (Expr.bin .sub (.ident [112]) (.ident [112])).ast scopeState = .ok (some (.bin .pdiff .ullong L R), s') := ⟨_, _, _, rfl⟩

end Res
end Umlcc
