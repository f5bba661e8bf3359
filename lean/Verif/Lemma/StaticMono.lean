import Verif.Spec.Static
/-!
Where the restricted static semantics says something, it says what the full one says.
-/
namespace Umlcc
namespace StatL
open Syn Stat TSpec

/-- `v` says nothing or the same as `w` -/
def Le (v w : V α) : Prop := v = .out ∨ v = w

theorem Le.rfl {v : V α} : Le v v := .inr _root_.rfl
theorem Le.out {v : V α} : Le .out v := .inl _root_.rfl
theorem Le.differs {v w : V α} : Le (differs true v) w := .inl _root_.rfl
theorem Le.bind {v w : V α} {f g : α → V β} (h : Le v w) (hf : ∀ a, Le (f a) (g a)) : Le (v >>= f) (w >>= g) := by
  rcases h with rfl | rfl
  · exact .inl _root_.rfl
  · cases v with
    | ok a => exact hf a
    | bad => exact .inr _root_.rfl
    | out => exact .inr _root_.rfl
theorem Le.and {v w : V α} {x y : V β} (h : Le v w) (h2 : Le x y) : Le (V.and v x) (V.and w y) := by
  rcases h with rfl | rfl
  · exact .inl _root_.rfl
  · rcases h2 with rfl | rfl
    · left; cases v <;> rfl
    · exact .rfl
theorem Le.ite {c : Prop} [Decidable c] {a b a' b' : V α} (h1 : c → Le a a') (h2 : ¬c → Le b b') : Le (if c then a else b) (if c then a' else b') := by
  split
  · exact h1 ‹_›
  · exact h2 ‹_›

syntax "solve_le" : tactic
macro_rules | `(tactic| solve_le) => `(tactic| fail)
macro "le1" : tactic => `(tactic| first
  | with_reducible exact Le.rfl
  | with_reducible exact Le.out
  | with_reducible exact Le.differs
  | with_reducible assumption
  | with_reducible solve_le
  | with_reducible apply Le.bind
  | with_reducible apply Le.and
  | with_reducible apply Le.ite
  | intro x
  | split)
macro "le" : tactic => `(tactic| repeat' le1)

theorem known_le (Γ : Stat.Scope) (t : DType) : Le (known true Γ t) (known false Γ t) := by unfold known; le
macro_rules | `(tactic| solve_le) => `(tactic| exact known_le _ _)
theorem typedefTy_le (Γ : Stat.Scope) (t : DType) : Le (typedefTy true Γ t) (typedefTy false Γ t) := by unfold typedefTy; le
macro_rules | `(tactic| solve_le) => `(tactic| exact typedefTy_le _ _)
theorem specTy_le (Γ : Stat.Scope) (x : Spec) : Le (specTy true Γ x) (specTy false Γ x) := by cases x <;> simp only [specTy] <;> le
macro_rules | `(tactic| solve_le) => `(tactic| exact specTy_le _ _)
theorem specsTy_le (Γ : Stat.Scope) (l : List Spec) : Le (specsTy true Γ l) (specsTy false Γ l) := by unfold specsTy; le
macro_rules | `(tactic| solve_le) => `(tactic| exact specsTy_le _ _)
theorem sizeLit_le (l : ILit) : Le (sizeLit true l) (sizeLit false l) := by unfold sizeLit; le
macro_rules | `(tactic| solve_le) => `(tactic| exact sizeLit_le _)
theorem sizeTy_le (Γ : Stat.Scope) (e : Expr) : Le (sizeTy true Γ e) (sizeTy false Γ e) := by cases e <;> simp only [sizeTy] <;> le
macro_rules | `(tactic| solve_le) => `(tactic| exact sizeTy_le _ _)
theorem deriveV_le (t : DType) (ds : List Deriv) : Le (deriveV true t ds) (deriveV false t ds) := by
  unfold deriveV
  simp only [Bool.true_and, Bool.false_and, Bool.false_eq_true, if_false]
  split
  · exact .out
  · exact .rfl
macro_rules | `(tactic| solve_le) => `(tactic| exact deriveV_le _ _)

mutual
theorem dtor_le (Γ : Stat.Scope) : (d : Dtor) → Le (dtor true Γ d) (dtor false Γ d)
  | .leaf => by simp only [dtor]; exact .rfl
  | .ptr d => by simp only [dtor]; have := dtor_le Γ d; le
  | .arr d e => by simp only [dtor]; have := dtor_le Γ d; le
  | .fn d ps => by
    simp only [dtor]
    have := dtor_le Γ d
    have h : Le (paramsV ps (paramL true Γ ps)) (paramsV ps (paramL false Γ ps)) := params_le Γ ps
    le
theorem params_le (Γ : Stat.Scope) (ps : ParamL) : Le (params true Γ ps) (params false Γ ps) := by
  have := paramL_le Γ ps
  by_cases h : ps = .one (.mk (.one .void) none .leaf)
  · subst h; simp only [params, paramsV]; exact .rfl
  · rw [params, params, paramsV, paramsV]
    · le
    · exact h
    · exact h
theorem paramL_le (Γ : Stat.Scope) : (ps : ParamL) → Le (paramL true Γ ps) (paramL false Γ ps)
  | .one p => by simp only [paramL]; have := paramD_le Γ p; le
  | .cons p ps => by simp only [paramL]; have := paramD_le Γ p; have := paramL_le Γ ps; le
theorem paramD_le (Γ : Stat.Scope) : (p : ParamD) → Le (paramD true Γ p) (paramD false Γ p)
  | .mk ss n d => by simp only [paramD]; have := dtor_le Γ d; le
end
macro_rules | `(tactic| solve_le) => `(tactic| exact dtor_le _ _)

theorem tyName_le (Γ : Stat.Scope) (t : TyName) : Le (tyName true Γ t) (tyName false Γ t) := by obtain ⟨ss, d⟩ := t; simp only [tyName]; le
macro_rules | `(tactic| solve_le) => `(tactic| exact tyName_le _ _)

theorem promote_le (x : SExpr) : Le (Stat.promote true x) (Stat.promote false x) := by unfold Stat.promote; le
macro_rules | `(tactic| solve_le) => `(tactic| exact promote_le _)
theorem usual_le (l r : SExpr) : Le (usual true l r) (usual false l r) := by unfold usual; le
macro_rules | `(tactic| solve_le) => `(tactic| exact usual_le _ _)
theorem ordered_le (op : SBin) (l r : SExpr) : Le (ordered true op l r) (ordered false op l r) := by unfold ordered; le
macro_rules | `(tactic| solve_le) => `(tactic| exact ordered_le _ _ _)
theorem equality_le (op : SBin) (l r : SExpr) : Le (equality true op l r) (equality false op l r) := by unfold equality; le
macro_rules | `(tactic| solve_le) => `(tactic| exact equality_le _ _ _)
theorem sum_le (l r : SExpr) : Le (sum true l r) (sum false l r) := by unfold sum; le
macro_rules | `(tactic| solve_le) => `(tactic| exact sum_le _ _)
theorem diff_le (l r : SExpr) : Le (diff true l r) (diff false l r) := by unfold diff; le
macro_rules | `(tactic| solve_le) => `(tactic| exact diff_le _ _)
theorem shift_le (op : SBin) (l r : SExpr) : Le (shift true op l r) (shift false op l r) := by unfold shift; le
macro_rules | `(tactic| solve_le) => `(tactic| exact shift_le _ _ _)
theorem binary_le (op : BinOp) (l r : SExpr) : Le (binary true op l r) (binary false op l r) := by cases op <;> simp only [binary] <;> le
macro_rules | `(tactic| solve_le) => `(tactic| exact binary_le _ _ _)
theorem modifiable_le (x : SExpr) : Le (modifiable true x) (modifiable false x) := by unfold modifiable; le
macro_rules | `(tactic| solve_le) => `(tactic| exact modifiable_le _)
theorem assignConv_le (t : DType) (x : SExpr) : Le (assignConv true t x) (assignConv false t x) := by unfold assignConv; le
macro_rules | `(tactic| solve_le) => `(tactic| exact assignConv_le _ _)
theorem assign_le (l r : SExpr) : Le (assign true l r) (assign false l r) := by unfold assign; le
macro_rules | `(tactic| solve_le) => `(tactic| exact assign_le _ _)
theorem conditional_le (c l r : SExpr) : Le (conditional true c l r) (conditional false c l r) := by unfold conditional; le
macro_rules | `(tactic| solve_le) => `(tactic| exact conditional_le _ _ _)
theorem address_le (x : SExpr) : Le (address true x) (address false x) := by unfold address; le
macro_rules | `(tactic| solve_le) => `(tactic| exact address_le _)
theorem sign_le (op : SUn) (x : SExpr) : Le (sign true op x) (sign false op x) := by unfold sign; le
macro_rules | `(tactic| solve_le) => `(tactic| exact sign_le _ _)
theorem unary_le (op : UnOp) (x : SExpr) : Le (unary true op x) (unary false op x) := by cases op <;> simp only [unary] <;> le
macro_rules | `(tactic| solve_le) => `(tactic| exact unary_le _ _)
theorem sizeof_le (t : DType) : Le (sizeof true t) (sizeof false t) := by unfold sizeof; le
macro_rules | `(tactic| solve_le) => `(tactic| exact sizeof_le _)
theorem cast_le (t : DType) (x : SExpr) : Le (Stat.cast true t x) (Stat.cast false t x) := by unfold Stat.cast; le
macro_rules | `(tactic| solve_le) => `(tactic| exact cast_le _ _)
theorem incdec_le (op : SUn) (x : SExpr) : Le (incdec true op x) (incdec false op x) := by unfold incdec; le
macro_rules | `(tactic| solve_le) => `(tactic| exact incdec_le _ _)
theorem select_le (Γ : Stat.Scope) (p : SExpr) (t : DType) (m : Id) : Le (select true Γ p t m) (select false Γ p t m) := by unfold select; le
macro_rules | `(tactic| solve_le) => `(tactic| exact select_le _ _ _ _)
theorem member_le (Γ : Stat.Scope) (p : SExpr) (m : Id) : Le (member true Γ p m) (member false Γ p m) := by unfold member; le
macro_rules | `(tactic| solve_le) => `(tactic| exact member_le _ _ _)
theorem arrow_le (Γ : Stat.Scope) (p : SExpr) (m : Id) : Le (arrow true Γ p m) (arrow false Γ p m) := by unfold arrow; le
macro_rules | `(tactic| solve_le) => `(tactic| exact arrow_le _ _ _)

mutual
theorem tree_le (Γ : Stat.Scope) : (e : Expr) → (k : Int) → Le (tree true Γ k e) (tree false Γ k e)
  | .ident n, k => by simp only [tree]; le
  | .int l, k => by simp only [tree]; exact .rfl
  | .char l, k => by simp only [tree]; exact .rfl
  | .str b, k => by simp only [tree]; exact .rfl
  | .subsc l r, k => by simp only [tree]; have := tree_le Γ l k; have := tree_le Γ r (k + (strs l).length); le
  | .call f as, k => by
    simp only [tree]
    refine (tree_le Γ f k).bind fun x => ?_
    split
    · rename_i ps t _
      refine Le.ite (fun _ => ?_) fun _ => .rfl
      have := args_le Γ as (k + (strs f).length) (paramTys ps)
      le
    · exact .rfl
  | .member e m, k => by simp only [tree]; have := tree_le Γ e k; le
  | .arrow e m, k => by simp only [tree]; have := tree_le Γ e k; le
  | .postinc e, k => by simp only [tree]; have := tree_le Γ e k; le
  | .postdec e, k => by simp only [tree]; have := tree_le Γ e k; le
  | .preinc e, k => by simp only [tree]; have := tree_le Γ e k; le
  | .predec e, k => by simp only [tree]; have := tree_le Γ e k; le
  | .un op e, k => by simp only [tree]; have := tree_le Γ e k; le
  | .sizeofE e, k => by simp only [tree]; have := tree_le Γ e k; le
  | .sizeofT t, k => by simp only [tree]; le
  | .cast t e, k => by simp only [tree]; have := tree_le Γ e k; le
  | .bin op l r, k => by simp only [tree]; have := tree_le Γ l k; have := tree_le Γ r (k + (strs l).length); le
  | .cond c l r, k => by
    simp only [tree]
    have := tree_le Γ c k
    have := tree_le Γ l (k + (strs c).length)
    have := tree_le Γ r (k + (strs c).length + (strs l).length)
    le
  | .assign op l r, k => by
    simp only [tree]
    have := tree_le Γ l k
    have := tree_le Γ r (k + (strs l).length)
    have := tree_le Γ r k
    le
theorem args_le (Γ : Stat.Scope) : (as : Args) → (k : Int) → (ts : List DType) → Le (args true Γ k ts as) (args false Γ k ts as)
  | .nil, k, ts => by simp only [args]; exact .rfl
  | .cons e as, k, ts => by
    simp only [args]
    split
    · exact .rfl
    · rename_i t ts
      have h1 : Le (tree true Γ k e >>= fun x => assignConv true t (decay x)) (tree false Γ k e >>= fun x => assignConv false t (decay x)) :=
        (tree_le Γ e k).bind fun x => assignConv_le _ _
      have h2 := args_le Γ as (k + (strs e).length) ts
      rcases h1.and h2 with h | h
      · rw [h]; exact .out
      · rw [h]
        split
        · exact .rfl
        · le
        · exact .rfl
end

end StatL
end Umlcc
