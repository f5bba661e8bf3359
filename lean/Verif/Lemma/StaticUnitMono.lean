import Verif.Spec.StaticUnit
import Verif.Lemma.StaticMono
/-!
Where the restricted static semantics of units says something, it says what the full one says.
-/
namespace Umlcc
namespace StatL
open Syn Stat TSpec

structure LeM (m m' : M α) : Prop where
  le : ∀ σ, Le (m σ) (m' σ)

theorem LeM.rfl {m : M α} : LeM m m := ⟨fun _ => .rfl⟩
theorem LeM.out {m : M α} : LeM Stat.out m := ⟨fun _ => .out⟩
theorem LeM.bind {m m' : M α} {f g : α → M β} (h : LeM m m') (hf : ∀ a, LeM (f a) (g a)) : LeM (m >>= f) (m' >>= g) :=
  ⟨fun σ => (h.le σ).bind fun p => (hf p.1).le p.2⟩
theorem LeM.lift {v w : V α} (h : Le v w) : LeM (Stat.lift v) (Stat.lift w) := ⟨fun _ => h.bind fun _ => .rfl⟩
theorem LeM.ask {f g : Stat.Scope → V α} (h : ∀ Γ, Le (f Γ) (g Γ)) : LeM (Stat.ask f) (Stat.ask g) := ⟨fun σ => (h σ.scope).bind fun _ => .rfl⟩
theorem LeM.ite {c : Prop} [Decidable c] {a b a' b' : M α} (h1 : c → LeM a a') (h2 : ¬c → LeM b b') : LeM (if c then a else b) (if c then a' else b') := by
  split
  · exact h1 ‹_›
  · exact h2 ‹_›
theorem LeM.forEach {f g : β → M α} (h : ∀ b, LeM (f b) (g b)) : (l : List β) → LeM (Stat.forEach f l) (Stat.forEach g l)
  | [] => .rfl
  | b :: l => (h b).bind fun _ => (LeM.forEach h l).bind fun _ => .rfl
theorem LeM.inScope {m m' : M α} (h : LeM m m') : LeM (Stat.inScope m) (Stat.inScope m') := by
  unfold Stat.inScope
  exact LeM.rfl.bind fun _ => h.bind fun _ => .rfl
theorem LeM.inBlock {m m' : M Unit} (h : LeM m m') : LeM (Stat.inBlock m) (Stat.inBlock m') := by
  unfold Stat.inBlock
  exact LeM.rfl.bind fun _ => LeM.rfl.bind fun _ => h.bind fun _ => .rfl

syntax "solve_lem" : tactic
macro_rules | `(tactic| solve_lem) => `(tactic| fail)
macro "lem1" : tactic => `(tactic| first
  | with_reducible exact LeM.rfl
  | with_reducible exact LeM.out
  | with_reducible exact Le.rfl
  | with_reducible exact Le.out
  | with_reducible exact Le.differs
  | with_reducible assumption
  | with_reducible solve_lem
  | with_reducible solve_le
  | with_reducible apply LeM.bind
  | with_reducible apply LeM.lift
  | with_reducible apply LeM.ask
  | with_reducible apply LeM.ite
  | with_reducible apply LeM.forEach
  | with_reducible apply LeM.inScope
  | with_reducible apply LeM.inBlock
  | with_reducible apply Le.bind
  | with_reducible apply Le.and
  | with_reducible apply Le.ite
  | intro x
  | split
  | dsimp only)
macro "lem" : tactic => `(tactic| repeat' lem1)

theorem expr_lem (e : Expr) : LeM (Stat.expr true e) (Stat.expr false e) := ⟨fun σ => (tree_le σ.scope e σ.next).bind fun _ => .rfl⟩
macro_rules | `(tactic| solve_lem) => `(tactic| exact expr_lem _)
theorem dtor_le' (Γ : Stat.Scope) (d : Dtor) : Le (dtor true Γ d) (dtor false Γ d) := by le
theorem declareName_lem (dfn : Bool) (n : Id) (a : Stat.Name) : LeM (declareName true dfn n a) (declareName false dfn n a) := by
  constructor; intro σ; unfold declareName; lem
macro_rules | `(tactic| solve_lem) => `(tactic| exact declareName_lem _ _ _)
theorem memberTys_lem (m : MemberD) : LeM (memberTys true m) (memberTys false m) := by cases m; simp only [memberTys]; lem
macro_rules | `(tactic| solve_lem) => `(tactic| exact memberTys_lem _)
theorem structTys_lem (ms : MemberL) : LeM (structTys true ms) (structTys false ms) := by unfold structTys; lem
macro_rules | `(tactic| solve_lem) => `(tactic| exact structTys_lem _)
theorem enumors_eq : (l : List (Id × Option Expr)) → (next : Int) → enumors true next l = enumors false next l
  | [], _ => rfl
  | (n, e) :: l, next => by simp only [enumors, enumors_eq l]
theorem declTy_lem (l : List Spec) : LeM (declTy true l) (declTy false l) := by unfold declTy; simp only [enumors_eq]; lem
macro_rules | `(tactic| solve_lem) => `(tactic| exact declTy_lem _)
theorem scalarInit_lem (file : Bool) (t : DType) (e : Expr) : LeM (scalarInit true file t e) (scalarInit false file t e) := by unfold scalarInit; lem
macro_rules | `(tactic| solve_lem) => `(tactic| exact scalarInit_lem _ _ _)

mutual
theorem initTree_le (Γ : Stat.Scope) (k : Int) : (t : Ini.Tree) → Le (initTree true Γ k t) (initTree false Γ k t)
  | .val t e => by simp only [initTree]; have := tree_le Γ e k; lem
  | .zero t => by simp only [initTree]; exact .rfl
  | .node ts => by simp only [initTree]; have := initTrees_le Γ k ts; lem
theorem initTrees_le (Γ : Stat.Scope) (k : Int) : (t : Ini.Trees) → Le (initTrees true Γ k t) (initTrees false Γ k t)
  | .nil => by simp only [initTrees]; exact .rfl
  | .cons t ts => by simp only [initTrees]; have := initTree_le Γ k t; have := initTrees_le Γ k ts; lem
end

mutual
theorem integers_mono (Γ : Stat.Scope) (k : Int) : (i : Init) → integers true Γ k i = true → integers false Γ k i = true
  | .expr e, h => by
    simp only [integers] at h ⊢
    rcases tree_le Γ e k with h' | h'
    · rw [h'] at h; simp at h
    · rw [← h']; exact h
  | .list is, h => by simp only [integers] at h ⊢; exact integersL_mono Γ k is h
theorem integersL_mono (Γ : Stat.Scope) (k : Int) : (i : Inits) → integersL true Γ k i = true → integersL false Γ k i = true
  | .one i, h => by simp only [integersL] at h ⊢; exact integers_mono Γ k i h
  | .cons i is, h => by
    simp only [integersL, Bool.and_eq_true] at h ⊢
    exact ⟨integers_mono Γ k i h.1, integersL_mono Γ k is h.2⟩
end

theorem listInit_lem (file : Bool) (t : DType) (is : Inits) : LeM (listInit true file t is) (listInit false file t is) := by
  constructor
  intro σ
  unfold listInit
  refine Le.bind .rfl fun s => ?_
  cases h : integersL true σ.scope σ.next is with
  | false => exact .out
  | true =>
    rw [integersL_mono _ _ _ h]
    simp only [if_true]
    cases Ini.object s (.list is) with
    | none => exact .rfl
    | some tr => exact Le.bind (initTree_le _ _ tr) fun i => .rfl
macro_rules | `(tactic| solve_lem) => `(tactic| exact listInit_lem _ _ _)

theorem init_lem (file : Bool) (t : DType) (i : Init) : LeM (Stat.init true file t i) (Stat.init false file t i) := by unfold Stat.init; lem
macro_rules | `(tactic| solve_lem) => `(tactic| exact init_lem _ _ _)
theorem declarator_lem (t : DType) (d : Dtor) : LeM (declarator true t d) (declarator false t d) := by unfold declarator; lem
macro_rules | `(tactic| solve_lem) => `(tactic| exact declarator_lem _ _)
theorem typedefDtor_lem (t : DType) (d : IDtor) : LeM (typedefDtor true t d) (typedefDtor false t d) := by unfold typedefDtor; lem
macro_rules | `(tactic| solve_lem) => `(tactic| exact typedefDtor_lem _ _)
theorem objectDtor_lem (file : Bool) (t : DType) (d : IDtor) : LeM (objectDtor true file t d) (objectDtor false file t d) := by unfold objectDtor; lem
macro_rules | `(tactic| solve_lem) => `(tactic| exact objectDtor_lem _ _ _)
theorem decl_lem (d : Decl) : LeM (decl true d) (decl false d) := by unfold decl; lem
macro_rules | `(tactic| solve_lem) => `(tactic| exact decl_lem _)
theorem condition_lem (e : Expr) : LeM (condition true e) (condition false e) := by unfold condition; lem
macro_rules | `(tactic| solve_lem) => `(tactic| exact condition_lem _)
theorem optExpr_lem (e : Option Expr) : LeM (optExpr true e) (optExpr false e) := by unfold optExpr; lem
macro_rules | `(tactic| solve_lem) => `(tactic| exact optExpr_lem _)
theorem optCond_lem (e : Option Expr) : LeM (optCond true e) (optCond false e) := by unfold optCond; lem
macro_rules | `(tactic| solve_lem) => `(tactic| exact optCond_lem _)

mutual
theorem stmt_lem (ret : DType) : (s : Stmt) → (loop : Bool) → LeM (stmt true loop ret s) (stmt false loop ret s)
  | .case e s, lp => by simp only [stmt]; have := stmt_lem ret s lp; lem
  | .default s, lp => by simp only [stmt]; have := stmt_lem ret s lp; lem
  | .block is, lp => by simp only [stmt]; have := items_lem ret is lp; lem
  | .continue, lp => by simp only [stmt]; lem
  | .break, lp => by simp only [stmt]; lem
  | .ret, lp => by simp only [stmt]; lem
  | .retE e, lp => by simp only [stmt]; lem
  | .ifS c s, lp => by simp only [stmt]; have := stmt_lem ret s lp; lem
  | .ifElse c s t, lp => by simp only [stmt]; have := stmt_lem ret s lp; have := stmt_lem ret t lp; lem
  | .switch c s, lp => by simp only [stmt]; have := stmt_lem ret s lp; lem
  | .while c s, lp => by simp only [stmt]; have := stmt_lem ret s true; lem
  | .forD d c x s, lp => by simp only [stmt]; have := stmt_lem ret s true; lem
  | .forE i c x s, lp => by simp only [stmt]; have := stmt_lem ret s true; lem
  | .expr e, lp => by simp only [stmt]; lem
  | .null, lp => by simp only [stmt]; lem
theorem items_lem (ret : DType) : (is : Items) → (loop : Bool) → LeM (items true loop ret is) (items false loop ret is)
  | .nil, lp => by simp only [items]; lem
  | .decl d is, lp => by simp only [items]; have := items_lem ret is lp; lem
  | .stmt s is, lp => by simp only [items]; have := stmt_lem ret s lp; have := items_lem ret is lp; lem
end
macro_rules | `(tactic| solve_lem) => `(tactic| exact items_lem _ _ _)

theorem func_lem (ss : Specs) (n : Id) (d : Dtor) (is : Items) : LeM (func true ss n d is) (func false ss n d is) := by unfold func; lem
macro_rules | `(tactic| solve_lem) => `(tactic| exact func_lem _ _ _ _)
theorem ext_lem (x : Ext) : LeM (ext true x) (ext false x) := by cases x <;> simp only [ext] <;> lem
theorem exts_lem : (xs : List Ext) → LeM (exts true xs) (exts false xs)
  | [] => .rfl
  | x :: xs => by simp only [exts]; have := ext_lem x; have := exts_lem xs; lem

theorem unit_le (xs : List Ext) : Le (Stat.unit true xs) (Stat.unit false xs) := ((exts_lem xs).le start).bind fun _ => .rfl

end StatL
end Umlcc
