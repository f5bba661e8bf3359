import Verif.Lemma.StaticSpec
import Verif.Lemma.Init
/-!
The resolver on initialisers, against the static semantics.
-/
namespace Umlcc
namespace StatL
open Syn Stat
open Res (RM RState RSym Rec full full_expr full_spec full_declor full_stmt full_init bind_some bind_none attempt_ok)

/-! ### numbers of string literals -/

mutual
/-- without string literals the number does not matter -/
theorem tree_next (Γ : Stat.Scope) (k j : Int) : (e : Expr) → strs e = [] → tree true Γ k e = tree true Γ j e
  | .ident n, _ => by simp only [tree]
  | .int l, _ => by simp only [tree]
  | .char l, _ => by simp only [tree]
  | .str b, h => by simp [strs] at h
  | .subsc l r, h => by
    simp only [strs, List.append_eq_nil_iff] at h
    simp only [tree, h.1, List.length_nil]
    rw [tree_next Γ k j l h.1, tree_next Γ _ (j + (0 : Nat)) r h.2]
  | .call f as, h => by
    simp only [strs, List.append_eq_nil_iff] at h
    simp only [tree, h.1, List.length_nil]
    rw [tree_next Γ k j f h.1]
    congr 1
    funext x
    split
    · rw [args_next Γ _ (j + (0 : Nat)) as _ h.2]
    · rfl
  | .member e m, h => by simp only [strs] at h; simp only [tree]; rw [tree_next Γ k j e h]
  | .arrow e m, h => by simp only [strs] at h; simp only [tree]; rw [tree_next Γ k j e h]
  | .postinc e, h => by simp only [strs] at h; simp only [tree]; rw [tree_next Γ k j e h]
  | .postdec e, h => by simp only [strs] at h; simp only [tree]; rw [tree_next Γ k j e h]
  | .preinc e, h => by simp only [strs] at h; simp only [tree]; rw [tree_next Γ k j e h]
  | .predec e, h => by simp only [strs] at h; simp only [tree]; rw [tree_next Γ k j e h]
  | .un op e, h => by simp only [strs] at h; simp only [tree]; rw [tree_next Γ k j e h]
  | .sizeofE e, h => by simp only [strs] at h; simp only [tree]; rw [tree_next Γ k j e h]
  | .sizeofT t, _ => by simp only [tree]
  | .cast t e, h => by simp only [strs] at h; simp only [tree]; rw [tree_next Γ k j e h]
  | .bin op l r, h => by
    simp only [strs, List.append_eq_nil_iff] at h
    simp only [tree, h.1, List.length_nil]
    rw [tree_next Γ k j l h.1, tree_next Γ _ (j + (0 : Nat)) r h.2]
  | .cond c l r, h => by
    simp only [strs, List.append_eq_nil_iff] at h
    simp only [tree, h.1, h.2.1, List.length_nil]
    rw [tree_next Γ k j c h.1, tree_next Γ _ (j + (0 : Nat)) l h.2.1, tree_next Γ _ (j + (0 : Nat) + (0 : Nat)) r h.2.2]
  | .assign op l r, h => by
    simp only [strs, List.append_eq_nil_iff] at h
    simp only [tree, h.1, List.length_nil]
    rw [tree_next Γ k j l h.1, tree_next Γ (k + (0 : Nat)) (j + (0 : Nat)) r h.2, tree_next Γ k j r h.2]
theorem args_next (Γ : Stat.Scope) (k j : Int) : (as : Args) → (ts : List DType) → strsA as = [] → args true Γ k ts as = args true Γ j ts as
  | .nil, ts, _ => by simp only [args]
  | .cons e as, ts, h => by
    simp only [strsA, List.append_eq_nil_iff] at h
    simp only [args, h.1, List.length_nil]
    split
    · rfl
    · rw [tree_next Γ k j e h.1, args_next Γ (k + (0 : Nat)) (j + (0 : Nat)) as _ h.2]
end

/-! ### integer expressions -/

/-- the table of names and tags -/
def envOf (s : RState) : Ini.Env := (fun n => Res.lookup n s.syms, fun n => Res.lookup n s.tags)

theorem scope_env {s s' : RState} (h1 : ∀ n, Res.lookup n s'.syms = (envOf s).1 n) (h2 : ∀ n, Res.lookup n s'.tags = (envOf s).2 n) : scope s' = scope s := by
  simp only [scope, Stat.Scope.mk.injEq]
  refine ⟨funext fun n => ?_, funext fun n => ?_⟩
  · rw [h1]; rfl
  · rw [h2]; rfl

/-- an integer without string literals -/
def IntExpr (Γ : Stat.Scope) (k : Int) (e : Expr) (x : SExpr) : Prop :=
  strs e = [] ∧ tree true Γ k e = .ok x ∧ (intOf x.dt).isSome = true ∧ enumTy x.dt = false

theorem IntExpr.means {s : RState} {e : Expr} {x : SExpr} (h : IntExpr (scope s) (s.sid + 1) e x) : Ini.Means (envOf s) e x := by
  obtain ⟨h1, h2, h3, h4⟩ := h
  refine ⟨by rw [isInteger_eq]; exact h3, fun s' hs ht => ?_⟩
  have hd := tree_does e s'
  rw [scope_env hs ht, tree_next _ _ (s.sid + 1) e h1, h2, h1] at hd
  have hd : full.expr e.ast s' = .ok (some x, s') := hd
  exact Res.runs_of_tends (f := fun R => R.expr e.ast) (Res.tends_full.expr _) hd

mutual
def AllI (P : Expr → Prop) : Init → Prop
  | .expr e => P e
  | .list is => AllIs P is
def AllIs (P : Expr → Prop) : Inits → Prop
  | .one i => AllI P i
  | .cons i is => AllI P i ∧ AllIs P is
end

mutual
def AllT (P : Expr → Prop) : Ini.Tree → Prop
  | .val t e => (t = .char ∨ t = .int) ∧ P e
  | .zero t => t = .char ∨ t = .int
  | .node ts => AllTs P ts
def AllTs (P : Expr → Prop) : Ini.Trees → Prop
  | .nil => True
  | .cons t ts => AllT P t ∧ AllTs P ts
end

mutual
def AllS : Ini.Shape → Prop
  | .leaf t => t = .char ∨ t = .int
  | .node ks => AllSs ks
def AllSs : Ini.Shapes → Prop
  | .nil => True
  | .cons k ks => AllS k ∧ AllSs ks
end

theorem listOf_all (P : Expr → Prop) : (is : Inits) → AllIs P is → ∀ i ∈ Ini.listOf is, AllI P i
  | .one i, h => by simp only [AllIs] at h; simpa [Ini.listOf] using h
  | .cons i is, h => by
    simp only [AllIs] at h
    intro j hj
    simp only [Ini.listOf, List.mem_cons] at hj
    rcases hj with rfl | hj
    · exact h.1
    · exact listOf_all P is h.2 j hj

theorem scalar_all {P : Expr → Prop} {t : DType} {i : Init} {tr : Ini.Tree} (ht : t = .char ∨ t = .int) (h : AllI P i) (e : Ini.scalar t i = some tr) : AllT P tr := by
  cases i with
  | expr x =>
    simp only [Ini.scalar] at e
    split at e
    · cases e; exact ⟨ht, h⟩
    · cases e
  | list is =>
    cases is with
    | one i =>
      cases i with
      | expr x =>
        simp only [Ini.scalar] at e
        simp only [AllI, AllIs] at h
        split at e
        · cases e; exact ⟨ht, h⟩
        · cases e
      | list => cases e
    | cons => cases e

mutual
theorem zeros_all (P : Expr → Prop) : (k : Ini.Shape) → AllS k → AllT P (Ini.zeros k)
  | .leaf t, h => by simpa only [Ini.zeros, AllT, AllS] using h
  | .node ks, h => by simp only [AllS] at h; simpa only [Ini.zeros, AllT] using zerosL_all P ks h
theorem zerosL_all (P : Expr → Prop) : (ks : Ini.Shapes) → AllSs ks → AllTs P (Ini.zerosL ks)
  | .nil, _ => by simp only [Ini.zerosL, AllTs]
  | .cons k ks, h => by simp only [AllSs] at h; exact ⟨zeros_all P k h.1, zerosL_all P ks h.2⟩
end

mutual
theorem take_all (P : Expr → Prop) : (k : Ini.Shape) → AllS k → ∀ l : List Init, (∀ i ∈ l, AllI P i) → ∀ t l', Ini.take k l = some (t, l') → AllT P t ∧ ∀ i ∈ l', AllI P i
  | .leaf t, hk, [], _, tr, l', e => by
    simp only [Ini.take] at e
    cases e
    exact ⟨by simpa only [AllT, AllS] using hk, by simp⟩
  | .leaf t, hk, i :: l, hl, tr, l', e => by
    simp only [Ini.take, Option.map_eq_some_iff] at e
    obtain ⟨a, ha, e⟩ := e
    cases e
    exact ⟨scalar_all (by simpa only [AllS] using hk) (hl i (by simp)) ha, fun j hj => hl j (by simp [hj])⟩
  | .node ks, hk, l, hl, tr, l', e => by
    simp only [Ini.take, Option.map_eq_some_iff] at e
    obtain ⟨a, ha, e⟩ := e
    cases e
    exact takeL_all P ks (by simpa only [AllS] using hk) l hl _ _ ha
theorem takeL_all (P : Expr → Prop) : (ks : Ini.Shapes) → AllSs ks → ∀ l : List Init, (∀ i ∈ l, AllI P i) → ∀ ts l', Ini.takeL ks l = some (ts, l') → AllTs P ts ∧ ∀ i ∈ l', AllI P i
  | .nil, _, l, hl, ts, l', e => by
    simp only [Ini.takeL] at e
    cases e
    exact ⟨trivial, hl⟩
  | .cons k ks, hk, [], hl, ts, l', e => by
    simp only [Ini.takeL] at e
    cases e
    exact ⟨zerosL_all P _ hk, by simp⟩
  | .cons k ks, hk, i :: l, hl, ts, l', e => by
    simp only [AllSs] at hk
    have gen : ∀ (h : (match Ini.take k (i :: l) with
        | some (t, l') => (Ini.takeL ks l').map fun p => (Ini.Trees.cons t p.1, p.2)
        | none => none) = some (ts, l')), AllTs P ts ∧ ∀ i ∈ l', AllI P i := by
      intro h
      cases ht : Ini.take k (i :: l) with
      | none => rw [ht] at h; cases h
      | some p =>
        obtain ⟨t, l1⟩ := p
        rw [ht] at h
        simp only [Option.map_eq_some_iff] at h
        obtain ⟨⟨ts', l2⟩, h2, h3⟩ := h
        cases h3
        obtain ⟨a1, a2⟩ := take_all P k hk.1 _ hl _ _ ht
        obtain ⟨b1, b2⟩ := takeL_all P ks hk.2 _ a2 _ _ h2
        exact ⟨⟨a1, b1⟩, b2⟩
    revert hk hl e gen
    match k, i with
    | .node ks', .list is =>
      intro hk hl e _
      simp only [Ini.takeL] at e
      cases ht : Ini.takeL ks' (Ini.listOf is) with
      | none => rw [ht] at e; cases e
      | some p =>
        obtain ⟨ts1, l1⟩ := p
        rw [ht] at e
        cases l1 with
        | cons => cases e
        | nil =>
          simp only [Option.map_eq_some_iff] at e
          obtain ⟨⟨ts', l2⟩, h2, h3⟩ := e
          cases h3
          have hi := hl (.list is) (by simp)
          obtain ⟨a1, _⟩ := takeL_all P ks' (by simpa only [AllS] using hk.1) _ (listOf_all P is (by simpa only [AllI] using hi)) _ _ ht
          obtain ⟨b1, b2⟩ := takeL_all P ks hk.2 _ (fun j hj => hl j (by simp [hj])) _ _ h2
          exact ⟨⟨by simpa only [AllT] using a1, b1⟩, b2⟩
    | .leaf t, i => intro _ _ e gen; simp only [Ini.takeL] at e; exact gen e
    | .node ks', .expr x => intro _ _ e gen; simp only [Ini.takeL] at e; exact gen e
end

theorem object_all (P : Expr → Prop) {ks : Ini.Shapes} (hk : AllSs ks) {is : Inits} (h : AllIs P is) {tr : Ini.Tree} (e : Ini.object (.node ks) (.list is) = some tr) : AllT P tr := by
  simp only [Ini.object] at e
  cases ht : Ini.takeL ks (Ini.listOf is) with
  | none => rw [ht] at e; cases e
  | some p =>
    obtain ⟨ts, l⟩ := p
    rw [ht] at e
    cases l with
    | cons => cases e
    | nil =>
      cases e
      simp only [AllT]
      exact (takeL_all P ks hk _ (listOf_all P is h) _ _ ht).1

/-! ### shapes -/

theorem rep_shape (tags : Str → Option DType) {k : Ini.Shape} {t : DType} (h : Ini.HasShape tags k t) : (n : Nat) → Ini.HasShapes tags (repShape k n) (List.replicate n t)
  | 0 => by simp only [repShape, List.replicate, Ini.HasShapes]
  | n + 1 => by simp only [repShape, List.replicate, Ini.HasShapes]; exact ⟨h, rep_shape tags h n⟩

theorem rep_all {k : Ini.Shape} (h : AllS k) : (n : Nat) → AllSs (repShape k n)
  | 0 => by simp only [repShape, AllSs]
  | n + 1 => by simp only [repShape, AllSs]; exact ⟨h, rep_all h n⟩

theorem v_bind_ok {v : V α} {f : α → V β} {b : β} (h : (v >>= f) = .ok b) : ∃ a, v = .ok a ∧ f a = .ok b := by
  cases v with
  | ok a => exact ⟨a, rfl, h⟩
  | _ => cases h

theorem shapes_of {s : RState} {n : Nat} (ih : ∀ t k, shapeOf (scope s) n t = .ok k → Ini.HasShape (fun n => Res.lookup n s.tags) k t ∧ AllS k) (ts : List DType) :
    ∀ ks, shapesOf (shapeOf (scope s) n) ts = .ok ks → Ini.HasShapes (fun n => Res.lookup n s.tags) ks ts ∧ AllSs ks := by
  induction ts with
  | nil => intro ks h; simp only [shapesOf] at h; cases h; simp only [Ini.HasShapes, AllSs, and_self]
  | cons t ts iht =>
    intro ks h
    simp only [shapesOf] at h
    obtain ⟨k, h1, h⟩ := v_bind_ok h
    obtain ⟨l, h2, h⟩ := v_bind_ok h
    cases h
    simp only [Ini.HasShapes, AllSs]
    exact ⟨⟨(ih t k h1).1, (iht l h2).1⟩, (ih t k h1).2, (iht l h2).2⟩

theorem shape_of (s : RState) (n : Nat) : ∀ t k, shapeOf (scope s) n t = .ok k → Ini.HasShape (fun n => Res.lookup n s.tags) k t ∧ AllS k := by
  induction n with
  | zero => intro t k h; simp only [shapeOf] at h; cases h
  | succ n ih =>
    intro t k h
    cases t with
    | char => simp only [shapeOf] at h; cases h; simp [Ini.HasShape, AllS]
    | int => simp only [shapeOf] at h; cases h; simp [Ini.HasShape, AllS]
    | arr t m =>
      simp only [shapeOf] at h
      obtain ⟨k, h1, h⟩ := v_bind_ok h
      cases h
      obtain ⟨a, b⟩ := ih t k h1
      simp only [Ini.HasShape, AllS]
      exact ⟨.inl ⟨t, m, rfl, rep_shape _ a m⟩, rep_all b m⟩
    | ustruct ms b a =>
      simp only [shapeOf, structShape] at h
      obtain ⟨l, h1, h⟩ := v_bind_ok h
      cases h
      obtain ⟨x, y⟩ := shapes_of ih _ _ h1
      simp only [Ini.HasShape, AllS]
      exact ⟨.inr (.inl ⟨ms, b, a, rfl, x⟩), y⟩
    | nstruct m b a =>
      simp only [shapeOf] at h
      split at h
      · rename_i ms b' a' ht
        simp only [structShape] at h
        obtain ⟨l, h1, h⟩ := v_bind_ok h
        cases h
        obtain ⟨x, y⟩ := shapes_of ih _ _ h1
        simp only [Ini.HasShape, AllS]
        refine ⟨.inr (.inr ⟨m, b, a, ms, b', a', rfl, ?_, x⟩), y⟩
        simp only [spec_lookup] at ht
        cases hl : Res.lookup m s.tags with
        | none => rw [hl] at ht; cases ht
        | some u =>
          rw [hl] at ht
          cases u <;> simp at ht
          obtain ⟨rfl, rfl, rfl⟩ := ht
          rfl
      · cases h
    | _ => simp only [shapeOf] at h; cases h

theorem aggregate_shape {Γ : Stat.Scope} {n : Nat} {t : DType} {k : Ini.Shape} (ht : t ≠ .char ∧ t ≠ .int) (h : shapeOf Γ n t = .ok k) : ∃ ks, k = .node ks := by
  cases n with
  | zero => simp only [shapeOf] at h; cases h
  | succ n =>
    cases t <;> simp only [shapeOf] at h
    all_goals first
      | (cases h; done)
      | (exfalso; simp at ht; done)
      | skip
    · obtain ⟨k, h1, h⟩ := v_bind_ok h; cases h; exact ⟨_, rfl⟩
    · split at h
      · simp only [structShape] at h; obtain ⟨k, h1, h⟩ := v_bind_ok h; cases h; exact ⟨_, rfl⟩
      · cases h
    · simp only [structShape] at h; obtain ⟨k, h1, h⟩ := v_bind_ok h; cases h; exact ⟨_, rfl⟩

theorem bind_not_bad {v : V α} {f : α → V β} (h1 : v ≠ .bad) (h2 : ∀ a, f a ≠ .bad) : (v >>= f) ≠ .bad := by
  cases v with
  | ok a => exact h2 a
  | bad => exact absurd rfl h1
  | out => intro h; cases h

theorem shape_not_bad (Γ : Stat.Scope) (n : Nat) : ∀ t, shapeOf Γ n t ≠ .bad := by
  induction n with
  | zero => intro t h; simp only [shapeOf] at h; cases h
  | succ n ih =>
    have hg : ∀ ts, shapesOf (shapeOf Γ n) ts ≠ .bad := by
      intro ts
      induction ts with
      | nil => simp only [shapesOf]; intro h; cases h
      | cons t ts iht =>
        simp only [shapesOf]
        exact bind_not_bad (ih t) fun _ => bind_not_bad iht fun _ h => by cases h
    intro t
    cases t <;> simp only [shapeOf, structShape]
    all_goals first
      | (intro h; cases h; done)
      | exact bind_not_bad (ih _) fun _ h => by cases h
      | exact bind_not_bad (hg _) fun _ h => by cases h
      | skip
    split
    · exact bind_not_bad (hg _) fun _ h => by cases h
    · intro h; cases h

/-! ### aggregates -/

theorem means_unique {s : RState} {e : Expr} {x y : SExpr} (h1 : Ini.Means (envOf s) e x) (h2 : Ini.Means (envOf s) e y) : x = y := by
  obtain ⟨N, a⟩ := h1.2 s (fun _ => rfl) fun _ => rfl
  obtain ⟨M, b⟩ := h2.2 s (fun _ => rfl) fun _ => rfl
  have := (a (max N M) (by omega)).symm.trans (b (max N M) (by omega))
  simpa using this

theorem conv_same {t : DType} {x : SExpr} (ht : t = .char ∨ t = .int) : Ini.conv t x = Stat.conv t x := by
  have hc : compat x.dt t = decide (t = x.dt) := by
    rcases ht with rfl | rfl <;> cases x.dt <;> rfl
  simp only [Ini.conv, Stat.conv, hc, decide_eq_true_eq]

mutual
theorem sets_tree (s : RState) : (tr : Ini.Tree) → AllT (fun e => ∃ x, IntExpr (scope s) (s.sid + 1) e x) tr → ∀ y, Ini.Sets (envOf s) tr y → initTree true (scope s) (s.sid + 1) tr = .ok y
  | .val t e, h, y, hy => by
    simp only [AllT] at h
    obtain ⟨ht, x, hx⟩ := h
    cases y with
    | expr y =>
      simp only [Ini.Sets] at hy
      obtain ⟨z, hz, rfl⟩ := hy
      obtain rfl := means_unique hz hx.means
      simp only [initTree, hx.2.1, v_ok]
      rw [conv_same ht]
    | _ => simp only [Ini.Sets] at hy
  | .zero t, h, y, hy => by
    simp only [AllT] at h
    cases y with
    | expr y =>
      simp only [Ini.Sets] at hy
      subst hy
      simp only [initTree]
      rw [conv_same h]
    | _ => simp only [Ini.Sets] at hy
  | .node ts, h, y, hy => by
    simp only [AllT] at h
    cases y with
    | list l =>
      simp only [Ini.Sets] at hy
      simp only [initTree]
      rw [sets_trees s ts h l hy]
      rfl
    | _ => simp only [Ini.Sets] at hy
theorem sets_trees (s : RState) : (ts : Ini.Trees) → AllTs (fun e => ∃ x, IntExpr (scope s) (s.sid + 1) e x) ts → ∀ y, Ini.SetsL (envOf s) ts y → initTrees true (scope s) (s.sid + 1) ts = .ok y
  | .nil, _, y, hy => by
    cases y with
    | nil => simp only [initTrees]
    | cons => simp only [Ini.SetsL] at hy
  | .cons t ts, h, y, hy => by
    simp only [AllTs] at h
    cases y with
    | nil => simp only [Ini.SetsL] at hy
    | cons i is =>
      simp only [Ini.SetsL] at hy
      simp only [initTrees]
      rw [sets_tree s t h.1 i hy.1, sets_trees s ts h.2 is hy.2]
      rfl
end

mutual
theorem ints_all (Γ : Stat.Scope) (k : Int) : (i : Init) → integers true Γ k i = true → AllI (fun e => ∃ x, IntExpr Γ k e x) i
  | .expr e, h => by
    simp only [integers, Bool.and_eq_true, List.isEmpty_iff] at h
    simp only [AllI]
    obtain ⟨h1, h2⟩ := h
    split at h2
    · rename_i x hx
      simp only [Bool.and_eq_true, Bool.not_eq_true'] at h2
      exact ⟨x, h1, hx, h2.1, h2.2⟩
    · simp at h2
  | .list is, h => by simp only [integers] at h; simp only [AllI]; exact intsL_all Γ k is h
theorem intsL_all (Γ : Stat.Scope) (k : Int) : (is : Inits) → integersL true Γ k is = true → AllIs (fun e => ∃ x, IntExpr Γ k e x) is
  | .one i, h => by simp only [integersL] at h; simp only [AllIs]; exact ints_all Γ k i h
  | .cons i is, h => by
    simp only [integersL, Bool.and_eq_true] at h
    simp only [AllIs]
    exact ⟨ints_all Γ k i h.1, intsL_all Γ k is h.2⟩
end

mutual
theorem all_plain {s : RState} : (i : Init) → AllI (fun e => ∃ x, IntExpr (scope s) (s.sid + 1) e x) i → Ini.PlainInit (envOf s) i
  | .expr e, h => by simp only [AllI] at h; obtain ⟨x, hx⟩ := h; simp only [Ini.PlainInit]; exact ⟨x, hx.means⟩
  | .list is, h => by simp only [AllI] at h; simp only [Ini.PlainInit]; exact all_plains is h
theorem all_plains {s : RState} : (is : Inits) → AllIs (fun e => ∃ x, IntExpr (scope s) (s.sid + 1) e x) is → Ini.PlainInits (envOf s) is
  | .one i, h => by simp only [AllIs] at h; simp only [Ini.PlainInits]; exact all_plain i h
  | .cons i is, h => by simp only [AllIs] at h; simp only [Ini.PlainInits]; exact ⟨all_plain i h.1, all_plains is h.2⟩
end

theorem abs_initOff (s : RState) (k : Int) : abs { s with initOff := k } = abs s := rfl

theorem listInit_acc (file : Bool) (t : DType) (ht : t ≠ .char ∧ t ≠ .int) (is : Inits) (s : RState) (h0 : s.initOff = 0) :
    Acc (full.init false t (Init.list is).ast) s (listInit true file t is (abs s)) := by
  simp only [listInit, abs_scope]
  have hn : (abs s).next = s.sid + 1 := rfl
  rw [hn]
  cases hs : shapeOf (scope s) 100 t with
  | out => trivial
  | bad =>
    exact absurd hs (shape_not_bad _ 100 t)
  | ok k =>
    obtain ⟨h1, h2⟩ := shape_of s 100 t k hs
    obtain ⟨ks, rfl⟩ := aggregate_shape ht hs
    simp only [vb_ok]
    cases hi : integersL true (scope s) (s.sid + 1) is with
    | false => trivial
    | true =>
      have ha := intsL_all _ _ is hi
      obtain ⟨r, k', e1, e2⟩ := Res.object_run (env := envOf s) _ t h1 (.list is) (by simp only [Ini.PlainInit]; exact all_plains is ha) s
        ⟨fun _ => rfl, fun _ => rfl⟩ (fun _ => rfl) h0
      simp only [if_true]
      cases ho : Ini.object (.node ks) (.list is) with
      | none =>
        rw [ho] at e2
        simp only at e2
        subst e2
        intro a s' e
        rw [e1] at e
        simp at e
      | some tr =>
        rw [ho] at e2
        obtain ⟨y, rfl, hy⟩ := e2
        simp only [AllS] at h2
        simp only
        rw [sets_tree s tr (object_all _ h2 ha ho) y hy]
        simp only [vb_ok]
        split
        · trivial
        · exact ⟨_, e1, rfl, rfl⟩

/-! ### all initialisers -/

theorem zeroPad_fit (b : List UInt8) (n : Nat) : Literal.zeroPad b n = fit b n := by
  simp only [Literal.zeroPad, fit, List.take_append, List.take_replicate]
  congr 2
  omega

theorem assignConv_run (t : DType) (x : SExpr) : Is (do
      Res.require (DType.isAssignable t x.dt)
      pure (if DType.equals t x.dt then x else .un .cast t x)) (assignConv true t x) := by
  have e : DType.equals t x.dt = DType.equals x.dt t := by rw [equals_eq, equals_eq, compat_comm]
  rw [e]
  exact assignConv_is t x

theorem scalar_acc (file : Bool) (t : DType) (ht : scalar t = true) (e : Expr) (a : Ast) (ha : Res.unbrace a = pure e.ast) (s : RState) :
    Acc (full.init false t a) s (scalarInit true file t e (abs s)) := by
  have hr : full.init false t a = (do
      Res.modify fun s => { s with initOff := s.initOff + 1 }
      let x ← full.expr e.ast
      let y ← (do
        Res.require (DType.isAssignable t (Res.decay x).dt)
        pure (if DType.equals t (Res.decay x).dt then Res.decay x else .un .cast t (Res.decay x)) : RM SExpr)
      pure (.expr y)) := by
    rw [full_init]
    simp only [Res.init, isScalar_eq, ht, if_true, Res.scalarInit, ha, Res.pure_bind, (Res.isExpr_ast e).1]
    simp only [bind_assoc, Res.pure_bind]
    rfl
  rw [hr]
  have hs : Sim (do
      let x ← full.expr e.ast
      let y ← (do
        Res.require (DType.isAssignable t (Res.decay x).dt)
        pure (if DType.equals t (Res.decay x).dt then Res.decay x else .un .cast t (Res.decay x)) : RM SExpr)
      pure (SInit.expr y)) (scalarInit true file t e) := by
    refine Sim.bind (Sim.expr e) fun x => ?_
    rw [decay_eq]
    refine Sim.bind (Sim.is (assignConv_run t _)) fun y => ?_
    split
    · exact Sim.out _
    · exact Sim.pure _
  have := hs { s with initOff := s.initOff + 1 }
  rw [abs_initOff] at this
  exact this

theorem strInit_sim (n : Nat) (b : List UInt8) : Sim (do
      Res.require (!(b.length > n + 1))
      pure (SInit.str (.arr .char n) (Literal.zeroPad b n))) (strInit n b) := by
  rw [zeroPad_fit]
  have e : (!(decide (b.length > n + 1))) = decide (b.length ≤ n + 1) := by rw [Bool.eq_iff_iff]; simp
  rw [e]
  exact Sim.bind (Sim.require _) fun _ => Sim.pure _

theorem unbrace_expr (e : Expr) : Res.unbrace e.ast = pure e.ast := by
  have h := (Res.isExpr_ast e).2
  unfold Res.unbrace
  rw [if_neg h]

theorem unbrace_many (i : Init) (is : Inits) : Res.unbrace (.node .initList (i.ast :: is.asts)) = Res.fail := by
  have h : 0 < is.asts.length := by cases is <;> simp [Inits.asts]
  unfold Res.unbrace
  rw [if_pos (Res.node_type _ _), if_pos (by simp only [Res.node_children, List.length_cons]; omega)]

theorem not_str (e : Expr) (h : ∀ b, e ≠ .str b) : e.ast.type ≠ .stringExpr := by
  cases e with
  | str b => exact absurd rfl (h b)
  | bin op l r => cases op <;> simp [Expr.ast, BinOp.node]
  | un op l => cases op <;> simp [Expr.ast, UnOp.node]
  | assign op l r => cases op <;> simp [Expr.ast, AsgOp.node]
  | _ => simp [Expr.ast]

theorem aggregate_expr (nested : Bool) (t : DType) (e : Expr) : Res.aggregateInit full nested t e.ast = Res.fail := by
  have h := (Res.isExpr_ast e).2
  unfold Res.aggregateInit
  rw [decide_eq_false h]
  rfl

theorem arr_expr (u : DType) (n : Nat) (e : Expr) (h : u = .char → ∀ b, e ≠ .str b) : full.init false (.arr u n) e.ast = Res.fail := by
  rw [full_init]
  by_cases hu : u = .char
  · subst hu
    have ho : Res.onlyChild e.ast = e.ast := by unfold Res.onlyChild; rw [if_neg (Res.isExpr_ast e).2]
    show Res.stringInit full false n e.ast = _
    unfold Res.stringInit
    rw [if_pos (by rw [ho]; exact not_str e (h rfl)), aggregate_expr]
  · have : Res.init full false (.arr u n) e.ast = Res.aggregateInit full false (.arr u n) e.ast := by
      cases u <;> first | rfl | exact absurd rfl hu
    rw [this, aggregate_expr]

theorem str_run (n : Nat) (b : List UInt8) (a : Ast) (ha : Res.onlyChild a = .strlit .stringExpr b) : full.init false (.arr .char n) a = (do
      Res.require (!(b.length > n + 1))
      pure (SInit.str (.arr .char n) (Literal.zeroPad b n))) := by
  rw [full_init]
  show Res.stringInit full false n a = _
  unfold Res.stringInit
  rw [ha]
  rfl

theorem init_acc (file : Bool) (t : DType) (i : Init) (s : RState) (h0 : s.initOff = 0) : Acc (full.init false t i.ast) s (Stat.init true file t i (abs s)) := by
  unfold Stat.init
  split
  · rw [str_run _ _ _ rfl]
    exact strInit_sim _ _ s
  · rw [str_run _ _ _ rfl]
    exact strInit_sim _ _ s
  · rename_i h1 h2
    split
    · rename_i hs
      split
      · rename_i e
        exact scalar_acc file t hs e _ (unbrace_expr e) s
      · rename_i e
        exact scalar_acc file t hs e _ rfl s
      · rename_i h3 h4
        have hr : ∀ a, full.init false t a = Res.scalarInit full t a := by
          intro a
          rw [full_init]
          simp only [Res.init, isScalar_eq, hs, if_true]
        rw [hr]
        simp only [Res.scalarInit]
        cases i with
        | expr e => exact absurd rfl (h3 e)
        | list is =>
          cases is with
          | cons i is =>
            have hu : Res.unbrace (Init.list (.cons i is)).ast = Res.fail := by
              have : (Init.list (.cons i is)).ast = .node .initList (i.ast :: is.asts) := by simp only [Init.ast, Inits.asts]
              rw [this, unbrace_many]
            rw [hu]
            exact fun a s' => never_fail _ a s'
          | one i =>
            cases i with
            | expr e => exact absurd rfl (h4 e)
            | list is =>
              have hu : Res.unbrace (Init.list (.one (.list is))).ast = pure (.node .initList is.asts) := by
                have : (Init.list (.one (.list is))).ast = .node .initList [.node .initList is.asts] := by simp only [Init.ast, Inits.asts]
                rw [this]; rfl
              rw [hu]
              exact fun a s' => never_fail _ a s'
    · split
      · exact listInit_acc file _ ⟨by simp, by simp⟩ _ s h0
      · exact listInit_acc file _ ⟨by simp, by simp⟩ _ s h0
      · exact listInit_acc file _ ⟨by simp, by simp⟩ _ s h0
      · simp only [Init.ast]
        rw [arr_expr _ _ _ (by rintro rfl b rfl; exact h1 _ b rfl rfl)]
        exact fun a s' => never_fail _ a s'
      · trivial

end StatL
end Umlcc
