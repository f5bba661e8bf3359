import Verif.Lemma.Labels
import Verif.Spec.Init
/-!
C28: initialisers.
-/
namespace Umlcc
namespace Res
open Ini Syn

variable {env : Ini.Env} {tags : Str → Option DType}

/-- the state has these meanings -/
def Env2 (env : Ini.Env) (s : RState) : Prop := (∀ n, lookup n s.syms = env.1 n) ∧ ∀ n, lookup n s.tags = env.2 n

theorem types_eq : ∀ ms : Members, elems.types ms = memberTypes ms
  | .nil => rfl
  | .cons _ _ _ ms => by rw [elems.types, memberTypes, types_eq ms]

/-- the state knows the tags -/
def TagEnv (tags : Str → Option DType) (s : RState) : Prop := ∀ n, lookup n s.tags = tags n

theorem equals_int (t : DType) : DType.equals t .int = decide (t = .int) := by cases t <;> rfl

mutual
theorem zero_run (s : RState) (ht : TagEnv tags s) : ∀ (k : Shape) (t : DType), HasShape tags k t → ∃ i, full.zero t s = .ok (some i, s) ∧ Sets env (zeros k) i
  | .leaf u, t, h => by
    simp only [HasShape] at h
    obtain ⟨rfl, h⟩ := h
    refine ⟨zeroScalar t, ?_, ?_⟩
    · rw [full_zero]
      rcases h with rfl | rfl | ⟨u, rfl⟩ <;> rfl
    · rcases h with rfl | rfl | ⟨u, rfl⟩ <;> simp [zeros, zeroScalar, Sets, conv, SExpr.dt, DType.equals]
  | .node ks, t, h => by
    simp only [HasShape] at h
    rw [full_zero]
    rcases h with ⟨u, n, rfl, h⟩ | ⟨ms, b, a, rfl, h⟩ | ⟨n, b, a, ms, b', a', rfl, htag, h⟩
    · obtain ⟨is, h1, h2⟩ := zeroL_run s ht ks _ h
      refine ⟨.list (SInits.ofList is), ?_, by simpa [zeros, Sets] using h2⟩
      simp only [zero, elems, pure_bind]
      rw [bind_some h1]
      rfl
    · obtain ⟨is, h1, h2⟩ := zeroL_run s ht ks _ h
      refine ⟨.list (SInits.ofList is), ?_, by simpa [zeros, Sets] using h2⟩
      simp only [zero, complete, elems, pure_bind, types_eq]
      rw [bind_some h1]
      rfl
    · obtain ⟨is, h1, h2⟩ := zeroL_run s ht ks _ h
      refine ⟨.list (SInits.ofList is), ?_, by simpa [zeros, Sets] using h2⟩
      have hc : complete (.nstruct n b a) s = .ok (some (.ustruct ms b' a'), s) := by
        simp only [complete, get_bind, ht n, htag]
        rfl
      simp only [zero]
      rw [bind_some hc]
      simp only [elems, pure_bind, types_eq]
      rw [bind_some h1]
      rfl
theorem zeroL_run (s : RState) (ht : TagEnv tags s) : ∀ (ks : Shapes) (ts : List DType), HasShapes tags ks ts →
    ∃ is, collect full.zero ts s = .ok (some is, s) ∧ SetsL env (zerosL ks) (SInits.ofList is)
  | .nil, ts, h => by
    simp only [HasShapes] at h
    subst h
    exact ⟨[], rfl, by simp [zerosL, SInits.ofList, SetsL]⟩
  | .cons k ks, [], h => by simp [HasShapes] at h
  | .cons k ks, t :: ts, h => by
    simp only [HasShapes] at h
    obtain ⟨i, h1, h2⟩ := zero_run s ht k t h.1
    obtain ⟨is, h3, h4⟩ := zeroL_run s ht ks ts h.2
    refine ⟨i :: is, ?_, by simp [zerosL, SInits.ofList, SetsL, h2, h4]⟩
    rw [collect, bind_some (attempt_ok h1), bind_some (attempt_ok h3)]
    rfl
end

/-! ### scalars -/

theorem isExpr_ast (e : Expr) : isExprNode e.ast = true ∧ e.ast.type ≠ .initList := by
  cases e with
  | un op e => cases op <;> exact ⟨rfl, by simp [Expr.ast, UnOp.node]⟩
  | bin op l r => cases op <;> exact ⟨rfl, by simp [Expr.ast, BinOp.node]⟩
  | assign op l r => cases op <;> exact ⟨rfl, by simp [Expr.ast, AsgOp.node]⟩
  | _ => exact ⟨rfl, by simp [Expr.ast]⟩

theorem means_run {e : Expr} {x : SExpr} (h : Means env e x) {s : RState} (hs : Env2 env s) : full.expr e.ast s = .ok (some x, s) :=
  (runs_iff (tends_full.expr _)).1 (h.2 s hs.1 hs.2)

theorem notString {e : Expr} {x : SExpr} (h : Means env e x) {s : RState} (hs : Env2 env s) : e.ast.type ≠ .stringExpr := by
  cases e with
  | str b =>
    exfalso
    have h1 := means_run h hs
    rw [full_expr] at h1
    have h2 : expr full (Expr.str b).ast s = stringExpr (.strlit .stringExpr b) s := rfl
    rw [h2] at h1
    simp [stringExpr, Ast.strlit] at h1
    have h3 := h.1
    rw [← h1.1] at h3
    simp [SExpr.dt, DType.isInteger] at h3
  | un op e => cases op <;> simp [Expr.ast, UnOp.node]
  | bin op l r => cases op <;> simp [Expr.ast, BinOp.node]
  | assign op l r => cases op <;> simp [Expr.ast, AsgOp.node]
  | _ => simp [Expr.ast]

theorem means_arith {e : Expr} {x : SExpr} (h : Means env e x) {t : DType} (ht : t = .char ∨ t = .int ∨ ∃ u, t = .ptr u) :
    DType.isAssignable t x.dt = t.isArithmetic ∧ (DType.equals t x.dt = true ↔ t = x.dt) := by
  have h1 := h.1
  rcases ht with rfl | rfl | ⟨u, rfl⟩ <;> cases hx : x.dt <;> simp_all [DType.isInteger, DType.isAssignable, DType.isArithmetic, DType.equals]

/-- a scalar initialised by an expression -/
theorem scalar_expr {t : DType} (ht : t = .char ∨ t = .int ∨ ∃ u, t = .ptr u) {e : Expr} {x : SExpr} (h : Means env e x) {s : RState} (hs : Env2 env s) :
    (do let e ← full.expr e.ast
        let e := decay e
        require (DType.isAssignable t e.dt)
        pure (SInit.expr (if DType.equals t e.dt then e else .un .cast t e)) : RM SInit) s =
      .ok (if t.isArithmetic then some (.expr (conv t x)) else none, s) := by
  have h2 := means_arith h ht
  rw [bind_some (means_run h hs)]
  simp only [decay_integer h.1, h2.1]
  cases t.isArithmetic with
  | false => rfl
  | true =>
    simp only [if_true, conv]
    by_cases he : t = x.dt
    · have : DType.equals t x.dt = true := h2.2.2 he
      rw [if_pos this, if_pos he]
      rfl
    · have : ¬ DType.equals t x.dt = true := fun h => he (h2.2.1 h)
      simp [he, this, require]

theorem init_scalar {t : DType} (ht : t = .char ∨ t = .int ∨ ∃ u, t = .ptr u) (b : Bool) (a : Ast) (s : RState) : full.init b t a s = scalarInit full t a s := by
  rw [full_init]
  rcases ht with rfl | rfl | ⟨u, rfl⟩ <;> rfl

/-- an expression or braces around one: the tree that is used, if any -/
theorem scalar_run {t : DType} (ht : t = .char ∨ t = .int ∨ ∃ u, t = .ptr u) (b : Bool) (i : Init) (hp : PlainInit env i) (s : RState) (hs : Env2 env s) :
    ∃ r, full.init b t i.ast s = .ok (r, { s with initOff := s.initOff + 1 }) ∧
      match scalar t i with
      | some tr => ∃ y, r = some y ∧ Sets env tr y
      | none => r = none := by
  rw [init_scalar ht]
  have hs' : Env2 env { s with initOff := s.initOff + 1 } := hs
  cases i with
  | expr e =>
    simp only [PlainInit] at hp
    obtain ⟨x, hx⟩ := hp
    obtain ⟨h1, h2⟩ := isExpr_ast e
    refine ⟨if t.isArithmetic then some (.expr (conv t x)) else none, ?_, ?_⟩
    · have h3 := scalar_expr ht hx hs'
      simp only [scalarInit, modify_bind, Init.ast, unbrace, h2, if_false, pure_bind, h1, require_true]
      exact h3
    · cases ha : t.isArithmetic <;> simp only [scalar, ha] <;> simp
      simp only [Sets]
      exact ⟨x, hx, rfl⟩
  | list is =>
    cases is with
    | one j =>
      cases j with
      | expr e =>
        simp only [PlainInit, PlainInits] at hp
        obtain ⟨x, hx⟩ := hp
        obtain ⟨h1, h2⟩ := isExpr_ast e
        refine ⟨if t.isArithmetic then some (.expr (conv t x)) else none, ?_, ?_⟩
        · have h3 := scalar_expr ht hx hs'
          simp only [scalarInit, modify_bind, Init.ast, Inits.asts, unbrace, node_type, if_true, node_children, List.length_cons, List.length_nil, kid0, pure_bind]
          simp only [Nat.zero_add, Nat.lt_irrefl, gt_iff_lt, if_false, pure_bind, h1, require_true]
          exact h3
        · cases ha : t.isArithmetic <;> simp only [scalar, ha] <;> simp
          simp only [Sets]
          exact ⟨x, hx, rfl⟩
      | list js =>
        refine ⟨none, ?_, by simp [scalar]⟩
        simp only [scalarInit, modify_bind, Init.ast, Inits.asts, unbrace, node_type, if_true, node_children, List.length_cons, List.length_nil, kid0, pure_bind]
        rfl
    | cons j js =>
      refine ⟨none, ?_, by simp [scalar]⟩
      have : (Ast.node AstT.initList (Inits.cons j js).asts).children.length > 1 := by
        cases js <;> simp [Inits.asts]
      simp only [scalarInit, modify_bind, Init.ast, unbrace, node_type, if_true, this]
      rfl

/-! ### aggregates -/

theorem asts_listOf : ∀ is : Inits, is.asts = (listOf is).map Init.ast
  | .one i => rfl
  | .cons i is => by simp [Inits.asts, listOf, asts_listOf is]
theorem plain_listOf : ∀ is : Inits, PlainInits env is → ∀ i ∈ listOf is, PlainInit env i
  | .one i, h, j, hj => by simp [listOf] at hj; subst hj; simpa [PlainInits] using h
  | .cons i is, h, j, hj => by
    simp only [PlainInits] at h
    simp only [listOf, List.mem_cons] at hj
    rcases hj with rfl | hj
    · exact h.1
    · exact plain_listOf is h.2 j hj

/-- the outcome of initialising subobjects from position `k` of the list -/
def Outcome (cs : List Init) (s : RState) (o : Out (Option α × RState)) (spec : Option (β × List Init)) (P : β → α → Prop) : Prop :=
  ∃ r, ∃ k' : Nat, o = .ok (r, { s with initOff := k' }) ∧ k' ≤ cs.length ∧
    match spec with
    | some (tr, rest) => ∃ y, r = some y ∧ P tr y ∧ rest = cs.drop k'
    | none => r = none

/-- the outcome for an aggregate -/
def AggOut (env : Ini.Env) (cs : List Init) (nested : Bool) (r : Option SInit) (k' : Nat) : Option (Trees × List Init) → Prop
  | some (tr, rest) => if nested || rest.isEmpty then ∃ y, r = some y ∧ Sets env (.node tr) y ∧ rest = cs.drop k' else r = none
  | none => r = none

/-- aggregates in terms of their element lists -/
theorem aggregate_run {ts : List DType} {t : DType} (ht : elems t = pure ts) (cs : List Init) (nested : Bool) (s : RState) {spec : Option (Trees × List Init)}
    (h : Outcome cs s (elemInits full (.node .initList (cs.map Init.ast)) ts s) spec (fun tr y => SetsL env tr (SInits.ofList y))) :
    ∃ r, ∃ k' : Nat, aggregateInit full nested t (.node .initList (cs.map Init.ast)) s = .ok (r, { s with initOff := k' }) ∧ k' ≤ cs.length ∧
      AggOut env cs nested r k' spec := by
  obtain ⟨r, k', h1, h2, h3⟩ := h
  have e : aggregateInit full nested t (.node .initList (cs.map Init.ast)) s =
      (do require (nested || !decide ((k' : Int) < cs.length))
          let is ← ofOpt r
          pure (SInit.list (SInits.ofList is)) : RM SInit) { s with initOff := k' } := by
    simp only [aggregateInit, node_type, ht, pure_bind]
    simp only [decide_true, require_true, pure_bind]
    rw [bind_some (attempt_ok h1)]
    simp [get_bind]
  rw [e]
  cases spec with
  | none =>
    simp only at h3
    subst h3
    refine ⟨none, k', ?_, h2, rfl⟩
    cases (nested || !decide ((k' : Int) < cs.length)) <;> rfl
  | some p =>
    obtain ⟨tr, rest⟩ := p
    obtain ⟨y, rfl, h4, h5⟩ := h3
    have : (nested || !decide ((k' : Int) < cs.length)) = (nested || rest.isEmpty) := by
      subst h5
      congr 1
      simp only [Int.ofNat_lt]
      by_cases hlt : k' < cs.length
      · have : cs.drop k' ≠ [] := by simp; omega
        simp [hlt]
      · have : cs.drop k' = [] := by simp; omega
        simp [hlt]; omega
    rw [this]
    cases hn : (nested || rest.isEmpty) with
    | false => exact ⟨none, k', rfl, h2, by simp [AggOut, hn]⟩
    | true =>
      refine ⟨some (.list (SInits.ofList y)), k', rfl, h2, ?_⟩
      simp only [AggOut, hn, if_true]
      exact ⟨_, rfl, by simpa [Sets] using h4, h5⟩

/-- how a type with subobjects is initialised from a list -/
theorem init_node {ks : Shapes} {t : DType} (h : HasShape tags (.node ks) t) : ∃ ts, HasShapes tags ks ts ∧
    ∀ (cs : List Init) (nested : Bool) (s : RState), Env2 env s → TagEnv tags s → (∀ i ∈ cs, PlainInit env i) →
      ∃ t', elems t' = pure ts ∧ full.init nested t (.node .initList (cs.map Init.ast)) s = aggregateInit full nested t' (.node .initList (cs.map Init.ast)) s := by
  simp only [HasShape] at h
  rcases h with ⟨u, n, rfl, h⟩ | ⟨ms, b, a, rfl, h⟩ | ⟨n, b, a, ms, b', a', rfl, htag, h⟩
  · refine ⟨_, h, fun cs nested s hs _ hp => ⟨.arr u n, rfl, ?_⟩⟩
    rw [full_init]
    by_cases hu : u = .char
    · subst hu
      have e : init full nested (.arr .char n) (.node .initList (cs.map Init.ast)) s = stringInit full nested n (.node .initList (cs.map Init.ast)) s := rfl
      have hne : (onlyChild (.node .initList (cs.map Init.ast))).type ≠ .stringExpr := by
        simp only [onlyChild, node_type, if_true, node_children]
        match cs with
        | [] => simp
        | [.expr e] =>
          have := hp (.expr e) (by simp)
          simp only [PlainInit] at this
          obtain ⟨x, hx⟩ := this
          exact notString hx hs
        | [.list is] => simp [Init.ast]
        | _ :: _ :: _ => simp
      rw [e, stringInit, if_pos hne]
    · cases u <;> first | rfl | exact absurd rfl hu
  · refine ⟨_, h, fun cs nested s _ _ _ => ⟨.ustruct ms b a, by simp [elems, types_eq], ?_⟩⟩
    rw [full_init]
    rfl
  · refine ⟨_, h, fun cs nested s _ htg _ => ⟨.ustruct ms b' a', by simp [elems, types_eq], ?_⟩⟩
    have hc : complete (.nstruct n b a) s = .ok (some (.ustruct ms b' a'), s) := by
      simp only [complete, get_bind, htg n, htag]
      rfl
    rw [full_init]
    have e : init full nested (.nstruct n b a) (.node .initList (cs.map Init.ast)) s =
      (complete (.nstruct n b a) >>= fun t => aggregateInit full nested t (.node .initList (cs.map Init.ast))) s := rfl
    rw [e, bind_some hc]

theorem shape_aggregate {ks : Shapes} {t : DType} (h : HasShape tags (.node ks) t) : isAggregate t = true := by
  simp only [HasShape] at h
  rcases h with ⟨u, n, rfl, h⟩ | ⟨ms, b, a, rfl, h⟩ | ⟨n, b, a, ms, b', a', rfl, htag, h⟩ <;> rfl

theorem init_notList (e : Expr) : (Init.expr e).ast.type ≠ .initList := (isExpr_ast e).2

/-- the loop goes on after an element -/
theorem elemInits_step {cs : List Init} {k : Nat} {i : Init} {l : List Init} (hd : cs.drop k = i :: l) {t : DType} {ts : List DType} {s : RState} (hk : s.initOff = k)
    {r : Option SInit} {k1 : Nat} (h1 : elemInit full (.node .initList (cs.map Init.ast)) t k i.ast s = .ok (some r, { s with initOff := k1 }))
    {rs : Option (List SInit)} {k2 : Nat} (h2 : elemInits full (.node .initList (cs.map Init.ast)) ts { s with initOff := k1 } = .ok (rs, { s with initOff := k2 })) :
    elemInits full (.node .initList (cs.map Init.ast)) (t :: ts) s =
      .ok (match r, rs with | some i, some is => some (i :: is) | _, _ => none, { s with initOff := k2 }) := by
  have hlt : k < cs.length := by
    have := congrArg List.length hd
    simp at this
    omega
  have hget : cs[k]? = some i := by
    have : (cs.drop k)[0]? = some i := by rw [hd]; rfl
    simpa using this
  have hkid : kid (.node .initList (cs.map Init.ast)) k = pure i.ast := by
    simp [kid, hget]
  have c1 : (s.initOff < ((Ast.node .initList (cs.map Init.ast)).children.length : Int)) := by
    rw [hk]; simp; omega
  have c2 : ¬ ((k : Int) < 0) := by omega
  rw [elemInits]
  simp only [get_bind]
  rw [if_pos c1, hk, if_neg c2, Int.toNat_natCast, hkid, pure_bind, bind_some h1, bind_some (attempt_ok h2)]
  cases r <;> cases rs <;> rfl

theorem list_run : ∀ (ks : Shapes) (ts : List DType), HasShapes tags ks ts → ∀ (cs : List Init), (∀ i ∈ cs, PlainInit env i) → ∀ (s : RState) (k : Nat), Env2 env s → TagEnv tags s →
    s.initOff = k → k ≤ cs.length →
    Outcome cs s (elemInits full (.node .initList (cs.map Init.ast)) ts s) (takeL ks (cs.drop k)) (fun tr y => SetsL env tr (SInits.ofList y))
  | .nil, ts, h, cs, hp, s, k, hs, ht, hk, hle => by
    simp only [HasShapes] at h
    subst h
    refine ⟨some [], k, by rw [elemInits, ← hk]; rfl, hle, ?_⟩
    simp [takeL, SInits.ofList, SetsL]
  | .cons _ _, [], h, _, _, _, _, _, _, _, _ => by simp [HasShapes] at h
  | .cons k0 ks, t :: ts, h, cs, hp, s, k, hs, ht, hk, hle => by
    simp only [HasShapes] at h
    cases hd : cs.drop k with
    | nil =>
      have hlen : cs.length ≤ k := by
        have := congrArg List.length hd
        simp at this
        omega
      obtain ⟨is, h1, h2⟩ := zeroL_run (env := env) s ht (.cons k0 ks) (t :: ts) (by simpa [HasShapes] using h)
      refine ⟨some is, k, ?_, hle, ?_⟩
      · have c1 : ¬ (s.initOff < ((Ast.node .initList (cs.map Init.ast)).children.length : Int)) := by
          rw [hk]; simp; omega
        rw [elemInits]
        simp only [get_bind]
        rw [if_neg c1, h1, ← hk]
      · simp only [takeL]
        exact ⟨is, rfl, h2, hd.symm⟩
    | cons i l =>
      have hi : PlainInit env i := hp i (by
        have : i ∈ cs.drop k := by rw [hd]; simp
        exact List.mem_of_mem_drop this)
      have hl : cs.drop (k + 1) = l := by rw [← List.drop_drop, hd]; rfl
      have hlt : k < cs.length := by
        have := congrArg List.length hd
        simp at this
        omega
      have hs1 : ∀ o : Int, Env2 env { s with initOff := o } := fun _ => hs
      have ht1 : ∀ o : Int, TagEnv tags { s with initOff := o } := fun _ => ht
      -- the rest of the list
      have next : ∀ k1 : Nat, k1 ≤ cs.length → Outcome cs s (elemInits full (.node .initList (cs.map Init.ast)) ts { s with initOff := k1 }) (takeL ks (cs.drop k1))
          (fun tr y => SetsL env tr (SInits.ofList y)) := by
        intro k1 hk1
        obtain ⟨r, k', a1, a2, a3⟩ := list_run ks ts h.2 cs hp { s with initOff := k1 } k1 (hs1 _) (ht1 _) rfl hk1
        exact ⟨r, k', a1, a2, a3⟩
      -- an element that takes exactly one initialiser
      have one : ∀ (sp : Option Tree) (r : Option SInit),
          elemInit full (.node .initList (cs.map Init.ast)) t k i.ast s = .ok (some r, { s with initOff := ((k + 1 : Nat) : Int) }) →
          (match sp with | some tr => ∃ y, r = some y ∧ Sets env tr y | none => r = none) →
          takeL (.cons k0 ks) (i :: l) = (match sp with | some tr => (takeL ks l).map (fun p => (Trees.cons tr p.1, p.2)) | none => none) →
          Outcome cs s (elemInits full (.node .initList (cs.map Init.ast)) (t :: ts) s) (takeL (.cons k0 ks) (i :: l)) (fun tr y => SetsL env tr (SInits.ofList y)) := by
        intro sp r e1 e2 e3
        obtain ⟨rs, k2, b1, b2, b3⟩ := next (k + 1) (by omega)
        refine ⟨_, k2, elemInits_step hd hk e1 b1, b2, ?_⟩
        rw [e3]
        rw [hl] at b3
        cases sp with
        | none => simp only at e2; subst e2; rfl
        | some tr =>
          obtain ⟨y, rfl, e2⟩ := e2
          cases hn : takeL ks l with
          | none => rw [hn] at b3; simp only at b3; subst b3; rfl
          | some p =>
            obtain ⟨trs, rest⟩ := p
            rw [hn] at b3
            obtain ⟨ys, rfl, b4, b5⟩ := b3
            exact ⟨y :: ys, rfl, by simp [SInits.ofList, SetsL, e2, b4], b5⟩
      cases k0 with
      | leaf u =>
        have h1 := h.1
        simp only [HasShape] at h1
        obtain ⟨rfl, h1⟩ := h1
        obtain ⟨r, e1, e2⟩ := scalar_run h1 false i hi { s with initOff := 0 } (hs1 _)
        have hna : isAggregate t = false := by rcases h1 with rfl | rfl | ⟨u, rfl⟩ <;> rfl
        refine one (scalar t i) r ?_ e2 ?_
        · rw [elemInit, hna]
          simp only [Bool.false_and, Bool.false_eq_true, if_false, modify_bind]
          rw [bind_some (attempt_ok e1)]
          rfl
        · rw [takeL, take]
          · cases scalar t i <;> rfl
          · simp
      | node ks' =>
        have hag := shape_aggregate h.1
        obtain ⟨ts', hts, hrun⟩ := init_node (env := env) h.1
        cases i with
        | list is =>
          simp only [PlainInit] at hi
          have hpl := plain_listOf is hi
          obtain ⟨t', ht', e1⟩ := hrun (listOf is) false { s with initOff := 0 } (hs1 _) (ht1 _) hpl
          have o1 := list_run ks' ts' hts (listOf is) hpl { s with initOff := 0 } 0 (hs1 _) (ht1 _) rfl (by omega)
          obtain ⟨r, k', e2, e3, e4⟩ := aggregate_run ht' (listOf is) false _ o1
          rw [← e1] at e2
          rw [List.drop_zero] at e4
          refine one (match takeL ks' (listOf is) with | some (tr, []) => some (.node tr) | _ => none) r ?_ ?_ ?_
          · have hlist : (Init.list is).ast = .node .initList ((listOf is).map Init.ast) := by simp [Init.ast, asts_listOf]
            rw [elemInit, hlist]
            simp only [node_type, ne_eq, not_true_eq_false, decide_false, Bool.and_false, Bool.false_eq_true, if_false, modify_bind]
            rw [bind_some (attempt_ok e2)]
            rfl
          · cases hx : takeL ks' (listOf is) with
            | none => rw [hx] at e4; exact e4
            | some p =>
              obtain ⟨tr, rest⟩ := p
              rw [hx] at e4
              cases rest with
              | nil =>
                simp [AggOut] at e4
                obtain ⟨y, e4, e5, -⟩ := e4
                exact ⟨y, e4, e5⟩
              | cons _ _ => simpa [AggOut] using e4
          · rw [takeL]
            cases takeL ks' (listOf is) with
            | none => rfl
            | some p =>
              obtain ⟨tr, rest⟩ := p
              cases rest <;> rfl
        | expr e =>
          obtain ⟨t', ht', e1⟩ := hrun cs true s hs ht hp
          have o1 := list_run ks' ts' hts cs hp s k hs ht hk hle
          obtain ⟨r, k', e2, e3, e4⟩ := aggregate_run ht' cs true s o1
          rw [← e1] at e2
          rw [hd] at e4
          have e5 : elemInit full (.node .initList (cs.map Init.ast)) t k (Init.expr e).ast s = .ok (some r, { s with initOff := k' }) := by
            rw [elemInit, hag]
            simp only [ne_eq, init_notList e, not_false_eq_true, decide_true, Bool.and_true, if_true]
            exact attempt_ok e2
          obtain ⟨rs, k2, b1, b2, b3⟩ := next k' e3
          refine ⟨_, k2, elemInits_step hd hk e5 b1, b2, ?_⟩
          rw [takeL, take]
          · cases hx : takeL ks' (.expr e :: l) with
            | none =>
              rw [hx] at e4
              simp only [AggOut] at e4
              subst e4
              rfl
            | some p =>
              obtain ⟨tr, rest⟩ := p
              rw [hx] at e4
              simp only [AggOut, Bool.true_or, if_true] at e4
              obtain ⟨y, rfl, e6, e7⟩ := e4
              subst e7
              simp only [Option.map_some]
              cases hn : takeL ks (cs.drop k') with
              | none => rw [hn] at b3; simp only at b3; subst b3; rfl
              | some p =>
                obtain ⟨trs, rest⟩ := p
                rw [hn] at b3
                obtain ⟨ys, rfl, b4, b5⟩ := b3
                exact ⟨y :: ys, rfl, by simp [SInits.ofList, SetsL, e6, b4], b5⟩
          · simp

/-- the whole initialiser -/
theorem object_run (k : Shape) (t : DType) (h : HasShape tags k t) (i : Init) (hp : PlainInit env i) (s : RState) (hs : Env2 env s) (ht : TagEnv tags s) (h0 : s.initOff = 0) :
    ∃ r k', full.init false t i.ast s = .ok (r, { s with initOff := k' }) ∧
      match object k i with
      | some tr => ∃ y, r = some y ∧ Sets env tr y
      | none => r = none := by
  cases k with
  | leaf u =>
    simp only [HasShape] at h
    obtain ⟨rfl, h⟩ := h
    obtain ⟨r, h1, h2⟩ := scalar_run h false i hp s hs
    exact ⟨r, _, h1, by simpa only [object] using h2⟩
  | node ks =>
    cases i with
    | expr e =>
      refine ⟨none, s.initOff, ?_, rfl⟩
      have hne := init_notList e
      have hstr : (onlyChild (Init.expr e).ast).type ≠ .stringExpr := by
        simp only [PlainInit] at hp
        obtain ⟨x, hx⟩ := hp
        simp only [onlyChild, hne, if_false]
        exact notString hx hs
      have hag : ∀ (b : Bool) (t : DType), aggregateInit full b t (Init.expr e).ast s = .ok (none, s) := by
        intro b t
        rw [aggregateInit]
        exact bind_none (by simp [require, hne])
      rw [full_init]
      simp only [HasShape] at h
      rcases h with ⟨u, n, rfl, h⟩ | ⟨ms, b, a, rfl, h⟩ | ⟨n, b, a, ms, b', a', rfl, htag, h⟩
      · by_cases hu : u = .char
        · subst hu
          have e1 : init full false (.arr .char n) (Init.expr e).ast s = stringInit full false n (Init.expr e).ast s := rfl
          rw [e1, stringInit, if_pos hstr, hag]
        · have : init full false (.arr u n) (Init.expr e).ast s = aggregateInit full false (.arr u n) (Init.expr e).ast s := by
            cases u <;> first | rfl | exact absurd rfl hu
          rw [this, hag]
      · exact hag _ _
      · have hc : complete (.nstruct n b a) s = .ok (some (.ustruct ms b' a'), s) := by
          simp only [complete, get_bind, ht n, htag]
          rfl
        have e1 : init full false (.nstruct n b a) (Init.expr e).ast s =
          (complete (.nstruct n b a) >>= fun t => aggregateInit full false t (Init.expr e).ast) s := rfl
        rw [e1, bind_some hc, hag]
    | list is =>
      simp only [PlainInit] at hp
      have hpl := plain_listOf is hp
      obtain ⟨ts', hts, hrun⟩ := init_node (env := env) h
      obtain ⟨t', ht', e1⟩ := hrun (listOf is) false s hs ht hpl
      have o1 := list_run ks ts' hts (listOf is) hpl s 0 hs ht h0 (by omega)
      obtain ⟨r, k', e2, e3, e4⟩ := aggregate_run ht' (listOf is) false _ o1
      rw [← e1] at e2
      rw [List.drop_zero] at e4
      have hlist : (Init.list is).ast = .node .initList ((listOf is).map Init.ast) := by simp [Init.ast, asts_listOf]
      refine ⟨r, k', by rw [hlist]; exact e2, ?_⟩
      rw [object]
      cases hx : takeL ks (listOf is) with
      | none => rw [hx] at e4; exact e4
      | some p =>
        obtain ⟨tr, rest⟩ := p
        rw [hx] at e4
        cases rest with
        | nil =>
          simp [AggOut] at e4
          obtain ⟨y, e4, e5, -⟩ := e4
          exact ⟨y, e4, e5⟩
        | cons _ _ => simpa [AggOut] using e4

end Res
end Umlcc
