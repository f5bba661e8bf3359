import Verif.Lemma.StaticTy
import Verif.Lemma.Declarator
/-!
The resolver on declarators and type names, against the static semantics.
-/
namespace Umlcc
namespace StatL
open Syn Stat
open Res (RM RState RSym Rec Wrap full full_expr full_spec full_declor bind_some bind_none attempt_ok)

def W : Deriv → Wrap
  | .ptr => .ptr
  | .arr n => .arr n
  | .fn ps => .func ps

/-- the checks of a step of `resolve_declarator` -/
def addOk (ws : List Wrap) : Wrap → Bool
  | .ptr => true
  | .arr _ => !Res.lastFunc ws
  | .func _ => !Res.lastArr ws && !Res.lastFunc ws

def addAll (ws : List Wrap) : List Wrap → Option (List Wrap)
  | [] => some ws
  | w :: l => if addOk ws w then addAll (ws ++ [w]) l else none

theorem addAll_append (ws a b : List Wrap) : addAll ws (a ++ b) = (addAll ws a).bind fun ws => addAll ws b := by
  induction a generalizing ws with
  | nil => rfl
  | cons x a ih => simp only [List.cons_append, addAll]; split <;> simp [ih]

/-- neighbours that may stand next to each other, the one nearer to the specifiers first -/
def pairOk : Deriv → Deriv → Bool
  | .fn _, .arr _ | .fn _, .fn _ | .arr _, .fn _ => false
  | _, _ => true

def chainOk : List Deriv → Bool
  | [] => true
  | [_] => true
  | d :: d' :: ds => pairOk d d' && chainOk (d' :: ds)

theorem rev_cons (d : Deriv) (ds : List Deriv) : ((d :: ds).map W).reverse = (ds.map W).reverse ++ [W d] := by simp

theorem addOk_rev (d d' : Deriv) (ds : List Deriv) : addOk (((d' :: ds).map W).reverse) (W d) = pairOk d d' := by
  rw [rev_cons]
  cases d <;> cases d' <;> simp [addOk, W, pairOk, Res.lastFunc, Res.lastArr]

theorem addAll_rev (ds : List Deriv) : addAll [] ((ds.map W).reverse) = if chainOk ds then some ((ds.map W).reverse) else none := by
  induction ds with
  | nil => rfl
  | cons d ds ih =>
    rw [rev_cons, addAll_append, ih]
    cases ds with
    | nil => cases d <;> rfl
    | cons d' ds =>
      have e : chainOk (d :: d' :: ds) = (pairOk d d' && chainOk (d' :: ds)) := rfl
      rw [e]
      generalize chainOk (d' :: ds) = c
      cases c with
      | true => simp only [Bool.and_true, if_true, Option.bind_some, addAll, addOk_rev]
      | false => simp

/-- the check made at the name: the type and the derivation next to it -/
def leafOk (t : DType) : List Deriv → Bool
  | .arr _ :: _ => !incomplete t
  | .fn _ :: _ => !(incomplete t && !voidTy t)
  | _ => true

theorem connect_append (a b : List Wrap) (t : DType) : Res.connect (a ++ b) t = Res.connect a (Res.connect b t) := by
  induction a with
  | nil => rfl
  | cons x a ih => cases x <;> simp [Res.connect, ih]

theorem derive_eq (t : DType) (ds : List Deriv) (hb : blind t ds = false) :
    derive t ds = if leafOk t ds && chainOk ds then some (Res.connect ((ds.map W).reverse) t) else none := by
  induction ds generalizing t with
  | nil => rfl
  | cons d ds ih =>
    rw [rev_cons, connect_append]
    cases d with
    | ptr =>
      have h0 : blind (.ptr t) ds = false := by
        cases ds with
        | nil => rfl
        | cons d ds => cases d <;> rfl
      simp only [derive, ih _ h0, leafOk, Bool.true_and, W, Res.connect]
      cases ds with
      | nil => rfl
      | cons d ds => cases d <;> simp [leafOk, chainOk, pairOk, incomplete]
    | arr n =>
      simp only [blind] at hb
      simp only [derive, hb, Bool.false_or, leafOk, W, Res.connect]
      cases hi : incomplete t with
      | true => simp
      | false =>
        cases ds with
        | nil => rfl
        | cons d ds =>
          cases d with
          | fn ps => simp [chainOk, pairOk, derive, arrTy, funcTy]
          | _ =>
            rw [ih _ rfl]
            simp [leafOk, chainOk, pairOk, incomplete]
    | fn ps =>
      simp only [blind, Bool.or_eq_false_iff] at hb
      simp only [derive, hb.1, hb.2, Bool.false_or, leafOk, W, Res.connect]
      cases hi : (incomplete t && !voidTy t) with
      | true => simp
      | false =>
        cases ds with
        | nil => rfl
        | cons d ds =>
          cases d with
          | fn ps => simp [chainOk, pairOk, derive, arrTy, funcTy]
          | arr n => simp [chainOk, pairOk, derive, arrTy, funcTy]
          | ptr =>
            rw [ih _ rfl]
            simp [leafOk, chainOk, pairOk]

theorem last_rev (d : Deriv) (ds : List Deriv) : (((d :: ds).map W).reverse).getLast? = some (W d) := by simp

/-- the leaf of a declarator -/
theorem leaf_run (sp : DType) (hs : Res.isTdef sp = false) (ds : List Deriv) (nm : Option Id) (s : RState) :
    full.declor sp ((ds.map W).reverse) (Cdecl.leafOf nm) s = .ok (if leafOk sp ds then some ((ds.map W).reverse, nm) else none, s) := by
  have hd : Res.definedType sp = sp := by cases sp <;> first | rfl | simp [Res.isTdef] at hs
  have h1 : Res.lastArr ((ds.map W).reverse) = match ds with | .arr _ :: _ => true | _ => false := by
    cases ds with
    | nil => rfl
    | cons d ds => simp only [Res.lastArr, last_rev]; cases d <;> rfl
  have h2 : Res.lastFunc ((ds.map W).reverse) = match ds with | .fn _ :: _ => true | _ => false := by
    cases ds with
    | nil => rfl
    | cons d ds => simp only [Res.lastFunc, last_rev]; cases d <;> rfl
  have hl : leafOk sp ds = (!(Res.lastArr ((ds.map W).reverse) && incomplete sp) && !(Res.lastFunc ((ds.map W).reverse) && incomplete sp && !voidTy sp)) := by
    rw [h1, h2]
    cases ds with
    | nil => rfl
    | cons d ds => cases d <;> simp [leafOk]
  rw [full_declor, hl]
  cases nm with
  | none =>
    simp only [Cdecl.leafOf, Res.declor, Res.node_type, hd, isIncomplete_eq, isVoid_eq]
    cases (Res.lastArr ((ds.map W).reverse) && incomplete sp) <;> cases (Res.lastFunc ((ds.map W).reverse) && incomplete sp && !voidTy sp) <;> rfl
  | some n =>
    simp only [Cdecl.leafOf, Res.declor, Res.name_type, hd, isIncomplete_eq, isVoid_eq]
    cases (Res.lastArr ((ds.map W).reverse) && incomplete sp) <;> cases (Res.lastFunc ((ds.map W).reverse) && incomplete sp && !voidTy sp) <;> rfl

/-! ### array sizes -/

theorem signed_size (l : ILit) (k : Nat → RM β) (s : RState) (t : DType) :
    match sizeLit true l with
    | .ok n => (do
        let v ← Res.signedConst (.ilit t l)
        Res.require (v > 0)
        if Res.toInt32 v < 0 then Res.ub else k (Res.toInt32 v).toNat) s = k n s
    | .bad => (do
        let v ← Res.signedConst (.ilit t l)
        Res.require (v > 0)
        if Res.toInt32 v < 0 then Res.ub else k (Res.toInt32 v).toNat) s = .ok (none, s)
    | .out => True := by
  simp only [sizeLit, differs, Res.signedConst]
  cases l.type.isUnsigned with
  | true => simp
  | false =>
    simp only [Bool.false_eq_true, if_false]
    by_cases h0 : l.value > 0
    · by_cases h1 : l.value < 2147483648
      · have e : Res.toInt32 l.value = l.value := by unfold Res.toInt32; omega
        simp only [h0, h1, if_true, Res.pure_bind, decide_true, Res.require_true, e]
        rw [if_neg (by omega)]
      · simp [h0, h1]
    · simp [h0]

theorem size_run (e : Expr) (s : RState) (k : Nat → RM β) :
    match sizeTy true (scope s) e with
    | .ok n => (do
        let x ← full.expr e.ast
        let v ← Res.signedConst x
        Res.require (v > 0)
        if Res.toInt32 v < 0 then Res.ub else k (Res.toInt32 v).toNat) s = k n s
    | .bad => (do
        let x ← full.expr e.ast
        let v ← Res.signedConst x
        Res.require (v > 0)
        if Res.toInt32 v < 0 then Res.ub else k (Res.toInt32 v).toNat) s = .ok (none, s)
    | .out => True := by
  cases e with
  | int l =>
    have : full.expr (Expr.int l).ast = pure (.ilit (Res.litType l.type) l) := by rw [full_expr]; rfl
    rw [this]
    exact signed_size l k s _
  | char l =>
    have : full.expr (Expr.char l).ast = pure (.ilit .int l) := by rw [full_expr]; rfl
    rw [this]
    exact signed_size l k s _
  | ident n =>
    have hx : full.expr (Expr.ident n).ast s = (match Res.lookup n s.syms with
        | none => Res.fail
        | some (.int l) => pure (.ilit .int l)
        | some (.obj t) => pure (.ident t n) : RM SExpr) s := by rw [full_expr]; rfl
    simp only [sizeTy, scope]
    cases h : Res.lookup n s.syms with
    | none =>
      rw [h] at hx
      simp only
      rw [bind_none hx]
    | some y =>
      rw [h] at hx
      cases y with
      | int l =>
        simp only
        rw [bind_some hx]
        exact signed_size l k s _
      | obj t =>
        cases t <;> simp only <;> (rw [bind_some hx]; rfl)
  | _ => trivial

/-! ### specifiers of declarations -/

theorem not_stg (s : Spec) : s.ast.type ≠ .stgTypedef := by cases s <;> simp [Spec.ast]

theorem filter_specs (l : List Spec) : (l.map Spec.ast).filter (fun c => c.type ≠ .stgTypedef) = l.map Spec.ast := by
  rw [List.filter_eq_self]
  intro c hc
  obtain ⟨x, _, rfl⟩ := List.mem_map.1 hc
  simpa using not_stg x

theorem any_specs (l : List Spec) : (l.map Spec.ast).any (fun c => c.type = .stgTypedef) = false := by
  rw [List.any_eq_false]
  intro c hc
  obtain ⟨x, _, rfl⟩ := List.mem_map.1 hc
  simpa using not_stg x

theorem refresh_td (Γ : Stat.Scope) (t : DType) (h : Res.isTdef t = false) : Res.isTdef (refresh Γ t) = false := by
  cases t <;> simp only [refresh] <;> first | exact h | rfl | (split <;> rfl)

theorem known_td {Γ : Stat.Scope} {t u : DType} (h : Res.isTdef t = false) (hk : known true Γ t = .ok u) : Res.isTdef u = false := by
  simp only [known, differs] at hk
  split at hk
  · injection hk with hk; rw [← hk]; exact h
  · cases hk

theorem keywords_td {l : List Kind} {t : DType} (h : keywords l = some t) : Res.isTdef t = false := by
  simp only [keywords, Option.map_eq_some_iff] at h
  obtain ⟨p, hp, rfl⟩ := h
  have hm := List.mem_of_find?_eq_some hp
  have : ∀ p ∈ spellings, Res.isTdef p.2 = false := by decide
  exact this _ hm

theorem specTy_td {Γ : Stat.Scope} {x : Spec} {t : DType} (h : specTy true Γ x = .ok t) : Res.isTdef t = false := by
  cases x <;> simp only [specTy, differs] at h
  case tdname n =>
    split at h
    · rename_i u _
      cases u <;> simp only [typedefTy, differs] at h
      case nstruct =>
        split at h
        · split at h
          · cases h
          · injection h with h; rw [← h]; exact refresh_td _ _ rfl
        · exact known_td rfl h
      case ustruct => split at h <;> first | (cases h; done) | (injection h with h; rw [← h]; rfl)
      all_goals first | (cases h; done) | exact known_td rfl h
    · cases h
  all_goals first
    | (injection h with h; rw [← h]; rfl)
    | (split at h <;> first | (injection h with h; rw [← h]; rfl) | (cases h; done))
    | (cases h; done)

theorem specsTy_td {Γ : Stat.Scope} {l : List Spec} {t : DType} (h : specsTy true Γ l = .ok t) : Res.isTdef t = false := by
  unfold specsTy at h
  split at h
  · exact specTy_td h
  · split at h
    · injection h with h; rw [← h]; exact keywords_td ‹_›
    · cases h

theorem declSpecs_does (ss : Specs) (s : RState) : Does (Res.declSpecs full (.node .declSpecs ss.asts)) s (specsTy true (scope s) (specList ss)) [] := by
  have h := spec_does .declSpecs ss s
  have e : Res.declSpecs full (.node .declSpecs ss.asts) = (full.spec (.node .declSpecs ss.asts) >>= pure) := by
    simp only [Res.declSpecs, Res.node_children, Res.node_type, specs_asts, filter_specs, any_specs]
    rfl
  rw [e]
  cases hv : specsTy true (scope s) (specList ss) with
  | out => trivial
  | bad => rw [hv] at h; exact Does.fail (bind_none h.bad_nil)
  | ok t => rw [hv] at h; exact bind_some (m := full.spec _) h

/-! ### declarators -/

/-- the root of a declarator that is not just a name -/
theorem root_type : (d : Dtor) → (y : Ast) → y.type ≠ .absDeclor → (d.ast y).type ≠ .absDeclor
  | .leaf, y, h => h
  | .ptr d, y, _ => root_type d _ (by simp)
  | .arr d e, y, _ => root_type d _ (by simp)
  | .fn d ps, y, _ => root_type d _ (by simp)

def Walks (s : RState) (d : Dtor) : Prop :=
  match dtor true (scope s) d with
  | .ok ds => ∀ sp ws y, full.declor sp ws (d.ast y) s = match addAll ws ((ds.map W).reverse) with
    | some ws' => full.declor sp ws' y s
    | none => .ok (none, s)
  | .bad => ∀ sp ws y, full.declor sp ws (d.ast y) s = .ok (none, s)
  | .out => True

theorem distinct_eq (l : List Id) : Res.distinct l = decide l.Nodup := by
  rw [Bool.eq_iff_iff, Cdecl.distinct_nodup]; simp

theorem names_eq (l : List (Option Id × DType)) : l.filterMap (·.1) = paramNames l := by
  induction l with
  | nil => rfl
  | cons p l ih =>
    obtain ⟨n, t⟩ := p
    cases n <;> simp [paramNames, ih]

theorem paramsOf_eq (l : List (Option Id × DType)) : Res.Params.ofList l = paramsOf l := by
  induction l with
  | nil => rfl
  | cons p l ih => obtain ⟨n, t⟩ := p; simp [Res.Params.ofList, paramsOf, ih]

theorem adjust_eq (t : DType) : Res.adjustParam t = adjust t := by cases t <;> rfl

theorem param_ast (ss : Specs) (n : Option Id) (d : Dtor) :
    (ParamD.mk ss n d).ast = .node .paramDecl [.node .declSpecs ss.asts, d.ast (Cdecl.leafOf n)] := by
  cases n <;> simp [ParamD.ast, Cdecl.leafOf]

/-- a declarator after specifiers -/
theorem declor_does (t : DType) (d : Dtor) (nm : Option Id) (s : RState) (ht : Res.isTdef t = false) (hw : Walks s d) :
    Does (do let (ws, n) ← full.declor t [] (d.ast (Cdecl.leafOf nm)); pure (Res.connect ws t, n)) s
      (do let ds ← dtor true (scope s) d; let t ← deriveV true t ds; .ok (t, nm)) [] := by
  unfold Walks at hw
  cases hd : dtor true (scope s) d with
  | out => trivial
  | bad => rw [hd] at hw; exact Does.fail (bind_none (hw _ _ _))
  | ok ds =>
    rw [hd] at hw
    have hw := hw t [] (Cdecl.leafOf nm)
    rw [addAll_rev] at hw
    simp only [v_ok, deriveV, Bool.true_and]
    cases hb : blind t ds with
    | true => trivial
    | false =>
      rw [derive_eq t ds hb]
      simp only [Bool.false_eq_true, if_false]
      cases hc : chainOk ds with
      | false =>
        rw [hc] at hw
        simp only [Bool.and_false]
        exact Does.fail (bind_none hw)
      | true =>
        rw [hc] at hw
        simp only [if_true] at hw
        rw [leaf_run t ht] at hw
        cases hl : leafOk t ds with
        | false => rw [hl] at hw; exact Does.fail (bind_none hw)
        | true => rw [hl] at hw; exact (bind_some (m := full.declor _ _ _) hw).trans rfl

theorem and_ok {v : V α} {w : V β} {p : α × β} (h : V.and v w = .ok p) : v = .ok p.1 ∧ w = .ok p.2 := by
  cases v <;> cases w <;> simp only [V.and] at h <;> first | (cases h; done) | (injection h with h; subst h; exact ⟨rfl, rfl⟩)
theorem and_bad {v : V α} {w : V β} (h : V.and v w = .bad) : (v = .bad ∧ (w = .bad ∨ ∃ b, w = .ok b)) ∨ ((∃ a, v = .ok a) ∧ w = .bad) := by
  cases v <;> cases w <;> simp only [V.and] at h <;> first | (cases h; done) | simp

theorem paramDecl_does (ss : Specs) (n : Option Id) (d : Dtor) (s : RState) (hw : Walks s d) :
    Does (Res.paramDecl full (ParamD.mk ss n d).ast) s (paramD true (scope s) (.mk ss n d)) [] := by
  rw [param_ast]
  simp only [Res.paramDecl, Res.kid0, Res.kid1, Res.pure_bind, paramD]
  have hs := declSpecs_does ss s
  cases ha : V.and (specsTy true (scope s) (specList ss)) (dtor true (scope s) d) with
  | out => trivial
  | bad =>
    rcases and_bad ha with ⟨h1, -⟩ | ⟨⟨t, h1⟩, h2⟩
    · rw [h1] at hs
      exact Does.fail (bind_none hs.bad_nil)
    · rw [h1] at hs
      refine Does.fail ((bind_some (m := Res.declSpecs _ _) hs).trans ?_)
      rw [specsTy_td h1]
      unfold Walks at hw
      rw [h2] at hw
      simp only [Bool.not_false, Res.require_true, Res.pure_bind, push_nil]
      exact bind_none (hw _ _ _)
  | ok p =>
    obtain ⟨h1, h2⟩ := and_ok ha
    obtain ⟨t, ds⟩ := p
    simp only at h1 h2
    rw [h1] at hs
    have hd := declor_does t d n s (specsTy_td h1) hw
    rw [h2] at hd
    simp only [v_ok] at hd ⊢
    have hs : Res.declSpecs full (.node .declSpecs ss.asts) s = .ok (some t, s) := hs
    have e : ∀ r, ((full.declor t [] (d.ast (Cdecl.leafOf n)) >>= fun x => Res.require (!(Res.adjustParam (Res.connect x.1 t)).isIncomplete) >>=
        fun _ => pure (x.2, Res.adjustParam (Res.connect x.1 t)) : RM (Option Id × DType)) s = r) → 
      (Res.declSpecs full (.node .declSpecs ss.asts) >>= fun t => Res.require (!Res.isTdef t) >>= fun _ => full.declor t [] (d.ast (Cdecl.leafOf n)) >>=
        fun x => Res.require (!(Res.adjustParam (Res.connect x.1 t)).isIncomplete) >>= fun _ => pure (x.2, Res.adjustParam (Res.connect x.1 t)) : RM (Option Id × DType)) s = r := by
      intro r hr
      rw [bind_some hs, specsTy_td h1]
      exact hr
    cases hv : deriveV true t ds with
    | out => trivial
    | bad =>
      rw [hv] at hd
      have hd := hd.bad_nil
      refine Does.fail (e _ ?_)
      rw [Res.bind_run] at hd ⊢
      generalize full.declor t [] (d.ast (Cdecl.leafOf n)) s = r at hd
      match r with
      | .ok (none, s') => simpa using hd
      | .ok (some x, s') => simp at hd
    | ok u =>
      rw [hv] at hd
      simp only [v_ok] at hd ⊢
      have hd : (full.declor t [] (d.ast (Cdecl.leafOf n)) >>= fun x => pure (Res.connect x.1 t, x.2) : RM (DType × Option Id)) s = .ok (some (u, n), s) := hd
      have hx : ∃ ws, full.declor t [] (d.ast (Cdecl.leafOf n)) s = .ok (some (ws, n), s) ∧ Res.connect ws t = u := by
        rw [Res.bind_run] at hd
        generalize full.declor t [] (d.ast (Cdecl.leafOf n)) s = r at hd
        match r with
        | .ok (none, s') => simp at hd
        | .ok (some (ws, m), s') =>
          simp at hd
          obtain ⟨⟨rfl, rfl⟩, rfl⟩ := hd
          exact ⟨ws, rfl, rfl⟩
      obtain ⟨ws, hx, hu⟩ := hx
      cases hi : incomplete (adjust u) with
      | true =>
        refine Does.fail (e _ ?_)
        rw [bind_some hx]
        simp [adjust_eq, isIncomplete_eq, hu, hi]
      | false =>
        refine Does.pure (e _ ?_)
        rw [bind_some hx]
        simp [adjust_eq, isIncomplete_eq, hu, hi]

/-- one more element -/
theorem collect_cons {f : β → RM α} {x : β} {xs : List β} {s : RState} {v : V α} {w : V (List α)} (h1 : Does (f x) s v []) (h2 : Does (Res.collect f xs) s w []) :
    Does (Res.collect f (x :: xs)) s (do let p ← V.and v w; .ok (p.1 :: p.2)) [] := by
  cases ha : V.and v w with
  | out => trivial
  | ok p =>
    obtain ⟨h3, h4⟩ := and_ok ha
    subst h3 h4
    simp only [Does, v_ok, push_nil] at h1 h2 ⊢
    simp only [Res.collect]
    rw [bind_some (attempt_ok h1), bind_some (attempt_ok h2)]
    rfl
  | bad =>
    refine Does.fail ?_
    simp only [Res.collect]
    rcases and_bad ha with ⟨rfl, rfl | ⟨b, rfl⟩⟩ | ⟨⟨a, rfl⟩, rfl⟩
    · rw [bind_some (attempt_ok h1.bad_nil), bind_some (attempt_ok h2.bad_nil)]; rfl
    · simp only [Does, push_nil] at h2
      rw [bind_some (attempt_ok h1.bad_nil), bind_some (attempt_ok h2)]; rfl
    · simp only [Does, push_nil] at h1
      rw [bind_some (attempt_ok h1), bind_some (attempt_ok h2.bad_nil)]; rfl

/-- `(void)` -/
def isVoidP : Specs → Option Id → Dtor → Bool
  | .one .void, none, .leaf => true
  | _, _, _ => false

theorem isVoid_one (ss : Specs) (n : Option Id) (d : Dtor) :
    Res.isVoidParams (.node .paramList [(ParamD.mk ss n d).ast]) = pure (isVoidP ss n d) := by
  rw [param_ast]
  simp only [Res.isVoidParams, Res.node_children, Res.kid0, Res.pure_bind]
  cases ss with
  | cons x ss =>
    cases ss <;> simp [Specs.asts, isVoidP]
  | one x =>
    simp only [Specs.asts, Res.kid1, Res.pure_bind]
    congr 1
    cases x with
    | void =>
      cases n with
      | some n =>
        have := root_type d (Cdecl.leafOf (some n)) (by simp [Cdecl.leafOf])
        simp [this, isVoidP]
      | none =>
        cases d with
        | leaf => rfl
        | ptr d => simp [Dtor.ast, isVoidP, root_type d (.node .ptrDeclor [Cdecl.leafOf none]) (by simp)]
        | arr d e => simp [Dtor.ast, isVoidP, root_type d (.node .arrayDeclor [Cdecl.leafOf none, e.ast]) (by simp)]
        | fn d ps => simp [Dtor.ast, isVoidP, root_type d (.node .funcDeclor [Cdecl.leafOf none, .node .paramList ps.asts]) (by simp)]
    | _ => simp [Spec.ast, isVoidP]

/-- the list of parameters, given what its elements do -/
theorem params_does (ps : ParamL) (s : RState) (h : Does (Res.collect (Res.paramDecl full) ps.asts) s (paramL true (scope s) ps) []) :
    Does (Res.paramList full (.node .paramList ps.asts)) s (params true (scope s) ps) [] := by
  have gen : Res.isVoidParams (.node .paramList ps.asts) = pure false →
      Does (Res.paramList full (.node .paramList ps.asts)) s (do let l ← paramL true (scope s) ps; must (decide (paramNames l).Nodup); .ok (paramsOf l)) [] := by
    intro hv
    simp only [Res.paramList, hv, Res.pure_bind, Res.node_children]
    refine Does.bind (s2 := []) h fun l _ => ?_
    simp only [push_nil, names_eq, distinct_eq, paramsOf_eq]
    cases decide (paramNames l).Nodup
    · exact Does.fail rfl
    · exact Does.pure rfl
  cases ps with
  | cons p ps =>
    obtain ⟨ss, n, d⟩ := p
    have : params true (scope s) (.cons (.mk ss n d) ps) = (do
        let l ← paramL true (scope s) (.cons (.mk ss n d) ps); must (decide (paramNames l).Nodup); .ok (paramsOf l)) := by
      rw [params, paramsV]
      rintro h; cases h
    rw [this]
    refine gen ?_
    simp only [Res.isVoidParams, Res.node_children, ParamL.asts]
    cases ps <;> rfl
  | one p =>
    obtain ⟨ss, n, d⟩ := p
    have hv := isVoid_one ss n d
    by_cases hc : isVoidP ss n d = true
    · unfold isVoidP at hc
      split at hc
      · have : params true (scope s) (.one (.mk (.one .void) none .leaf)) = .ok .nil := by rw [params, paramsV]
        rw [this]
        simp only [Res.paramList, ParamL.asts, hv, Res.pure_bind]
        rfl
      · cases hc
    · have : params true (scope s) (.one (.mk ss n d)) = (do
          let l ← paramL true (scope s) (.one (.mk ss n d)); must (decide (paramNames l).Nodup); .ok (paramsOf l)) := by
        rw [params, paramsV]
        rintro h
        injection h with h
        injection h with h1 h2 h3
        subst h1 h2 h3
        exact hc rfl
      rw [this]
      refine gen ?_
      simp only [Bool.not_eq_true] at hc
      rw [ParamL.asts, hv, hc]

/-- one more derivation -/
theorem walk_cons {s : RState} {d d1 : Dtor} {v : V Deriv} {step : Ast → Ast} (hw : Walks s d)
    (hast : ∀ y, d1.ast y = d.ast (step y))
    (hd : dtor true (scope s) d1 = (do let p ← V.and v (dtor true (scope s) d); .ok (p.1 :: p.2)))
    (hok : ∀ x, v = .ok x → ∀ sp ws y, full.declor sp ws (step y) s = if addOk ws (W x) then full.declor sp (ws ++ [W x]) y s else .ok (none, s))
    (hbad : v = .bad → ∀ sp ws y, full.declor sp ws (step y) s = .ok (none, s)) : Walks s d1 := by
  unfold Walks at hw ⊢
  rw [hd]
  cases ha : V.and v (dtor true (scope s) d) with
  | out => trivial
  | ok p =>
    obtain ⟨h1, h2⟩ := and_ok ha
    rw [h2] at hw
    simp only [v_ok]
    intro sp ws y
    rw [hast, hw, rev_cons, addAll_append]
    cases addAll ws ((p.2.map W).reverse) with
    | none => rfl
    | some ws' =>
      simp only [Option.bind_some, addAll]
      rw [hok _ h1]
      split <;> rfl
  | bad =>
    simp only [v_bad]
    intro sp ws y
    rw [hast]
    rcases and_bad ha with ⟨h1, h2 | ⟨ds, h2⟩⟩ | ⟨_, h2⟩
    · rw [h2] at hw; exact hw _ _ _
    · rw [h2] at hw
      rw [hw]
      cases addAll ws ((ds.map W).reverse) with
      | none => rfl
      | some ws' => exact hbad h1 _ _ _
    · rw [h2] at hw; exact hw _ _ _

mutual
theorem dtor_walks (s : RState) : (d : Dtor) → Walks s d
  | .leaf => by
    simp only [Walks, dtor, Dtor.ast, List.map_nil, List.reverse_nil, addAll]
    intros; trivial
  | .ptr d => by
    refine walk_cons (v := .ok .ptr) (step := fun y => .node .ptrDeclor [y]) (dtor_walks s d) (fun y => by simp [Dtor.ast]) ?_ ?_ ?_
    · simp only [dtor]; cases dtor true (scope s) d <;> rfl
    · rintro x h sp ws y
      injection h with h
      subst h
      rw [full_declor]
      simp [Res.declor, addOk, W]
    · rintro h; cases h
  | .arr d e => by
    refine walk_cons (v := do let n ← sizeTy true (scope s) e; .ok (.arr n)) (step := fun y => .node .arrayDeclor [y, e.ast]) (dtor_walks s d) (fun y => by simp [Dtor.ast]) ?_ ?_ ?_
    · simp only [dtor]; cases dtor true (scope s) d <;> cases sizeTy true (scope s) e <;> rfl
    · rintro x h sp ws y
      have hz := size_run e s (fun n => full.declor sp (ws ++ [.arr n]) y)
      cases hn : sizeTy true (scope s) e with
      | out => rw [hn] at h; cases h
      | bad => rw [hn] at h; cases h
      | ok n =>
        rw [hn] at h hz
        injection h with h
        subst h
        rw [full_declor]
        have ha : addOk ws (W (.arr n)) = !Res.lastFunc ws := rfl
        rw [ha]
        simp only [Res.declor, Res.node_type]
        cases Res.lastFunc ws with
        | true => rfl
        | false => exact hz
    · rintro h sp ws y
      have hz := size_run e s (fun n => full.declor sp (ws ++ [.arr n]) y)
      cases hn : sizeTy true (scope s) e with
      | out => rw [hn] at h; cases h
      | ok n => rw [hn] at h; cases h
      | bad =>
        rw [hn] at hz
        rw [full_declor]
        simp only [Res.declor, Res.node_type]
        cases Res.lastFunc ws with
        | true => rfl
        | false => exact hz
  | .fn d ps => by
    have hp := params_does ps s (paramL_does s ps)
    refine walk_cons (v := do let ps ← params true (scope s) ps; .ok (.fn ps)) (step := fun y => .node .funcDeclor [y, .node .paramList ps.asts]) (dtor_walks s d) (fun y => by simp [Dtor.ast]) ?_ ?_ ?_
    · simp only [dtor, params]; cases dtor true (scope s) d <;> cases paramsV ps (paramL true (scope s) ps) <;> rfl
    · rintro x h sp ws y
      cases hn : params true (scope s) ps with
      | out => rw [hn] at h; cases h
      | bad => rw [hn] at h; cases h
      | ok n =>
        rw [hn] at h hp
        injection h with h
        subst h
        rw [full_declor]
        have ha : addOk ws (W (.fn n)) = (!Res.lastArr ws && !Res.lastFunc ws) := rfl
        rw [ha]
        simp only [Res.declor, Res.node_type]
        cases Res.lastFunc ws with
        | true => cases Res.lastArr ws <;> rfl
        | false =>
          cases Res.lastArr ws with
          | true => rfl
          | false =>
            simp only [Bool.not_false, Res.require_true, Res.pure_bind, Res.kid0, Res.kid1]
            exact bind_some (m := Res.paramList full _) hp
    · rintro h sp ws y
      cases hn : params true (scope s) ps with
      | out => rw [hn] at h; cases h
      | ok n => rw [hn] at h; cases h
      | bad =>
        rw [hn] at hp
        rw [full_declor]
        simp only [Res.declor, Res.node_type]
        cases Res.lastFunc ws with
        | true => cases Res.lastArr ws <;> rfl
        | false =>
          cases Res.lastArr ws with
          | true => rfl
          | false =>
            simp only [Bool.not_false, Res.require_true, Res.pure_bind, Res.kid1]
            exact bind_none hp.bad_nil
theorem paramL_does (s : RState) : (ps : ParamL) → Does (Res.collect (Res.paramDecl full) ps.asts) s (paramL true (scope s) ps) []
  | .one p => by
    have := collect_cons (paramD_does s p) (w := .ok []) (xs := []) (Does.pure rfl)
    simp only [ParamL.asts, paramL]
    have e : (do let p ← V.and (paramD true (scope s) p) (.ok []); V.ok (p.1 :: p.2)) = (do let (p, _) ← V.and (paramD true (scope s) p) (.ok ()); .ok [p]) := by
      cases paramD true (scope s) p <;> rfl
    rw [← e]
    exact this
  | .cons p ps => by
    simp only [ParamL.asts, paramL]
    exact collect_cons (paramD_does s p) (paramL_does s ps)
theorem paramD_does (s : RState) : (p : ParamD) → Does (Res.paramDecl full p.ast) s (paramD true (scope s) p) []
  | .mk ss n d => paramDecl_does ss n d s (dtor_walks s d)
end

/-- type names -/
theorem tyName_does (s : RState) (t : TyName) : Does (Res.typeName full t.ast) s (tyName true (scope s) t) [] := by
  obtain ⟨ss, d⟩ := t
  simp only [TyName.ast, Res.typeName, Res.kid0, Res.kid1, Res.pure_bind, tyName]
  have hs := spec_does .specQualList ss s
  have hw := dtor_walks s d
  cases ha : V.and (specsTy true (scope s) (specList ss)) (dtor true (scope s) d) with
  | out => trivial
  | bad =>
    rcases and_bad ha with ⟨h1, -⟩ | ⟨⟨t, h1⟩, h2⟩
    · rw [h1] at hs
      exact Does.fail (bind_none hs.bad_nil)
    · rw [h1] at hs
      refine Does.fail ((bind_some (m := full.spec _) hs).trans ?_)
      unfold Walks at hw
      rw [h2] at hw
      exact bind_none (hw _ _ _)
  | ok p =>
    obtain ⟨h1, h2⟩ := and_ok ha
    obtain ⟨t, ds⟩ := p
    simp only at h1 h2
    rw [h1] at hs
    have hd := declor_does t d none s (specsTy_td h1) hw
    rw [h2] at hd
    simp only [v_ok] at hd ⊢
    have hs : full.spec (.node .specQualList ss.asts) s = .ok (some t, s) := hs
    cases hv : deriveV true t ds with
    | out => trivial
    | bad =>
      rw [hv] at hd
      have hd := hd.bad_nil
      refine Does.fail ((bind_some hs).trans ?_)
      simp only [Cdecl.leafOf] at hd
      rw [Res.bind_run] at hd ⊢
      generalize full.declor t [] (d.ast (.node .absDeclor [])) s = r at hd
      match r with
      | .ok (none, s') => simpa using hd
      | .ok (some x, s') => simp at hd
    | ok u =>
      rw [hv] at hd
      simp only [v_ok] at hd ⊢
      have hd : (full.declor t [] (d.ast (.node .absDeclor [])) >>= fun x => pure (Res.connect x.1 t, x.2) : RM (DType × Option Id)) s = .ok (some (u, none), s) := hd
      refine Does.pure ((bind_some hs).trans ?_)
      rw [Res.bind_run] at hd ⊢
      generalize full.declor t [] (d.ast (.node .absDeclor [])) s = r at hd
      match r with
      | .ok (none, s') => simp at hd
      | .ok (some (ws, m), s') =>
        simp at hd
        obtain ⟨⟨rfl, rfl⟩, rfl⟩ := hd
        rfl

end StatL
end Umlcc
