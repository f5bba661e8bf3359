import Verif.Spec.Declarator
import Verif.Spec.Syntax
import Verif.Lemma.Resolver
/-!
C20: the declaration of a type as a tree of the grammar, and what the resolver makes of it.
-/
namespace Umlcc
namespace Cdecl
open Syn Res

def Base.syn : Base → Specs
  | .void => .one .void | .char => .one .char | .int => .one .int | .uint => .cons .unsigned (.one .int)
  | .long => .one .long | .ulong => .cons .unsigned (.one .long) | .llong => .cons .long (.one .long)
  | .ullong => .cons .long (.cons .unsigned (.cons .long (.one .int)))
  | .strct n => .one (.structRef n)

def specsList : Specs → List Spec
  | .one s => [s]
  | .cons s ss => s :: specsList ss

def CTy.sp : CTy → Base
  | .base b => b
  | .ptr t => t.sp
  | .arr t _ => t.sp
  | .fn t _ => t.sp

mutual
def CTy.dtor : CTy → Dtor → Dtor
  | .base _, d => d
  | .ptr t, d => t.dtor (.ptr d)
  | .arr t n, d => t.dtor (.arr d (.int ⟨.int, n⟩))
  | .fn t ps, d => t.dtor (.fn d ps.syn)
def CParams.syn : CParams → ParamL
  | .nil => .one (.mk (.one .void) none .leaf)
  | .cons n t .nil => .one (.mk t.sp.syn n (t.dtor .leaf))
  | .cons n t ps => .cons (.mk t.sp.syn n (t.dtor .leaf)) ps.syn
end

theorem base_toks (b : Base) : b.syn.toks = b.toks := by cases b <;> rfl
theorem name_toks (n : Option Id) : optTok n = nameToks n := by cases n <;> rfl

theorem paren_toks (d : Dtor) (nm : List Tok) : (if d.isPtr then par (d.toks nm) else d.toks nm) = paren d.isPtr (d.toks nm) := by
  unfold paren par
  split <;> simp

mutual
theorem spell_eq : ∀ (t : CTy) (d : Dtor) (nm : List Tok), t.spell (d.toks nm) d.isPtr = t.sp.syn.toks ++ (t.dtor d).toks nm
  | .base b, d, nm => by simp [CTy.spell, CTy.sp, CTy.dtor, base_toks]
  | .ptr t, d, nm => by
    have := spell_eq t (.ptr d) nm
    simp only [Dtor.toks, Dtor.isPtr] at this
    simpa [CTy.spell, CTy.sp, CTy.dtor] using this
  | .arr t n, d, nm => by
    have := spell_eq t (.arr d (.int ⟨.int, n⟩)) nm
    simp only [Dtor.toks, paren_toks, Expr.toks, wrap, Expr.prec] at this
    rw [show (Dtor.arr d (.int ⟨.int, n⟩)).isPtr = false from rfl] at this
    simpa [CTy.spell, CTy.sp, CTy.dtor] using this
  | .fn t ps, d, nm => by
    have := spell_eq t (.fn d ps.syn) nm
    simp only [Dtor.toks, paren_toks, ← spellP_eq ps] at this
    rw [show (Dtor.fn d ps.syn).isPtr = false from rfl] at this
    simpa [CTy.spell, CTy.sp, CTy.dtor] using this
theorem spellP_eq : ∀ ps : CParams, ps.spell = ps.syn.toks
  | .nil => rfl
  | .cons n t .nil => by
    have := spell_eq t .leaf (optTok n)
    simp only [Dtor.toks, Dtor.isPtr] at this
    simp [CParams.spell, CParams.syn, ParamL.toks, ParamD.toks, ← name_toks, this]
  | .cons n t (.cons n' t' ps) => by
    have := spell_eq t .leaf (optTok n)
    simp only [Dtor.toks, Dtor.isPtr] at this
    have k := spellP_eq (.cons n' t' ps)
    rw [CParams.spell, CParams.syn, ParamL.toks, ParamD.toks, ← name_toks, this, k]
    · simp
    · simp
end

theorem base_ok (b : Base) : b.syn.ok [] := by cases b <;> simp [Base.syn, Specs.ok, Spec.ok]
theorem base_notd (b : Base) : b.syn.startsTd = false := by cases b <;> rfl

theorem syn_notd (ps : CParams) : ps.syn.startsTd = false := by
  cases ps with
  | nil => rfl
  | cons n t ps => cases ps <;> simp [CParams.syn, ParamL.startsTd, base_notd]

theorem abs_ok : ∀ (t : CTy) (d : Dtor), d.absOk = true → (t.dtor d).absOk = true
  | .base _, _, h => h
  | .ptr t, d, h => abs_ok t _ (by simpa [Dtor.absOk] using h)
  | .arr t _, d, h => abs_ok t _ (by simpa [Dtor.absOk] using h)
  | .fn t ps, d, h => abs_ok t _ (by
      cases d <;> simp only [Dtor.absOk, syn_notd] at * <;> simp_all)

mutual
theorem dtor_ok : ∀ (t : CTy) (d : Dtor), d.ok [] → (t.dtor d).ok []
  | .base _, _, h => h
  | .ptr t, d, h => dtor_ok t _ (by simpa [Dtor.ok] using h)
  | .arr t _, d, h => dtor_ok t _ (by simpa [Dtor.ok, Expr.ok] using h)
  | .fn t ps, d, h => dtor_ok t _ (by simp only [Dtor.ok]; exact ⟨h, syn_ok ps⟩)
theorem syn_ok : ∀ ps : CParams, ps.syn.ok []
  | .nil => by simp [CParams.syn, ParamL.ok, ParamD.ok, Specs.ok, Spec.ok, Dtor.ok, Dtor.absOk]
  | .cons n t .nil => by
    simp only [CParams.syn, ParamL.ok]
    cases n
    · exact ⟨base_ok _, dtor_ok t _ (by simp [Dtor.ok]), abs_ok t _ rfl⟩
    · exact ⟨base_ok _, dtor_ok t _ (by simp [Dtor.ok]), by simp⟩
  | .cons n t (.cons n' t' ps) => by
    have k := syn_ok (.cons n' t' ps)
    simp only [CParams.syn, ParamL.ok] at k ⊢
    refine ⟨?_, k⟩
    cases n
    · exact ⟨base_ok _, dtor_ok t _ (by simp [Dtor.ok]), abs_ok t _ rfl⟩
    · exact ⟨base_ok _, dtor_ok t _ (by simp [Dtor.ok]), by simp⟩
end

/-! ### resolution -/

/-- the tree of the declarator, root first -/
def CTy.tree : CTy → Ast → Ast
  | .base _, x => x
  | .ptr t, x => .node .ptrDeclor [t.tree x]
  | .arr t n, x => .node .arrayDeclor [t.tree x, .lit .intExpr ⟨.int, n⟩]
  | .fn t ps, x => .node .funcDeclor [t.tree x, .node .paramList ps.syn.asts]

theorem dtor_ast : ∀ (t : CTy) (d : Dtor) (x : Ast), (t.dtor d).ast x = d.ast (t.tree x)
  | .base _, d, x => by simp [CTy.dtor, CTy.tree]
  | .ptr t, d, x => by simp [CTy.dtor, dtor_ast t, CTy.tree, Dtor.ast]
  | .arr t _, d, x => by simp [CTy.dtor, dtor_ast t, CTy.tree, Dtor.ast, Expr.ast]
  | .fn t ps, d, x => by simp [CTy.dtor, dtor_ast t, CTy.tree, Dtor.ast]

/-- the sockets -/
def CTy.wraps : CTy → List Wrap
  | .base _ => []
  | .ptr t => .ptr :: t.wraps
  | .arr t n => .arr n :: t.wraps
  | .fn t ps => .func ps.dt :: t.wraps

theorem connect_wraps (t : CTy) : connect t.wraps t.sp.dt = t.dt := by
  induction t using CTy.rec (motive_2 := fun _ => True) with
  | base b => rfl
  | ptr t ih => simp [CTy.wraps, CTy.sp, CTy.dt, connect, ih]
  | arr t n ih => simp [CTy.wraps, CTy.sp, CTy.dt, connect, ih]
  | fn t ps ih => simp [CTy.wraps, CTy.sp, CTy.dt, connect, ih]
  | nil => trivial
  | cons => trivial

/-- no struct of the state has the name of a struct in the type -/
def Undeclared (s : RState) : Prop := ∀ n, lookup n s.tags = none

theorem spec_ok (b : Base) (k : AstT) (s : RState) (h : Undeclared s) : full.spec (.node k b.syn.asts) s = .ok (some b.dt, s) := by
  rw [full_spec]
  cases b
  case strct n =>
    have e : spec full (.node k (Base.strct n).syn.asts) s = structSpec full (.node .typeStruct [.name .structName n]) s := rfl
    rw [e]
    simp [structSpec, Ast.children, Ast.node, Ast.type, Ast.name, ident, h n, Base.dt]
  all_goals rfl

/-- what may follow the sockets `ws` -/
def After (ws : List Wrap) (t : CTy) : Prop :=
  (lastArr ws = true → t.complete = true ∧ t.isFn = false) ∧ (lastFunc ws = true → t.isFn = false ∧ t.isArr = false ∧ t.isStrct = false)

theorem last_append (ws : List Wrap) (w : Wrap) : (ws ++ [w]).getLast? = some w := by simp

/-- the name's node -/
def leafOf : Option Id → Ast
  | some n => .name .identDeclor n
  | none => .node .absDeclor []

theorem plug_base (b : Base) : definedType b.dt = b.dt := by cases b <;> rfl

theorem leaf_run (b : Base) (ws : List Wrap) (nm : Option Id) (s : RState) (ha : After ws (.base b)) :
    full.declor b.dt ws (leafOf nm) s = .ok (some (ws, nm), s) := by
  rw [full_declor]
  have h1 : (lastArr ws && b.dt.isIncomplete) = false := by
    rw [Bool.and_eq_false_iff]
    rcases h : lastArr ws with _ | _
    · exact .inl rfl
    · right
      have := (ha.1 h).1
      cases b <;> simp [CTy.complete, Base.dt, DType.isIncomplete] at *
  have h2 : (lastFunc ws && b.dt.isIncomplete && !b.dt.isVoid) = false := by
    rcases h : lastFunc ws with _ | _
    · rfl
    · have := (ha.2 h).2.2
      cases b <;> simp [CTy.isStrct, Base.dt, DType.isIncomplete, DType.isVoid] at *
  cases nm with
  | none => simp [leafOf, declor, Ast.node, Ast.type, plug_base, -Bool.not_and, h1, h2]
  | some n => simp [leafOf, declor, Ast.name, Ast.type, plug_base, -Bool.not_and, h1, h2, ident]

def CParams.list : CParams → List (Option Id × DType)
  | .nil => []
  | .cons n t ps => (n, adjust t t.dt) :: ps.list

theorem ofList_list (ps : CParams) : Params.ofList ps.list = ps.dt := by
  induction ps using CParams.rec (motive_1 := fun _ => True) with
  | nil => rfl
  | cons n t ps _ ih => simp [CParams.list, Params.ofList, CParams.dt, ih]
  | _ => trivial

theorem names_list (ps : CParams) : ps.list.filterMap (·.1) = ps.names := by
  induction ps using CParams.rec (motive_1 := fun _ => True) with
  | nil => rfl
  | cons n t ps _ ih => cases n <;> simp [CParams.list, CParams.names, ih]
  | _ => trivial

theorem distinct_nodup (l : List Str) : distinct l = true ↔ l.Nodup := by
  induction l with
  | nil => simp [distinct]
  | cons a l ih => simp [distinct, ih]

/-- the children of a parameter's node -/
theorem param_ast (n : Option Id) (t : CTy) :
    (ParamD.mk t.sp.syn n (t.dtor .leaf)).ast = .node .paramDecl [.node .declSpecs t.sp.syn.asts, t.tree (leafOf n)] := by
  cases n <;> simp [ParamD.ast, dtor_ast, Dtor.ast, leafOf]

theorem tree_abs (t : CTy) (n : Option Id) (h : (t.tree (leafOf n)).type = .absDeclor) : ∃ b, t = .base b := by
  cases t
  · exact ⟨_, rfl⟩
  all_goals simp [CTy.tree, Ast.node, Ast.type] at h

theorem asts_void (b : Base) (c : Ast) (h : b.syn.asts = [c]) (hc : c.type = .typeVoid) : b = .void := by
  cases b <;> simp [Base.syn, Specs.asts, Spec.ast] at h <;> subst h <;> simp [Ast.node, Ast.type, Ast.name] at hc ⊢

theorem isVoid_false (n : Option Id) (t : CTy) (ps : CParams) (h : t.complete = true) (s : RState) :
    isVoidParams (.node .paramList (CParams.cons n t ps).syn.asts) s = .ok (some false, s) := by
  cases ps with
  | cons n' t' ps =>
    cases ps <;> simp [CParams.syn, ParamL.asts, isVoidParams, Ast.node, Ast.children]
  | nil =>
    simp only [CParams.syn, ParamL.asts, isVoidParams, node_children, param_ast, kid0, kid1, pure_bind]
    rcases hc : t.sp.syn.asts with _ | ⟨c, _ | ⟨c', l⟩⟩
    · rfl
    · dsimp only
      have : (decide (c.type = .typeVoid) && decide ((t.tree (leafOf n)).type = .absDeclor)) = false := by
        rw [Bool.and_eq_false_iff]
        by_cases h1 : c.type = .typeVoid
        · right
          have hb := asts_void _ _ hc h1
          rw [decide_eq_false_iff_not]
          intro h2
          obtain ⟨b, rfl⟩ := tree_abs _ _ h2
          simp only [CTy.sp] at hb
          subst hb
          simp [CTy.complete] at h
        · left; simpa using h1
      rw [this]
      rfl
    · rfl

theorem filter_asts (b : Base) : b.syn.asts.filter (fun c => c.type ≠ .stgTypedef) = b.syn.asts := by
  cases b <;> rfl
theorem any_asts (b : Base) : b.syn.asts.any (fun c => c.type = .stgTypedef) = false := by
  cases b <;> rfl

theorem declSpecs_ok (b : Base) (s : RState) (h : Undeclared s) : declSpecs full (.node .declSpecs b.syn.asts) s = .ok (some b.dt, s) := by
  simp only [declSpecs, node_type, node_children, filter_asts, any_asts]
  rw [bind_some (spec_ok b _ s h)]
  rfl

theorem complete_dt (t : CTy) (h : t.complete = true) : (adjust t t.dt).isIncomplete = false := by
  cases t with
  | base b => cases b <;> simp [CTy.complete, adjust, CTy.dt, Base.dt, DType.isIncomplete] at *
  | _ => simp [adjust, CTy.dt, DType.isIncomplete]

theorem adj_dt (t : CTy) : adjustParam t.dt = adjust t t.dt := by
  cases t with
  | base b => cases b <;> rfl
  | _ => rfl

theorem base_ntd (b : Base) : isTdef b.dt = false := by cases b <;> rfl

theorem paramDecl_run (n : Option Id) (t : CTy) (s : RState) (h : Undeclared s) (hc : t.complete = true)
    (hd : full.declor t.sp.dt [] (t.tree (leafOf n)) s = .ok (some (t.wraps, n), s)) :
    paramDecl full (.node .paramDecl [.node .declSpecs t.sp.syn.asts, t.tree (leafOf n)]) s = .ok (some (n, adjust t t.dt), s) := by
  unfold paramDecl
  simp only [kid0, kid1, pure_bind]
  rw [bind_some (declSpecs_ok t.sp s h)]
  simp only [base_ntd, Bool.not_false, require_true, pure_bind]
  rw [bind_some hd]
  simp only [connect_wraps, adj_dt, complete_dt t hc, Bool.not_false, require_true, pure_bind, pure_run]

theorem paramsColl (ps : CParams) (s : RState)
    (hp : ∀ n t qs, ps = .cons n t qs → paramDecl full (ParamD.mk t.sp.syn n (t.dtor .leaf)).ast s = .ok (some (n, adjust t t.dt), s) ∧
      (qs ≠ .nil → collect (paramDecl full) qs.syn.asts s = .ok (some qs.list, s))) (hne : ps ≠ .nil) :
    collect (paramDecl full) ps.syn.asts s = .ok (some ps.list, s) := by
  cases ps with
  | nil => exact absurd rfl hne
  | cons n t qs =>
    obtain ⟨h1, h2⟩ := hp n t qs rfl
    cases qs with
    | nil =>
      simp only [CParams.syn, ParamL.asts, collect, CParams.list]
      rw [bind_some (attempt_ok h1)]
      rw [bind_some (attempt_ok (pure_run _ _))]
      rfl
    | cons n' t' qs =>
      have h2 := h2 (by simp)
      have e : (CParams.cons n t (.cons n' t' qs)).syn.asts = (ParamD.mk t.sp.syn n (t.dtor .leaf)).ast :: (CParams.cons n' t' qs).syn.asts := by
        rw [CParams.syn, ParamL.asts]
        simp
      rw [e, collect, bind_some (attempt_ok h1), bind_some (attempt_ok h2)]
      rfl

mutual
theorem declor_run : ∀ (t : CTy) (ws : List Wrap) (nm : Option Id) (s : RState), t.wf → After ws t → Undeclared s →
    full.declor t.sp.dt ws (t.tree (leafOf nm)) s = .ok (some (ws ++ t.wraps, nm), s)
  | .base b, ws, nm, s, _, ha, _ => by
    simpa [CTy.sp, CTy.tree, CTy.wraps] using leaf_run b ws nm s ha
  | .ptr t, ws, nm, s, hw, ha, hu => by
    rw [full_declor]
    have ih := declor_run t (ws ++ [.ptr]) nm s (by simpa [CTy.wf] using hw) (by simp [After, lastArr, lastFunc]) hu
    simp only [declor, CTy.tree, node_type, kid0, pure_bind, CTy.sp]
    rw [ih]
    simp [CTy.wraps]
  | .arr t n, ws, nm, s, hw, ha, hu => by
    rw [full_declor]
    simp only [CTy.wf] at hw
    obtain ⟨hw, hc, hf, h0, h1⟩ := hw
    have ih := declor_run t (ws ++ [.arr n]) nm s hw (by simp [After, lastArr, lastFunc, hc, hf]) hu
    have hl : lastFunc ws = false := by
      cases h : lastFunc ws
      · rfl
      · have := (ha.2 h).2.1
        simp [CTy.isArr] at this
    have hlit : full.expr (.lit .intExpr ⟨.int, n⟩) s = .ok (some (.ilit .int ⟨.int, n⟩), s) := by rw [full_expr]; rfl
    simp only [declor, CTy.tree, node_type, kid0, kid1, pure_bind, CTy.sp, hl, Bool.not_false,
      require_true]
    rw [bind_some hlit]
    have hi : toInt32 n = n := by unfold toInt32; omega
    have hp : (n : Int) > 0 := by omega
    simp only [signedConst, ILType.isUnsigned, Bool.false_eq_true, if_false, pure_bind, hp, decide_true, require_true, hi]
    rw [if_neg (by omega), show ((n : Int).toNat) = n from rfl, ih]
    simp [CTy.wraps]
  | .fn t ps, ws, nm, s, hw, ha, hu => by
    rw [full_declor]
    simp only [CTy.wf] at hw
    obtain ⟨hw, hf, har, hst, hps, hn⟩ := hw
    have ih := declor_run t (ws ++ [.func ps.dt]) nm s hw (by simp [After, lastArr, lastFunc, hf, har, hst]) hu
    have hl : lastFunc ws = false := by
      cases h : lastFunc ws
      · rfl
      · have := (ha.2 h).1
        simp [CTy.isFn] at this
    have hl2 : lastArr ws = false := by
      cases h : lastArr ws
      · rfl
      · have := (ha.1 h).2
        simp [CTy.isFn] at this
    have hp : paramList full (.node .paramList ps.syn.asts) s = .ok (some ps.dt, s) := by
      unfold paramList
      cases ps with
      | nil => rfl
      | cons n t' qs =>
        simp only [CParams.wf] at hps
        rw [bind_some (isVoid_false n t' qs hps.2.1 s)]
        have hcoll := params_run (.cons n t' qs) s (by simp only [CParams.wf]; exact hps) hu (by simp)
        simp only [Bool.false_eq_true, if_false, node_children]
        rw [bind_some hcoll]
        simp only [names_list, (distinct_nodup _).2 hn, require_true, pure_bind, pure_run, ofList_list]
    simp only [declor, CTy.tree, node_type, kid0, kid1, pure_bind, CTy.sp, hl, hl2, Bool.not_false,
      require_true]
    rw [bind_some hp, ih]
    simp [CTy.wraps]
theorem params_run : ∀ (ps : CParams) (s : RState), ps.wf → Undeclared s → ps ≠ .nil → collect (paramDecl full) ps.syn.asts s = .ok (some ps.list, s)
  | .nil, s, _, _, h => absurd rfl h
  | .cons n t qs, s, hw, hu, _ => by
    simp only [CParams.wf] at hw
    have h1 := declor_run t [] n s hw.1 (by simp [After, lastArr, lastFunc]) hu
    have h2 := params_run qs s hw.2.2 hu
    refine paramsColl _ s (fun n' t' qs' e => ?_) (by simp)
    obtain ⟨rfl, rfl, rfl⟩ := CParams.cons.inj e
    exact ⟨by rw [param_ast]; exact paramDecl_run n t s hu hw.2.1 (by simpa using h1), h2⟩
end

/-! ### refusal -/

/-- ends without a crash, leaving the state alone -/
def Ans (m : RM α) (s : RState) (ok : Prop) : Prop := ∃ r, m s = .ok (r, s) ∧ (r.isSome = true ↔ ok)

theorem Ans.of_some {m : RM α} {s : RState} {a : α} (h : m s = .ok (some a, s)) {ok : Prop} (ho : ok) : Ans m s ok := ⟨some a, h, by simp [ho]⟩
theorem Ans.of_none {m : RM α} {s : RState} (h : m s = .ok (none, s)) {ok : Prop} (ho : ¬ ok) : Ans m s ok := ⟨none, h, by simp [ho]⟩
theorem Ans.some {m : RM α} {s : RState} {ok : Prop} (h : Ans m s ok) (ho : ok) : ∃ a, m s = .ok (some a, s) := by
  obtain ⟨r, h1, h2⟩ := h
  obtain ⟨a, ha⟩ := Option.isSome_iff_exists.1 (h2.2 ho)
  exact ⟨a, by rw [h1, ha]⟩
theorem Ans.none {m : RM α} {s : RState} {ok : Prop} (h : Ans m s ok) (ho : ¬ ok) : m s = .ok (none, s) := by
  obtain ⟨r, h1, h2⟩ := h
  cases r with
  | none => exact h1
  | some a => exact absurd (h2.1 rfl) ho

theorem leaf_refused (b : Base) (ws : List Wrap) (nm : Option Id) (s : RState) (ha : ¬ After ws (.base b)) :
    full.declor b.dt ws (leafOf nm) s = .ok (none, s) := by
  rw [full_declor]
  have key : (lastArr ws && b.dt.isIncomplete) = true ∨ (lastFunc ws && b.dt.isIncomplete && !b.dt.isVoid) = true := by
    apply Classical.byContradiction
    intro hn
    apply ha
    simp only [not_or, Bool.not_eq_true] at hn
    constructor
    · intro h
      rw [h] at hn
      cases b <;> simp [CTy.complete, CTy.isFn, Base.dt, DType.isIncomplete] at *
    · intro h
      rw [h] at hn
      cases b <;> simp [CTy.isFn, CTy.isArr, CTy.isStrct, Base.dt, DType.isIncomplete, DType.isVoid] at *
  have h3 : ∀ (f : Unit → RM (List Wrap × Option Id)), (require (!(lastArr ws && b.dt.isIncomplete)) >>= fun _ => require (!(lastFunc ws && b.dt.isIncomplete && !b.dt.isVoid)) >>= f) s = .ok (none, s) := by
    intro f
    rcases h : (lastArr ws && b.dt.isIncomplete) with _ | _
    · have h2 : (lastFunc ws && b.dt.isIncomplete && !b.dt.isVoid) = true := by simpa [h] using key
      rw [h2]
      rfl
    · rfl
  cases nm with
  | none =>
    simp only [leafOf, declor, node_type, plug_base]
    exact h3 _
  | some n =>
    simp only [leafOf, declor, plug_base]
    exact h3 _

theorem bind_ans {m : RM α} {f : α → RM β} {s : RState} {p q : Prop} (h : Ans m s p) (hf : ∀ a, p → Ans (f a) s q) : Ans (m >>= f) s (p ∧ q) := by
  obtain ⟨r, h1, h2⟩ := h
  cases r with
  | none => exact ⟨none, bind_none h1, by simp [← h2]⟩
  | some a =>
    have hp := h2.1 rfl
    obtain ⟨r, h3, h4⟩ := hf a hp
    exact ⟨r, (bind_some h1).trans h3, by simp [h4, hp]⟩

theorem Ans.iff {m : RM α} {s : RState} {p q : Prop} (h : Ans m s p) (hpq : p ↔ q) : Ans m s q := by
  obtain ⟨r, h1, h2⟩ := h
  exact ⟨r, h1, h2.trans hpq⟩

theorem require_ans (b : Bool) (s : RState) : Ans (require b) s (b = true) := by
  cases b
  · exact .of_none rfl (by simp)
  · exact .of_some rfl rfl
theorem pure_ans (a : α) (s : RState) : Ans (pure a : RM α) s True := .of_some rfl trivial

theorem collect_ans {f : β → RM α} {g : γ → β} {s : RState} {P : γ → Prop} : ∀ l : List γ, (∀ b ∈ l, Ans (f (g b)) s (P b)) →
    Ans (collect f (l.map g)) s (∀ b ∈ l, P b)
  | [], _ => .of_some rfl (by simp)
  | b :: l, h => by
    obtain ⟨r, h1, h2⟩ := h b (by simp)
    obtain ⟨rs, h3, h4⟩ := collect_ans l fun b hb => h b (by simp [hb])
    refine ⟨match r, rs with | some a, some as => some (a :: as) | _, _ => none, ?_, ?_⟩
    · rw [List.map_cons, collect, bind_some (attempt_ok h1), bind_some (attempt_ok h3)]
      cases r <;> cases rs <;> rfl
    · simp only [List.mem_cons, forall_eq_or_imp, ← h2, ← h4]
      cases r <;> cases rs <;> simp

/-- the trees of the parameters -/
theorem syn_asts : ∀ (n : Option Id) (t : CTy) (ps : CParams), (CParams.cons n t ps).syn.asts = (ParamD.mk t.sp.syn n (t.dtor .leaf)).ast :: (match ps with | .nil => [] | ps => ps.syn.asts)
  | n, t, .nil => by simp [CParams.syn, ParamL.asts]
  | n, t, .cons n' t' ps => by
    rw [CParams.syn, ParamL.asts]
    simp

/-- the parameters as a list -/
def CParams.toList : CParams → List (Option Id × CTy)
  | .nil => []
  | .cons n t ps => (n, t) :: ps.toList

theorem asts_toList : ∀ ps : CParams, ps ≠ .nil → ps.syn.asts = ps.toList.map fun p => (ParamD.mk p.2.sp.syn p.1 (p.2.dtor .leaf)).ast
  | .nil, h => absurd rfl h
  | .cons n t .nil, _ => by simp [CParams.syn, ParamL.asts, CParams.toList]
  | .cons n t (.cons n' t' ps), _ => by
    rw [syn_asts, CParams.toList, List.map_cons]
    congr 1
    exact asts_toList (.cons n' t' ps) (by simp)

theorem wf_toList : ∀ ps : CParams, ps.wf ↔ ∀ p ∈ ps.toList, p.2.wf ∧ p.2.complete = true
  | .nil => by simp [CParams.wf, CParams.toList]
  | .cons n t ps => by simp [CParams.wf, CParams.toList, wf_toList ps, and_assoc]

theorem void_false (n : Option Id) (t : CTy) (ps : CParams) (h : CParams.cons n t ps ≠ .cons none (.base .void) .nil) (s : RState) :
    isVoidParams (.node .paramList (CParams.cons n t ps).syn.asts) s = .ok (some false, s) := by
  by_cases hc : t.complete = true
  · exact isVoid_false n t ps hc s
  cases ps with
  | cons n' t' ps => cases ps <;> simp [CParams.syn, ParamL.asts, isVoidParams, Ast.node, Ast.children]
  | nil =>
    cases t with
    | base b =>
      cases b with
      | void =>
        cases n with
        | none => exact absurd rfl h
        | some n => rfl
      | strct m => cases n <;> rfl
      | _ => exact absurd rfl hc
    | _ => exact absurd rfl hc

theorem paramDecl_ans (n : Option Id) (t : CTy) (s : RState) (h : Undeclared s) (hd : Ans (full.declor t.sp.dt [] (t.tree (leafOf n))) s t.wf) :
    Ans (paramDecl full (ParamD.mk t.sp.syn n (t.dtor .leaf)).ast) s (t.wf ∧ t.complete = true) := by
  by_cases hw : t.wf
  · have h1 := declor_run t [] n s hw (by simp [After, lastArr, lastFunc]) h
    rw [List.nil_append] at h1
    by_cases hc : t.complete = true
    · rw [param_ast]
      exact .of_some (paramDecl_run n t s h hc h1) ⟨hw, hc⟩
    · refine .of_none ?_ (by simp [hc])
      have hi : (adjust t t.dt).isIncomplete = true := by
        cases t with
        | base b => cases b <;> simp [CTy.complete, adjust, CTy.dt, Base.dt, DType.isIncomplete] at *
        | _ => simp [CTy.complete] at hc
      rw [param_ast]
      unfold paramDecl
      simp only [kid0, kid1, pure_bind]
      rw [bind_some (declSpecs_ok t.sp s h)]
      simp only [base_ntd, Bool.not_false, require_true, pure_bind]
      rw [bind_some h1]
      simp only [connect_wraps, adj_dt, hi]
      rfl
  · refine .of_none ?_ (by simp [hw])
    rw [param_ast]
    unfold paramDecl
    simp only [kid0, kid1, pure_bind]
    rw [bind_some (declSpecs_ok t.sp s h)]
    simp only [base_ntd, Bool.not_false, require_true, pure_bind]
    exact bind_none (hd.none hw)

theorem params_ans (ps : CParams) (s : RState) (h : Undeclared s) (hne : ps ≠ .cons none (.base .void) .nil)
    (hp : ∀ p ∈ ps.toList, Ans (full.declor p.2.sp.dt [] (p.2.tree (leafOf p.1))) s p.2.wf) :
    Ans (paramList full (.node .paramList ps.syn.asts)) s (ps.wf ∧ ps.names.Nodup) := by
  cases ps with
  | nil => exact .of_some rfl (by simp [CParams.wf, CParams.names])
  | cons n t qs =>
    by_cases hw : (CParams.cons n t qs).wf
    · by_cases hnd : (CParams.cons n t qs).names.Nodup
      · obtain ⟨r, hr⟩ : ∃ r, paramList full (.node .paramList (CParams.cons n t qs).syn.asts) s = .ok (some r, s) := by
          refine ⟨(CParams.cons n t qs).dt, ?_⟩
          unfold paramList
          rw [bind_some (void_false n t qs hne s)]
          simp only [Bool.false_eq_true, if_false, node_children]
          rw [bind_some (params_run _ s hw h (by simp))]
          simp only [names_list, (distinct_nodup _).2 hnd, require_true, pure_bind, pure_run, ofList_list]
        exact .of_some hr ⟨hw, hnd⟩
      · refine .of_none ?_ (by simp [hnd])
        unfold paramList
        rw [bind_some (void_false n t qs hne s)]
        simp only [Bool.false_eq_true, if_false, node_children]
        rw [bind_some (params_run _ s hw h (by simp))]
        have : distinct (CParams.cons n t qs).names = false := by
          cases hd : distinct (CParams.cons n t qs).names
          · rfl
          · exact absurd ((distinct_nodup _).1 hd) hnd
        simp only [names_list, this]
        rfl
    · refine .of_none ?_ (by simp [hw])
      unfold paramList
      rw [bind_some (void_false n t qs hne s)]
      simp only [Bool.false_eq_true, if_false, node_children]
      refine bind_none ?_
      rw [asts_toList _ (by simp)]
      refine (collect_ans (P := fun p => p.2.wf ∧ p.2.complete = true) _ fun p hm => ?_).none (by rwa [← wf_toList])
      exact paramDecl_ans p.1 p.2 s h (hp p hm)

mutual
/-- a declarator is accepted exactly if the type is valid and may follow the wrappers so far -/
theorem declor_ans : ∀ (t : CTy) (ws : List Wrap) (nm : Option Id) (s : RState), t.plain → Undeclared s →
    Ans (full.declor t.sp.dt ws (t.tree (leafOf nm))) s (t.wf ∧ After ws t)
  | .base b, ws, nm, s, _, hs => by
    by_cases h : After ws (.base b)
    · exact .of_some (leaf_run b ws nm s h) ⟨by simp [CTy.wf], h⟩
    · exact .of_none (leaf_refused b ws nm s h) (by simp [h])
  | .ptr t, ws, nm, s, hp, hs => by
    rw [full_declor]
    simp only [CTy.plain] at hp
    have ih := declor_ans t (ws ++ [.ptr]) nm s hp hs
    simp only [declor, CTy.tree, node_type, kid0, pure_bind, CTy.sp]
    exact ih.iff (by simp [CTy.wf, After, lastArr, lastFunc, CTy.complete, CTy.isFn, CTy.isArr, CTy.isStrct])
  | .arr t n, ws, nm, s, hp, hs => by
    rw [full_declor]
    simp only [CTy.plain] at hp
    have ih := declor_ans t (ws ++ [.arr n]) nm s hp.1 hs
    have hlit : full.expr (.lit .intExpr ⟨.int, n⟩) s = .ok (some (.ilit .int ⟨.int, n⟩), s) := by rw [full_expr]; rfl
    simp only [declor, CTy.tree, node_type, kid0, kid1, pure_bind, CTy.sp]
    have hi : toInt32 n = n := by unfold toInt32; omega
    refine (bind_ans (require_ans _ s) (q := 0 < n ∧ t.wf ∧ After (ws ++ [.arr n]) t) fun _ _ => ?_).iff ?_
    · rw [Ans, bind_some hlit]
      simp only [signedConst, ILType.isUnsigned, Bool.false_eq_true, if_false, pure_bind, hi]
      refine (bind_ans (require_ans _ s) (q := t.wf ∧ After (ws ++ [.arr n]) t) fun _ _ => ?_).iff (by simp)
      rw [if_neg (by omega), show ((n : Int).toNat) = n from rfl]
      exact ih
    · have := hp.2
      simp only [CTy.wf, After, lastArr, lastFunc, CTy.complete, CTy.isFn, CTy.isArr, CTy.isStrct]
      cases lastFunc ws <;> simp <;> grind
  | .fn t ps, ws, nm, s, hp, hs => by
    rw [full_declor]
    simp only [CTy.plain] at hp
    have ih := fun r => declor_ans t (ws ++ [.func r]) nm s hp.1 hs
    have ihp := params_ans ps s hs hp.2.2 (params_declor_ans ps s hp.2.1 hs)
    simp only [declor, CTy.tree, node_type, kid0, kid1, pure_bind, CTy.sp]
    refine (bind_ans (require_ans _ s) fun _ _ => bind_ans (require_ans _ s) fun _ _ => bind_ans ihp fun r _ =>
      (ih r).iff (q := t.wf ∧ t.isFn = false ∧ t.isArr = false ∧ t.isStrct = false) ?_).iff ?_
    · simp [After, lastArr, lastFunc]
    · simp only [CTy.wf, After, CTy.complete, CTy.isFn, CTy.isArr, CTy.isStrct]
      cases lastFunc ws <;> cases lastArr ws <;> simp <;> grind
theorem params_declor_ans : ∀ (ps : CParams) (s : RState), ps.plain → Undeclared s →
    ∀ p ∈ ps.toList, Ans (full.declor p.2.sp.dt [] (p.2.tree (leafOf p.1))) s p.2.wf
  | .nil, _, _, _ => by simp [CParams.toList]
  | .cons n t ps, s, hp, hs => by
    simp only [CParams.plain] at hp
    intro p hm
    simp only [CParams.toList, List.mem_cons] at hm
    rcases hm with rfl | hm
    · exact (declor_ans t [] n s hp.1 hs).iff (by simp [After, lastArr, lastFunc])
    · exact params_declor_ans ps s hp.2 hs p hm
end

end Cdecl
end Umlcc
