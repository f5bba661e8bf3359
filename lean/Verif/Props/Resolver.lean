import Verif.Lemma.Declarator
import Verif.Lemma.Labels
import Verif.Props.Parser
/-!
C20, C27, C56: what the resolver makes of declarators, enumerators and labels.
-/
namespace Umlcc
namespace Res
open Cdecl Syn

/-- the syntax tree of the declaration -/
def declOf (t : CTy) (x : Id) : Ext := .decl ⟨(specsList t.sp.syn).map .ty, [⟨x, t.dtor .leaf, none⟩]⟩

theorem ty_toks (b : Base) : ((specsList b.syn).map DSpec.ty).flatMap DSpec.toks = b.syn.toks := by cases b <;> rfl
theorem ty_asts (b : Base) : ((specsList b.syn).map DSpec.ty).map DSpec.ast = b.syn.asts := by cases b <;> rfl
theorem ty_ok (b : Base) : ∀ s ∈ (specsList b.syn).map DSpec.ty, s.ok [] := by
  cases b <;> simp [Base.syn, specsList, DSpec.ok, Spec.ok]
theorem ty_ne (b : Base) : (specsList b.syn).map DSpec.ty ≠ [] := by cases b <;> simp [Base.syn, specsList]
theorem ty_ntd (b : Base) : ((specsList b.syn).map DSpec.ty).any DSpec.isTd = false := by cases b <;> rfl

theorem base_noeof (b : Base) : Tok.eof ∉ b.toks := by cases b <;> simp [Base.toks]

mutual
theorem spell_noeof : ∀ (t : CTy) (x : List Tok) (star : Bool), Tok.eof ∉ x → Tok.eof ∉ t.spell x star
  | .base b, x, _, h => by simp [CTy.spell, h, base_noeof]
  | .ptr t, x, _, h => by
    rw [CTy.spell]; exact spell_noeof t _ _ (by simp [h])
  | .arr t n, x, star, h => by
    rw [CTy.spell]; exact spell_noeof t _ _ (by cases star <;> simp [h, paren])
  | .fn t ps, x, star, h => by
    have := spellP_noeof ps
    rw [CTy.spell]; exact spell_noeof t _ _ (by cases star <;> simp [h, paren, this])
theorem spellP_noeof : ∀ ps : CParams, Tok.eof ∉ ps.spell
  | .nil => by simp [CParams.spell]
  | .cons n t .nil => by
    rw [CParams.spell]; exact spell_noeof t _ _ (by cases n <;> simp [nameToks])
  | .cons n t (.cons n' t' ps) => by
    have h1 := spell_noeof t (nameToks n) false (by cases n <;> simp [nameToks])
    have h2 := spellP_noeof (.cons n' t' ps)
    rw [CParams.spell]
    · simp [h1, h2]
    · simp
end

theorem decl_run (t : CTy) (x : Id) (hw : t.wf) (hc : t.complete = true) :
    transUnit full (unitAst [declOf t x]) initial = .ok (some [.decls [⟨.ident x, t.dt, none⟩]], { initial with syms := [[(x, .obj t.dt)]], unit := [.decls [⟨.ident x, t.dt, none⟩]] }) := by
  have hu : Undeclared initial := fun n => rfl
  have h1 := declSpecs_ok t.sp initial hu
  have h2 := declor_run t [] (some x) initial hw (by simp [After, lastArr, lastFunc]) hu
  simp only [List.nil_append, leafOf] at h2
  have hi : t.dt.isIncomplete = false := by
    cases t with
    | base b => cases b <;> simp [CTy.complete, CTy.dt, Base.dt, DType.isIncomplete] at *
    | _ => simp [CTy.dt, DType.isIncomplete]
  have hcon : connectSpec t.wraps t.sp.dt = t.dt := by
    rw [← connect_wraps t]; cases t.sp <;> rfl
  have h3 : initDeclor full t.sp.dt (IDtor.ast ⟨x, t.dtor .leaf, none⟩) initial = .ok (some ⟨.ident x, t.dt, none⟩, { initial with syms := [[(x, .obj t.dt)]] }) := by
    simp only [initDeclor, IDtor.ast, dtor_ast, Dtor.ast, kid0, pure_bind]
    rw [bind_some h2]
    simp [initial, canDefine, assoc, hi, define, hcon]
  have h4 : external full (declOf t x).ast initial = .ok (some (.decls [⟨.ident x, t.dt, none⟩]), { initial with syms := [[(x, .obj t.dt)]] }) := by
    have hd : decl full (declOf t x).ast initial = .ok (some [⟨.ident x, t.dt, none⟩], { initial with syms := [[(x, .obj t.dt)]] }) := by
      simp only [declOf, Ext.ast, Decl.ast, List.isEmpty_cons, Bool.false_eq_true, if_false, ty_asts, decl, kid0, kid1, pure_bind, List.map_cons, List.map_nil]
      rw [bind_some h1]
      simp only [node_children, collect]
      rw [bind_some (attempt_ok h3), bind_some (attempt_ok (pure_run _ _))]
      rfl
    have hne : (declOf t x).ast.type ≠ .funcDef := by simp [declOf, Ext.ast, Decl.ast]
    rw [external, if_neg hne, bind_some hd]
    rfl
  simp only [transUnit, unitAst, node_children, List.map_cons, List.map_nil, externals]
  rw [bind_some (attempt_ok (r := some ()) (s' := { initial with syms := [[(x, .obj t.dt)]], unit := [.decls [⟨.ident x, t.dt, none⟩]] }) ?_)]
  · rfl
  · rw [bind_some (attempt_ok h4)]
    rfl

theorem decl_parse (t : CTy) (x : List UInt8) :
    ∃ s, Parser.run (t.spell [.ident x] false ++ [.punct .semicolon, .eof]) = .ok (unitAst [declOf t x]) s := by
  have e : t.spell [.ident x] false ++ [.punct .semicolon, .eof] = unitToks [declOf t x] := by
    have := spell_eq t .leaf [.ident x]
    simp only [Dtor.toks, Dtor.isPtr] at this
    simp [this, unitToks, declOf, Ext.toks, Decl.toks, ty_toks, idToks, IDtor.toks]
  have hno : Tok.eof ∉ [declOf t x].flatMap Ext.toks := by
    have := spell_noeof t [.ident x] false (by simp)
    have e' := e
    intro hm
    rw [unitToks] at e'
    have : [declOf t x].flatMap Ext.toks = t.spell [.ident x] false ++ [.punct .semicolon] := by
      have : (t.spell [.ident x] false ++ [.punct .semicolon]) ++ [Tok.eof] = [declOf t x].flatMap Ext.toks ++ [Tok.eof] := by simpa using e'
      exact (List.append_cancel_right this).symm
    rw [this] at hm
    simp at hm
    contradiction
  have hok : unitOk [] [declOf t x] := by
    simp only [unitOk, declOf, Ext.ok, Decl.ok, and_true]
    refine ⟨ty_ne _, ty_ok _, by simp, ?_⟩
    simp only [idsOk, and_true, Decl.isTd, ty_ntd, tdsAfter, IDtor.ok]
    exact dtor_ok t _ (by simp [Dtor.ok])
  obtain ⟨s, h1, h2⟩ := Parser.C17_unit_round_trip [declOf t x] (by simp) hok hno
  exact ⟨s, by rw [e]; exact h1⟩

/-- C20. For every type built from pointers, arrays and functions, with parameters of any such type, over the basic types and struct tags: C's spelling of a
declaration of `x` with that type is parsed, and resolved to a declaration of `x` with exactly that type (the depth of calls is not limiting: from some depth on the
outcome is this). -/
theorem C20_declarators_denote_types (t : CTy) (x : List UInt8) (hw : t.wf) (hc : t.complete = true) :
    ∃ a s, Parser.run (t.spell [.ident x] false ++ [.punct .semicolon, .eof]) = .ok a s ∧ Resolves a (.ok (some [.decls [⟨.ident x, t.dt, none⟩]])) := by
  obtain ⟨s, h⟩ := decl_parse t x
  exact ⟨_, s, h, resolves_of_full (decl_run t x hw hc)⟩

/-- `char *(*(*x[3])(int, void (*)(char *)))[5]` -/
def sampleTy : CTy :=
  .arr (.ptr (.fn (.ptr (.arr (.ptr (.base .char)) 5)) (.cons none (.base .int) (.cons (some [102]) (.ptr (.fn (.base .void) (.cons none (.ptr (.base .char)) .nil))) .nil)))) 3
example : sampleTy.wf ∧ sampleTy.complete = true := by
  simp [sampleTy, CTy.wf, CParams.wf, CTy.complete, CTy.isFn, CTy.isArr, CTy.isStrct, CParams.names]
example : sampleTy.spell [.ident [120]] false =
  [.kw .kchar, .punct .asterisk, .punct .lparen, .punct .asterisk, .punct .lparen, .punct .asterisk, .ident [120], .punct .lbracket, .int ⟨.int, 3⟩, .punct .rbracket,
    .punct .rparen, .punct .lparen, .kw .kint, .punct .comma, .kw .kvoid, .punct .lparen, .punct .asterisk, .ident [102], .punct .rparen, .punct .lparen, .kw .kchar,
    .punct .asterisk, .punct .rparen, .punct .rparen, .punct .rparen, .punct .lbracket, .int ⟨.int, 5⟩, .punct .rbracket] := rfl

/-! ### C61 -/

theorem decl_refused (t : CTy) (x : Id) (hp : t.plain) (h : ¬ (t.wf ∧ t.complete = true)) :
    transUnit full (unitAst [declOf t x]) initial = .ok (none, initial) := by
  have hu : Undeclared initial := fun n => rfl
  have h1 := declSpecs_ok t.sp initial hu
  have h3 : initDeclor full t.sp.dt (IDtor.ast ⟨x, t.dtor .leaf, none⟩) initial = .ok (none, initial) := by
    simp only [initDeclor, IDtor.ast, dtor_ast, Dtor.ast, kid0, pure_bind]
    by_cases hw : t.wf
    · have h2 := declor_run t [] (some x) initial hw (by simp [After, lastArr, lastFunc]) hu
      simp only [List.nil_append, leafOf] at h2
      rw [bind_some h2]
      have hi : t.dt.isIncomplete = true := by
        cases t with
        | base b => cases b <;> simp [CTy.complete, CTy.wf, CTy.dt, Base.dt, DType.isIncomplete] at *
        | _ => simp [CTy.complete, hw] at h
      have hcon : connectSpec t.wraps t.sp.dt = t.dt := by
        rw [← connect_wraps t]; cases t.sp <;> rfl
      simp only [hcon]
      cases t with
      | base b => cases b <;> first | rfl | (simp [CTy.complete, CTy.wf] at h)
      | _ => simp [CTy.complete, hw] at h
    · exact bind_none ((declor_ans t [] (some x) initial hp hu).none (by simp [hw]))
  have h4 : external full (declOf t x).ast initial = .ok (none, initial) := by
    have hd : decl full (declOf t x).ast initial = .ok (none, initial) := by
      simp only [declOf, Ext.ast, Decl.ast, List.isEmpty_cons, Bool.false_eq_true, if_false, ty_asts, decl, kid0, kid1, pure_bind, List.map_cons, List.map_nil]
      rw [bind_some h1]
      simp only [node_children, collect]
      rw [bind_some (attempt_ok h3), bind_some (attempt_ok (pure_run _ _))]
      rfl
    have hne : (declOf t x).ast.type ≠ .funcDef := by simp [declOf, Ext.ast, Decl.ast]
    rw [external, if_neg hne, bind_none hd]
  simp only [transUnit, unitAst, node_children, List.map_cons, List.map_nil, externals]
  rw [bind_some (attempt_ok (r := none) (s' := initial) ?_)]
  · rfl
  · rw [bind_some (attempt_ok h4)]
    rfl

/-- C61 for declarations with array sizes below 2^31 written as decimal literals, without typedef names (see the violations) and without struct definitions: the
declaration of `x` with type `t` is accepted if `t` is valid and complete, and then `x` has the type `t`; it is refused with a diagnostic, and not otherwise answered, if
`t` is not valid or not complete. -/
theorem C61_valid_types_partial (t : CTy) (x : List UInt8) (hp : t.plain) :
    ∃ a s r, Parser.run (t.spell [.ident x] false ++ [.punct .semicolon, .eof]) = .ok a s ∧ Resolves a (.ok r) ∧
      (t.wf ∧ t.complete = true → r = some [.decls [⟨.ident x, t.dt, none⟩]]) ∧ (¬ (t.wf ∧ t.complete = true) → r = none) := by
  obtain ⟨s, h⟩ := decl_parse t x
  by_cases hw : t.wf ∧ t.complete = true
  · exact ⟨_, s, _, h, resolves_of_full (decl_run t x hw.1 hw.2), by simp, fun hn => absurd hw hn⟩
  · exact ⟨_, s, _, h, resolves_of_full (decl_refused t x hp hw), fun hn => absurd hn hw, by simp⟩

/-- an array of three functions, a function returning an array, and an array of arrays with size 0 are all invalid -/
example : (CTy.ptr (.arr (.fn (.base .int) .nil) 3)).plain ∧ ¬ (CTy.ptr (.arr (.fn (.base .int) .nil) 3)).wf ∧ ¬ (CTy.fn (.arr (.base .int) 2) .nil).wf ∧
    ¬ (CTy.arr (.arr (.base .int) 0) 2).wf := by
  simp [CTy.plain, CTy.wf, CTy.isFn, CTy.isArr, CParams.plain]
example : sampleTy.plain := by simp [sampleTy, CTy.plain, CParams.plain]

/-! ### C27 -/

theorem enumeratorList_run (e : Str × Option Const) (es : List (Str × Option Const)) (s : RState) (r : Option (List (Str × Int))) (s' : RState)
    (h : collect (enumerator full) ((e :: es).map enumAst) { s with enumNext := 0 } = .ok (r, s')) :
    enumeratorList full (.node .enumorList (enumsOf e es).asts) s = .ok (r, { s' with enumNext := 0 }) := by
  simp only [enumeratorList, modify_bind, node_children, enumsOf_asts]
  rw [bind_some (attempt_ok h)]
  cases r <;> rfl

/-- the node of the specifier -/
def enumNode (tag : Option Str) (e : Str × Option Const) (es : List (Str × Option Const)) : Ast := .node .declSpecs [(Spec.enumDef tag (enumsOf e es)).ast]

theorem spec_enum (tag : Option Str) (e : Str × Option Const) (es : List (Str × Option Const)) (s : RState) :
    full.spec (enumNode tag e es) s = enumSpec full (.node .typeEnum (optName .enumName tag ++ [.node .enumorList (enumsOf e es).asts])) s := by
  rw [full_spec]; rfl

/-- C27, without: constants other than literals and enumerators (which the compiler refuses), and values above 2147483646 (see the violations). In an enumerator
list with new, different names the names get the values C says: `enumerate` counts from 0, from the predecessor, or from the given value. -/
theorem C27_enumerators_count_up_partial (tag : Option Str) (e : Str × Option Const) (es : List (Str × Option Const)) (s : RState) (vs : List (Str × Int))
    (henv : enumerate (fun n => match lookup n s.syms with | some (.int l) => if l.type.isUnsigned then none else some l.value | _ => none) 0 (e :: es) = some vs)
    (hr : ∀ p ∈ vs, -2147483648 ≤ p.2 ∧ p.2 < 2147483647)
    (hnd : ((e :: es).map (·.1)).Nodup) (hnew : ∀ p ∈ e :: es, canDefine p.1 s.syms = true) (htag : ∀ n, tag = some n → canDefine n s.tags = true) :
    ∃ s', Runs (·.spec (enumNode tag e es)) s (.ok (some .int, s')) ∧
      ∀ n v, (n, v) ∈ vs → Runs (·.expr (Syn.Expr.ident n).ast) s' (.ok (some (.ilit .int ⟨.int, v⟩), s')) := by
  have h1 := enum_collect (e :: es) { s with enumNext := 0 } vs henv hr hnd hnew
  have h2 := enumeratorList_run e es s _ _ h1
  have hnm := enum_names (e :: es) _ _ _ henv
  have key : ∃ s', full.spec (enumNode tag e es) s = .ok (some .int, s') ∧ s'.syms = (defs vs { s with enumNext := 0 }).syms := by
    rw [spec_enum]
    cases tag with
    | none =>
      refine ⟨{ defs vs { s with enumNext := 0 } with enumNext := 0 }, ?_, rfl⟩
      simp only [enumSpec, optName, List.nil_append, node_children, List.getElem?_cons_zero, node_type]
      simp
      rw [bind_some h2]
      rfl
    | some n =>
      have htags : ∀ (vs : List (Str × Int)) (s : RState), (defs vs s).tags = s.tags := by
        intro vs
        induction vs with
        | nil => intro s; rfl
        | cons p vs ih => intro s; rw [defs, ih]
      refine ⟨{ defs vs { s with enumNext := 0 } with enumNext := 0, tags := define n (.uenum vs) s.tags }, ?_, rfl⟩
      simp only [enumSpec, optName, node_children, List.getElem?_cons_zero, node_type]
      simp
      rw [bind_some h2]
      simp [htags, htag n rfl]
  obtain ⟨s', h3, h4⟩ := key
  refine ⟨s', runs_of_tends (tends_full.spec _) h3, fun n v hm => runs_of_tends (tends_full.expr _) ?_⟩
  rw [full_expr]
  have e1 : expr full (Syn.Expr.ident n).ast s' = identExpr (.name .identExpr n) s' := rfl
  rw [e1]
  simp only [identExpr, ident_name, pure_bind, get_bind, h4]
  rw [defs_lookup vs _ (by rw [hnm]; exact hnd) n v hm]
  rfl

/-- `enum E { A, B, C = 7, D, F = B, G }` -/
def sampleEnum : List (Str × Option Const) := [([66], none), ([67], some (.int ⟨.int, 7⟩)), ([68], none), ([70], some (.ref [66])), ([71], none)]
example : enumerate (fun n => match lookup n initial.syms with | some (.int l) => if l.type.isUnsigned then none else some l.value | _ => none) 0 (([65], none) :: sampleEnum) =
    some [([65], 0), ([66], 1), ([67], 7), ([68], 8), ([70], 1), ([71], 2)] := rfl

/-- C27: a list is accepted only when its names are different and new in the scope -/
theorem C27_duplicates_refused (tag : Option Str) (e : Str × Option Const) (es : List (Str × Option Const)) (s s' : RState)
    (h : Runs (·.spec (enumNode tag e es)) s (.ok (some .int, s'))) : ((e :: es).map (·.1)).Nodup ∧ ∀ p ∈ e :: es, canDefine p.1 s.syms = true := by
  have h := (runs_iff (tends_full.spec _)).1 h
  rw [spec_enum] at h
  have hl : ∃ vs s1, enumeratorList full (.node .enumorList (enumsOf e es).asts) s = .ok (some vs, s1) := by
    have aux : ∀ o : Out (Option (List (Str × Int)) × RState), enumeratorList full (.node .enumorList (enumsOf e es).asts) s = o →
        (∃ vs s1, o = .ok (some vs, s1)) := by
      intro o ho
      cases tag with
      | none =>
        simp [enumSpec, optName, bind_run, ho] at h
        split at h <;> simp_all
      | some n =>
        simp [enumSpec, optName, bind_run, ho] at h
        split at h <;> simp_all
    exact aux _ rfl
  obtain ⟨vs, s1, hl⟩ := hl
  cases hc : collect (enumerator full) ((e :: es).map enumAst) { s with enumNext := 0 } with
  | ok r =>
    obtain ⟨r, s2⟩ := r
    rw [enumeratorList_run e es s r s2 hc] at hl
    cases r with
    | none => simp at hl
    | some vs' =>
      have := enum_accepted (e :: es) _ _ _ (fun s p _ => enumerator_cases p.1 p.2 s) hc
      exact this
  | _ =>
    simp only [enumeratorList, modify_bind, node_children, enumsOf_asts] at hl
    rw [bind_run, attempt, hc] at hl
    simp at hl

/-- a value that does not fit in an `int` is not refused but truncated: `enum { A = 4294967297 };` makes `A` 1 -/
theorem C27_value_truncated_violated : ∃ s', Runs (·.spec (enumNode none ([65], some (.int ⟨.long, 4294967297⟩)) [])) initial (.ok (some .int, s')) ∧
    Runs (·.expr (Syn.Expr.ident [65]).ast) s' (.ok (some (.ilit .int ⟨.int, 1⟩), s')) := by
  exact ⟨{ initial with syms := [[([65], .int ⟨.int, 1⟩)]] }, runs_fuel (tends_full.spec _) 2 rfl (by simp), runs_fuel (tends_full.expr _) 1 rfl (by simp)⟩

/-- the largest `int` as a value: the compiler computes its successor in an `int` -/
theorem C27_largest_value_violated : Runs (·.spec (enumNode none ([65], some (.int ⟨.int, 2147483647⟩)) [])) initial .ub :=
  runs_fuel (tends_full.spec _) 2 rfl (by simp)

/-! ### C56 -/

/-- C56, for statements without declarations whose case labels are signed integer or character constants and whose other expressions have integer types (any
expressions over the names in scope, see `IntExpr`). Missing: declarations in blocks and in `for`. A function body is accepted exactly when every case and default label
stands in a switch, the case labels of each switch have different values (inner switches do not count), no switch has two default labels, break stands in a loop or
switch, continue in a loop, and return has a value exactly when the function does. Otherwise it is refused with a diagnostic. -/
theorem C56_labels_partial (env : Str → Option RSym) (ret : DType) (hret : ret.isVoid = true ∨ ret.isArithmetic = true) (st : Syn.Stmt) (hp : Plain env st)
    (s : RState) (hs : ∀ n, lookup n s.syms = env n) (hc : s.cases = none) :
    ∃ r s', Runs (·.stmt false ret st.ast) s (.ok (r, s')) ∧ (r.isSome = true ↔ LabelsOk ret.isVoid false false st) := by
  obtain ⟨r, s', h1, h2, h3, h4⟩ := labels_stmt hret st hp false s hs (by simp [Inv, hc])
  refine ⟨r, s', runs_of_tends (tends_full.stmt _ _ _) h1, ?_⟩
  rw [h3, hc]
  simp [Fits, hc]

theorem intExpr_int (env : Str → Option RSym) (l : ILit) : IntExpr env (.int l) :=
  ⟨.ilit (litType l.type) l, by cases h : l.type <;> simp [SExpr.dt, litType, DType.isInteger], fun s _ => runs_of_tends (tends_full.expr _) (by rw [full_expr]; rfl)⟩
theorem intExpr_ident (env : Str → Option RSym) (n : Str) (t : DType) (h : env n = some (.obj t)) (ht : t.isInteger = true) : IntExpr env (.ident n) := by
  refine ⟨.ident t n, ht, fun s hs => runs_of_tends (tends_full.expr _) ?_⟩
  rw [full_expr]
  have : expr full (Syn.Expr.ident n).ast s = identExpr (.name .identExpr n) s := rfl
  rw [this]
  simp only [identExpr, ident_name, pure_bind, get_bind, hs n, h]
  rfl

/-- `{ while (x) { switch (x) { case 1: case 2: switch (7) { case 1: break; default: continue; } break; default: ; } } return 5; }` -/
def sampleStmt : Syn.Stmt :=
  .block (.stmt (.while (.ident [120]) (.block (.stmt (.switch (.ident [120]) (.block
    (.stmt (.case (.int ⟨.int, 1⟩) (.case (.int ⟨.int, 2⟩) (.switch (.int ⟨.int, 7⟩) (.block (.stmt (.case (.int ⟨.int, 1⟩) .break) (.stmt (.default .continue) .nil))))))
    (.stmt .break (.stmt (.default .null) .nil))))) .nil))) (.stmt (.retE (.int ⟨.int, 5⟩)) .nil))
def sampleEnv : Str → Option RSym := fun n => if n = [120] then some (.obj .int) else none
example : Plain sampleEnv sampleStmt ∧ LabelsOk false false false sampleStmt := by
  have h1 := intExpr_ident sampleEnv [120] .int rfl rfl
  have h2 := intExpr_int sampleEnv
  constructor
  · simp [sampleStmt, Plain, PlainI, h1, h2, ILType.isUnsigned]
  · simp [sampleStmt, LabelsOk, LabelsOkI, caseLabels, caseLabelsI, defaultLabels, defaultLabelsI]
/-- the same label twice is refused, also through a nested block -/
example : ¬ LabelsOk true false false (.switch (.int ⟨.int, 1⟩) (.block (.stmt (.case (.int ⟨.int, 3⟩) .null) (.stmt (.while (.int ⟨.int, 1⟩) (.case (.char ⟨.int, 3⟩) .null)) .nil)))) := by
  simp [LabelsOk, LabelsOkI, caseLabels, caseLabelsI]

/-- labels are compared before they are converted to the type of the controlling expression, contrary to C11 6.8.4.2p3 and p5:
`switch (1) { case 1: ; case 4294967297: ; }` is accepted, although both labels are the `int` 1 -/
theorem C56_labels_not_converted_violated : ∃ x s', Runs (·.stmt false .void (Syn.Stmt.switch (.int ⟨.int, 1⟩)
    (.block (.stmt (.case (.int ⟨.int, 1⟩) .null) (.stmt (.case (.int ⟨.long, 4294967297⟩) .null) .nil)))).ast) initial (.ok (some x, s')) :=
  ⟨_, _, runs_fuel (tends_full.stmt _ _ _) 5 rfl (by simp)⟩

end Res
end Umlcc
