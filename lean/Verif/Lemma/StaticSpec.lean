import Verif.Lemma.StaticSim
/-!
The resolver on the specifiers of declarations, struct and enum definitions, against the static semantics.
-/
namespace Umlcc
namespace StatL
open Syn Stat
open Res (RM RState RSym Rec full full_expr full_spec full_declor full_stmt full_init bind_some bind_none attempt_ok)

theorem Sim.bind_of {m : RM α} {k : α → RM β} {f : M α} {g : α → M β} {P : α → Prop} (hm : Sim m f) (hp : ∀ σ a τ, f σ = .ok (a, τ) → P a)
    (hk : ∀ a, P a → Sim (k a) (g a)) : Sim (m >>= k) (f >>= g) :=
  fun s => (hm s).bind fun a s' _ e => hk a (hp _ _ _ e) s'

theorem Sim.congr {m m' : RM α} {f f' : M α} (h : Sim m f) (hm : m' = m) (hf : f' = f) : Sim m' f' := by subst hm hf; exact h

/-! ### members -/

theorem declor_sim (t : DType) (d : Dtor) (nm : Option Id) (ht : Res.isTdef t = false) :
    Sim (do let (ws, n) ← full.declor t [] (d.ast (Cdecl.leafOf nm)); pure (Res.connect ws t, n) : RM (DType × Option Id))
      (do let u ← declarator true t d; pure (u, nm)) := by
  intro s
  have h := (declor_does t d nm s ht (dtor_walks s d)).acc
  rw [← abs_scope] at h
  have e : (do let u ← declarator true t d; pure (u, nm) : M (DType × Option Id)) (abs s) =
      V.bind (do let ds ← dtor true (abs s).scope d; let t ← deriveV true t ds; .ok (t, nm)) fun a => .ok (a, abs s) := by
    simp only [m_bind, declarator, Stat.ask]
    cases dtor true (abs s).scope d with
    | ok ds =>
      simp only [v_ok]
      cases deriveV true t ds <;> rfl
    | _ => rfl
  rw [e]
  exact h

theorem connect_bind (t : DType) (x : Ast) (k : DType → Option Id → RM β) :
    (do let (ws, n) ← full.declor t [] x; k (Res.connect ws t) n) =
      ((do let (ws, n) ← full.declor t [] x; pure (Res.connect ws t, n) : RM (DType × Option Id)) >>= fun p => k p.1 p.2) := by
  rw [bind_assoc]; rfl

theorem declor_bind {t : DType} {d : Dtor} {n : Option Id} {k : DType → Option Id → RM β} {g : DType → M β} (ht : Res.isTdef t = false)
    (h : ∀ u, Sim (k u n) (g u)) :
    Sim (do let (ws, n) ← full.declor t [] (d.ast (Cdecl.leafOf n)); k (Res.connect ws t) n) (declarator true t d >>= g) := by
  rw [connect_bind]
  have e : (declarator true t d >>= g) = ((do let u ← declarator true t d; pure (u, n) : M (DType × Option Id)) >>= fun p => g p.1) := by
    rw [m_bind_assoc]; rfl
  rw [e]
  refine Sim.bind_of (P := fun p => p.2 = n) (declor_sim t d n ht) ?_ ?_
  · intro σ a τ h
    simp only [m_bind] at h
    cases hd : declarator true t d σ with
    | ok p => rw [hd] at h; simp only [vb_ok] at h; cases h; rfl
    | _ => rw [hd] at h; cases h
  · rintro ⟨u, m⟩ rfl
    exact h u

theorem member_sim (t : DType) (ht : Res.isTdef t = false) (n : Id) (d : Dtor) :
    Sim (Res.structDeclor full t (d.ast (.name .identDeclor n))) (do
      let u ← ask fun Γ => do let l ← dtor true Γ d; deriveV true t l
      Stat.lift (must (!incomplete u && !funcTy u))
      pure (n, u)) := by
  refine declor_bind (n := some n) (k := fun u m => do
    Res.require (!u.isIncomplete)
    Res.require (match u with | .func _ _ => false | _ => true)
    match m with
    | some n => pure (n, u)
    | none => Res.ub) ht fun u => ?_
  rw [isIncomplete_eq]
  have e : (match u with | .func _ _ => false | _ => true : Bool) = !funcTy u := by cases u <;> rfl
  rw [e]
  cases incomplete u <;> cases funcTy u
  · exact Sim.pure _
  all_goals exact Sim.fail

theorem ndtors_asts : (ds : NDtors) → ds.asts = (namedDtors ds).map fun p => p.2.ast (.name .identDeclor p.1)
  | .one n d => by simp [NDtors.asts, namedDtors]
  | .cons n d ds => by simp [NDtors.asts, namedDtors, ndtors_asts ds]
theorem memberL_asts : (ms : MemberL) → ms.asts = (memberDs ms).map MemberD.ast
  | .one m => by simp [MemberL.asts, memberDs]
  | .cons m ms => by simp [MemberL.asts, memberDs, memberL_asts ms]

theorem ask_ok {f : Stat.Scope → V α} {σ τ : St} {a : α} (h : ask f σ = .ok (a, τ)) : f σ.scope = .ok a ∧ τ = σ := by
  simp only [ask] at h
  cases hf : f σ.scope with
  | ok b => rw [hf] at h; cases h; exact ⟨rfl, rfl⟩
  | _ => rw [hf] at h; cases h

theorem memberTys_sim (m : MemberD) : Sim (Res.structDecl full m.ast) (memberTys true m) := by
  obtain ⟨ss, ds⟩ := m
  simp only [MemberD.ast, Res.structDecl, Res.kid0, Res.kid1, Res.pure_bind, Res.node_children, memberTys, ndtors_asts]
  refine Sim.bind_of (P := fun t => Res.isTdef t = false) (Sim.ask fun s => spec_does _ ss s) (fun σ a τ h => specsTy_td (ask_ok h).1) fun t ht => ?_
  exact Sim.collect fun p _ => member_sim t ht p.1 p.2

def membersOf : List (Id × DType) → Members
  | [] => .nil
  | (n, t) :: l => .cons n t 0 (membersOf l)

theorem place_loop (l : List (Id × DType)) : ∀ nb al, (∀ m ∈ l, 0 < m.2.alignment) →
    DType.layoutLoop (Res.Members.ofList l) nb al = .ok (place' nb al l) ∧ (l ≠ [] ∨ 0 < al → 0 < (place' nb al l).2.2) := by
  induction l with
  | nil => intro nb al _; exact ⟨rfl, fun h => by simpa [place'] using h⟩
  | cons m l ih =>
    obtain ⟨n, t⟩ := m
    intro nb al h
    have ht : 0 < t.alignment := h (n, t) (by simp)
    obtain ⟨h1, h2⟩ := ih (roundUp nb t.alignment + t.nbytes) (max al t.alignment) fun m hm => h m (by simp [hm])
    have hm : (if t.alignment > al then t.alignment else al) = max al t.alignment := by split <;> omega
    simp only [Res.Members.ofList, DType.layoutLoop, DType.minMultipleOf, if_neg (Nat.pos_iff_ne_zero.1 ht), Out.ok_bind, hm]
    rw [roundUp] at h1
    rw [h1]
    exact ⟨rfl, fun _ => h2 (.inr (by omega))⟩

theorem layout_run (l : List (Id × DType)) (hn : l ≠ []) (h : ∀ m ∈ l, 0 < m.2.alignment) :
    DType.newUnnamedStruct (Res.Members.ofList l) = .ok (.ustruct (layout l).1 (layout l).2.1 (layout l).2.2) := by
  obtain ⟨h1, h2⟩ := place_loop l 0 0 h
  have h2 := h2 (.inl hn)
  simp only [DType.newUnnamedStruct, h1, Out.ok_bind, DType.minMultipleOf, if_neg (Nat.pos_iff_ne_zero.1 h2)]
  rfl

/-- the members of a struct definition, laid out -/
theorem structTys_sim (ms : MemberL) {k : Members → RM β} {g : Members × Nat × Nat → M β}
    (hk : ∀ l m b a, DType.newUnnamedStruct l = .ok (.ustruct m b a) → Sim (k l) (g (m, b, a))) :
    Sim (do let l ← Res.structDeclList full (.node .structDeclList ms.asts); k l) (structTys true ms >>= g) := by
  simp only [Res.structDeclList, Res.node_children, structTys, m_bind_assoc, bind_assoc, Res.pure_bind]
  rw [memberL_asts]
  refine Sim.bind (Sim.collect fun m _ => memberTys_sim m) fun l => ?_
  rw [distinct_eq]
  refine Sim.bind (Sim.require _) fun _ => ?_
  split
  · rename_i h
    simp only [Bool.and_eq_true, Bool.not_eq_true', List.isEmpty_eq_false_iff, List.all_eq_true, decide_eq_true_eq] at h
    rw [m_pure_bind]
    exact hk _ _ _ _ (layout_run _ h.1 fun m hm => h.2 m hm)
  · exact Sim.out _

theorem declareTag_sim (n : Id) (t : DType) : Sim (do
      let s ← Res.get
      Res.require (Res.canDefine n s.tags)
      Res.modify fun s => { s with tags := Res.define n t s.tags }) (declareTag n (tagOf t)) := by
  intro s
  have h1 : (declared n (abs s).tags).isNone = Res.canDefine n s.tags := declared_map tagOf n s.tags
  simp only [declareTag]
  cases hd : declared n (abs s).tags with
  | some u =>
    rw [hd] at h1
    intro a s'
    rw [Res.get_bind, ← h1]
    exact never_fail s a s'
  | none =>
    rw [hd] at h1
    simp only
    cases find n (abs s).tags with
    | some _ => trivial
    | none =>
      refine ⟨{ s with tags := Res.define n t s.tags }, ?_, ?_, rfl⟩
      · rw [Res.get_bind, ← h1]; rfl
      · simp [abs, declare_map]

theorem pushTag_sim (n : Id) (t : DType) : Sim (Res.pushTag n t) (noteTag n t) := by
  refine Sim.modify (fun s => ?_) fun s => ?_
  · cases hb : s.blocks <;> simp [abs, hb]
  · cases hb : s.blocks <;> simp

theorem structDef_sim (n : Option Id) (ms : MemberL) : Sim (Res.structSpec full (Spec.structDef n ms).ast) (declTy true [.structDef n ms]) := by
  cases n with
  | none =>
    have e : Res.structSpec full (Spec.structDef none ms).ast =
        (do let l ← Res.structDeclList full (.node .structDeclList ms.asts); Res.lift (DType.newUnnamedStruct l)) := by
      funext s
      simp [Res.structSpec, Spec.ast, optName, bind_assoc]
    rw [e]
    refine structTys_sim ms fun l m b a h => ?_
    rw [h]
    exact Sim.pure _
  | some n =>
    have e : Res.structSpec full (Spec.structDef (some n) ms).ast =
        (do let l ← Res.structDeclList full (.node .structDeclList ms.asts)
            let s ← Res.get
            Res.require (Res.canDefine n s.tags)
            let t ← Res.lift (DType.newUnnamedStruct l)
            Res.modify fun s => { s with tags := Res.define n t s.tags }
            Res.pushTag n t
            let (b, al) ← Res.dims t
            pure (.nstruct n b al)) := by
      funext s
      simp [Res.structSpec, Spec.ast, optName, bind_assoc]
    rw [e]
    refine structTys_sim ms fun l m b a h => ?_
    rw [h]
    refine Sim.congr (Sim.bind (declareTag_sim n (.ustruct m b a)) fun _ => Sim.bind (pushTag_sim n (.ustruct m b a)) fun _ => Sim.pure (.nstruct n b a)) ?_ rfl
    simp only [bind_assoc]
    rfl

/-! ### enumerators -/

def enumAst : Id × Option Expr → Ast
  | (n, none) => .node .enumor [.name .enumConst n]
  | (n, some e) => .node .enumor [.name .enumConst n, e.ast]

theorem enums_asts : (es : Enums) → es.asts = (enumList es).map enumAst
  | .one n => by simp [Enums.asts, enumList, enumAst]
  | .oneV n e => by simp [Enums.asts, enumList, enumAst]
  | .cons n es => by simp [Enums.asts, enumList, enumAst, enums_asts es]
  | .consV n e es => by simp [Enums.asts, enumList, enumAst, enums_asts es]

theorem toInt32_id {v : Int} (h : -2147483648 ≤ v ∧ v < 2147483647) : Res.toInt32 v = v := by simp only [Res.toInt32]; omega

/-- the value of an enumerator, as a question -/
theorem enumVal_run (s : RState) (next : Int) (n : Id) (e : Option Expr) : match enumVal (scope s) next e with
    | .ok v => ∃ w, Res.enumValue full next (enumAst (n, e)) s = .ok (some w, s) ∧ (-2147483648 ≤ v ∧ v < 2147483647 → w = v)
    | .bad => Res.enumValue full next (enumAst (n, e)) s = .ok (none, s)
    | .out => True := by
  cases e with
  | none => exact ⟨next, rfl, fun _ => rfl⟩
  | some e =>
    have hk : ∀ x : Expr, Res.enumValue full next (enumAst (n, some x)) = (do let e ← full.expr x.ast; let v ← Res.signedConst e; pure (Res.toInt32 v)) := by
      intro x; rfl
    have hl : ∀ (l : ILit) (t : DType), l.type.isUnsigned = false → Res.signedConst (.ilit t l) = pure l.value := by
      intro l t h; simp [Res.signedConst, h]
    rw [hk]
    cases e with
    | int l =>
      simp only [enumVal]
      cases hu : l.type.isUnsigned with
      | true => trivial
      | false => exact ⟨Res.toInt32 l.value, by rw [full_expr]; simp [Expr.ast, Res.expr, Ast.lit, Ast.type, Res.literalExpr, hl, hu], toInt32_id⟩
    | char l =>
      simp only [enumVal]
      cases hu : l.type.isUnsigned with
      | true => trivial
      | false => exact ⟨Res.toInt32 l.value, by rw [full_expr]; simp [Expr.ast, Res.expr, Ast.lit, Ast.type, Res.literalExpr, hl, hu], toInt32_id⟩
    | ident m =>
      have hx : full.expr (Expr.ident m).ast = Res.identExpr (.name .identExpr m) := by rw [full_expr]; rfl
      rw [hx]
      simp only [enumVal]
      have hn : (scope s).names m = match Res.lookup m s.syms with
        | none => none
        | some (.int l) => some (.const l)
        | some (.obj (.tdef t)) => some (.type t)
        | some (.obj t) => some (.obj t) := rfl
      rw [hn]
      cases h : Res.lookup m s.syms with
      | none => simp [bind_assoc, Res.identExpr, Res.ident, Ast.name, h]
      | some y =>
        cases y with
        | int l =>
          simp only
          cases hu : l.type.isUnsigned with
          | true => trivial
          | false => exact ⟨Res.toInt32 l.value, by simp [bind_assoc, Res.identExpr, Res.ident, Ast.name, h, hl, hu], toInt32_id⟩
        | obj t => cases t <;> first | trivial | simp [bind_assoc, Res.identExpr, Res.ident, Ast.name, h, Res.signedConst]
    | _ => trivial

theorem never_collect_tail {f : β → RM α} {x : β} {xs : List β} {s : RState} (h : ∀ a s', f x s ≠ .ok (some a, s')) (r : List α) (s' : RState) :
    Res.collect f (x :: xs) s ≠ .ok (some r, s') := by
  simp only [Res.collect]
  refine never_attempt_fail (fun q s1 e => ?_) r s'
  cases q with
  | some a => exact absurd e (h a s1)
  | none => exact never_attempt_fail fun r2 s2 _ => never_fail s2

theorem enumors_acc (es : List (Id × Option Expr)) : ∀ (next : Int) (s : RState), s.enumNext = next →
    Acc (do let _ ← Res.collect (Res.enumerator full) (es.map enumAst); pure ()) s (enumors true next es (abs s)) := by
  induction es with
  | nil => intro next s _; exact ⟨s, rfl, rfl, rfl⟩
  | cons p es ih =>
    obtain ⟨n, e⟩ := p
    intro next s hs
    have h1 : (declared n (abs s).names).isNone = Res.canDefine n s.syms := declared_map nameOf n s.syms
    have hr : Res.enumerator full (enumAst (n, e)) s = (do
        Res.require (Res.canDefine n s.syms)
        let v ← Res.enumValue full s.enumNext (enumAst (n, e))
        if v + 1 ≥ 2147483648 then Res.ub
        else do
          Res.modify fun s => { s with syms := Res.define n (.int ⟨.int, v⟩) s.syms, enumNext := v + 1 }
          pure (n, v) : RM (Id × Int)) s := by
      cases e <;> rfl
    simp only [enumors, m_get_bind, List.map_cons]
    cases hd : declared n (abs s).names with
    | some u =>
      rw [hd] at h1
      refine never_bind fun a s' e => absurd e (never_collect_tail ?_ a s')
      intro b s''
      rw [hr, ← h1]
      exact never_fail s b s''
    | none =>
      rw [hd] at h1
      have hv := enumVal_run s next n e
      simp only [m_bind, ask, abs_scope]
      cases hw : enumVal (scope s) next e with
      | out => trivial
      | bad =>
        rw [hw] at hv
        refine never_bind fun a s' e => absurd e (never_collect_tail ?_ a s')
        intro b s''
        rw [hr, ← h1, hs]
        show (Res.enumValue full next (enumAst (n, _)) >>= _) s ≠ _
        rw [bind_none hv]
        simp
      | ok v =>
        rw [hw] at hv
        obtain ⟨w, k1, k2⟩ := hv
        simp only [vb_ok]
        split
        · rename_i hb
          obtain rfl := k2 hb
          have h3 : Res.enumerator full (enumAst (n, e)) s = .ok (some (n, w), { s with syms := Res.define n (.int ⟨.int, w⟩) s.syms, enumNext := w + 1 }) := by
            rw [hr, ← h1, hs]
            show (Res.enumValue full next (enumAst (n, e)) >>= _) s = _
            rw [bind_some k1, if_neg (by omega)]
            rfl
          have h4 := ih (w + 1) { s with syms := Res.define n (.int ⟨.int, w⟩) s.syms, enumNext := w + 1 } rfl
          have h5 : abs { s with syms := Res.define n (.int ⟨.int, w⟩) s.syms, enumNext := w + 1 } =
              { abs s with names := declare n (.const ⟨.int, w⟩) (abs s).names } := by
            simp only [abs, declare_map]; rfl
          rw [h5] at h4
          show Acc _ s (enumors true (w + 1) es { abs s with names := declare n (.const ⟨.int, w⟩) (abs s).names })
          simp only [Res.collect, bind_assoc]
          cases hg : enumors true (w + 1) es { abs s with names := declare n (.const ⟨.int, w⟩) (abs s).names } with
          | out => trivial
          | bad =>
            rw [hg] at h4
            intro b s'
            rw [bind_some (attempt_ok h3)]
            refine never_attempt_fail (fun r s2 e => ?_) b s'
            cases r with
            | none => exact never_fail s2
            | some l =>
              exfalso
              refine h4 () s2 ?_
              rw [bind_some e]; rfl
          | ok q =>
            obtain ⟨⟨⟩, τ⟩ := q
            rw [hg] at h4
            obtain ⟨s', e1, e2, e3⟩ := h4
            refine ⟨s', ?_, e2, e3⟩
            rw [bind_some (attempt_ok h3)]
            rw [Res.bind_run] at e1
            cases hc : Res.collect (Res.enumerator full) (es.map enumAst) { s with syms := Res.define n (.int ⟨.int, w⟩) s.syms, enumNext := w + 1 } with
            | ok r =>
              obtain ⟨r, s2⟩ := r
              rw [hc] at e1
              cases r with
              | none => simp at e1
              | some l =>
                simp at e1
                subst e1
                rw [bind_some (attempt_ok hc)]
                rfl
            | _ => rw [hc] at e1; simp at e1
        · trivial

theorem abs_enumNext (s : RState) (k : Int) : abs { s with enumNext := k } = abs s := rfl

theorem enumList_sim (es : Enums) : Sim (do let _ ← Res.enumeratorList full (.node .enumorList es.asts); pure ()) (enumors true 0 (enumList es)) := by
  intro s
  have h := enumors_acc (enumList es) 0 { s with enumNext := 0 } rfl
  rw [abs_enumNext] at h
  simp only [Res.enumeratorList, Res.node_children, bind_assoc, Res.modify_bind, enums_asts]
  cases hv : enumors true 0 (enumList es) (abs s) with
  | out => trivial
  | bad =>
    rw [hv] at h
    refine never_attempt_fail fun r s1 e b s2 => ?_
    cases r with
    | none => simp [Res.modify_bind, Res.ofOpt]
    | some l =>
      exfalso
      refine h () s1 ?_
      rw [bind_some e]; rfl
  | ok q =>
    obtain ⟨⟨⟩, τ⟩ := q
    rw [hv] at h
    obtain ⟨s', e1, e2, e3⟩ := h
    rw [Res.bind_run] at e1
    cases hc : Res.collect (Res.enumerator full) ((enumList es).map enumAst) { s with enumNext := 0 } with
    | ok r =>
      obtain ⟨r, s2⟩ := r
      rw [hc] at e1
      cases r with
      | none => simp at e1
      | some l =>
        simp at e1
        subst e1
        exact ⟨{ s2 with enumNext := 0 }, by rw [Res.modify_bind, bind_some (attempt_ok hc)]; rfl, e2, e3⟩
    | _ => rw [hc] at e1; simp at e1

theorem enumDef_sim (n : Option Id) (es : Enums) : Sim (Res.enumSpec full (Spec.enumDef n es).ast) (declTy true [.enumDef n es]) := by
  have hu : ∀ (k : List (Id × Int) → RM DType) (g : M DType), (∀ l, Sim (k l) g) →
      Sim (Res.enumeratorList full (.node .enumorList es.asts) >>= k) (do enumors true 0 (enumList es); g) := by
    intro k g hk s
    have h := enumList_sim es s
    simp only [m_bind]
    cases hv : enumors true 0 (enumList es) (abs s) with
    | out => trivial
    | bad =>
      rw [hv] at h
      refine never_bind fun a s' e => ?_
      exfalso
      refine h () s' ?_
      rw [bind_some e]; rfl
    | ok q =>
      obtain ⟨⟨⟩, τ⟩ := q
      rw [hv] at h
      obtain ⟨s', e1, e2, e3⟩ := h
      rw [Res.bind_run] at e1
      cases hc : Res.enumeratorList full (.node .enumorList es.asts) s with
      | ok r =>
        obtain ⟨r, s2⟩ := r
        rw [hc] at e1
        cases r with
        | none => simp at e1
        | some l =>
          simp at e1
          subst e1
          have := hk l s2
          simp only [vb_ok]
          rw [e2] at this
          cases hg : g τ with
          | out => trivial
          | bad => rw [hg] at this; intro b s'; rw [bind_some hc]; exact this b s'
          | ok q =>
            rw [hg] at this
            obtain ⟨s3, f1, f2, f3⟩ := this
            exact ⟨s3, by rw [bind_some hc, f1], f2, f3.trans e3⟩
      | _ => rw [hc] at e1; simp at e1
  cases n with
  | none =>
    have e : Res.enumSpec full (Spec.enumDef none es).ast = (do let _ ← Res.enumeratorList full (.node .enumorList es.asts); pure .int) := by
      funext s
      simp [Res.enumSpec, Spec.ast, optName, bind_assoc]
    rw [e]
    exact hu _ _ fun _ => Sim.pure _
  | some n =>
    have e : Res.enumSpec full (Spec.enumDef (some n) es).ast = (do
        let ms ← Res.enumeratorList full (.node .enumorList es.asts)
        let s ← Res.get
        Res.require (Res.canDefine n s.tags)
        Res.modify fun s => { s with tags := Res.define n (.uenum ms) s.tags }
        pure .int) := by
      funext s
      simp [Res.enumSpec, Spec.ast, optName, bind_assoc]
    rw [e]
    refine hu _ _ fun l => ?_
    refine Sim.congr (Sim.bind (declareTag_sim n (.uenum l)) fun _ => Sim.pure DType.int) ?_ rfl
    simp only [bind_assoc]

theorem declTy_plain {l : List Spec} (h1 : ∀ n ms, l ≠ [.structDef n ms]) (h2 : ∀ n es, l ≠ [.enumDef n es]) : declTy true l = ask fun Γ => specsTy true Γ l := by
  unfold declTy
  split
  · exact absurd rfl (h1 _ _)
  · exact absurd rfl (h2 _ _)
  · rfl

theorem declTy_sim (k : AstT) (l : List Spec) : Sim (full.spec (.node k (l.map Spec.ast))) (declTy true l) := by
  by_cases h1 : ∃ n ms, l = [.structDef n ms]
  · obtain ⟨n, ms, rfl⟩ := h1
    refine Sim.congr (structDef_sim n ms) ?_ rfl
    rw [full_spec]
    rfl
  · by_cases h2 : ∃ n ms, l = [.enumDef n ms]
    · obtain ⟨n, es, rfl⟩ := h2
      refine Sim.congr (enumDef_sim n es) ?_ rfl
      rw [full_spec]
      rfl
    · rw [declTy_plain (fun n ms h => h1 ⟨n, ms, h⟩) fun n ms h => h2 ⟨n, ms, h⟩]
      exact Sim.ask fun s => specL_does k l s

end StatL
end Umlcc
