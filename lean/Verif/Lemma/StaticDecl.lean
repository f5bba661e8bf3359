import Verif.Lemma.StaticInit
/-!
The resolver on declarations, against the static semantics.
-/
namespace Umlcc
namespace StatL
open Syn Stat
open Res (RM RState RSym Rec full full_expr full_spec full_declor full_stmt full_init bind_some bind_none attempt_ok)

/-! ### specifiers -/

theorem filter_dspecs (ss : List DSpec) : (ss.map DSpec.ast).filter (fun c => c.type ≠ .stgTypedef) = (tySpecs ss).map Spec.ast := by
  induction ss with
  | nil => rfl
  | cons x ss ih =>
    cases x with
    | td => simpa [tySpecs, DSpec.ast] using ih
    | ty s => 
      have := not_stg s
      simp [tySpecs, DSpec.ast, this] at ih ⊢
      exact ih

theorem any_dspecs (ss : List DSpec) : (ss.map DSpec.ast).any (fun c => c.type = .stgTypedef) = ss.any DSpec.isTd := by
  induction ss with
  | nil => rfl
  | cons x ss ih =>
    simp only [List.map_cons, List.any_cons, ih]
    congr 1
    cases x with
    | td => rfl
    | ty s => exact decide_eq_false (not_stg s)

theorem declSpecs_run (ss : List DSpec) : Res.declSpecs full (.node .declSpecs (ss.map DSpec.ast)) =
    (do let t ← full.spec (.node .declSpecs ((tySpecs ss).map Spec.ast)); pure (if ss.any DSpec.isTd then .tdef t else t)) := by
  simp only [Res.declSpecs, Res.node_children, Res.node_type, any_dspecs]
  rw [filter_dspecs]
  cases ss.any DSpec.isTd <;> rfl

theorem m_bind_ok {f : M α} {g : α → M β} {σ τ : St} {b : β} (h : (f >>= g) σ = .ok (b, τ)) : ∃ a ρ, f σ = .ok (a, ρ) ∧ g a ρ = .ok (b, τ) := by
  simp only [m_bind] at h
  cases hf : f σ with
  | ok p => rw [hf] at h; exact ⟨p.1, p.2, rfl, h⟩
  | _ => rw [hf] at h; cases h

theorem declTy_td {l : List Spec} {σ τ : St} {t : DType} (h : declTy true l σ = .ok (t, τ)) : Res.isTdef t = false := by
  unfold declTy at h
  split at h
  · obtain ⟨⟨ms, b, a⟩, ρ, h1, h⟩ := m_bind_ok h
    simp only at h
    split at h
    · cases h; rfl
    · obtain ⟨_, _, _, h⟩ := m_bind_ok h
      obtain ⟨_, _, _, h⟩ := m_bind_ok h
      cases h; rfl
  · obtain ⟨_, _, _, h⟩ := m_bind_ok h
    split at h
    · cases h; rfl
    · obtain ⟨_, _, _, h⟩ := m_bind_ok h
      cases h; rfl
  · exact specsTy_td (ask_ok h).1

theorem derive_td : (ds : List Deriv) → (t u : DType) → Res.isTdef t = false → derive t ds = some u → Res.isTdef u = false
  | [], t, u, h, e => by simp only [derive] at e; cases e; exact h
  | .ptr :: ds, t, u, _, e => by simp only [derive] at e; exact derive_td ds _ u rfl e
  | .arr n :: ds, t, u, _, e => by
    simp only [derive] at e
    split at e
    · cases e
    · exact derive_td ds _ u rfl e
  | .fn ps :: ds, t, u, _, e => by
    simp only [derive] at e
    split at e
    · cases e
    · exact derive_td ds _ u rfl e

theorem deriveV_ok {t u : DType} {ds : List Deriv} (h : deriveV true t ds = .ok u) : blind t ds = false ∧ derive t ds = some u := by
  simp only [deriveV, Bool.true_and] at h
  split at h
  · cases h
  · split at h
    · rename_i hb _ _ hd; cases h; exact ⟨by simpa using hb, hd⟩
    · cases h

theorem deriveV_td {t u : DType} {ds : List Deriv} (ht : Res.isTdef t = false) (h : deriveV true t ds = .ok u) : Res.isTdef u = false :=
  derive_td ds t u ht (deriveV_ok h).2

theorem declarator_td {t u : DType} {d : Dtor} {σ τ : St} (ht : Res.isTdef t = false) (h : declarator true t d σ = .ok (u, τ)) : Res.isTdef u = false := by
  obtain ⟨h, -⟩ := ask_ok h
  obtain ⟨ds, -, h⟩ := v_bind_ok h
  exact deriveV_td ht h

/-! ### names -/

theorem declareName_sim (dfn : Bool) (n : Id) (y : RSym) : Sim (do
      let s ← Res.get
      Res.require (Res.canDefine n s.syms)
      Res.modify fun s => { s with syms := Res.define n y s.syms }) (declareName true dfn n (nameOf y)) := by
  intro s
  have h1 : (declared n (abs s).names).isNone = Res.canDefine n s.syms := declared_map nameOf n s.syms
  simp only [declareName]
  cases hd : declared n (abs s).names with
  | some u =>
    rw [hd] at h1
    have hb : ∀ a s', (do
        let s ← Res.get
        Res.require (Res.canDefine n s.syms)
        Res.modify fun s => { s with syms := Res.define n y s.syms } : RM Unit) s ≠ .ok (some a, s') := by
      intro a s'
      rw [Res.get_bind, ← h1]
      exact never_fail s a s'
    simp only [differs, if_true]
    repeat' split
    all_goals first | trivial | exact hb
  | none =>
    rw [hd] at h1
    refine ⟨{ s with syms := Res.define n y s.syms }, ?_, ?_, rfl⟩
    · rw [Res.get_bind, ← h1]; rfl
    · simp [abs, declare_map]

/-! ### declarators -/

def initAsts : Option Init → List Ast
  | none => []
  | some i => [i.ast]

theorem idtor_ast (d : IDtor) : d.ast = .node .initDeclor (d.d.ast (Cdecl.leafOf (some d.n)) :: initAsts d.i) := by
  obtain ⟨n, d, i⟩ := d
  cases i <;> rfl

/-- the initialiser of a declarator -/
noncomputable def initPart (t : DType) (i : Init) : RM SInit := do
  Res.modify fun s => { s with initOff := 0 }
  let r ← Res.attempt (full.init false t i.ast)
  Res.modify fun s => { s with initOff := -1 }
  Res.ofOpt r

theorem initPart_sim (file : Bool) (t : DType) (i : Init) : Sim (initPart t i) (Stat.init true file t i) := by
  intro s
  have h := init_acc file t i { s with initOff := 0 } rfl
  rw [abs_initOff] at h
  simp only [initPart, Res.modify_bind]
  cases hv : Stat.init true file t i (abs s) with
  | out => trivial
  | bad =>
    rw [hv] at h
    refine never_attempt_fail fun r s1 e b s2 => ?_
    cases r with
    | none => simp [Res.modify_bind, Res.ofOpt]
    | some l => exact absurd e (h l s1)
  | ok q =>
    obtain ⟨x, τ⟩ := q
    rw [hv] at h
    obtain ⟨s', e1, e2, e3⟩ := h
    exact ⟨{ s' with initOff := -1 }, by rw [Res.modify_bind, bind_some (attempt_ok e1)]; rfl, e2, e3⟩

/-- after the type and the name are known -/
noncomputable def initPost (t : DType) (d : IDtor) : RM SDecl := do
  let s ← Res.get
  Res.require (Res.canDefine d.n s.syms)
  Res.require (!t.isIncomplete)
  Res.modify fun s => { s with syms := Res.define d.n (.obj t) s.syms }
  match d.i with
  | none => pure ⟨.ident d.n, t, none⟩
  | some i => do
    let i ← initPart t i
    pure ⟨.ident d.n, t, some i⟩

theorem initDeclor_run (sp : DType) (d : IDtor) : Res.initDeclor full sp d.ast =
    (do let (ws, n) ← full.declor sp [] (d.d.ast (Cdecl.leafOf (some d.n)))
        match n with
        | none => Res.ub
        | some n => initPost (Res.connectSpec ws sp) { d with n := n }) := by
  rw [idtor_ast]
  simp only [Res.initDeclor, Res.kid0, Res.pure_bind, Res.node_children]
  congr 1
  funext ⟨ws, n⟩
  cases n with
  | none => rfl
  | some n =>
    obtain ⟨m, dd, i⟩ := d
    cases i with
    | none => rfl
    | some i =>
      simp only [initPost, initAsts, initPart, bind_assoc]
      rfl

theorem post_complete {t : DType} (h : incomplete t = false) (d : IDtor) : initPost t d = (do
      (do
        let s ← Res.get
        Res.require (Res.canDefine d.n s.syms)
        Res.modify fun s => { s with syms := Res.define d.n (.obj t) s.syms } : RM Unit)
      match d.i with
      | none => pure ⟨.ident d.n, t, none⟩
      | some i => do
        let i ← initPart t i
        pure ⟨.ident d.n, t, some i⟩) := by
  simp only [initPost, isIncomplete_eq, h, bind_assoc]
  rfl

theorem declor_bind2 {t : DType} {d : Dtor} {n : Option Id} {k : DType → Option Id → RM β} {g : DType → M β} (ht : Res.isTdef t = false)
    (h : ∀ u, Res.isTdef u = false → Sim (k u n) (g u)) :
    Sim (do let (ws, n) ← full.declor t [] (d.ast (Cdecl.leafOf n)); k (Res.connect ws t) n) (declarator true t d >>= g) := by
  rw [connect_bind]
  have e : (declarator true t d >>= g) = ((do let u ← declarator true t d; pure (u, n) : M (DType × Option Id)) >>= fun p => g p.1) := by
    rw [m_bind_assoc]; rfl
  rw [e]
  refine Sim.bind_of (P := fun p => p.2 = n ∧ Res.isTdef p.1 = false) (declor_sim t d n ht) ?_ ?_
  · intro σ a τ h
    obtain ⟨u, ρ, h1, h⟩ := m_bind_ok h
    cases h
    exact ⟨rfl, declarator_td ht h1⟩
  · rintro ⟨u, m⟩ ⟨rfl, hu⟩
    exact h u hu

theorem nameOf_obj {u : DType} (h : Res.isTdef u = false) : nameOf (.obj u) = .obj u := by cases u <;> first | rfl | cases h

theorem post_incomplete {t : DType} (h : incomplete t = true) (d : IDtor) (s : RState) (a : SDecl) (s' : RState) : initPost t d s ≠ .ok (some a, s') := by
  simp only [initPost, isIncomplete_eq, h, Res.get_bind]
  exact never_bind (fun _ s1 _ => fun b s2 => never_fail s1 b s2) a s'

theorem init_func (ps : Params) (r : DType) (i : Init) (s : RState) (a : SInit) (s' : RState) : initPart (.func ps r) i s ≠ .ok (some a, s') := by
  simp only [initPart, Res.modify_bind]
  refine never_attempt_fail (fun q s1 e => ?_) a s'
  rw [full_init] at e
  have e : (Res.fail : RM SInit) _ = .ok (q, s1) := e
  cases q with
  | none => intro b s2; simp [Res.modify_bind, Res.ofOpt]
  | some x => exact absurd e (never_fail _ _ _)

theorem init_tdef (t : DType) (i : Init) (s : RState) (a : SInit) (s' : RState) : initPart (.tdef t) i s ≠ .ok (some a, s') := by
  simp only [initPart, Res.modify_bind]
  refine never_attempt_fail (fun q s1 e => ?_) a s'
  rw [full_init] at e
  have e : (Res.fail : RM SInit) _ = .ok (q, s1) := e
  cases q with
  | none => intro b s2; simp [Res.modify_bind, Res.ofOpt]
  | some x => exact absurd e (never_fail _ _ _)

noncomputable def declPost (d : IDtor) (u : DType) (n : Option Id) : RM SDecl := match n with
  | none => Res.ub
  | some n => initPost u { d with n := n }

theorem objectDtor_sim (file : Bool) (t : DType) (ht : Res.isTdef t = false) (d : IDtor) : Sim (Res.initDeclor full t d.ast) (objectDtor true file t d) := by
  have hc : ∀ ws, Res.connectSpec ws t = Res.connect ws t := by intro ws; cases t <;> first | rfl | cases ht
  have hr : Res.initDeclor full t d.ast = (do
      let (ws, n) ← full.declor t [] (d.d.ast (Cdecl.leafOf (some d.n)))
      declPost d (Res.connect ws t) n) := by
    rw [initDeclor_run]
    congr 1
    funext ⟨ws, n⟩
    simp only [hc, declPost]
    cases n <;> rfl
  rw [hr]
  unfold objectDtor
  refine declor_bind2 (k := declPost d) (n := some d.n) (d := d.d) ht fun u hu => ?_
  simp only [declPost]
  cases hi : incomplete u with
  | true =>
    simp only [if_true]
    split
    · exact Sim.out _
    · exact fun s a s' => post_incomplete hi _ s a s'
  | false =>
    rw [post_complete hi]
    have hn := declareName_sim d.i.isSome d.n (.obj u)
    rw [nameOf_obj hu] at hn
    refine Sim.bind hn fun _ => ?_
    cases d.i with
    | none => exact Sim.pure _
    | some i =>
      simp only
      cases hf : funcTy u with
      | true =>
        obtain ⟨ps, r, rfl⟩ : ∃ ps r, u = .func ps r := by cases u <;> first | exact ⟨_, _, rfl⟩ | cases hf
        exact fun s a s' => never_bind (fun b s1 e => absurd e (init_func _ _ _ _ _ _)) a s'
      | false => exact Sim.bind (initPart_sim file u i) fun i => Sim.pure _

/-! ### typedefs -/

theorem leaf_tdef (t : DType) (ds : List Deriv) (hv : ¬ (voidTy t = true ∧ ∃ ps ds', ds = .fn ps :: ds')) (nm : Option Id) (s : RState) :
    full.declor (.tdef t) ((ds.map W).reverse) (Cdecl.leafOf nm) s = .ok (if leafOk t ds then some ((ds.map W).reverse, nm) else none, s) := by
  have h1 : Res.lastArr ((ds.map W).reverse) = match ds with | .arr _ :: _ => true | _ => false := by
    cases ds with
    | nil => rfl
    | cons d ds => simp only [Res.lastArr, last_rev]; cases d <;> rfl
  have h2 : Res.lastFunc ((ds.map W).reverse) = match ds with | .fn _ :: _ => true | _ => false := by
    cases ds with
    | nil => rfl
    | cons d ds => simp only [Res.lastFunc, last_rev]; cases d <;> rfl
  have hl : leafOk t ds = (!(Res.lastArr ((ds.map W).reverse) && incomplete t) && !(Res.lastFunc ((ds.map W).reverse) && incomplete t && !(DType.isVoid (.tdef t)))) := by
    rw [h1, h2]
    cases ds with
    | nil => rfl
    | cons d ds =>
      cases d with
      | fn ps =>
        have : voidTy t = false := by
          cases h : voidTy t with
          | false => rfl
          | true => exact absurd ⟨h, _, _, rfl⟩ hv
        simp [leafOk, this, DType.isVoid]
      | _ => simp [leafOk]
  rw [full_declor, hl]
  cases nm with
  | none =>
    simp only [Cdecl.leafOf, Res.declor, Res.node_type, Res.definedType, isIncomplete_eq]
    cases (Res.lastArr ((ds.map W).reverse) && incomplete t) <;> cases (Res.lastFunc ((ds.map W).reverse) && incomplete t && !(DType.isVoid (.tdef t))) <;> rfl
  | some n =>
    simp only [Cdecl.leafOf, Res.declor, Res.name_type, Res.definedType, isIncomplete_eq]
    cases (Res.lastArr ((ds.map W).reverse) && incomplete t) <;> cases (Res.lastFunc ((ds.map W).reverse) && incomplete t && !(DType.isVoid (.tdef t))) <;> rfl

/-- the type of a typedef name -/
def typedefV (t : DType) (l : List Deriv) : V DType :=
  match l with
  | .fn _ :: _ => if voidTy t then differs true (deriveV true t l) else deriveV true t l
  | l => deriveV true t l

theorem typedefV_cases (t : DType) (l : List Deriv) : typedefV t l = .out ∨ (typedefV t l = deriveV true t l ∧ ¬ (voidTy t = true ∧ ∃ ps ds', l = .fn ps :: ds')) := by
  unfold typedefV
  split
  · split
    · exact .inl rfl
    · rename_i h; exact .inr ⟨rfl, fun h' => h h'.1⟩
  · rename_i h; exact .inr ⟨rfl, fun ⟨_, ps, ds, e⟩ => h ps ds e⟩

theorem tdef_does (t : DType) (d : Dtor) (nm : Option Id) (s : RState) :
    Does (do let (ws, n) ← full.declor (.tdef t) [] (d.ast (Cdecl.leafOf nm)); pure (Res.connect ws t, n)) s
      (do let ds ← dtor true (scope s) d; let t ← typedefV t ds; .ok (t, nm)) [] := by
  have hw := dtor_walks s d
  unfold Walks at hw
  cases hd : dtor true (scope s) d with
  | out => trivial
  | bad => rw [hd] at hw; exact Does.fail (bind_none (hw _ _ _))
  | ok ds =>
    rw [hd] at hw
    have hw := hw (.tdef t) [] (Cdecl.leafOf nm)
    rw [addAll_rev] at hw
    simp only [v_ok]
    rcases typedefV_cases t ds with h | ⟨h, hv⟩
    · rw [h]; trivial
    · rw [h]
      simp only [deriveV, Bool.true_and]
      cases hb : blind t ds with
      | true => trivial
      | false =>
        rw [derive_eq t ds hb]
        simp only [Bool.false_eq_true, if_false]
        cases hc : chainOk ds with
        | false =>
          rw [hc] at hw
          simp only [Bool.and_false]
          exact Does.fail (bind_none hw)
        | true =>
          rw [hc] at hw
          simp only [if_true] at hw
          rw [leaf_tdef t ds hv] at hw
          cases hl : leafOk t ds with
          | false => rw [hl] at hw; exact Does.fail (bind_none hw)
          | true => rw [hl] at hw; exact (bind_some (m := full.declor _ _ _) hw).trans rfl

theorem typedefDtor_sim (t : DType) (d : IDtor) : Sim (Res.initDeclor full (.tdef t) d.ast) (typedefDtor true t d) := by
  have hr : Res.initDeclor full (.tdef t) d.ast = ((do
      let (ws, n) ← full.declor (.tdef t) [] (d.d.ast (Cdecl.leafOf (some d.n)))
      pure (Res.connect ws t, n) : RM (DType × Option Id)) >>= fun p => match p.2 with
        | none => Res.ub
        | some n => initPost (.tdef p.1) { d with n := n }) := by
    rw [initDeclor_run, bind_assoc]
    congr 1
  have hs : typedefDtor true t d = ((do
      let u ← ask fun Γ => do let l ← dtor true Γ d.d; typedefV t l
      pure (u, some d.n) : M (DType × Option Id)) >>= fun p => do
        declareName true false d.n (.type p.1)
        match d.i with
        | none => pure ⟨.ident d.n, .tdef p.1, none⟩
        | some _ => bad) := by
    funext σ
    simp only [typedefDtor, m_bind, ask]
    cases dtor true σ.scope d.d with
    | ok l =>
      simp only [vb_ok, v_ok]
      unfold typedefV
      split
      · split
        · rfl
        · simp only [Stat.lift]
          cases deriveV true t _ <;> rfl
      · simp only [Stat.lift]
        cases deriveV true t _ <;> rfl
    | _ => rfl
  rw [hr, hs]
  refine Sim.bind_of (P := fun p => p.2 = some d.n) ?_ ?_ ?_
  · intro s
    have h := (tdef_does t d.d (some d.n) s).acc
    rw [← abs_scope] at h
    have e : (do let u ← ask fun Γ => do let l ← dtor true Γ d.d; typedefV t l
                 pure (u, some d.n) : M (DType × Option Id)) (abs s) =
        V.bind (do let ds ← dtor true (abs s).scope d.d; let t ← typedefV t ds; .ok (t, some d.n)) fun a => .ok (a, abs s) := by
      simp only [m_bind, Stat.ask]
      cases dtor true (abs s).scope d.d with
      | ok ds =>
        simp only [v_ok]
        cases typedefV t ds <;> rfl
      | _ => rfl
    rw [e]
    exact h
  · intro σ a τ h
    obtain ⟨u, ρ, h1, h⟩ := m_bind_ok h
    cases h
    rfl
  · rintro ⟨u, m⟩ rfl
    simp only
    rw [post_complete rfl]
    refine Sim.bind (declareName_sim false d.n (.obj (.tdef u))) fun _ => ?_
    cases d.i with
    | none => exact Sim.pure _
    | some i => exact fun s a s' => never_bind (fun b s1 e => absurd e (init_tdef _ _ _ _ _)) a s'

/-! ### declarations -/

theorem decl_run (d : Decl) : Res.decl full d.ast = (do
    let t ← full.spec (.node .declSpecs ((tySpecs d.ss).map Spec.ast))
    match d.ds with
    | [] => pure []
    | ds => Res.collect (Res.initDeclor full (if d.isTd then .tdef t else t)) (ds.map IDtor.ast)) := by
  obtain ⟨ss, ds⟩ := d
  cases ds with
  | nil =>
    simp only [Decl.ast, List.isEmpty_nil, if_true, Res.decl, Res.kid0, Res.pure_bind, declSpecs_run, bind_assoc, Res.node_children]
  | cons d ds =>
    simp only [Decl.ast, List.isEmpty_cons, Bool.false_eq_true, if_false, Res.decl, Res.kid0, Res.kid1, Res.pure_bind, declSpecs_run, bind_assoc, Res.node_children]
    rfl

theorem decl_sim (d : Decl) : Sim (Res.decl full d.ast) (decl true d) := by
  rw [decl_run]
  have main : ∀ file, Sim (do
      let t ← full.spec (.node .declSpecs ((tySpecs d.ss).map Spec.ast))
      match d.ds with
      | [] => pure []
      | ds => Res.collect (Res.initDeclor full (if d.isTd then .tdef t else t)) (ds.map IDtor.ast) : RM (List SDecl)) (do
      let t ← declTy true (tySpecs d.ss)
      match d.ds with
      | [] =>
        if d.isTd then out
        else if declaresTag (tySpecs d.ss) || (file && isStructRef (tySpecs d.ss)) then pure [] else if isStructRef (tySpecs d.ss) then out else Stat.lift (differs true .bad)
      | ds => if d.isTd then forEach (typedefDtor true t) ds else forEach (objectDtor true file t) ds) := by
    intro file
    refine Sim.bind_of (P := fun t => Res.isTdef t = false) (declTy_sim _ _) (fun σ a τ h => declTy_td h) fun t ht => ?_
    cases d.ds with
    | nil =>
      simp only
      split
      · exact Sim.out _
      · split
        · exact Sim.pure _
        · split
          · exact Sim.out _
          · exact Sim.out _
    | cons x ds =>
      simp only
      cases d.isTd with
      | true => exact Sim.collect fun y _ => typedefDtor_sim t y
      | false => exact Sim.collect fun y _ => objectDtor_sim file t ht y
  intro s
  simp only [decl, m_get_bind]
  by_cases h : (d.ss.filter DSpec.isTd).length > 1
  · rw [if_pos h]; trivial
  · rw [if_neg h]; exact main _ s

end StatL
end Umlcc
