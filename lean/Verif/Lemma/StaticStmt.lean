import Verif.Lemma.StaticDecl
import Verif.Lemma.Enum
/-!
The resolver on statements, functions and translation units, against the static semantics.
-/
namespace Umlcc
namespace StatL
open Syn Stat
open Res (RM RState RSym Rec full full_expr full_spec full_declor full_stmt full_init bind_some bind_none attempt_ok)

/-! ### scopes and blocks -/

theorem inScope_sim {m : RM α} {f : M α} (h : Sim m f) : Sim (Res.inScope m) (Stat.inScope f) := by
  intro s
  have h := h { s with syms := [] :: s.syms, tags := [] :: s.tags }
  have e : abs { s with syms := [] :: s.syms, tags := [] :: s.tags } = { abs s with names := [] :: (abs s).names, tags := [] :: (abs s).tags } := rfl
  rw [e] at h
  have hS : Stat.inScope f (abs s) = V.bind (f { abs s with names := [] :: (abs s).names, tags := [] :: (abs s).tags }) fun p =>
      .ok (p.1, { p.2 with names := p.2.names.tail, tags := p.2.tags.tail }) := rfl
  rw [hS]
  simp only [Res.inScope, Res.enter, Res.leave, Res.modify_bind]
  cases hv : f { abs s with names := [] :: (abs s).names, tags := [] :: (abs s).tags } with
  | out => simp only [vb_out]; trivial
  | bad =>
    rw [hv] at h
    simp only [vb_bad]
    refine never_attempt_fail fun r s1 e b s2 => ?_
    cases r with
    | none => simp [Res.modify_bind, Res.ofOpt]
    | some l => exact absurd e (h l s1)
  | ok q =>
    obtain ⟨x, τ⟩ := q
    rw [hv] at h
    obtain ⟨s', e1, e2, e3⟩ := h
    simp only [vb_ok]
    refine ⟨{ s' with syms := s'.syms.tail, tags := s'.tags.tail }, by rw [Res.modify_bind, bind_some (attempt_ok e1)]; rfl, ?_, e3⟩
    rw [← e2]
    simp [abs, mapVal]

/-- the statements of a block -/
noncomputable def blockOf (m : RM Unit) : RM SItems := do
  Res.modify fun s => { s with blocks := [] :: s.blocks }
  let r ← Res.attempt m
  let s ← Res.get
  match s.blocks with
  | [] => Res.ub
  | b :: bs => do
    Res.modify fun s => { s with blocks := bs }
    match r with
    | some () => pure (SItems.ofList b)
    | none => Res.fail

theorem blockOf_sim {m : RM Unit} {f : M Unit} (h : Sim m f) : Sim (blockOf m) (do let l ← inBlock f; pure (SItems.ofList l)) := by
  intro s
  have h := h { s with blocks := [] :: s.blocks }
  have e : abs { s with blocks := [] :: s.blocks } = { abs s with block := some [] } := rfl
  rw [e] at h
  have hS : (do let l ← inBlock f; pure (SItems.ofList l) : M SItems) (abs s) = V.bind (f { abs s with block := some [] }) fun p =>
      (match p.2.block with
      | some l => .ok (SItems.ofList l, { p.2 with block := (abs s).block })
      | none => .out) := by
    have : (do let l ← inBlock f; pure (SItems.ofList l) : M SItems) (abs s) = V.bind (V.bind (f { abs s with block := some [] }) fun p =>
      (match p.2.block with
      | some l => pure l
      | none => out : M (List SItem)) { p.2 with block := (abs s).block }) fun p => .ok (SItems.ofList p.1, p.2) := rfl
    rw [this]
    cases f { abs s with block := some [] } with
    | ok p =>
      simp only [vb_ok]
      cases p.2.block <;> rfl
    | _ => rfl
  rw [hS]
  simp only [blockOf, Res.modify_bind]
  cases hv : f { abs s with block := some [] } with
  | out => simp only [vb_out]; trivial
  | bad =>
    rw [hv] at h
    simp only [vb_bad]
    refine never_attempt_fail fun r s1 e b s2 => ?_
    cases r with
    | none =>
      rw [Res.get_bind]
      cases s1.blocks with
      | nil => simp [Res.ub]
      | cons b bs => simp [Res.modify_bind, Res.fail]
    | some l => exact absurd e (h l s1)
  | ok q =>
    obtain ⟨x, τ⟩ := q
    rw [hv] at h
    obtain ⟨s', e1, e2, e3⟩ := h
    simp only [vb_ok]
    have hb : s'.blocks.tail = s.blocks := e3
    subst e2
    have : (abs s').block = s'.blocks.head? := rfl
    simp only [this]
    cases hs : s'.blocks with
    | nil => trivial
    | cons b bs =>
      rw [hs] at hb
      cases hb
      refine ⟨{ s' with blocks := s.blocks }, ?_, ?_, rfl⟩
      · rw [Res.modify_bind, bind_some (attempt_ok e1), Res.get_bind, hs]; rfl
      · simp [abs]

theorem cmpd_run (lp : Bool) (ret : DType) (t : AstT) (as : List Ast) : Res.compound full lp ret (.node t as) = blockOf (Res.items full lp ret as) := rfl

theorem attempt_sim {m : RM α} {f : M α} {k : α → RM β} {g : α → M β} {q : RM β} (h : Sim m f) (hk : ∀ a, Sim (k a) (g a)) (hq : ∀ s a s', q s ≠ .ok (some a, s')) :
    Sim (do let r ← Res.attempt m; match r with | some a => k a | none => q) (f >>= g) := by
  intro s
  have h := h s
  rw [m_bind]
  cases hv : f (abs s) with
  | out => trivial
  | bad =>
    rw [hv] at h
    refine never_attempt_fail fun r s1 e => ?_
    cases r with
    | none => exact hq s1
    | some l => exact absurd e (h l s1)
  | ok p =>
    obtain ⟨a, σ⟩ := p
    rw [hv] at h
    obtain ⟨s', e1, e2, e3⟩ := h
    have hk := hk a s'
    rw [e2] at hk
    simp only [vb_ok]
    cases hg : g a σ with
    | out => trivial
    | bad =>
      rw [hg] at hk
      intro b s2
      rw [bind_some (attempt_ok e1)]
      exact hk b s2
    | ok r =>
      obtain ⟨b, τ⟩ := r
      rw [hg] at hk
      obtain ⟨s2, f1, f2, f3⟩ := hk
      exact ⟨s2, by rw [bind_some (attempt_ok e1)]; exact f1, f2, f3.trans e3⟩

theorem noteItem_sim (i : SItem) : Sim (Res.modify fun s => match s.blocks with
        | [] => s
        | b :: bs => { s with blocks := (b ++ [i]) :: bs }) (noteItem i) := by
  refine Sim.modify (fun s => ?_) fun s => ?_
  · cases h : s.blocks <;> simp [abs, h]
  · cases h : s.blocks <;> simp [h]

theorem item_sim {lp : Bool} {ret : DType} {a : Ast} {as : List Ast} {f : M SItem} {g : M Unit} (h : Sim (Res.item full lp ret a) f) (hk : Sim (Res.items full lp ret as) g) :
    Sim (Res.items full lp ret (a :: as)) (do let i ← f; noteItem i; g) := by
  refine Sim.congr (attempt_sim (q := do let _ ← Res.attempt (Res.items full lp ret as); Res.fail) h (fun i => Sim.bind (noteItem_sim i) fun _ => hk)
    fun s => never_attempt_fail fun _ s1 _ => never_fail s1) ?_ rfl
  rw [Res.items]
  congr 1
  funext r
  cases r <;> rfl

/-! ### small statements -/

theorem condition_sim (e : Expr) : Sim (do
      let c ← full.expr e.ast
      Res.require (Res.decay c).dt.isScalar
      pure (Res.decay c)) (condition true e) := by
  refine Sim.bind (Sim.expr e) fun x => ?_
  rw [decay_eq, isScalar_eq]
  exact Sim.bind (Sim.require _) fun _ => Sim.pure _

theorem optExpr_sim (lp : Bool) (ret : DType) (e : Option Expr) : Sim (full.stmt lp ret (optStmt e)) (optExpr true e) := by
  cases e with
  | none => rw [full_stmt]; exact Sim.pure _
  | some e =>
    rw [full_stmt]
    simp only [optStmt, Res.stmt, Res.node_type, Res.kid0, Res.pure_bind, decay_eq]
    exact Sim.bind (Sim.expr e) fun x => Sim.pure _

theorem optCond_sim (lp : Bool) (ret : DType) (e : Option Expr) :
    Sim (do let c ← full.stmt lp ret (optStmt e); Res.forCond c; pure c) (optCond true e) := by
  cases e with
  | none => rw [full_stmt]; exact Sim.pure _
  | some e =>
    have hr : (do let c ← full.stmt lp ret (optStmt (some e)); Res.forCond c; pure c) = (do
        let c ← (do
          let c ← full.expr e.ast
          Res.require (Res.decay c).dt.isScalar
          pure (Res.decay c) : RM SExpr)
        pure (SStmt.expr c)) := by
      simp only [full_stmt, optStmt, Res.stmt, Res.node_type, Res.kid0, Res.pure_bind, bind_assoc, Res.forCond]
    rw [hr]
    exact Sim.bind (condition_sim e) fun x => Sim.pure _

theorem label_lit {l : ILit} {x : SExpr} (h : labelLit x = some l) : ∃ t, x = .ilit t l ∧ l.type.isUnsigned = false ∧ (intOf t).isSome = true := by
  cases x with
  | ilit t m =>
    simp only [labelLit] at h
    split at h
    · cases h
    · rename_i hu
      cases h
      simp only [Bool.or_eq_true, not_or, Option.isNone_iff_eq_none] at hu
      exact ⟨t, rfl, by simpa using hu.1, by rw [Option.isSome_iff_ne_none]; exact hu.2⟩
  | _ => cases h

theorem addCase_sim {t : DType} {l : ILit} (hu : l.type.isUnsigned = false) (s : RState) (hs : s.cases.isSome = true) :
    Acc (Res.addCase (.ilit t l)) s (addLabel l.value (abs s)) := by
  obtain ⟨cs, hc⟩ := Option.isSome_iff_exists.mp hs
  have e1 : (abs s).labels = some (cs.map (·.value), s.dflt) := by simp [abs, hc]
  have e2 : (cs.any fun m => m.value = l.value) = decide (l.value ∈ cs.map (·.value)) := by
    rw [Bool.eq_iff_iff]; simp
  have hr : Res.addCase (.ilit t l) s = (do
      Res.require (!cs.any (fun m => m.value = l.value))
      Res.modify fun s => { s with cases := some (cs ++ [l]) } : RM Unit) s := by
    have : Res.signedConst (.ilit t l) = pure l.value := by simp [Res.signedConst, hu]
    unfold Res.addCase
    rw [this, Res.pure_bind, Res.get_bind, hc]
  have hl : addLabel l.value (abs s) = if l.value ∈ cs.map (·.value) then .bad else .ok ((), { abs s with labels := some (cs.map (·.value) ++ [l.value], s.dflt) }) := by
    unfold addLabel; rw [e1]
  rw [hl]
  by_cases hm : l.value ∈ cs.map (·.value)
  · rw [if_pos hm]
    intro a s'
    rw [hr, e2, decide_eq_true hm]
    exact never_fail s a s'
  · rw [if_neg hm]
    refine ⟨{ s with cases := some (cs ++ [l]) }, ?_, ?_, rfl⟩
    · rw [hr, e2, decide_eq_false hm]; rfl
    · simp [abs]

/-! ### declarations in the head of a `for` -/

theorem forEach_all {P : α → Prop} {f : β → M α} (h : ∀ y σ a τ, f y σ = .ok (a, τ) → P a) :
    (ys : List β) → (σ τ : St) → (l : List α) → forEach f ys σ = .ok (l, τ) → ∀ a ∈ l, P a
  | [], _, _, _, e => by cases e; simp
  | y :: ys, σ, τ, l, e => by
    obtain ⟨a, ρ, h1, e⟩ := m_bind_ok e
    obtain ⟨as, ρ', h2, e⟩ := m_bind_ok e
    cases e
    intro b hb
    rcases List.mem_cons.mp hb with rfl | hb
    · exact h _ _ _ _ h1
    · exact forEach_all h ys _ _ _ h2 b hb

theorem objectDtor_td {file : Bool} {t : DType} (ht : Res.isTdef t = false) {d : IDtor} {σ τ : St} {a : SDecl} (h : objectDtor true file t d σ = .ok (a, τ)) :
    Res.isTdef a.dt = false := by
  obtain ⟨u, ρ, h1, h⟩ := m_bind_ok h
  have hu := declarator_td ht h1
  split at h
  · split at h <;> cases h
  · obtain ⟨_, _, _, h⟩ := m_bind_ok h
    cases hi : d.i with
    | none => rw [hi] at h; cases h; exact hu
    | some i =>
      rw [hi] at h
      simp only at h
      split at h
      · cases h
      · obtain ⟨_, _, _, h⟩ := m_bind_ok h
        cases h; exact hu

theorem decl_td {d : Decl} (hd : d.isTd = false) {σ τ : St} {l : List SDecl} (h : decl true d σ = .ok (l, τ)) : (l.any fun d => Res.isTdef d.dt) = false := by
  simp only [decl, m_get_bind] at h
  split at h
  · cases h
  · obtain ⟨t, ρ, h1, h⟩ := m_bind_ok h
    have ht := declTy_td h1
    cases hds : d.ds with
    | nil =>
      rw [hds] at h
      simp only [hd] at h
      simp only [Bool.false_eq_true, if_false] at h
      split at h
      · cases h; rfl
      · split at h <;> cases h
    | cons x xs =>
      rw [hds] at h
      simp only [hd, Bool.false_eq_true, if_false] at h
      have := forEach_all (P := fun a : SDecl => Res.isTdef a.dt = false) (fun y σ a τ e => objectDtor_td ht e) _ _ _ _ h
      simpa using this

theorem forInit_sim (lp : Bool) (ret : DType) (d : Decl) : Sim (Res.forInit full lp ret d.ast) (do
      if definesTag d then out else pure ()
      let σ ← Stat.get
      if σ.block.isNone then out else pure ()
      let ds ← decl true d
      pure (SItem.decls ds)) := by
  cases hd : definesTag d with
  | true => exact Sim.out _
  | false =>
    have htd : d.isTd = false := by
      cases h : d.isTd with
      | false => rfl
      | true => simp [definesTag, h] at hd
    have hty : d.ast.type = .decl := by unfold Decl.ast; split <;> rfl
    have hr : Res.forInit full lp ret d.ast = (do
        let ds ← Res.decl full d.ast
        Res.require (!ds.any (fun d => Res.isTdef d.dt))
        pure (.decls ds)) := by
      unfold Res.forInit; rw [if_pos hty]
    rw [hr]
    simp only [Bool.false_eq_true, if_false]
    have main : Sim (do
        let ds ← Res.decl full d.ast
        Res.require (!ds.any (fun d => Res.isTdef d.dt))
        pure (.decls ds)) (do let ds ← decl true d; pure (SItem.decls ds)) := by
      refine Sim.bind_of (P := fun l : List SDecl => (l.any fun d => Res.isTdef d.dt) = false) (decl_sim d) (fun σ a τ h => decl_td htd h) fun l hl => ?_
      rw [hl]
      exact Sim.pure _
    intro s
    simp only [m_pure_bind, m_get_bind]
    split
    · trivial
    · exact main s

/-! ### statements -/

theorem promote_sim {x : SExpr} (h : (intOf x.dt).isSome = true) : Sim (pure (Res.promote x)) (Stat.lift (Stat.promote true x)) := by
  refine Sim.congr (Sim.is (promote_is x)) ?_ rfl
  rw [isInteger_eq, h]; rfl

theorem case_sim {lp : Bool} {ret : DType} {st : Stmt} (e : Expr) (ih : Sim (full.stmt lp ret st.ast) (stmt true lp ret st)) :
    Sim (full.stmt lp ret (Stmt.case e st).ast) (stmt true lp ret (.case e st)) := by
  rw [full_stmt]
  simp only [Stmt.ast, Res.stmt, Res.node_type, Res.caseStmt, Res.kid0, Res.kid1, Res.pure_bind, stmt]
  refine Sim.get_bind fun s => ?_
  have hl : (abs s).labels.isNone = !s.cases.isSome := by cases h : s.cases <;> simp [abs, h]
  rw [hl]
  cases hc : s.cases.isSome with
  | false => exact fun a s' => never_bind (fun _ s1 e => absurd e (never_fail s _ s1)) a s'
  | true =>
    have := (Sim.expr e s).bind (k := fun x => (do
        Res.addCase x
        let b ← full.stmt lp ret st.ast
        pure (SStmt.case (Res.promote x) b) : RM SStmt)) (g := fun x => (match labelLit x with
        | none => out
        | some l => do
          addLabel l.value
          let y ← Stat.lift (Stat.promote true x)
          let b ← stmt true lp ret st
          pure (.case y b) : M SStmt)) ?_
    · exact this
    · intro x s1 e1 e2
      cases hx : labelLit x with
      | none => trivial
      | some l =>
        obtain ⟨t, rfl, hu, ht⟩ := label_lit hx
        have hcs : s1.cases.isSome = true := by
          have h1 : (abs s1).labels = (abs s).labels := by
            simp only [Stat.expr] at e2
            cases ht : tree true (abs s).scope (abs s).next e with
            | ok y =>
              rw [ht] at e2
              injection e2 with e2
              injection e2 with _ e2
              rw [← e2]
            | _ => rw [ht] at e2; cases e2
          obtain ⟨cs, hc⟩ := Option.isSome_iff_exists.mp hc
          cases h : s1.cases with
          | some _ => rfl
          | none => simp [abs, h, hc] at h1
        have := (addCase_sim (t := t) hu s1 hcs).bind (k := fun _ => (do
            let b ← full.stmt lp ret st.ast
            pure (SStmt.case (Res.promote (.ilit t l)) b) : RM SStmt)) (g := fun _ => (do
            let y ← Stat.lift (Stat.promote true (.ilit t l))
            let b ← stmt true lp ret st
            pure (.case y b) : M SStmt)) fun _ s2 _ _ =>
          Sim.bind (k := fun y => (do let b ← full.stmt lp ret st.ast; pure (SStmt.case y b) : RM SStmt)) (promote_sim (x := .ilit t l) ht)
            (fun y => Sim.bind ih fun b => Sim.pure _) s2
        exact this

theorem default_sim {lp : Bool} {ret : DType} {st : Stmt} (ih : Sim (full.stmt lp ret st.ast) (stmt true lp ret st)) :
    Sim (full.stmt lp ret (Stmt.default st).ast) (stmt true lp ret (.default st)) := by
  rw [full_stmt]
  simp only [Stmt.ast, Res.stmt, Res.node_type, Res.defaultStmt, Res.kid0, Res.pure_bind, stmt]
  refine Sim.get_bind fun s => ?_
  cases hc : s.cases with
  | none =>
    have : (abs s).labels = none := by simp [abs, hc]
    rw [this]
    exact fun a s' => never_bind (fun _ s1 e => absurd e (never_fail s _ s1)) a s'
  | some cs =>
    have : (abs s).labels = some (cs.map (·.value), s.dflt) := by simp [abs, hc]
    rw [this]
    cases hd : s.dflt with
    | true => 
      intro a s'
      rw [Res.bind_run]
      simp [hd, Res.require, Res.fail, Res.bind_run, Pure.pure, RM.pure]
    | false =>
      have hm : Acc (Res.modify fun s => { s with dflt := true }) s (.ok ((), { abs s with labels := some (cs.map (·.value), true) })) :=
        ⟨{ s with dflt := true }, rfl, by simp [abs, hc], rfl⟩
      have := hm.bind (k := fun _ => (do
          let b ← full.stmt lp ret st.ast
          pure (.dflt b) : RM SStmt)) (g := fun _ => (do
          let b ← stmt true lp ret st
          pure (.dflt b) : M SStmt)) fun _ s1 _ _ => Sim.bind ih (fun b => Sim.pure _) s1
      exact this

theorem promote_integer (x : SExpr) : (Res.promote x).dt.isInteger = x.dt.isInteger := by
  have : ∀ t, x.dt = t → (Res.promote x).dt.isInteger = t.isInteger := by
    intro t h
    unfold Res.promote
    rw [h]
    cases t <;> first | rfl | (show x.dt.isInteger = _; rw [h])
  exact this _ rfl

theorem switch_sim {lp : Bool} {ret : DType} {st : Stmt} (c : Expr) (ih : Sim (full.stmt lp ret st.ast) (stmt true lp ret st)) :
    Sim (full.stmt lp ret (Stmt.switch c st).ast) (stmt true lp ret (.switch c st)) := by
  rw [full_stmt]
  have hr : Res.stmt full lp ret (Stmt.switch c st).ast = (do
      let x ← full.expr c.ast
      let x ← (do Res.require (Res.decay x).dt.isInteger; pure (Res.promote (Res.decay x)) : RM SExpr)
      let old ← Res.get
      Res.modify fun s => { s with cases := some [], dflt := false }
      let r ← Res.attempt (full.stmt lp ret st.ast)
      Res.modify fun s => { s with cases := old.cases, dflt := old.dflt }
      let b ← Res.ofOpt r
      pure (.switch x b)) := by
    simp only [Stmt.ast, Res.stmt, Res.node_type, Res.switchStmt, Res.kid0, Res.kid1, Res.pure_bind, bind_assoc, promote_integer]
  rw [hr]
  simp only [stmt]
  refine Sim.bind (Sim.expr c) fun x => ?_
  rw [decay_eq]
  refine Sim.bind (Sim.is (promote_is _)) fun x => ?_
  refine Sim.get_bind fun s => ?_
  have h := ih { s with cases := some [], dflt := false }
  have e : abs { s with cases := some [], dflt := false } = { abs s with labels := some ([], false) } := rfl
  rw [e] at h
  show Acc _ s (V.bind (stmt true lp ret st { abs s with labels := some ([], false) }) fun p =>
      (match p.2.labels, intOf x.dt with
      | some (vs, _), some i => if vs.all (fun v => inRange i v) then pure (.switch x p.1) else out
      | _, _ => out : M SStmt) { p.2 with labels := (abs s).labels })
  simp only [Res.modify_bind]
  cases hv : stmt true lp ret st { abs s with labels := some ([], false) } with
  | out => trivial
  | bad =>
    rw [hv] at h
    refine never_attempt_fail fun r s1 e b s2 => ?_
    cases r with
    | none => simp [Res.modify_bind, Res.ofOpt, Res.bind_run]
    | some l => exact absurd e (h l s1)
  | ok q =>
    obtain ⟨b, τ⟩ := q
    rw [hv] at h
    obtain ⟨s', e1, e2, e3⟩ := h
    simp only [vb_ok]
    cases τ.labels with
    | none => trivial
    | some q =>
      cases intOf x.dt with
      | none => trivial
      | some i =>
        cases hq : q.1.all fun v => inRange i v with
        | false => simp only [hq]; trivial
        | true =>
          simp only [hq]
          refine ⟨{ s' with cases := s.cases, dflt := s.dflt }, ?_, ?_, e3⟩
          · rw [Res.modify_bind, bind_some (attempt_ok e1)]; rfl
          · rw [← e2]; rfl

theorem ret_sim (lp : Bool) (ret : DType) : Sim (full.stmt lp ret Stmt.ret.ast) (stmt true lp ret .ret) := by
  rw [full_stmt]
  simp only [Stmt.ast, Res.stmt, Res.node_type, Res.returnStmt, Res.node_children, List.isEmpty_nil, isVoid_eq, stmt]
  cases voidTy ret with
  | true => exact Sim.pure _
  | false => exact fun s a s' => never_bind (fun _ s1 e => absurd e (never_fail s _ s1)) a s'

theorem assignable_comm (a b : DType) : DType.isAssignable a b = DType.isAssignable b a := by
  cases a with
  | ptr a =>
    cases b with
    | ptr b =>
      simp only [DType.isAssignable, equals_eq]
      rw [compat_comm, Bool.or_assoc, Bool.or_assoc, Bool.or_comm a.isVoid]
    | _ => simp [DType.isAssignable, Bool.and_comm]
  | _ => cases b <;> simp [DType.isAssignable, Bool.and_comm]

theorem retE_sim (lp : Bool) (ret : DType) (e : Expr) : Sim (full.stmt lp ret (Stmt.retE e).ast) (stmt true lp ret (.retE e)) := by
  have hr : full.stmt lp ret (Stmt.retE e).ast = (do
      Res.require (ret.isVoid = false)
      let x ← full.expr e.ast
      let y ← (do
        Res.require (DType.isAssignable ret (Res.decay x).dt)
        pure (if DType.equals (Res.decay x).dt ret then Res.decay x else .un .cast ret (Res.decay x)) : RM SExpr)
      pure (.ret (some y))) := by
    rw [full_stmt]
    simp only [Stmt.ast, Res.stmt, Res.node_type, Res.returnStmt, Res.node_children, List.isEmpty_cons, bind_assoc, Res.pure_bind]
    congr 1
    funext _
    congr 1
    funext x
    rw [assignable_comm]
  rw [hr, isVoid_eq]
  simp only [stmt]
  cases voidTy ret with
  | true => exact fun s a s' => never_bind (fun _ s1 e => absurd e (never_fail s _ s1)) a s'
  | false =>
    refine Sim.bind (Sim.expr e) fun x => ?_
    rw [decay_eq]
    exact Sim.bind (Sim.is (assignConv_is ret _)) fun y => Sim.pure _

theorem lp_sim (lp : Bool) (a : α) : Sim (do Res.require lp; pure a) (if lp then pure a else bad) := by
  cases lp with
  | true => exact Sim.pure _
  | false => exact fun s a s' => never_bind (fun _ s1 e => absurd e (never_fail s _ s1)) a s'

mutual
theorem stmt_sim (lp : Bool) (ret : DType) : (st : Stmt) → Sim (full.stmt lp ret st.ast) (stmt true lp ret st)
  | .case e st => case_sim e (stmt_sim lp ret st)
  | .default st => default_sim (stmt_sim lp ret st)
  | .block is => by
    rw [full_stmt]
    simp only [Stmt.ast, Res.stmt, Res.node_type, stmt, cmpd_run]
    refine inScope_sim ?_
    have := Sim.bind (k := fun b => (pure (.cmpd b) : RM SStmt)) (g := fun b => (pure (.cmpd b) : M SStmt)) (blockOf_sim (items_sim lp ret is)) fun b => Sim.pure _
    rw [m_bind_assoc] at this
    exact this
  | .continue => by rw [full_stmt]; simp only [Stmt.ast, Res.stmt, Res.node_type, stmt]; exact lp_sim lp _
  | .break => by
    rw [full_stmt]
    simp only [Stmt.ast, Res.stmt, Res.node_type, stmt]
    refine Sim.get_bind fun s => ?_
    have hl : (abs s).labels.isSome = s.cases.isSome := by cases h : s.cases <;> simp [abs, h]
    rw [hl]
    exact lp_sim _ _ s
  | .ret => ret_sim lp ret
  | .retE e => retE_sim lp ret e
  | .ifS c st => by
    have hr : full.stmt lp ret (Stmt.ifS c st).ast = (do
        let c ← (do
          let c ← full.expr c.ast
          Res.require (Res.decay c).dt.isScalar
          pure (Res.decay c) : RM SExpr)
        let t ← full.stmt lp ret st.ast
        pure (.ite c t)) := by
      rw [full_stmt]
      simp only [Stmt.ast, Res.stmt, Res.node_type, Res.ifStmt, Res.kid0, Res.kid1, Res.pure_bind, bind_assoc]
      rfl
    rw [hr]
    simp only [stmt]
    exact Sim.bind (condition_sim c) fun c => Sim.bind (stmt_sim lp ret st) fun t => Sim.pure _
  | .ifElse c st su => by
    have hr : full.stmt lp ret (Stmt.ifElse c st su).ast = (do
        let c ← (do
          let c ← full.expr c.ast
          Res.require (Res.decay c).dt.isScalar
          pure (Res.decay c) : RM SExpr)
        let t ← full.stmt lp ret st.ast
        let u ← full.stmt lp ret su.ast
        pure (.itee c t u)) := by
      rw [full_stmt]
      simp only [Stmt.ast, Res.stmt, Res.node_type, Res.ifStmt, Res.kid0, Res.kid1, Res.kid2, Res.pure_bind, bind_assoc]
      rfl
    rw [hr]
    simp only [stmt]
    exact Sim.bind (condition_sim c) fun c => Sim.bind (stmt_sim lp ret st) fun t => Sim.bind (stmt_sim lp ret su) fun u => Sim.pure _
  | .switch c st => switch_sim c (stmt_sim lp ret st)
  | .while c st => by
    have hr : full.stmt lp ret (Stmt.while c st).ast = (do
        let c ← (do
          let c ← full.expr c.ast
          Res.require (Res.decay c).dt.isScalar
          pure (Res.decay c) : RM SExpr)
        let t ← full.stmt true ret st.ast
        pure (.while c t)) := by
      rw [full_stmt]
      simp only [Stmt.ast, Res.stmt, Res.node_type, Res.whileStmt, Res.kid0, Res.kid1, Res.pure_bind, bind_assoc]
    rw [hr]
    simp only [stmt]
    exact Sim.bind (condition_sim c) fun c => Sim.bind (stmt_sim true ret st) fun t => Sim.pure _
  | .forD d c x st => by
    have hr : full.stmt lp ret (Stmt.forD d c x st).ast = Res.inScope (do
        let i ← Res.forInit full lp ret d.ast
        let c ← (do let c ← full.stmt lp ret (optStmt c); Res.forCond c; pure c : RM SStmt)
        let x ← full.stmt lp ret (optStmt x)
        let b ← full.stmt true ret st.ast
        pure (.for i c x b)) := by
      rw [full_stmt]
      simp only [Stmt.ast, Res.stmt, Res.node_type, Res.forStmt, Res.kid0, Res.kid1, Res.kid2, Res.kid3, Res.pure_bind, bind_assoc]
    rw [hr]
    simp only [stmt]
    refine inScope_sim ?_
    refine Sim.congr (Sim.bind (forInit_sim lp ret d) fun i => Sim.bind (optCond_sim lp ret c) fun c => Sim.bind (optExpr_sim lp ret x) fun x =>
      Sim.bind (stmt_sim true ret st) fun b => Sim.pure (SStmt.for i c x b)) rfl ?_
    funext σ
    cases definesTag d
    · simp only [Bool.false_eq_true, if_false, m_pure_bind, m_bind_assoc, m_get_bind]
      cases σ.block.isNone
      · simp only [Bool.false_eq_true, if_false, m_bind_assoc, m_pure_bind]
      · rfl
    · rfl
  | .forE i c x st => by
    have hr : full.stmt lp ret (Stmt.forE i c x st).ast = Res.inScope (do
        let i ← full.stmt lp ret (optStmt i)
        let c ← (do let c ← full.stmt lp ret (optStmt c); Res.forCond c; pure c : RM SStmt)
        let x ← full.stmt lp ret (optStmt x)
        let b ← full.stmt true ret st.ast
        pure (.for (.stmt i) c x b)) := by
      rw [full_stmt]
      have : ¬ (optStmt i).type = .decl := by cases i <;> simp [optStmt]
      simp only [Stmt.ast, Res.stmt, Res.node_type, Res.forStmt, Res.kid0, Res.kid1, Res.kid2, Res.kid3, Res.pure_bind, bind_assoc]
      unfold Res.forInit
      rw [if_neg this]
      simp only [Res.pure_bind, bind_assoc]
    rw [hr]
    simp only [stmt]
    refine inScope_sim ?_
    exact Sim.bind (optExpr_sim lp ret i) fun i => Sim.bind (optCond_sim lp ret c) fun c => Sim.bind (optExpr_sim lp ret x) fun x =>
      Sim.bind (stmt_sim true ret st) fun b => Sim.pure (SStmt.for (.stmt i) c x b)
  | .expr e => by
    rw [full_stmt]
    simp only [Stmt.ast, Res.stmt, Res.node_type, Res.kid0, Res.pure_bind, decay_eq, stmt]
    exact Sim.bind (Sim.expr e) fun x => Sim.pure _
  | .null => by rw [full_stmt]; simp only [Stmt.ast, Res.stmt, Res.node_type, stmt]; exact Sim.pure _
theorem items_sim (lp : Bool) (ret : DType) : (is : Items) → Sim (Res.items full lp ret is.asts) (items true lp ret is)
  | .nil => by simp only [Items.asts, Res.items, items]; exact Sim.pure _
  | .decl d is => by
    have hty : d.ast.type = .decl := by unfold Decl.ast; split <;> rfl
    have hr : Res.item full lp ret d.ast = (do let ds ← Res.decl full d.ast; pure (.decls ds)) := by unfold Res.item; rw [if_pos hty]
    simp only [Items.asts, items]
    refine Sim.congr (item_sim (f := do let ds ← decl true d; pure (.decls ds)) ?_ (items_sim lp ret is)) rfl ?_
    · rw [hr]; exact Sim.bind (decl_sim d) fun l => Sim.pure _
    · rw [m_bind_assoc]; rfl
  | .stmt st is => by
    have hty : ¬ st.ast.type = .decl := by cases st <;> simp [Stmt.ast]
    have hr : Res.item full lp ret st.ast = (do let s ← full.stmt lp ret st.ast; pure (.stmt s)) := by unfold Res.item; rw [if_neg hty]
    simp only [Items.asts, items]
    refine Sim.congr (item_sim (f := do let s ← stmt true lp ret st; pure (.stmt s)) ?_ (items_sim lp ret is)) rfl ?_
    · rw [hr]; exact Sim.bind (stmt_sim lp ret st) fun l => Sim.pure _
    · rw [m_bind_assoc]; rfl
end

/-! ### functions -/

def plain (ps : Params) : Prop := ∀ t ∈ paramTys ps, Res.isTdef t = false

theorem adjust_td {t : DType} (h : Res.isTdef t = false) : Res.isTdef (adjust t) = false := by cases t <;> first | rfl | exact h

theorem paramD_td {Γ : Stat.Scope} : {p : ParamD} → {q : Option Id × DType} → paramD true Γ p = .ok q → Res.isTdef q.2 = false
  | .mk ss n d, q, h => by
    rw [paramD] at h
    obtain ⟨⟨t, ds⟩, h1, h⟩ := v_bind_ok h
    obtain ⟨u, h2, h⟩ := v_bind_ok h
    obtain ⟨_, _, h⟩ := v_bind_ok h
    cases h
    exact adjust_td (deriveV_td (specsTy_td (and_ok h1).1) h2)

theorem paramL_td {Γ : Stat.Scope} : (ps : ParamL) → (l : List (Option Id × DType)) → paramL true Γ ps = .ok l → plain (paramsOf l)
  | .one p, l, h => by
    rw [paramL] at h
    obtain ⟨⟨q, _⟩, h1, h⟩ := v_bind_ok h
    cases h
    intro t ht
    simp only [paramsOf, paramTys, List.mem_singleton] at ht
    subst ht
    exact paramD_td (and_ok h1).1
  | .cons p ps, l, h => by
    rw [paramL] at h
    obtain ⟨⟨q, qs⟩, h1, h⟩ := v_bind_ok h
    cases h
    intro t ht
    simp only [paramsOf, paramTys, List.mem_cons] at ht
    rcases ht with rfl | ht
    · exact paramD_td (and_ok h1).1
    · exact paramL_td ps _ (and_ok h1).2 t ht

theorem params_td {Γ : Stat.Scope} {ps : ParamL} {qs : Params} (h : params true Γ ps = .ok qs) : plain qs := by
  unfold params paramsV at h
  split at h
  · cases h; intro t ht; cases ht
  · obtain ⟨l, h1, h⟩ := v_bind_ok h
    obtain ⟨_, _, h⟩ := v_bind_ok h
    cases h
    exact paramL_td _ _ h1

theorem dtor_td {Γ : Stat.Scope} : (d : Dtor) → (l : List Deriv) → dtor true Γ d = .ok l → ∀ ps, Deriv.fn ps ∈ l → plain ps
  | .leaf, l, h, ps, hp => by rw [dtor] at h; cases h; cases hp
  | .ptr d, l, h, ps, hp => by
    rw [dtor] at h
    obtain ⟨⟨q, qs⟩, h1, h⟩ := v_bind_ok h
    cases h
    simp only [List.mem_cons, reduceCtorEq, false_or] at hp
    exact dtor_td d _ (and_ok h1).2 ps hp
  | .arr d e, l, h, ps, hp => by
    rw [dtor] at h
    obtain ⟨⟨q, qs⟩, h1, h⟩ := v_bind_ok h
    cases h
    simp only [List.mem_cons, reduceCtorEq, false_or] at hp
    exact dtor_td d _ (and_ok h1).2 ps hp
  | .fn d qs, l, h, ps, hp => by
    rw [dtor] at h
    obtain ⟨⟨q, qs⟩, h1, h⟩ := v_bind_ok h
    cases h
    simp only [List.mem_cons, Deriv.fn.injEq] at hp
    rcases hp with rfl | hp
    · exact params_td (and_ok h1).1
    · exact dtor_td d _ (and_ok h1).2 ps hp

theorem derive_last : (l : List Deriv) → (t : DType) → (ps : Params) → (r : DType) → derive t l = some (.func ps r) → lastFn l = true → Deriv.fn ps ∈ l
  | [], _, _, _, _, h => by cases h
  | [.fn qs], t, ps, r, e, _ => by
    simp only [derive] at e
    split at e
    · cases e
    · cases e; simp
  | [.ptr], _, _, _, _, h => by cases h
  | [.arr _], _, _, _, _, h => by cases h
  | x :: y :: l, t, ps, r, e, h => by
    have h' : lastFn (y :: l) = true := by simpa [lastFn] using h
    refine List.mem_cons_of_mem _ ?_
    cases x with
    | ptr => simp only [derive] at e; exact derive_last (y :: l) _ ps r e h'
    | arr n =>
      rw [derive] at e
      split at e
      · cases e
      · exact derive_last (y :: l) _ ps r e h'
    | fn qs =>
      rw [derive] at e
      split at e
      · cases e
      · exact derive_last (y :: l) _ ps r e h'

theorem params_sim : (ps : Params) → plain ps → Sim (Res.defineParams ps) (declareParams ps)
  | .nil, _ => Sim.pure _
  | .cons none _ _, _ => fun s a s' => by simp [Res.defineParams, Res.ub]
  | .cons (some n) t ps, h => by
    have ht : nameOf (.obj t) = .obj t := nameOf_obj (h t (by simp [paramTys]))
    have ih := params_sim ps fun u hu => h u (by simp [paramTys, hu])
    intro s
    have h1 : (declared n (abs s).names).isNone = Res.canDefine n s.syms := declared_map nameOf n s.syms
    simp only [declareParams, m_get_bind, Res.defineParams]
    cases hd : declared n (abs s).names with
    | some u => trivial
    | none =>
      rw [hd] at h1
      have hm : Acc (Res.modify fun s => if Res.canDefine n s.syms then { s with syms := Res.define n (.obj t) s.syms } else s) s (bindName n (.obj t) (abs s)) := by
        refine ⟨{ s with syms := Res.define n (.obj t) s.syms }, ?_, ?_, rfl⟩
        · simp [Res.modify, ← h1]
        · simp [abs, declare_map, ht]
      exact hm.bind (k := fun _ => Res.defineParams ps) (g := fun _ => declareParams ps) fun _ s1 _ _ => ih s1

theorem named_eq : (ps : Params) → named ps = (Res.Params.names ps).all (·.isSome)
  | .nil => rfl
  | .cons n t ps => by simp [named, Res.Params.names, named_eq ps]

theorem body_sim (ps : Params) (ret : DType) (h : plain ps) (is : Items) : Sim (Res.inScope (do
        Res.defineParams ps
        Res.compound full false ret (.node .cmpdStmt is.asts))) (do
      let b ← Stat.inScope (do
        declareParams ps
        inBlock (items true false ret is))
      pure (SItems.ofList b)) := by
  rw [cmpd_run]
  have := inScope_sim (Sim.bind (params_sim ps h) fun _ => blockOf_sim (items_sim false ret is))
  refine Sim.congr this rfl ?_
  funext σ
  simp only [Stat.inScope, m_bind_assoc]
  rfl

theorem funcSpecs_run (ss : Specs) : Res.declSpecs full (.node .declSpecs ss.asts) = full.spec (.node .declSpecs ((specList ss).map Spec.ast)) := by
  have h1 : ∀ l : List Spec, tySpecs (l.map DSpec.ty) = l := by
    intro l
    induction l with
    | nil => rfl
    | cons x l ih => simp [tySpecs, ih]
  have h2 : ∀ l : List Spec, (l.map DSpec.ty).any DSpec.isTd = false := by
    intro l
    induction l with
    | nil => rfl
    | cons x l ih => simp [DSpec.isTd]
  have h := declSpecs_run ((specList ss).map DSpec.ty)
  have h3 : ((specList ss).map DSpec.ty).map DSpec.ast = ss.asts := by rw [specs_asts, List.map_map]; rfl
  rw [h1, h2, h3] at h
  rw [h]
  funext s
  simp only [Bool.false_eq_true, if_false, Res.bind_run]
  cases full.spec (.node .declSpecs ((specList ss).map Spec.ast)) s with
  | ok p => obtain ⟨r, s1⟩ := p; cases r <;> rfl
  | _ => rfl

/-- what is made of a function whose type is known -/
noncomputable def funcPost (is : Items) (u : DType) (n : Option Id) : RM SExt := match u with
  | .func ps ret =>
    match n with
    | none => Res.ub
    | some n => do
      let s ← Res.get
      Res.require (Res.canDefine n s.syms)
      Res.require ((Res.Params.names ps).all (·.isSome))
      Res.modify fun s => { s with syms := Res.define n (.obj (.func ps ret)) s.syms }
      let body ← Res.inScope (do
        Res.defineParams ps
        Res.compound full false ret (.node .cmpdStmt is.asts))
      pure (.func n (.func ps ret) body)
  | _ => Res.fail

theorem func_run (ss : Specs) (n : Id) (d : Dtor) (is : Items) : Res.external full (Ext.func ss n d is).ast = (do
      let t ← full.spec (.node .declSpecs ((specList ss).map Spec.ast))
      Res.require (!Res.isTdef t)
      let (ws, n) ← full.declor t [] (d.ast (Cdecl.leafOf (some n)))
      funcPost is (Res.connect ws t) n) := by
  simp only [Ext.ast, Res.external, Res.node_type, Res.funcDef, Res.kid0, Res.kid1, Res.kid2, Res.pure_bind, funcSpecs_run]
  rfl

theorem funcPost_acc (is : Items) (u : DType) (n : Id) (s : RState) (hu : ∀ ps r, u = .func ps r → plain ps) : Acc (funcPost is u (some n)) s ((match u with
    | .func ps ret =>
      if named ps then do
        declareName true true n (.obj u)
        let b ← Stat.inScope (do
          declareParams ps
          inBlock (items true false ret is))
        pure (.func n u (SItems.ofList b))
      else bad
    | _ => bad : M SExt) (abs s)) := by
  cases u with
  | func ps ret =>
    have hp := hu ps ret rfl
    cases hn : named ps with
    | false =>
      show Acc _ s ((if named ps then _ else bad : M SExt) (abs s))
      rw [hn]
      rw [named_eq] at hn
      intro a s'
      refine never_bind (fun _ s1 e => ?_) a s'
      refine never_bind (fun _ s2 e => ?_)
      rw [hn]
      exact never_bind (fun _ s1 e => absurd e (never_fail s2 _ s1))
    | true =>
      have h := Sim.bind (declareName_sim true n (.obj (.func ps ret))) (k := fun _ => (do
          let body ← Res.inScope (do
            Res.defineParams ps
            Res.compound full false ret (.node .cmpdStmt is.asts))
          pure (.func n (.func ps ret) body) : RM SExt)) fun _ => Sim.bind (body_sim ps ret hp is) fun b => Sim.pure (SExt.func n (.func ps ret) b)
      have hc : funcPost is (.func ps ret) (some n) = (do
          (do
            let s ← Res.get
            Res.require (Res.canDefine n s.syms)
            Res.modify fun s => { s with syms := Res.define n (.obj (.func ps ret)) s.syms } : RM Unit)
          let body ← Res.inScope (do
            Res.defineParams ps
            Res.compound full false ret (.node .cmpdStmt is.asts))
          pure (.func n (.func ps ret) body) : RM SExt) := by
        rw [named_eq] at hn
        simp only [funcPost, hn, bind_assoc]
        rfl
      rw [hc]
      simp only [m_bind_assoc] at h
      show Acc _ s ((if named ps then _ else bad : M SExt) (abs s))
      rw [hn]
      exact h s
  | _ => exact fun a s' => never_fail s a s'

theorem Acc.run {m : RM α} {k : α → RM β} {s s1 : RState} {a : α} {v : V (β × St)} (h : m s = .ok (some a, s1)) (hb : s1.blocks.tail = s.blocks.tail)
    (hk : Acc (k a) s1 v) : Acc (m >>= k) s v := by
  cases v with
  | out => trivial
  | bad => intro b s'; rw [bind_some h]; exact hk b s'
  | ok p =>
    obtain ⟨s2, e1, e2, e3⟩ := hk
    exact ⟨s2, by rw [bind_some h, e1], e2, e3.trans hb⟩

theorem func_sim (ss : Specs) (n : Id) (d : Dtor) (is : Items) : Sim (Res.external full (Ext.func ss n d is).ast) (func true ss n d is) := by
  rw [func_run]
  refine Sim.bind_of (P := fun t => Res.isTdef t = false) (declTy_sim _ _) (fun σ a τ h => declTy_td h) fun t ht => ?_
  rw [ht]
  have hb : Sim (do
      let (ws, n) ← full.declor t [] (d.ast (Cdecl.leafOf (some n)))
      funcPost is (Res.connect ws t) n) (do
        let l ← ask fun Γ => dtor true Γ d
        let u ← Stat.lift (deriveV true t l)
        match u with
        | .func ps ret =>
          if !lastFn l then Stat.lift (differs true .bad) else pure ()
          if named ps then do
            declareName true true n (.obj u)
            let b ← Stat.inScope (do
              declareParams ps
              inBlock (items true false ret is))
            pure (.func n u (SItems.ofList b))
          else bad
        | _ => bad) := by
    intro s
    rw [connect_bind]
    have hd := declor_sim t d (some n) ht s
    have e : (do let u ← declarator true t d; pure (u, some n) : M (DType × Option Id)) (abs s) =
        V.bind (dtor true (abs s).scope d) fun l => V.bind (deriveV true t l) fun u => .ok ((u, some n), abs s) := by
      have : (do let u ← declarator true t d; pure (u, some n) : M (DType × Option Id)) (abs s) =
        V.bind (V.bind (V.bind (dtor true (abs s).scope d) fun l => deriveV true t l) fun u => .ok (u, abs s)) fun p => .ok ((p.1, some n), p.2) := rfl
      rw [this]
      cases dtor true (abs s).scope d with
      | ok l => simp only [vb_ok]; cases deriveV true t l <;> rfl
      | _ => rfl
    rw [e] at hd
    have e2 : ∀ g : List Deriv → DType → M SExt, (do
        let l ← ask fun Γ => dtor true Γ d
        let u ← Stat.lift (deriveV true t l)
        g l u) (abs s) = V.bind (dtor true (abs s).scope d) fun l => V.bind (deriveV true t l) fun u => g l u (abs s) := by
      intro g
      simp only [m_bind, ask]
      cases dtor true (abs s).scope d with
      | ok l => simp only [vb_ok, Stat.lift]; cases deriveV true t l <;> rfl
      | _ => rfl
    rw [e2]
    cases h1 : dtor true (abs s).scope d with
    | out => trivial
    | bad =>
      rw [h1] at hd
      exact fun a s' => never_bind (fun b s1 e => absurd e (hd b s1)) a s'
    | ok l =>
      rw [h1] at hd
      simp only [vb_ok] at hd ⊢
      cases h2 : deriveV true t l with
      | out => trivial
      | bad =>
        rw [h2] at hd
        exact fun a s' => never_bind (fun b s1 e => absurd e (hd b s1)) a s'
      | ok u =>
        rw [h2] at hd
        simp only [vb_ok] at hd ⊢
        obtain ⟨s1, f1, f2, f3⟩ := hd
        refine Acc.run f1 f3 ?_
        cases u with
        | func ps r =>
          have := fun hl => funcPost_acc is (.func ps r) n s1 fun qs q hu => dtor_td d l h1 qs (derive_last l t qs q (by rw [(deriveV_ok h2).2, hu]) hl)
          rw [f2] at this
          simp only
          cases hl : lastFn l with
          | false => trivial
          | true => exact this hl
        | _ => exact fun a s' => never_fail s1 a s'
  intro s
  exact hb s

theorem ext_sim (x : Ext) : Sim (Res.external full x.ast) (ext true x) := by
  cases x with
  | func ss n d is => exact func_sim ss n d is
  | decl d =>
    have hty : ¬ d.ast.type = .funcDef := by unfold Decl.ast; split <;> simp
    have hr : Res.external full (Ext.decl d).ast = (do let ds ← Res.decl full d.ast; pure (.decls ds)) := by unfold Res.external Ext.ast; rw [if_neg hty]
    rw [hr]
    exact Sim.bind (decl_sim d) fun l => Sim.pure _

theorem exts_sim : (xs : List Ext) → Sim (Res.externals full (xs.map Ext.ast)) (exts true xs)
  | [] => Sim.pure _
  | x :: xs => by
    refine Sim.congr (attempt_sim (q := do let _ ← Res.attempt (Res.externals full (xs.map Ext.ast)); Res.fail) (ext_sim x) (fun i =>
      Sim.bind (Sim.modify (f := fun s => { s with unit := s.unit ++ [i] }) (g := fun σ => { σ with unit := σ.unit ++ [i] }) (fun _ => rfl) (fun _ => rfl)) fun _ => exts_sim xs)
      fun s => never_attempt_fail fun _ s1 _ => never_fail s1) ?_ rfl
    rw [List.map_cons, Res.externals]
    congr 1
    funext r
    cases r <;> rfl

theorem abs_initial : abs Res.initial = start := rfl

theorem unit_ok {xs : List Ext} {u : List SExt} (h : unit true xs = .ok u) : ∃ s, Res.transUnit full (unitAst xs) Res.initial = .ok (some u, s) := by
  have hx := exts_sim xs Res.initial
  rw [abs_initial] at hx
  unfold unit at h
  cases he : exts true xs start with
  | ok p =>
    rw [he] at h hx
    obtain ⟨s', e1, e2, -⟩ := hx
    cases h
    refine ⟨s', ?_⟩
    simp only [Res.transUnit, unitAst, Res.node_children]
    rw [bind_some (attempt_ok e1), Res.get_bind, ← e2]
    rfl
  | _ => rw [he] at h; cases h

theorem unit_bad {xs : List Ext} (h : unit true xs = .bad) (u : List SExt) (s : RState) : Res.transUnit full (unitAst xs) Res.initial ≠ .ok (some u, s) := by
  have hx := exts_sim xs Res.initial
  rw [abs_initial] at hx
  unfold unit at h
  cases he : exts true xs start with
  | bad =>
    rw [he] at hx
    refine never_attempt_fail (fun r s1 e => ?_) u s
    cases r with
    | none => intro b s2; simp [Res.get_bind, Res.fail]
    | some l => exact absurd e (hx l s1)
  | _ => rw [he] at h; cases h

theorem not_resolves {a : Ast} {u : List SExt} (h : ∀ u s, Res.transUnit full a Res.initial ≠ .ok (some u, s)) : ¬ Res.Resolves a (.ok (some u)) := by
  rintro ⟨M, hM⟩
  obtain ⟨N, -, hN⟩ := Res.resolve_tends a
  have h1 := hM (max M N) (by omega)
  rw [hN _ (by omega)] at h1
  cases e : Res.transUnit full a Res.initial with
  | ok p =>
    obtain ⟨r, s⟩ := p
    rw [e] at h1
    cases r with
    | none => cases h1
    | some v => exact h v s e
  | _ => rw [e] at h1; cases h1

end StatL
end Umlcc
