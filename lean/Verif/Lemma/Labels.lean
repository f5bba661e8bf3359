import Verif.Lemma.Enum
/-!
C56: labels, break and continue.
-/
namespace Umlcc
namespace Res

def b2n (b : Bool) : Nat := if b then 1 else 0

/-- what statements leave alone -/
structure Post (s s' : RState) : Prop where
  same : s' = { s with cases := s'.cases, dflt := s'.dflt }
  isSome : s'.cases.isSome = s.cases.isSome
  nodup : (∀ cs, s.cases = some cs → (cs.map (·.value)).Nodup) → ∀ cs, s'.cases = some cs → (cs.map (·.value)).Nodup

theorem Post.refl (s : RState) : Post s s := ⟨rfl, rfl, fun h => h⟩
theorem Post.trans {s s' s'' : RState} (h : Post s s') (h' : Post s' s'') : Post s s'' :=
  ⟨by have := h'.same; rw [h.same] at this; simpa using this, h'.isSome.trans h.isSome, fun k => h'.nodup (h.nodup k)⟩
theorem Post.syms {s s' : RState} (h : Post s s') : s'.syms = s.syms := by rw [h.same]

/-- the labels can be added -/
def Fits (s : RState) (ls : List Int) (d : Nat) : Prop :=
  ∀ cs, s.cases = some cs → (cs.map (·.value) ++ ls).Nodup ∧ b2n s.dflt + d ≤ 1
/-- the labels have been added -/
def Eff (s s' : RState) (ls : List Int) (d : Nat) : Prop :=
  ∀ cs, s.cases = some cs → ∃ cs', s'.cases = some cs' ∧ cs'.map (·.value) = cs.map (·.value) ++ ls ∧ b2n s'.dflt = b2n s.dflt + d

theorem Eff.refl (s : RState) : Eff s s [] 0 := fun cs h => ⟨cs, h, by simp⟩
theorem Eff.trans {s s' s'' : RState} {l l' : List Int} {d d' : Nat} (h : Eff s s' l d) (h' : Eff s' s'' l' d') : Eff s s'' (l ++ l') (d + d') := by
  intro cs hc
  obtain ⟨cs1, h1, h2, h3⟩ := h cs hc
  obtain ⟨cs2, h4, h5, h6⟩ := h' cs1 h1
  exact ⟨cs2, h4, by rw [h5, h2, List.append_assoc], by omega⟩

theorem fits_append {s s' : RState} {l l' : List Int} {d d' : Nat} (h : Eff s s' l d) (hp : Post s s') : Fits s (l ++ l') (d + d') ↔ Fits s l d ∧ Fits s' l' d' := by
  constructor
  · intro hf
    refine ⟨fun cs hc => ?_, fun cs' hc' => ?_⟩
    · have := hf cs hc
      rw [← List.append_assoc] at this
      exact ⟨(List.nodup_append.1 this.1).1, by omega⟩
    · have : s.cases.isSome = true := by rw [← hp.isSome, hc']; rfl
      obtain ⟨cs, hc⟩ := Option.isSome_iff_exists.1 this
      obtain ⟨cs1, h1, h2, h3⟩ := h cs hc
      rw [hc'] at h1
      cases h1
      have := hf cs hc
      rw [h2, List.append_assoc, h3]
      exact ⟨this.1, by omega⟩
  · rintro ⟨h1, h2⟩ cs hc
    obtain ⟨cs1, h3, h4, h5⟩ := h cs hc
    have := h2 cs1 h3
    rw [h4, List.append_assoc, h5] at this
    exact ⟨this.1, by omega⟩

/-- the nodup invariant -/
def Inv (s : RState) : Prop := ∀ cs, s.cases = some cs → (cs.map (·.value)).Nodup ∧ b2n s.dflt ≤ 1

theorem Inv.of_post {s s' : RState} (h : Inv s) (hp : Post s s') : Inv s' :=
  fun cs hc => ⟨hp.nodup (fun cs hc => (h cs hc).1) cs hc, by unfold b2n; split <;> omega⟩

theorem fits_nil {s : RState} (h : Inv s) : Fits s [] 0 := fun cs hc => by simpa using h cs hc

/-- a part of the resolver that accepts iff `ok` holds (given whether there is a switch) and its labels can be added to those of the switch -/
def Lab (m : RM α) (ok : Bool → Prop) (ls : List Int) (d : Nat) (s : RState) : Prop :=
  ∃ r s', m s = .ok (r, s') ∧ Post s s' ∧ (r.isSome = true ↔ ok s.cases.isSome ∧ Fits s ls d) ∧ (r.isSome = true → Eff s s' ls d)

theorem Lab.pure (a : α) {s : RState} (h : Inv s) : Lab (pure a : RM α) (fun _ => True) [] 0 s :=
  ⟨some a, s, rfl, .refl s, by simp [fits_nil h], fun _ => .refl s⟩

theorem Lab.bind {m : RM α} {f : α → RM β} {ok ok' : Bool → Prop} {l l' : List Int} {d d' : Nat} {s : RState} (hi : Inv s)
    (hm : Lab m ok l d s) (hf : ∀ a s', m s = .ok (some a, s') → Post s s' → Inv s' → Lab (f a) ok' l' d' s') :
    Lab (m >>= f) (fun b => ok b ∧ ok' b) (l ++ l') (d + d') s := by
  obtain ⟨r, s1, h1, h2, h3, h4⟩ := hm
  cases r with
  | none =>
    refine ⟨none, s1, bind_none h1, h2, ?_, by simp⟩
    simp only [Option.isSome_none, Bool.false_eq_true, false_iff]
    rintro ⟨⟨hok, -⟩, hf⟩
    refine absurd (h3.2 ⟨hok, ?_⟩) (by simp)
    intro cs hc
    have := hf cs hc
    rw [← List.append_assoc] at this
    exact ⟨(List.nodup_append.1 this.1).1, by omega⟩
  | some a =>
    obtain ⟨r, s2, k1, k2, k3, k4⟩ := hf a s1 h1 h2 (hi.of_post h2)
    have e1 := h4 rfl
    have o1 := h3.1 rfl
    refine ⟨r, s2, (bind_some h1).trans k1, h2.trans k2, ?_, fun hr => e1.trans (k4 hr)⟩
    rw [k3, h2.isSome, fits_append e1 h2]
    constructor
    · rintro ⟨a, b⟩; exact ⟨⟨o1.1, a⟩, o1.2, b⟩
    · rintro ⟨⟨-, a⟩, -, b⟩; exact ⟨a, b⟩

theorem Lab.congr {m : RM α} {ok ok' : Bool → Prop} {l l' : List Int} {d d' : Nat} {s : RState} (h : Lab m ok l d s)
    (ho : ok s.cases.isSome ↔ ok' s.cases.isSome) (hl : l = l') (hd : d = d') : Lab m ok' l' d' s := by
  subst hl hd
  obtain ⟨r, s', h1, h2, h3, h4⟩ := h
  exact ⟨r, s', h1, h2, by rw [h3, ho], h4⟩

theorem Lab.require (b : Bool) {s : RState} (h : Inv s) : Lab (require b) (fun _ => b = true) [] 0 s := by
  cases b
  · exact ⟨none, s, rfl, .refl s, by simp, by simp⟩
  · exact ⟨some (), s, rfl, .refl s, by simp [fits_nil h], fun _ => .refl s⟩

variable {env : Str → Option RSym}

def Env (env : Str → Option RSym) (s : RState) : Prop := ∀ n, lookup n s.syms = env n

theorem Env.post {s s' : RState} (h : Env env s) (hp : Post s s') : Env env s' := fun n => by rw [hp.syms]; exact h n

theorem Lab.expr {e : Syn.Expr} {s : RState} (he : IntExpr env e) (hs : Env env s) :
    ∃ x : SExpr, x.dt.isInteger = true ∧ full.expr e.ast s = .ok (some x, s) := by
  obtain ⟨x, h1, h2⟩ := he
  exact ⟨x, h1, (runs_iff (tends_full.expr _)).1 (h2 s hs)⟩

theorem integer_scalar {t : DType} (h : t.isInteger = true) : t.isScalar = true := by cases t <;> simp_all [DType.isInteger, DType.isScalar]
theorem integer_arith {t : DType} (h : t.isInteger = true) : t.isArithmetic = true := by cases t <;> simp_all [DType.isInteger, DType.isArithmetic]
theorem decay_integer {x : SExpr} (h : x.dt.isInteger = true) : decay x = x := by
  unfold decay
  cases hx : x.dt <;> simp_all [DType.isInteger]

/-- a condition -/
theorem Lab.cond {e : Syn.Expr} {s : RState} (he : IntExpr env e) (hs : Env env s) (f : SExpr → RM α) {ok : Bool → Prop} {l : List Int} {d : Nat}
    (hf : ∀ x : SExpr, x.dt.isInteger = true → Lab (f x) ok l d s) : Lab (full.expr e.ast >>= f) ok l d s := by
  obtain ⟨x, h1, h2⟩ := Lab.expr he hs
  obtain ⟨r, s', k1, k2⟩ := hf x h1
  exact ⟨r, s', (bind_some h2).trans k1, k2⟩

theorem Lab.map {m : RM α} {ok : Bool → Prop} {l : List Int} {d : Nat} {s : RState} (h : Lab m ok l d s) (f : α → β) : Lab (m >>= fun a => Pure.pure (f a)) ok l d s := by
  obtain ⟨r, s1, h1, h2, h3, h4⟩ := h
  cases r with
  | none => exact ⟨none, s1, bind_none h1, h2, h3, h4⟩
  | some a => exact ⟨some (f a), s1, (bind_some h1).trans rfl, h2, by simpa using h3, by simpa using h4⟩

/-- with a scope -/
theorem Lab.inScope {m : RM α} {ok : Bool → Prop} {l : List Int} {d : Nat} {s : RState}
    (h : Lab m ok l d { s with syms := [] :: s.syms, tags := [] :: s.tags }) : Lab (inScope m) ok l d s := by
  obtain ⟨r, s1, h1, h2, h3, h4⟩ := h
  have hsame := h2.same
  refine ⟨r, { s1 with syms := s1.syms.tail, tags := s1.tags.tail }, ?_, ⟨?_, h2.isSome, h2.nodup⟩, h3, h4⟩
  · simp only [Res.inScope, enter, leave, modify_bind]
    rw [bind_some (attempt_ok h1)]
    cases r <;> rfl
  · obtain ⟨_, _, _, _, _, _, _, _, _⟩ := s1
    simp at hsame
    simp [hsame]

theorem Env.scope {s : RState} (h : Env env s) : Env env { s with syms := [] :: s.syms, tags := [] :: s.tags } := fun n => by
  simpa [lookup, assoc] using h n

theorem Lab.attempt_fail {m : RM α} {ok : Bool → Prop} {l : List Int} {d : Nat} {s : RState} (h : Lab m ok l d s) :
    ∃ s', (do let _ ← attempt m; (fail : RM β)) s = .ok (none, s') ∧ Post s s' := by
  obtain ⟨r, s1, h1, h2, -⟩ := h
  exact ⟨s1, by rw [bind_some (attempt_ok h1)]; rfl, h2⟩

variable {ret : DType}

/-- the statement about statements -/
def StmtLab (env : Str → Option RSym) (ret : DType) (st : Syn.Stmt) : Prop :=
  ∀ (lp : Bool) (s : RState), Env env s → Inv s → Lab (full.stmt lp ret st.ast) (fun sw => LabelsOk ret.isVoid lp sw st) (caseLabels st) (defaultLabels st) s

theorem lab_optStmt (o : Option Syn.Expr) (ho : optInt env o) (lp : Bool) {s : RState} (hs : Env env s) (hi : Inv s) :
    Lab (full.stmt lp ret (Syn.optStmt o)) (fun _ => True) [] 0 s := by
  cases o with
  | none =>
    rw [full_stmt]
    exact Lab.pure _ hi
  | some e =>
    rw [full_stmt]
    exact Lab.cond ho hs _ fun x hx => Lab.pure _ hi

theorem lab_addCase (l : ILit) (t : DType) (hl : l.type.isUnsigned = false) {s : RState} (hi : Inv s) (hc : s.cases.isSome = true) :
    Lab (addCase (.ilit t l)) (fun _ => True) [l.value] 0 s := by
  obtain ⟨cs, hcs⟩ := Option.isSome_iff_exists.1 hc
  have hcv := hi cs hcs
  by_cases ha : cs.any (fun k => k.value = l.value) = true
  · refine ⟨none, s, ?_, .refl s, ?_, by simp⟩
    · have hr : require (!cs.any (fun k => decide (k.value = l.value))) s = .ok (none, s) := by rw [ha]; rfl
      simp only [addCase, signedConst, hl, Bool.false_eq_true, if_false, pure_bind, get_bind, hcs]
      exact bind_none hr
    · simp only [Option.isSome_none, Bool.false_eq_true, true_and, false_iff]
      intro hf
      have := (List.nodup_append.1 (hf cs hcs).1).2.2
      simp only [List.any_eq_true, decide_eq_true_eq] at ha
      obtain ⟨k, hk, he⟩ := ha
      exact this k.value (List.mem_map.2 ⟨k, hk, rfl⟩) l.value (by simp) he
  · have ha' : cs.any (fun k => k.value = l.value) = false := by simpa using ha
    have hnd : (cs.map (·.value) ++ [l.value]).Nodup := by
      refine List.nodup_append.2 ⟨hcv.1, by simp, ?_⟩
      intro a ha b hb
      obtain ⟨k, hk, rfl⟩ := List.mem_map.1 ha
      simp only [List.mem_singleton] at hb
      subst hb
      intro he
      simp only [List.any_eq_false, decide_eq_true_eq] at ha'
      exact ha' k hk he
    refine ⟨some (), { s with cases := some (cs ++ [l]) }, ?_, ⟨rfl, by simp [hcs], ?_⟩, ?_, ?_⟩
    · have hr : require (!cs.any (fun k => decide (k.value = l.value))) s = .ok (some (), s) := by rw [ha']; rfl
      simp only [addCase, signedConst, hl, Bool.false_eq_true, if_false, pure_bind, get_bind, hcs]
      rw [bind_some hr]
      rfl
    · rintro - cs' hcs'
      cases hcs'
      simpa using hnd
    · simp only [Option.isSome_some, true_and, true_iff]
      intro cs' hcs'
      rw [hcs] at hcs'
      cases hcs'
      exact ⟨hnd, by omega⟩
    · rintro - cs' hcs'
      rw [hcs] at hcs'
      cases hcs'
      exact ⟨_, rfl, by simp, rfl⟩

theorem lit_run (l : ILit) (s : RState) : ∃ t, full.expr (Syn.Expr.int l).ast s = .ok (some (.ilit t l), s) := ⟨litType l.type, by rw [full_expr]; rfl⟩
theorem chr_run (l : ILit) (s : RState) : ∃ t, full.expr (Syn.Expr.char l).ast s = .ok (some (.ilit t l), s) := ⟨.int, by rw [full_expr]; rfl⟩

theorem lab_case {a : Ast} {b : Syn.Stmt} {l : ILit} (hl : l.type.isUnsigned = false) (hb : StmtLab env ret b)
    (ha : ∀ s, ∃ t, full.expr a s = .ok (some (.ilit t l), s)) (lp : Bool) (s : RState) (hs : Env env s) (hi : Inv s) :
    Lab (full.stmt lp ret (.node .caseStmt [a, b.ast])) (fun sw => sw = true ∧ LabelsOk ret.isVoid lp sw b) (l.value :: caseLabels b) (defaultLabels b) s := by
  rw [full_stmt]
  have e : stmt full lp ret (.node .caseStmt [a, b.ast]) = (do
      let s ← get
      require s.cases.isSome
      let e ← full.expr a
      addCase e
      let b ← full.stmt lp ret b.ast
      pure (.case (promote e) b)) := rfl
  rw [e]
  cases hc : s.cases.isSome with
  | false =>
    refine ⟨none, s, ?_, .refl s, by simp [hc], by simp⟩
    simp only [get_bind, hc]
    exact bind_none rfl
  | true =>
    obtain ⟨t, ht⟩ := ha s
    have h1 := lab_addCase l t hl hi hc
    have h2 := h1.bind (f := fun _ => (do let b ← full.stmt lp ret b.ast; pure (SStmt.case (promote (.ilit t l)) b))) hi
      fun _ s' _ hp hi' => (hb lp s' (hs.post hp) hi').map _
    have h3 := h2.congr (ok' := fun sw => sw = true ∧ LabelsOk ret.isVoid lp sw b) (l' := l.value :: caseLabels b) (d' := defaultLabels b)
      (by simp [hc]) (by simp) (by simp)
    obtain ⟨r, s', k1, k2⟩ := h3
    refine ⟨r, s', ?_, k2⟩
    simp only [get_bind, hc]
    rw [bind_some (show require true s = .ok (some (), s) from rfl), bind_some ht]
    exact k1

theorem lab_default {b : Syn.Stmt} (hb : StmtLab env ret b) (lp : Bool) (s : RState) (hs : Env env s) (hi : Inv s) :
    Lab (full.stmt lp ret (.node .defaultStmt [b.ast])) (fun sw => sw = true ∧ LabelsOk ret.isVoid lp sw b) (caseLabels b) (1 + defaultLabels b) s := by
  rw [full_stmt]
  have e : stmt full lp ret (.node .defaultStmt [b.ast]) = (do
      let s ← get
      require s.cases.isSome
      require (!s.dflt)
      modify fun s => { s with dflt := true }
      let b ← full.stmt lp ret b.ast
      pure (.dflt b)) := rfl
  rw [e]
  cases hc : s.cases.isSome with
  | false =>
    refine ⟨none, s, ?_, .refl s, by simp [hc], by simp⟩
    simp only [get_bind, hc]
    exact bind_none rfl
  | true =>
    obtain ⟨cs, hcs⟩ := Option.isSome_iff_exists.1 hc
    cases hd : s.dflt with
    | true =>
      refine ⟨none, s, ?_, .refl s, ?_, by simp⟩
      · simp only [get_bind, hc, hd]
        rw [bind_some (show require true s = .ok (some (), s) from rfl)]
        exact bind_none rfl
      · simp only [Option.isSome_none, Bool.false_eq_true, false_iff]
        rintro ⟨-, hf⟩
        have := (hf cs hcs).2
        simp [hd, b2n] at this
        omega
    | false =>
      have h1 : Lab (modify fun s => { s with dflt := true }) (fun _ => True) [] 1 s := by
        refine ⟨some (), _, rfl, ⟨rfl, rfl, fun h => h⟩, ?_, ?_⟩
        · simp only [Option.isSome_some, true_and, true_iff]
          intro cs hcs
          exact ⟨by simpa using (hi cs hcs).1, by simp [b2n, hd]⟩
        · rintro - cs hcs
          exact ⟨cs, hcs, by simp, by simp [b2n, hd]⟩
      have h2 := h1.bind (f := fun _ => (do let b ← full.stmt lp ret b.ast; pure (SStmt.dflt b))) hi
        fun _ s' _ hp hi' => (hb lp s' (hs.post hp) hi').map _
      have h3 := h2.congr (ok' := fun sw => sw = true ∧ LabelsOk ret.isVoid lp sw b) (l' := caseLabels b) (d' := 1 + defaultLabels b)
        (by simp [hc]) (by simp) (by simp)
      obtain ⟨r, s', k1, k2⟩ := h3
      refine ⟨r, s', ?_, k2⟩
      simp only [get_bind, hc, hd]
      rw [bind_some (show require true s = .ok (some (), s) from rfl), bind_some (show require (!false) s = .ok (some (), s) from rfl)]
      exact k1

theorem lab_return {e : Syn.Expr} (he : IntExpr env e) (hret : ret.isVoid = true ∨ ret.isArithmetic = true) (lp : Bool) (s : RState) (hs : Env env s) (hi : Inv s) :
    Lab (full.stmt lp ret (.node .retStmt [e.ast])) (fun _ => ret.isVoid = false) [] 0 s := by
  rw [full_stmt]
  have e' : stmt full lp ret (.node .retStmt [e.ast]) = (do
      require (decide (ret.isVoid = false))
      let e ← full.expr e.ast
      require (DType.isAssignable (decay e).dt ret)
      pure (.ret (some (if DType.equals (decay e).dt ret then decay e else .un .cast ret (decay e))))) := rfl
  rw [e']
  refine ((Lab.require (decide (ret.isVoid = false)) hi).bind (l' := []) (d' := 0) (ok' := fun _ => True) hi fun _ s' h0 hp hi' => ?_).congr (by simp) rfl rfl
  have hv : ret.isVoid = false := by
    cases hv : ret.isVoid with
    | false => rfl
    | true => simp [require, hv, fail] at h0
  have ha : ret.isArithmetic = true := by simpa [hv] using hret
  refine Lab.cond he (hs.post hp) _ fun x hx => ?_
  have : DType.isAssignable (decay x).dt ret = true := by
    rw [decay_integer hx]
    cases hxd : x.dt <;> simp_all [DType.isAssignable, DType.isInteger, DType.isArithmetic]
  rw [this]
  exact ((Lab.require true hi').bind (l' := []) (d' := 0) (ok' := fun _ => True) hi' fun _ s'' _ _ hi'' => Lab.pure _ hi'').congr (by simp) rfl rfl

theorem lab_switch {c : Syn.Expr} {b : Syn.Stmt} (hc : IntExpr env c) (hb : StmtLab env ret b) (lp : Bool) (s : RState) (hs : Env env s) (hi : Inv s) :
    Lab (full.stmt lp ret (.node .switchStmt [c.ast, b.ast])) (fun _ => LabelsOk ret.isVoid lp true b ∧ (caseLabels b).Nodup ∧ defaultLabels b ≤ 1) [] 0 s := by
  rw [full_stmt]
  have e' : stmt full lp ret (.node .switchStmt [c.ast, b.ast]) = (do
      let c ← full.expr c.ast
      require (promote (decay c)).dt.isInteger
      let old ← get
      modify fun s => { s with cases := some [], dflt := false }
      let r ← attempt (full.stmt lp ret b.ast)
      modify fun s => { s with cases := old.cases, dflt := old.dflt }
      let b ← ofOpt r
      pure (.switch (promote (decay c)) b)) := rfl
  rw [e']
  refine Lab.cond hc hs _ fun x hx => ?_
  have hp : (promote (decay x)).dt.isInteger = true := by
    rw [decay_integer hx, promote]
    cases hxd : x.dt <;> simp_all [DType.isInteger, casts, SExpr.dt, Conv.promotionCasts]
  rw [hp]
  have hi' : Inv { s with cases := some [], dflt := false } := by
    intro cs hcs
    cases hcs
    simp [b2n]
  obtain ⟨r, s1, h1, h2, h3, h4⟩ := hb lp { s with cases := some [], dflt := false } hs hi'
  have hsame := h2.same
  refine ⟨r.map (SStmt.switch (promote (decay x))), s, ?_, .refl s, ?_, ?_⟩
  · rw [bind_some (show require true s = .ok (some (), s) from rfl)]
    simp only [get_bind, modify_bind]
    rw [bind_some (attempt_ok h1)]
    have : ({ s1 with cases := s.cases, dflt := s.dflt } : RState) = s := by
      obtain ⟨_, _, _, _, _, _, _, _, _⟩ := s1
      simp at hsame
      simp [hsame]
    simp only [modify_bind, this]
    cases r <;> rfl
  · simp only [Option.isSome_map, h3, Fits]
    constructor
    · rintro ⟨a, b⟩
      have := b [] rfl
      exact ⟨⟨a, by simpa using this.1, by simpa [b2n] using this.2⟩, fun cs hcs => by simpa using hi cs hcs⟩
    · rintro ⟨⟨a, b, c⟩, -⟩
      refine ⟨a, fun cs hcs => ?_⟩
      cases hcs
      exact ⟨by simpa using b, by simpa [b2n] using c⟩
  · exact fun _ => .refl s

theorem lab_req_true {f : Unit → RM α} {ok : Bool → Prop} {l : List Int} {d : Nat} {s : RState} (h : Lab (f ()) ok l d s) : Lab (require true >>= f) ok l d s := by
  obtain ⟨r, s', h1, h2⟩ := h
  exact ⟨r, s', (bind_some (show require true s = .ok (some (), s) from rfl)).trans h1, h2⟩

theorem lab_if {c : Syn.Expr} {b : Syn.Stmt} (hc : IntExpr env c) (hb : StmtLab env ret b) (lp : Bool) (s : RState) (hs : Env env s) (hi : Inv s) :
    Lab (full.stmt lp ret (.node .ifStmt [c.ast, b.ast])) (fun sw => LabelsOk ret.isVoid lp sw b) (caseLabels b) (defaultLabels b) s := by
  rw [full_stmt]
  refine Lab.cond (α := SStmt) hc hs (fun c => do
      require (decay c).dt.isScalar
      let t ← full.stmt lp ret b.ast
      pure (.ite (decay c) t)) fun x hx => ?_
  rw [decay_integer hx, integer_scalar hx]
  exact lab_req_true ((hb lp s hs hi).map _)

theorem lab_ifelse {c : Syn.Expr} {b t : Syn.Stmt} (hc : IntExpr env c) (hb : StmtLab env ret b) (ht : StmtLab env ret t) (lp : Bool) (s : RState) (hs : Env env s) (hi : Inv s) :
    Lab (full.stmt lp ret (.node .ifStmt [c.ast, b.ast, t.ast])) (fun sw => LabelsOk ret.isVoid lp sw b ∧ LabelsOk ret.isVoid lp sw t)
      (caseLabels b ++ caseLabels t) (defaultLabels b + defaultLabels t) s := by
  rw [full_stmt]
  refine Lab.cond (α := SStmt) hc hs (fun c => do
      require (decay c).dt.isScalar
      let b ← full.stmt lp ret b.ast
      let t ← full.stmt lp ret t.ast
      pure (.itee (decay c) b t)) fun x hx => ?_
  rw [decay_integer hx, integer_scalar hx]
  exact lab_req_true ((hb lp s hs hi).bind hi fun _ s' _ hp hi' => (ht lp s' (hs.post hp) hi').map _)

theorem lab_while {c : Syn.Expr} {b : Syn.Stmt} (hc : IntExpr env c) (hb : StmtLab env ret b) (lp : Bool) (s : RState) (hs : Env env s) (hi : Inv s) :
    Lab (full.stmt lp ret (.node .whileStmt [c.ast, b.ast])) (fun sw => LabelsOk ret.isVoid true sw b) (caseLabels b) (defaultLabels b) s := by
  rw [full_stmt]
  refine Lab.cond (α := SStmt) hc hs (fun c => do
      require (decay c).dt.isScalar
      let t ← full.stmt true ret b.ast
      pure (.while (decay c) t)) fun x hx => ?_
  rw [decay_integer hx, integer_scalar hx]
  exact lab_req_true ((hb true s hs hi).map _)

theorem lab_forCond (o : Option Syn.Expr) (ho : optInt env o) (lp : Bool) {s : RState} (hs : Env env s) (hi : Inv s) :
    Lab (full.stmt lp ret (Syn.optStmt o) >>= fun c => forCond c >>= fun _ => pure c) (fun _ => True) [] 0 s := by
  cases o with
  | none =>
    rw [full_stmt]
    exact Lab.pure _ hi
  | some e =>
    obtain ⟨x, h1, h2⟩ := Lab.expr ho hs
    refine ⟨some (.expr (decay x)), s, ?_, .refl s, by simp [fits_nil hi], fun _ => .refl s⟩
    have : full.stmt lp ret (Syn.optStmt (some e)) s = .ok (some (.expr (decay x)), s) := by
      rw [full_stmt]
      exact bind_some h2
    rw [bind_some this]
    have : forCond (.expr (decay x)) s = .ok (some (), s) := by
      rw [decay_integer h1, forCond, integer_scalar h1]
      rfl
    rw [bind_some this]
    rfl

theorem lab_for {i c st : Option Syn.Expr} {b : Syn.Stmt} (h1 : optInt env i) (h2 : optInt env c) (h3 : optInt env st) (hb : StmtLab env ret b)
    (lp : Bool) (s : RState) (hs : Env env s) (hi : Inv s) :
    Lab (full.stmt lp ret (.node .forStmt [Syn.optStmt i, Syn.optStmt c, Syn.optStmt st, b.ast])) (fun sw => LabelsOk ret.isVoid true sw b) (caseLabels b) (defaultLabels b) s := by
  rw [full_stmt]
  have e : stmt full lp ret (.node .forStmt [Syn.optStmt i, Syn.optStmt c, Syn.optStmt st, b.ast]) = inScope (do
      let i ← forInit full lp ret (Syn.optStmt i)
      let c ← full.stmt lp ret (Syn.optStmt c)
      forCond c
      let s ← full.stmt lp ret (Syn.optStmt st)
      let b ← full.stmt true ret b.ast
      pure (.for i c s b)) := rfl
  rw [e]
  refine Lab.inScope ?_
  have hs' := hs.scope
  have hi' : Inv { s with syms := [] :: s.syms, tags := [] :: s.tags } := hi
  generalize ({ s with syms := [] :: s.syms, tags := [] :: s.tags } : RState) = s at hs' hi'
  have f1 : Lab (forInit full lp ret (Syn.optStmt i)) (fun _ => True) [] 0 s := by
    have : (Syn.optStmt i).type ≠ .decl := by cases i <;> simp [Syn.optStmt]
    rw [forInit, if_neg this]
    exact (lab_optStmt i h1 lp hs' hi').map _
  refine (f1.bind (l' := caseLabels b) (d' := defaultLabels b) (ok' := fun sw => LabelsOk ret.isVoid true sw b) hi' fun i' s1 _ p1 i1 => ?_).congr (by simp) (by simp) (by simp)
  have f2 := lab_forCond (ret := ret) c h2 lp (hs'.post p1) i1
  have f3 := (f2.bind (f := fun c => (do
      let s ← full.stmt lp ret (Syn.optStmt st)
      let b ← full.stmt true ret b.ast
      pure (SStmt.for i' c s b))) (l' := caseLabels b) (d' := defaultLabels b) (ok' := fun sw => LabelsOk ret.isVoid true sw b) i1 fun c' s2 _ p2 i2 => ?_).congr
      (ok' := fun sw => LabelsOk ret.isVoid true sw b) (l' := caseLabels b) (d' := defaultLabels b) (by simp) (by simp) (by simp)
  · obtain ⟨r, s', k1, k2⟩ := f3
    refine ⟨r, s', ?_, k2⟩
    rw [← k1]
    simp only [bind_run]
    cases full.stmt lp ret (Syn.optStmt c) s1 with
    | ok p =>
      obtain ⟨r, s2⟩ := p
      cases r with
      | none => rfl
      | some c' =>
        simp only [bind_run]
        cases forCond c' s2 with
        | ok p =>
          obtain ⟨r, s3⟩ := p
          cases r <;> rfl
        | _ => rfl
    | _ => rfl
  · have hs2 := (hs'.post p1).post p2
    have f4 := lab_optStmt (ret := ret) st h3 lp hs2 i2
    exact (f4.bind (l' := caseLabels b) (d' := defaultLabels b) (ok' := fun sw => LabelsOk ret.isVoid true sw b) i2
      fun s' s3 _ p3 i3 => (hb true s3 (hs2.post p3) i3).map _).congr (by simp) (by simp) (by simp)

/-! ### blocks -/

/-- statements of a block: the state up to the items collected in the innermost block -/
def ItemsLab (env : Str → Option RSym) (ret : DType) (is : Syn.Items) : Prop :=
  ∀ (lp : Bool) (s : RState) (b : List SItem) (bs : List (List SItem)), s.blocks = b :: bs → Env env s → Inv s →
    ∃ r s' b', items full lp ret is.asts s = .ok (r, s') ∧ s' = { s with cases := s'.cases, dflt := s'.dflt, blocks := b' :: bs } ∧
      s'.cases.isSome = s.cases.isSome ∧ Inv s' ∧
      (r.isSome = true ↔ LabelsOkI ret.isVoid lp s.cases.isSome is ∧ Fits s (caseLabelsI is) (defaultLabelsI is)) ∧
      (r.isSome = true → Eff s s' (caseLabelsI is) (defaultLabelsI is))

theorem stmt_notDecl (st : Syn.Stmt) : st.ast.type ≠ .decl := by cases st <;> simp [Syn.Stmt.ast]

theorem lab_items_nil : ItemsLab env ret .nil := by
  intro lp s b bs hb hs hi
  refine ⟨some (), s, b, rfl, ?_, rfl, hi, ?_, ?_⟩
  · rw [← hb]
  · simp [LabelsOkI, caseLabelsI, defaultLabelsI, fits_nil hi]
  · rintro -
    exact .refl s

theorem lab_items_cons {st : Syn.Stmt} {is : Syn.Items} (h1 : StmtLab env ret st) (h2 : ItemsLab env ret is) : ItemsLab env ret (.stmt st is) := by
  intro lp s b bs hb hs hi
  obtain ⟨r, s1, k1, k2, k3, k4⟩ := h1 lp s hs hi
  have hsame := k2.same
  have hs1 := hs.post k2
  have hi1 := hi.of_post k2
  have hb1 : s1.blocks = b :: bs := by rw [hsame]; exact hb
  simp only [Syn.Items.asts, items]
  cases r with
  | none =>
    have e1 : item full lp ret st.ast s = .ok (none, s1) := by
      rw [item, if_neg (stmt_notDecl st)]
      exact bind_none k1
    obtain ⟨r, s2, b', m1, m2, m3, m4, m5, m6⟩ := h2 lp s1 b bs hb1 hs1 hi1
    refine ⟨none, s2, b', ?_, ?_, m3.trans k2.isSome, m4, ?_, by simp⟩
    · rw [bind_some (attempt_ok e1)]
      simp only
      rw [bind_some (attempt_ok m1)]
      rfl
    · rw [m2, hsame]
    · simp only [Option.isSome_none, Bool.false_eq_true, false_iff, LabelsOkI]
      rintro ⟨⟨hok, -⟩, hf⟩
      refine absurd (k3.2 ⟨hok, ?_⟩) (by simp)
      intro cs hc
      have := hf cs hc
      simp only [caseLabelsI, defaultLabelsI] at this
      rw [← List.append_assoc] at this
      exact ⟨(List.nodup_append.1 this.1).1, by omega⟩
  | some x =>
    have e1 : item full lp ret st.ast s = .ok (some (.stmt x), s1) := by
      rw [item, if_neg (stmt_notDecl st)]
      exact bind_some k1
    have ef := k4 rfl
    have ok1 := k3.1 rfl
    obtain ⟨r, s2, b', m1, m2, m3, m4, m5, m6⟩ := h2 lp { s1 with blocks := (b ++ [.stmt x]) :: bs } _ _ rfl hs1 hi1
    refine ⟨r, s2, b', ?_, ?_, m3.trans k2.isSome, m4, ?_, ?_⟩
    · rw [bind_some (attempt_ok e1)]
      simp only [modify_bind, hb1]
      exact m1
    · rw [m2]
      simp
      rw [hsame]
      simp
    · rw [m5]
      simp only [LabelsOkI, caseLabelsI, defaultLabelsI, k2.isSome]
      rw [fits_append ef k2]
      constructor
      · rintro ⟨a, b⟩; exact ⟨⟨ok1.1, a⟩, ok1.2, b⟩
      · rintro ⟨⟨-, a⟩, -, b⟩; exact ⟨a, b⟩
    · intro hr
      exact ef.trans (m6 hr)

theorem lab_block {is : Syn.Items} (h : ItemsLab env ret is) (lp : Bool) (s : RState) (hs : Env env s) (hi : Inv s) :
    Lab (full.stmt lp ret (.node .cmpdStmt is.asts)) (fun sw => LabelsOkI ret.isVoid lp sw is) (caseLabelsI is) (defaultLabelsI is) s := by
  rw [full_stmt]
  refine Lab.inScope ?_
  have hs' := hs.scope
  have hi' : Inv { s with syms := [] :: s.syms, tags := [] :: s.tags } := hi
  generalize ({ s with syms := [] :: s.syms, tags := [] :: s.tags } : RState) = s at hs' hi'
  refine Lab.map ?_ _
  obtain ⟨r, s1, b', m1, m2, m3, m4, m5, m6⟩ := h lp { s with blocks := [] :: s.blocks } [] s.blocks rfl hs' hi'
  refine ⟨r.map fun _ => SItems.ofList b', { s1 with blocks := s.blocks }, ?_, ⟨?_, m3, fun _ cs hc => (m4 cs hc).1⟩, ?_, ?_⟩
  · simp only [compound, modify_bind, node_children]
    rw [bind_some (attempt_ok m1)]
    have : s1.blocks = b' :: s.blocks := by rw [m2]
    simp only [get_bind, this, modify_bind]
    cases r <;> rfl
  · rw [m2]
  · rw [Option.isSome_map]; exact m5
  · rw [Option.isSome_map]; exact m6

theorem lab_simple (lp : Bool) (s : RState) (hi : Inv s) :
    Lab (full.stmt lp ret Syn.Stmt.continue.ast) (fun _ => lp = true) [] 0 s ∧ Lab (full.stmt lp ret Syn.Stmt.break.ast) (fun sw => lp = true ∨ sw = true) [] 0 s ∧
    Lab (full.stmt lp ret Syn.Stmt.ret.ast) (fun _ => ret.isVoid = true) [] 0 s ∧ Lab (full.stmt lp ret Syn.Stmt.null.ast) (fun _ => True) [] 0 s := by
  refine ⟨?_, ?_, ?_, ?_⟩ <;> rw [full_stmt]
  · exact (Lab.require lp hi).map _
  · have := (Lab.require (lp || s.cases.isSome) hi).map (fun _ => SStmt.brk)
    refine this.congr (ok := fun _ => (lp || s.cases.isSome) = true) (ok' := fun sw => lp = true ∨ sw = true) (by simp) rfl rfl
  · have := (Lab.require (decide (ret.isVoid = true)) hi).map (fun _ => SStmt.ret none)
    exact this.congr (ok := fun _ => decide (ret.isVoid = true) = true) (ok' := fun _ => ret.isVoid = true) (by simp) rfl rfl
  · exact Lab.pure _ hi

mutual
theorem labels_stmt (hret : ret.isVoid = true ∨ ret.isArithmetic = true) : ∀ st : Syn.Stmt, Plain env st → StmtLab env ret st
  | .case (.int l) b, h => by
    intro lp s hs hi
    simp only [Plain] at h
    simpa only [Syn.Stmt.ast, LabelsOk, caseLabels, defaultLabels] using lab_case h.1 (labels_stmt hret b h.2) (lit_run l) lp s hs hi
  | .case (.char l) b, h => by
    intro lp s hs hi
    simp only [Plain] at h
    simpa only [Syn.Stmt.ast, LabelsOk, caseLabels, defaultLabels] using lab_case h.1 (labels_stmt hret b h.2) (chr_run l) lp s hs hi
  | .default b, h => by
    intro lp s hs hi
    simp only [Plain] at h
    simpa only [Syn.Stmt.ast, LabelsOk, caseLabels, defaultLabels] using lab_default (labels_stmt hret b h) lp s hs hi
  | .block is, h => by
    intro lp s hs hi
    simp only [Plain] at h
    simpa only [Syn.Stmt.ast, LabelsOk, caseLabels, defaultLabels] using lab_block (labels_items hret is h) lp s hs hi
  | .continue, _ => fun lp s _ hi => by simpa only [LabelsOk, caseLabels, defaultLabels] using (lab_simple lp s hi).1
  | .break, _ => fun lp s _ hi => by simpa only [LabelsOk, caseLabels, defaultLabels] using (lab_simple lp s hi).2.1
  | .ret, _ => fun lp s _ hi => by simpa only [LabelsOk, caseLabels, defaultLabels] using (lab_simple lp s hi).2.2.1
  | .null, _ => fun lp s _ hi => by simpa only [LabelsOk, caseLabels, defaultLabels] using (lab_simple lp s hi).2.2.2
  | .retE e, h => by
    intro lp s hs hi
    simp only [Plain] at h
    simpa only [Syn.Stmt.ast, LabelsOk, caseLabels, defaultLabels] using lab_return h hret lp s hs hi
  | .expr e, h => by
    intro lp s hs hi
    simp only [Plain] at h
    simpa only [Syn.Stmt.ast, LabelsOk, caseLabels, defaultLabels, Syn.optStmt] using lab_optStmt (some e) h lp hs hi
  | .ifS c b, h => by
    intro lp s hs hi
    simp only [Plain] at h
    simpa only [Syn.Stmt.ast, LabelsOk, caseLabels, defaultLabels] using lab_if h.1 (labels_stmt hret b h.2) lp s hs hi
  | .switch c b, h => by
    intro lp s hs hi
    simp only [Plain] at h
    simpa only [Syn.Stmt.ast, LabelsOk, caseLabels, defaultLabels] using lab_switch h.1 (labels_stmt hret b h.2) lp s hs hi
  | .while c b, h => by
    intro lp s hs hi
    simp only [Plain] at h
    simpa only [Syn.Stmt.ast, LabelsOk, caseLabels, defaultLabels] using lab_while h.1 (labels_stmt hret b h.2) lp s hs hi
  | .ifElse c b t, h => by
    intro lp s hs hi
    simp only [Plain] at h
    simpa only [Syn.Stmt.ast, LabelsOk, caseLabels, defaultLabels] using lab_ifelse h.1 (labels_stmt hret b h.2.1) (labels_stmt hret t h.2.2) lp s hs hi
  | .forE i c st b, h => by
    intro lp s hs hi
    simp only [Plain] at h
    simpa only [Syn.Stmt.ast, LabelsOk, caseLabels, defaultLabels] using lab_for h.1 h.2.1 h.2.2.1 (labels_stmt hret b h.2.2.2) lp s hs hi
  | .forD _ _ _ _, h => by simp [Plain] at h
theorem labels_items (hret : ret.isVoid = true ∨ ret.isArithmetic = true) : ∀ is : Syn.Items, PlainI env is → ItemsLab env ret is
  | .nil, _ => lab_items_nil
  | .stmt st is, h => by
    simp only [PlainI] at h
    exact lab_items_cons (labels_stmt hret st h.1) (labels_items hret is h.2)
  | .decl _ _, h => by simp [PlainI] at h
end

end Res
end Umlcc
