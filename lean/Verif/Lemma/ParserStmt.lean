import Verif.Lemma.ParserDecl
/-!
The parser reads printed declarations, statements and translation units back.
-/
namespace Umlcc
namespace Parser
open M Syn

variable {tds : List Id} {q : Nat} {X : List Tok} {a : Ast}

/-! ### initialisers -/

def GI (tds : List Id) (X : List Tok) (a : Ast) : Prop :=
  (∃ t tl, X = t :: tl ∧ t ≠ .punct .rbrace) ∧ ∀ c t Y, c.tds = tds → Stops 0 t → Ok .init c (X ++ t :: Y) a (t :: Y)

def GIs (tds : List Id) (X : List Tok) (as : List Ast) : Prop :=
  (∃ t tl, X = t :: tl ∧ t ≠ .punct .rbrace) ∧
  ∀ c acc Y, c.tds = tds → Ok (.initList acc) c (X ++ .punct .rbrace :: Y) (.node .initList (acc ++ as)) (.punct .rbrace :: Y)

theorem exprHead_ne {t : Tok} (h : exprHead tds t = true) :
    t ≠ .punct .rbrace ∧ t ≠ .punct .lbrace ∧ t ≠ .punct .semicolon ∧ t ≠ .punct .rparen ∧ t ≠ .kw .kelse ∧ isStorage t = false ∧
    isTypeSpec tds t = false ∧ t ≠ .eof := by
  rcases exprHead_cases h with ⟨n, rfl, h⟩ | ⟨l, rfl⟩ | ⟨l, rfl⟩ | ⟨l, rfl⟩ | rfl | rfl | rfl | rfl | rfl | rfl | rfl | rfl | rfl | rfl <;>
    simp_all [isStorage, isTypeSpec]

theorem gi_expr (h : G tds q X a) : GI tds X a := by
  obtain ⟨t, tl, e, ht, -, -⟩ := h.head
  refine ⟨⟨t, tl, e, (exprHead_ne ht).1⟩, fun c u Y hc hu => ?_⟩
  have k := h.assign hc hu (Y := Y)
  subst e
  exact P.intro1 k (fun r k => by
    simp only [List.cons_append] at k ⊢
    simp [body, pInit, run_bind, run_peek, bind_ok, (exprHead_ne ht).2.1, k])

theorem gi_list {as : List Ast} (h : GIs tds X as) : GI tds (.punct .lbrace :: (X ++ [.punct .rbrace])) (.node .initList as) := by
  refine ⟨⟨_, _, rfl, by simp⟩, fun c u Y hc hu => ?_⟩
  have k := h.2 c [] (u :: Y) hc
  exact P.intro1 k (fun r k => by
    simp only [List.nil_append] at k
    simp [body, pInit, run_bind, run_peek, bind_ok, run_adv, k, run_consume, run_pure])

theorem gis_one (h : GI tds X a) : GIs tds X [a] :=
  ⟨h.1, fun c acc Y hc => P.intro1 (h.2 c (.punct .rbrace) Y hc (stops_rbrace 0)) (fun r k => by
    simp [body, pInitList, run_bind, k, bind_ok, run_peek, run_pure])⟩

theorem gis_cons {Z : List Tok} {as : List Ast} (h : GI tds X a) (h2 : GIs tds Z as) : GIs tds (X ++ .punct .comma :: Z) (a :: as) := by
  refine ⟨?_, fun c acc Y hc => ?_⟩
  · obtain ⟨⟨t, tl, rfl, ht⟩, -⟩ := h
    exact ⟨t, _, rfl, ht⟩
  · have k2 := h2.2 c (acc ++ [a]) Y hc
    obtain ⟨⟨t, tl, rfl, ht⟩, -⟩ := h2
    simp only [List.append_assoc, List.cons_append, List.nil_append] at k2 ⊢
    exact P.intro2 (h.2 c (.punct .comma) (t :: (tl ++ .punct .rbrace :: Y)) hc (stops_comma 0)) k2 (fun r k k2 => by
      simp [body, pInitList, run_bind, k, bind_ok, run_peek, run_consume, ht, k2])

mutual
theorem g_init (tds : List Id) : (i : Init) → i.ok tds → GI tds i.toks i.ast
  | .expr e, h => by simp only [Init.ok] at h; exact gi_expr (g_expr tds e h)
  | .list is, h => by simp only [Init.ok] at h; exact gi_list (g_inits tds is h)
theorem g_inits (tds : List Id) : (is : Inits) → is.ok tds → GIs tds is.toks is.asts
  | .one i, h => by simp only [Inits.ok] at h; exact gis_one (g_init tds i h)
  | .cons i is, h => by simp only [Inits.ok] at h; exact gis_cons (g_init tds i h.1) (g_inits tds is h.2)
end

/-! ### declarations -/

/-- context after a declarator -/
def Ctx.name (c : Ctx) (n : Id) : Ctx := if c.flag then { c with tds := n :: c.tds } else c

theorem Ctx.name_tds (c : Ctx) (x : IDtor) : (c.name x.n).tds = tdsAfter c.flag c.tds [x] := by
  unfold Ctx.name tdsAfter
  cases c.flag <;> simp
theorem Ctx.name_flag (c : Ctx) (n : Id) : (c.name n).flag = c.flag := by
  unfold Ctx.name
  split <;> rfl

theorem ok_idtor (x : IDtor) {c : Ctx} (h : x.ok (tdsAfter c.flag c.tds [x])) {t : Tok} (ht : t = .punct .comma ∨ t = .punct .semicolon) (Y : List Tok) :
    P .initDeclor (st c (x.toks ++ t :: Y)) (.ok x.ast (st (c.name x.n) (t :: Y))) := by
  rw [← Ctx.name_tds] at h
  obtain ⟨n, d, i⟩ := x
  cases i with
  | none =>
    have k := ok_declor_named d n (c := c) (c' := c.name n) rfl (g_dtor _ d h) (t := t) (by rcases ht with rfl | rfl; exact dstop_comma; exact dstop_semicolon) Y
    refine P.intro1 k (fun r k => ?_)
    rcases ht with rfl | rfl <;> simp [IDtor.toks, IDtor.ast, body, pInitDeclor, run_bind, k, bind_ok, run_peek, run_pure]
  | some i =>
    have k := ok_declor_named d n (c := c) (c' := c.name n) rfl (g_dtor _ d h.1) dstop_equal (i.toks ++ t :: Y)
    have k2 := (g_init _ i h.2).2 (c.name n) t Y rfl (by rcases ht with rfl | rfl; exact stops_comma 0; exact stops_semicolon 0)
    refine P.intro2 k k2 (fun r k k2 => ?_)
    simp [IDtor.toks, IDtor.ast, body, pInitDeclor, run_bind, k, bind_ok, run_peek, run_adv, k2, run_pure]

theorem tdsAfter_cons (td : Bool) (tds : List Id) (x : IDtor) (xs : List IDtor) : tdsAfter td tds (x :: xs) = tdsAfter td (tdsAfter td tds [x]) xs := by
  unfold tdsAfter
  cases td <;> simp

theorem ok_idtors : (xs : List IDtor) → (c : Ctx) → (acc : List Ast) → xs ≠ [] → idsOk c.flag c.tds xs → (Y : List Tok) →
    P (.initDeclors acc) (st c (idToks xs ++ .punct .semicolon :: Y))
      (.ok (.node .initDeclorList (acc ++ xs.map IDtor.ast)) (st { c with tds := tdsAfter c.flag c.tds xs } (.punct .semicolon :: Y)))
  | [], _, _, h, _, _ => absurd rfl h
  | [x], c, acc, _, h, Y => by
    have k := ok_idtor x h.1 (.inr rfl) Y
    have e : ({ c with tds := tdsAfter c.flag c.tds [x] } : Ctx) = c.name x.n := by
      rw [← Ctx.name_tds]; unfold Ctx.name; split <;> rfl
    rw [e]
    exact P.intro1 k (fun r k => by simp [idToks, body, pInitDeclors, run_bind, k, bind_ok, run_peek, run_pure])
  | x :: y :: ys, c, acc, _, h, Y => by
    have k := ok_idtor x h.1 (.inl rfl) (idToks (y :: ys) ++ .punct .semicolon :: Y)
    have h2 := h.2
    rw [← Ctx.name_tds, ← Ctx.name_flag c x.n] at h2
    have k2 := ok_idtors (y :: ys) (c.name x.n) (acc ++ [x.ast]) (by simp) h2 Y
    have e : ({ c.name x.n with tds := tdsAfter (c.name x.n).flag (c.name x.n).tds (y :: ys) } : Ctx) = { c with tds := tdsAfter c.flag c.tds (x :: y :: ys) } := by
      rw [Ctx.name_tds, Ctx.name_flag, ← tdsAfter_cons]; unfold Ctx.name; split <;> rfl
    rw [e] at k2
    refine P.intro2 k k2 (fun r k k2 => ?_)
    simp only [List.append_assoc, List.cons_append, List.nil_append] at k2
    simp [idToks, body, pInitDeclors, run_bind, k, bind_ok, run_peek, run_adv, k2]

/-- specifiers of a declaration -/
theorem ok_dspecs : (ss : List DSpec) → {c : Ctx} → (acc : List Ast) → (td : Bool) → (∀ s ∈ ss, s.ok c.tds) → acc ≠ [] ∨ ss ≠ [] →
    {t : Tok} → isTypeSpec c.tds t = false → isStorage t = false → t ≠ .punct .lbrace → (Y : List Tok) →
    P (.declSpecs acc td) (st c (ss.flatMap DSpec.toks ++ t :: Y))
      (.ok (.node .declSpecs (acc ++ ss.map DSpec.ast)) (st { c with flag := td || ss.any DSpec.isTd } (t :: Y)))
  | [], c, acc, td, _, h, t, h1, h2, h3, Y => by
    have := gss_nil' (c := c) (acc := acc) (td := td) (by simpa using h) (Y := Y) h1 h2
    simpa using this
  | .td :: ss, c, acc, td, h, _, t, h1, h2, h3, Y => by
    have ih := ok_dspecs ss (c := c) (acc ++ [.node .stgTypedef []]) true (fun s hs => h s (by simp [hs])) (by simp) h1 h2 h3 Y
    refine P.intro1 ih (fun r ih => ?_)
    simp only [List.append_assoc, List.cons_append, List.nil_append, Bool.true_or] at ih
    simp [DSpec.toks, DSpec.ast, DSpec.isTd, body, pDeclSpecs, run_bind, run_peek, bind_ok, run_getTds, isStorage, run_adv, ih]
  | .ty s :: ss, c, acc, td, h, _, t, h1, h2, h3, Y => by
    have ih := ok_dspecs ss (c := c) (acc ++ [s.ast]) td (fun s hs => h s (by simp [hs])) (by simp) h1 h2 h3 Y
    have hs : GS c.tds s.toks s.ast := g_spec _ s (h (.ty s) (by simp))
    have hb : ∃ u tl, ss.flatMap DSpec.toks ++ t :: Y = u :: tl ∧ u ≠ .punct .lbrace := by
      cases ss with
      | nil => exact ⟨t, Y, rfl, h3⟩
      | cons x ss =>
        cases x with
        | td => exact ⟨_, _, rfl, by simp⟩
        | ty s' =>
          obtain ⟨⟨u, tl, e, hu⟩, -⟩ := g_spec c.tds s' (h (.ty s') (by simp))
          exact ⟨u, tl ++ (ss.flatMap DSpec.toks ++ t :: Y), by simp [DSpec.toks, e], (type_not_storage hu).2⟩
    obtain ⟨u, tl, e, hu⟩ := hb
    rw [e] at ih
    have := gss_step' hs (td := td) (acc := acc) rfl hu ih
    simp only [List.flatMap_cons, DSpec.toks, List.append_assoc, List.map_cons, DSpec.ast, List.any_cons, DSpec.isTd, Bool.false_or, e] at this ⊢
    simpa using this

theorem dspecs_head (ss : List DSpec) (h : ss ≠ []) (hok : ∀ s ∈ ss, s.ok tds) :
    ∃ u tl, ss.flatMap DSpec.toks = u :: tl ∧ (isStorage u || isTypeSpec tds u) = true := by
  cases ss with
  | nil => exact absurd rfl h
  | cons x ss =>
    cases x with
    | td => exact ⟨_, _, rfl, rfl⟩
    | ty s' =>
      obtain ⟨⟨u, tl, e, hu⟩, -⟩ := g_spec tds s' (hok (.ty s') (by simp))
      exact ⟨u, tl ++ ss.flatMap DSpec.toks, by simp [DSpec.toks, e], by simp [hu]⟩

/-- the first token of the declarators -/
theorem idToks_head (ds : List IDtor) (h : ∀ x ∈ ds.head?, x.n ∉ tds) (hne : ds ≠ []) (Y : List Tok) : ∃ t tl, idToks ds ++ .punct .semicolon :: Y = t :: tl ∧
    isTypeSpec tds t = false ∧ isStorage t = false ∧ t ≠ .punct .lbrace ∧ t ≠ .punct .semicolon := by
  cases ds with
  | nil => exact absurd rfl hne
  | cons x xs =>
    obtain ⟨n, d, i⟩ := x
    have hn : n ∉ tds := h ⟨n, d, i⟩ (by simp)
    have key : ∀ Z, ∃ t tl, d.toks [.ident n] ++ Z = t :: tl ∧
        isTypeSpec tds t = false ∧ isStorage t = false ∧ t ≠ .punct .lbrace ∧ t ≠ .punct .semicolon := fun Z =>
      dtor_head (p := fun t => isTypeSpec tds t = false ∧ isStorage t = false ∧ t ≠ .punct .lbrace ∧ t ≠ .punct .semicolon)
        ⟨rfl, rfl, by simp, by simp⟩ ⟨rfl, rfl, by simp, by simp⟩ ⟨rfl, rfl, by simp, by simp⟩ d Z
        ⟨_, _, rfl, by simp [isTypeSpec, hn], rfl, by simp, by simp⟩
    cases xs with
    | nil => cases i <;> simp only [idToks, IDtor.toks, List.append_assoc] <;> exact key _
    | cons y ys => cases i <;> simp only [idToks, IDtor.toks, List.append_assoc] <;> exact key _

/-- a declaration -/
theorem ok_decl (d : Decl) {c : Ctx} (h : d.ok c.tds) (Y : List Tok) :
    P .decl (st c (d.toks ++ Y)) (.ok d.ast (st { c with tds := d.after c.tds } Y)) := by
  obtain ⟨ss, ds⟩ := d
  obtain ⟨h1, h2, h3, h4⟩ := h
  by_cases hds : ds = []
  · subst hds
    have k := ok_dspecs ss (c := c) [] false h2 (.inr h1) (t := .punct .semicolon) rfl rfl (by simp) Y
    refine P.intro1 k (fun r k => ?_)
    simp only [Bool.false_or, List.nil_append] at k
    simp [Decl.toks, Decl.ast, Decl.after, Decl.isTd, tdsAfter, idToks, body, pDecl, run_bind, bind_ok, run_getFlag, run_try, k, tr_ok, run_peek, run_setFlag, run_adv, run_pure]
  · obtain ⟨t, tl, e, k1, k2, k3, k4⟩ := idToks_head ds h3 hds Y
    have k := ok_dspecs ss (c := c) [] false h2 (.inr h1) k1 k2 k3 tl
    have k' := ok_idtors ds { c with flag := ss.any DSpec.isTd } [] hds h4 Y
    rw [e] at k'
    refine P.intro2 k k' (fun r k k' => ?_)
    have : ds.isEmpty = false := by cases ds <;> simp_all
    simp only [Decl.toks, List.append_assoc, List.cons_append, List.nil_append]
    rw [e]
    simp only [Bool.false_or, List.nil_append] at k k'
    simp [Decl.ast, Decl.after, Decl.isTd, this, body, pDecl, run_bind, bind_ok, run_getFlag, run_try, k, tr_ok, run_peek, k4, k', run_setFlag,
      run_orFail_some, run_consume, run_pure]

theorem decl_head (d : Decl) (h : d.ok tds) : ∃ t tl, d.toks = t :: tl ∧ (isStorage t || isTypeSpec tds t) = true := by
  obtain ⟨u, tl, e, hu⟩ := dspecs_head d.ss h.1 h.2.1
  exact ⟨u, tl ++ (idToks d.ds ++ [.punct .semicolon]), by simp [Decl.toks, e], hu⟩

/-! ### statements -/

theorem ok_paren {r : NT → M Ast} {c : Ctx} {Z W : List Tok} (k : r .assign (st c Z) = .ok a (st c (.punct .rparen :: W))) :
    pParen r (st c (.punct .lparen :: Z)) = .ok a (st c W) := by
  simp [pParen, run_bind, run_consume, bind_ok, k, run_pure]

/-- an optional expression and a semicolon -/
theorem ok_exprStmt (e : Option Expr) {c : Ctx} (h : optOk c.tds e) (Y : List Tok) : Ok .exprStmt c (optToks e ++ .punct .semicolon :: Y) (optStmt e) Y := by
  cases e with
  | none => exact P.intro0 (fun r => by simp [optToks, optStmt, body, pExprStmt, run_bind, run_peek, bind_ok, run_adv, run_pure])
  | some e =>
    have g := g_expr c.tds e h
    have k := g.assign rfl (stops_semicolon 0) (c := c) (Y := Y)
    obtain ⟨t, tl, he, ht, -, -⟩ := g.head
    refine P.intro1 k (fun r k => ?_)
    simp only [optToks, optStmt]
    rw [he] at k ⊢
    simp only [List.cons_append] at k ⊢
    simp [body, pExprStmt, run_bind, run_peek, bind_ok, (exprHead_ne ht).2.2.1, k, run_consume, run_pure]

theorem optToks_head (e : Option Expr) (h : optOk tds e) (t : Tok) (Y : List Tok) (ht : isStorage t = false ∧ isTypeSpec tds t = false) :
    ∃ u tl, optToks e ++ t :: Y = u :: tl ∧ isStorage u = false ∧ isTypeSpec tds u = false := by
  cases e with
  | none => exact ⟨t, Y, rfl, ht⟩
  | some e =>
    obtain ⟨u, tl, he, hu, -, -⟩ := (g_expr tds e h).head
    exact ⟨u, tl ++ t :: Y, by simp [optToks, he], (exprHead_ne hu).2.2.2.2.2.1, (exprHead_ne hu).2.2.2.2.2.2.1⟩

/-- the rest of `for`: what is common to both forms -/
theorem ok_for {X : List Tok} (a : Ast) (cnd stp : Option Expr) (S : List Tok) (sa : Ast) {c : Ctx} (hc : optOk c.tds cnd) (hs : optOk c.tds stp) {t : Tok} {Y : List Tok}
    (hi : ∀ Z, ∃ b, ∃ nt, (nt = if b then .decl else .exprStmt) ∧ itemMayDecl (st c (X ++ Z)) = .ok b (st c (X ++ Z)) ∧ Ok nt c (X ++ Z) a Z)
    (hS : Ok .stmt c (S ++ t :: Y) sa (t :: Y)) :
    Ok .stmt c (.kw .kfor :: .punct .lparen :: (X ++ (optToks cnd ++ .punct .semicolon :: (optToks stp ++ .punct .rparen :: (S ++ t :: Y)))))
      (.node .forStmt [a, optStmt cnd, optStmt stp, sa]) (t :: Y) := by
  obtain ⟨b, nt, hnt, h1, h2⟩ := hi (optToks cnd ++ .punct .semicolon :: (optToks stp ++ .punct .rparen :: (S ++ t :: Y)))
  have k2 := ok_exprStmt cnd hc (optToks stp ++ .punct .rparen :: (S ++ t :: Y))
  cases stp with
  | none =>
    refine P.intro3 h2 k2 hS (fun r h2 k2 hS => ?_)
    subst hnt
    simp only [optToks, List.nil_append] at h1 h2 k2 ⊢
    cases b <;> simp only [Bool.false_eq_true, if_true, if_false] at h2 <;>
      simp [body, pStmt, pFor, run_bind, run_peek, run_consume, bind_ok, h1, h2, k2, run_adv, run_pure, hS, optStmt]
  | some e =>
    have g := g_expr c.tds e hs
    obtain ⟨u, tl, he, hu, -, -⟩ := g.head
    have k3 := g.assign rfl (stops_rparen 0) (c := c) (Y := S ++ t :: Y)
    refine P.intro4 h2 k2 k3 hS (fun r h2 k2 k3 hS => ?_)
    subst hnt
    simp only [optToks] at h1 h2 k2 ⊢
    rw [he] at h1 h2 k2 k3 ⊢
    simp only [List.cons_append] at h1 h2 k2 k3 ⊢
    cases b <;> simp only [Bool.false_eq_true, if_true, if_false] at h2 <;>
      simp [body, pStmt, pFor, run_bind, run_peek, run_consume, bind_ok, h1, h2, k2, (exprHead_ne hu).2.2.2.1, k3, run_pure, hS, optStmt]

/-- first tokens of statements -/
theorem stmt_head : (s : Stmt) → s.ok tds → ∃ t tl, s.toks = t :: tl ∧ isStorage t = false ∧ isTypeSpec tds t = false ∧ t ≠ .punct .rbrace ∧ t ≠ .kw .kelse
  | .expr e, h => by
    simp only [Stmt.ok] at h
    obtain ⟨u, tl, he, hu, -, -⟩ := (g_expr tds e h).head
    have := exprHead_ne hu
    exact ⟨u, tl ++ [.punct .semicolon], by simp [Stmt.toks, he], this.2.2.2.2.2.1, this.2.2.2.2.2.2.1, this.1, this.2.2.2.2.1⟩
  | .case _ _, _ | .default _, _ | .block _, _ | .continue, _ | .break, _ | .ret, _ | .retE _, _ | .ifS _ _, _ | .ifElse _ _ _, _
  | .switch _ _, _ | .while _ _, _ | .forD _ _ _ _, _ | .forE _ _ _ _, _ | .null, _ => by
    simp [Stmt.toks, isStorage, isTypeSpec]

theorem items_head : (is : Items) → is.ok tds → (Y : List Tok) → ∃ t tl, is.toks ++ .punct .rbrace :: Y = t :: tl ∧ t ≠ .kw .kelse
  | .nil, _, Y => ⟨_, Y, rfl, by simp⟩
  | .decl d is, h, Y => by
    simp only [Items.ok] at h
    obtain ⟨u, tl, e, hu⟩ := decl_head d h.1
    refine ⟨u, tl ++ (is.toks ++ .punct .rbrace :: Y), by simp [Items.toks, e], ?_⟩
    rintro rfl
    simp [isStorage, isTypeSpec] at hu
  | .stmt s is, h, Y => by
    simp only [Items.ok] at h
    obtain ⟨u, tl, e, hu⟩ := stmt_head s h.1
    exact ⟨u, tl ++ (is.toks ++ .punct .rbrace :: Y), by simp [Items.toks, e], hu.2.2.2⟩

/-- typedef names after the items of a block -/
def itemsAfter (tds : List Id) : Items → List Id
  | .nil => tds
  | .decl d is => itemsAfter (d.after tds) is
  | .stmt _ is => itemsAfter tds is

theorem ok_compound {is : Items} {c : Ctx} {Y : List Tok}
    (h : P (.items []) (st c (is.toks ++ .punct .rbrace :: Y)) (.ok (.node .cmpdStmt is.asts) (st { c with tds := itemsAfter c.tds is } Y))) :
    Ok .compound c (.punct .lbrace :: (is.toks ++ .punct .rbrace :: Y)) (.node .cmpdStmt is.asts) Y :=
  P.intro1 h (fun r h => by
    simp [body, pCompound, run_bind, run_consume, bind_ok, run_getTds, run_try, h, tr_ok, run_setTds, run_orFail_some])

theorem after_notTd {d : Decl} (h : d.isTd = false) : d.after tds = tds := by simp [Decl.after, tdsAfter, h]

mutual
theorem g_stmt : (s : Stmt) → {c : Ctx} → s.ok c.tds → {t : Tok} → (s.openIf = true → t ≠ .kw .kelse) → (Y : List Tok) →
    Ok .stmt c (s.toks ++ t :: Y) s.ast (t :: Y)
  | .case e s, c, h, t, ht, Y => by
    simp only [Stmt.ok] at h
    have k1 := (g_expr _ e h.1).assign rfl (stops_colon 0) (c := c) (Y := s.toks ++ t :: Y)
    have k2 := g_stmt s h.2 ht Y
    exact P.intro2 k1 k2 (fun r k1 k2 => by simp [Stmt.toks, Stmt.ast, body, pStmt, run_bind, run_peek, bind_ok, run_consume, k1, k2, run_pure])
  | .default s, c, h, t, ht, Y => by
    simp only [Stmt.ok] at h
    have k2 := g_stmt s h ht Y
    exact P.intro1 k2 (fun r k2 => by simp [Stmt.toks, Stmt.ast, body, pStmt, run_bind, run_peek, bind_ok, run_consume, k2, run_pure])
  | .block is, c, h, t, ht, Y => by
    simp only [Stmt.ok] at h
    have k := ok_compound (g_items is [] h (t :: Y))
    exact P.intro1 k (fun r k => by simp [Stmt.toks, Stmt.ast, body, pStmt, run_bind, run_peek, bind_ok, k])
  | .continue, c, _, t, _, Y => P.intro0 (fun r => by simp [Stmt.toks, Stmt.ast, body, pStmt, run_bind, run_peek, bind_ok, run_consume, run_pure])
  | .break, c, _, t, _, Y => P.intro0 (fun r => by simp [Stmt.toks, Stmt.ast, body, pStmt, run_bind, run_peek, bind_ok, run_consume, run_pure])
  | .ret, c, _, t, _, Y => P.intro0 (fun r => by simp [Stmt.toks, Stmt.ast, body, pStmt, run_bind, run_peek, bind_ok, run_consume, run_adv, run_pure])
  | .retE e, c, h, t, ht, Y => by
    simp only [Stmt.ok] at h
    have g := g_expr c.tds e h
    have k1 := g.assign rfl (stops_semicolon 0) (c := c) (Y := t :: Y)
    obtain ⟨u, tl, he, hu, -, -⟩ := g.head
    refine P.intro1 k1 (fun r k1 => ?_)
    simp only [Stmt.toks, Stmt.ast]
    rw [he] at k1 ⊢
    simp only [List.cons_append, List.append_assoc, List.nil_append] at k1 ⊢
    simp [body, pStmt, run_bind, run_peek, bind_ok, run_consume, (exprHead_ne hu).2.2.1, k1, run_pure]
  | .ifS e s, c, h, t, ht, Y => by
    simp only [Stmt.ok] at h
    have hne : t ≠ .kw .kelse := ht (by simp [Stmt.openIf])
    have k1 := (g_expr _ e h.1).assign rfl (stops_rparen 0) (c := c) (Y := s.toks ++ t :: Y)
    have k2 := g_stmt s h.2 (fun _ => hne) Y
    exact P.intro2 k1 k2 (fun r k1 k2 => by
      simp [Stmt.toks, Stmt.ast, body, pStmt, run_bind, run_peek, bind_ok, run_consume, ok_paren k1, k2, hne, run_pure])
  | .ifElse e s s2, c, h, t, ht, Y => by
    simp only [Stmt.ok] at h
    have k1 := (g_expr _ e h.1).assign rfl (stops_rparen 0) (c := c) (Y := s.toks ++ .kw .kelse :: (s2.toks ++ t :: Y))
    have k2 := g_stmt s h.2.1 (t := .kw .kelse) (by simp [h.2.2.2]) (s2.toks ++ t :: Y)
    have k3 := g_stmt s2 h.2.2.1 (t := t) (by simpa [Stmt.openIf] using ht) Y
    exact P.intro3 k1 k2 k3 (fun r k1 k2 k3 => by
      simp [Stmt.toks, Stmt.ast, body, pStmt, run_bind, run_peek, bind_ok, run_consume, ok_paren k1, k2, run_adv, k3, run_pure])
  | .switch e s, c, h, t, ht, Y => by
    simp only [Stmt.ok] at h
    have k1 := (g_expr _ e h.1).assign rfl (stops_rparen 0) (c := c) (Y := s.toks ++ t :: Y)
    have k2 := g_stmt s h.2 (by simpa [Stmt.openIf] using ht) Y
    exact P.intro2 k1 k2 (fun r k1 k2 => by
      simp [Stmt.toks, Stmt.ast, body, pStmt, run_bind, run_peek, bind_ok, run_consume, ok_paren k1, k2, run_pure])
  | .while e s, c, h, t, ht, Y => by
    simp only [Stmt.ok] at h
    have k1 := (g_expr _ e h.1).assign rfl (stops_rparen 0) (c := c) (Y := s.toks ++ t :: Y)
    have k2 := g_stmt s h.2 (by simpa [Stmt.openIf] using ht) Y
    exact P.intro2 k1 k2 (fun r k1 k2 => by
      simp [Stmt.toks, Stmt.ast, body, pStmt, run_bind, run_peek, bind_ok, run_consume, ok_paren k1, k2, run_pure])
  | .forD d cnd stp s, c, h, t, ht, Y => by
    simp only [Stmt.ok] at h
    have k := ok_for (X := d.toks) d.ast cnd stp s.toks s.ast h.2.2.1 h.2.2.2.1 (t := t) (Y := Y) (fun Z => by
      obtain ⟨u, tl, e, hu⟩ := decl_head d h.1
      refine ⟨true, .decl, rfl, ?_, ?_⟩
      · rw [e, List.cons_append, run_itemMayDecl, hu]
      · have := ok_decl d h.1 Z
        rw [after_notTd h.2.1] at this
        exact this) (g_stmt s h.2.2.2.2 (by simpa [Stmt.openIf] using ht) Y)
    simpa [Stmt.toks, Stmt.ast] using k
  | .forE i cnd stp s, c, h, t, ht, Y => by
    simp only [Stmt.ok] at h
    have k := ok_for (X := optToks i ++ [.punct .semicolon]) (optStmt i) cnd stp s.toks s.ast h.2.1 h.2.2.1 (t := t) (Y := Y) (fun Z => by
      refine ⟨false, .exprStmt, rfl, ?_, ?_⟩
      · obtain ⟨u, tl, e, h1, h2⟩ := optToks_head i h.1 (.punct .semicolon) Z ⟨rfl, rfl⟩
        rw [List.append_assoc]
        show itemMayDecl (st c (optToks i ++ .punct .semicolon :: Z)) = .ok _ (st c (optToks i ++ .punct .semicolon :: Z))
        rw [e, run_itemMayDecl, h1, h2]; rfl
      · have := ok_exprStmt i h.1 Z
        simpa using this) (g_stmt s h.2.2.2 (by simpa [Stmt.openIf] using ht) Y)
    simpa [Stmt.toks, Stmt.ast] using k
  | .expr e, c, h, t, ht, Y => by
    simp only [Stmt.ok] at h
    have k := ok_exprStmt (some e) (c := c) h (t :: Y)
    obtain ⟨u, tl, he, hu, -, -⟩ := (g_expr c.tds e h).head
    refine P.intro1 k (fun r k => ?_)
    simp only [Stmt.toks, Stmt.ast, optToks, optStmt] at k ⊢
    rw [he] at k ⊢
    simp only [List.cons_append, List.append_assoc, List.nil_append] at k ⊢
    rcases exprHead_cases hu with ⟨n, rfl, h⟩ | ⟨l, rfl⟩ | ⟨l, rfl⟩ | ⟨l, rfl⟩ | rfl | rfl | rfl | rfl | rfl | rfl | rfl | rfl | rfl | rfl <;>
      simp [body, pStmt, run_bind, run_peek, bind_ok, k]
  | .null, c, _, t, _, Y => by
    have k := ok_exprStmt none (c := c) trivial (t :: Y)
    exact P.intro1 k (fun r k => by
      simp only [optToks, List.nil_append, optStmt] at k
      simp [Stmt.toks, Stmt.ast, body, pStmt, run_bind, run_peek, bind_ok, k])
theorem g_items : (is : Items) → {c : Ctx} → (acc : List Ast) → is.ok c.tds → (Y : List Tok) →
    P (.items acc) (st c (is.toks ++ .punct .rbrace :: Y)) (.ok (.node .cmpdStmt (acc ++ is.asts)) (st { c with tds := itemsAfter c.tds is } Y))
  | .nil, c, acc, _, Y => P.intro0 (fun r => by simp [Items.toks, Items.asts, itemsAfter, body, pItems, run_bind, run_peek, bind_ok, run_adv, run_pure])
  | .decl d is, c, acc, h, Y => by
    simp only [Items.ok] at h
    have k := ok_decl d h.1 (is.toks ++ .punct .rbrace :: Y)
    have k2 := g_items is (c := { c with tds := d.after c.tds }) (acc ++ [d.ast]) h.2 Y
    obtain ⟨u, tl, e, hu⟩ := decl_head d h.1
    refine P.intro2 k k2 (fun r k k2 => ?_)
    have hne : u ≠ .punct .rbrace := by rintro rfl; simp [isStorage, isTypeSpec] at hu
    simp only [Items.toks, Items.asts, itemsAfter, List.append_assoc, List.cons_append, List.nil_append] at k k2 ⊢
    rw [e] at k ⊢
    simp only [List.cons_append] at k ⊢
    simp [body, pItems, run_bind, run_peek, bind_ok, hne, run_itemMayDecl, hu, k, k2]
  | .stmt s is, c, acc, h, Y => by
    simp only [Items.ok] at h
    obtain ⟨v, tl2, e2, hv⟩ := items_head is h.2 Y
    have k := g_stmt s h.1 (t := v) (fun _ => hv) tl2
    have k2 := g_items is (acc ++ [s.ast]) h.2 Y
    obtain ⟨u, tl, e, h1, h2, h3, -⟩ := stmt_head s h.1
    refine P.intro2 k k2 (fun r k k2 => ?_)
    simp only [Items.toks, Items.asts, itemsAfter, List.append_assoc, List.cons_append, List.nil_append] at k k2 ⊢
    rw [e2] at k2 ⊢
    rw [e] at k ⊢
    simp only [List.cons_append] at k ⊢
    simp [body, pItems, run_bind, run_peek, bind_ok, h3, run_itemMayDecl, h1, h2, k, k2]
end

/-! ### translation units -/

/-- specifiers of a function definition -/
theorem ok_fspecs (ss : Specs) {c : Ctx} (h : ss.ok c.tds) (n : Id) (hn : n ∉ c.tds) (d : Dtor) (Z : List Tok) :
    P (.declSpecs [] false) (st c (ss.toks ++ (d.toks [.ident n] ++ Z))) (.ok (.node .declSpecs ss.asts) (st { c with flag := false } (d.toks [.ident n] ++ Z))) := by
  obtain ⟨u, tl, e, h1, h2, h3⟩ := dtor_head (p := fun t => isTypeSpec c.tds t = false ∧ isStorage t = false ∧ t ≠ .punct .lbrace) (x := [.ident n])
    ⟨rfl, rfl, by simp⟩ ⟨rfl, rfl, by simp⟩ ⟨rfl, rfl, by simp⟩ d Z ⟨_, _, rfl, by simp [isTypeSpec, hn], rfl, by simp⟩
  rw [e]
  exact (g_specs _ ss h).2.2 c [] false u tl rfl h1 h2 h3

/-- one external declaration: the test for a function definition, then the right function -/
def Step (c : Ctx) (X : List Tok) (a : Ast) (c' : Ctx) : Prop :=
  ∀ t Y, ∃ n, ∀ f, n ≤ f → ∃ b, mayFuncDef (parse f) (st c (X ++ t :: Y)) = .ok b (st c (X ++ t :: Y)) ∧
    parse f (if b then .funcDef else .decl) (st c (X ++ t :: Y)) = .ok a (st c' (t :: Y))

theorem step_func (ss : Specs) (n : Id) (d : Dtor) (is : Items) {c : Ctx} (h : (Ext.func ss n d is).ok c.tds) :
    Step c (Ext.func ss n d is).toks (Ext.func ss n d is).ast c := by
  intro t Y
  simp only [Ext.ok] at h
  obtain ⟨h1, h2, h3, h4⟩ := h
  have k1 := ok_fspecs ss h1 n h2 d (.punct .lbrace :: (is.toks ++ .punct .rbrace :: t :: Y))
  have k2 := ok_declor_named d n (c := { c with flag := false }) (c' := { c with flag := false }) (by simp) (g_dtor _ d h3) dstop_lbrace (is.toks ++ .punct .rbrace :: t :: Y)
  have k3 := ok_compound (g_items is [] h4 (t :: Y))
  have k4 : Ok .funcDef c (ss.toks ++ (d.toks [.ident n] ++ .punct .lbrace :: (is.toks ++ .punct .rbrace :: t :: Y))) (Ext.func ss n d is).ast (t :: Y) :=
    P.intro3 k1 k2 k3 (fun r k1 k2 k3 => by
      simp [Ext.ast, body, pFuncDef, run_bind, bind_ok, run_getFlag, run_try, k1, tr_ok, k2, run_setFlag, run_orFail_some, k3, run_pure])
  obtain ⟨n1, k1⟩ := k1
  obtain ⟨n2, k2⟩ := k2
  obtain ⟨n4, k4⟩ := k4
  refine ⟨n1 + n2 + n4, fun f hf => ⟨true, ?_, ?_⟩⟩
  · replace k1 := k1 f (by omega)
    replace k2 := k2 f (by omega)
    simp [Ext.toks, mayFuncDef, run_bind, bind_ok, run_getToks, run_getTds, run_getFlag, run_try, k1, tr_ok, k2, run_setTds, run_setFlag, run_peek,
      run_setToks, run_pure]
  · replace k4 := k4 f (by omega)
    simpa [Ext.toks] using k4

theorem step_decl (d : Decl) {c : Ctx} (h : d.ok c.tds) : Step c d.toks d.ast { c with tds := d.after c.tds } := by
  intro t Y
  obtain ⟨n4, k4⟩ := ok_decl d h (t :: Y)
  obtain ⟨ss, ds⟩ := d
  obtain ⟨h1, h2, h3, h4⟩ := h
  cases ds with
  | nil =>
    obtain ⟨n1, k1⟩ := ok_dspecs ss (c := c) [] false h2 (.inr h1) (t := .punct .semicolon) rfl rfl (by simp) (t :: Y)
    have k2 : P (.declor false) (st { c with flag := ss.any DSpec.isTd } (.punct .semicolon :: t :: Y)) (.err (st { c with flag := ss.any DSpec.isTd } (.punct .semicolon :: t :: Y))) :=
      P.intro1 (P.intro0 (nt := .direct false) (s := st { c with flag := ss.any DSpec.isTd } (.punct .semicolon :: t :: Y))
          (res := .err (st { c with flag := ss.any DSpec.isTd } (.punct .semicolon :: t :: Y))) (fun r => by
        simp [body, pDirect, run_bind, run_getToks, run_peek, bind_ok, run_fail]))
      (fun r k => by simp [body, pDeclor, run_bind, run_getToks, bind_ok, stars, run_setToks, k, bind_err])
    obtain ⟨n2, k2⟩ := k2
    refine ⟨n1 + n2 + n4, fun f hf => ⟨false, ?_, k4 f (by omega)⟩⟩
    replace k1 := k1 f (by omega)
    replace k2 := k2 f (by omega)
    simp only [Bool.false_or, List.nil_append] at k1
    simp [Decl.toks, idToks, mayFuncDef, run_bind, bind_ok, run_getToks, run_getTds, run_getFlag, run_try, k1, tr_ok, k2, tr_err, run_setTds, run_setFlag,
      run_setToks, run_pure]
  | cons x xs =>
    obtain ⟨u, tl, e, j1, j2, j3, j4⟩ := idToks_head (x :: xs) h3 (by simp) (t :: Y)
    obtain ⟨n1, k1⟩ := ok_dspecs ss (c := c) [] false h2 (.inr h1) j1 j2 j3 tl
    have key : ∃ v Z, DStop v ∧ v ≠ .punct .lbrace ∧ idToks (x :: xs) ++ .punct .semicolon :: t :: Y = x.d.toks [.ident x.n] ++ v :: Z := by
      obtain ⟨n, d, i⟩ := x
      cases xs with
      | nil =>
        cases i with
        | none => exact ⟨_, _, dstop_semicolon, by simp, rfl⟩
        | some i => exact ⟨_, _, dstop_equal, by simp, by simp only [idToks, IDtor.toks, List.append_assoc, List.cons_append]; rfl⟩
      | cons y ys =>
        cases i with
        | none => exact ⟨_, _, dstop_comma, by simp, by simp only [idToks, IDtor.toks, List.append_assoc, List.cons_append]; rfl⟩
        | some i => exact ⟨_, _, dstop_equal, by simp, by simp only [idToks, IDtor.toks, List.append_assoc, List.cons_append]; rfl⟩
    obtain ⟨v, Z, hv1, hv2, e2⟩ := key
    have hd : DOk ((({ c with flag := ss.any DSpec.isTd } : Ctx).name x.n)).tds x.d := by
      rw [Ctx.name_tds]
      have := h4.1
      obtain ⟨n, d, i⟩ := x
      cases i with
      | none => exact g_dtor _ d this
      | some i => exact g_dtor _ d this.1
    obtain ⟨n2, k2⟩ := ok_declor_named x.d x.n (c := { c with flag := ss.any DSpec.isTd }) rfl hd hv1 Z
    refine ⟨n1 + n2 + n4, fun f hf => ⟨false, ?_, k4 f (by omega)⟩⟩
    replace k1 := k1 f (by omega)
    replace k2 := k2 f (by omega)
    rw [← e2] at k2
    simp only [Bool.false_or, List.nil_append] at k1
    simp only [Decl.toks, List.append_assoc, List.cons_append, List.nil_append]
    rw [e] at k2 ⊢
    cases hf : ss.any DSpec.isTd <;> simp only [hf, Bool.false_eq_true, if_true, if_false] at k1 k2 <;>
    simp [mayFuncDef, run_bind, bind_ok, run_getToks, run_getTds, run_getFlag, run_try, k1, tr_ok, k2, run_setTds, run_setFlag, run_peek,
      run_setToks, run_pure, hv2]

theorem step_ext (x : Ext) {c : Ctx} (h : x.ok c.tds) : Step c x.toks x.ast { c with tds := x.after c.tds } := by
  cases x with
  | decl d => exact step_decl d h
  | func ss n d is => exact step_func ss n d is h

theorem ext_head (x : Ext) (h : x.ok tds) : ∃ t tl, x.toks = t :: tl ∧ t ≠ .eof := by
  cases x with
  | decl d =>
    obtain ⟨u, tl, e, hu⟩ := decl_head d h
    exact ⟨u, tl, e, by rintro rfl; simp [isStorage, isTypeSpec] at hu⟩
  | func ss n d is =>
    obtain ⟨⟨u, tl, e, hu⟩, -⟩ := g_specs _ ss h.1
    exact ⟨u, tl ++ (d.toks [.ident n] ++ (.punct .lbrace :: (is.toks ++ [.punct .rbrace]))), by simp [Ext.toks, e], by rintro rfl; simp [isTypeSpec] at hu⟩

theorem p_unit_last {c c' : Ctx} (h : Step c X a c') (acc : List Ast) : P (.unit acc) (st c (X ++ [.eof])) (.ok (.node .trasUnit (acc ++ [a])) (st c' [.eof])) := by
  obtain ⟨n, h⟩ := h .eof []
  refine ⟨n + 1, fun f hf => ?_⟩
  obtain ⟨g, rfl⟩ : ∃ g, f = g + 1 := ⟨f - 1, by omega⟩
  obtain ⟨b, h1, h2⟩ := h g (by omega)
  show body (parse g) (.unit acc) _ = _
  cases b <;> simp only [Bool.false_eq_true, if_true, if_false] at h2 <;>
    simp [body, pUnit, run_bind, h1, bind_ok, h2, run_peek, run_pure]

theorem p_unit_more {c c' : Ctx} (h : Step c X a c') (acc : List Ast) {t : Tok} (ht : t ≠ .eof) {Y : List Tok} {res : PR Ast}
    (hp : P (.unit (acc ++ [a])) (st c' (t :: Y)) res) : P (.unit acc) (st c (X ++ t :: Y)) res := by
  obtain ⟨n, h⟩ := h t Y
  obtain ⟨m, hp⟩ := hp
  refine ⟨n + m + 1, fun f hf => ?_⟩
  obtain ⟨g, rfl⟩ : ∃ g, f = g + 1 := ⟨f - 1, by omega⟩
  obtain ⟨b, h1, h2⟩ := h g (by omega)
  replace hp := hp g (by omega)
  show body (parse g) (.unit acc) _ = _
  cases b <;> simp only [Bool.false_eq_true, if_true, if_false] at h2 <;>
    simp [body, pUnit, run_bind, h1, bind_ok, h2, run_peek, ht, hp]

/-- typedef names after a translation unit -/
def unitAfter : List Id → List Ext → List Id
  | tds, [] => tds
  | tds, x :: xs => unitAfter (x.after tds) xs

theorem g_unit : (xs : List Ext) → (c : Ctx) → (acc : List Ast) → xs ≠ [] → unitOk c.tds xs →
    P (.unit acc) (st c (unitToks xs)) (.ok (.node .trasUnit (acc ++ xs.map Ext.ast)) (st { c with tds := unitAfter c.tds xs } [.eof]))
  | [], _, _, h, _ => absurd rfl h
  | [x], c, acc, _, h => by
    have := p_unit_last (step_ext x h.1) acc
    simpa [unitToks, unitAfter] using this
  | x :: y :: ys, c, acc, _, h => by
    have ih := g_unit (y :: ys) { c with tds := x.after c.tds } (acc ++ [x.ast]) (by simp) h.2
    obtain ⟨t, tl, e, ht⟩ := ext_head y h.2.1
    have e2 : unitToks (y :: ys) = t :: (tl ++ (ys.flatMap Ext.toks ++ [.eof])) := by simp [unitToks, e]
    rw [e2] at ih
    have := p_unit_more (step_ext x h.1) acc ht ih
    rw [← e2] at this
    simpa [unitToks, unitAfter] using this

end Parser
end Umlcc
