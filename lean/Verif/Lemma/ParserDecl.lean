import Verif.Lemma.ParserExpr
/-!
The parser reads printed type names, specifiers and declarators back.
-/
namespace Umlcc
namespace Parser
open M Syn

variable {tds : List Id} {q : Nat} {X : List Tok} {a : Ast}

/-- tokens that end a declarator -/
def DStop (t : Tok) : Prop := t ≠ .punct .lbracket ∧ t ≠ .punct .lparen ∧ t ≠ .punct .asterisk ∧ ∀ n, t ≠ .ident n

/-- a type specifier -/
def GS (tds : List Id) (X : List Tok) (a : Ast) : Prop :=
  (∃ t tl, X = t :: tl ∧ isTypeSpec tds t = true) ∧
  ∀ c t Y, c.tds = tds → t ≠ .punct .lbrace → Ok .typeSpec c (X ++ t :: Y) a (t :: Y)

/-- a list of type specifiers -/
def GSs (tds : List Id) (X : List Tok) (as : List Ast) : Prop :=
  (∃ t tl, X = t :: tl ∧ isTypeSpec tds t = true) ∧
  (∀ c acc t Y, c.tds = tds → isTypeSpec tds t = false → t ≠ .punct .lbrace →
    P (.specQuals acc) (st c (X ++ t :: Y)) (.ok (.node .specQualList (acc ++ as)) (st { c with flag := false } (t :: Y)))) ∧
  (∀ c acc td t Y, c.tds = tds → isTypeSpec tds t = false → isStorage t = false → t ≠ .punct .lbrace →
    P (.declSpecs acc td) (st c (X ++ t :: Y)) (.ok (.node .declSpecs (acc ++ as)) (st { c with flag := td } (t :: Y))))

/-- a parameter list -/
def GPs (tds : List Id) (X : List Tok) (as : List Ast) : Prop :=
  ∀ c acc Y, c.tds = tds → Ok (.params acc) c (X ++ .punct .rparen :: Y) (.node .paramList (acc ++ as)) (.punct .rparen :: Y)

/-- the expressions and parameter lists in a declarator -/
def DOk (tds : List Id) : Dtor → Prop
  | .leaf => True
  | .ptr d => DOk tds d
  | .arr d e => DOk tds d ∧ ∃ q, 1 ≤ q ∧ G tds q (wrap 1 e e.toks) e.ast
  | .fn d ps => DOk tds d ∧ GPs tds ps.toks ps.asts

/-! ### declarator trees -/

/-- the tree of `directLoop` for what was read so far -/
def enc (tm : Ast) : Dtor → Option Ast
  | .leaf => none
  | .ptr d => some ((Dtor.ptr d).ast tm)
  | .arr d _ => enc tm d
  | .fn d _ => enc tm d
def parts : Dtor → List (AstT × Ast)
  | .leaf => []
  | .ptr _ => []
  | .arr d e => parts d ++ [(.arrayDeclor, e.ast)]
  | .fn d ps => parts d ++ [(.funcDeclor, .node .paramList ps.asts)]

theorem chain_snoc (t : Ast) (ps : List (AstT × Ast)) (k : AstT) (b : Ast) : chain t (ps ++ [(k, b)]) = chain (.node k [t, b]) ps := by
  induction ps with
  | nil => rfl
  | cons p ps ih => simp [chain, ih]

/-- `y'` is `y` with the terminal node replaced -/
def MapR (T : AstT) (f : Ast → Ast) (y y' : Ast) : Prop := (y.type = T ∧ y' = f y) ∨ (y.type ≠ T ∧ y.mapTerm T f = .ok y')
def TermR (T : AstT) (tm y : Ast) : Prop := (y.type = T ∧ y = tm) ∨ (y.type ≠ T ∧ y.term T = .ok tm)

theorem mapR_node {T : AstT} {f : Ast → Ast} {y y' : Ast} (h : MapR T f y y') (k : AstT) (hk : k ≠ T) (cs : List Ast) :
    MapR T f (.node k (y :: cs)) (.node k (y' :: cs)) := by
  refine .inr ⟨hk, ?_⟩
  rcases h with ⟨h, rfl⟩ | ⟨h1, h2⟩
  · simp [Ast.node, Ast.mapTerm, h]
  · simp [Ast.node, Ast.mapTerm, h1, h2]

theorem termR_node {T : AstT} {tm y : Ast} (h : TermR T tm y) (k : AstT) (hk : k ≠ T) (cs : List Ast) :
    TermR T tm (.node k (y :: cs)) := by
  refine .inr ⟨hk, ?_⟩
  rcases h with ⟨h, rfl⟩ | ⟨h1, h2⟩
  · simp [Ast.node, Ast.term, h]
  · simp [Ast.node, Ast.term, h1, h2]

theorem termT_ne (abs : Bool) : AstT.ptrDeclor ≠ termT abs ∧ AstT.arrayDeclor ≠ termT abs ∧ AstT.funcDeclor ≠ termT abs := by
  cases abs <;> decide

theorem mapR_dtor {abs : Bool} {f : Ast → Ast} : (d : Dtor) → {y y' : Ast} → MapR (termT abs) f y y' → MapR (termT abs) f (d.ast y) (d.ast y')
  | .leaf, _, _, h => h
  | .ptr d, _, _, h => mapR_dtor d (mapR_node h _ (termT_ne abs).1 _)
  | .arr d _, _, _, h => mapR_dtor d (mapR_node h _ (termT_ne abs).2.1 _)
  | .fn d _, _, _, h => mapR_dtor d (mapR_node h _ (termT_ne abs).2.2 _)

theorem termR_dtor {abs : Bool} {tm : Ast} : (d : Dtor) → {y : Ast} → TermR (termT abs) tm y → TermR (termT abs) tm (d.ast y)
  | .leaf, _, h => h
  | .ptr d, _, h => termR_dtor d (termR_node h _ (termT_ne abs).1 _)
  | .arr d _, _, h => termR_dtor d (termR_node h _ (termT_ne abs).2.1 _)
  | .fn d _, _, h => termR_dtor d (termR_node h _ (termT_ne abs).2.2 _)

/-- the tree does not have the terminal type unless the declarator is only a name -/
theorem dtor_type {abs : Bool} : (d : Dtor) → {y : Ast} → y.type ≠ termT abs → (d.ast y).type ≠ termT abs
  | .leaf, _, h => h
  | .ptr d, _, _ => dtor_type d (termT_ne abs).1
  | .arr d _, _, _ => dtor_type d (termT_ne abs).2.1
  | .fn d _, _, _ => dtor_type d (termT_ne abs).2.2

/-- the tree made at the end of the loop is the declarator's tree -/
theorem enc_parts {abs : Bool} {tm : Ast} (ht : tm.type = termT abs) :
    (d : Dtor) → (y : Ast) → (match enc tm d with
      | some e => e.mapTerm (termT abs) (fun _ => chain y (parts d)) = .ok (d.ast y)
      | none => chain y (parts d) = d.ast y)
  | .leaf, y => rfl
  | .ptr d, y => by
    have h : MapR (termT abs) (fun _ => y) (.node .ptrDeclor [tm]) (.node .ptrDeclor [y]) := mapR_node (.inl ⟨ht, rfl⟩) _ (termT_ne abs).1 _
    rcases mapR_dtor d h with ⟨h1, -⟩ | ⟨-, h2⟩
    · exact absurd h1 (dtor_type d (termT_ne abs).1)
    · exact h2
  | .arr d e, y => by
    have := enc_parts ht d (.node .arrayDeclor [y, e.ast])
    simp only [enc, parts, chain_snoc, Dtor.ast] at this ⊢
    exact this
  | .fn d ps, y => by
    have := enc_parts ht d (.node .funcDeclor [y, .node .paramList ps.asts])
    simp only [enc, parts, chain_snoc, Dtor.ast] at this ⊢
    exact this

/-! ### first tokens of declarators -/

theorem dtor_head {p : Tok → Prop} (h1 : p (.punct .asterisk)) (h2 : p (.punct .lparen)) (h3 : p (.punct .lbracket)) {x : List Tok} :
    (d : Dtor) → (Y : List Tok) → (∃ t tl, x ++ Y = t :: tl ∧ p t) → ∃ t tl, d.toks x ++ Y = t :: tl ∧ p t
  | .leaf, _, h => h
  | .ptr _, _, _ => ⟨_, _, rfl, h1⟩
  | .arr d e, Y, h => by
    unfold Dtor.toks
    split
    · exact ⟨_, _, rfl, h2⟩
    · rw [List.append_assoc]
      refine dtor_head h1 h2 h3 d _ ?_
      cases x with
      | nil => exact ⟨_, _, rfl, h3⟩
      | cons t x => obtain ⟨u, tl, e, k⟩ := h; simp at e; exact ⟨t, _, rfl, e.1 ▸ k⟩
  | .fn d ps, Y, h => by
    unfold Dtor.toks
    split
    · exact ⟨_, _, rfl, h2⟩
    · rw [List.append_assoc]
      refine dtor_head h1 h2 h3 d _ ?_
      cases x with
      | nil => exact ⟨_, _, rfl, h2⟩
      | cons t x => obtain ⟨u, tl, e, k⟩ := h; simp at e; exact ⟨t, _, rfl, e.1 ▸ k⟩

theorem specs_head : (ss : Specs) → ss.startsTd = false → ∃ k tl, ss.toks = .kw k :: tl
  | .one s, h => by cases s <;> simp_all [Specs.startsTd, Specs.toks, Spec.toks]
  | .cons s ss, h => by cases s <;> simp_all [Specs.startsTd, Specs.toks, Spec.toks]
theorem params_head (ps : ParamL) (h : ps.startsTd = false) : ∃ k tl, ps.toks = .kw k :: tl := by
  cases ps with
  | one p =>
    cases p with
    | mk ss n d =>
      obtain ⟨k, tl, e⟩ := specs_head ss h
      exact ⟨k, tl ++ d.toks (optTok n), by simp [ParamL.toks, ParamD.toks, e]⟩
  | cons p ps =>
    cases p with
    | mk ss n d =>
      obtain ⟨k, tl, e⟩ := specs_head ss h
      exact ⟨k, tl ++ (d.toks (optTok n) ++ .punct .comma :: ps.toks), by simp [ParamL.toks, ParamD.toks, e]⟩

/-! ### reading declarators -/

/-- What may follow where the name would be: no identifier, no asterisk, and a parenthesis only before a keyword. -/
def LeafOk (Y : List Tok) : Prop :=
  ∃ t tl, Y = t :: tl ∧ (∀ n, t ≠ .ident n) ∧ t ≠ .punct .asterisk ∧ (t = .punct .lparen → ∃ k tl2, tl = .kw k :: tl2)

theorem leafOk_stop {t : Tok} (h : DStop t) (Y : List Tok) : LeafOk (t :: Y) :=
  ⟨t, Y, rfl, h.2.2.2, h.2.2.1, fun h' => absurd h' h.2.1⟩

theorem stars_zero {t : Tok} {Y : List Tok} (h : t ≠ .punct .asterisk) : stars (t :: Y) = 0 := by
  unfold stars
  split
  · rename_i he; simp at he; exact absurd he.1 h
  · rfl
theorem stars_replicate (n : Nat) (Y : List Tok) : stars (List.replicate n (.punct .asterisk) ++ Y) = n + stars Y := by
  induction n with
  | zero => simp
  | succ n ih => simp [List.replicate_succ, stars, ih]; omega

/-- the loop ends -/
theorem directLoop_stop {abs : Bool} {tm : Ast} (ht : tm.type = termT abs) (d : Dtor) {c : Ctx} {t : Tok} {Y : List Tok}
    (h1 : t ≠ .punct .lbracket) (h2 : t ≠ .punct .lparen) :
    P (.directLoop (enc tm d) tm (parts d) abs) (st c (t :: Y)) (.ok (d.ast tm) (st c (t :: Y))) := by
  refine P.intro0 (fun r => ?_)
  have := enc_parts ht d tm
  simp only [body, pDirectLoop, run_bind, run_peek, bind_ok]
  cases he : enc tm d with
  | some e => simp only [he] at this ⊢; rw [this]; rfl
  | none => simp only [he] at this ⊢; rw [this]; rfl

/-- `p_declor`: asterisks, then the direct declarator -/
theorem p_declor {abs : Bool} {tm : Ast} (ht : tm.type = termT abs) (n : Nat) (d : Dtor) {c c' : Ctx} {t : Tok} {X Y : List Tok}
    (hX : ∃ u tl, X ++ t :: Y = u :: tl ∧ u ≠ .punct .asterisk)
    (h : P (.direct abs) (st c (X ++ t :: Y)) (.ok (d.ast tm) (st c' (t :: Y)))) :
    P (.declor abs) (st c (List.replicate n (.punct .asterisk) ++ (X ++ t :: Y))) (.ok (d.ast (ptrs n tm)) (st c' (t :: Y))) := by
  refine P.intro1 h (fun r h => ?_)
  have hs : stars (X ++ t :: Y) = 0 := by obtain ⟨u, tl, e, hu⟩ := hX; rw [e]; exact stars_zero hu
  have hd : List.drop n (List.replicate n (Tok.punct .asterisk) ++ (X ++ t :: Y)) = X ++ t :: Y := by
    rw [List.drop_append_of_le_length (by simp)]; simp
  simp only [body, pDeclor, run_bind, run_getToks, bind_ok, stars_replicate, hs, Nat.add_zero, hd, run_setToks, h]
  by_cases hn : n = 0
  · subst hn; simp [run_pure, ptrs]
  · have hm : MapR (termT abs) (ptrs n) (d.ast tm) (d.ast (ptrs n tm)) := mapR_dtor d (.inl ⟨ht, rfl⟩)
    rcases hm with ⟨h1, h2⟩ | ⟨h1, h2⟩
    · simp [hn, h1, run_pure, h2]
    · simp [hn, h1, h2, run_lift]

theorem dtor_noStar {x : List Tok} : (d : Dtor) → d.isPtr = false → (Y : List Tok) → (∃ u tl, x ++ Y = u :: tl ∧ u ≠ .punct .asterisk) →
    ∃ u tl, d.toks x ++ Y = u :: tl ∧ u ≠ .punct .asterisk
  | .leaf, _, _, h => h
  | .ptr d, h, _, _ => by simp [Dtor.isPtr] at h
  | .arr d e, _, Y, h => by
    unfold Dtor.toks
    split
    · exact ⟨_, _, rfl, by simp⟩
    · next hd =>
      rw [List.append_assoc]
      refine dtor_noStar d (by simpa using hd) _ ?_
      cases x with
      | nil => exact ⟨_, _, rfl, by simp⟩
      | cons t x => obtain ⟨u, tl, e, k⟩ := h; simp at e; exact ⟨t, _, rfl, e.1 ▸ k⟩
  | .fn d ps, _, Y, h => by
    unfold Dtor.toks
    split
    · exact ⟨_, _, rfl, by simp⟩
    · next hd =>
      rw [List.append_assoc]
      refine dtor_noStar d (by simpa using hd) _ ?_
      cases x with
      | nil => exact ⟨_, _, rfl, by simp⟩
      | cons t x => obtain ⟨u, tl, e, k⟩ := h; simp at e; exact ⟨t, _, rfl, e.1 ▸ k⟩

section
variable {abs : Bool} {tm : Ast} {x : List Tok} {c c' : Ctx}

/-- both statements about a declarator: after asterisks, and as a direct declarator -/
def Reads (abs : Bool) (tm : Ast) (x : List Tok) (c c' : Ctx) (d : Dtor) : Prop :=
  (∀ n t Y, DStop t → P (.declor abs) (st c (List.replicate n (.punct .asterisk) ++ (d.toks x ++ t :: Y))) (.ok (d.ast (ptrs n tm)) (st c' (t :: Y)))) ∧
  (d.isPtr = false → ∀ Y res, (d = .leaf → LeafOk Y) → P (.directLoop (enc tm d) tm (parts d) abs) (st c' Y) res →
    P (.direct abs) (st c (d.toks x ++ Y)) res)

/-- a declarator in parentheses -/
theorem direct_paren (ht : tm.type = termT abs) {d : Dtor} (hd : d.isPtr = true) (h : Reads abs tm x c c' d) {Y : List Tok} {res : PR Ast}
    (hp : P (.directLoop (enc tm d) tm [] abs) (st c' Y) res) : P (.direct abs) (st c (par (d.toks x) ++ Y)) res := by
  have k := h.1 0 (.punct .rparen) Y ⟨by simp, by simp, by simp, by simp⟩
  simp only [List.replicate_zero, List.nil_append, ptrs] at k
  cases d with
  | ptr d =>
    have hne : ((Dtor.ptr d).ast tm).type ≠ termT abs := dtor_type d (termT_ne abs).1
    have hterm : ((Dtor.ptr d).ast tm).term (termT abs) = .ok tm := by
      rcases termR_dtor (abs := abs) (Dtor.ptr d) (.inl ⟨ht, rfl⟩ : TermR (termT abs) tm tm) with ⟨h1, -⟩ | ⟨-, h2⟩
      · exact absurd h1 hne
      · exact h2
    refine P.intro2 k hp (fun r k hp => ?_)
    simp only [enc] at hp
    cases abs <;>
      simp [body, pDirect, Syn.par, run_bind, run_getToks, run_peek, bind_ok, run_adv, k, run_consume, hterm, hne, run_lift, hp, run_ite]
  | _ => simp [Dtor.isPtr] at hd

theorem reads_of_direct (ht : tm.type = termT abs) (hx : ∀ t Y, DStop t → ∃ u tl, x ++ t :: Y = u :: tl ∧ u ≠ .punct .asterisk)
    {d : Dtor} (hd : d.isPtr = false)
    (h : ∀ Y res, (d = .leaf → LeafOk Y) → P (.directLoop (enc tm d) tm (parts d) abs) (st c' Y) res → P (.direct abs) (st c (d.toks x ++ Y)) res) :
    Reads abs tm x c c' d := by
  refine ⟨fun n t Y hst => ?_, fun _ => h⟩
  have k := h (t :: Y) _ (fun _ => leafOk_stop hst Y) (directLoop_stop ht d hst.1 hst.2.1)
  refine p_declor ht n d ?_ k
  exact dtor_noStar d hd _ (hx t Y hst)

/-- a name, or nothing, is read as such -/
def LeafReads (abs : Bool) (tm : Ast) (x : List Tok) (c c' : Ctx) : Prop :=
  ∀ Y res, (abs = true → LeafOk Y) → P (.directLoop none tm [] abs) (st c' Y) res → P (.direct abs) (st c (x ++ Y)) res

theorem reads (ht : tm.type = termT abs) (hx : ∀ t Y, DStop t → ∃ u tl, x ++ t :: Y = u :: tl ∧ u ≠ .punct .asterisk)
    (hl : LeafReads abs tm x c c') : (d : Dtor) → DOk c'.tds d → (abs = true → d.absOk = true) → Reads abs tm x c c' d
  | .leaf, _, _ => reads_of_direct ht hx rfl (fun Y res h hp => hl Y res (fun _ => h rfl) hp)
  | .ptr d, h, ha => by
    have ih := reads ht hx hl d h (by simpa [Dtor.absOk] using ha)
    refine ⟨fun n t Y hst => ?_, by simp [Dtor.isPtr]⟩
    have := ih.1 (n + 1) t Y hst
    simp only [List.replicate_succ', List.append_assoc, List.cons_append, List.nil_append] at this
    exact this
  | .arr d e, h, ha => by
    have ih := reads ht hx hl d h.1 (by simpa [Dtor.absOk] using ha)
    refine reads_of_direct ht hx rfl (fun Y res _ hp => ?_)
    obtain ⟨q, hq, hg⟩ := h.2
    have k := hg.cond hq c' (.punct .rbracket) Y rfl (stops_rbracket 1)
    have step : ∀ ps, P (.directLoop (enc tm d) tm (ps ++ [(.arrayDeclor, e.ast)]) abs) (st c' Y) res →
        P (.directLoop (enc tm d) tm ps abs) (st c' (.punct .lbracket :: (wrap 1 e e.toks ++ .punct .rbracket :: Y))) res :=
      fun ps hp => P.intro2 k hp (fun r k hp => by
        simp [body, pDirectLoop, run_bind, run_peek, bind_ok, run_adv, k, run_consume, hp])
    simp only [Dtor.toks]
    split
    · next hd =>
      simp only [List.append_assoc, List.cons_append, List.nil_append]
      refine direct_paren ht hd ih (step [] ?_)
      cases d <;> simp_all [Dtor.isPtr, enc, parts]
    · next hd =>
      simp only [List.append_assoc, List.cons_append, List.nil_append]
      exact ih.2 (by simpa using hd) _ _ (fun _ => ⟨_, _, rfl, by simp, by simp, by simp⟩) (step _ hp)
  | .fn d ps, h, ha => by
    have ha' : abs = true → d.absOk = true := by
      intro hab
      have := ha hab
      cases d <;> simp_all [Dtor.absOk]
    have ih := reads ht hx hl d h.1 ha'
    refine reads_of_direct ht hx rfl (fun Y res _ hp => ?_)
    have k := h.2 c' [] Y rfl
    have step : ∀ ls, P (.directLoop (enc tm d) tm (ls ++ [(.funcDeclor, .node .paramList ps.asts)]) abs) (st c' Y) res →
        P (.directLoop (enc tm d) tm ls abs) (st c' (.punct .lparen :: (ps.toks ++ .punct .rparen :: Y))) res :=
      fun ls hp => P.intro2 k hp (fun r k hp => by
        simp only [List.nil_append] at k
        simp [body, pDirectLoop, run_bind, run_peek, bind_ok, run_adv, k, run_consume, hp])
    simp only [Dtor.toks]
    split
    · next hd =>
      simp only [List.append_assoc, List.cons_append, List.nil_append]
      refine direct_paren ht hd ih (step [] ?_)
      cases d <;> simp_all [Dtor.isPtr, enc, parts]
    · next hd =>
      simp only [List.append_assoc, List.cons_append, List.nil_append]
      cases abs with
      | false =>
        cases d with
        | leaf => exact hl _ _ (by simp) (step _ hp)
        | ptr d => simp [Dtor.isPtr] at hd
        | arr d e => exact ih.2 rfl _ _ (by simp) (step _ hp)
        | fn d e => exact ih.2 rfl _ _ (by simp) (step _ hp)
      | true =>
        refine ih.2 (by simpa using hd) _ _ (fun hd => ?_) (step _ hp)
        subst hd
        have := ha rfl
        simp only [Dtor.absOk, Bool.not_eq_true', ] at this
        obtain ⟨k, tl, e⟩ := params_head ps this
        exact ⟨_, _, rfl, by simp, by simp, fun _ => ⟨k, tl ++ .punct .rparen :: Y, by simp [e]⟩⟩
end

/-! ### names -/

theorem leaf_named {c : Ctx} (n : Id) : LeafReads false (.name .identDeclor n) [.ident n] c (if c.flag then { c with tds := n :: c.tds } else c) := by
  intro Y res _ hp
  refine P.intro1 hp (fun r hp => ?_)
  simp only [body, pDirect, run_bind, run_getToks, List.cons_append, List.nil_append, run_peek, bind_ok, Bool.false_eq_true, if_false, run_adv, run_getFlag, run_getTds]
  cases hf : c.flag
  · simp only [hf, Bool.false_eq_true, if_false] at hp; simp [run_pure, bind_ok, hp]
  · simp only [hf, if_true] at hp; simp [run_bind, run_setTds, bind_ok, hf, hp]

theorem leaf_abs {c : Ctx} : LeafReads true (.node .absDeclor []) [] c c := by
  intro Y res h hp
  obtain ⟨t, tl, rfl, h1, h2, h3⟩ := h rfl
  by_cases ht : t = .punct .lparen
  · obtain ⟨k, tl2, rfl⟩ := h3 ht
    subst ht
    have k0 : P (.directLoop none (.node .absDeclor []) [] true) (st c (.kw k :: tl2)) (.ok (.node .absDeclor []) (st c (.kw k :: tl2))) :=
      P.intro0 (fun r => by simp [body, pDirectLoop, run_bind, run_peek, bind_ok, chain, run_pure])
    have k1 : P (.direct true) (st c (.kw k :: tl2)) (.ok (.node .absDeclor []) (st c (.kw k :: tl2))) :=
      P.intro1 k0 (fun r k0 => by simp [body, pDirect, run_bind, run_getToks, run_peek, bind_ok, k0])
    have k2 : P (.declor true) (st c (.kw k :: tl2)) (.ok (.node .absDeclor []) (st c (.kw k :: tl2))) :=
      P.intro1 k1 (fun r k1 => by simp [body, pDeclor, run_bind, run_getToks, bind_ok, stars, run_setToks, k1, run_pure])
    refine P.intro2 k2 hp (fun r k2 hp => ?_)
    simp [body, pDirect, run_bind, run_getToks, run_peek, bind_ok, run_adv, k2, termT, Ast.node, Ast.type, run_ite, run_setToks]
    exact hp
  · refine P.intro1 hp (fun r hp => ?_)
    simp only [body, pDirect, run_bind, run_getToks, List.nil_append, run_peek, bind_ok]
    simp [hp]

/-- a declarator with a name -/
theorem ok_declor_named (d : Dtor) (n : Id) {c c' : Ctx} (hc : c' = if c.flag then { c with tds := n :: c.tds } else c) (h : DOk c'.tds d)
    {t : Tok} (ht : DStop t) (Y : List Tok) :
    P (.declor false) (st c (d.toks [.ident n] ++ t :: Y)) (.ok (d.ast (.name .identDeclor n)) (st c' (t :: Y))) := by
  subst hc
  exact (reads (abs := false) rfl (fun t Y _ => ⟨_, _, rfl, by simp⟩) (leaf_named n) d h (by simp)).1 0 t Y ht

/-- a declarator without a name -/
theorem ok_declor_abs (d : Dtor) {c : Ctx} (h : DOk c.tds d) (ha : d.absOk = true) {t : Tok} (ht : DStop t) (Y : List Tok) :
    Ok (.declor true) c (d.toks [] ++ t :: Y) (d.ast (.node .absDeclor [])) (t :: Y) :=
  (reads (abs := true) rfl (fun _ _ h => ⟨_, _, rfl, h.2.2.1⟩) leaf_abs d h (fun _ => ha)).1 0 t Y ht

/-! ### no name where one is expected -/

/-- the errors of both functions -/
def Fails (c : Ctx) (d : Dtor) : Prop :=
  (∀ n t Y, DStop t → Er (.declor false) c (List.replicate n (.punct .asterisk) ++ (d.toks [] ++ t :: Y))) ∧
  (d.isPtr = false → ∀ Y, (d = .leaf → LeafOk Y) → Er (.direct false) c (d.toks [] ++ Y))

theorem er_declor {n : Nat} {c : Ctx} {X : List Tok} (hX : ∃ u tl, X = u :: tl ∧ u ≠ .punct .asterisk) (h : Er (.direct false) c X) :
    Er (.declor false) c (List.replicate n (.punct .asterisk) ++ X) := by
  obtain ⟨Z, h⟩ := h
  refine ⟨Z, P.intro1 h (fun r h => ?_)⟩
  have hs : stars X = 0 := by obtain ⟨u, tl, e, hu⟩ := hX; rw [e]; exact stars_zero hu
  have hd : List.drop n (List.replicate n (Tok.punct .asterisk) ++ X) = X := by
    rw [List.drop_append_of_le_length (by simp)]; simp
  simp only [body, pDeclor, run_bind, run_getToks, bind_ok, stars_replicate, hs, Nat.add_zero, hd, run_setToks, h, bind_err]

theorem fails_of_direct {c : Ctx} {d : Dtor} (hd : d.isPtr = false) (h : ∀ Y, (d = .leaf → LeafOk Y) → Er (.direct false) c (d.toks [] ++ Y)) :
    Fails c d := by
  refine ⟨fun n t Y hst => er_declor ?_ (h _ (fun _ => leafOk_stop hst Y)), fun _ => h⟩
  exact dtor_noStar d hd _ ⟨t, Y, rfl, hst.2.2.1⟩

theorem er_direct_paren {c : Ctx} {d : Dtor} (h : Fails c d) (Y : List Tok) : Er (.direct false) c (par (d.toks []) ++ Y) := by
  obtain ⟨Z, k⟩ := h.1 0 (.punct .rparen) Y ⟨by simp, by simp, by simp, by simp⟩
  refine ⟨Z, P.intro1 k (fun r k => ?_)⟩
  simp only [List.replicate_zero, List.nil_append] at k
  simp [body, pDirect, Syn.par, run_bind, run_getToks, run_peek, bind_ok, run_adv, k, bind_err]

theorem fails {c : Ctx} : (d : Dtor) → d.absOk = true → Fails c d
  | .leaf, _ => by
    refine fails_of_direct rfl (fun Y h => ?_)
    obtain ⟨t, tl, rfl, h1, h2, h3⟩ := h rfl
    by_cases ht : t = .punct .lparen
    · obtain ⟨k, tl2, rfl⟩ := h3 ht
      subst ht
      have k1 : P (.direct false) (st c (.kw k :: tl2)) (.err (st c (.kw k :: tl2))) :=
        P.intro0 (fun r => by simp [body, pDirect, run_bind, run_getToks, run_peek, bind_ok, run_fail])
      have k2 : P (.declor false) (st c (.kw k :: tl2)) (.err (st c (.kw k :: tl2))) :=
        P.intro1 k1 (fun r k1 => by simp [body, pDeclor, run_bind, run_getToks, bind_ok, stars, run_setToks, k1, bind_err])
      exact ⟨.kw k :: tl2, P.intro1 k2 (fun r k2 => by simp [body, pDirect, Dtor.toks, run_bind, run_getToks, run_peek, bind_ok, run_adv, k2, bind_err])⟩
    · refine ⟨t :: tl, P.intro0 (fun r => ?_)⟩
      simp only [body, pDirect, Dtor.toks, run_bind, run_getToks, List.nil_append, run_peek, bind_ok]
      simp [run_fail]
  | .ptr d, ha => by
    have ih := fails (c := c) d (by simpa [Dtor.absOk] using ha)
    refine ⟨fun n t Y hst => ?_, by simp [Dtor.isPtr]⟩
    have := ih.1 (n + 1) t Y hst
    simp only [List.replicate_succ', List.append_assoc, List.cons_append, List.nil_append] at this
    exact this
  | .arr d e, ha => by
    have ih := fails (c := c) d (by simpa [Dtor.absOk] using ha)
    refine fails_of_direct rfl (fun Y _ => ?_)
    simp only [Dtor.toks]
    split
    · rw [List.append_assoc]; exact er_direct_paren ih _
    · next hd =>
      rw [List.append_assoc]
      exact ih.2 (by simpa using hd) _ (fun _ => ⟨_, _, rfl, by simp, by simp, by simp⟩)
  | .fn d ps, ha => by
    have ha' : d.absOk = true := by cases d <;> simp_all [Dtor.absOk]
    have ih := fails (c := c) d ha'
    refine fails_of_direct rfl (fun Y _ => ?_)
    simp only [Dtor.toks]
    split
    · rw [List.append_assoc]; exact er_direct_paren ih _
    · next hd =>
      rw [List.append_assoc]
      refine ih.2 (by simpa using hd) _ (fun hd => ?_)
      subst hd
      simp only [Dtor.absOk, Bool.not_eq_true'] at ha
      obtain ⟨k, tl, e⟩ := params_head ps ha
      exact ⟨_, _, rfl, by simp, by simp, fun _ => ⟨k, tl ++ (.punct .rparen :: Y), by simp [e]⟩⟩

theorem er_declor_abs (d : Dtor) (ha : d.absOk = true) {c : Ctx} {t : Tok} (ht : DStop t) (Y : List Tok) : Er (.declor false) c (d.toks [] ++ t :: Y) :=
  (fails d ha).1 0 t Y ht

/-! ### specifiers -/

theorem gs_kw {k : KW} (h : isTypeSpec tds (.kw k) = true)
    (hb : ∀ (r : NT → M Ast) c (Y : List Tok), pTypeSpec r (st c (.kw k :: Y)) = .ok a (st c Y)) : GS tds [.kw k] a :=
  ⟨⟨_, _, rfl, h⟩, fun _ _ _ _ _ => P.intro0 (fun r => hb r _ _)⟩

theorem gs_void : GS tds [.kw .kvoid] (.node .typeVoid []) := gs_kw rfl (fun r c Y => by simp [pTypeSpec, run_bind, run_peek, bind_ok, run_getTds, run_adv, run_pure])
theorem gs_char : GS tds [.kw .kchar] (.node .typeChar []) := gs_kw rfl (fun r c Y => by simp [pTypeSpec, run_bind, run_peek, bind_ok, run_getTds, run_adv, run_pure])
theorem gs_int : GS tds [.kw .kint] (.node .typeInt []) := gs_kw rfl (fun r c Y => by simp [pTypeSpec, run_bind, run_peek, bind_ok, run_getTds, run_adv, run_pure])
theorem gs_long : GS tds [.kw .klong] (.node .typeLong []) := gs_kw rfl (fun r c Y => by simp [pTypeSpec, run_bind, run_peek, bind_ok, run_getTds, run_adv, run_pure])
theorem gs_unsigned : GS tds [.kw .kunsigned] (.node .typeUnsigned []) := gs_kw rfl (fun r c Y => by simp [pTypeSpec, run_bind, run_peek, bind_ok, run_getTds, run_adv, run_pure])
theorem gs_tdname {n : Id} (h : n ∈ tds) : GS tds [.ident n] (.name .typedefName n) :=
  ⟨⟨_, _, rfl, by simp [isTypeSpec, h]⟩, fun c t Y hc _ => P.intro0 (fun r => by
    simp [body, pTypeSpec, run_bind, run_peek, bind_ok, run_getTds, hc, h, run_adv, run_pure])⟩

theorem run_pTag_some (t : AstT) (c : Ctx) (n : Id) (Y : List Tok) : pTag t (st c (.ident n :: Y)) = .ok [.name t n] (st c Y) := by
  simp [pTag, run_bind, run_peek, bind_ok, run_adv, run_pure]
theorem run_pTag_none (t : AstT) (c : Ctx) (Y : List Tok) : pTag t (st c (.punct .lbrace :: Y)) = .ok [] (st c (.punct .lbrace :: Y)) := by
  simp [pTag, run_bind, run_peek, bind_ok, run_pure]

theorem gs_structRef (n : Id) : GS tds [.kw .kstruct, .ident n] (.node .typeStruct [.name .structName n]) := by
  refine ⟨⟨_, _, rfl, rfl⟩, fun c t Y hc ht => ?_⟩
  have k : Ok .structSpec c (.kw .kstruct :: .ident n :: t :: Y) (.node .typeStruct [.name .structName n]) (t :: Y) :=
    P.intro0 (fun r => by simp [body, pStructSpec, run_bind, run_consume, bind_ok, run_pTag_some, run_peek, ht, run_pure])
  exact P.intro1 k (fun r k => by simp [body, pTypeSpec, run_bind, run_peek, bind_ok, run_getTds, k])

theorem gs_enumRef (n : Id) : GS tds [.kw .kenum, .ident n] (.node .typeEnum [.name .enumName n]) := by
  refine ⟨⟨_, _, rfl, rfl⟩, fun c t Y hc ht => ?_⟩
  have k : Ok .enumSpec c (.kw .kenum :: .ident n :: t :: Y) (.node .typeEnum [.name .enumName n]) (t :: Y) :=
    P.intro0 (fun r => by simp [body, pEnumSpec, run_bind, run_consume, bind_ok, run_pTag_some, run_peek, ht, run_pure])
  exact P.intro1 k (fun r k => by simp [body, pTypeSpec, run_bind, run_peek, bind_ok, run_getTds, k])

/-- lists between braces -/
def GMs (tds : List Id) (X : List Tok) (as : List Ast) : Prop :=
  ∀ c acc Y, c.tds = tds → Ok (.structDecls acc) c (X ++ .punct .rbrace :: Y) (.node .structDeclList (acc ++ as)) (.punct .rbrace :: Y)
def GEs (tds : List Id) (X : List Tok) (as : List Ast) : Prop :=
  ∀ c acc Y, c.tds = tds → Ok (.enumors acc) c (X ++ .punct .rbrace :: Y) (.node .enumorList (acc ++ as)) (.punct .rbrace :: Y)

theorem gs_structDef (n : Option Id) {as : List Ast} (h : GMs tds X as) :
    GS tds (.kw .kstruct :: (optTok n ++ .punct .lbrace :: (X ++ [.punct .rbrace]))) (.node .typeStruct (optName .structName n ++ [.node .structDeclList as])) := by
  refine ⟨⟨_, _, rfl, rfl⟩, fun c t Y hc ht => ?_⟩
  have k : Ok .structSpec c (.kw .kstruct :: (optTok n ++ .punct .lbrace :: (X ++ .punct .rbrace :: t :: Y)))
      (.node .typeStruct (optName .structName n ++ [.node .structDeclList as])) (t :: Y) :=
    P.intro1 (h c [] (t :: Y) hc) (fun r k => by
      simp only [List.nil_append] at k
      cases n <;> simp [optTok, optName, body, pStructSpec, run_bind, run_consume, bind_ok, run_pTag_some, run_pTag_none, run_peek, run_adv, k, run_pure])
  simp only [List.cons_append, List.append_assoc, List.nil_append]
  exact P.intro1 k (fun r k => by simp [body, pTypeSpec, run_bind, run_peek, bind_ok, run_getTds, k])

theorem gs_enumDef (n : Option Id) {as : List Ast} (h : GEs tds X as) :
    GS tds (.kw .kenum :: (optTok n ++ .punct .lbrace :: (X ++ [.punct .rbrace]))) (.node .typeEnum (optName .enumName n ++ [.node .enumorList as])) := by
  refine ⟨⟨_, _, rfl, rfl⟩, fun c t Y hc ht => ?_⟩
  have k : Ok .enumSpec c (.kw .kenum :: (optTok n ++ .punct .lbrace :: (X ++ .punct .rbrace :: t :: Y)))
      (.node .typeEnum (optName .enumName n ++ [.node .enumorList as])) (t :: Y) :=
    P.intro1 (h c [] (t :: Y) hc) (fun r k => by
      simp only [List.nil_append] at k
      cases n <;> simp [optTok, optName, body, pEnumSpec, run_bind, run_consume, bind_ok, run_pTag_some, run_pTag_none, run_peek, run_adv, k, run_pure])
  simp only [List.cons_append, List.append_assoc, List.nil_append]
  exact P.intro1 k (fun r k => by simp [body, pTypeSpec, run_bind, run_peek, bind_ok, run_getTds, k])

theorem type_not_storage {t : Tok} (h : isTypeSpec tds t = true) : isStorage t = false ∧ t ≠ .punct .lbrace := by
  unfold isTypeSpec at h
  split at h <;> simp_all [isStorage]

theorem gss_nil {c : Ctx} {acc : List Ast} (hacc : acc ≠ []) {t : Tok} {Y : List Tok} (ht : isTypeSpec c.tds t = false) :
    P (.specQuals acc) (st c (t :: Y)) (.ok (.node .specQualList acc) (st { c with flag := false } (t :: Y))) := by
  refine P.intro0 (fun r => ?_)
  have : acc.isEmpty = false := by cases acc <;> simp_all
  simp [body, pSpecQuals, run_bind, run_peek, bind_ok, run_getTds, ht, this, run_setFlag, run_pure]

theorem gss_nil' {c : Ctx} {acc : List Ast} {td : Bool} (hacc : acc ≠ []) {t : Tok} {Y : List Tok} (ht : isTypeSpec c.tds t = false) (ht' : isStorage t = false) :
    P (.declSpecs acc td) (st c (t :: Y)) (.ok (.node .declSpecs acc) (st { c with flag := td } (t :: Y))) := by
  refine P.intro0 (fun r => ?_)
  have : acc.isEmpty = false := by cases acc <;> simp_all
  simp [body, pDeclSpecs, run_bind, run_peek, bind_ok, run_getTds, ht, ht', this, run_setFlag, run_pure]

theorem gss_step (h : GS tds X a) {c : Ctx} {acc : List Ast} {t : Tok} {Y : List Tok} {res : PR Ast} (hc : c.tds = tds) (ht : t ≠ .punct .lbrace)
    (hp : P (.specQuals (acc ++ [a])) (st c (t :: Y)) res) : P (.specQuals acc) (st c (X ++ t :: Y)) res := by
  have k := h.2 c t Y hc ht
  obtain ⟨⟨u, tl, rfl, hu⟩, -⟩ := h
  refine P.intro2 k hp (fun r k hp => ?_)
  simp only [List.cons_append] at k ⊢
  simp [body, pSpecQuals, run_bind, run_peek, bind_ok, run_getTds, hc, hu, k, hp]

theorem gss_step' (h : GS tds X a) {c : Ctx} {acc : List Ast} {td : Bool} {t : Tok} {Y : List Tok} {res : PR Ast} (hc : c.tds = tds) (ht : t ≠ .punct .lbrace)
    (hp : P (.declSpecs (acc ++ [a]) td) (st c (t :: Y)) res) : P (.declSpecs acc td) (st c (X ++ t :: Y)) res := by
  have k := h.2 c t Y hc ht
  obtain ⟨⟨u, tl, rfl, hu⟩, -⟩ := h
  refine P.intro2 k hp (fun r k hp => ?_)
  simp only [List.cons_append] at k ⊢
  simp [body, pDeclSpecs, run_bind, run_peek, bind_ok, run_getTds, hc, hu, (type_not_storage hu).1, k, hp]

theorem gss_one (h : GS tds X a) : GSs tds X [a] :=
  ⟨h.1, fun c acc t Y hc h1 h2 => gss_step h hc h2 (gss_nil (by simp) (hc ▸ h1)),
    fun c acc td t Y hc h1 h2 h3 => gss_step' h hc h3 (gss_nil' (by simp) (hc ▸ h1) h2)⟩

theorem gss_cons {Z : List Tok} {as : List Ast} (h : GS tds X a) (h2 : GSs tds Z as) : GSs tds (X ++ Z) (a :: as) := by
  obtain ⟨⟨v, tl2, rfl, hv⟩, k1, k2⟩ := h2
  refine ⟨?_, fun c acc t Y hc h1 h2 => ?_, fun c acc td t Y hc h1 h2 h3 => ?_⟩
  · obtain ⟨⟨u, tl, rfl, hu⟩, -⟩ := h
    exact ⟨u, _, rfl, hu⟩
  · rw [List.append_assoc]
    refine gss_step h hc (type_not_storage hv).2 ?_
    have := k1 c (acc ++ [a]) t Y hc h1 h2
    simpa using this
  · rw [List.append_assoc]
    refine gss_step' h hc (type_not_storage hv).2 ?_
    have := k2 c (acc ++ [a]) td t Y hc h1 h2 h3
    simpa using this

/-! ### type names, parameters, members, enumerators -/

theorem gt_mk {as : List Ast} (d : Dtor) (h : GSs tds X as) (hd : DOk tds d) (ha : d.absOk = true) :
    GT tds (X ++ d.toks []) (.node .typeName [.node .specQualList as, d.ast (.node .absDeclor [])]) := by
  refine ⟨?_, fun c Y hc => ?_⟩
  · obtain ⟨⟨u, tl, rfl, hu⟩, -⟩ := h
    exact ⟨u, _, rfl, hu⟩
  · obtain ⟨t, tl, e, h1, h2⟩ := dtor_head (p := fun t => isTypeSpec tds t = false ∧ t ≠ .punct .lbrace) (x := [])
      ⟨rfl, by simp⟩ ⟨rfl, by simp⟩ ⟨rfl, by simp⟩ d (.punct .rparen :: Y) ⟨_, _, rfl, rfl, by simp⟩
    have k1 := h.2.1 c [] t tl hc h1 h2
    have k2 := ok_declor_abs d (c := { c with flag := false }) (hc ▸ hd) ha (t := .punct .rparen) ⟨by simp, by simp, by simp, by simp⟩ Y
    rw [List.append_assoc]
    rw [e] at k2 ⊢
    refine P.intro2 k1 k2 (fun r k1 k2 => ?_)
    simp [body, pTypeName, run_bind, bind_ok, run_getFlag, run_try, k1, tr_ok, run_getToks, k2, run_setFlag, run_pure]

theorem dstop_comma : DStop (.punct .comma) := ⟨by simp, by simp, by simp, by simp⟩
theorem dstop_rparen : DStop (.punct .rparen) := ⟨by simp, by simp, by simp, by simp⟩
theorem dstop_semicolon : DStop (.punct .semicolon) := ⟨by simp, by simp, by simp, by simp⟩
theorem dstop_equal : DStop (.punct .equal) := ⟨by simp, by simp, by simp, by simp⟩
theorem dstop_lbrace : DStop (.punct .lbrace) := ⟨by simp, by simp, by simp, by simp⟩

/-- a parameter -/
def GP (tds : List Id) (X : List Tok) (a : Ast) : Prop :=
  ∀ c t Y, c.tds = tds → t = .punct .comma ∨ t = .punct .rparen → Ok .paramDecl c (X ++ t :: Y) a (t :: Y)

theorem gp_named {as : List Ast} (d : Dtor) (n : Id) (h : GSs tds X as) (hd : DOk tds d) (hn : n ∉ tds) :
    GP tds (X ++ d.toks [.ident n]) (.node .paramDecl [.node .declSpecs as, d.ast (.name .identDeclor n)]) := by
  intro c t Y hc ht
  have hst : DStop t := by rcases ht with rfl | rfl; exact dstop_comma; exact dstop_rparen
  obtain ⟨u, tl, e, h1, h2, h3⟩ := dtor_head (p := fun t => isTypeSpec tds t = false ∧ isStorage t = false ∧ t ≠ .punct .lbrace) (x := [.ident n])
    ⟨rfl, rfl, by simp⟩ ⟨rfl, rfl, by simp⟩ ⟨rfl, rfl, by simp⟩ d (t :: Y) ⟨_, _, rfl, by simp [isTypeSpec, hn], rfl, by simp⟩
  have k1 := h.2.2 c [] false u tl hc h1 h2 h3
  have k2 := ok_declor_named d n (c := { c with flag := false }) (c' := { c with flag := false }) (by simp) (hc ▸ hd) hst Y
  rw [List.append_assoc]
  rw [e] at k2 ⊢
  refine P.intro2 k1 k2 (fun r k1 k2 => ?_)
  simp [body, pParamDecl, run_bind, bind_ok, run_getFlag, run_try, k1, tr_ok, run_getToks, k2, run_setFlag, run_pure]

theorem gp_abs {as : List Ast} (d : Dtor) (h : GSs tds X as) (hd : DOk tds d) (ha : d.absOk = true) :
    GP tds (X ++ d.toks []) (.node .paramDecl [.node .declSpecs as, d.ast (.node .absDeclor [])]) := by
  intro c t Y hc ht
  have hst : DStop t := by rcases ht with rfl | rfl; exact dstop_comma; exact dstop_rparen
  obtain ⟨u, tl, e, h1, h2, h3⟩ := dtor_head (p := fun t => isTypeSpec tds t = false ∧ isStorage t = false ∧ t ≠ .punct .lbrace) (x := [])
    ⟨rfl, rfl, by simp⟩ ⟨rfl, rfl, by simp⟩ ⟨rfl, rfl, by simp⟩ d (t :: Y) ⟨_, _, rfl, by rcases ht with rfl | rfl <;> simp [isTypeSpec, isStorage]⟩
  have k1 := h.2.2 c [] false u tl hc h1 h2 h3
  obtain ⟨Z, k2⟩ := er_declor_abs d ha (c := { c with flag := false }) hst Y
  have k3 := ok_declor_abs d (c := { c with flag := false }) (hc ▸ hd) ha hst Y
  rw [List.append_assoc]
  rw [e] at k2 k3 ⊢
  refine P.intro3 k1 k2 k3 (fun r k1 k2 k3 => ?_)
  simp [body, pParamDecl, run_bind, bind_ok, run_getFlag, run_try, k1, tr_ok, tr_err, run_getToks, run_setToks, k2, k3, run_setFlag, run_orFail_some, run_pure]

theorem gps_one (h : GP tds X a) : GPs tds X [a] := fun c acc Y hc =>
  P.intro1 (h c (.punct .rparen) Y hc (.inr rfl)) (fun r k => by simp [body, pParams, run_bind, k, bind_ok, run_peek, run_pure])

theorem gps_cons {Z : List Tok} {as : List Ast} (h : GP tds X a) (h2 : GPs tds Z as) : GPs tds (X ++ .punct .comma :: Z) (a :: as) := fun c acc Y hc => by
  have k2 := h2 c (acc ++ [a]) Y hc
  simp only [List.append_assoc, List.cons_append, List.nil_append] at k2 ⊢
  exact P.intro2 (h c (.punct .comma) (Z ++ .punct .rparen :: Y) hc (.inl rfl)) k2 (fun r k k2 => by simp [body, pParams, run_bind, k, bind_ok, run_peek, run_adv, k2])

/-- declarators of members -/
def GND (tds : List Id) (X : List Tok) (as : List Ast) : Prop :=
  ∀ c acc Y, c.tds = tds → c.flag = false → Ok (.structDeclors acc) c (X ++ .punct .semicolon :: Y) (.node .structDeclorList (acc ++ as)) (.punct .semicolon :: Y)

theorem gnd_one (n : Id) (d : Dtor) (h : DOk tds d) : GND tds (d.toks [.ident n]) [d.ast (.name .identDeclor n)] := fun c acc Y hc hf => by
  have k := ok_declor_named d n (c := c) (c' := c) (by simp [hf]) (hc ▸ h) dstop_semicolon Y
  exact P.intro1 k (fun r k => by simp [body, pStructDeclors, run_bind, k, bind_ok, run_peek, run_pure])

theorem gnd_cons (n : Id) (d : Dtor) (h : DOk tds d) {Z : List Tok} {as : List Ast} (h2 : GND tds Z as) :
    GND tds (d.toks [.ident n] ++ .punct .comma :: Z) (d.ast (.name .identDeclor n) :: as) := fun c acc Y hc hf => by
  have k2 := h2 c (acc ++ [d.ast (.name .identDeclor n)]) Y hc hf
  simp only [List.append_assoc, List.cons_append, List.nil_append] at k2 ⊢
  have k := ok_declor_named d n (c := c) (c' := c) (by simp [hf]) (hc ▸ h) dstop_comma (Z ++ .punct .semicolon :: Y)
  exact P.intro2 k k2 (fun r k k2 => by simp [body, pStructDeclors, run_bind, k, bind_ok, run_peek, run_adv, k2])

/-- one line of a struct -/
def GM (tds : List Id) (X : List Tok) (a : Ast) : Prop :=
  ∀ c Y, c.tds = tds → Ok .structDecl c (X ++ Y) a Y

theorem gm_mk {Z : List Tok} {as bs : List Ast} (h : GSs tds X as) (h2 : GND tds Z bs)
    (hz : ∀ Y, ∃ t tl, Z ++ .punct .semicolon :: Y = t :: tl ∧ isTypeSpec tds t = false ∧ t ≠ .punct .lbrace) :
    GM tds (X ++ (Z ++ [.punct .semicolon])) (.node .structDecl [.node .specQualList as, .node .structDeclorList bs]) := fun c Y hc => by
  obtain ⟨t, tl, e, h3, h4⟩ := hz Y
  have k1 := h.2.1 c [] t tl hc h3 h4
  have k2 := h2 { c with flag := false } [] Y hc rfl
  simp only [List.append_assoc, List.cons_append, List.nil_append]
  rw [e] at k2 ⊢
  refine P.intro2 k1 k2 (fun r k1 k2 => ?_)
  simp [body, pStructDecl, run_bind, bind_ok, run_getFlag, run_try, k1, tr_ok, k2, run_setFlag, run_orFail_some, run_consume, run_pure]

theorem gms_one (h : GM tds X a) : GMs tds X [a] := fun c acc Y hc =>
  P.intro1 (h c (.punct .rbrace :: Y) hc) (fun r k => by simp [body, pStructDecls, run_bind, k, bind_ok, run_peek, run_pure])

theorem gms_cons {Z : List Tok} {as : List Ast} (h : GM tds X a) (h2 : GMs tds Z as) (hz : ∃ t tl, Z = t :: tl ∧ t ≠ .punct .rbrace) :
    GMs tds (X ++ Z) (a :: as) := fun c acc Y hc => by
  have k2 := h2 c (acc ++ [a]) Y hc
  simp only [List.append_assoc, List.cons_append, List.nil_append] at k2 ⊢
  obtain ⟨t, tl, rfl, ht⟩ := hz
  exact P.intro2 (h c (t :: (tl ++ .punct .rbrace :: Y)) hc) k2 (fun r k k2 => by
    simp only [List.cons_append] at k k2 ⊢
    simp [body, pStructDecls, run_bind, k, bind_ok, run_peek, ht, k2])

/-- an enumerator -/
def GE (tds : List Id) (X : List Tok) (a : Ast) : Prop :=
  ∀ c t Y, c.tds = tds → t = .punct .comma ∨ t = .punct .rbrace → Ok .enumor c (X ++ t :: Y) a (t :: Y)

theorem ge_plain (n : Id) : GE tds [.ident n] (.node .enumor [.name .enumConst n]) := fun c t Y hc ht =>
  P.intro0 (fun r => by rcases ht with rfl | rfl <;> simp [body, pEnumor, run_bind, run_peek, bind_ok, run_adv, run_pure])
theorem ge_value (n : Id) (hq : 1 ≤ q) (h : G tds q X a) : GE tds (.ident n :: .punct .equal :: X) (.node .enumor [.name .enumConst n, a]) := fun c t Y hc ht => by
  have k := h.cond hq c t Y hc (by rcases ht with rfl | rfl; exact stops_comma 1; exact stops_rbrace 1)
  exact P.intro1 k (fun r k => by simp [body, pEnumor, run_bind, run_peek, bind_ok, run_adv, k, run_pure])

theorem ges_one (h : GE tds X a) : GEs tds X [a] := fun c acc Y hc =>
  P.intro1 (h c (.punct .rbrace) Y hc (.inr rfl)) (fun r k => by simp [body, pEnumors, run_bind, k, bind_ok, run_peek, run_pure])

theorem ges_cons {Z : List Tok} {as : List Ast} (h : GE tds X a) (h2 : GEs tds Z as) (hz : ∃ t tl, Z = t :: tl ∧ t ≠ .punct .rbrace) :
    GEs tds (X ++ .punct .comma :: Z) (a :: as) := fun c acc Y hc => by
  have k2 := h2 c (acc ++ [a]) Y hc
  simp only [List.append_assoc, List.cons_append, List.nil_append] at k2 ⊢
  obtain ⟨t, tl, rfl, ht⟩ := hz
  exact P.intro2 (h c (.punct .comma) (t :: (tl ++ .punct .rbrace :: Y)) hc (.inl rfl)) k2 (fun r k k2 => by
    simp only [List.cons_append] at k k2 ⊢
    simp [body, pEnumors, run_bind, k, bind_ok, run_peek, run_consume, ht, k2])

/-! ### all of it -/

theorem nd_head : (ds : NDtors) → ds.ok tds → ∀ Y, ∃ t tl, ds.toks ++ .punct .semicolon :: Y = t :: tl ∧ isTypeSpec tds t = false ∧ t ≠ .punct .lbrace
  | .one n d, h, Y => by
    simp only [NDtors.ok] at h
    exact dtor_head (p := fun t => isTypeSpec tds t = false ∧ t ≠ .punct .lbrace) ⟨rfl, by simp⟩ ⟨rfl, by simp⟩ ⟨rfl, by simp⟩ d _
      ⟨_, _, rfl, by simp [isTypeSpec, h.1], by simp⟩
  | .cons n d ds, h, Y => by
    simp only [NDtors.ok] at h
    simp only [NDtors.toks, List.append_assoc]
    exact dtor_head (p := fun t => isTypeSpec tds t = false ∧ t ≠ .punct .lbrace) ⟨rfl, by simp⟩ ⟨rfl, by simp⟩ ⟨rfl, by simp⟩ d _
      ⟨_, _, rfl, by simp [isTypeSpec, h.1], by simp⟩

theorem specs_ne_rbrace : (ss : Specs) → ∃ t tl, ss.toks = t :: tl ∧ t ≠ .punct .rbrace
  | .one s => by cases s <;> simp [Specs.toks, Spec.toks]
  | .cons s ss => by cases s <;> simp [Specs.toks, Spec.toks]
theorem ms_ne_rbrace : (ms : MemberL) → ∃ t tl, ms.toks = t :: tl ∧ t ≠ .punct .rbrace
  | .one (.mk ss ds) => by
    obtain ⟨t, tl, e, h⟩ := specs_ne_rbrace ss
    exact ⟨t, tl ++ (ds.toks ++ [.punct .semicolon]), by simp only [MemberL.toks, MemberD.toks, e, List.cons_append], h⟩
  | .cons (.mk ss ds) ms => by
    obtain ⟨t, tl, e, h⟩ := specs_ne_rbrace ss
    exact ⟨t, tl ++ (ds.toks ++ [.punct .semicolon]) ++ ms.toks, by simp only [MemberL.toks, MemberD.toks, e, List.cons_append], h⟩
theorem es_ne_rbrace (es : Enums) : ∃ t tl, es.toks = t :: tl ∧ t ≠ .punct .rbrace := by
  cases es <;> simp [Enums.toks]

theorem g_wrap {e : Expr} (p : Nat) (hp : p ≤ 15) (h : G tds e.prec e.toks e.ast) : ∃ q, p ≤ q ∧ G tds q (wrap p e e.toks) e.ast := by
  unfold wrap
  split
  · exact ⟨15, hp, h.par⟩
  · exact ⟨e.prec, by omega, h⟩

mutual
theorem g_expr (tds : List Id) : (e : Expr) → e.ok tds → G tds e.prec e.toks e.ast
  | .ident n, h => by simp only [Expr.ok] at h; exact g_ident n h
  | .int l, _ => g_int l
  | .char l, _ => g_char l
  | .str s, _ => g_str s
  | .subsc e i, h => by
    simp only [Expr.ok] at h
    obtain ⟨q, hq, k⟩ := g_wrap 14 (by omega) (g_expr tds e h.1)
    exact g_subsc k hq (g_expr tds i h.2)
  | .call f as, h => by
    simp only [Expr.ok] at h
    obtain ⟨q, hq, k⟩ := g_wrap 14 (by omega) (g_expr tds f h.1)
    refine g_call k hq (fun c Y hc => ?_)
    have ih := g_args tds as h.2 c hc
    cases as with
    | nil => exact ok_args_nil
    | cons e as =>
      have := ih [] Y (by simp)
      simp only [Args.ok] at h
      cases as with
      | nil => exact ok_args (g_expr tds e h.2.1) this
      | cons e' as' =>
        simp only [Args.toks, List.append_assoc] at this ⊢
        exact ok_args (g_expr tds e h.2.1) this
  | .member e n, h => by
    simp only [Expr.ok] at h
    obtain ⟨q, hq, k⟩ := g_wrap 14 (by omega) (g_expr tds e h)
    exact g_member k hq n
  | .arrow e n, h => by
    simp only [Expr.ok] at h
    obtain ⟨q, hq, k⟩ := g_wrap 14 (by omega) (g_expr tds e h)
    exact g_arrow k hq n
  | .postinc e, h => by
    simp only [Expr.ok] at h
    obtain ⟨q, hq, k⟩ := g_wrap 14 (by omega) (g_expr tds e h)
    exact g_postinc k hq
  | .postdec e, h => by
    simp only [Expr.ok] at h
    obtain ⟨q, hq, k⟩ := g_wrap 14 (by omega) (g_expr tds e h)
    exact g_postdec k hq
  | .preinc e, h => by
    simp only [Expr.ok] at h
    obtain ⟨q, hq, k⟩ := g_wrap 13 (by omega) (g_expr tds e h)
    exact g_preinc k hq
  | .predec e, h => by
    simp only [Expr.ok] at h
    obtain ⟨q, hq, k⟩ := g_wrap 13 (by omega) (g_expr tds e h)
    exact g_predec k hq
  | .un op e, h => by
    simp only [Expr.ok] at h
    obtain ⟨q, hq, k⟩ := g_wrap 12 (by omega) (g_expr tds e h)
    exact g_un op k hq
  | .sizeofE e, h => by
    simp only [Expr.ok] at h
    obtain ⟨q, hq, k⟩ := g_wrap 13 (by omega) (g_expr tds e h)
    exact g_sizeofE k hq
  | .sizeofT t, h => by
    simp only [Expr.ok] at h
    exact g_sizeofT (g_ty tds t h)
  | .cast t e, h => by
    simp only [Expr.ok] at h
    obtain ⟨q, hq, k⟩ := g_wrap 12 (by omega) (g_expr tds e h.2)
    exact g_cast (g_ty tds t h.1) k hq
  | .bin op l r, h => by
    simp only [Expr.ok] at h
    have hl : op.lvl ≤ 9 := by cases op <;> decide
    obtain ⟨q, hq, k⟩ := g_wrap (op.lvl + 2) (by omega) (g_expr tds l h.1)
    obtain ⟨q2, hq2, k2⟩ := g_wrap (op.lvl + 3) (by omega) (g_expr tds r h.2)
    exact g_bin op k hq k2 hq2
  | .cond c a b, h => by
    simp only [Expr.ok] at h
    obtain ⟨q, hq, k⟩ := g_wrap 2 (by omega) (g_expr tds c h.1)
    obtain ⟨q2, hq2, k2⟩ := g_wrap 1 (by omega) (g_expr tds b h.2.2)
    exact g_cond k hq (g_expr tds a h.2.1) k2 hq2
  | .assign op l r, h => by
    simp only [Expr.ok] at h
    obtain ⟨q, hq, k⟩ := g_wrap 13 (by omega) (g_expr tds l h.1)
    exact g_assign op k hq (g_expr tds r h.2)
theorem g_args (tds : List Id) : (as : Args) → as.ok tds → ∀ c : Ctx, c.tds = tds → ∀ acc Y, as ≠ .nil →
    Ok (.argsLoop acc) c (as.toks ++ .punct .rparen :: Y) (.node .argList (acc ++ as.asts)) (.punct .rparen :: Y)
  | .nil, _, _, _, _, _, h => absurd rfl h
  | .cons e .nil, h, c, hc, acc, Y, _ => by
    simp only [Args.ok] at h
    exact ok_argsLoop_last (g_expr tds e h.1) hc acc
  | .cons e (.cons e' as), h, c, hc, acc, Y, _ => by
    rw [Args.ok] at h
    have := g_args tds (.cons e' as) h.2 c hc (acc ++ [e.ast]) Y (by simp)
    simp only [Args.toks, Args.asts, List.append_assoc, List.cons_append, List.nil_append] at this ⊢
    exact ok_argsLoop_more (g_expr tds e h.1) hc acc this
theorem g_ty (tds : List Id) : (t : TyName) → t.ok tds → GT tds t.toks t.ast
  | .mk ss d, h => by
    simp only [TyName.ok] at h
    exact gt_mk d (g_specs tds ss h.1) (g_dtor tds d h.2.1) h.2.2
theorem g_spec (tds : List Id) : (s : Spec) → s.ok tds → GS tds s.toks s.ast
  | .void, _ => gs_void
  | .char, _ => gs_char
  | .int, _ => gs_int
  | .long, _ => gs_long
  | .unsigned, _ => gs_unsigned
  | .tdname n, h => by simp only [Spec.ok] at h; exact gs_tdname h
  | .structRef n, _ => gs_structRef n
  | .structDef n ms, h => by simp only [Spec.ok] at h; exact gs_structDef n (g_members tds ms h)
  | .enumRef n, _ => gs_enumRef n
  | .enumDef n es, h => by simp only [Spec.ok] at h; exact gs_enumDef n (g_enums tds es h)
theorem g_specs (tds : List Id) : (ss : Specs) → ss.ok tds → GSs tds ss.toks ss.asts
  | .one s, h => by simp only [Specs.ok] at h; exact gss_one (g_spec tds s h)
  | .cons s ss, h => by simp only [Specs.ok] at h; exact gss_cons (g_spec tds s h.1) (g_specs tds ss h.2)
theorem g_dtor (tds : List Id) : (d : Dtor) → d.ok tds → DOk tds d
  | .leaf, _ => trivial
  | .ptr d, h => by simp only [Dtor.ok] at h; exact g_dtor tds d h
  | .arr d e, h => by simp only [Dtor.ok] at h; exact ⟨g_dtor tds d h.1, g_wrap 1 (by omega) (g_expr tds e h.2)⟩
  | .fn d ps, h => by simp only [Dtor.ok] at h; exact ⟨g_dtor tds d h.1, g_params tds ps h.2⟩
theorem g_params (tds : List Id) : (ps : ParamL) → ps.ok tds → GPs tds ps.toks ps.asts
  | .one p, h => by simp only [ParamL.ok] at h; exact gps_one (g_param tds p h)
  | .cons p ps, h => by simp only [ParamL.ok] at h; exact gps_cons (g_param tds p h.1) (g_params tds ps h.2)
theorem g_param (tds : List Id) : (p : ParamD) → p.ok tds → GP tds p.toks p.ast
  | .mk ss (some n) d, h => by
    simp only [ParamD.ok] at h
    exact gp_named d n (g_specs tds ss h.1) (g_dtor tds d h.2.1) h.2.2
  | .mk ss none d, h => by
    simp only [ParamD.ok] at h
    exact gp_abs d (g_specs tds ss h.1) (g_dtor tds d h.2.1) h.2.2
theorem g_members (tds : List Id) : (ms : MemberL) → ms.ok tds → GMs tds ms.toks ms.asts
  | .one m, h => by simp only [MemberL.ok] at h; exact gms_one (g_member1 tds m h)
  | .cons m ms, h => by simp only [MemberL.ok] at h; exact gms_cons (g_member1 tds m h.1) (g_members tds ms h.2) (ms_ne_rbrace ms)
theorem g_member1 (tds : List Id) : (m : MemberD) → m.ok tds → GM tds m.toks m.ast
  | .mk ss ds, h => by simp only [MemberD.ok] at h; exact gm_mk (g_specs tds ss h.1) (g_ndtors tds ds h.2) (nd_head ds h.2)
theorem g_ndtors (tds : List Id) : (ds : NDtors) → ds.ok tds → GND tds ds.toks ds.asts
  | .one n d, h => by simp only [NDtors.ok] at h; exact gnd_one n d (g_dtor tds d h.2)
  | .cons n d ds, h => by simp only [NDtors.ok] at h; exact gnd_cons n d (g_dtor tds d h.2.1) (g_ndtors tds ds h.2.2)
theorem g_enums (tds : List Id) : (es : Enums) → es.ok tds → GEs tds es.toks es.asts
  | .one n, _ => ges_one (ge_plain n)
  | .oneV n e, h => by
    simp only [Enums.ok] at h
    obtain ⟨q, hq, k⟩ := g_wrap 1 (by omega) (g_expr tds e h)
    exact ges_one (ge_value n hq k)
  | .cons n es, h => by simp only [Enums.ok] at h; exact ges_cons (ge_plain n) (g_enums tds es h) (es_ne_rbrace es)
  | .consV n e es, h => by
    simp only [Enums.ok] at h
    obtain ⟨q, hq, k⟩ := g_wrap 1 (by omega) (g_expr tds e h.1)
    have := ges_cons (ge_value n hq k) (g_enums tds es h.2) (es_ne_rbrace es)
    simpa [Enums.toks, Enums.asts] using this
end

end Parser
end Umlcc
