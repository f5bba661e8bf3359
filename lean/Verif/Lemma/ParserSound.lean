import Verif.Lemma.Parser
/-!
Every parser function returns within a recursion depth linear in the number of tokens and reads existing tokens only.
-/
namespace Umlcc
namespace Parser
open M
variable {r : NT → M Ast} {f : Nat} {s : PS}

theorem wp_peek' {Q : Tok → PS → Prop} {E : PS → Prop} (h : Eof s.toks)
    (hq : ∀ t ts, s.toks = t :: ts → s.toks.length = ts.length + 1 → (t ≠ .eof → Eof ts) → Q t s) : wp peek Q E s := by
  obtain ⟨t, ts, e⟩ := eof_ne h
  exact wp_peek.mpr ⟨t, ts, e, hq t ts e (by rw [e]; rfl) (fun ht => by rw [e] at h; exact eof_cons h ht)⟩

theorem wp_adv' {Q : Unit → PS → Prop} {E : PS → Prop} {t : Tok} {ts : List Tok} (e : s.toks = t :: ts)
    (h : t ≠ .eof → Eof ts) (ht : t ≠ .eof) (hq : Eof ts → Q () { s with toks := ts }) :
    wp adv Q E s := by
  rw [wp_adv, e]; exact hq (h ht)

theorem wp_consume' {Q : Unit → PS → Prop} {E : PS → Prop} {t : Tok} (h : Eof s.toks) (ht : t ≠ .eof) 
    (hq : ∀ ts, s.toks.length = ts.length + 1 → Eof ts → Q () { s with toks := ts }) (he : E s) : wp (consume t) Q E s :=
  wp_consume ht h (fun ts h1 h2 => hq ts (by rw [h1]; rfl) h2) he

@[simp] theorem binOp_eof (l : Nat) : binOp l .eof = none := by
  match l with
  | 0 | 1 | 2 | 3 | 4 | 5 | 6 | 7 | 8 | 9 => rfl
  | _ + 10 => rfl

theorem need_snoc (as : List Ast) (a : Ast) (td : Bool) : need (.declSpecs (as ++ [a]) td) = 0 := by simp [need]
theorem need_snoc' (as : List Ast) (a : Ast) : need (.specQuals (as ++ [a])) = 0 := by simp [need]

/-- closes arithmetic about remaining tokens -/
macro "parith" : tactic => `(tactic| first
  | (simp only [rank, need, need_snoc, need_snoc', List.isEmpty_nil, reduceIte, Bool.false_eq_true] at *; omega)
  | (simp only [rank, need, need_snoc, need_snoc'] at *; split <;> first | omega | (simp_all; done) | (simp_all; omega)))

/-- a token that was recognised is not the end of file -/
macro "pnoteof" : tactic => `(tactic| first
  | decide
  | (intro h; subst h; simp_all [assignOp, preOp, unOp, isStorage, isTypeSpec])
  | (intro h; simp_all [assignOp, preOp, unOp, isStorage, isTypeSpec]))

macro "pfin" : tactic => `(tactic| first
  | exact ⟨by assumption, by parith, trivial⟩
  | exact ⟨by assumption, by parith⟩)

/-- one step of running a parser function -/
macro "pstep" ih:ident : tactic => `(tactic| first
  | contradiction
  | intro _
  | (rw [wp_bind])
  | (rw [wp_pure])
  | (rw [wp_fail])
  | (rw [wp_try])
  | (rw [wp_getToks])
  | (rw [wp_setToks])
  | (rw [wp_getFlag])
  | (rw [wp_setFlag])
  | (rw [wp_getTds])
  | (rw [wp_setTds])
  | (rw [wp_orFail])
  | (rw [wp_ite]; split)
  | (refine wp_peek' (by assumption) ?_)
  | (refine wp_consume' (by assumption) (by decide) ?_ ?_)
  | (refine wp_adv' (by assumption) (by assumption) (by pnoteof) ?_)
  | (refine call $ih _ (by first | trivial | exact ⟨_, _, by assumption, by assumption⟩) (by assumption) (by parith) ?_ ?_)
  | pfin
  | split
  | dsimp only)

theorem sound_assignLoop (ih : Sound r f) (st : List (AstT × Ast)) (he : Eof s.toks) (hd : 27 * s.toks.length + rank (.assignLoop st) ≤ f) :
    wp (pAssignLoop r st) (Post (.assignLoop st) s) (ErrPost s) s := by
  unfold pAssignLoop pAssignLoop.rest
  repeat pstep ih

theorem sound_cond (ih : Sound r f)  (he : Eof s.toks) (hd : 27 * s.toks.length + rank (.cond) ≤ f) :
    wp (pCond r) (Post (.cond) s) (ErrPost s) s := by
  unfold pCond
  repeat pstep ih

theorem sound_bin (ih : Sound r f) (l : Nat) (he : Eof s.toks) (hd : 27 * s.toks.length + rank (.bin l) ≤ f) :
    wp (pBin r l) (Post (.bin l) s) (ErrPost s) s := by
  unfold pBin pBin.next
  repeat pstep ih

theorem sound_binLoop (ih : Sound r f) (l : Nat) (a : Ast) (he : Eof s.toks) (hd : 27 * s.toks.length + rank (.binLoop l a) ≤ f) :
    wp (pBinLoop r l a) (Post (.binLoop l a) s) (ErrPost s) s := by
  unfold pBinLoop pBin.next
  repeat pstep ih

theorem sound_castLoop (ih : Sound r f) (st : List Ast) (he : Eof s.toks) (hd : 27 * s.toks.length + rank (.castLoop st) ≤ f) :
    wp (pCastLoop r st) (Post (.castLoop st) s) (ErrPost s) s := by
  unfold pCastLoop pCastLoop.rest
  repeat pstep ih

theorem sound_unary (ih : Sound r f)  (he : Eof s.toks) (hd : 27 * s.toks.length + rank (.unary) ≤ f) :
    wp (pUnary r) (Post (.unary) s) (ErrPost s) s := by
  unfold pUnary pSizeof
  repeat pstep ih

theorem sound_postfixLoop (ih : Sound r f) (a : Ast) (he : Eof s.toks) (hd : 27 * s.toks.length + rank (.postfixLoop a) ≤ f) :
    wp (pPostfixLoop r a) (Post (.postfixLoop a) s) (ErrPost s) s := by
  unfold pPostfixLoop pMember
  repeat pstep ih

theorem sound_args (ih : Sound r f)  (he : Eof s.toks) (hd : 27 * s.toks.length + rank (.args) ≤ f) :
    wp (pArgs r) (Post (.args) s) (ErrPost s) s := by
  unfold pArgs
  repeat pstep ih

theorem sound_argsLoop (ih : Sound r f) (as : List Ast) (he : Eof s.toks) (hd : 27 * s.toks.length + rank (.argsLoop as) ≤ f) :
    wp (pArgsLoop r as) (Post (.argsLoop as) s) (ErrPost s) s := by
  unfold pArgsLoop
  repeat pstep ih

theorem sound_primary (ih : Sound r f)  (he : Eof s.toks) (hd : 27 * s.toks.length + rank (.primary) ≤ f) :
    wp (pPrimary r) (Post (.primary) s) (ErrPost s) s := by
  unfold pPrimary
  repeat pstep ih

theorem sound_decl (ih : Sound r f)  (he : Eof s.toks) (hd : 27 * s.toks.length + rank (.decl) ≤ f) :
    wp (pDecl r) (Post (.decl) s) (ErrPost s) s := by
  unfold pDecl
  repeat pstep ih

theorem sound_typeName (ih : Sound r f)  (he : Eof s.toks) (hd : 27 * s.toks.length + rank (.typeName) ≤ f) :
    wp (pTypeName r) (Post (.typeName) s) (ErrPost s) s := by
  unfold pTypeName
  repeat pstep ih

theorem sound_declSpecs (ih : Sound r f) (as : List Ast) (td : Bool) (he : Eof s.toks) (hd : 27 * s.toks.length + rank (.declSpecs as td) ≤ f) :
    wp (pDeclSpecs r as td) (Post (.declSpecs as td) s) (ErrPost s) s := by
  unfold pDeclSpecs
  repeat pstep ih

theorem sound_specQuals (ih : Sound r f) (as : List Ast) (he : Eof s.toks) (hd : 27 * s.toks.length + rank (.specQuals as) ≤ f) :
    wp (pSpecQuals r as) (Post (.specQuals as) s) (ErrPost s) s := by
  unfold pSpecQuals
  repeat pstep ih

theorem sound_structSpec (ih : Sound r f)  (he : Eof s.toks) (hd : 27 * s.toks.length + rank (.structSpec) ≤ f) :
    wp (pStructSpec r) (Post (.structSpec) s) (ErrPost s) s := by
  unfold pStructSpec pTag
  repeat pstep ih

theorem sound_structDecls (ih : Sound r f) (as : List Ast) (he : Eof s.toks) (hd : 27 * s.toks.length + rank (.structDecls as) ≤ f) :
    wp (pStructDecls r as) (Post (.structDecls as) s) (ErrPost s) s := by
  unfold pStructDecls
  repeat pstep ih

theorem sound_structDecl (ih : Sound r f)  (he : Eof s.toks) (hd : 27 * s.toks.length + rank (.structDecl) ≤ f) :
    wp (pStructDecl r) (Post (.structDecl) s) (ErrPost s) s := by
  unfold pStructDecl
  repeat pstep ih

theorem sound_structDeclors (ih : Sound r f) (as : List Ast) (he : Eof s.toks) (hd : 27 * s.toks.length + rank (.structDeclors as) ≤ f) :
    wp (pStructDeclors r as) (Post (.structDeclors as) s) (ErrPost s) s := by
  unfold pStructDeclors
  repeat pstep ih

theorem sound_enumSpec (ih : Sound r f)  (he : Eof s.toks) (hd : 27 * s.toks.length + rank (.enumSpec) ≤ f) :
    wp (pEnumSpec r) (Post (.enumSpec) s) (ErrPost s) s := by
  unfold pEnumSpec pTag
  repeat pstep ih

theorem sound_enumors (ih : Sound r f) (as : List Ast) (he : Eof s.toks) (hd : 27 * s.toks.length + rank (.enumors as) ≤ f) :
    wp (pEnumors r as) (Post (.enumors as) s) (ErrPost s) s := by
  unfold pEnumors
  repeat pstep ih

theorem sound_enumor (ih : Sound r f)  (he : Eof s.toks) (hd : 27 * s.toks.length + rank (.enumor) ≤ f) :
    wp (pEnumor r) (Post (.enumor) s) (ErrPost s) s := by
  unfold pEnumor
  repeat pstep ih

theorem sound_initDeclors (ih : Sound r f) (as : List Ast) (he : Eof s.toks) (hd : 27 * s.toks.length + rank (.initDeclors as) ≤ f) :
    wp (pInitDeclors r as) (Post (.initDeclors as) s) (ErrPost s) s := by
  unfold pInitDeclors
  repeat pstep ih

theorem sound_initDeclor (ih : Sound r f)  (he : Eof s.toks) (hd : 27 * s.toks.length + rank (.initDeclor) ≤ f) :
    wp (pInitDeclor r) (Post (.initDeclor) s) (ErrPost s) s := by
  unfold pInitDeclor
  repeat pstep ih

theorem sound_params (ih : Sound r f) (as : List Ast) (he : Eof s.toks) (hd : 27 * s.toks.length + rank (.params as) ≤ f) :
    wp (pParams r as) (Post (.params as) s) (ErrPost s) s := by
  unfold pParams
  repeat pstep ih

theorem sound_paramDecl (ih : Sound r f)  (he : Eof s.toks) (hd : 27 * s.toks.length + rank (.paramDecl) ≤ f) :
    wp (pParamDecl r) (Post (.paramDecl) s) (ErrPost s) s := by
  unfold pParamDecl
  repeat pstep ih

theorem sound_init (ih : Sound r f)  (he : Eof s.toks) (hd : 27 * s.toks.length + rank (.init) ≤ f) :
    wp (pInit r) (Post (.init) s) (ErrPost s) s := by
  unfold pInit
  repeat pstep ih

theorem sound_initList (ih : Sound r f) (as : List Ast) (he : Eof s.toks) (hd : 27 * s.toks.length + rank (.initList as) ≤ f) :
    wp (pInitList r as) (Post (.initList as) s) (ErrPost s) s := by
  unfold pInitList
  repeat pstep ih

theorem sound_stmt (ih : Sound r f)  (he : Eof s.toks) (hd : 27 * s.toks.length + rank (.stmt) ≤ f) :
    wp (pStmt r) (Post (.stmt) s) (ErrPost s) s := by
  unfold pStmt pParen pFor itemMayDecl
  repeat pstep ih

theorem sound_items (ih : Sound r f) (as : List Ast) (he : Eof s.toks) (hd : 27 * s.toks.length + rank (.items as) ≤ f) :
    wp (pItems r as) (Post (.items as) s) (ErrPost s) s := by
  unfold pItems itemMayDecl
  repeat pstep ih

theorem sound_compound (ih : Sound r f)  (he : Eof s.toks) (hd : 27 * s.toks.length + rank (.compound) ≤ f) :
    wp (pCompound r) (Post (.compound) s) (ErrPost s) s := by
  unfold pCompound
  repeat pstep ih

theorem sound_exprStmt (ih : Sound r f)  (he : Eof s.toks) (hd : 27 * s.toks.length + rank (.exprStmt) ≤ f) :
    wp (pExprStmt r) (Post (.exprStmt) s) (ErrPost s) s := by
  unfold pExprStmt
  repeat pstep ih

theorem sound_unit (ih : Sound r f) (as : List Ast) (he : Eof s.toks) (hd : 27 * s.toks.length + rank (.unit as) ≤ f) :
    wp (pUnit r as) (Post (.unit as) s) (ErrPost s) s := by
  unfold pUnit mayFuncDef
  repeat pstep ih

theorem sound_funcDef (ih : Sound r f)  (he : Eof s.toks) (hd : 27 * s.toks.length + rank (.funcDef) ≤ f) :
    wp (pFuncDef r) (Post (.funcDef) s) (ErrPost s) s := by
  unfold pFuncDef
  repeat pstep ih


theorem sound_typeSpec (ih : Sound r f) (hp : Pre .typeSpec s) (he : Eof s.toks) (hd : 27 * s.toks.length + rank .typeSpec ≤ f) :
    wp (pTypeSpec r) (Post .typeSpec s) (ErrPost s) s := by
  obtain ⟨t, ts, h1, h2⟩ := hp
  have hl : s.toks.length = ts.length + 1 := by rw [h1]; rfl
  have he' : t ≠ .eof → Eof ts := fun ht => by rw [h1] at he; exact eof_cons he ht
  unfold pTypeSpec
  rw [wp_bind, wp_peek]
  refine ⟨t, ts, h1, ?_⟩
  rw [wp_bind, wp_getTds]
  split
  all_goals first
    | ((repeat pstep ih); done)
    | skip
  · next n =>
    have : n ∈ s.tds := by simpa [isTypeSpec] using h2
    rw [if_pos this]
    repeat pstep ih
  · next h =>
    exfalso
    unfold isTypeSpec at h2
    split at h2 <;> simp_all

theorem sound_declor (ih : Sound r f) (abs : Bool) (he : Eof s.toks) (hd : 27 * s.toks.length + rank (.declor abs) ≤ f) :
    wp (pDeclor r abs) (Post (.declor abs) s) (ErrPost s) s := by
  unfold pDeclor
  simp only [wp_bind, wp_getToks, wp_setToks]
  have hle : (s.toks.drop (stars s.toks)).length ≤ s.toks.length := by simp
  refine call ih (.direct abs) trivial (eof_stars he) (by simp only [rank] at *; omega) ?_ ?_
  · intro a s' h1 h2 h3
    have h2' : s'.toks.length + need (.declor abs) ≤ s.toks.length := Nat.le_trans h2 hle
    have h3' : hasTerm (termT abs) a = true := h3
    rw [wp_ite]
    split
    · exact ⟨h1, h2', h3'⟩
    · rw [wp_ite]
      split
      · exact ⟨h1, h2', hasTerm_ptrs _ _ _ h3'⟩
      · next hne =>
        obtain ⟨b, hb1, hb2, _⟩ := mapTerm_ok (termT abs) (ptrs (stars s.toks)) (fun x hx => hasTerm_ptrs _ _ _ (hasTerm_of_type hx)) a h3' hne
        rw [wp_lift_ok hb1]
        exact ⟨h1, h2', hb2⟩
  · intro s' h1 h2
    exact ⟨h1, Nat.le_trans h2 hle⟩

theorem sound_direct (ih : Sound r f) (abs : Bool) (he : Eof s.toks) (hd : 27 * s.toks.length + rank (.direct abs) ≤ f) :
    wp (pDirect r abs) (Post (.direct abs) s) (ErrPost s) s := by
  unfold pDirect
  simp only [wp_bind, wp_getToks]
  refine wp_peek' he ?_
  intro t ts h1 h2 h3
  split
  · -- parenthesis
    rw [wp_bind]
    refine wp_adv' h1 h3 (by decide) ?_
    intro h4
    rw [wp_bind]
    refine call ih (.declor abs) trivial h4 (by simp only [rank] at *; omega) ?_ ?_
    · intro e s' g1 g2 g3
      have g2' : s'.toks.length + need (.declor abs) ≤ ts.length := g2
      have g3' : hasTerm (termT abs) e = true := g3
      cases abs with
      | true =>
        simp only [reduceIte]
        rw [wp_ite]
        split
        · next hty =>
          rw [wp_bind, wp_setToks]
          refine call ih (.directLoop none e [] true) ⟨hty, fun e' h => by cases h⟩ he (by simp only [rank] at *; omega) ?_ ?_
          · intro a s2 k1 k2 k3
            exact ⟨k1, k2, k3⟩
          · intro s2 k1 k2; exact ⟨k1, k2⟩
        · next hty =>
          rw [wp_bind]
          refine wp_consume' g1 (by decide) ?_ ⟨g1, by simp only [need] at *; omega⟩
          intro ts2 k1 k2
          obtain ⟨b, hb1, hb2⟩ := term_ok _ e g3' hty
          rw [wp_bind, wp_lift_ok hb1]
          refine call ih (.directLoop (some e) b [] true) ⟨hb2, fun e' h => by cases h; exact ⟨hty, g3'⟩⟩ k2 (by simp only [rank, need] at *; omega) ?_ ?_
          · intro a s2 j1 j2 j3
            exact ⟨j1, by simp only [need] at *; simp; omega, j3⟩
          · intro s2 j1 j2; exact ⟨j1, by simp only [need] at *; omega⟩
      | false =>
        simp only [Bool.false_eq_true, reduceIte]
        simp only [need, Bool.false_eq_true, reduceIte] at g2'
        rw [wp_bind]
        refine wp_consume' g1 (by decide) ?_ ⟨g1, by omega⟩
        intro ts2 k1 k2
        rw [wp_ite]
        split
        · next hty =>
          refine call ih (.directLoop none e [] false) ⟨hty, fun e' h => by cases h⟩ k2 (by simp only [rank] at *; omega) ?_ ?_
          · intro a s2 j1 j2 j3
            exact ⟨j1, by simp only [need] at *; simp; omega, j3⟩
          · intro s2 j1 j2; exact ⟨j1, by simp only [need] at *; omega⟩
        · next hty =>
          obtain ⟨b, hb1, hb2⟩ := term_ok _ e g3' hty
          rw [wp_bind, wp_lift_ok hb1]
          refine call ih (.directLoop (some e) b [] false) ⟨hb2, fun e' h => by cases h; exact ⟨hty, g3'⟩⟩ k2 (by simp only [rank, need] at *; omega) ?_ ?_
          · intro a s2 j1 j2 j3
            exact ⟨j1, by simp only [need] at *; simp; omega, j3⟩
          · intro s2 j1 j2; exact ⟨j1, by simp only [need] at *; omega⟩
    · intro s' g1 g2
      have g2' : s'.toks.length ≤ ts.length := g2
      exact ⟨g1, by omega⟩
  · -- a name
    next n =>
    cases abs with
    | true => simp only [reduceIte]; exact ⟨he, Nat.le_refl _⟩
    | false =>
      simp only [Bool.false_eq_true, reduceIte]
      rw [wp_bind]
      refine wp_adv' h1 h3 (by simp) ?_
      intro h4
      rw [wp_bind, wp_getFlag, wp_bind, wp_getTds, wp_ite]
      have key : ∀ s2 : PS, s2.toks = ts → wp (r (.directLoop none (.name .identDeclor n) [] false)) (Post (.direct false) s) (ErrPost s) s2 := by
        intro s2 hs2
        refine call ih (.directLoop none (.name .identDeclor n) [] false) ⟨rfl, fun e' h => by cases h⟩ (by rw [hs2]; exact h4)
          (by simp only [rank, hs2] at *; omega) ?_ ?_
        · intro a s3 j1 j2 j3
          exact ⟨j1, by simp only [need, hs2] at *; simp; omega, j3⟩
        · intro s3 j1 j2; exact ⟨j1, by simp only [hs2] at *; omega⟩
      split
      · rw [wp_bind, wp_setTds]; exact key _ rfl
      · exact key _ rfl
  · rw [wp_ite]
    split
    · next ha =>
      subst ha
      refine call ih (.directLoop none (.node .absDeclor []) [] true) ⟨rfl, fun e' h => by cases h⟩ he (by simp only [rank] at *; omega) ?_ ?_
      · intro a s2 k1 k2 k3
        exact ⟨k1, k2, k3⟩
      · intro s2 k1 k2; exact ⟨k1, k2⟩
    · exact ⟨he, Nat.le_refl _⟩

theorem sound_directLoop (ih : Sound r f) (e : Option Ast) (t : Ast) (ps : List (AstT × Ast)) (abs : Bool) (hp : Pre (.directLoop e t ps abs) s)
    (he : Eof s.toks) (hd : 27 * s.toks.length + rank (.directLoop e t ps abs) ≤ f) :
    wp (pDirectLoop r e t ps abs) (Post (.directLoop e t ps abs) s) (ErrPost s) s := by
  have go : ∀ (ps' : List (AstT × Ast)) (s2 : PS), Eof s2.toks → s2.toks.length < s.toks.length →
      wp (r (.directLoop e t ps' abs)) (Post (.directLoop e t ps abs) s) (ErrPost s) s2 := by
    intro ps' s2 h1 h2
    refine call ih (.directLoop e t ps' abs) hp h1 (by simp only [rank] at *; omega) ?_ ?_
    · intro a s3 j1 j2 j3
      exact ⟨j1, by simp only [need] at *; omega, j3⟩
    · intro s3 j1 j2; exact ⟨j1, by omega⟩
  unfold pDirectLoop
  rw [wp_bind]
  refine wp_peek' he ?_
  intro c ts h1 h2 h3
  split
  · repeat (first | (exact go _ _ (by assumption) (by parith)) | pstep ih)
  · repeat (first | (exact go _ _ (by assumption) (by parith)) | pstep ih)
  · have hc : hasTerm (termT abs) (chain t ps) = true := hasTerm_chain _ _ (hasTerm_of_type hp.1) _
    split
    · next e' =>
      obtain ⟨k1, k2⟩ := hp.2 e' rfl
      obtain ⟨b, hb1, hb2, _⟩ := mapTerm_ok (termT abs) (fun _ => chain t ps) (fun _ _ => hc) e' k2 k1
      rw [wp_lift_ok hb1]
      exact ⟨he, by simp [need], hb2⟩
    · exact ⟨he, by simp [need], hc⟩

theorem sound_parse (f : Nat) : Sound (parse f) f := by
  induction f with
  | zero => intro nt s _ _ h; exact absurd h (Nat.not_lt_zero _)
  | succ f ih =>
    intro nt s hp he hd
    have hd' : 27 * s.toks.length + rank nt ≤ f := Nat.le_of_lt_succ hd
    show wp (body (parse f) nt) _ _ s
    cases nt with
    | assign => exact call ih (.assignLoop []) trivial he (by simp only [rank] at *; omega) (fun a s' h1 h2 h3 => ⟨h1, h2, trivial⟩) (fun s' h1 h2 => ⟨h1, h2⟩)
    | cast => exact call ih (.castLoop []) trivial he (by simp only [rank] at *; omega) (fun a s' h1 h2 h3 => ⟨h1, h2, trivial⟩) (fun s' h1 h2 => ⟨h1, h2⟩)
    | postfixE => unfold body; repeat pstep ih
    | assignLoop st => exact sound_assignLoop ih st he hd'
    | cond => exact sound_cond ih he hd'
    | bin l => exact sound_bin ih l he hd'
    | binLoop l a => exact sound_binLoop ih l a he hd'
    | castLoop st => exact sound_castLoop ih st he hd'
    | unary => exact sound_unary ih he hd'
    | postfixLoop a => exact sound_postfixLoop ih a he hd'
    | args => exact sound_args ih he hd'
    | argsLoop as => exact sound_argsLoop ih as he hd'
    | primary => exact sound_primary ih he hd'
    | decl => exact sound_decl ih he hd'
    | typeName => exact sound_typeName ih he hd'
    | declSpecs as td => exact sound_declSpecs ih as td he hd'
    | specQuals as => exact sound_specQuals ih as he hd'
    | typeSpec => exact sound_typeSpec ih hp he hd'
    | structSpec => exact sound_structSpec ih he hd'
    | structDecls as => exact sound_structDecls ih as he hd'
    | structDecl => exact sound_structDecl ih he hd'
    | structDeclors as => exact sound_structDeclors ih as he hd'
    | enumSpec => exact sound_enumSpec ih he hd'
    | enumors as => exact sound_enumors ih as he hd'
    | enumor => exact sound_enumor ih he hd'
    | initDeclors as => exact sound_initDeclors ih as he hd'
    | initDeclor => exact sound_initDeclor ih he hd'
    | declor abs => exact sound_declor ih abs he hd'
    | direct abs => exact sound_direct ih abs he hd'
    | directLoop e t ps abs => exact sound_directLoop ih e t ps abs hp he hd'
    | params as => exact sound_params ih as he hd'
    | paramDecl => exact sound_paramDecl ih he hd'
    | init => exact sound_init ih he hd'
    | initList as => exact sound_initList ih as he hd'
    | stmt => exact sound_stmt ih he hd'
    | items as => exact sound_items ih as he hd'
    | compound => exact sound_compound ih he hd'
    | exprStmt => exact sound_exprStmt ih he hd'
    | unit as => exact sound_unit ih as he hd'
    | funcDef => exact sound_funcDef ih he hd'

end Parser
end Umlcc
