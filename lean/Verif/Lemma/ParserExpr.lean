import Verif.Lemma.ParserRun
import Verif.Spec.Syntax
/-!
The parser reads printed expressions back: what it means for a token list to behave as an expression of a binding strength (`G`), and how such
token lists are put together.
-/
namespace Umlcc
namespace Parser
open M Syn

/-- tokens that continue a postfix expression -/
def postTok : Tok → Bool
  | .punct .lbracket | .punct .lparen | .punct .dot | .punct .arrow | .punct .plusPlus | .punct .minusMinus => true
  | _ => false

/-- first tokens of primary expressions -/
def primHead (tds : List Id) : Tok → Bool
  | .ident n => decide (n ∉ tds)
  | .int _ | .char _ | .str _ | .punct .lparen => true
  | _ => false

/-- first tokens of expressions -/
def exprHead (tds : List Id) (t : Tok) : Bool :=
  primHead tds t || (preOp t).isSome || (unOp t).isSome || decide (t = .kw .ksizeof)

/-- tokens that do not continue an expression of strength `p` -/
def Stops (p : Nat) (t : Tok) : Prop :=
  postTok t = false ∧ (∀ l, p ≤ l + 2 → binOp l t = none) ∧ (p ≤ 1 → t ≠ .punct .question) ∧ (p = 0 → assignOp t = none)

theorem Stops.mono {p q : Nat} {t : Tok} (h : Stops p t) (hq : p ≤ q) : Stops q t :=
  ⟨h.1, fun l hl => h.2.1 l (by omega), fun h' => h.2.2.1 (by omega), fun h' => h.2.2.2 (by omega)⟩

/-- `parse_unary_expr` at the beginning fails or stops before something that is not an assignment operator -/
def Lead (c : Ctx) (X : List Tok) : Prop :=
  Er .unary c X ∨ ∃ a t Y, Ok .unary c X a (t :: Y) ∧ assignOp t = none

abbrev foldA (st : List (AstT × Ast)) (a : Ast) : Ast := st.foldl (fun acc x => .node x.1 [x.2, acc]) a
abbrev foldC (st : List Ast) (a : Ast) : Ast := st.foldl (fun acc t => .node .cast [t, acc]) a

/-- The tokens `X` behave as an expression of strength `q` with tree `a`. -/
structure G (tds : List Id) (q : Nat) (X : List Tok) (a : Ast) : Prop where
  head : ∃ h tl, X = h :: tl ∧ exprHead tds h = true ∧ (14 ≤ q → primHead tds h = true) ∧
    (13 ≤ q → h = .punct .lparen → ∃ h2 tl2, tl = h2 :: tl2 ∧ exprHead tds h2 = true)
  prim : 15 ≤ q → ∀ c Y, c.tds = tds → Ok .primary c (X ++ Y) a Y
  post : 14 ≤ q → ∀ c Y res, c.tds = tds → P (.postfixLoop a) (st c Y) res → P .postfixE (st c (X ++ Y)) res
  unary : 13 ≤ q → ∀ c t Y, c.tds = tds → postTok t = false → Ok .unary c (X ++ t :: Y) a (t :: Y)
  cast : 12 ≤ q → ∀ c sk t Y, c.tds = tds → postTok t = false → Ok (.castLoop sk) c (X ++ t :: Y) (foldC sk a) (t :: Y)
  bin : ∀ l, l ≤ 9 → l + 2 ≤ q → ∀ c t Y res, c.tds = tds → Stops (l + 3) t → P (.binLoop l a) (st c (t :: Y)) res →
    P (.bin l) (st c (X ++ t :: Y)) res
  cond : 1 ≤ q → ∀ c t Y, c.tds = tds → Stops 1 t → Ok .cond c (X ++ t :: Y) a (t :: Y)
  lead : 1 ≤ q → ∀ c t Y, c.tds = tds → postTok t = false → assignOp t = none → Lead c (X ++ t :: Y)
  asg : ∀ c sk t Y, c.tds = tds → Stops 0 t → Ok (.assignLoop sk) c (X ++ t :: Y) (foldA sk a) (t :: Y)

abbrev Head (tds : List Id) (q : Nat) (X : List Tok) : Prop :=
  ∃ h tl, X = h :: tl ∧ exprHead tds h = true ∧ (14 ≤ q → primHead tds h = true) ∧
    (13 ≤ q → h = .punct .lparen → ∃ h2 tl2, tl = h2 :: tl2 ∧ exprHead tds h2 = true)

/-! ### first tokens -/

theorem preOp_spec {t : Tok} {o : AstT} (h : preOp t = some o) : t = .punct .plusPlus ∨ t = .punct .minusMinus := by
  unfold preOp at h
  split at h <;> simp_all

theorem unOp_spec {t : Tok} {o : AstT} (h : unOp t = some o) :
    t = .punct .and ∨ t = .punct .asterisk ∨ t = .punct .plus ∨ t = .punct .minus ∨ t = .punct .tilde ∨ t = .punct .exclam := by
  unfold unOp at h
  split at h <;> simp_all

theorem exprHead_cases {tds : List Id} {t : Tok} (h : exprHead tds t = true) :
    (∃ n, t = .ident n ∧ n ∉ tds) ∨ (∃ l, t = .int l) ∨ (∃ l, t = .char l) ∨ (∃ l, t = .str l) ∨ t = .punct .lparen ∨
    t = .punct .plusPlus ∨ t = .punct .minusMinus ∨
    t = .punct .and ∨ t = .punct .asterisk ∨ t = .punct .plus ∨ t = .punct .minus ∨ t = .punct .tilde ∨ t = .punct .exclam ∨
    t = .kw .ksizeof := by
  simp only [exprHead, Bool.or_eq_true, decide_eq_true_eq, Option.isSome_iff_exists] at h
  rcases h with ((h | ⟨o, h⟩) | ⟨o, h⟩) | h
  · unfold primHead at h
    split at h <;> simp_all
  · rcases preOp_spec h with rfl | rfl <;> simp
  · rcases unOp_spec h with rfl | rfl | rfl | rfl | rfl | rfl <;> simp
  · simp [h]

theorem exprHead_not_type {tds : List Id} {t : Tok} (h : exprHead tds t = true) : isTypeSpec tds t = false := by
  rcases exprHead_cases h with ⟨n, rfl, h⟩ | ⟨l, rfl⟩ | ⟨l, rfl⟩ | ⟨l, rfl⟩ | rfl | rfl | rfl | rfl | rfl | rfl | rfl | rfl | rfl | rfl <;>
    simp_all [isTypeSpec]

theorem primHead_ops {tds : List Id} {t : Tok} (h : primHead tds t = true) : preOp t = none ∧ unOp t = none ∧ t ≠ .kw .ksizeof := by
  unfold primHead at h
  split at h <;> simp_all [preOp, unOp]

/-- `parse_type_name` fails at once when the token starts no type -/
theorem er_typeName {c : Ctx} {t : Tok} {Y : List Tok} (h : isTypeSpec c.tds t = false) : P .typeName (st c (t :: Y)) (.err (st c (t :: Y))) := by
  have h1 : P (.specQuals []) (st c (t :: Y)) (.err (st c (t :: Y))) := by
    refine P.intro0 (fun r => ?_)
    simp [body, pSpecQuals, run_bind, run_peek, bind_ok, run_getTds, run_ite, h, run_fail]
  refine P.intro1 h1 (fun r h1 => ?_)
  simp [body, pTypeName, run_bind, bind_ok, run_getFlag, run_try, h1, tr_err, run_setFlag, run_fail]

/-! ### from one strength to the next lower one -/

variable {tds : List Id} {q : Nat} {X : List Tok} {a : Ast}

theorem d_post (h : ∀ c Y, c.tds = tds → Ok .primary c (X ++ Y) a Y) :
    ∀ c Y res, c.tds = tds → P (.postfixLoop a) (st c Y) res → P .postfixE (st c (X ++ Y)) res := by
  intro c Y res hc hp
  refine P.intro2 (h c Y hc) hp (fun r h1 h2 => ?_)
  simp [body, run_bind, h1, bind_ok, h2]

theorem postLoop_stop {c : Ctx} {t : Tok} {Y : List Tok} (h : postTok t = false) : P (.postfixLoop a) (st c (t :: Y)) (.ok a (st c (t :: Y))) := by
  refine P.intro0 (fun r => ?_)
  simp only [body, pPostfixLoop, run_bind, run_peek, bind_ok]
  unfold postTok at h
  split <;> simp_all [run_pure]

theorem d_unary (hh : Head tds q X) (hq : 14 ≤ q)
    (h : ∀ c Y res, c.tds = tds → P (.postfixLoop a) (st c Y) res → P .postfixE (st c (X ++ Y)) res) :
    ∀ c t Y, c.tds = tds → postTok t = false → Ok .unary c (X ++ t :: Y) a (t :: Y) := by
  intro c t Y hc ht
  have h1 := h c (t :: Y) _ hc (postLoop_stop ht)
  obtain ⟨hd, tl, rfl, -, h3, -⟩ := hh
  obtain ⟨k1, k2, k3⟩ := primHead_ops (h3 hq)
  refine P.intro1 h1 (fun r h1 => ?_)
  simp only [List.cons_append] at h1
  simp [body, pUnary, run_bind, run_peek, bind_ok, k1, k2, k3, h1]

theorem d_cast (hh : Head tds q X) (hq : 13 ≤ q) (h : ∀ c t Y, c.tds = tds → postTok t = false → Ok .unary c (X ++ t :: Y) a (t :: Y)) :
    ∀ c sk t Y, c.tds = tds → postTok t = false → Ok (.castLoop sk) c (X ++ t :: Y) (foldC sk a) (t :: Y) := by
  intro c sk t Y hc ht
  have h1 := h c t Y hc ht
  obtain ⟨hd, tl, rfl, -, -, h4⟩ := hh
  by_cases hp : hd = .punct .lparen
  · obtain ⟨h2, tl2, rfl, h5⟩ := h4 hq hp
    subst hp
    refine P.intro2 h1 (er_typeName (c := c) (t := h2) (Y := tl2 ++ t :: Y) (hc ▸ exprHead_not_type h5)) (fun r h1 h2 => ?_)
    simp only [List.cons_append] at h1 ⊢
    simp [body, pCastLoop, pCastLoop.rest, run_bind, run_getToks, run_peek, bind_ok, run_adv, run_try, h1, h2, tr_err, run_setToks, run_pure]
  · refine P.intro1 h1 (fun r h1 => ?_)
    simp only [List.cons_append] at h1 ⊢
    simp [body, pCastLoop, pCastLoop.rest, run_bind, run_getToks, run_peek, bind_ok, hp, h1, run_pure]

theorem p_cast {c : Ctx} {Y Z : List Tok} (h : Ok (.castLoop []) c Y a Z) : Ok .cast c Y a Z :=
  P.intro1 h (fun r h1 => by simp [body, h1])
theorem p_assign {c : Ctx} {Y Z : List Tok} (h : Ok (.assignLoop []) c Y a Z) : Ok .assign c Y a Z :=
  P.intro1 h (fun r h1 => by simp [body, h1])

theorem p_bin9 {c : Ctx} {Y Z : List Tok} {res : PR Ast} (h : Ok .cast c Y a Z) (h2 : P (.binLoop 9 a) (st c Z) res) : P (.bin 9) (st c Y) res :=
  P.intro2 h h2 (fun r h1 h2 => by simp [body, pBin, pBin.next, run_bind, h1, bind_ok, h2])
theorem p_bin {c : Ctx} {l : Nat} {Y Z : List Tok} {res : PR Ast} (hl : l < 9) (h : Ok (.bin (l + 1)) c Y a Z)
    (h2 : P (.binLoop l a) (st c Z) res) : P (.bin l) (st c Y) res :=
  P.intro2 h h2 (fun r h1 h2 => by simp [body, pBin, pBin.next, hl, run_bind, h1, bind_ok, h2])
theorem binLoop_stop {c : Ctx} {l : Nat} {t : Tok} {Y : List Tok} (h : binOp l t = none) :
    P (.binLoop l a) (st c (t :: Y)) (.ok a (st c (t :: Y))) :=
  P.intro0 (fun r => by simp [body, pBinLoop, run_bind, run_peek, bind_ok, h, run_pure])

theorem d_bin9 (h : ∀ c sk t Y, c.tds = tds → postTok t = false → Ok (.castLoop sk) c (X ++ t :: Y) (foldC sk a) (t :: Y)) :
    ∀ c t Y res, c.tds = tds → Stops (9 + 3) t → P (.binLoop 9 a) (st c (t :: Y)) res → P (.bin 9) (st c (X ++ t :: Y)) res :=
  fun c t Y _ hc ht hp => p_bin9 (p_cast (h c [] t Y hc ht.1)) hp

theorem d_binStep {l : Nat} (hl : l < 9)
    (h : ∀ c t Y res, c.tds = tds → Stops (l + 1 + 3) t → P (.binLoop (l + 1) a) (st c (t :: Y)) res → P (.bin (l + 1)) (st c (X ++ t :: Y)) res) :
    ∀ c t Y res, c.tds = tds → Stops (l + 3) t → P (.binLoop l a) (st c (t :: Y)) res → P (.bin l) (st c (X ++ t :: Y)) res :=
  fun c t Y _ hc ht hp => p_bin hl (h c t Y _ hc (ht.mono (by omega)) (binLoop_stop (ht.2.1 (l + 1) (by omega)))) hp

/-- all lower binary levels -/
theorem d_bin {m : Nat} (hm : m ≤ 9)
    (h : ∀ c t Y res, c.tds = tds → Stops (m + 3) t → P (.binLoop m a) (st c (t :: Y)) res → P (.bin m) (st c (X ++ t :: Y)) res)
    (l : Nat) (hl : l ≤ m) :
    ∀ c t Y res, c.tds = tds → Stops (l + 3) t → P (.binLoop l a) (st c (t :: Y)) res → P (.bin l) (st c (X ++ t :: Y)) res := by
  induction m with
  | zero => obtain rfl : l = 0 := by omega
            exact h
  | succ m ih =>
    by_cases h' : l = m + 1
    · subst h'; exact h
    · exact ih (by omega) (d_binStep (by omega) h) (by omega)

theorem d_cond (h : ∀ c t Y res, c.tds = tds → Stops (0 + 3) t → P (.binLoop 0 a) (st c (t :: Y)) res → P (.bin 0) (st c (X ++ t :: Y)) res) :
    ∀ c t Y, c.tds = tds → Stops 1 t → Ok .cond c (X ++ t :: Y) a (t :: Y) := by
  intro c t Y hc ht
  have h1 := h c t Y _ hc (ht.mono (by omega)) (binLoop_stop (ht.2.1 0 (by omega)))
  refine P.intro1 h1 (fun r h1 => ?_)
  simp [body, pCond, run_bind, h1, bind_ok, run_peek, run_ite, ht.2.2.1 (by omega), run_pure]

theorem d_asg (h : ∀ c t Y, c.tds = tds → Stops 1 t → Ok .cond c (X ++ t :: Y) a (t :: Y))
    (hl : ∀ c t Y, c.tds = tds → postTok t = false → assignOp t = none → Lead c (X ++ t :: Y)) :
    ∀ c sk t Y, c.tds = tds → Stops 0 t → Ok (.assignLoop sk) c (X ++ t :: Y) (foldA sk a) (t :: Y) := by
  intro c sk t Y hc ht
  have h1 := h c t Y hc (ht.mono (by omega))
  rcases hl c t Y hc ht.1 (ht.2.2.2 rfl) with ⟨Z, h2⟩ | ⟨b, u, Z, h2, hu⟩
  · refine P.intro2 h1 h2 (fun r h1 h2 => ?_)
    simp [body, pAssignLoop, pAssignLoop.rest, run_bind, run_getToks, bind_ok, run_try, h2, tr_err, run_setToks, h1, run_pure]
  · refine P.intro2 h1 h2 (fun r h1 h2 => ?_)
    simp [body, pAssignLoop, pAssignLoop.rest, run_bind, run_getToks, bind_ok, run_try, h2, tr_ok, run_peek, hu, run_setToks, h1, run_pure]

/-! ### what has to be shown for each strength -/

theorem G.of0 (hh : Head tds 0 X)
    (h : ∀ c sk t Y, c.tds = tds → Stops 0 t → Ok (.assignLoop sk) c (X ++ t :: Y) (foldA sk a) (t :: Y)) : G tds 0 X a :=
  ⟨hh, by omega, by omega, by omega, by omega, by omega, by omega, by omega, h⟩

theorem G.of1 (hh : Head tds 1 X) (h : ∀ c t Y, c.tds = tds → Stops 1 t → Ok .cond c (X ++ t :: Y) a (t :: Y))
    (hl : ∀ c t Y, c.tds = tds → postTok t = false → assignOp t = none → Lead c (X ++ t :: Y)) : G tds 1 X a :=
  ⟨hh, by omega, by omega, by omega, by omega, by omega, fun _ => h, fun _ => hl, d_asg h hl⟩

theorem G.ofBin {m : Nat} (hm : m ≤ 9) (hh : Head tds (m + 2) X)
    (h : ∀ c t Y res, c.tds = tds → Stops (m + 3) t → P (.binLoop m a) (st c (t :: Y)) res → P (.bin m) (st c (X ++ t :: Y)) res)
    (hl : ∀ c t Y, c.tds = tds → postTok t = false → assignOp t = none → Lead c (X ++ t :: Y)) : G tds (m + 2) X a :=
  ⟨hh, by omega, by omega, by omega, by omega, fun l h1 h2 => d_bin hm h l (by omega), fun _ => d_cond (d_bin hm h 0 (by omega)),
    fun _ => hl, d_asg (d_cond (d_bin hm h 0 (by omega))) hl⟩

theorem G.of12 (hh : Head tds 12 X)
    (h : ∀ c sk t Y, c.tds = tds → postTok t = false → Ok (.castLoop sk) c (X ++ t :: Y) (foldC sk a) (t :: Y))
    (hl : ∀ c t Y, c.tds = tds → postTok t = false → assignOp t = none → Lead c (X ++ t :: Y)) : G tds 12 X a :=
  ⟨hh, by omega, by omega, by omega, fun _ => h, fun l h1 h2 => d_bin (by omega) (d_bin9 h) l h1,
    fun _ => d_cond (d_bin (by omega) (d_bin9 h) 0 (by omega)),
    fun _ => hl, d_asg (d_cond (d_bin (by omega) (d_bin9 h) 0 (by omega))) hl⟩

theorem G.of13' (hq : 13 ≤ q) (hh : Head tds q X) (hp1 : 15 ≤ q → ∀ c Y, c.tds = tds → Ok .primary c (X ++ Y) a Y)
    (hp2 : 14 ≤ q → ∀ c Y res, c.tds = tds → P (.postfixLoop a) (st c Y) res → P .postfixE (st c (X ++ Y)) res)
    (h : ∀ c t Y, c.tds = tds → postTok t = false → Ok .unary c (X ++ t :: Y) a (t :: Y)) : G tds q X a := by
  have hc := d_cast hh hq h
  have hl : ∀ c t Y, c.tds = tds → postTok t = false → assignOp t = none → Lead c (X ++ t :: Y) :=
    fun c t Y hc ht ha => .inr ⟨a, t, Y, h c t Y hc ht, ha⟩
  exact ⟨hh, hp1, hp2, fun _ => h, fun _ => hc, fun l h1 h2 => d_bin (by omega) (d_bin9 hc) l h1,
    fun _ => d_cond (d_bin (by omega) (d_bin9 hc) 0 (by omega)),
    fun _ => hl, d_asg (d_cond (d_bin (by omega) (d_bin9 hc) 0 (by omega))) hl⟩

theorem G.of13 (hh : Head tds 13 X) (h : ∀ c t Y, c.tds = tds → postTok t = false → Ok .unary c (X ++ t :: Y) a (t :: Y)) : G tds 13 X a :=
  G.of13' (by omega) hh (by omega) (by omega) h

theorem G.of14 (hh : Head tds 14 X)
    (h : ∀ c Y res, c.tds = tds → P (.postfixLoop a) (st c Y) res → P .postfixE (st c (X ++ Y)) res) : G tds 14 X a :=
  G.of13' (by omega) hh (by omega) (fun _ => h) (d_unary hh (by omega) h)

theorem G.of15 (hh : Head tds 15 X) (h : ∀ c Y, c.tds = tds → Ok .primary c (X ++ Y) a Y) : G tds 15 X a :=
  G.of13' (by omega) hh (fun _ => h) (fun _ => d_post h) (d_unary hh (by omega) (d_post h))

/-! ### putting expressions together -/

theorem G.assign (h : G tds q X a) {c : Ctx} {t : Tok} {Y : List Tok} (hc : c.tds = tds) (ht : Stops 0 t) : Ok .assign c (X ++ t :: Y) a (t :: Y) :=
  p_assign (h.asg c [] t Y hc ht)

theorem stops_rparen (p : Nat) : Stops p (.punct .rparen) := ⟨rfl, fun l _ => by unfold binOp; split <;> simp_all, by simp, fun _ => rfl⟩
theorem stops_rbracket (p : Nat) : Stops p (.punct .rbracket) := ⟨rfl, fun l _ => by unfold binOp; split <;> simp_all, by simp, fun _ => rfl⟩
theorem stops_rbrace (p : Nat) : Stops p (.punct .rbrace) := ⟨rfl, fun l _ => by unfold binOp; split <;> simp_all, by simp, fun _ => rfl⟩
theorem stops_comma (p : Nat) : Stops p (.punct .comma) := ⟨rfl, fun l _ => by unfold binOp; split <;> simp_all, by simp, fun _ => rfl⟩
theorem stops_colon (p : Nat) : Stops p (.punct .colon) := ⟨rfl, fun l _ => by unfold binOp; split <;> simp_all, by simp, fun _ => rfl⟩
theorem stops_semicolon (p : Nat) : Stops p (.punct .semicolon) := ⟨rfl, fun l _ => by unfold binOp; split <;> simp_all, by simp, fun _ => rfl⟩
theorem stops_question : Stops 2 (.punct .question) := ⟨rfl, fun l _ => by unfold binOp; split <;> simp_all, by omega, fun _ => rfl⟩

/-- parentheses -/
theorem G.par (h : G tds q X a) : G tds 15 (par X) a := by
  obtain ⟨hd, tl, hX, h2, -, -⟩ := h.head
  refine G.of15 ⟨.punct .lparen, X ++ [.punct .rparen], rfl, rfl, fun _ => rfl, fun _ _ => ⟨hd, tl ++ [.punct .rparen], by simp [hX], h2⟩⟩ (fun c Y hc => ?_)
  refine P.intro1 (h.assign hc (stops_rparen 0) (Y := Y)) (fun r h1 => ?_)
  simp [body, pPrimary, Syn.par, run_bind, run_peek, bind_ok, run_getTds, run_adv, h1, run_consume, run_pure]

theorem g_ident (n : Id) (h : n ∉ tds) : G tds 15 [.ident n] (.name .identExpr n) :=
  G.of15 ⟨_, _, rfl, by simp [exprHead, primHead, h], by simp [primHead, h], by simp⟩
    (fun c Y hc => P.intro0 (fun r => by simp [body, pPrimary, run_bind, run_peek, bind_ok, run_getTds, hc, h, run_adv, run_pure]))
theorem g_int (n : ILit) : G tds 15 [.int n] (.lit .intExpr n) :=
  G.of15 ⟨_, _, rfl, by simp [exprHead, primHead], by simp [primHead], by simp⟩
    (fun c Y hc => P.intro0 (fun r => by simp [body, pPrimary, run_bind, run_peek, bind_ok, run_getTds, run_adv, run_pure]))
theorem g_char (n : ILit) : G tds 15 [.char n] (.lit .charExpr n) :=
  G.of15 ⟨_, _, rfl, by simp [exprHead, primHead], by simp [primHead], by simp⟩
    (fun c Y hc => P.intro0 (fun r => by simp [body, pPrimary, run_bind, run_peek, bind_ok, run_getTds, run_adv, run_pure]))
theorem g_str (n : List UInt8) : G tds 15 [.str n] (.strlit .stringExpr n) :=
  G.of15 ⟨_, _, rfl, by simp [exprHead, primHead], by simp [primHead], by simp⟩
    (fun c Y hc => P.intro0 (fun r => by simp [body, pPrimary, run_bind, run_peek, bind_ok, run_getTds, run_adv, run_pure]))

theorem head_append (h : Head tds q X) {q' : Nat} (hq : q' ≤ q) (Z : List Tok) : Head tds q' (X ++ Z) := by
  obtain ⟨hd, tl, rfl, h2, h3, h4⟩ := h
  refine ⟨hd, tl ++ Z, rfl, h2, fun h => h3 (by omega), fun h h' => ?_⟩
  obtain ⟨h2, tl2, rfl, k⟩ := h4 (by omega) h'
  exact ⟨h2, tl2 ++ Z, rfl, k⟩
theorem head_append' (h : Head tds q X) {q' : Nat} (hq : q' ≤ 12) (Z : List Tok) : Head tds q' (X ++ Z) := by
  obtain ⟨hd, tl, rfl, h2, h3, h4⟩ := h
  exact ⟨hd, tl ++ Z, rfl, h2, fun h => by omega, fun h h' => by omega⟩

theorem exprHead_ne_rparen {t : Tok} (h : exprHead tds t = true) : t ≠ .punct .rparen := by
  rcases exprHead_cases h with ⟨n, rfl, h⟩ | ⟨l, rfl⟩ | ⟨l, rfl⟩ | ⟨l, rfl⟩ | rfl | rfl | rfl | rfl | rfl | rfl | rfl | rfl | rfl | rfl <;> simp

variable {X1 X2 X3 : List Tok} {q1 q2 q3 : Nat} {a1 a2 a3 : Ast}

theorem g_subsc (h1 : G tds q1 X1 a1) (hq1 : 14 ≤ q1) (h2 : G tds q2 X2 a2) :
    G tds 14 (X1 ++ .punct .lbracket :: (X2 ++ [.punct .rbracket])) (.node .subsc [a1, a2]) := by
  refine G.of14 (head_append h1.head hq1 _) (fun c Y res hc hp => ?_)
  have k := h2.assign hc (stops_rbracket 0) (Y := Y)
  simp only [List.append_assoc, List.cons_append, List.nil_append]
  refine h1.post hq1 c _ _ hc (P.intro2 k hp (fun r k hp => ?_))
  simp [body, pPostfixLoop, run_bind, run_peek, bind_ok, run_adv, k, run_consume, hp]

theorem g_call {as : List Ast} (h1 : G tds q1 X1 a1) (hq1 : 14 ≤ q1)
    (h2 : ∀ c Y, c.tds = tds → Ok .args c (X2 ++ .punct .rparen :: Y) (.node .argList as) (.punct .rparen :: Y)) :
    G tds 14 (X1 ++ .punct .lparen :: (X2 ++ [.punct .rparen])) (.node .call [a1, .node .argList as]) := by
  refine G.of14 (head_append h1.head hq1 _) (fun c Y res hc hp => ?_)
  have k := h2 c Y hc
  simp only [List.append_assoc, List.cons_append, List.nil_append]
  refine h1.post hq1 c _ _ hc (P.intro2 k hp (fun r k hp => ?_))
  simp [body, pPostfixLoop, run_bind, run_peek, bind_ok, run_adv, k, run_consume, hp]

theorem g_member (h1 : G tds q1 X1 a1) (hq1 : 14 ≤ q1) (n : Id) :
    G tds 14 (X1 ++ [.punct .dot, .ident n]) (.node .member [a1, .name .identExpr n]) := by
  refine G.of14 (head_append h1.head hq1 _) (fun c Y res hc hp => ?_)
  simp only [List.append_assoc, List.cons_append, List.nil_append]
  refine h1.post hq1 c _ _ hc (P.intro1 hp (fun r hp => ?_))
  simp [body, pPostfixLoop, pMember, run_bind, run_peek, bind_ok, run_adv, hp]

theorem g_arrow (h1 : G tds q1 X1 a1) (hq1 : 14 ≤ q1) (n : Id) :
    G tds 14 (X1 ++ [.punct .arrow, .ident n]) (.node .tomember [a1, .name .identExpr n]) := by
  refine G.of14 (head_append h1.head hq1 _) (fun c Y res hc hp => ?_)
  simp only [List.append_assoc, List.cons_append, List.nil_append]
  refine h1.post hq1 c _ _ hc (P.intro1 hp (fun r hp => ?_))
  simp [body, pPostfixLoop, pMember, run_bind, run_peek, bind_ok, run_adv, hp]

theorem g_postinc (h1 : G tds q1 X1 a1) (hq1 : 14 ≤ q1) : G tds 14 (X1 ++ [.punct .plusPlus]) (.node .postinc [a1]) := by
  refine G.of14 (head_append h1.head hq1 _) (fun c Y res hc hp => ?_)
  simp only [List.append_assoc, List.cons_append, List.nil_append]
  refine h1.post hq1 c _ _ hc (P.intro1 hp (fun r hp => ?_))
  simp [body, pPostfixLoop, run_bind, run_peek, bind_ok, run_adv, hp]

theorem g_postdec (h1 : G tds q1 X1 a1) (hq1 : 14 ≤ q1) : G tds 14 (X1 ++ [.punct .minusMinus]) (.node .postdec [a1]) := by
  refine G.of14 (head_append h1.head hq1 _) (fun c Y res hc hp => ?_)
  simp only [List.append_assoc, List.cons_append, List.nil_append]
  refine h1.post hq1 c _ _ hc (P.intro1 hp (fun r hp => ?_))
  simp [body, pPostfixLoop, run_bind, run_peek, bind_ok, run_adv, hp]

theorem g_preinc (h1 : G tds q1 X1 a1) (hq1 : 13 ≤ q1) : G tds 13 (.punct .plusPlus :: X1) (.node .preinc [a1]) := by
  refine G.of13 ⟨_, _, rfl, rfl, by omega, by simp⟩ (fun c t Y hc ht => ?_)
  refine P.intro1 (h1.unary hq1 c t Y hc ht) (fun r k => ?_)
  simp [body, pUnary, preOp, run_bind, run_peek, bind_ok, run_adv, k, run_pure]

theorem g_predec (h1 : G tds q1 X1 a1) (hq1 : 13 ≤ q1) : G tds 13 (.punct .minusMinus :: X1) (.node .predec [a1]) := by
  refine G.of13 ⟨_, _, rfl, rfl, by omega, by simp⟩ (fun c t Y hc ht => ?_)
  refine P.intro1 (h1.unary hq1 c t Y hc ht) (fun r k => ?_)
  simp [body, pUnary, preOp, run_bind, run_peek, bind_ok, run_adv, k, run_pure]

theorem g_un (op : UnOp) (h1 : G tds q1 X1 a1) (hq1 : 12 ≤ q1) : G tds 13 (op.tok :: X1) (.node op.node [a1]) := by
  refine G.of13 ⟨_, _, rfl, by cases op <;> rfl, by omega, by cases op <;> simp [UnOp.tok]⟩ (fun c t Y hc ht => ?_)
  refine P.intro1 (p_cast (h1.cast hq1 c [] t Y hc ht)) (fun r k => ?_)
  cases op <;> simp_all [body, pUnary, preOp, unOp, run_bind, run_peek, bind_ok, run_adv, run_pure, UnOp.tok, UnOp.node]

theorem g_sizeofE (h1 : G tds q1 X1 a1) (hq1 : 13 ≤ q1) : G tds 13 (.kw .ksizeof :: X1) (.node .sizeof [a1]) := by
  refine G.of13 ⟨_, _, rfl, by simp [exprHead], by omega, by simp⟩ (fun c t Y hc ht => ?_)
  refine P.intro1 (h1.unary hq1 c t Y hc ht) (fun r k => ?_)
  simp [body, pUnary, pSizeof, preOp, unOp, run_bind, run_peek, bind_ok, run_getToks, run_try, tr_ok, run_consume, k, run_pure]

theorem binOp_of_op (op : BinOp) : binOp op.lvl op.tok = some op.node := by cases op <;> rfl
theorem stops_op (op : BinOp) : Stops (op.lvl + 3) op.tok := by
  refine ⟨by cases op <;> rfl, fun l hl => ?_, by cases op <;> simp [BinOp.tok], by omega⟩
  cases op <;> simp only [BinOp.lvl] at hl <;> unfold binOp <;> simp only [BinOp.tok] <;> split <;> simp_all
theorem op_not_assign (op : BinOp) : postTok op.tok = false ∧ assignOp op.tok = none := by cases op <;> exact ⟨rfl, rfl⟩

theorem g_bin (op : BinOp) (h1 : G tds q1 X1 a1) (hq1 : op.lvl + 2 ≤ q1) (h2 : G tds q2 X2 a2) (hq2 : op.lvl + 3 ≤ q2) :
    G tds (op.lvl + 2) (X1 ++ op.tok :: X2) (.node op.node [a1, a2]) := by
  have hl9 : op.lvl ≤ 9 := by cases op <;> decide
  refine G.ofBin hl9 (head_append' h1.head (by omega) _) (fun c t Y res hc ht hp => ?_) (fun c t Y hc ht ha => ?_)
  · simp only [List.append_assoc, List.cons_append]
    refine h1.bin _ hl9 hq1 c _ _ _ hc (stops_op op) ?_
    by_cases hl : op.lvl < 9
    · have k : Ok (.bin (op.lvl + 1)) c (X2 ++ t :: Y) a2 (t :: Y) :=
        h2.bin _ (by omega) (by omega) c t Y _ hc (ht.mono (by omega)) (binLoop_stop (ht.2.1 _ (by omega)))
      refine P.intro2 k hp (fun r k hp => ?_)
      simp [body, pBinLoop, pBin.next, run_bind, run_peek, bind_ok, binOp_of_op, run_adv, hl, k, hp]
    · have k : Ok .cast c (X2 ++ t :: Y) a2 (t :: Y) := p_cast (h2.cast (by omega) c [] t Y hc ht.1)
      refine P.intro2 k hp (fun r k hp => ?_)
      simp [body, pBinLoop, pBin.next, run_bind, run_peek, bind_ok, binOp_of_op, run_adv, hl, k, hp]
  · simp only [List.append_assoc, List.cons_append]
    exact h1.lead (by omega) c _ _ hc (op_not_assign op).1 (op_not_assign op).2

theorem g_cond (h1 : G tds q1 X1 a1) (hq1 : 2 ≤ q1) (h2 : G tds q2 X2 a2) (h3 : G tds q3 X3 a3) (hq3 : 1 ≤ q3) :
    G tds 1 (X1 ++ .punct .question :: (X2 ++ .punct .colon :: X3)) (.node .cond [a1, a2, a3]) := by
  refine G.of1 (head_append' h1.head (by omega) _) (fun c t Y hc ht => ?_) (fun c t Y hc ht ha => ?_)
  · simp only [List.append_assoc, List.cons_append]
    have k1 : Ok (.bin 0) c (X1 ++ .punct .question :: (X2 ++ .punct .colon :: (X3 ++ t :: Y))) a1 _ :=
      h1.bin 0 (by omega) (by omega) c _ _ _ hc (stops_question.mono (by omega)) (binLoop_stop rfl)
    have k2 := h2.assign hc (stops_colon 0) (Y := X3 ++ t :: Y)
    have k3 := h3.cond hq3 c t Y hc ht
    refine P.intro3 k1 k2 k3 (fun r k1 k2 k3 => ?_)
    simp [body, pCond, run_bind, k1, bind_ok, run_peek, run_adv, k2, run_consume, k3, run_pure]
  · simp only [List.append_assoc, List.cons_append]
    exact h1.lead (by omega) c _ _ hc rfl rfl

theorem g_assign (op : AsgOp) (h1 : G tds q1 X1 a1) (hq1 : 13 ≤ q1) (h2 : G tds q2 X2 a2) :
    G tds 0 (X1 ++ op.tok :: X2) (.node op.node [a1, a2]) := by
  refine G.of0 (head_append h1.head (by omega) _) (fun c sk t Y hc ht => ?_)
  simp only [List.append_assoc, List.cons_append]
  have k1 := h1.unary hq1 c op.tok (X2 ++ t :: Y) hc (by cases op <;> rfl)
  have k2 := h2.asg c ((op.node, a1) :: sk) t Y hc ht
  have ho : assignOp op.tok = some op.node := by cases op <;> rfl
  refine P.intro2 k1 k2 (fun r k1 k2 => ?_)
  simp only [List.foldl_cons, foldA] at k2
  simp [body, pAssignLoop, run_bind, run_getToks, bind_ok, run_try, k1, tr_ok, run_peek, ho, run_adv, k2]

/-! ### argument lists -/

theorem ok_args_nil {c : Ctx} {Y : List Tok} : Ok .args c (.punct .rparen :: Y) (.node .argList []) (.punct .rparen :: Y) :=
  P.intro0 (fun r => by simp [body, pArgs, run_bind, run_peek, bind_ok, run_pure])

theorem ok_args (h : G tds q X a) {c : Ctx} {Z W : List Tok} {b : Ast}
    (k : Ok (.argsLoop []) c (X ++ Z) b W) : Ok .args c (X ++ Z) b W := by
  obtain ⟨hd, tl, rfl, h2, -, -⟩ := h.head
  refine P.intro1 k (fun r k => ?_)
  simp only [List.cons_append] at k ⊢
  simp [body, pArgs, run_bind, run_peek, bind_ok, exprHead_ne_rparen h2, k]

theorem ok_argsLoop_last (h : G tds q X a) {c : Ctx} {Y : List Tok} (hc : c.tds = tds) (acc : List Ast) :
    Ok (.argsLoop acc) c (X ++ .punct .rparen :: Y) (.node .argList (acc ++ [a])) (.punct .rparen :: Y) := by
  refine P.intro1 (h.assign hc (stops_rparen 0) (Y := Y)) (fun r k => ?_)
  simp [body, pArgsLoop, run_bind, k, bind_ok, run_peek, run_pure]

theorem ok_argsLoop_more (h : G tds q X a) {c : Ctx} {Y Z : List Tok} {b : Ast} (hc : c.tds = tds) (acc : List Ast)
    (k : Ok (.argsLoop (acc ++ [a])) c Y b Z) : Ok (.argsLoop acc) c (X ++ .punct .comma :: Y) b Z := by
  refine P.intro2 (h.assign hc (stops_comma 0) (Y := Y)) k (fun r k k2 => ?_)
  simp [body, pArgsLoop, run_bind, k, bind_ok, run_peek, run_adv, k2]

/-! ### casts and `sizeof` with a type name -/

theorem er_primary {c : Ctx} {t : Tok} {Y : List Tok} (h : isTypeSpec c.tds t = true) : P .primary (st c (t :: Y)) (.err (st c (t :: Y))) := by
  refine P.intro0 (fun r => ?_)
  simp only [body, pPrimary, run_bind, run_peek, bind_ok, run_getTds]
  unfold isTypeSpec at h
  split at h <;> simp_all [run_fail]

theorem type_not_op {tds : List Id} {t : Tok} (h : isTypeSpec tds t = true) : preOp t = none ∧ unOp t = none ∧ t ≠ .kw .ksizeof ∧ t ≠ .punct .lparen := by
  unfold isTypeSpec at h
  split at h <;> simp_all [preOp, unOp]

/-- no expression starts with a type specifier -/
theorem er_unary {c : Ctx} {t : Tok} {Y : List Tok} (h : isTypeSpec c.tds t = true) : P .unary (st c (t :: Y)) (.err (st c (t :: Y))) := by
  have h1 : P .postfixE (st c (t :: Y)) (.err (st c (t :: Y))) :=
    P.intro1 (er_primary (Y := Y) h) (fun r k => by simp [body, run_bind, k, bind_err])
  obtain ⟨k1, k2, k3, -⟩ := type_not_op h
  exact P.intro1 h1 (fun r k => by simp [body, pUnary, run_bind, run_peek, bind_ok, k1, k2, k3, k])

theorem er_bin {c : Ctx} {t : Tok} {Y : List Tok} (h : isTypeSpec c.tds t = true) (n : Nat) :
    P (.bin (9 - n)) (st c (t :: Y)) (.err (st c (t :: Y))) := by
  induction n with
  | zero =>
    have h1 : P .cast (st c (t :: Y)) (.err (st c (t :: Y))) := by
      refine P.intro1 (P.intro1 (er_unary (Y := Y) h) (nt := .castLoop []) (res := .err (st c (t :: Y))) (s := st c (t :: Y)) (fun r k => ?_)) (fun r k => ?_)
      · simp [body, pCastLoop, pCastLoop.rest, run_bind, run_getToks, run_peek, bind_ok, (type_not_op h).2.2.2, k, bind_err]
      · simp [body, k]
    exact P.intro1 h1 (fun r k => by simp [body, pBin, pBin.next, run_bind, k, bind_err])
  | succ n ih =>
    by_cases hn : n < 9
    · have e : 9 - n = 9 - (n + 1) + 1 := by omega
      rw [e] at ih
      have hm : 9 - (n + 1) < 9 := by omega
      generalize 9 - (n + 1) = m at ih hm
      exact P.intro1 ih (fun r k => by simp [body, pBin, pBin.next, run_bind, k, bind_err, hm])
    · have e : 9 - n = 9 - (n + 1) := by omega
      rw [e] at ih
      exact ih

theorem er_assign {c : Ctx} {t : Tok} {Y : List Tok} (h : isTypeSpec c.tds t = true) : P .assign (st c (t :: Y)) (.err (st c (t :: Y))) := by
  have h0 : P .cond (st c (t :: Y)) (.err (st c (t :: Y))) :=
    P.intro1 (er_bin (Y := Y) h 9) (fun r k => by
      simp only [Nat.sub_self] at k
      simp [body, pCond, run_bind, k, bind_err])
  have h1 : P (.assignLoop []) (st c (t :: Y)) (.err (st c (t :: Y))) :=
    P.intro2 (er_unary (Y := Y) h) h0 (fun r k1 k2 => by
      simp [body, pAssignLoop, pAssignLoop.rest, run_bind, run_getToks, bind_ok, run_try, k1, tr_err, run_setToks, k2, bind_err])
  exact P.intro1 h1 (fun r k => by simp [body, k])

/-- `( type` is not a unary expression -/
theorem er_unary_paren {c : Ctx} {t : Tok} {Y : List Tok} (h : isTypeSpec c.tds t = true) :
    P .unary (st c (.punct .lparen :: t :: Y)) (.err (st c (t :: Y))) := by
  have h1 : P .primary (st c (.punct .lparen :: t :: Y)) (.err (st c (t :: Y))) :=
    P.intro1 (er_assign (Y := Y) h) (fun r k => by simp [body, pPrimary, run_bind, run_peek, bind_ok, run_getTds, run_adv, k, bind_err])
  have h2 : P .postfixE (st c (.punct .lparen :: t :: Y)) (.err (st c (t :: Y))) :=
    P.intro1 h1 (fun r k => by simp [body, run_bind, k, bind_err])
  exact P.intro1 h2 (fun r k => by simp [body, pUnary, preOp, unOp, run_bind, run_peek, bind_ok, k])

/-- tokens that are a type name when a closing parenthesis follows -/
def GT (tds : List Id) (X : List Tok) (a : Ast) : Prop :=
  (∃ t tl, X = t :: tl ∧ isTypeSpec tds t = true) ∧
  ∀ c Y, c.tds = tds → Ok .typeName c (X ++ .punct .rparen :: Y) a (.punct .rparen :: Y)

theorem g_sizeofT (h : GT tds X a) : G tds 13 (.kw .ksizeof :: .punct .lparen :: (X ++ [.punct .rparen])) (.node .sizeof [a]) := by
  refine G.of13 ⟨_, _, rfl, by simp [exprHead], by omega, by simp⟩ (fun c t Y hc ht => ?_)
  have k1 := h.2 c (t :: Y) hc
  obtain ⟨⟨u, tl, rfl, hu⟩, -⟩ := h
  have k2 := er_unary_paren (c := c) (t := u) (Y := tl ++ .punct .rparen :: t :: Y) (hc ▸ hu)
  simp only [List.cons_append] at k1 k2
  refine P.intro2 k1 k2 (fun r k1 k2 => ?_)
  simp [body, pUnary, pSizeof, preOp, unOp, run_bind, run_peek, bind_ok, run_getToks, run_try, tr_err, run_setToks, run_consume, k1, k2, run_pure]

theorem g_cast (h : GT tds X1 a1) (h2 : G tds q2 X2 a2) (hq2 : 12 ≤ q2) :
    G tds 12 (.punct .lparen :: (X1 ++ .punct .rparen :: X2)) (.node .cast [a1, a2]) := by
  refine G.of12 ⟨_, _, rfl, rfl, by omega, by omega⟩ (fun c sk t Y hc ht => ?_) (fun c t Y hc ht ha => ?_)
  · have k1 := h.2 c (X2 ++ t :: Y) hc
    have k2 := h2.cast hq2 c (a1 :: sk) t Y hc ht
    refine P.intro2 k1 k2 (fun r k1 k2 => ?_)
    simp only [foldC, List.foldl_cons] at k2
    simp [body, pCastLoop, run_bind, run_getToks, run_peek, bind_ok, run_adv, run_try, k1, tr_ok, run_consume, k2]
  · obtain ⟨⟨u, tl, rfl, hu⟩, -⟩ := h
    refine .inl ⟨u :: (tl ++ .punct .rparen :: (X2 ++ t :: Y)), ?_⟩
    simpa using er_unary_paren (Y := tl ++ .punct .rparen :: (X2 ++ t :: Y)) (hc ▸ hu : isTypeSpec c.tds u = true)

end Parser
end Umlcc
