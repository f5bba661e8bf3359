import Verif.Lemma.ParserUnit
/-!
Counting the calls of parser functions (C16).
-/
namespace Umlcc
namespace Parser
open M

/-! ### counting does not change what is parsed -/

/-- the same state up to the counter -/
def SEq (s s' : PS) : Prop := s.toks = s'.toks ∧ s.tds = s'.tds ∧ s.flag = s'.flag

/-- the same outcome up to the counter -/
def REq : PR α → PR α → Prop
  | .ok a s, .ok b s' => a = b ∧ SEq s s'
  | .err s, .err s' => SEq s s'
  | .fatal, .fatal | .ub, .ub | .hang, .hang => True
  | _, _ => False

def Sim (x y : M α) : Prop := ∀ s s', SEq s s' → REq (x s) (y s')

theorem Sim.bind {x y : M α} {f g : α → M β} (h : Sim x y) (k : ∀ a, Sim (f a) (g a)) : Sim (x >>= f) (y >>= g) := by
  intro s s' hs
  simp only [run_bind]
  have h1 := h s s' hs
  cases hx : x s <;> cases hy : y s' <;> simp only [hx, hy, REq] at h1 <;> simp only [PR.bind, REq]
  · obtain ⟨rfl, h2⟩ := h1
    exact k _ _ _ h2
  · exact h1
theorem Sim.try_ {x y : M α} (h : Sim x y) : Sim (M.try_ x) (M.try_ y) := by
  intro s s' hs
  simp only [run_try]
  have h1 := h s s' hs
  cases hx : x s <;> cases hy : y s' <;> simp only [hx, hy, REq] at h1 <;> simp only [PR.tr, REq]
  · exact ⟨by rw [h1.1], h1.2⟩
  · exact ⟨trivial, h1⟩
theorem Sim.ite {p : Prop} [Decidable p] {x y x' y' : M α} (h : Sim x y) (h' : Sim x' y') : Sim (if p then x else x') (if p then y else y') := by
  split
  · exact h
  · exact h'
theorem Sim.pure (a : α) : Sim (pure a) (pure a) := fun _ _ hs => ⟨rfl, hs⟩
theorem Sim.fail : Sim (fail : M α) fail := fun _ _ hs => hs
theorem Sim.fatal : Sim (fatal : M α) fatal := fun _ _ _ => trivial
theorem Sim.getToks : Sim getToks getToks := fun _ _ hs => ⟨hs.1, hs⟩
theorem Sim.setToks (t) : Sim (setToks t) (setToks t) := fun _ _ hs => ⟨rfl, rfl, hs.2⟩
theorem Sim.getFlag : Sim getFlag getFlag := fun _ _ hs => ⟨hs.2.2, hs⟩
theorem Sim.setFlag (t) : Sim (setFlag t) (setFlag t) := fun _ _ hs => ⟨rfl, hs.1, hs.2.1, rfl⟩
theorem Sim.getTds : Sim getTds getTds := fun _ _ hs => ⟨hs.2.1, hs⟩
theorem Sim.setTds (t) : Sim (setTds t) (setTds t) := fun _ _ hs => ⟨rfl, hs.1, rfl, hs.2.2⟩
theorem Sim.adv : Sim adv adv := fun _ _ hs => ⟨rfl, by simp [hs.1], hs.2⟩
theorem Sim.peek : Sim peek peek := by
  intro s s' hs
  simp only [M.peek, ← hs.1]
  cases s.toks
  · trivial
  · exact ⟨rfl, hs⟩
theorem Sim.orFail (o : Option α) : Sim (orFail o) (orFail o) := by
  cases o
  · exact Sim.fail
  · exact Sim.pure _
theorem Sim.lift (o : Out α) : Sim (M.lift o) (M.lift o) := by
  cases o
  · exact Sim.pure _
  · exact Sim.fail
  · exact Sim.fatal
  · exact fun _ _ _ => trivial
  · exact fun _ _ _ => trivial
theorem Sim.consume (t : Tok) : Sim (consume t) (consume t) := Sim.bind Sim.peek (fun _ => Sim.ite Sim.adv Sim.fail)
theorem Sim.itemMayDecl : Sim itemMayDecl itemMayDecl := Sim.bind Sim.peek (fun _ => Sim.bind Sim.getTds (fun _ => Sim.pure _))

macro "simstep" h:ident : tactic =>
  `(tactic| first
    | (with_reducible (refine Sim.bind ?_ (fun _ => ?_)))
    | (with_reducible exact $h _)
    | (with_reducible exact Sim.pure _)
    | (with_reducible exact Sim.fail)
    | (with_reducible exact Sim.fatal)
    | (with_reducible exact Sim.getToks)
    | (with_reducible exact Sim.setToks _)
    | (with_reducible exact Sim.getFlag)
    | (with_reducible exact Sim.setFlag _)
    | (with_reducible exact Sim.getTds)
    | (with_reducible exact Sim.setTds _)
    | (with_reducible exact Sim.adv)
    | (with_reducible exact Sim.peek)
    | (with_reducible exact Sim.orFail _)
    | (with_reducible exact Sim.lift _)
    | (with_reducible exact Sim.consume _)
    | (with_reducible exact Sim.itemMayDecl)
    | (with_reducible (refine Sim.try_ ?_))
    | (with_reducible (refine Sim.ite ?_ ?_))
    | (split <;> skip))

theorem body_sim {r r' : NT → M Ast} (h : ∀ nt, Sim (r nt) (r' nt)) (nt : NT) : Sim (body r nt) (body r' nt) := by
  cases nt <;> simp only [body, pAssignLoop, pAssignLoop.rest, pCond, pBin, pBin.next, pBinLoop, pCastLoop, pCastLoop.rest, pUnary, pSizeof, pPostfixLoop, pMember,
    pArgs, pArgsLoop, pPrimary, pDecl, pTypeName, pDeclSpecs, pSpecQuals, pTypeSpec, pStructSpec, pStructDecls, pStructDecl, pTag,
    pStructDeclors, pEnumSpec, pEnumors, pEnumor, pInitDeclors, pInitDeclor, pDeclor, pDirect, pDirectLoop, pParams, pParamDecl,
    pInit, pInitList, pStmt, pParen, pFor, pItems, pCompound, pExprStmt, pUnit, mayFuncDef, pFuncDef]
  all_goals repeat' simstep h

/-- `count` is `parse` with a counter -/
theorem count_sim (f : Nat) (nt : NT) : Sim (count f nt) (parse f nt) := by
  induction f generalizing nt with
  | zero => intro s s' _; exact trivial
  | succ f ih =>
    intro s s' hs
    exact body_sim ih nt _ _ hs

/-! ### nested parentheses -/

/-- for every large enough depth, `m` calls -/
def CO (c : Ctx) (nt : NT) (X : List Tok) (a : Ast) (Y : List Tok) (m : Nat) : Prop :=
  ∃ n, ∀ k f, n ≤ f → count f nt (st { c with steps := k } X) = .ok a (st { c with steps := k + m } Y)

theorem CO.intro0 {c nt X a Y m} (k : ∀ (r : NT → M Ast) k, body r nt (st { c with steps := k + 1 } X) = .ok a (st { c with steps := k + m } Y)) :
    CO c nt X a Y m :=
  ⟨1, fun q f hf => by obtain ⟨g, rfl⟩ : ∃ g, f = g + 1 := ⟨f - 1, by omega⟩; exact k (count g) q⟩

theorem CO.intro1 {c nt X a Y m nt1 X1 a1 Y1 m1} (h1 : CO c nt1 X1 a1 Y1 m1)
    (k : ∀ (r : NT → M Ast) k, (∀ k, r nt1 (st { c with steps := k } X1) = .ok a1 (st { c with steps := k + m1 } Y1)) →
      body r nt (st { c with steps := k + 1 } X) = .ok a (st { c with steps := k + m } Y)) : CO c nt X a Y m := by
  obtain ⟨n1, h1⟩ := h1
  refine ⟨n1 + 1, fun q f hf => ?_⟩
  obtain ⟨g, rfl⟩ : ∃ g, f = g + 1 := ⟨f - 1, by omega⟩
  exact k (count g) q (fun k => h1 k g (by omega))

theorem CO.intro2 {c nt X a Y m nt1 X1 a1 Y1 m1 nt2 X2 a2 Y2 m2} (h1 : CO c nt1 X1 a1 Y1 m1) (h2 : CO c nt2 X2 a2 Y2 m2)
    (k : ∀ (r : NT → M Ast) k, (∀ k, r nt1 (st { c with steps := k } X1) = .ok a1 (st { c with steps := k + m1 } Y1)) →
      (∀ k, r nt2 (st { c with steps := k } X2) = .ok a2 (st { c with steps := k + m2 } Y2)) →
      body r nt (st { c with steps := k + 1 } X) = .ok a (st { c with steps := k + m } Y)) : CO c nt X a Y m := by
  obtain ⟨n1, h1⟩ := h1
  obtain ⟨n2, h2⟩ := h2
  refine ⟨n1 + n2 + 1, fun q f hf => ?_⟩
  obtain ⟨g, rfl⟩ : ∃ g, f = g + 1 := ⟨f - 1, by omega⟩
  exact k (count g) q (fun k => h1 k g (by omega)) (fun k => h2 k g (by omega))

theorem ok_steps {c : Ctx} {a : Ast} {Y : List Tok} {m n : Nat} (h : m = n) :
    PR.ok a (st { c with steps := m } Y) = .ok a (st { c with steps := n } Y) := by rw [h]

theorem st_steps {c : Ctx} {Y : List Tok} {m n : Nat} (h : m = n) : st { c with steps := m } Y = st { c with steps := n } Y := by rw [h]
theorem count_succ (g : Nat) (nt : NT) (c : Ctx) (k : Nat) (X : List Tok) :
    count (g + 1) nt (st { c with steps := k } X) = body (count g) nt (st { c with steps := k + 1 } X) := rfl

/-- `(`, as often as said, `x`, and as many `)` -/
def nest : Nat → List Tok
  | 0 => [.ident [120]]
  | d + 1 => .punct .lparen :: (nest d ++ [.punct .rparen])

/-- the calls for it -/
def nestCost : Nat → Nat
  | 0 => 33
  | d + 1 => 2 * nestCost d + 35

section
variable {c : Ctx} {Y : List Tok} {a : Ast}

abbrev theX : Ast := .name .identExpr [120]

/-- tokens after `x` or `)` in these texts: the closing parenthesis or the end -/
def Closes (t : Tok) : Prop := t = .punct .rparen ∨ t = .punct .semicolon

theorem co_postfixLoop {t : Tok} (ht : Closes t) : CO c (.postfixLoop a) (t :: Y) a (t :: Y) 1 := by
  refine CO.intro0 (fun r k => ?_)
  rcases ht with rfl | rfl <;> simp only [body, pPostfixLoop, run_bind, run_peek, bind_ok, run_pure]

theorem co_postfix {X : List Tok} {t : Tok} {m : Nat} (ht : Closes t) (h : CO c .primary X a (t :: Y) m) : CO c .postfixE X a (t :: Y) (m + 2) := by
  refine CO.intro2 h (co_postfixLoop (Y := Y) (a := a) ht) (fun r k h1 h2 => ?_)
  simp only [body, run_bind, h1, bind_ok, h2]
  exact ok_steps (by omega)

/-- how these texts begin -/
def Begins (t : Tok) : Prop := t = .punct .lparen ∨ t = .ident [120]

theorem co_unary {b : Tok} {X : List Tok} {t : Tok} {m : Nat} (hb : Begins b) (ht : Closes t) (h : CO c .primary (b :: X) a (t :: Y) m) :
    CO c .unary (b :: X) a (t :: Y) (m + 3) := by
  refine CO.intro1 (co_postfix ht h) (fun r k h1 => ?_)
  rcases hb with rfl | rfl <;> simp only [body, pUnary, preOp, unOp, run_bind, run_peek, bind_ok, h1, run_ite] <;> simp <;> exact st_steps (by omega)

theorem co_castLoop_x {t : Tok} {X : List Tok} {m : Nat} (ht : Closes t) (h : CO c .primary (.ident [120] :: X) a (t :: Y) m) :
    CO c (.castLoop []) (.ident [120] :: X) a (t :: Y) (m + 4) := by
  refine CO.intro1 (co_unary (.inr rfl) ht h) (fun r k h1 => ?_)
  simp only [body, pCastLoop, pCastLoop.rest, run_bind, run_getToks, run_peek, bind_ok, h1, run_ite]
  simp [run_pure]; exact st_steps (by omega)

/-- a type name does not start like that -/
theorem count_typeName {b : Tok} {X : List Tok} (hb : Begins b) (hx : [120] ∉ c.tds) (k f : Nat) (hf : 2 ≤ f) :
    count f .typeName (st { c with steps := k } (b :: X)) = .err (st { c with steps := k + 2 } (b :: X)) := by
  obtain ⟨g, rfl⟩ : ∃ g, f = g + 2 := ⟨f - 2, by omega⟩
  have h1 : ∀ k, count (g + 1) (.specQuals []) (st { c with steps := k } (b :: X)) = .err (st { c with steps := k + 1 } (b :: X)) := by
    intro k
    rw [count_succ]
    rcases hb with rfl | rfl <;> simp [body, pSpecQuals, run_bind, run_peek, bind_ok, run_getTds, isTypeSpec, run_fail, run_ite, hx]
  rw [count_succ]
  simp [body, pTypeName, run_bind, run_getFlag, bind_ok, run_try, h1, tr_err, run_setFlag, run_fail]

theorem co_castLoop_paren {b : Tok} {t : Tok} {X : List Tok} {m : Nat} (hb : Begins b) (hx : [120] ∉ c.tds) (ht : Closes t)
    (h : CO c .primary (.punct .lparen :: b :: X) a (t :: Y) m) :
    CO c (.castLoop []) (.punct .lparen :: b :: X) a (t :: Y) (m + 6) := by
  obtain ⟨n, h⟩ := co_unary (.inl rfl) ht h
  refine ⟨n + 3, fun k f hf => ?_⟩
  obtain ⟨g, rfl⟩ : ∃ g, f = g + 1 := ⟨f - 1, by omega⟩
  rw [count_succ]
  have h1 := fun k => count_typeName (X := X) hb hx k g (by omega)
  have h2 := fun k => h k g (by omega)
  simp only [body, pCastLoop, pCastLoop.rest, run_bind, run_getToks, run_peek, bind_ok, h1, run_ite, run_adv, run_try, tr_err, run_setToks, h2]
  simp [run_pure]; exact st_steps (by omega)

theorem binOp_closes {t : Tok} (ht : Closes t) (l : Nat) : binOp l t = none := by
  rcases ht with rfl | rfl <;> (unfold binOp; split <;> simp_all)

theorem co_binLoop {t : Tok} (ht : Closes t) (l : Nat) : CO c (.binLoop l a) (t :: Y) a (t :: Y) 1 := by
  refine CO.intro0 (fun r k => ?_)
  simp only [body, pBinLoop, run_bind, run_peek, bind_ok, binOp_closes ht, run_pure]

theorem co_bin {t : Tok} {X : List Tok} {m : Nat} (ht : Closes t) (h : CO c .cast X a (t :: Y) m) (n : Nat) (hn : n ≤ 9) :
    CO c (.bin (9 - n)) X a (t :: Y) (m + 2 * n + 2) := by
  induction n with
  | zero =>
    refine CO.intro2 h (co_binLoop (Y := Y) (a := a) ht 9) (fun r k h1 h2 => ?_)
    simp only [body, pBin, pBin.next, run_bind, Nat.sub_zero, Nat.lt_irrefl, if_false, h1, bind_ok, h2]
    exact ok_steps (by omega)
  | succ n ih =>
    have h3 := ih (by omega)
    obtain ⟨l, hl⟩ : ∃ l, 9 - (n + 1) = l := ⟨_, rfl⟩
    have hl' : 9 - n = l + 1 := by omega
    rw [hl'] at h3
    rw [hl]
    refine CO.intro2 h3 (co_binLoop (Y := Y) (a := a) ht l) (fun r k h1 h2 => ?_)
    simp only [body, pBin, pBin.next, run_bind, show l < 9 by omega, if_true, h1, bind_ok, h2]
    exact ok_steps (by omega)

theorem co_assign {b : Tok} {t : Tok} {X : List Tok} {m e : Nat} (hb : Begins b) (ht : Closes t) (h : CO c .primary (b :: X) a (t :: Y) m)
    (hc : CO c (.castLoop []) (b :: X) a (t :: Y) (m + 4 + e)) : CO c .assign (b :: X) a (t :: Y) (2 * m + 31 + e) := by
  have h1 : CO c .cast (b :: X) a (t :: Y) (m + 5 + e) := CO.intro1 hc (fun r k h1 => by
    simp only [body, h1]; exact ok_steps (by omega))
  have h2 := co_bin ht h1 9 (by omega)
  have h3 : CO c .cond (b :: X) a (t :: Y) (m + 26 + e) := CO.intro1 h2 (fun r k h1 => by
    simp only [body, pCond, run_bind, Nat.sub_self] at h1 ⊢
    rcases ht with rfl | rfl <;> simp only [run_bind, h1, bind_ok, run_peek, run_pure, run_ite] <;> rw [if_neg (by decide)] <;> exact ok_steps (by omega))
  have h4 : CO c (.assignLoop []) (b :: X) a (t :: Y) (2 * m + 30 + e) := CO.intro2 (co_unary hb ht h) h3 (fun r k h1 h2 => by
    simp only [body, pAssignLoop, pAssignLoop.rest, run_bind, run_getToks, bind_ok, run_try, h1, tr_ok]
    rcases ht with rfl | rfl <;> simp only [run_peek, bind_ok, assignOp, run_setToks, run_bind, h2, run_pure, List.foldl] <;> exact ok_steps (by omega))
  exact CO.intro1 h4 (fun r k h1 => by simp only [body, h1]; exact ok_steps (by omega))

theorem nest_begins (d : Nat) : ∃ b X, nest d = b :: X ∧ Begins b := by
  cases d with
  | zero => exact ⟨_, _, rfl, .inr rfl⟩
  | succ d => exact ⟨_, _, rfl, .inl rfl⟩

theorem co_nest (hx : [120] ∉ c.tds) (d : Nat) (t : Tok) (ht : Closes t) (Y : List Tok) : CO c .assign (nest d ++ t :: Y) theX (t :: Y) (nestCost d) := by
  induction d generalizing t Y with
  | zero =>
    have hp : CO c .primary (.ident [120] :: t :: Y) theX (t :: Y) 1 := CO.intro0 (fun r k => by
      simp [body, pPrimary, run_bind, run_peek, bind_ok, run_getTds, hx, run_adv, run_pure])
    exact co_assign (e := 0) (.inr rfl) ht hp (co_castLoop_x ht hp)
  | succ d ih =>
    have hi := ih (.punct .rparen) (.inl rfl) (t :: Y)
    obtain ⟨b, X, hbX, hb⟩ := nest_begins d
    have e : nest (d + 1) ++ t :: Y = .punct .lparen :: (nest d ++ .punct .rparen :: t :: Y) := by simp [nest]
    rw [e]
    have hp : CO c .primary (.punct .lparen :: (nest d ++ .punct .rparen :: t :: Y)) theX (t :: Y) (nestCost d + 1) := CO.intro1 hi (fun r k h1 => by
      simp only [body, pPrimary, run_bind, run_peek, bind_ok, run_getTds, run_adv, h1, run_consume, run_pure]
      exact ok_steps (by omega))
    have hc : CO c (.castLoop []) (.punct .lparen :: (nest d ++ .punct .rparen :: t :: Y)) theX (t :: Y) (nestCost d + 1 + 4 + 2) := by
      rw [hbX] at hp ⊢
      exact co_castLoop_paren hb hx ht hp
    have := co_assign (e := 2) (.inl rfl) ht hp hc
    have e2 : 2 * (nestCost d + 1) + 31 + 2 = nestCost (d + 1) := by simp only [nestCost]; omega
    rw [e2] at this
    exact this

theorem nestCost_eq (d : Nat) : nestCost d + 35 = 68 * 2 ^ d := by
  induction d with
  | zero => rfl
  | succ d ih => simp only [nestCost, Nat.pow_succ]; omega

theorem nest_length (d : Nat) : (nest d).length = 2 * d + 1 := by
  induction d with
  | zero => rfl
  | succ d ih => simp [nest, ih]; omega
end

/-- no power of the length bounds an exponential -/
theorem exp_beats (c k : Nat) : ∃ d, c * (2 * d + 3) ^ k < 2 ^ d := by
  have sq : ∀ j, (j + 5) * (j + 5) < 2 ^ (j + 5) := by
    intro j
    induction j with
    | zero => decide
    | succ j ih => rw [show j + 1 + 5 = (j + 5) + 1 by omega, Nat.pow_succ]; simp only [Nat.add_mul, Nat.mul_add] at *; omega
  let j := c + 4 * k
  refine ⟨2 ^ (j + 5), ?_⟩
  have hb : 2 * 2 ^ (j + 5) + 3 ≤ 2 ^ (j + 5 + 2) := by
    have : 1 ≤ 2 ^ j := Nat.one_le_two_pow
    simp only [Nat.pow_add] at *; omega
  have h1 : (2 * 2 ^ (j + 5) + 3) ^ k ≤ 2 ^ ((j + 5 + 2) * k) := by
    rw [Nat.pow_mul]; exact Nat.pow_le_pow_left hb k
  have h2 : c < 2 ^ c := Nat.lt_two_pow_self
  have h3 : c * (2 * 2 ^ (j + 5) + 3) ^ k < 2 ^ (c + (j + 5 + 2) * k) := by
    rw [Nat.pow_add 2 c]
    calc c * (2 * 2 ^ (j + 5) + 3) ^ k ≤ c * 2 ^ ((j + 5 + 2) * k) := Nat.mul_le_mul_left _ h1
      _ < 2 ^ c * 2 ^ ((j + 5 + 2) * k) := Nat.mul_lt_mul_of_pos_right h2 (Nat.two_pow_pos _)
  refine Nat.lt_of_lt_of_le h3 (Nat.pow_le_pow_right (by omega) (Nat.le_of_lt ?_))
  refine Nat.lt_of_le_of_lt ?_ (sq j)
  show c + (c + 4 * k + 5 + 2) * k ≤ (c + 4 * k + 5) * (c + 4 * k + 5)
  generalize hj : c + 4 * k + 5 = x
  have e1 : x * x = x * c + x * (3 * k) + x * k + x * 5 := by rw [← Nat.mul_add, ← Nat.mul_add, ← Nat.mul_add]; congr 1; omega
  have e2 : (x + 2) * k = x * k + 2 * k := by rw [Nat.add_mul]
  omega

end Parser
end Umlcc
