import Verif.Lemma.ParserSound
/-!
Running parser functions on explicit token lists: equations for the primitives, "for every large enough depth" (`P`, `Ok`, `Er`), and that a
larger depth does not change a result.
-/
namespace Umlcc
namespace Parser
open M

/-- the parser's state apart from the tokens -/
structure Ctx where
  tds : List (List UInt8)
  flag : Bool
  steps : Nat

def st (c : Ctx) (X : List Tok) : PS := ⟨X, c.tds, c.flag, c.steps⟩

def PR.bind (x : PR α) (f : α → M β) : PR β :=
  match x with
  | .ok a s' => f a s'
  | .err s' => .err s'
  | .fatal => .fatal
  | .ub => .ub
  | .hang => .hang

def PR.tr (x : PR α) : PR (Option α) :=
  match x with
  | .ok a s' => .ok (some a) s'
  | .err s' => .ok none s'
  | .fatal => .fatal
  | .ub => .ub
  | .hang => .hang

theorem run_bind (x : M α) (f : α → M β) (s : PS) : (x >>= f) s = PR.bind (x s) f := rfl
theorem run_pure (a : α) (s : PS) : (pure a : M α) s = .ok a s := rfl
theorem run_fail (s : PS) : (fail : M α) s = .err s := rfl
theorem run_try (x : M α) (s : PS) : try_ x s = PR.tr (x s) := rfl
theorem bind_ok (a : α) (s : PS) (f : α → M β) : PR.bind (.ok a s) f = f a s := rfl
theorem bind_err (s : PS) (f : α → M β) : PR.bind (.err s : PR α) f = .err s := rfl
theorem tr_ok (a : α) (s : PS) : PR.tr (.ok a s) = .ok (some a) s := rfl
theorem tr_err (s : PS) : PR.tr (.err s : PR α) = .ok none s := rfl
theorem run_getToks (c : Ctx) (X : List Tok) : getToks (st c X) = .ok X (st c X) := rfl
theorem run_setToks (c : Ctx) (X Y : List Tok) : setToks Y (st c X) = .ok () (st c Y) := rfl
theorem run_getFlag (c : Ctx) (X : List Tok) : getFlag (st c X) = .ok c.flag (st c X) := rfl
theorem run_setFlag (c : Ctx) (X : List Tok) (b : Bool) : setFlag b (st c X) = .ok () (st { c with flag := b } X) := rfl
theorem run_getTds (c : Ctx) (X : List Tok) : getTds (st c X) = .ok c.tds (st c X) := rfl
theorem run_setTds (c : Ctx) (X : List Tok) (t : List (List UInt8)) : setTds t (st c X) = .ok () (st { c with tds := t } X) := rfl
theorem run_peek (c : Ctx) (t : Tok) (X : List Tok) : peek (st c (t :: X)) = .ok t (st c (t :: X)) := rfl
theorem run_adv (c : Ctx) (t : Tok) (X : List Tok) : adv (st c (t :: X)) = .ok () (st c X) := rfl
theorem run_orFail_some (a : α) (s : PS) : orFail (some a) s = .ok a s := rfl
theorem run_orFail_none (s : PS) : (orFail none : M α) s = .err s := rfl
theorem run_lift (a : α) (s : PS) : M.lift (.ok a) s = .ok a s := rfl
theorem run_ite {p : Prop} [Decidable p] (x y : M α) (s : PS) : (if p then x else y) s = if p then x s else y s := by split <;> rfl
theorem run_consume (c : Ctx) (t : Tok) (X : List Tok) : consume t (st c (t :: X)) = .ok () (st c X) := by
  simp [consume, run_bind, run_peek, bind_ok, run_adv]
theorem run_itemMayDecl (c : Ctx) (t : Tok) (X : List Tok) :
    itemMayDecl (st c (t :: X)) = .ok (isStorage t || isTypeSpec c.tds t) (st c (t :: X)) := rfl

/-! ### enough depth -/

/-- the outcome with every large enough recursion depth -/
def P (nt : NT) (s : PS) (res : PR Ast) : Prop := ∃ n, ∀ f, n ≤ f → parse f nt s = res

/-- a tree and the remaining tokens, nothing else changes -/
def Ok (nt : NT) (c : Ctx) (X : List Tok) (a : Ast) (Y : List Tok) : Prop := P nt (st c X) (.ok a (st c Y))

/-- an error that leaves names and flag alone -/
def Er (nt : NT) (c : Ctx) (X : List Tok) : Prop := ∃ Y, P nt (st c X) (.err (st c Y))

theorem P.intro0 {nt : NT} {s : PS} {res : PR Ast} (k : ∀ r : NT → M Ast, body r nt s = res) : P nt s res :=
  ⟨1, fun f hf => by obtain ⟨g, rfl⟩ : ∃ g, f = g + 1 := ⟨f - 1, by omega⟩; exact k (parse g)⟩

theorem P.intro1 {nt : NT} {s : PS} {res : PR Ast} {n1 : NT} {s1 : PS} {r1 : PR Ast} (h1 : P n1 s1 r1)
    (k : ∀ r : NT → M Ast, r n1 s1 = r1 → body r nt s = res) : P nt s res := by
  obtain ⟨m1, h1⟩ := h1
  refine ⟨m1 + 1, fun f hf => ?_⟩
  obtain ⟨g, rfl⟩ : ∃ g, f = g + 1 := ⟨f - 1, by omega⟩
  exact k (parse g) (h1 g (by omega))

theorem P.intro2 {nt : NT} {s : PS} {res : PR Ast} {n1 n2 : NT} {s1 s2 : PS} {r1 r2 : PR Ast} (h1 : P n1 s1 r1) (h2 : P n2 s2 r2)
    (k : ∀ r : NT → M Ast, r n1 s1 = r1 → r n2 s2 = r2 → body r nt s = res) : P nt s res := by
  obtain ⟨m1, h1⟩ := h1
  obtain ⟨m2, h2⟩ := h2
  refine ⟨m1 + m2 + 1, fun f hf => ?_⟩
  obtain ⟨g, rfl⟩ : ∃ g, f = g + 1 := ⟨f - 1, by omega⟩
  exact k (parse g) (h1 g (by omega)) (h2 g (by omega))

theorem P.intro3 {nt : NT} {s : PS} {res : PR Ast} {n1 n2 n3 : NT} {s1 s2 s3 : PS} {r1 r2 r3 : PR Ast} (h1 : P n1 s1 r1)
    (h2 : P n2 s2 r2) (h3 : P n3 s3 r3)
    (k : ∀ r : NT → M Ast, r n1 s1 = r1 → r n2 s2 = r2 → r n3 s3 = r3 → body r nt s = res) : P nt s res := by
  obtain ⟨m1, h1⟩ := h1
  obtain ⟨m2, h2⟩ := h2
  obtain ⟨m3, h3⟩ := h3
  refine ⟨m1 + m2 + m3 + 1, fun f hf => ?_⟩
  obtain ⟨g, rfl⟩ : ∃ g, f = g + 1 := ⟨f - 1, by omega⟩
  exact k (parse g) (h1 g (by omega)) (h2 g (by omega)) (h3 g (by omega))

theorem P.intro4 {nt : NT} {s : PS} {res : PR Ast} {n1 n2 n3 n4 : NT} {s1 s2 s3 s4 : PS} {r1 r2 r3 r4 : PR Ast} (h1 : P n1 s1 r1)
    (h2 : P n2 s2 r2) (h3 : P n3 s3 r3) (h4 : P n4 s4 r4)
    (k : ∀ r : NT → M Ast, r n1 s1 = r1 → r n2 s2 = r2 → r n3 s3 = r3 → r n4 s4 = r4 → body r nt s = res) : P nt s res := by
  obtain ⟨m1, h1⟩ := h1
  obtain ⟨m2, h2⟩ := h2
  obtain ⟨m3, h3⟩ := h3
  obtain ⟨m4, h4⟩ := h4
  refine ⟨m1 + m2 + m3 + m4 + 1, fun f hf => ?_⟩
  obtain ⟨g, rfl⟩ : ∃ g, f = g + 1 := ⟨f - 1, by omega⟩
  exact k (parse g) (h1 g (by omega)) (h2 g (by omega)) (h3 g (by omega)) (h4 g (by omega))

/-! ### a larger depth does not change a result -/

/-- `x` has the outcome of `y` unless it ran out of depth -/
def Le (x y : M α) : Prop := ∀ s, x s = .hang ∨ x s = y s

theorem Le.refl (x : M α) : Le x x := fun _ => .inr rfl
theorem Le.bind {x y : M α} {f g : α → M β} (h : Le x y) (k : ∀ a, Le (f a) (g a)) : Le (x >>= f) (y >>= g) := by
  intro s
  simp only [run_bind]
  rcases h s with h | h
  · left; rw [h]; rfl
  · rw [h]
    cases y s with
    | ok a s' => exact k a s'
    | _ => right; rfl
theorem Le.try_ {x y : M α} (h : Le x y) : Le (M.try_ x) (M.try_ y) := by
  intro s
  simp only [run_try]
  rcases h s with h | h
  · left; rw [h]; rfl
  · right; rw [h]
theorem Le.ite {p : Prop} [Decidable p] {x y x' y' : M α} (h : Le x y) (h' : Le x' y') : Le (if p then x else x') (if p then y else y') := by
  split
  · exact h
  · exact h'

/-- closes goals `Le (f r ..) (f r' ..)` -/
macro "lestep" h:ident : tactic =>
  `(tactic| first
    | exact Le.refl _
    | exact $h _
    | (refine Le.bind ?_ (fun _ => ?_))
    | (refine Le.try_ ?_)
    | (refine Le.ite ?_ ?_)
    | (split <;> skip))

theorem body_le {r r' : NT → M Ast} (h : ∀ nt, Le (r nt) (r' nt)) (nt : NT) : Le (body r nt) (body r' nt) := by
  cases nt <;> simp only [body, pAssignLoop, pAssignLoop.rest, pCond, pBin, pBin.next, pBinLoop, pCastLoop, pCastLoop.rest, pUnary, pSizeof, pPostfixLoop, pMember,
    pArgs, pArgsLoop, pPrimary, pDecl, pTypeName, pDeclSpecs, pSpecQuals, pTypeSpec, pStructSpec, pStructDecls, pStructDecl,
    pStructDeclors, pEnumSpec, pEnumors, pEnumor, pInitDeclors, pInitDeclor, pDeclor, pDirect, pDirectLoop, pParams, pParamDecl,
    pInit, pInitList, pStmt, pParen, pFor, pItems, pCompound, pExprStmt, pUnit, mayFuncDef, pFuncDef]
  all_goals repeat' lestep h

theorem parse_le_succ (f : Nat) (nt : NT) : Le (parse f nt) (parse (f + 1) nt) := by
  induction f generalizing nt with
  | zero => intro s; left; rfl
  | succ f ih => exact body_le ih nt

theorem parse_mono {f g : Nat} (h : f ≤ g) (nt : NT) (s : PS) (hh : parse f nt s ≠ .hang) : parse g nt s = parse f nt s := by
  induction h with
  | refl => rfl
  | @step g _ ih =>
    rcases parse_le_succ g nt s with h | h
    · exact absurd (ih ▸ h) hh
    · rw [← h, ih]

/-- with `sound_parse`: the depth needed is known -/
theorem P.at {nt : NT} {s : PS} {res : PR Ast} (h : P nt s res) {f : Nat} (hf : parse f nt s ≠ .hang) : parse f nt s = res := by
  obtain ⟨n, h⟩ := h
  have := h (max n f) (Nat.le_max_left _ _)
  rw [parse_mono (Nat.le_max_right _ _) nt s hf] at this
  exact this

end Parser
end Umlcc
