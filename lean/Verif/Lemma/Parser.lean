import Verif.Spec.Parser
/-!
Reasoning about parser functions: a weakest precondition calculus, and the proof that every parser function stays
within the tokens and returns.
-/
namespace Umlcc
namespace Parser
open M

/-- the function returns, and a result satisfies `Q`, an error `E` -/
def wp (x : M α) (Q : α → PS → Prop) (E : PS → Prop) (s : PS) : Prop :=
  match x s with
  | .ok a s' => Q a s'
  | .err s' => E s'
  | _ => False

variable {Q : α → PS → Prop} {E : PS → Prop} {s : PS}

theorem wp_pure {a : α} : wp (pure a : M α) Q E s ↔ Q a s := Iff.rfl
theorem wp_ret {a : α} : wp (M.ret a : M α) Q E s ↔ Q a s := Iff.rfl
theorem wp_bind {x : M β} {f : β → M α} : wp (x >>= f) Q E s ↔ wp x (fun a s' => wp (f a) Q E s') E s := by
  show wp (M.andThen x f) Q E s ↔ _
  unfold wp M.andThen
  cases x s <;> simp
theorem wp_fail : wp (fail : M α) Q E s ↔ E s := Iff.rfl
theorem wp_try {x : M β} {Q : Option β → PS → Prop} :
    wp (try_ x) Q E s ↔ wp x (fun a s' => Q (some a) s') (fun s' => Q none s') s := by
  unfold wp try_
  cases x s <;> simp
theorem wp_getToks {Q : List Tok → PS → Prop} : wp getToks Q E s ↔ Q s.toks s := Iff.rfl
theorem wp_setToks {Q : Unit → PS → Prop} {ts : List Tok} : wp (setToks ts) Q E s ↔ Q () { s with toks := ts } := Iff.rfl
theorem wp_getFlag {Q : Bool → PS → Prop} : wp getFlag Q E s ↔ Q s.flag s := Iff.rfl
theorem wp_setFlag {Q : Unit → PS → Prop} {b : Bool} : wp (setFlag b) Q E s ↔ Q () { s with flag := b } := Iff.rfl
theorem wp_getTds {Q : List (List UInt8) → PS → Prop} : wp getTds Q E s ↔ Q s.tds s := Iff.rfl
theorem wp_setTds {Q : Unit → PS → Prop} {t : List (List UInt8)} : wp (setTds t) Q E s ↔ Q () { s with tds := t } := Iff.rfl
theorem wp_adv {Q : Unit → PS → Prop} : wp adv Q E s ↔ Q () { s with toks := s.toks.tail } := Iff.rfl
theorem wp_peek {Q : Tok → PS → Prop} : wp peek Q E s ↔ ∃ t ts, s.toks = t :: ts ∧ Q t s := by
  unfold wp peek
  cases h : s.toks <;> simp
theorem wp_orFail {o : Option α} : wp (orFail o) Q E s ↔ (match o with | some a => Q a s | none => E s) := by
  cases o <;> rfl
theorem wp_mono {x : M α} {Q' : α → PS → Prop} {E' : PS → Prop} (h : wp x Q E s) (hq : ∀ a s', Q a s' → Q' a s')
    (he : ∀ s', E s' → E' s') : wp x Q' E' s := by
  unfold wp at *
  cases hx : x s <;> simp only [hx] at h ⊢
  · exact hq _ _ h
  · exact he _ h
theorem wp_ite {c : Prop} [Decidable c] {x y : M α} :
    wp (if c then x else y) Q E s ↔ if c then wp x Q E s else wp y Q E s := by split <;> rfl

/-! ### end of file -/

theorem eof_cons {t : Tok} {ts : List Tok} (h : Eof (t :: ts)) (ht : t ≠ .eof) : Eof ts := by
  obtain ⟨pre, h1, h2⟩ := h
  cases pre with
  | nil => simp at h1; exact absurd h1.1 ht
  | cons a pre =>
    simp only [List.cons_append, List.cons.injEq] at h1
    exact ⟨pre, h1.2, fun h => h2 (List.mem_cons_of_mem _ h)⟩

theorem eof_ne {ts : List Tok} (h : Eof ts) : ∃ t ts', ts = t :: ts' := by
  obtain ⟨pre, rfl, _⟩ := h
  cases pre <;> simp

/-- consuming a token other than the end of file -/
theorem wp_consume {Q : Unit → PS → Prop} {t : Tok} (ht : t ≠ .eof) (h : Eof s.toks)
    (hq : ∀ ts, s.toks = t :: ts → Eof ts → Q () { s with toks := ts }) (he : E s) : wp (consume t) Q E s := by
  obtain ⟨c, ts, hc⟩ := eof_ne h
  unfold consume
  simp only [wp_bind, wp_peek, wp_ite, wp_adv, wp_fail]
  refine ⟨c, ts, hc, ?_⟩
  split
  · next hct =>
    subst hct
    rw [hc]
    exact hq ts hc (by rw [hc] at h; exact eof_cons h ht)
  · exact he

theorem eof_stars {ts : List Tok} (h : Eof ts) : Eof (ts.drop (stars ts)) := by
  fun_induction stars ts with
  | case1 ts ih => exact ih (eof_cons h (by decide))
  | case2 => simpa using h

/-! ### declarators end in a name -/

/-- the walk down the first children meets a node of type `t` (possibly at the start) -/
def hasTerm (t : AstT) : Ast → Bool
  | .mk ty _ _ _ [] => decide (ty = t)
  | .mk ty _ _ _ (c :: _) => decide (ty = t) || hasTerm t c

theorem hasTerm_of_type {t : AstT} {a : Ast} (h : a.type = t) : hasTerm t a = true := by
  cases a with
  | mk ty i l s cs => cases cs <;> simp_all [hasTerm, Ast.type]

theorem mapTerm_ok (t : AstT) (f : Ast → Ast) (hf : ∀ x : Ast, x.type = t → hasTerm t (f x) = true) (a : Ast) (h : hasTerm t a = true)
    (hne : a.type ≠ t) : ∃ b, a.mapTerm t f = .ok b ∧ hasTerm t b = true ∧ b.type = a.type := by
  match a with
  | .mk ty i l s [] => simp [hasTerm, Ast.type] at h hne; exact absurd h hne
  | .mk ty i l s (c :: cs) =>
    have hc : hasTerm t c = true := by simp [hasTerm, Ast.type] at h hne; exact h.resolve_left hne
    by_cases hct : c.type = t
    · refine ⟨.mk ty i l s (f c :: cs), by simp [Ast.mapTerm, hct], ?_, rfl⟩
      simp [hasTerm, hf c hct]
    · obtain ⟨b, h1, h2, h3⟩ := mapTerm_ok t f hf c hc hct
      exact ⟨.mk ty i l s (b :: cs), by simp [Ast.mapTerm, hct, h1], by simp [hasTerm, h2], rfl⟩

theorem term_ok (t : AstT) (a : Ast) (h : hasTerm t a = true) (hne : a.type ≠ t) : ∃ b, a.term t = .ok b ∧ b.type = t := by
  match a with
  | .mk ty i l s [] => simp [hasTerm, Ast.type] at h hne; exact absurd h hne
  | .mk ty i l s (c :: cs) =>
    have hc : hasTerm t c = true := by simp [hasTerm, Ast.type] at h hne; exact h.resolve_left hne
    by_cases hct : c.type = t
    · exact ⟨c, by simp [Ast.term, hct], hct⟩
    · obtain ⟨b, h1, h2⟩ := term_ok t c hc hct
      exact ⟨b, by simp [Ast.term, hct, h1], h2⟩

theorem hasTerm_ptrs (t : AstT) (n : Nat) (a : Ast) (h : hasTerm t a = true) : hasTerm t (ptrs n a) = true := by
  induction n with
  | zero => exact h
  | succ n ih => simp [ptrs, Ast.node, hasTerm, ih]

theorem hasTerm_chain (t : AstT) (a : Ast) (h : hasTerm t a = true) (ps : List (AstT × Ast)) : hasTerm t (chain a ps) = true := by
  induction ps with
  | nil => exact h
  | cons p ps ih => simp [chain, Ast.node, hasTerm, ih]

/-! ### the parser returns and stays within the tokens -/

/-- tokens a successful call consumes at least -/
def need : NT → Nat
  | .binLoop _ _ | .postfixLoop _ | .args | .directLoop _ _ _ _ => 0
  | .declSpecs acc _ => if acc.isEmpty then 1 else 0
  | .specQuals acc => if acc.isEmpty then 1 else 0
  | .declor abs => if abs then 0 else 1
  | .direct abs => if abs then 0 else 1
  | _ => 1

/-- calls at the same token go to smaller ranks -/
def rank : NT → Nat
  | .directLoop _ _ _ _ | .postfixLoop _ | .binLoop _ _ | .enumor | .compound => 1
  | .direct _ | .enumors _ => 2
  | .declor _ => 3
  | .structDeclors _ | .initDeclor => 4
  | .primary | .structSpec | .enumSpec | .initDeclors _ => 5
  | .postfixE | .typeSpec => 6
  | .unary | .declSpecs _ _ | .specQuals _ => 7
  | .castLoop _ | .typeName | .structDecl | .paramDecl | .decl => 8
  | .cast | .structDecls _ | .params _ | .funcDef => 9
  | .bin l => 10 + (9 - l)
  | .cond => 20
  | .assignLoop _ => 21
  | .assign => 22
  | .argsLoop _ | .init | .exprStmt => 23
  | .args | .initList _ | .stmt => 24
  | .items _ => 25
  | .unit _ => 26

theorem rank_lt (nt : NT) : rank nt < 27 := by
  cases nt <;> simp [rank] <;> omega

/-- recursion depth that is enough -/
def depth (nt : NT) (ts : List Tok) : Nat := 27 * ts.length + rank nt

/-- what a call relies on -/
def Pre (nt : NT) (s : PS) : Prop :=
  match nt with
  | .typeSpec => ∃ t ts, s.toks = t :: ts ∧ isTypeSpec s.tds t = true
  | .directLoop e t _ abs => t.type = termT abs ∧ ∀ e', e = some e' → e'.type ≠ termT abs ∧ hasTerm (termT abs) e' = true
  | _ => True

/-- what a call returns -/
def Shape (nt : NT) (a : Ast) : Prop :=
  match nt with
  | .declor abs => hasTerm (termT abs) a = true
  | .direct abs => hasTerm (termT abs) a = true
  | .directLoop _ _ _ abs => hasTerm (termT abs) a = true
  | _ => True

def Post (nt : NT) (s : PS) (a : Ast) (s' : PS) : Prop :=
  Eof s'.toks ∧ s'.toks.length + need nt ≤ s.toks.length ∧ Shape nt a

def ErrPost (s s' : PS) : Prop := Eof s'.toks ∧ s'.toks.length ≤ s.toks.length

/-- the induction hypothesis for the functions called -/
def Sound (r : NT → M Ast) (f : Nat) : Prop :=
  ∀ nt s, Pre nt s → Eof s.toks → depth nt s.toks < f → wp (r nt) (Post nt s) (ErrPost s) s

theorem call {r : NT → M Ast} {f : Nat} (ih : Sound r f) (nt : NT) {s : PS} {Q : Ast → PS → Prop} {E : PS → Prop}
    (hp : Pre nt s) (he : Eof s.toks) (hd : 27 * s.toks.length + rank nt < f)
    (hq : ∀ a s', Eof s'.toks → s'.toks.length + need nt ≤ s.toks.length → Shape nt a → Q a s')
    (hE : ∀ s', Eof s'.toks → s'.toks.length ≤ s.toks.length → E s') : wp (r nt) Q E s :=
  wp_mono (ih nt s hp he hd) (fun a s' h => hq a s' h.1 h.2.1 h.2.2) (fun s' h => hE s' h.1 h.2)

theorem wp_lift_ok {o : Out α} {a : α} (h : o = .ok a) : wp (M.lift o) Q E s ↔ Q a s := by subst h; rfl

end Parser
end Umlcc
