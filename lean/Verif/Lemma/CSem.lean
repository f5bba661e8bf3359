import Verif.Lemma.SimVal
/-!
Evaluation yields values in the range of the expression's type, and excluding more cases only makes fewer expressions defined.
-/
namespace Umlcc
namespace CSem
open Sim
open IMach (Mem Val)

theorem need_some {p : Prop} [Decidable p] {u : Unit} : need p = some u ↔ p := by
  unfold need; split <;> simp_all

theorem ptr_rep {t : DType} (h : isPtr t = true) : rep t = some (.quad, false) := by
  cases t <;> simp [isPtr] at h; rfl

theorem ofBool_range {q : Sfx × Bool} (hq : q.1 ≠ .none) (b : Bool) : InRange q (ofBool b) := by
  obtain ⟨s, u⟩ := q
  unfold InRange ofBool
  cases s <;> cases u <;> cases b <;> first | (exact absurd rfl hq) | decide

theorem ptrAt_some {v r : Int} (h : ptrAt v = some r) : r = v ∧ InRange (.quad, false) v := by
  unfold ptrAt at h
  split at h
  · cases h; exact ⟨rfl, ‹_›⟩
  · cases h

theorem toInt_range (a : BitVec 64) : InRange (.quad, false) a.toInt :=
  ofBits_inRange (q := (.quad, false)) (by decide) a

theorem incdec_range {t : DType} {q : Sfx × Bool} {v d r : Int} (ht : rep t = some q) (h : incdec t q v d = some r) : InRange q r := by
  unfold incdec at h
  split at h
  · cases ht
    split at h
    · cases h
    · obtain ⟨rfl, h'⟩ := ptrAt_some h
      exact h'
  · split at h
    · cases h; exact wrap_inRange _ _
    · exact (fit_some h).1

theorem binary_range {lim : Bool} {op : SBin} {t lt rt : DType} {q : Sfx × Bool} {a b v : Int} (ht : rep t = some q)
    (ha : ∀ q, rep lt = some q → InRange q a) (hb : ∀ q, rep rt = some q → InRange q b)
    (h : binary lim op t lt rt a b = some v) : InRange q v := by
  have hq := (rep_get ht).2.2.1
  unfold binary at h
  split at h
  all_goals try (
    simp only [Option.bind_eq_bind, Option.bind_eq_some_iff, need_some, Option.some.injEq] at h
    obtain ⟨_, _, w, _, rfl⟩ := h
    exact ofBool_range hq _)
  all_goals try (
    simp only [Option.bind_eq_bind, Option.bind_eq_some_iff, need_some, ht, Option.some.injEq] at h
    obtain ⟨_, rfl, _, ⟨h1, h2⟩, h⟩ := h
    exact (shift_ok false hq (ha _ h1) h).1)
  all_goals try (
    cases lt <;> try (cases h; done)
    simp only [Option.bind_eq_bind, Option.bind_eq_some_iff, need_some] at h
    obtain ⟨_, _, _, ⟨h1, _⟩, h⟩ := h
    obtain ⟨rfl, h'⟩ := ptrAt_some h
    rw [ptr_rep h1] at ht
    cases ht
    exact h')
  · cases lt <;> try (cases h; done)
    simp only [Option.bind_eq_bind, Option.bind_eq_some_iff, need_some, ht, Option.some.injEq] at h
    obtain ⟨_, rfl, _, _, rfl⟩ := h
    exact wrap_inRange _ _
  · simp only [Option.bind_eq_bind, Option.bind_eq_some_iff, need_some, ht, Option.some.injEq] at h
    obtain ⟨_, rfl, _, ⟨h1, h2⟩, h⟩ := h
    exact (arith_ok false hq (ha _ h1) (hb _ h2) h).1

theorem binary_lim {op : SBin} {t lt rt : DType} {a b v : Int} (h : binary true op t lt rt a b = some v) :
    binary false op t lt rt a b = some v := by
  cases op
  case padd | psub | pdiff =>
    cases lt <;> try (cases h; done)
    simp only [binary, Option.bind_eq_bind, Option.bind_eq_some_iff, need_some] at h ⊢
    grind
  all_goals exact h

/-! ### what a defined evaluation consists of -/

macro "ev" " at " h:ident : tactic => `(tactic|
  (simp only [eval, Option.bind_eq_bind, Option.bind_eq_some_iff, need_some, Option.some.injEq] at $h:ident))

variable {W : Type} {C : Ctx W} {σ : Mem × W} {x : Int × Mem × W}

theorem eval_ident {t : DType} {n : Str} (h : eval C (.ident t n) σ = some x) :
    ∃ q a, rep t = some q ∧ C.addr n = some a ∧ C.may q a.toInt = true ∧ x = (load q σ.1 a.toInt, σ) := by
  ev at h
  obtain ⟨q, h1, a, h2, _, h3, rfl⟩ := h
  exact ⟨q, a, h1, h2, h3, rfl⟩

theorem eval_ilit {t : DType} {l : ILit} (h : eval C (.ilit t l) σ = some x) :
    ∃ q, rep t = some q ∧ InRange q l.value ∧ x = (l.value, σ) := by
  ev at h
  obtain ⟨q, h1, _, h2, rfl⟩ := h
  exact ⟨q, h1, h2, rfl⟩

theorem eval_assign {t : DType} {l r : SExpr} (h : eval C (.bin .assign t l r) σ = some x) :
    ∃ q y z, rep t = some q ∧ rep r.dt = some q ∧ isPtr l.dt = true ∧ eval C r σ = some y ∧ eval C l y.2 = some z ∧ C.may q z.1 = true ∧
      x = (y.1, store q z.2.1 z.1 y.1, z.2.2) := by
  ev at h
  obtain ⟨q, h1, _, ⟨h2, h3⟩, y, h4, z, h5, _, h6, rfl⟩ := h
  exact ⟨q, y, z, h1, h2, h3, h4, h5, h6, rfl⟩

/-- both logical operators: `b` is the value that decides without the second operand -/
theorem eval_logical {op : SBin} {b : Bool} (hop : (op, b) = (.lor, true) ∨ (op, b) = (.land, false)) {t : DType} {l r : SExpr}
    (h : eval C (.bin op t l r) σ = some x) :
    (rep t).isSome ∧ (rep l.dt).isSome ∧ (rep r.dt).isSome ∧ ∃ y, eval C l σ = some y ∧
      ((decide (y.1 ≠ 0) = b ∧ x = (ofBool b, y.2)) ∨
       (decide (y.1 ≠ 0) ≠ b ∧ ∃ z, eval C r y.2 = some z ∧ x = (ofBool (decide (z.1 ≠ 0)), z.2))) := by
  rcases hop with hop | hop <;> cases hop <;> ev at h <;> obtain ⟨_, ⟨h1, h2, h3⟩, y, h4, h⟩ := h <;>
    refine ⟨h1, h2, h3, y, h4, ?_⟩ <;> split at h <;> rename_i hc
  · cases h; exact .inl ⟨by simpa using hc, rfl⟩
  · simp only [Option.bind_eq_some_iff, Option.some.injEq] at h
    obtain ⟨z, h5, rfl⟩ := h
    exact .inr ⟨by simpa using hc, z, h5, rfl⟩
  · cases h; exact .inl ⟨by simpa using hc, rfl⟩
  · simp only [Option.bind_eq_some_iff, Option.some.injEq] at h
    obtain ⟨z, h5, rfl⟩ := h
    exact .inr ⟨by simpa using hc, z, h5, rfl⟩

theorem eval_bin {op : SBin} (h1 : op ≠ .assign) (h2 : op ≠ .lor) (h3 : op ≠ .land) {t : DType} {l r : SExpr}
    (h : eval C (.bin op t l r) σ = some x) :
    ∃ y z v, eval C l σ = some y ∧ eval C r y.2 = some z ∧ binary C.lim op t l.dt r.dt y.1 z.1 = some v ∧ x = (v, z.2) := by
  cases op <;> first | exact absurd rfl h1 | exact absurd rfl h2 | exact absurd rfl h3 | skip
  all_goals
    ev at h
    obtain ⟨y, h1, z, h2, v, h3, rfl⟩ := h
    exact ⟨y, z, v, h1, h2, h3, rfl⟩

theorem eval_cond {t : DType} {c l r : SExpr} (h : eval C (.cond t c l r) σ = some x) :
    ∃ q y, rep t = some q ∧ (rep c.dt).isSome ∧ rep l.dt = some q ∧ rep r.dt = some q ∧ eval C c σ = some y ∧
      ((y.1 ≠ 0 ∧ eval C l y.2 = some x) ∨ (y.1 = 0 ∧ eval C r y.2 = some x)) := by
  ev at h
  obtain ⟨q, h1, _, ⟨h2, h3, h4⟩, y, h5, h⟩ := h
  refine ⟨q, y, h1, h2, h3, h4, h5, ?_⟩
  split at h
  · exact .inl ⟨‹_›, h⟩
  · exact .inr ⟨Decidable.not_not.1 ‹_›, h⟩

theorem eval_addrIdent {t t' : DType} {n : Str} (h : eval C (.un .addr t (.ident t' n)) σ = some x) :
    isPtr t = true ∧ ∃ a, C.addr n = some a ∧ x = (a.toInt, σ) := by
  ev at h
  obtain ⟨_, h1, a, h2, rfl⟩ := h
  exact ⟨h1, a, h2, rfl⟩

theorem eval_addrStr {t t' : DType} {id : Int} (h : eval C (.un .addr t (.str t' id)) σ = some x) :
    isPtr t = true ∧ x = ((C.str id).toInt, σ) := by
  ev at h
  obtain ⟨_, h1, rfl⟩ := h
  exact ⟨h1, rfl⟩

theorem eval_addrMember {t t' mt : DType} {e : SExpr} {m : Str} (h : eval C (.un .addr t (.tomember t' e mt m)) σ = some x) :
    isPtr t = true ∧ ∃ y o, eval C e σ = some y ∧ C.offset e.dt m = some o ∧ InRange (.quad, false) (y.1 + o) ∧ x = (y.1 + o, y.2) := by
  ev at h
  obtain ⟨_, h1, y, h2, o, h3, a, h4, rfl⟩ := h
  obtain ⟨rfl, h5⟩ := ptrAt_some h4
  exact ⟨h1, y, o, h2, h3, h5, rfl⟩

theorem eval_addrIndir {t t' : DType} {e : SExpr} (h : eval C (.un .addr t (.un .indir t' e)) σ = some x) :
    isPtr t = true ∧ isPtr e.dt = true ∧ eval C e σ = some x := by
  ev at h
  obtain ⟨_, ⟨h1, h2⟩, h3⟩ := h
  exact ⟨h1, h2, h3⟩

theorem eval_cast {t : DType} {e : SExpr} (h : eval C (.un .cast t e) σ = some x) :
    ∃ y, eval C e σ = some y ∧ ((t.isVoid = true ∧ x = (0, y.2)) ∨
      (t.isVoid = false ∧ ∃ q, rep t = some q ∧ (rep e.dt).isSome ∧ x = (wrap q y.1, y.2))) := by
  ev at h
  obtain ⟨y, h1, h⟩ := h
  refine ⟨y, h1, ?_⟩
  cases hv : t.isVoid
  · simp only [hv, Bool.false_eq_true, if_false, Option.bind_eq_some_iff, need_some, Option.some.injEq] at h
    obtain ⟨q, h2, _, h3, rfl⟩ := h
    exact .inr ⟨rfl, q, h2, h3, rfl⟩
  · simp only [hv, if_true, Option.some.injEq] at h
    exact .inl ⟨rfl, h.symm⟩

/-- step of `++` and `--` -/
def stepOf : SUn → Int
  | .preinc | .postinc => 1
  | _ => -1

theorem eval_pre {op : SUn} (hop : op = .preinc ∨ op = .predec) {t : DType} {e : SExpr} (h : eval C (.un op t e) σ = some x) :
    ∃ q y v, rep t = some q ∧ isPtr e.dt = true ∧ eval C e σ = some y ∧ C.may q y.1 = true ∧ incdec t q (load q y.2.1 y.1) (stepOf op) = some v ∧
      x = (v, store q y.2.1 y.1 v, y.2.2) := by
  rcases hop with rfl | rfl
  all_goals
    ev at h
    obtain ⟨q, h1, _, h2, y, h3, _, h5, v, h4, rfl⟩ := h
    exact ⟨q, y, v, h1, h2, h3, h5, h4, rfl⟩

theorem eval_post {op : SUn} (hop : op = .postinc ∨ op = .postdec) {t : DType} {e : SExpr} (h : eval C (.un op t e) σ = some x) :
    ∃ q y v, rep t = some q ∧ isPtr e.dt = true ∧ eval C e σ = some y ∧ C.may q y.1 = true ∧ incdec t q (load q y.2.1 y.1) (stepOf op) = some v ∧
      x = (load q y.2.1 y.1, store q y.2.1 y.1 v, y.2.2) := by
  rcases hop with rfl | rfl
  all_goals
    ev at h
    obtain ⟨q, h1, _, h2, y, h3, _, h5, v, h4, rfl⟩ := h
    exact ⟨q, y, v, h1, h2, h3, h5, h4, rfl⟩

theorem eval_indir {t : DType} {e : SExpr} (h : eval C (.un .indir t e) σ = some x) :
    ∃ q y, rep t = some q ∧ isPtr e.dt = true ∧ eval C e σ = some y ∧ C.may q y.1 = true ∧ x = (load q y.2.1 y.1, y.2) := by
  ev at h
  obtain ⟨q, h1, _, h2, y, h3, _, h4, rfl⟩ := h
  exact ⟨q, y, h1, h2, h3, h4, rfl⟩

theorem eval_pos {t : DType} {e : SExpr} (h : eval C (.un .pos t e) σ = some x) :
    ∃ q, rep t = some q ∧ rep e.dt = some q ∧ eval C e σ = some x := by
  ev at h
  obtain ⟨q, h1, _, h2, h3⟩ := h
  exact ⟨q, h1, h2, h3⟩

theorem eval_neg {t : DType} {e : SExpr} (h : eval C (.un .neg t e) σ = some x) :
    ∃ q y v, rep t = some q ∧ rep e.dt = some q ∧ eval C e σ = some y ∧ fit q (-y.1) = some v ∧ x = (v, y.2) := by
  ev at h
  obtain ⟨q, h1, _, h2, y, h3, v, h4, rfl⟩ := h
  exact ⟨q, y, v, h1, h2, h3, h4, rfl⟩

theorem eval_not {t : DType} {e : SExpr} (h : eval C (.un .not t e) σ = some x) :
    ∃ q y, rep t = some q ∧ rep e.dt = some q ∧ eval C e σ = some y ∧ x = (wrap q (-y.1 - 1), y.2) := by
  ev at h
  obtain ⟨q, h1, _, h2, y, h3, rfl⟩ := h
  exact ⟨q, y, h1, h2, h3, rfl⟩

theorem eval_lnot {t : DType} {e : SExpr} (h : eval C (.un .lnot t e) σ = some x) :
    (rep t).isSome ∧ (rep e.dt).isSome ∧ ∃ y, eval C e σ = some y ∧ x = (ofBool (decide (y.1 = 0)), y.2) := by
  ev at h
  obtain ⟨_, ⟨h1, h2⟩, y, h3, rfl⟩ := h
  exact ⟨h1, h2, y, h3, rfl⟩

theorem eval_call {t : DType} {f : SExpr} {as : SArgs} (h : eval C (.call t f as) σ = some x) :
    isPtr f.dt = true ∧ ∃ ys y s z, evalArgs C as σ = some ys ∧ eval C f ys.2 = some y ∧
      C.call (BitVec.ofInt 64 y.1) ys.1 s y.2.1 y.2.2 = some z ∧
      ((t.isVoid = true ∧ s = .none ∧ x = (0, z.1, z.2.1)) ∨
       (t.isVoid = false ∧ ∃ q, rep t = some q ∧ s = q.1 ∧ x = (wrap q z.2.2.toNat, z.1, z.2.1))) := by
  ev at h
  obtain ⟨_, h1, ys, h2, y, h3, h⟩ := h
  cases hv : t.isVoid
  · simp only [hv, Bool.false_eq_true, if_false, Option.bind_eq_some_iff, Option.some.injEq] at h
    obtain ⟨q, h5, z, h4, rfl⟩ := h
    exact ⟨h1, ys, y, _, z, h2, h3, h4, .inr ⟨rfl, q, h5, rfl, rfl⟩⟩
  · simp only [hv, if_true, Option.bind_eq_some_iff, Option.some.injEq] at h
    obtain ⟨z, h4, rfl⟩ := h
    exact ⟨h1, ys, y, _, z, h2, h3, h4, .inl ⟨rfl, rfl, rfl⟩⟩

theorem eval_tomember {t mt : DType} {e : SExpr} {m : Str} (h : eval C (.tomember t e mt m) σ = some x) :
    ∃ q y o, rep t = some q ∧ eval C e σ = some y ∧ C.offset e.dt m = some o ∧ InRange (.quad, false) (y.1 + o) ∧ C.may q (y.1 + o) = true ∧
      x = (load q y.2.1 (y.1 + o), y.2) := by
  ev at h
  obtain ⟨q, h1, y, h2, o, h3, a, h4, _, h6, rfl⟩ := h
  obtain ⟨rfl, h5⟩ := ptrAt_some h4
  exact ⟨q, y, o, h1, h2, h3, h5, h6, rfl⟩

theorem evalArgs_cons {e : SExpr} {as : SArgs} {xs : List Val × Mem × W} (h : evalArgs C (.cons e as) σ = some xs) :
    ∃ ys y q, evalArgs C as σ = some ys ∧ eval C e ys.2 = some y ∧ rep e.dt = some q ∧
      xs = (⟨q.1, BitVec.ofInt _ y.1⟩ :: ys.1, y.2) := by
  simp only [evalArgs, Option.bind_eq_bind, Option.bind_eq_some_iff, Option.some.injEq] at h
  obtain ⟨ys, h1, y, h2, q, h3, rfl⟩ := h
  exact ⟨ys, y, q, h1, h2, h3, rfl⟩

theorem offset_ptr {t : DType} {m : Str} {o : Nat} (h : C.offset t m = some o) : isPtr t = true := by
  cases t <;> first | rfl | cases h

/-! ### ranges -/

mutual
theorem eval_range : ∀ (e : SExpr) {σ : Mem × W} {x : Int × Mem × W} {q : Sfx × Bool}, rep e.dt = some q → eval C e σ = some x → InRange q x.1
  | .ident t n, σ, x, q, hq, h => by
    obtain ⟨q', a, h1, h2, _, rfl⟩ := eval_ident h
    rw [SExpr.dt, h1] at hq; cases hq
    exact load_inRange _ _ _
  | .str t n, σ, x, q, hq, h => by ev at h; cases h
  | .ilit t n, σ, x, q, hq, h => by
    obtain ⟨q', h1, h2, rfl⟩ := eval_ilit h
    rw [SExpr.dt, h1] at hq; cases hq
    exact h2
  | .cond t c l r, σ, x, q, hq, h => by
    obtain ⟨q', y, h1, h2, h3, h4, h5, h6 | h6⟩ := eval_cond h
    all_goals rw [SExpr.dt, h1] at hq; cases hq
    · exact eval_range l h3 h6.2
    · exact eval_range r h4 h6.2
  | .bin op t l r, σ, x, q, hq, h => by
    by_cases h1 : op = .assign
    · subst h1
      obtain ⟨q', y, z, h1, h2, h3, h4, h5, hm, rfl⟩ := eval_assign h
      rw [SExpr.dt, h1] at hq; cases hq
      exact (eval_range r h2 h4 : InRange _ y.1)
    by_cases h2 : op = .lor
    · subst h2
      obtain ⟨_, _, _, y, _, ⟨_, rfl⟩ | ⟨_, z, _, rfl⟩⟩ := eval_logical (.inl rfl) h <;> dsimp only <;> exact ofBool_range (rep_get hq).2.2.1 _
    by_cases h3 : op = .land
    · subst h3
      obtain ⟨_, _, _, y, _, ⟨_, rfl⟩ | ⟨_, z, _, rfl⟩⟩ := eval_logical (.inr rfl) h <;> dsimp only <;> exact ofBool_range (rep_get hq).2.2.1 _
    obtain ⟨y, z, v, h4, h5, h6, rfl⟩ := eval_bin h1 h2 h3 h
    exact binary_range hq (fun q hq => eval_range l hq h4) (fun q hq => eval_range r hq h5) h6
  | .un .addr t (.ident t' n), σ, x, q, hq, h => by
    obtain ⟨h1, a, h2, rfl⟩ := eval_addrIdent h
    rw [SExpr.dt, ptr_rep h1] at hq; cases hq
    exact toInt_range a
  | .un .addr t (.str t' n), σ, x, q, hq, h => by
    obtain ⟨h1, rfl⟩ := eval_addrStr h
    rw [SExpr.dt, ptr_rep h1] at hq; cases hq
    exact toInt_range _
  | .un .addr t (.tomember t' e mt m), σ, x, q, hq, h => by
    obtain ⟨h1, y, o, h2, h3, h4, rfl⟩ := eval_addrMember h
    rw [SExpr.dt, ptr_rep h1] at hq; cases hq
    exact h4
  | .un .addr t (.un .indir t' e), σ, x, q, hq, h => by
    obtain ⟨h1, h2, h3⟩ := eval_addrIndir h
    rw [SExpr.dt, ptr_rep h1] at hq; cases hq
    exact eval_range e (ptr_rep h2) h3
  | .un .addr t (.ilit _ _), σ, x, q, hq, h => by ev at h; cases h
  | .un .addr t (.bin _ _ _ _), σ, x, q, hq, h => by ev at h; cases h
  | .un .addr t (.cond _ _ _ _), σ, x, q, hq, h => by ev at h; cases h
  | .un .addr t (.call _ _ _), σ, x, q, hq, h => by ev at h; cases h
  | .un .addr t (.un .cast _ _), σ, x, q, hq, h => by ev at h; cases h
  | .un .addr t (.un .addr _ _), σ, x, q, hq, h => by ev at h; cases h
  | .un .addr t (.un .preinc _ _), σ, x, q, hq, h => by ev at h; cases h
  | .un .addr t (.un .predec _ _), σ, x, q, hq, h => by ev at h; cases h
  | .un .addr t (.un .postinc _ _), σ, x, q, hq, h => by ev at h; cases h
  | .un .addr t (.un .postdec _ _), σ, x, q, hq, h => by ev at h; cases h
  | .un .addr t (.un .pos _ _), σ, x, q, hq, h => by ev at h; cases h
  | .un .addr t (.un .neg _ _), σ, x, q, hq, h => by ev at h; cases h
  | .un .addr t (.un .not _ _), σ, x, q, hq, h => by ev at h; cases h
  | .un .addr t (.un .lnot _ _), σ, x, q, hq, h => by ev at h; cases h
  | .un .cast t e, σ, x, q, hq, h => by
    obtain ⟨y, h1, ⟨h2, rfl⟩ | ⟨h2, q', h3, h4, rfl⟩⟩ := eval_cast h
    · have := (rep_get hq).2.2.2
      rw [SExpr.dt, h2] at this; cases this
    · rw [SExpr.dt, h3] at hq; cases hq
      exact wrap_inRange _ _
  | .un .preinc t e, σ, x, q, hq, h => by
    obtain ⟨q', y, v, h1, h2, h3, hm, h4, rfl⟩ := eval_pre (.inl rfl) h
    rw [SExpr.dt, h1] at hq; cases hq
    exact incdec_range h1 h4
  | .un .predec t e, σ, x, q, hq, h => by
    obtain ⟨q', y, v, h1, h2, h3, hm, h4, rfl⟩ := eval_pre (.inr rfl) h
    rw [SExpr.dt, h1] at hq; cases hq
    exact incdec_range h1 h4
  | .un .postinc t e, σ, x, q, hq, h => by
    obtain ⟨q', y, v, h1, h2, h3, hm, h4, rfl⟩ := eval_post (.inl rfl) h
    rw [SExpr.dt, h1] at hq; cases hq
    exact load_inRange _ _ _
  | .un .postdec t e, σ, x, q, hq, h => by
    obtain ⟨q', y, v, h1, h2, h3, hm, h4, rfl⟩ := eval_post (.inr rfl) h
    rw [SExpr.dt, h1] at hq; cases hq
    exact load_inRange _ _ _
  | .un .indir t e, σ, x, q, hq, h => by
    obtain ⟨q', y, h1, h2, h3, hm, rfl⟩ := eval_indir h
    rw [SExpr.dt, h1] at hq; cases hq
    exact load_inRange _ _ _
  | .un .pos t e, σ, x, q, hq, h => by
    obtain ⟨q', h1, h2, h3⟩ := eval_pos h
    rw [SExpr.dt, h1] at hq; cases hq
    exact eval_range e h2 h3
  | .un .neg t e, σ, x, q, hq, h => by
    obtain ⟨q', y, v, h1, h2, h3, h4, rfl⟩ := eval_neg h
    rw [SExpr.dt, h1] at hq; cases hq
    exact (fit_some h4).1
  | .un .not t e, σ, x, q, hq, h => by
    obtain ⟨q', y, h1, h2, h3, rfl⟩ := eval_not h
    rw [SExpr.dt, h1] at hq; cases hq
    exact wrap_inRange _ _
  | .un .lnot t e, σ, x, q, hq, h => by
    obtain ⟨h1, h2, y, h3, rfl⟩ := eval_lnot h
    exact ofBool_range (rep_get hq).2.2.1 _
  | .call t f as, σ, x, q, hq, h => by
    obtain ⟨h1, ys, y, s, z, h2, h3, h4, ⟨h5, _, rfl⟩ | ⟨h5, q', h6, _, rfl⟩⟩ := eval_call h
    · have := (rep_get hq).2.2.2
      rw [SExpr.dt, h5] at this; cases this
    · rw [SExpr.dt, h6] at hq; cases hq
      exact wrap_inRange _ _
  | .tomember t e mt m, σ, x, q, hq, h => by
    obtain ⟨q', y, o, h1, h2, h3, h4, hm, rfl⟩ := eval_tomember h
    rw [SExpr.dt, h1] at hq; cases hq
    exact load_inRange _ _ _
end

/-! ### excluding cases -/

/-- the same without the compiler's known faults excluded -/
def Ctx.full (C : Ctx W) : Ctx W := { C with lim := false }

theorem may_full (q : Sfx × Bool) (a : Int) : C.full.may q a = C.may q a := rfl

theorem binary_full {op : SBin} {t lt rt : DType} {a b v : Int} (h : binary C.lim op t lt rt a b = some v) :
    binary C.full.lim op t lt rt a b = some v := by
  unfold Ctx.full
  cases hl : C.lim with
  | false => rw [hl] at h; exact h
  | true => rw [hl] at h; exact binary_lim h

theorem offset_full (t : DType) (m : Str) : C.full.offset t m = C.offset t m := by
  unfold Ctx.full Ctx.offset; rfl

mutual
theorem eval_full : ∀ (e : SExpr) {σ : Mem × W} {x : Int × Mem × W}, eval C e σ = some x → eval C.full e σ = some x
  | .ident t n, σ, x, h => by simp only [eval] at h ⊢; exact h
  | .str t n, σ, x, h => by simp only [eval] at h ⊢; exact h
  | .ilit t n, σ, x, h => by simp only [eval] at h ⊢; exact h
  | .cond t c l r, σ, x, h => by
    obtain ⟨q, y, h1, h2, h3, h4, h5, h6 | h6⟩ := eval_cond h
    · simp [eval, h1, h2, h3, h4, eval_full c h5, h6.1, eval_full l h6.2, need]
    · simp [eval, h1, h2, h3, h4, eval_full c h5, h6.1, eval_full r h6.2, need]
  | .bin op t l r, σ, x, h => by
    by_cases h1 : op = .assign
    · subst h1
      obtain ⟨q, y, z, h1, h2, h3, h4, h5, hm, rfl⟩ := eval_assign h
      simp [eval, h1, h2, h3, eval_full r h4, eval_full l h5, may_full, hm, need]
    by_cases h2 : op = .lor
    · subst h2
      obtain ⟨k1, k2, k3, y, k4, ⟨k5, rfl⟩ | ⟨k5, z, k6, rfl⟩⟩ := eval_logical (.inl rfl) h
      · simp only [decide_eq_true_eq] at k5
        simp [eval, k1, k2, k3, eval_full l k4, k5, need, ofBool]
      · simp only [ne_eq, decide_eq_true_eq, Decidable.not_not] at k5
        simp [eval, k1, k2, k3, eval_full l k4, k5, eval_full r k6, need, ofBool]
    by_cases h3 : op = .land
    · subst h3
      obtain ⟨k1, k2, k3, y, k4, ⟨k5, rfl⟩ | ⟨k5, z, k6, rfl⟩⟩ := eval_logical (.inr rfl) h
      · simp only [decide_eq_false_iff_not, ne_eq, Decidable.not_not] at k5
        simp [eval, k1, k2, k3, eval_full l k4, k5, need, ofBool]
      · simp only [ne_eq, decide_eq_false_iff_not, Decidable.not_not] at k5
        simp [eval, k1, k2, k3, eval_full l k4, k5, eval_full r k6, need, ofBool]
    obtain ⟨y, z, v, h4, h5, h6, rfl⟩ := eval_bin h1 h2 h3 h
    cases op <;> first | exact absurd rfl h1 | exact absurd rfl h2 | exact absurd rfl h3 |
      simp [eval, eval_full l h4, eval_full r h5, binary_full h6]
  | .un .addr t (.ident t' n), σ, x, h => by simp only [eval] at h ⊢; exact h
  | .un .addr t (.str t' n), σ, x, h => by simp only [eval] at h ⊢; exact h
  | .un .addr t (.tomember t' e mt m), σ, x, h => by
    obtain ⟨h1, y, o, h2, h3, h4, rfl⟩ := eval_addrMember h
    simp [eval, h1, eval_full e h2, offset_full, h3, ptrAt, h4, need]
  | .un .addr t (.un .indir t' e), σ, x, h => by
    obtain ⟨h1, h2, h3⟩ := eval_addrIndir h
    simp [eval, h1, h2, eval_full e h3, need]
  | .un .addr t (.ilit _ _), σ, x, h => by ev at h; cases h
  | .un .addr t (.bin _ _ _ _), σ, x, h => by ev at h; cases h
  | .un .addr t (.cond _ _ _ _), σ, x, h => by ev at h; cases h
  | .un .addr t (.call _ _ _), σ, x, h => by ev at h; cases h
  | .un .addr t (.un .cast _ _), σ, x, h => by ev at h; cases h
  | .un .addr t (.un .addr _ _), σ, x, h => by ev at h; cases h
  | .un .addr t (.un .preinc _ _), σ, x, h => by ev at h; cases h
  | .un .addr t (.un .predec _ _), σ, x, h => by ev at h; cases h
  | .un .addr t (.un .postinc _ _), σ, x, h => by ev at h; cases h
  | .un .addr t (.un .postdec _ _), σ, x, h => by ev at h; cases h
  | .un .addr t (.un .pos _ _), σ, x, h => by ev at h; cases h
  | .un .addr t (.un .neg _ _), σ, x, h => by ev at h; cases h
  | .un .addr t (.un .not _ _), σ, x, h => by ev at h; cases h
  | .un .addr t (.un .lnot _ _), σ, x, h => by ev at h; cases h
  | .un .cast t e, σ, x, h => by
    obtain ⟨y, h1, ⟨h2, rfl⟩ | ⟨h2, q', h3, h4, rfl⟩⟩ := eval_cast h
    · simp [eval, eval_full e h1, h2]
    · simp [eval, eval_full e h1, h2, h3, h4, need]
  | .un .preinc t e, σ, x, h => by
    obtain ⟨q', y, v, h1, h2, h3, hm, h4, rfl⟩ := eval_pre (.inl rfl) h
    rw [stepOf] at h4
    simp [eval, eval_full e h3, h1, h2, may_full, hm, h4, need]
  | .un .predec t e, σ, x, h => by
    obtain ⟨q', y, v, h1, h2, h3, hm, h4, rfl⟩ := eval_pre (.inr rfl) h
    simp only [stepOf] at h4
    simp [eval, eval_full e h3, h1, h2, may_full, hm, h4, need]
  | .un .postinc t e, σ, x, h => by
    obtain ⟨q', y, v, h1, h2, h3, hm, h4, rfl⟩ := eval_post (.inl rfl) h
    rw [stepOf] at h4
    simp [eval, eval_full e h3, h1, h2, may_full, hm, h4, need]
  | .un .postdec t e, σ, x, h => by
    obtain ⟨q', y, v, h1, h2, h3, hm, h4, rfl⟩ := eval_post (.inr rfl) h
    simp only [stepOf] at h4
    simp [eval, eval_full e h3, h1, h2, may_full, hm, h4, need]
  | .un .indir t e, σ, x, h => by
    obtain ⟨q', y, h1, h2, h3, hm, rfl⟩ := eval_indir h
    simp [eval, eval_full e h3, h1, h2, may_full, hm, need]
  | .un .pos t e, σ, x, h => by
    obtain ⟨q', h1, h2, h3⟩ := eval_pos h
    simp [eval, eval_full e h3, h1, h2, need]
  | .un .neg t e, σ, x, h => by
    obtain ⟨q', y, v, h1, h2, h3, h4, rfl⟩ := eval_neg h
    simp [eval, eval_full e h3, h1, h2, h4, need]
  | .un .not t e, σ, x, h => by
    obtain ⟨q', y, h1, h2, h3, rfl⟩ := eval_not h
    simp [eval, eval_full e h3, h1, h2, need]
  | .un .lnot t e, σ, x, h => by
    obtain ⟨h1, h2, y, h3, rfl⟩ := eval_lnot h
    simp [eval, eval_full e h3, h1, h2, need]
  | .call t f as, σ, x, h => by
    obtain ⟨h1, ys, y, s, z, h2, h3, h4, ⟨h5, rfl, rfl⟩ | ⟨h5, q', h6, rfl, rfl⟩⟩ := eval_call h
    · have h4' : C.full.call (BitVec.ofInt 64 y.1) ys.1 .none y.2.1 y.2.2 = some z := h4
      simp [eval, h1, evalArgs_full as h2, eval_full f h3, h4', h5, need]
    · have h4' : C.full.call (BitVec.ofInt 64 y.1) ys.1 q'.1 y.2.1 y.2.2 = some z := h4
      simp [eval, h1, evalArgs_full as h2, eval_full f h3, h4', h5, h6, need]
  | .tomember t e mt m, σ, x, h => by
    obtain ⟨q', y, o, h1, h2, h3, h4, hm, rfl⟩ := eval_tomember h
    simp [eval, h1, eval_full e h2, offset_full, h3, ptrAt, h4, may_full, hm, need]
theorem evalArgs_full : ∀ (as : SArgs) {σ : Mem × W} {xs : List Val × Mem × W}, evalArgs C as σ = some xs → evalArgs C.full as σ = some xs
  | .nil, σ, xs, h => by simpa only [evalArgs] using h
  | .cons e as, σ, xs, h => by
    obtain ⟨ys, y, q, h1, h2, h3, rfl⟩ := evalArgs_cons h
    simp [evalArgs, evalArgs_full as h1, eval_full e h2, h3]
end

end CSem
end Umlcc
