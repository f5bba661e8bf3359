import Verif.Model.Resolver
/-!
Running the resolver: the monad, and the limit of the resolvers with bounded call depth.
-/
namespace Umlcc
namespace Res

@[simp] theorem pure_run (a : α) (s : RState) : (pure a : RM α) s = .ok (some a, s) := rfl

theorem bind_run (m : RM α) (f : α → RM β) (s : RState) : (m >>= f) s =
    match m s with
    | .ok (some a, s) => f a s
    | .ok (none, s) => .ok (none, s)
    | .err => .err
    | .fatal => .fatal
    | .ub => .ub
    | .hang => .hang := rfl

theorem bind_some {m : RM α} {f : α → RM β} {s s' : RState} {a : α} (h : m s = .ok (some a, s')) : (m >>= f) s = f a s' := by
  rw [bind_run, h]
theorem bind_none {m : RM α} {f : α → RM β} {s s' : RState} (h : m s = .ok (none, s')) : (m >>= f) s = .ok (none, s') := by
  rw [bind_run, h]

theorem attempt_ok {m : RM α} {s s' : RState} {r : Option α} (h : m s = .ok (r, s')) : attempt m s = .ok (some r, s') := by
  rw [attempt, h]

@[simp] theorem pure_bind (a : α) (f : α → RM β) : ((pure a : RM α) >>= f) = f a := rfl
@[simp] theorem fail_bind (f : α → RM β) : ((fail : RM α) >>= f) = fail := rfl
@[simp] theorem fatal_bind (f : α → RM β) : ((fatal : RM α) >>= f) = fatal := rfl
@[simp] theorem ub_bind (f : α → RM β) : ((ub : RM α) >>= f) = ub := rfl
@[simp] theorem hang_bind (f : α → RM β) : ((hang : RM α) >>= f) = hang := rfl
@[simp] theorem fail_run (s : RState) : (fail : RM α) s = .ok (none, s) := rfl
@[simp] theorem fatal_run (s : RState) : (fatal : RM α) s = .fatal := rfl
@[simp] theorem ub_run (s : RState) : (ub : RM α) s = .ub := rfl
@[simp] theorem hang_run (s : RState) : (hang : RM α) s = .hang := rfl
@[simp] theorem ofOpt_run (r : Option α) (s : RState) : ofOpt r s = .ok (r, s) := rfl
@[simp] theorem get_bind (f : RState → RM β) (s : RState) : (get >>= f) s = f s s := rfl
@[simp] theorem modify_bind (g : RState → RState) (f : Unit → RM β) (s : RState) : (modify g >>= f) s = f () (g s) := rfl
@[simp] theorem modify_run (g : RState → RState) (s : RState) : modify g s = .ok (some (), g s) := rfl
@[simp] theorem require_true : require true = pure () := rfl
@[simp] theorem require_false : require false = fail := rfl
@[simp] theorem ofOpt_some (a : α) : ofOpt (some a) = pure a := rfl
@[simp] theorem ofOpt_none : ofOpt (none : Option α) = fail := rfl

@[simp] theorem node_type (t : AstT) (cs : List Ast) : (Ast.node t cs).type = t := rfl
@[simp] theorem node_children (t : AstT) (cs : List Ast) : (Ast.node t cs).children = cs := rfl
@[simp] theorem name_type (t : AstT) (n : Str) : (Ast.name t n).type = t := rfl
@[simp] theorem lit_type (t : AstT) (l : ILit) : (Ast.lit t l).type = t := rfl
@[simp] theorem strlit_type (t : AstT) (l : Str) : (Ast.strlit t l).type = t := rfl
@[simp] theorem ident_name (t : AstT) (n : Str) : ident (Ast.name t n) = pure n := rfl
@[simp] theorem kid0 (t : AstT) (a : Ast) (cs : List Ast) : kid (.node t (a :: cs)) 0 = pure a := rfl
@[simp] theorem kid1 (t : AstT) (a b : Ast) (cs : List Ast) : kid (.node t (a :: b :: cs)) 1 = pure b := rfl
@[simp] theorem kid2 (t : AstT) (a b c : Ast) (cs : List Ast) : kid (.node t (a :: b :: c :: cs)) 2 = pure c := rfl
@[simp] theorem kid3 (t : AstT) (a b c d : Ast) (cs : List Ast) : kid (.node t (a :: b :: c :: d :: cs)) 3 = pure d := rfl

/-! ### limits -/

/-- `m n` is `hang` for small `n` and then `l` -/
def Tends (m : Nat → RM α) (l : RM α) : Prop :=
  ∀ s, ∃ N, (∀ n, n < N → m n s = .hang) ∧ ∀ n, N ≤ n → m n s = l s

theorem Tends.const (m : RM α) : Tends (fun _ => m) m := fun _ => ⟨0, fun _ h => absurd h (Nat.not_lt_zero _), fun _ _ => rfl⟩

theorem Tends.bind {m : Nat → RM α} {l : RM α} {f : Nat → α → RM β} {g : α → RM β} (hm : Tends m l) (hf : ∀ a, Tends (fun n => f n a) (g a)) :
    Tends (fun n => m n >>= f n) (l >>= g) := by
  intro s
  obtain ⟨N, h1, h2⟩ := hm s
  cases hl : l s with
  | ok r =>
    obtain ⟨r, s'⟩ := r
    cases r with
    | none =>
      refine ⟨N, fun n hn => by simp [bind_run, h1 n hn], fun n hn => by simp [bind_run, h2 n hn, hl]⟩
    | some a =>
      obtain ⟨N', h3, h4⟩ := hf a s'
      refine ⟨max N N', fun n hn => ?_, fun n hn => ?_⟩
      · by_cases hN : n < N
        · simp [bind_run, h1 n hN]
        · simp only [bind_run, h2 n (by omega), hl]
          exact h3 n (by omega)
      · simp only [bind_run, h2 n (by omega), hl]
        exact h4 n (by omega)
  | _ => exact ⟨N, fun n hn => by simp [bind_run, h1 n hn], fun n hn => by simp [bind_run, h2 n hn, hl]⟩

theorem Tends.attempt {m : Nat → RM α} {l : RM α} (hm : Tends m l) : Tends (fun n => attempt (m n)) (attempt l) := by
  intro s
  obtain ⟨N, h1, h2⟩ := hm s
  exact ⟨N, fun n hn => by simp [Res.attempt, h1 n hn], fun n hn => by simp [Res.attempt, h2 n hn]⟩

theorem Tends.collect {f : Nat → β → RM α} {g : β → RM α} (h : ∀ x, Tends (fun n => f n x) (g x)) (l : List β) :
    Tends (fun n => collect (f n) l) (collect g l) := by
  induction l with
  | nil => exact .const _
  | cons x xs ih =>
    simp only [Res.collect]
    exact .bind (.attempt (h x)) fun _ => .bind (.attempt ih) fun _ => .const _

theorem Tends.ite {c : Prop} [Decidable c] {m m' : Nat → RM α} {l l' : RM α} (h : c → Tends m l) (h' : ¬c → Tends m' l') :
    Tends (fun n => if c then m n else m' n) (if c then l else l') := by
  split
  · exact h ‹_›
  · exact h' ‹_›

theorem Tends.inScope {m : Nat → RM α} {l : RM α} (hm : Tends m l) : Tends (fun n => inScope (m n)) (inScope l) :=
  .bind (.const _) fun _ => .bind (.attempt hm) fun _ => .const _

/-- all functions tend to their limits -/
structure TendsR (Rs : Nat → Rec) (L : Rec) : Prop where
  expr : ∀ a, Tends (fun n => (Rs n).expr a) (L.expr a)
  spec : ∀ a, Tends (fun n => (Rs n).spec a) (L.spec a)
  declor : ∀ t ws a, Tends (fun n => (Rs n).declor t ws a) (L.declor t ws a)
  init : ∀ b t a, Tends (fun n => (Rs n).init b t a) (L.init b t a)
  zero : ∀ t, Tends (fun n => (Rs n).zero t) (L.zero t)
  stmt : ∀ b t a, Tends (fun n => (Rs n).stmt b t a) (L.stmt b t a)

/-- closed by a lemma already proved -/
syntax "solve_tend" : tactic
/-- one step: a call of a recursive function, a sequence, a loop; or no recursion at all -/
macro "tend1" h:term : tactic => `(tactic| first
  | exact Tends.const _
  | exact TendsR.expr $h _ | exact TendsR.spec $h _ | exact TendsR.declor $h _ _ _ | exact TendsR.init $h _ _ _ | exact TendsR.zero $h _ | exact TendsR.stmt $h _ _ _
  | with_reducible apply Tends.bind
  | with_reducible apply Tends.attempt
  | with_reducible apply Tends.collect
  | with_reducible apply Tends.inScope
  | with_reducible apply Tends.ite
  | with_reducible assumption
  | solve_tend
  | with_reducible intro x
  | (split <;> (try simp only [*])))
macro "tend" h:term : tactic => `(tactic| repeat' (tend1 $h))

macro_rules | `(tactic| solve_tend) => `(tactic| fail)
section
variable {Rs : Nat → Rec} {L : Rec} (h : TendsR Rs L)
include h

theorem t_typeName (a : Ast) : Tends (fun n => typeName (Rs n) a) (typeName L a) := by
  unfold typeName
  tend h

macro_rules | `(tactic| solve_tend) => `(tactic| with_reducible exact t_typeName (by assumption) _)

theorem t_declSpecs (a : Ast) : Tends (fun n => declSpecs (Rs n) a) (declSpecs L a) := by
  unfold declSpecs
  tend h

macro_rules | `(tactic| solve_tend) => `(tactic| with_reducible exact t_declSpecs (by assumption) _)

theorem t_paramDecl (a : Ast) : Tends (fun n => paramDecl (Rs n) a) (paramDecl L a) := by
  unfold paramDecl
  tend h

macro_rules | `(tactic| solve_tend) => `(tactic| with_reducible exact t_paramDecl (by assumption) _)

theorem t_paramList (a : Ast) : Tends (fun n => paramList (Rs n) a) (paramList L a) := by
  unfold paramList
  tend h

macro_rules | `(tactic| solve_tend) => `(tactic| with_reducible exact t_paramList (by assumption) _)

theorem t_declor (t : DType) (ws : List Wrap) (a : Ast) : Tends (fun n => declor (Rs n) t ws a) (declor L t ws a) := by
  unfold declor
  tend h

macro_rules | `(tactic| solve_tend) => `(tactic| with_reducible exact t_declor (by assumption) _ _ _)

theorem t_structDeclor (t : DType) (a : Ast) : Tends (fun n => structDeclor (Rs n) t a) (structDeclor L t a) := by
  unfold structDeclor
  tend h

macro_rules | `(tactic| solve_tend) => `(tactic| with_reducible exact t_structDeclor (by assumption) _ _)

theorem t_structDecl (a : Ast) : Tends (fun n => structDecl (Rs n) a) (structDecl L a) := by
  unfold structDecl
  tend h

macro_rules | `(tactic| solve_tend) => `(tactic| with_reducible exact t_structDecl (by assumption) _)

theorem t_structDeclList (a : Ast) : Tends (fun n => structDeclList (Rs n) a) (structDeclList L a) := by
  unfold structDeclList
  tend h

macro_rules | `(tactic| solve_tend) => `(tactic| with_reducible exact t_structDeclList (by assumption) _)

theorem t_structSpec (a : Ast) : Tends (fun n => structSpec (Rs n) a) (structSpec L a) := by
  unfold structSpec
  tend h

macro_rules | `(tactic| solve_tend) => `(tactic| with_reducible exact t_structSpec (by assumption) _)

theorem t_enumValue (k : Int) (a : Ast) : Tends (fun n => enumValue (Rs n) k a) (enumValue L k a) := by
  unfold enumValue
  tend h

macro_rules | `(tactic| solve_tend) => `(tactic| with_reducible exact t_enumValue (by assumption) _ _)

theorem t_enumerator (a : Ast) : Tends (fun n => enumerator (Rs n) a) (enumerator L a) := by
  unfold enumerator
  tend h

macro_rules | `(tactic| solve_tend) => `(tactic| with_reducible exact t_enumerator (by assumption) _)

theorem t_enumeratorList (a : Ast) : Tends (fun n => enumeratorList (Rs n) a) (enumeratorList L a) := by
  unfold enumeratorList
  tend h

macro_rules | `(tactic| solve_tend) => `(tactic| with_reducible exact t_enumeratorList (by assumption) _)

theorem t_enumSpec (a : Ast) : Tends (fun n => enumSpec (Rs n) a) (enumSpec L a) := by
  unfold enumSpec
  tend h

macro_rules | `(tactic| solve_tend) => `(tactic| with_reducible exact t_enumSpec (by assumption) _)

theorem t_spec (a : Ast) : Tends (fun n => spec (Rs n) a) (spec L a) := by
  unfold spec
  tend h

macro_rules | `(tactic| solve_tend) => `(tactic| with_reducible exact t_spec (by assumption) _)

theorem t_operands (a : Ast) : Tends (fun n => operands (Rs n) a) (operands L a) := by
  unfold operands
  tend h

macro_rules | `(tactic| solve_tend) => `(tactic| with_reducible exact t_operands (by assumption) _)

theorem t_assignment (a : Ast) : Tends (fun n => assignment (Rs n) a) (assignment L a) := by
  unfold assignment
  tend h

macro_rules | `(tactic| solve_tend) => `(tactic| with_reducible exact t_assignment (by assumption) _)

theorem t_compoundAssignment (a : Ast) : Tends (fun n => compoundAssignment (Rs n) a) (compoundAssignment L a) := by
  unfold compoundAssignment
  tend h

macro_rules | `(tactic| solve_tend) => `(tactic| with_reducible exact t_compoundAssignment (by assumption) _)

theorem t_conditional (a : Ast) : Tends (fun n => conditional (Rs n) a) (conditional L a) := by
  unfold conditional
  tend h

macro_rules | `(tactic| solve_tend) => `(tactic| with_reducible exact t_conditional (by assumption) _)

theorem t_logical (op : SBin) (a : Ast) : Tends (fun n => logical (Rs n) op a) (logical L op a) := by
  unfold logical
  tend h

macro_rules | `(tactic| solve_tend) => `(tactic| with_reducible exact t_logical (by assumption) _ _)

theorem t_arith (op : SBin) (a : Ast) : Tends (fun n => arith (Rs n) op a) (arith L op a) := by
  unfold arith
  tend h

macro_rules | `(tactic| solve_tend) => `(tactic| with_reducible exact t_arith (by assumption) _ _)

theorem t_comparison (op : SBin) (a : Ast) : Tends (fun n => comparison (Rs n) op a) (comparison L op a) := by
  unfold comparison
  tend h

macro_rules | `(tactic| solve_tend) => `(tactic| with_reducible exact t_comparison (by assumption) _ _)

theorem t_addExpr (a : Ast) : Tends (fun n => addExpr (Rs n) a) (addExpr L a) := by
  unfold addExpr
  tend h

macro_rules | `(tactic| solve_tend) => `(tactic| with_reducible exact t_addExpr (by assumption) _)

theorem t_subExpr (a : Ast) : Tends (fun n => subExpr (Rs n) a) (subExpr L a) := by
  unfold subExpr
  tend h

macro_rules | `(tactic| solve_tend) => `(tactic| with_reducible exact t_subExpr (by assumption) _)

theorem t_castExpr (a : Ast) : Tends (fun n => castExpr (Rs n) a) (castExpr L a) := by
  unfold castExpr
  tend h

macro_rules | `(tactic| solve_tend) => `(tactic| with_reducible exact t_castExpr (by assumption) _)

theorem t_addressExpr (a : Ast) : Tends (fun n => addressExpr (Rs n) a) (addressExpr L a) := by
  unfold addressExpr
  tend h

macro_rules | `(tactic| solve_tend) => `(tactic| with_reducible exact t_addressExpr (by assumption) _)

theorem t_indirectionExpr (a : Ast) : Tends (fun n => indirectionExpr (Rs n) a) (indirectionExpr L a) := by
  unfold indirectionExpr
  tend h

macro_rules | `(tactic| solve_tend) => `(tactic| with_reducible exact t_indirectionExpr (by assumption) _)

theorem t_signExpr (op : SUn) (a : Ast) : Tends (fun n => signExpr (Rs n) op a) (signExpr L op a) := by
  unfold signExpr
  tend h

macro_rules | `(tactic| solve_tend) => `(tactic| with_reducible exact t_signExpr (by assumption) _ _)

theorem t_lnotExpr (a : Ast) : Tends (fun n => lnotExpr (Rs n) a) (lnotExpr L a) := by
  unfold lnotExpr
  tend h

macro_rules | `(tactic| solve_tend) => `(tactic| with_reducible exact t_lnotExpr (by assumption) _)

theorem t_sizeofExpr (a : Ast) : Tends (fun n => sizeofExpr (Rs n) a) (sizeofExpr L a) := by
  unfold sizeofExpr
  tend h

macro_rules | `(tactic| solve_tend) => `(tactic| with_reducible exact t_sizeofExpr (by assumption) _)

theorem t_incdecExpr (op : SUn) (a : Ast) : Tends (fun n => incdecExpr (Rs n) op a) (incdecExpr L op a) := by
  unfold incdecExpr
  tend h

macro_rules | `(tactic| solve_tend) => `(tactic| with_reducible exact t_incdecExpr (by assumption) _ _)

theorem t_subscriptionExpr (a : Ast) : Tends (fun n => subscriptionExpr (Rs n) a) (subscriptionExpr L a) := by
  unfold subscriptionExpr
  tend h

macro_rules | `(tactic| solve_tend) => `(tactic| with_reducible exact t_subscriptionExpr (by assumption) _)

theorem t_argument (x : DType × Ast) : Tends (fun n => argument (Rs n) x) (argument L x) := by
  unfold argument
  tend h

macro_rules | `(tactic| solve_tend) => `(tactic| with_reducible exact t_argument (by assumption) _)

theorem t_arguments (ps : Params) (a : Ast) : Tends (fun n => arguments (Rs n) ps a) (arguments L ps a) := by
  unfold arguments
  tend h

macro_rules | `(tactic| solve_tend) => `(tactic| with_reducible exact t_arguments (by assumption) _ _)

theorem t_callExpr (a : Ast) : Tends (fun n => callExpr (Rs n) a) (callExpr L a) := by
  unfold callExpr
  refine .bind (.const _) fun _ => .bind (h.expr _) fun e => ?_
  dsimp only
  tend h

macro_rules | `(tactic| solve_tend) => `(tactic| with_reducible exact t_callExpr (by assumption) _)

theorem t_memberExpr (a : Ast) : Tends (fun n => memberExpr (Rs n) a) (memberExpr L a) := by
  unfold memberExpr
  tend h

macro_rules | `(tactic| solve_tend) => `(tactic| with_reducible exact t_memberExpr (by assumption) _)

theorem t_expr (a : Ast) : Tends (fun n => expr (Rs n) a) (expr L a) := by
  unfold expr
  tend h

macro_rules | `(tactic| solve_tend) => `(tactic| with_reducible exact t_expr (by assumption) _)

theorem t_zero (t : DType) : Tends (fun n => zero (Rs n) t) (zero L t) := by
  unfold zero
  tend h

macro_rules | `(tactic| solve_tend) => `(tactic| with_reducible exact t_zero (by assumption) _)

theorem t_scalarInit (t : DType) (a : Ast) : Tends (fun n => scalarInit (Rs n) t a) (scalarInit L t a) := by
  unfold scalarInit
  tend h

macro_rules | `(tactic| solve_tend) => `(tactic| with_reducible exact t_scalarInit (by assumption) _ _)

theorem t_elemInit (a : Ast) (t : DType) (k : Int) (c : Ast) : Tends (fun n => elemInit (Rs n) a t k c) (elemInit L a t k c) := by
  unfold elemInit
  tend h

macro_rules | `(tactic| solve_tend) => `(tactic| with_reducible exact t_elemInit (by assumption) _ _ _ _)

theorem t_elemInits (a : Ast) (ts : List DType) : Tends (fun n => elemInits (Rs n) a ts) (elemInits L a ts) := by
  induction ts with
  | nil => exact .const _
  | cons t ts ih =>
    unfold elemInits
    tend h

macro_rules | `(tactic| solve_tend) => `(tactic| with_reducible exact t_elemInits (by assumption) _ _)

theorem t_aggregateInit (b : Bool) (t : DType) (a : Ast) : Tends (fun n => aggregateInit (Rs n) b t a) (aggregateInit L b t a) := by
  unfold aggregateInit
  tend h

macro_rules | `(tactic| solve_tend) => `(tactic| with_reducible exact t_aggregateInit (by assumption) _ _ _)

theorem t_stringInit (b : Bool) (k : Nat) (a : Ast) : Tends (fun n => stringInit (Rs n) b k a) (stringInit L b k a) := by
  unfold stringInit
  tend h

macro_rules | `(tactic| solve_tend) => `(tactic| with_reducible exact t_stringInit (by assumption) _ _ _)

theorem t_init (b : Bool) (t : DType) (a : Ast) : Tends (fun n => init (Rs n) b t a) (init L b t a) := by
  unfold init
  tend h

macro_rules | `(tactic| solve_tend) => `(tactic| with_reducible exact t_init (by assumption) _ _ _)

theorem t_initDeclor (t : DType) (a : Ast) : Tends (fun n => initDeclor (Rs n) t a) (initDeclor L t a) := by
  unfold initDeclor
  tend h

macro_rules | `(tactic| solve_tend) => `(tactic| with_reducible exact t_initDeclor (by assumption) _ _)

theorem t_decl (a : Ast) : Tends (fun n => decl (Rs n) a) (decl L a) := by
  unfold decl
  tend h

macro_rules | `(tactic| solve_tend) => `(tactic| with_reducible exact t_decl (by assumption) _)

theorem t_item (b : Bool) (t : DType) (a : Ast) : Tends (fun n => item (Rs n) b t a) (item L b t a) := by
  unfold item
  tend h

macro_rules | `(tactic| solve_tend) => `(tactic| with_reducible exact t_item (by assumption) _ _ _)

theorem t_items (b : Bool) (t : DType) (as : List Ast) : Tends (fun n => items (Rs n) b t as) (items L b t as) := by
  induction as with
  | nil => exact .const _
  | cons a as ih =>
    unfold items
    tend h

macro_rules | `(tactic| solve_tend) => `(tactic| with_reducible exact t_items (by assumption) _ _ _)

theorem t_compound (b : Bool) (t : DType) (a : Ast) : Tends (fun n => compound (Rs n) b t a) (compound L b t a) := by
  unfold compound
  tend h

macro_rules | `(tactic| solve_tend) => `(tactic| with_reducible exact t_compound (by assumption) _ _ _)

theorem t_caseStmt (b : Bool) (t : DType) (a : Ast) : Tends (fun n => caseStmt (Rs n) b t a) (caseStmt L b t a) := by
  unfold caseStmt
  tend h

macro_rules | `(tactic| solve_tend) => `(tactic| with_reducible exact t_caseStmt (by assumption) _ _ _)

theorem t_defaultStmt (b : Bool) (t : DType) (a : Ast) : Tends (fun n => defaultStmt (Rs n) b t a) (defaultStmt L b t a) := by
  unfold defaultStmt
  tend h

macro_rules | `(tactic| solve_tend) => `(tactic| with_reducible exact t_defaultStmt (by assumption) _ _ _)

theorem t_returnStmt (t : DType) (a : Ast) : Tends (fun n => returnStmt (Rs n) t a) (returnStmt L t a) := by
  unfold returnStmt
  tend h

macro_rules | `(tactic| solve_tend) => `(tactic| with_reducible exact t_returnStmt (by assumption) _ _)

theorem t_ifStmt (b : Bool) (t : DType) (a : Ast) : Tends (fun n => ifStmt (Rs n) b t a) (ifStmt L b t a) := by
  unfold ifStmt
  tend h

macro_rules | `(tactic| solve_tend) => `(tactic| with_reducible exact t_ifStmt (by assumption) _ _ _)

theorem t_switchStmt (b : Bool) (t : DType) (a : Ast) : Tends (fun n => switchStmt (Rs n) b t a) (switchStmt L b t a) := by
  unfold switchStmt
  tend h

macro_rules | `(tactic| solve_tend) => `(tactic| with_reducible exact t_switchStmt (by assumption) _ _ _)

theorem t_whileStmt (t : DType) (a : Ast) : Tends (fun n => whileStmt (Rs n) t a) (whileStmt L t a) := by
  unfold whileStmt
  tend h

macro_rules | `(tactic| solve_tend) => `(tactic| with_reducible exact t_whileStmt (by assumption) _ _)

theorem t_forInit (b : Bool) (t : DType) (a : Ast) : Tends (fun n => forInit (Rs n) b t a) (forInit L b t a) := by
  unfold forInit
  tend h

macro_rules | `(tactic| solve_tend) => `(tactic| with_reducible exact t_forInit (by assumption) _ _ _)

theorem t_forStmt (b : Bool) (t : DType) (a : Ast) : Tends (fun n => forStmt (Rs n) b t a) (forStmt L b t a) := by
  unfold forStmt
  tend h

macro_rules | `(tactic| solve_tend) => `(tactic| with_reducible exact t_forStmt (by assumption) _ _ _)

theorem t_stmt (b : Bool) (t : DType) (a : Ast) : Tends (fun n => stmt (Rs n) b t a) (stmt L b t a) := by
  unfold stmt
  tend h

macro_rules | `(tactic| solve_tend) => `(tactic| with_reducible exact t_stmt (by assumption) _ _ _)

theorem t_funcDef (a : Ast) : Tends (fun n => funcDef (Rs n) a) (funcDef L a) := by
  unfold funcDef
  tend h

macro_rules | `(tactic| solve_tend) => `(tactic| with_reducible exact t_funcDef (by assumption) _)

theorem t_external (a : Ast) : Tends (fun n => external (Rs n) a) (external L a) := by
  unfold external
  tend h

macro_rules | `(tactic| solve_tend) => `(tactic| with_reducible exact t_external (by assumption) _)

theorem t_externals (as : List Ast) : Tends (fun n => externals (Rs n) as) (externals L as) := by
  induction as with
  | nil => exact .const _
  | cons a as ih =>
    unfold externals
    tend h

macro_rules | `(tactic| solve_tend) => `(tactic| with_reducible exact t_externals (by assumption) _)

theorem t_transUnit (a : Ast) : Tends (fun n => transUnit (Rs n) a) (transUnit L a) := by
  unfold transUnit
  tend h

macro_rules | `(tactic| solve_tend) => `(tactic| with_reducible exact t_transUnit (by assumption) _)

theorem t_step : TendsR (fun n => step (Rs n)) (step L) :=
  ⟨t_expr h, t_spec h, t_declor h, t_init h, t_zero h, t_stmt h⟩

end

/-- with a larger depth a call that returns returns the same -/
structure Le (R R' : Rec) : Prop where
  expr : ∀ a s, R.expr a s ≠ .hang → R'.expr a s = R.expr a s
  spec : ∀ a s, R.spec a s ≠ .hang → R'.spec a s = R.spec a s
  declor : ∀ t ws a s, R.declor t ws a s ≠ .hang → R'.declor t ws a s = R.declor t ws a s
  init : ∀ b t a s, R.init b t a s ≠ .hang → R'.init b t a s = R.init b t a s
  zero : ∀ t s, R.zero t s ≠ .hang → R'.zero t s = R.zero t s
  stmt : ∀ b t a s, R.stmt b t a s ≠ .hang → R'.stmt b t a s = R.stmt b t a s

theorem tends_of_le {m m' : RM α} (h : ∀ s, m s ≠ .hang → m' s = m s) (f : Rec → RM α) (R R' : Rec) (h1 : f R = m) (h2 : f R' = m') :
    Tends (fun n => f (if n = 0 then R else R')) (f R') := by
  intro s
  by_cases hs : m s = .hang
  · refine ⟨1, fun n hn => ?_, fun n hn => ?_⟩
    · have : n = 0 := by omega
      simp [this, h1, hs]
    · have : n ≠ 0 := by omega
      simp [this]
  · refine ⟨0, fun n hn => absurd hn (Nat.not_lt_zero _), fun n hn => ?_⟩
    by_cases hn : n = 0
    · simp [hn, h1, h2, h s hs]
    · simp [hn]

theorem le_of_tends {f : Rec → RM α} {R R' : Rec} (h : Tends (fun n => f (if n = 0 then R else R')) (f R')) (s : RState)
    (hs : f R s ≠ .hang) : f R' s = f R s := by
  obtain ⟨N, h1, h2⟩ := h s
  by_cases hN : N = 0
  · simpa using (h2 0 (by omega)).symm
  · have := h1 0 (by omega)
    simp at this
    exact absurd this hs

theorem Le.tendsR {R R' : Rec} (h : Le R R') : TendsR (fun n => if n = 0 then R else R') R' where
  expr a := tends_of_le (h.expr a) (·.expr a) R R' rfl rfl
  spec a := tends_of_le (h.spec a) (·.spec a) R R' rfl rfl
  declor t ws a := tends_of_le (h.declor t ws a) (·.declor t ws a) R R' rfl rfl
  init b t a := tends_of_le (h.init b t a) (·.init b t a) R R' rfl rfl
  zero t := tends_of_le (h.zero t) (·.zero t) R R' rfl rfl
  stmt b t a := tends_of_le (h.stmt b t a) (·.stmt b t a) R R' rfl rfl

theorem le_step {R R' : Rec} (h : Le R R') : Le (step R) (step R') :=
  have k := t_step h.tendsR
  ⟨fun a => le_of_tends (f := fun R => (step R).expr a) (k.expr a), fun a => le_of_tends (f := fun R => (step R).spec a) (k.spec a),
   fun t ws a => le_of_tends (f := fun R => (step R).declor t ws a) (k.declor t ws a), fun b t a => le_of_tends (f := fun R => (step R).init b t a) (k.init b t a),
   fun t => le_of_tends (f := fun R => (step R).zero t) (k.zero t), fun b t a => le_of_tends (f := fun R => (step R).stmt b t a) (k.stmt b t a)⟩

theorem le_succ (n : Nat) : Le (resolver n) (resolver (n + 1)) := by
  induction n with
  | zero => exact ⟨fun _ _ h => absurd rfl h, fun _ _ h => absurd rfl h, fun _ _ _ _ h => absurd rfl h, fun _ _ _ _ h => absurd rfl h,
      fun _ _ h => absurd rfl h, fun _ _ _ _ h => absurd rfl h⟩
  | succ n ih => exact le_step ih

/-- a sequence that keeps every outcome but `hang` -/
theorem exists_limit (m : Nat → RM α) (h : ∀ n s, m n s ≠ .hang → m (n + 1) s = m n s) : ∃ l, Tends m l := by
  have key : ∀ s, ∃ o, ∃ N, (∀ n, n < N → m n s = .hang) ∧ ∀ n, N ≤ n → m n s = o := by
    intro s
    by_cases hh : ∃ n, m n s ≠ .hang
    · have hmin : ∃ N, m N s ≠ .hang ∧ ∀ n, n < N → m n s = .hang := by
        obtain ⟨n, hn⟩ := hh
        induction n using Nat.strongRecOn with
        | ind n ih =>
          by_cases hk : ∃ k, k < n ∧ m k s ≠ .hang
          · obtain ⟨k, hk1, hk2⟩ := hk
            exact ih k hk1 hk2
          · exact ⟨n, hn, fun k hk' => Classical.byContradiction fun hne => hk ⟨k, hk', hne⟩⟩
      obtain ⟨N, hN, hlt⟩ := hmin
      refine ⟨m N s, N, hlt, fun n hn => ?_⟩
      induction hn with
      | refl => rfl
      | step hle ih => rw [h _ s (by rw [ih]; exact hN), ih]
    · exact ⟨.hang, 0, fun _ h => absurd h (Nat.not_lt_zero _), fun n _ => Classical.byContradiction fun hne => hh ⟨n, hne⟩⟩
  exact ⟨fun s => (key s).choose, fun s => (key s).choose_spec⟩

/-- the resolver without a bound on the depth of calls: the limit of `resolver n` -/
noncomputable def full : Rec where
  expr a := (exists_limit (fun n => (resolver n).expr a) fun n s => (le_succ n).expr a s).choose
  spec a := (exists_limit (fun n => (resolver n).spec a) fun n s => (le_succ n).spec a s).choose
  declor t ws a := (exists_limit (fun n => (resolver n).declor t ws a) fun n s => (le_succ n).declor t ws a s).choose
  init b t a := (exists_limit (fun n => (resolver n).init b t a) fun n s => (le_succ n).init b t a s).choose
  zero t := (exists_limit (fun n => (resolver n).zero t) fun n s => (le_succ n).zero t s).choose
  stmt b t a := (exists_limit (fun n => (resolver n).stmt b t a) fun n s => (le_succ n).stmt b t a s).choose

theorem tends_full : TendsR resolver full where
  expr a := (exists_limit (fun n => (resolver n).expr a) fun n s => (le_succ n).expr a s).choose_spec
  spec a := (exists_limit (fun n => (resolver n).spec a) fun n s => (le_succ n).spec a s).choose_spec
  declor t ws a := (exists_limit (fun n => (resolver n).declor t ws a) fun n s => (le_succ n).declor t ws a s).choose_spec
  init b t a := (exists_limit (fun n => (resolver n).init b t a) fun n s => (le_succ n).init b t a s).choose_spec
  zero t := (exists_limit (fun n => (resolver n).zero t) fun n s => (le_succ n).zero t s).choose_spec
  stmt b t a := (exists_limit (fun n => (resolver n).stmt b t a) fun n s => (le_succ n).stmt b t a s).choose_spec

theorem Tends.unique {m : Nat → RM α} {l l' : RM α} (h : Tends m l) (h' : Tends (fun n => m (n + 1)) l') : l = l' := by
  funext s
  obtain ⟨N, -, h2⟩ := h s
  obtain ⟨N', -, h2'⟩ := h' s
  rw [← h2 (max N N' + 1) (by omega), ← h2' (max N N') (by omega)]

/-- the resolver without a bound satisfies the recursive equations -/
theorem full_expr (a : Ast) : full.expr a = expr full a := (tends_full.expr a).unique ((t_step tends_full).expr a)
theorem full_spec (a : Ast) : full.spec a = spec full a := (tends_full.spec a).unique ((t_step tends_full).spec a)
theorem full_declor (t : DType) (ws : List Wrap) (a : Ast) : full.declor t ws a = declor full t ws a :=
  (tends_full.declor t ws a).unique ((t_step tends_full).declor t ws a)
theorem full_init (b : Bool) (t : DType) (a : Ast) : full.init b t a = init full b t a := (tends_full.init b t a).unique ((t_step tends_full).init b t a)
theorem full_zero (t : DType) : full.zero t = zero full t := (tends_full.zero t).unique ((t_step tends_full).zero t)
theorem full_stmt (b : Bool) (t : DType) (a : Ast) : full.stmt b t a = stmt full b t a := (tends_full.stmt b t a).unique ((t_step tends_full).stmt b t a)

/-- outcome of a run: the state is not looked at -/
def outcome (x : Out (Option α × RState)) : Out (Option α) :=
  match x with
  | .ok (r, _) => .ok r
  | .err => .err
  | .fatal => .fatal
  | .ub => .ub
  | .hang => .hang

/-- The depth is enough from some point on, before that the outcome is `hang`. -/
theorem resolve_tends (a : Ast) : ∃ N, (∀ n, n < N → resolve n a = .hang) ∧ ∀ n, N ≤ n → resolve n a = outcome (transUnit full a initial) := by
  obtain ⟨N, h1, h2⟩ := t_transUnit tends_full a initial
  exact ⟨N, fun n hn => by simp [resolve, h1 n hn], fun n hn => by
    simp only [resolve, h2 n hn, outcome]
    cases transUnit full a initial <;> rfl⟩

/-- more depth does not change an outcome -/
theorem resolve_mono {n m : Nat} (h : n ≤ m) (a : Ast) (hn : resolve n a ≠ .hang) : resolve m a = resolve n a := by
  obtain ⟨N, h1, h2⟩ := resolve_tends a
  have : N ≤ n := Classical.byContradiction fun hlt => hn (h1 n (by omega))
  rw [h2 n this, h2 m (by omega)]

end Res
end Umlcc
