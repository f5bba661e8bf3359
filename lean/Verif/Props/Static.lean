import Verif.Lemma.StaticTree
import Verif.Lemma.StaticMono
import Verif.Lemma.Enum
/-!
C66: the resolver accepts exactly the expressions that C allows and gives them the types and conversions of C.

* `Stat.tree false` is C (`Spec/Static.lean`), `StatL.scope` reads the names and tags in scope off the state of the resolver, `StatL.push` is
  that state after string literals: each becomes a numbered declaration of the translation unit.
* `Stat.tree true` is the same with the cases in which the compiler is known to differ left out. The theorem covers all the others, that is
  every state, every expression and any depth. Witnesses of the cases left out follow.
-/
namespace Umlcc
namespace Stat
open Syn StatL
open Res (RState RSym Runs initial tends_full runs_fuel runs_of_tends)

/-- the outcome of the resolver on the expression is that of C -/
def Conforms (s : RState) (e : Expr) : Prop :=
  match tree false (scope s) (s.sid + 1) e with
  | .ok x => Runs (·.expr e.ast) s (.ok (some x, push s (strs e)))
  | .bad => ∃ ss, ss <+: strs e ∧ Runs (·.expr e.ast) s (.ok (none, push s ss))
  | .out => True

/-- C66, what is claimed of the code -/
def C66_full : Prop := ∀ s e, Conforms s e

/-- C66 holds wherever the compiler is not known to differ -/
theorem C66_expressions_partial (s : RState) (e : Expr) (h : tree true (scope s) (s.sid + 1) e ≠ .out) : Conforms s e := by
  have hd := tree_does e s
  have hl := tree_le (scope s) e (s.sid + 1)
  unfold Conforms
  rcases hl with hl | hl
  · exact absurd hl h
  · rw [hl] at hd
    cases hv : tree false (scope s) (s.sid + 1) e with
    | out => trivial
    | ok x => rw [hv] at hd; exact runs_of_tends (tends_full.expr _) hd
    | bad => rw [hv] at hd; obtain ⟨ss, h1, h2⟩ := hd; exact ⟨ss, h1, runs_of_tends (tends_full.expr _) h2⟩

/-- names in scope -/
def st (syms : List (Id × RSym)) (tags : List (Id × DType)) : RState := { initial with syms := [syms], tags := [tags] }

def px : Id := [120]
def pp : Id := [112]
def pq : Id := [113]
def pc : Id := [99]
def pf : Id := [102]
def pS : Id := [83]
def pm : Id := [109]
def one : Expr := .int ⟨.int, 1⟩
def zero : Expr := .int ⟨.int, 0⟩
/-- `struct S { char c; int m; }` -/
def sMembers : Members := .cons pc .char 0 (.cons pm .int 4 .nil)
/-- `struct S { char c; int m; }; int x; int *p, *q; char c; int f(char *, long); int a[4]; void *v; struct S s; struct S t[2]; struct S g(void)` -/
def sample : RState := st
  [(px, .obj .int), (pp, .obj (.ptr .int)), (pq, .obj (.ptr .int)), (pc, .obj .char),
   (pf, .obj (.func (.cons none (.ptr .char) (.cons none .long .nil)) .int)), ([97], .obj (.arr .int 4)), ([118], .obj (.ptr .void)),
   ([115], .obj (.nstruct pS 8 4)), ([116], .obj (.arr (.nstruct pS 8 4) 2)), ([103], .obj (.func .nil (.nstruct pS 8 4))), ([84], .obj (.tdef (.ptr .int)))]
  [(pS, .ustruct sMembers 8 4)]

theorem not_out {v : V α} {x : α} (h : v = .ok x) : v ≠ .out := by simp [h]
theorem tyName_leaf (lim : Bool) (Γ : Stat.Scope) (ss : Specs) : tyName lim Γ (.mk ss .leaf) = (V.and (specsTy lim Γ (specList ss)) (.ok []) >>= fun p => deriveV lim p.1 p.2) := by
  simp only [tyName, dtor]

/-- `x = f("ab", c + 1) + (p + 1)[2] * t[c].m` is covered, with the types of C -/
example : tree true (scope sample) 0 (.assign .asg (.ident px)
      (.bin .add (.call (.ident pf) (.cons (.str [97, 98, 0]) (.cons (.bin .add (.ident pc) one) .nil)))
        (.bin .mul (.subsc (.bin .add (.ident pp) one) (.int ⟨.int, 2⟩)) (.member (.subsc (.ident [116]) (.ident pc)) pm)))) =
    .ok (.bin .assign .int (.un .addr (.ptr .int) (.ident .int px))
      (.bin .add .int
        (.call .int (.un .addr (.ptr (.func (.cons none (.ptr .char) (.cons none .long .nil)) .int)) (.ident (.func (.cons none (.ptr .char) (.cons none .long .nil)) .int) pf))
          (.cons (.un .addr (.ptr .char) (.str (.arr .char 3) 0))
          (.cons (.un .cast .long (.bin .add .int (.un .cast .int (.ident .char pc)) (.ilit .int ⟨.int, 1⟩))) .nil)))
        (.bin .mul .int
          (.un .indir .int (.bin .padd (.ptr .int) (.bin .padd (.ptr .int) (.ident (.ptr .int) pp) (.ilit .int ⟨.int, 1⟩)) (.ilit .int ⟨.int, 2⟩)))
          (.tomember .int (.un .addr (.ptr (.nstruct pS 8 4)) (.un .indir (.nstruct pS 8 4) (.bin .padd (.ptr (.nstruct pS 8 4))
            (.un .addr (.ptr (.nstruct pS 8 4)) (.ident (.arr (.nstruct pS 8 4) 2) [116])) (.ident .char pc)))) .int pm)))) := rfl
/-- `(T)&a[c ? 1 : x]` with a typedef name -/
example : tree true (scope sample) 0 (.cast (.mk (.one (.tdname [84])) .leaf) (.un .addr (.subsc (.ident [97]) (.cond (.ident pc) one (.ident px))))) =
    .ok (.un .cast (.ptr .int) (.un .addr (.ptr .int) (.un .indir .int (.bin .padd (.ptr .int) (.un .addr (.ptr .int) (.ident (.arr .int 4) [97]))
      (.cond .int (.ident .char pc) (.ilit .int ⟨.int, 1⟩) (.ident .int px)))))) := by
  rw [tree, tyName_leaf]; rfl
/-- `p = &c`, `x.m`, `*x`, `1 = x`, `f(p, 1)`, `f("ab")`, `p * 2`, `a = p`, `&1` and an unknown name are refused -/
example : [tree true (scope sample) 0 (.assign .asg (.ident pp) (.un .addr (.ident pc))), tree true (scope sample) 0 (.member (.ident px) pm),
    tree true (scope sample) 0 (.un .indir (.ident px)), tree true (scope sample) 0 (.assign .asg one (.ident px)),
    tree true (scope sample) 0 (.call (.ident pf) (.cons (.ident pp) (.cons one .nil))), tree true (scope sample) 0 (.call (.ident pf) (.cons (.ident pc) .nil)),
    tree true (scope sample) 0 (.bin .mul (.ident pp) one), tree true (scope sample) 0 (.assign .asg (.ident [97]) (.ident pp)),
    tree true (scope sample) 0 (.un .addr one), tree true (scope sample) 0 (.ident [122])].all (· matches .bad) = true := rfl
example : ∃ s', Runs (·.expr (Expr.assign .asg (.ident px) (.call (.ident pf) (.cons (.str [97, 98, 0]) (.cons (.ident pc) .nil)))).ast) sample
    (.ok (some (.bin .assign .int (.un .addr (.ptr .int) (.ident .int px))
      (.call .int (.un .addr (.ptr (.func (.cons none (.ptr .char) (.cons none .long .nil)) .int)) (.ident (.func (.cons none (.ptr .char) (.cons none .long .nil)) .int) pf))
          (.cons (.un .addr (.ptr .char) (.str (.arr .char 3) 0)) (.cons (.un .cast .long (.ident .char pc)) .nil)))), s')) :=
  ⟨push sample [[97, 98, 0]], C66_expressions_partial sample (.assign .asg (.ident px) (.call (.ident pf) (.cons (.str [97, 98, 0]) (.cons (.ident pc) .nil)))) (not_out rfl)⟩

/-! ### where the code differs from C -/

/-- C says `v`, the compiler answers `o` -/
def Differs (s : RState) (e : Expr) (v : V SExpr) (o : Option SExpr) : Prop :=
  tree false (scope s) (s.sid + 1) e = v ∧ ∃ s', Runs (·.expr e.ast) s (.ok (o, s'))

theorem differs_of {s : RState} {e : Expr} {v : V SExpr} {o : Option SExpr} {s' : RState} (n : Nat) (hv : tree false (scope s) (s.sid + 1) e = v)
    (ho : (Res.resolver n).expr e.ast s = .ok (o, s')) : Differs s e v o :=
  ⟨hv, s', runs_fuel (tends_full.expr _) n ho (by simp)⟩

/-- `q - p` has an unsigned type -/
theorem C66_pointer_difference_violated : Differs sample (.bin .sub (.ident pq) (.ident pp))
    (.ok (.bin .pdiff .long (.ident (.ptr .int) pq) (.ident (.ptr .int) pp))) (some (.bin .pdiff .ullong (.ident (.ptr .int) pq) (.ident (.ptr .int) pp))) :=
  differs_of 10 rfl rfl
/-- `sizeof x` has type `int` -/
theorem C66_sizeof_type_violated : Differs sample (.sizeofE (.ident px)) (.ok (.ilit .ulong ⟨.ulong, 4⟩)) (some (.ilit .int ⟨.int, 4⟩)) :=
  differs_of 10 rfl rfl
/-- `x >> 1L` has type `long` -/
theorem C66_shift_type_violated : Differs sample (.bin .shr (.ident px) (.int ⟨.long, 1⟩))
    (.ok (.bin .rshift .int (.ident .int px) (.ilit .long ⟨.long, 1⟩)))
    (some (.bin .rshift .long (.un .cast .long (.ident .int px)) (.ilit .long ⟨.long, 1⟩))) :=
  differs_of 10 rfl rfl
/-- `p == 0` is refused -/
theorem C66_null_comparison_violated : Differs sample (.bin .eq (.ident pp) zero)
    (.ok (.bin .equal .int (.ident (.ptr .int) pp) (.un .cast (.ptr .int) (.ilit .int ⟨.int, 0⟩)))) none :=
  differs_of 10 rfl rfl
/-- `p = 0` is refused -/
theorem C66_null_assignment_violated : Differs sample (.assign .asg (.ident pp) zero)
    (.ok (.bin .assign (.ptr .int) (.un .addr (.ptr (.ptr .int)) (.ident (.ptr .int) pp)) (.un .cast (.ptr .int) (.ilit .int ⟨.int, 0⟩)))) none :=
  differs_of 10 rfl rfl
/-- `x ? p : 0` is refused -/
theorem C66_null_arm_violated : Differs sample (.cond (.ident px) (.ident pp) zero)
    (.ok (.cond (.ptr .int) (.ident .int px) (.ident (.ptr .int) pp) (.un .cast (.ptr .int) (.ilit .int ⟨.int, 0⟩)))) none :=
  differs_of 10 rfl rfl
/-- `p == v` with a pointer to `void` is refused -/
theorem C66_void_comparison_violated : Differs sample (.bin .eq (.ident pp) (.ident [118]))
    (.ok (.bin .equal .int (.un .cast (.ptr .void) (.ident (.ptr .int) pp)) (.ident (.ptr .void) [118]))) none :=
  differs_of 10 rfl rfl
/-- `s = t[1]` is refused -/
theorem C66_struct_assignment_violated : Differs sample (.assign .asg (.ident [115]) (.subsc (.ident [116]) one))
    (.ok (.bin .assign (.nstruct pS 8 4) (.un .addr (.ptr (.nstruct pS 8 4)) (.ident (.nstruct pS 8 4) [115]))
      (.un .indir (.nstruct pS 8 4) (.bin .padd (.ptr (.nstruct pS 8 4)) (.un .addr (.ptr (.nstruct pS 8 4)) (.ident (.arr (.nstruct pS 8 4) 2) [116])) (.ilit .int ⟨.int, 1⟩))))) none :=
  differs_of 10 rfl rfl
/-- `&s.m` is refused -/
theorem C66_member_address_violated : Differs sample (.un .addr (.member (.ident [115]) pm))
    (.ok (.un .addr (.ptr .int) (.tomember .int (.un .addr (.ptr (.nstruct pS 8 4)) (.ident (.nstruct pS 8 4) [115])) .int pm))) none :=
  differs_of 10 rfl rfl
/-- `(long)a` with an array is refused -/
theorem C66_array_cast_violated : Differs sample (.cast (.mk (.one .long) .leaf) (.ident [97]))
    (.ok (.un .cast .long (.un .addr (.ptr .int) (.ident (.arr .int 4) [97])))) none :=
  differs_of 10 (by rw [tree, tyName_leaf]; rfl) rfl
/-- `t->m` with an array is refused -/
theorem C66_array_arrow_violated : Differs sample (.arrow (.ident [116]) pm)
    (.ok (.tomember .int (.un .addr (.ptr (.nstruct pS 8 4)) (.ident (.arr (.nstruct pS 8 4) 2) [116])) .int pm)) none :=
  differs_of 10 rfl rfl
/-- `x ? (void)0 : (void)0` is refused -/
theorem C66_void_arms_violated : Differs sample (.cond (.ident px) (.cast (.mk (.one .void) .leaf) zero) (.cast (.mk (.one .void) .leaf) zero))
    (.ok (.cond .void (.ident .int px) (.un .cast .void (.ilit .int ⟨.int, 0⟩)) (.un .cast .void (.ilit .int ⟨.int, 0⟩)))) none :=
  differs_of 10 (by simp only [tree, tyName_leaf]; rfl) rfl
/-- `g().m = 1` is accepted -/
theorem C66_rvalue_member_violated : ∃ x, Differs sample (.assign .asg (.member (.call (.ident [103]) .nil) pm) one) .bad (some x) :=
  ⟨_, differs_of 10 rfl rfl⟩
/-- `v + 1` with a pointer to `void` is accepted -/
theorem C66_void_arithmetic_violated : ∃ x, Differs sample (.bin .add (.ident [118]) one) .bad (some x) :=
  ⟨_, differs_of 10 rfl rfl⟩
/-- `f < f` is accepted -/
theorem C66_function_order_violated : ∃ x, Differs sample (.bin .lt (.ident pf) (.ident pf)) .bad (some x) :=
  ⟨_, differs_of 10 rfl rfl⟩
/-- `struct S *r;` declared before `struct S { char c; int m; };` keeps pointing to a struct of size 0: `r + 1` is `r` -/
theorem C66_stale_size_violated : Differs (st [([114], .obj (.ptr (.nstruct pS 0 0)))] [(pS, .ustruct sMembers 8 4)]) (.bin .add (.ident [114]) one)
    (.ok (.bin .padd (.ptr (.nstruct pS 8 4)) (.ident (.ptr (.nstruct pS 8 4)) [114]) (.ilit .int ⟨.int, 1⟩)))
    (some (.bin .padd (.ptr (.nstruct pS 0 0)) (.ident (.ptr (.nstruct pS 0 0)) [114]) (.ilit .int ⟨.int, 1⟩))) :=
  differs_of 10 rfl rfl

/-- hence the claim is false as it stands -/
theorem C66_violated : ¬ C66_full := by
  intro h
  have h1 := h sample (.bin .eq (.ident pp) zero)
  obtain ⟨h2, s', h3⟩ := C66_null_comparison_violated
  rw [Conforms, h2] at h1
  obtain ⟨n, h1⟩ := h1
  obtain ⟨m, h3⟩ := h3
  have := (h1 (max n m) (by omega)).symm.trans (h3 (max n m) (by omega))
  simp at this

end Stat
end Umlcc
