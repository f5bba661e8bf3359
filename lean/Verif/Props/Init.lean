import Verif.Lemma.Init
import Verif.Props.Resolver
/-!
C28: initialisers.
-/
namespace Umlcc
namespace Res
open Ini Syn

/-- C28, for objects made of `char`, `int` and pointers by arrays and structs in any nesting, and initialisers with any nesting of braces whose expressions have
integer types. Missing: the other integer types (see the violation) and strings. The initialiser is accepted exactly when C accepts it, and then sets each scalar
to what C says: the listed values in order, subobjects without braces of their own taking what they need, zero for the rest. -/
theorem C28_initialisers_partial (env : Str → Option RSym) (tags : Str → Option DType) (k : Shape) (t : DType) (h : HasShape tags k t) (i : Init) (hp : PlainInit (env, tags) i)
    (s : RState) (hs : ∀ n, lookup n s.syms = env n) (ht : ∀ n, lookup n s.tags = tags n) (h0 : s.initOff = 0) :
    ∃ r s', Runs (·.init false t i.ast) s (.ok (r, s')) ∧ (r.isSome = true ↔ (object k i).isSome = true) ∧
      ∀ tr y, object k i = some tr → r = some y → Sets (env, tags) tr y := by
  obtain ⟨r, k', h1, h2⟩ := object_run k t h i hp s ⟨hs, ht⟩ ht h0
  refine ⟨r, _, runs_of_tends (tends_full.init _ _ _) h1, ?_, ?_⟩
  · cases ho : object k i with
    | none => rw [ho] at h2; simp [h2]
    | some tr =>
      rw [ho] at h2
      obtain ⟨y, rfl, -⟩ := h2
      simp
  · rintro tr y ho rfl
    rw [ho] at h2
    obtain ⟨y', hy, h3⟩ := h2
    cases hy
    exact h3

theorem means_int (env : Ini.Env) (l : ILit) : Means env (.int l) (.ilit (litType l.type) l) :=
  ⟨by cases h : l.type <;> simp [SExpr.dt, litType, DType.isInteger], fun s _ _ => runs_of_tends (tends_full.expr _) (by rw [full_expr]; rfl)⟩

def num (n : Nat) : Init := .expr (.int ⟨.int, n⟩)

/-- `struct { int a; int b[2]; } x[2] = { 1, 2, 3, {4, {5}} }` with the tag of the struct looked up -/
def sampleShape : Shape :=
  let st : Shape := .node (.cons (.leaf .int) (.cons (.node (.cons (.leaf .int) (.cons (.leaf .int) .nil))) .nil))
  .node (.cons st (.cons st .nil))
def sampleInit : Init := .list (.cons (num 1) (.cons (num 2) (.cons (num 3) (.one (.list (.cons (num 4) (.one (.list (.one (num 5))))))))))
def sampleStruct : DType := .ustruct (.cons [97] .int 0 (.cons [98] (.arr .int 2) 4 .nil)) 12 4
example : HasShape (fun n => if n = [83] then some sampleStruct else none) sampleShape (.arr (.nstruct [83] 12 4) 2) := by
  have h1 : ∀ tags, HasShape tags (.node (.cons (.leaf .int) (.cons (.leaf .int) .nil))) (.arr .int 2) := fun tags => by
    rw [HasShape]
    exact .inl ⟨.int, 2, rfl, by simp [HasShapes, HasShape, List.replicate]⟩
  have h2 : HasShape (fun n => if n = [83] then some sampleStruct else none)
      (.node (.cons (.leaf .int) (.cons (.node (.cons (.leaf .int) (.cons (.leaf .int) .nil))) .nil))) (.nstruct [83] 12 4) := by
    rw [HasShape]
    exact .inr (.inr ⟨_, _, _, _, _, _, rfl, rfl, by simp only [memberTypes, HasShapes]; exact ⟨by simp [HasShape], h1 _, trivial⟩⟩)
  rw [sampleShape, HasShape]
  exact .inl ⟨_, 2, rfl, by simp only [List.replicate, HasShapes]; exact ⟨h2, h2, trivial⟩⟩
example : PlainInit (fun _ => none, fun _ => none) sampleInit := by
  have := fun n : Nat => means_int (fun _ => none, fun _ => none) ⟨.int, n⟩
  simp only [sampleInit, num, PlainInit, PlainInits]
  exact ⟨⟨_, this 1⟩, ⟨_, this 2⟩, ⟨_, this 3⟩, ⟨_, this 4⟩, ⟨_, this 5⟩⟩
example : object sampleShape sampleInit = some (.node (.cons (.node (.cons (.val .int (.int ⟨.int, 1⟩)) (.cons (.node (.cons (.val .int (.int ⟨.int, 2⟩)) (.cons (.val .int (.int ⟨.int, 3⟩)) .nil))) .nil)))
  (.cons (.node (.cons (.val .int (.int ⟨.int, 4⟩)) (.cons (.node (.cons (.val .int (.int ⟨.int, 5⟩)) (.cons (.zero .int) .nil))) .nil))) .nil))) := by
  simp [object, sampleShape, sampleInit, num, takeL, take, scalar, listOf, DType.isArithmetic, DType.isInteger, zerosL, zeros]

/-- the tree of the declaration `long a[2] = {1};` -/
def longArray : Ast := unitAst [.decl ⟨[.ty .long], [⟨[97], .arr .leaf (.int ⟨.int, 2⟩), some (.list (.one (num 1)))⟩]⟩]

/-- filling up with zeros is a fatal error for integer types other than `char` and `int`: `long a[2] = {1};` stops the compiler without a diagnostic -/
theorem C28_zero_fill_violated : Resolves longArray .fatal := resolves_fuel 10 rfl (by simp)

/-- the tree of `char s[2][4] = {"abc", "de"};` -/
def strArray : Ast := unitAst [.decl ⟨[.ty .char], [⟨[115], .arr (.arr .leaf (.int ⟨.int, 2⟩)) (.int ⟨.int, 4⟩),
  some (.list (.cons (.expr (.str [97, 98, 99, 0])) (.one (.expr (.str [100, 101, 0])))))⟩]⟩]

/-- strings as elements of an initialiser list are refused: `char s[2][4] = {"abc", "de"};` -/
theorem C28_nested_string_violated : Resolves strArray (.ok none) := resolves_fuel 10 rfl (by simp)

end Res
end Umlcc
