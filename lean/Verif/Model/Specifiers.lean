import Verif.Model.DType
/-!
Model of `sort_ast_type` (`src/resolver/utils.c`) and of the table in `resolve_type_specifier_list`
(`src/resolver/declaration.c:93-191`).
-/
namespace Umlcc
namespace Specifiers

/-- `while (i < j && ast_types[j] > pivot) j--`, utils.c:13-15; returns the final `j` -/
def scanDown (a : List Nat) (p i : Nat) : Nat → Out Nat
  | 0 => .ok 0
  | j + 1 =>
    if i < j + 1 then
      match a[j + 1]? with
      | none => .ub
      | some x => if x > p then scanDown a p i j else .ok (j + 1)
    else .ok (j + 1)

/-- `while (i < j && ast_types[i] <= pivot) i++`, utils.c:17-19; returns the final `i`. `fuel` bounds the iterations. -/
def scanUp (a : List Nat) (p j : Nat) : Nat → Nat → Out Nat
  | 0, _ => .hang
  | fuel + 1, i =>
    if i < j then
      match a[i]? with
      | none => .ub
      | some x => if x ≤ p then scanUp a p j fuel (i + 1) else .ok i
    else .ok i

/-- array store -/
def store (a : List Nat) (i x : Nat) : Out (List Nat) := if i < a.length then .ok (a.set i x) else .ub

/-- array load -/
def load (a : List Nat) (i : Nat) : Out Nat := match a[i]? with | some x => .ok x | none => .ub

/-- the outer `while (i < j)`, utils.c:12-21 -/
def partition (p : Nat) : Nat → List Nat → Nat → Nat → Out (List Nat × Nat × Nat)
  | 0, _, _, _ => .hang
  | fuel + 1, a, i, j =>
    if i < j then do
      let j ← scanDown a p i j
      let x ← load a j
      let a ← store a i x
      let i ← scanUp a p j (a.length + 1) i
      let x ← load a i
      let a ← store a j x
      partition p fuel a i j
    else .ok (a, i, j)

/-- `sort_ast_type(ast_types, lo, hi - 1)`, utils.c:3-27. `hi` is `end + 1` so that all indices are natural. -/
def sort : Nat → List Nat → Nat → Nat → Out (List Nat)
  | 0, _, _, _ => .hang
  | fuel + 1, a, lo, hi =>
    if hi ≤ lo + 1 then .ok a
    else do
      let p ← load a lo
      let (a, i, j) ← partition p (a.length + 1) a lo (hi - 1)
      let a ← store a i p
      let a ← sort fuel a lo i
      sort fuel a (j + 1) hi

/-- the call `sort_ast_type(type_specifiers, 0, num_type_specifiers - 1)`, declaration.c:114 -/
def sortAll (a : List Nat) : Out (List Nat) := sort (a.length + 1) a 0 a.length

/-- the specifier nodes of `AstType`, ast.h:25-32 -/
inductive Spec | void | char | int | long | unsigned | struct | enum | typedefName
  deriving DecidableEq, Repr

/-- their enum values, ast.h:8-32 (AST_TYPE_VOID is the 9th constant) -/
def Spec.code : Spec → Nat
  | .void => 8 | .char => 9 | .int => 10 | .long => 11 | .unsigned => 12 | .struct => 13 | .enum => 14 | .typedefName => 15

/-- what the list denotes: an integer or void type, or the type the struct/enum/typedef-name child denotes -/
inductive Denoted | type (t : DType) | structChild | enumChild | typedefChild
  deriving DecidableEq

/-- the if-chain on the sorted array, declaration.c:116-184; `none` is "combination of type specifiers is invalid" -/
def table (a : List Nat) : Option Denoted :=
  match a with
  | [8] => some (.type .void)
  | [9] => some (.type .char)
  | [10] => some (.type .int)
  | [11] | [10, 11] => some (.type .long)
  | [11, 11] | [10, 11, 11] => some (.type .llong)
  | [12] | [10, 12] => some (.type .uint)
  | [11, 12] | [10, 11, 12] => some (.type .ulong)
  | [11, 11, 12] | [10, 11, 11, 12] => some (.type .ullong)
  | [13] => some .structChild
  | [14] => some .enumChild
  | [15] => some .typedefChild
  | _ => none

/-- `resolve_type_specifier_list`, declaration.c:93-191 (the struct/enum/typedef-name children are resolved by
other functions) -/
def resolve (l : List Spec) : Out (Option Denoted) :=
  if l.length < 1 ∨ l.length > 4 then .ok none
  else do
    let a ← sortAll (l.map Spec.code)
    pure (table a)

end Specifiers
end Umlcc
