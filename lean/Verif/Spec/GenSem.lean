import Verif.Spec.CSem
import Verif.Model.Immcgen
/-!
When the tables of the intermediate code generator agree with the objects a C expression refers to.
-/
namespace Umlcc
namespace CSem
open IMach (Env)
open Gen (GState lookup stringName)

/-- The generator's tables describe the context of evaluation: each symbol is where its entry says, and tags have the members of their entries. -/
structure Describes {W : Type} (C : Ctx W) (E : Env W) (s : GState) : Prop where
  call : C.call = E.call
  ok : C.ok = E.ok
  str : ∀ id, C.str id = E.glob (stringName id)
  addr : ∀ n y, lookup n s.syms = some y → ∃ a, C.addr n = some a ∧ (y.loc = .label → ∀ m : Name, m.1 = n → a = E.glob m) ∧
    ∀ k : Nat, y.loc = .mem k → a = E.bp - BitVec.ofInt 64 k
  tag : ∀ n ms b a, lookup n s.tags = some (.ustruct ms b a) → C.tag n = some ms

/-- where an entry of the symbol table says an object is -/
def addrOf {W : Type} (E : Env W) (n : Str) : Gen.Loc → BitVec 64
  | .mem k => E.bp - BitVec.ofInt 64 k
  | .label => if h : ∀ b ∈ n, b.toNat < 128 then E.glob ⟨n, h⟩ else 0

/-- members of a structure type -/
def membersOf : DType → Option Members
  | .ustruct ms _ _ => some ms
  | _ => none

/-- the context that the generator's tables describe -/
def ctxOf {W : Type} (E : Env W) (s : GState) (lim : Bool) : Ctx W where
  addr n := (lookup n s.syms).map fun y => addrOf E n y.loc
  str id := E.glob (stringName id)
  tag n := (lookup n s.tags).bind membersOf
  call := E.call
  ok := E.ok
  lim := lim

end CSem
end Umlcc
