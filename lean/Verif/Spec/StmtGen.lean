import Verif.Spec.CStmt
import Verif.Spec.GenSem
/-!
When the tables of the intermediate code generator agree with what is in scope, and what running the code of a statement has to come to.
-/
namespace Umlcc
namespace CStm
open IMach (Val St Env Mem sem)
open RSpec (Mach run)
open CSem (addrOf)
open Gen (GState GSym stringName labelName)

/-- the implementation is that of the generator and of a machine -/
structure Fits (I : Impl W) (E : Env W) : Prop where
  call : I.base.call = E.call
  ok : I.base.ok = E.ok
  str : ∀ id, I.base.str id = E.glob (stringName id)
  frame : I.frame = E.bp
  place : ∀ u t, I.place u t = (u + t.nbytes + 3) / 4 * 4
  addr : ∀ n a, I.base.addr n = some a → ∃ h : ∀ b ∈ n, b.toNat < 128, a = E.glob ⟨n, h⟩

/-- where the symbols of a table are -/
def locate (E : Env W) (syms : List (List (Str × GSym))) : List (List (Str × BitVec 64)) := syms.map (·.map fun p => (p.1, addrOf E p.1 p.2.loc))

/-- the tables agree with what is in scope -/
structure Agree (E : Env W) (V : Vars) (s : GState) : Prop where
  names : V.names = locate E s.syms
  tags : V.tags = s.tags
  used : V.used = s.mem

/-- the implementation that a machine with the generator's placing of objects is -/
def implOf {W : Type} (E : Env W) (lim : Bool) : Impl W where
  base := { addr := fun n => if h : ∀ b ∈ n, b.toNat < 128 then some (E.glob ⟨n, h⟩) else none, str := fun id => E.glob (stringName id), tag := fun _ => none,
            call := E.call, ok := E.ok, lim := lim }
  frame := E.bp
  place u t := (u + t.nbytes + 3) / 4 * 4

theorem fits_implOf {W : Type} (E : Env W) (lim : Bool) : Fits (implOf E lim) E :=
  ⟨rfl, rfl, fun _ => rfl, rfl, fun _ _ => rfl, fun n a h => by
    simp only [implOf] at h
    split at h
    · rename_i hn
      exact ⟨hn, (Option.some.inj h).symm⟩
    · cases h⟩

/-- what is in scope according to the tables -/
def varsOf {W : Type} (E : Env W) (s : GState) : Vars := ⟨locate E s.syms, s.tags, s.mem⟩

theorem agree_varsOf {W : Type} (E : Env W) (s : GState) : Agree E (varsOf E s) s := ⟨rfl, rfl, rfl⟩

/-- a label with a number is at a place in the code -/
def LabelAt (P : List Immc) (k : Nat) (id : Int) : Prop := ∃ lt vis, P[k]? = some (.label lt vis (labelName id))

/-- What running the code `P` from the state `m` comes to if an execution ends with a result, memory and world:
* at its end: the machine gets to place `q`;
* `break`, `continue`, `return`: the machine gets to the label that the state `s` of the generator has for it, after `return` with the value noted;
* if the execution goes on: the machine makes at least `d` steps and then has that memory and world.
Output arguments, and unless there is a value to return the one noted, are those of `st`. -/
def Reaches {W : Type} (E : Env W) (P : List Immc) (m : Mach Val (St W)) (s : GState) (q : Nat) (st : St W) (d : Nat) (σ : Mem × W) : Res → Prop
  | .norm => ∃ i R, run (sem E) P m i = some ⟨q, R, { st with mem := σ.1, w := σ.2 }⟩
  | .brk => ∀ k, LabelAt P k s.brk → ∃ i R, run (sem E) P m i = some ⟨k, R, { st with mem := σ.1, w := σ.2 }⟩
  | .cont => ∀ k, LabelAt P k s.cont → ∃ i R, run (sem E) P m i = some ⟨k, R, { st with mem := σ.1, w := σ.2 }⟩
  | .ret v => ∀ k, LabelAt P k s.ret → ∃ i R, run (sem E) P m i = some ⟨k, R, { st with mem := σ.1, w := σ.2, ret := v.or st.ret }⟩
  | .more => ∃ i m', run (sem E) P m i = some m' ∧ d ≤ i ∧ m'.st.mem = σ.1 ∧ m'.st.w = σ.2

end CStm
end Umlcc
