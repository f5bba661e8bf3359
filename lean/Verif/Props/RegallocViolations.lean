import Verif.Props.Regalloc
import Verif.Props.GenExpr
/-!
C38 and C41 fail for code with backward branches the allocator does not recognise (`JLT`, `JLEQ`).
The generator makes no such code (`while` and `for` jump back with `JMP`), so these are about the allocator alone.
-/
namespace Umlcc
namespace RSpec

/-- C38 in full -/
def C38_full : Prop := ∀ (code out : List Immc) (o nregs fuel : Nat) (qs qs' : List Liveseq), Regalloc.allocFunction code o nregs qs fuel = .ok (out, qs') →
  (∀ x, code.getLast? = some x → x.isLabel = false) → UniqueLabels code → DefBefore code →
  ∃ ρ : Int → Int, out = code.map (rename ρ) ∧ ∀ i u v, LiveIn code u i → LiveIn code v i → u ≠ v → ρ u ≠ ρ v

/-- C41 in full -/
def C41_full : Prop := ∀ (Val St : Type) (sem : Sem Val St) (code out : List Immc) (o nregs fuel : Nat) (qs qs' : List Liveseq),
  Regalloc.allocFunction code o nregs qs fuel = .ok (out, qs') → (∀ x, code.getLast? = some x → x.isLabel = false) → UniqueLabels code → DefBefore code →
  ∀ (st : St) (regs regs' : Int → Val) (steps : Nat), seen (run sem out ⟨0, regs', st⟩ steps) = seen (run sem code ⟨0, regs, st⟩ steps)

private def r (i : Int) : Ope := .reg .long i false
private def ins (op : IOp) (d f s : Option Ope) : Immc := .inst ⟨op, d, f, s⟩
private def num (v : Int) : Ope := .int .long ⟨.int, v⟩
private def loop : Name := exL1

/-- `r0 = 5; do { m4 = r0; r1 = m8; m8 = 9 } while (r1 < 3)`, the branch back being `JLT` -/
def carried : List Immc := [
  .label .function .global exF,
  ins .load (some (r 0)) (some (num 5)) none,
  .label .normal .none loop,
  ins .store (some (.mem 4)) (some (r 0)) none,
  ins .load (some (r 1)) (some (.mem 8)) none,
  ins .store (some (.mem 8)) (some (num 9)) none,
  ins .jlt (some (.label loop)) (some (r 1)) (some (num 3)),
  ins .leave none none none]

/-- both registers become register 0 -/
def carriedOut : List Immc := [
  .label .function .global exF,
  ins .load (some (r 0)) (some (num 5)) none,
  .label .normal .none loop,
  ins .store (some (.mem 4)) (some (r 0)) none,
  ins .load (some (r 0)) (some (.mem 8)) none,
  ins .store (some (.mem 8)) (some (num 9)) none,
  ins .jlt (some (.label loop)) (some (r 0)) (some (num 3)),
  ins .leave none none none]

theorem carried_alloc : ∃ qs', Regalloc.allocFunction carried 0 8 (List.replicate 8 Liveseq.new) 9 = .ok (carriedOut, qs') := ⟨_, rfl⟩

def carriedTab : List (List Int) := [[], [], [0], [0], [0], [0, 1], [0, 1], [], []]

theorem carried_fine : (∀ x, carried.getLast? = some x → x.isLabel = false) ∧ UniqueLabels carried ∧ DefBefore carried :=
  ⟨fun x h => by cases h; rfl, uniqueOk_unique (by decide), defOk_before (t := carriedTab) (by decide) (by decide)⟩

theorem C38_violated : ¬ C38_full := by
  intro h
  obtain ⟨qs', ha⟩ := carried_alloc
  obtain ⟨ρ, e, k⟩ := h _ _ _ _ _ _ _ ha carried_fine.1 carried_fine.2.1 carried_fine.2.2
  have l0 : LiveIn carried 0 6 := .thru (j := 2) rfl (by decide) ⟨_, rfl, .inr ⟨loop, _, rfl, rfl, by decide⟩⟩
    (.thru (j := 3) rfl (by decide) ⟨_, rfl, .inl ⟨rfl, by simp⟩⟩ (.read rfl (by decide)))
  have l1 : LiveIn carried 1 6 := .read rfl (by decide)
  refine k 6 0 1 l0 l1 (by decide) ?_
  have e1 : some (rename ρ (ins .load (some (r 0)) (some (num 5)) none)) = some (ins .load (some (r 0)) (some (num 5)) none) := (congrArg (·[1]?) e).symm
  have e2 : some (rename ρ (ins .load (some (r 1)) (some (.mem 8)) none)) = some (ins .load (some (r 0)) (some (.mem 8)) none) := (congrArg (·[4]?) e).symm
  simp only [ins, r, rename, renameOpe, Option.some.injEq, Immc.inst.injEq, Inst.mk.injEq, Ope.reg.injEq] at e1 e2
  rw [e1.2.1.2.1, e2.2.1.2.1]

/-- The code stores 5 at offset 4 in each round; after allocation the second round stores the 0 found at offset 8. -/
theorem C41_violated : ¬ C41_full := by
  intro h
  obtain ⟨qs', ha⟩ := carried_alloc
  have k := h _ _ (IMach.sem Gen.sampleEnv) _ _ _ _ _ _ _ ha carried_fine.1 carried_fine.2.1 carried_fine.2.2 ⟨fun _ => 0, 0, [], none⟩
    (fun _ => IMach.noVal) (fun _ => IMach.noVal) 9
  have k1 : (run (IMach.sem Gen.sampleEnv) carriedOut ⟨0, fun _ => IMach.noVal, ⟨fun _ => 0, 0, [], none⟩⟩ 9).map (·.st.mem 4092) = some 0 := by decide +kernel
  have k2 : (run (IMach.sem Gen.sampleEnv) carried ⟨0, fun _ => IMach.noVal, ⟨fun _ => 0, 0, [], none⟩⟩ 9).map (·.st.mem 4092) = some 5 := by decide +kernel
  have k3 := congrArg (Option.map fun x => x.2.mem 4092) k
  simp only [seen, Option.map_map, Function.comp_def] at k3
  rw [k1, k2] at k3
  exact absurd k3 (by decide)

end RSpec
end Umlcc
