import Verif.Lemma.FlowTable
import Verif.Lemma.FlowCheck
import Verif.Props.Program
import Verif.Props.Regalloc
/-! Property theorems C72: the liveness analysis behind register allocation. -/
namespace Umlcc
open Regalloc

/-- `code` is what the compiler generates for the source text -/
def Generated (src : List UInt8) (code : List Immc) : Prop :=
  ∃ fuel toks a u, Lexer.tokenize src = .ok toks ∧ Main.ofParser (Parser.parse fuel (.unit []) (Parser.start toks)) = .ok a ∧
    Res.resolve fuel a = .ok (some u) ∧ Gen.generate u = .ok code

def generated (fuel : Nat) (src : List UInt8) : Option (List Immc) :=
  match Lexer.tokenize src with
  | .ok toks => match Main.ofParser (Parser.parse fuel (.unit []) (Parser.start toks)) with
    | .ok a => match Res.resolve fuel a with
      | .ok (some u) => match Gen.generate u with
        | .ok code => some code
        | _ => none
      | _ => none
    | _ => none
  | _ => none

theorem generated_of {fuel : Nat} {src : List UInt8} {code : List Immc} (h : generated fuel src = some code) : Generated src code := by
  unfold generated at h
  split at h <;> try cases h
  split at h <;> try cases h
  split at h <;> try cases h
  split at h <;> try cases h
  rename_i h1 _ _ h2 _ _ h3 _ h4
  exact ⟨fuel, _, _, _, h1, h2, h3, h4⟩

/-- an expression with a subscript, a conditional operator and a decrement -/
def crashSource : List UInt8 := X64.bytes "int f(int*p,int x){return x-p[x+x]*(*p?1:x--);}"

/-- a loop whose condition is a chain of assignments -/
def loopSource : List UInt8 := X64.bytes "int f(int*p,int*q,int x,int y,int z){while(*(p+(*q=x))=p[p[x]+*p]=x--);}"

/-- C72 fails: for this function the register sets keep a register that is dead (it was added twice and removed once),
and the entry of that register is then asked of the interval table before it has one: a NULL pointer is dereferenced. -/
theorem C72_crash_violated : ∃ code, Generated crashSource code ∧ ∀ fuel, 2 ≤ fuel → run code 8 fuel = .ub := by
  have key : (match generated 100 crashSource with
    | some code => single code && match controlFlow code 2 with
      | .ok g => decide (liveBlocks [] 0 g = .ub)
      | _ => false
    | none => false) = true := by decide +kernel
  split at key
  · rename_i code hg
    rw [Bool.and_eq_true] at key
    obtain ⟨k1, k2⟩ := key
    refine ⟨code, generated_of hg, ?_⟩
    intro fuel hf
    rw [run_single k1]
    split at k2
    · rename_i g h1
      unfold allocFunction
      rw [controlFlow_more h1 hf, Out.ok_bind, of_decide_eq_true k2]
      rfl
    · cases k2
  · cases key

/-- C72 fails: for this function the sets of registers alternate between two states, so the compiler never ends. -/
theorem C72_endless_violated : ∃ code, Generated loopSource code ∧ ∀ fuel, run code 8 fuel = .hang := by
  have key : (match generated 100 loopSource with
    | some code => single code && match connect ((createBlocks [] code).map newBlock) with
      | .ok g0 => match passes 1 g0 with
        | some g => decide (passes 2 g = some g)
        | none => false
      | _ => false
    | none => false) = true := by decide +kernel
  split at key
  · rename_i code hg
    rw [Bool.and_eq_true] at key
    obtain ⟨k1, k2⟩ := key
    refine ⟨code, generated_of hg, ?_⟩
    intro fuel
    rw [run_single k1]
    split at k2
    · rename_i g0 h0
      split at k2
      · rename_i g h1
        unfold allocFunction controlFlow
        rw [h0, Out.ok_bind, analyzeFlow_cycle h1 (by decide) (of_decide_eq_true k2)]
        rfl
      · cases k2
    · cases k2
  · cases key

/-- C72: for orderly code the analysis ends, whatever fuel beyond some bound it is given, and the sets it leaves at the head and at
the end of each block are exactly the registers live there.
Missing for the full claim: code that is not orderly (violated, above), and code with `JLT`/`JLEQ` branches (violated, C40). -/
theorem C72_exact_partial (code : List Immc) (hlast : ∀ x, code.getLast? = some x → x.isLabel = false) (hj : RSpec.JumpsFind code)
    (hu : RSpec.UniqueLabels code) (hk : RSpec.KnownBranches code) (ho : RSpec.Orderly code) :
    ∃ N g, (∀ fuel, N ≤ fuel → controlFlow code fuel = .ok g) ∧ (g.map (·.immcs)).flatten = code ∧
      ∀ pre b post, g = pre ++ b :: post →
        let start := (pre.map (·.immcs)).flatten.length
        ∀ v, (v ∈ HSet.elems b.input ↔ RSpec.LiveIn code v start) ∧
          (v ∈ HSet.elems b.output ↔ RSpec.LiveOut code v (start + (b.immcs.length - 1))) := by
  obtain ⟨h5, h6⟩ := createBlocks_spec code [] CurOk.nil hlast
  simp only [List.nil_append] at h5
  obtain ⟨g0, h0⟩ := connect_ok h5 h6 hj
  obtain ⟨N, g, h1, h2, h3, h4⟩ := controlFlow_ends hlast h0 ho
  refine ⟨N, g, h1, h2.code, ?_⟩
  intro pre b post hg start v
  obtain ⟨_, h7⟩ := C40_liveness_sound_partial code N g (h1 N (Nat.le_refl _)) hlast hu hk
  obtain ⟨_, h8, h9⟩ := h7 pre b post hg
  have hp : g[pre.length]? = some b := by rw [hg]; simp
  have hoff : off (g.map (·.immcs)) pre.length = start := by
    show _ = (pre.map (·.immcs)).flatten.length
    unfold off
    rw [hg, List.map_append]
    congr 2
    rw [List.take_append_of_le_length (by simp)]
    rw [List.take_of_length_le (by simp)]
  have hb0 : 0 < b.immcs.length := List.length_pos_iff.2 (h2.blk b (List.mem_of_getElem? hp)).ne
  have e1 := h3 _ b hp v
  have e2 := h4 _ b hp v
  rw [hoff] at e1 e2
  exact ⟨⟨e1, h8 v⟩, e2, h9 v (b.immcs.length - 1) (by omega)⟩

/-- C72: for orderly code whose live registers have been written before, the table of intervals is then built without asking for
an entry it does not have.
Missing for the full claim: code that is not orderly (violated, above). -/
theorem C72_table_partial (code : List Immc) (hlast : ∀ x, code.getLast? = some x → x.isLabel = false) (hj : RSpec.JumpsFind code)
    (ho : RSpec.Orderly code) (hd : RSpec.DefBefore code) (hn : RSpec.NaturalRegs code) :
    ∃ N g, (∀ fuel, N ≤ fuel → controlFlow code fuel = .ok g) ∧ ∀ offset, ∃ lv, liveBlocks [] offset g = .ok lv := by
  obtain ⟨h5, h6⟩ := createBlocks_spec code [] CurOk.nil hlast
  simp only [List.nil_append] at h5
  obtain ⟨g0, h0⟩ := connect_ok h5 h6 hj
  obtain ⟨N, g, h1, h2, _, h4⟩ := controlFlow_ends hlast h0 ho
  exact ⟨N, g, h1, fun o => table_ok o h2 hd hn h4⟩

/-- a function with a loop and an increment -/
def sumSource : List UInt8 := X64.bytes "int f(int*p,int n){int i;int s;s=0;for(i=0;i<n;i++)s=s+p[i];return s;}"

/-- a function with a `switch`, whose jumps all test the same register -/
def pickSource : List UInt8 := X64.bytes "int f(int n){int s;s=0;switch(n){case 1:s=n+4;break;case 2:s=7;break;default:s=9;}return s;}"

/-- both theorems apply to the code generated for a `switch` -/
example : ∃ code, Generated pickSource code ∧ 20 ≤ code.length ∧ (∀ x, code.getLast? = some x → x.isLabel = false) ∧
    RSpec.JumpsFind code ∧ RSpec.UniqueLabels code ∧ RSpec.KnownBranches code ∧ RSpec.NaturalRegs code ∧ RSpec.Orderly code ∧
    RSpec.DefBefore code := by
  have key : (match generated 100 pickSource with
    | some code => decide (20 ≤ code.length) && RSpec.flowOk code
    | none => false) = true := by decide +kernel
  split at key
  · rename_i code hg
    rw [Bool.and_eq_true] at key
    exact ⟨code, generated_of hg, of_decide_eq_true key.1, RSpec.flowOk_all key.2⟩
  · cases key

/-- both theorems apply to the code generated for a loop that adds up an array -/
example : ∃ code, Generated sumSource code ∧ 30 ≤ code.length ∧ (∀ x, code.getLast? = some x → x.isLabel = false) ∧
    RSpec.JumpsFind code ∧ RSpec.UniqueLabels code ∧ RSpec.KnownBranches code ∧ RSpec.NaturalRegs code ∧ RSpec.Orderly code ∧
    RSpec.DefBefore code := by
  have key : (match generated 100 sumSource with
    | some code => decide (30 ≤ code.length) && RSpec.flowOk code
    | none => false) = true := by decide +kernel
  split at key
  · rename_i code hg
    rw [Bool.and_eq_true] at key
    exact ⟨code, generated_of hg, of_decide_eq_true key.1, RSpec.flowOk_all key.2⟩
  · cases key

end Umlcc
