import Verif.Lemma.TidyUnit
import Verif.Props.Flow
/-! Property theorems C73: programs that always get registers. -/
namespace Umlcc
open Gen (GState funcCode)
open CStm (soundAll)
open Flow (freeBrks freeConts)

/-- C73 in full: whatever the generator makes of a source text, register allocation ends with registers for everything. -/
def C73_full : Prop := ∀ src code, Generated src code → ∃ N, ∀ fuel, N ≤ fuel → ∃ out qs, Regalloc.run code 8 fuel = .ok (out, qs)

/-- C73 does not hold for all programs. -/
theorem C73_violated : ¬ C73_full := by
  intro h
  obtain ⟨code, h1, h2⟩ := C72_crash_violated
  obtain ⟨N, h3⟩ := h _ code h1
  obtain ⟨out, qs, h4⟩ := h3 (N + 2) (by omega)
  rw [h2 (N + 2) (by omega)] at h4
  cases h4

/-- C73 for the code of a function in which assignments, `++` and `--` are statements of their own and no expression keeps more than `k < nregs` values while another one is computed:
the allocator ends, reads through no null pointer and finds a register for everything, wherever the function stands and whatever registers were used before it.
Missing for the full claim: functions whose expressions change objects and have their values used (violated, C72), or need more registers (violated, C39),
and functions outside of the part of C36. -/
theorem C73_function_partial (f : Str) (t : DType) (b : SItems) (s s' : GState) (code : List Immc) (k nregs : Nat) (h : funcCode f t b s = .ok ((), code, s'))
    (hs : soundAll b = true) (hc : freeConts b = false) (hb : freeBrks b = false) (hn : f.head? ≠ some 46) (hl : -1 ≤ s.lab) (ht : Tidy.tidyAll k b = true) (hk : k < nregs) :
    ∃ N, ∀ fuel, N ≤ fuel → ∀ o qs, qs.length = nregs → ∃ out qs', Regalloc.allocFunction code o nregs qs fuel = .ok (out, qs') :=
  Tidy.allocFunction_ok h hs hc hb hn hl ht hk

/-- the loop of C36 is such a function: three registers are enough -/
example : soundAll Gen.loopSample = true ∧ freeConts Gen.loopSample = false ∧ freeBrks Gen.loopSample = false ∧ Tidy.tidyAll 2 Gen.loopSample = true ∧
    (match funcCode [102] (.func Gen.loopParams .int) Gen.loopSample Gen.initial with
      | .ok (_, code, _) => decide (30 ≤ code.length)
      | _ => false) = true := ⟨by decide, by decide, by decide, by decide, by decide +kernel⟩

/-- C72 for the code of such functions, however many registers their expressions need: the analysis ends, only live registers are in its sets, and the table of intervals is filled.
Missing for the full claim: other functions (violated, C72). That no live register is missing is C40. -/
theorem C72_function_partial (f : Str) (t : DType) (b : SItems) (s s' : GState) (code : List Immc) (k : Nat) (h : funcCode f t b s = .ok ((), code, s'))
    (hs : soundAll b = true) (hc : freeConts b = false) (hb : freeBrks b = false) (hn : f.head? ≠ some 46) (hl : -1 ≤ s.lab) (ht : Tidy.tidyAll k b = true) :
    ∃ N g, (∀ fuel, N ≤ fuel → Regalloc.controlFlow code fuel = .ok g) ∧ (∀ offset, ∃ lv, Regalloc.liveBlocks [] offset g = .ok lv) ∧ (g.map (·.immcs)).flatten = code ∧
      ∀ pre c post, g = pre ++ c :: post →
        let start := (pre.map (·.immcs)).flatten.length
        ∀ v, (v ∈ HSet.elems c.input → RSpec.LiveIn code v start) ∧ (v ∈ HSet.elems c.output → RSpec.LiveOut code v (start + (c.immcs.length - 1))) := by
  obtain ⟨hjf, hord, hdef, hnat, _, _⟩ := Tidy.funcCode_orderly h hs hc hb hn hl ht
  have hlast := Gen.funcCode_last h
  obtain ⟨h5, h6⟩ := Regalloc.createBlocks_spec code [] Regalloc.CurOk.nil hlast
  simp only [List.nil_append] at h5
  obtain ⟨g0, h0⟩ := Regalloc.connect_ok h5 h6 hjf
  obtain ⟨N, g, h1, h2, h3, h4⟩ := Regalloc.controlFlow_ends hlast h0 hord
  refine ⟨N, g, h1, fun o => Regalloc.table_ok o h2 hdef hnat h4, h2.code, ?_⟩
  intro pre c post hg start v
  have hp : g[pre.length]? = some c := by rw [hg]; simp
  have hoff : Regalloc.off (g.map (·.immcs)) pre.length = start := by
    show _ = (pre.map (·.immcs)).flatten.length
    unfold Regalloc.off
    rw [hg, List.map_append]
    congr 2
    rw [List.take_append_of_le_length (by simp)]
    rw [List.take_of_length_le (by simp)]
  have e1 := h3 _ c hp v
  have e2 := h4 _ c hp v
  rw [hoff] at e1 e2
  exact ⟨e1, e2⟩

/-- C73 for whole programs whose functions are of this kind. -/
theorem C73_program_partial (u : List SExt) (code : List Immc) (k nregs : Nat) (h : Gen.generate u = .ok code) (hu : ∀ x ∈ u, Tidy.tidyExt k x = true) (hk : k < nregs) :
    ∃ N, ∀ fuel, N ≤ fuel → ∃ out qs, Regalloc.run code nregs fuel = .ok (out, qs) := by
  unfold Gen.generate at h
  split at h <;> try cases h
  rename_i hu'
  obtain ⟨cs, h1, rfl⟩ := Tidy.unit_get hk hu (by decide) (by simp [CStm.Global, Gen.initial]) hu'
  obtain ⟨N, h2⟩ := Tidy.allocAll_ok cs h1
  refine ⟨N, fun fuel hf => ?_⟩
  obtain ⟨⟨out, qs⟩, h3⟩ := h2 fuel hf [] (List.replicate nregs Liveseq.new) 0 _ (Nat.le_refl _) (by simp)
  exact ⟨out, qs, h3⟩

/-- the typed tree of a source text -/
def treeOf (fuel : Nat) (src : List UInt8) : Option (List SExt) :=
  match Lexer.tokenize src with
  | .ok toks => match Main.ofParser (Parser.parse fuel (.unit []) (Parser.start toks)) with
    | .ok a => match Res.resolve fuel a with
      | .ok (some u) => some u
      | _ => none
    | _ => none
  | _ => none

/-- two functions, loops, a `switch`, calls and an expression that keeps seven values -/
def busySource : List UInt8 := X64.bytes
  "int g(int a,int b){return a*b;} int f(int*p,int n){int i;int s;s=0;for(i=0;i<n;i++){switch(p[i]){case 1:s=s+g(i,n);break;default:s=s-1;}} return s+n*(s-(n+s*(n-(s&&n?s:n))));}"

/-- C73 applies to it, with no register to spare -/
example : ∃ u code, treeOf 200 busySource = some u ∧ Gen.generate u = .ok code ∧ (∀ x ∈ u, Tidy.tidyExt 7 x = true) ∧ ¬ (∀ x ∈ u, Tidy.tidyExt 6 x = true) := by
  have key : (match treeOf 200 busySource with
    | some u => (match Gen.generate u with | .ok _ => true | _ => false) && u.all (Tidy.tidyExt 7) && !u.all (Tidy.tidyExt 6)
    | none => false) = true := by decide +kernel
  split at key
  · rename_i u hu
    simp only [Bool.and_eq_true, Bool.not_eq_true'] at key
    have k1 := key.1.1
    split at k1
    · rename_i code hg
      refine ⟨u, code, hu, hg, List.all_eq_true.1 key.1.2, fun h => ?_⟩
      rw [List.all_eq_true.2 h] at key
      cases key.2
    · cases k1
  · cases key

/-- The bound is sharp: an expression that keeps eight values, which is all that is wrong with its function, and the allocator reads through a null pointer. -/
theorem C73_sharp : ∃ u code, treeOf 200 X86.nineSource = some u ∧ Gen.generate u = .ok code ∧ (∀ x ∈ u, Tidy.tidyExt 8 x = true) ∧ Regalloc.run code 8 99 = .ub := by
  have key : (match treeOf 200 X86.nineSource with
    | some u => (match Gen.generate u with
      | .ok code => decide (Regalloc.run code 8 99 = .ub)
      | _ => false) && u.all (Tidy.tidyExt 8)
    | none => false) = true := by decide +kernel
  split at key
  · rename_i u hu
    rw [Bool.and_eq_true] at key
    have k1 := key.1
    split at k1
    · rename_i code hg
      exact ⟨u, code, hu, hg, List.all_eq_true.1 key.2, of_decide_eq_true k1⟩
    · cases k1
  · cases key

end Umlcc
