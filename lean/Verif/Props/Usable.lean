import Verif.Lemma.FitUnit
import Verif.Props.Tidy
import Verif.Props.Plain
/-! Property theorems C74: programs that always get machine code. -/
namespace Umlcc
open X86 (Compiled)

/-- C74 in full: whatever the generator and the register allocator make of a source text, machine code is generated for it. -/
def C74_full : Prop := ∀ src code, Generated src code → ∀ fuel out qs, Regalloc.run code 8 fuel = .ok (out, qs) → ∃ items, X64.generate out qs = .ok items

/-- what becomes of a source text in the machine code generator -/
def machineCode (src : List UInt8) : Option (Out (List X64.Item)) :=
  match generated 200 src with
  | some code => match Regalloc.run code 8 99 with
    | .ok (out, qs) => some (X64.generate out qs)
    | _ => none
  | none => none

theorem machineCode_of {src : List UInt8} {r : Out (List X64.Item)} (h : machineCode src = some r) :
    ∃ code out qs, Generated src code ∧ Regalloc.run code 8 99 = .ok (out, qs) ∧ X64.generate out qs = r := by
  unfold machineCode at h
  split at h
  · rename_i code hc
    split at h
    · rename_i out qs ha
      cases h
      exact ⟨code, out, qs, generated_of hc, ha, rfl⟩
    · cases h
  · cases h

def isFatal : Option (Out (List X64.Item)) → Bool
  | some .fatal => true
  | _ => false

def isUb : Option (Out (List X64.Item)) → Bool
  | some .ub => true
  | _ => false

/-- a shift by a number that is not known -/
def shiftSource : List UInt8 := X64.bytes "int f(int a,int b){return a<<b;}"

/-- C74 does not hold for all programs: the compiler gives up on a shift by a variable. -/
theorem C74_violated : ¬ C74_full := by
  intro h
  have key : isFatal (machineCode shiftSource) = true := by decide +kernel
  cases hm : machineCode shiftSource with
  | none => rw [hm] at key; cases key
  | some r =>
    obtain ⟨code, out, qs, h1, h2, h3⟩ := machineCode_of hm
    obtain ⟨items, h4⟩ := h _ code h1 _ out qs h2
    rw [h3] at h4
    subst h4
    rw [hm] at key
    cases key

/-- six values kept while a function is called -/
def sixSource : List UInt8 := X64.bytes "int g(int a);int f(int a){return a*(a-(a&(a^(a/(a%g(a))))));}"

/-- C74 fails by undefined behaviour too: with six values kept around a call, the generator reads past the end of the array of the registers a function has to preserve.
This is all that is wrong with the program: it is tidy with six values, usable, and has got registers. -/
theorem C74_sharp : ∃ u code out qs, treeOf 200 sixSource = some u ∧ Gen.generate u = .ok code ∧ (∀ x ∈ u, Tidy.tidyExt 6 x = true ∧ Tidy.usableExt true x = true) ∧
    Regalloc.run code 8 99 = .ok (out, qs) ∧ X64.generate out qs = .ub := by
  have key : (match treeOf 200 sixSource with
    | some u => (match Gen.generate u with
      | .ok code => (match Regalloc.run code 8 99 with
        | .ok (out, qs) => (match X64.generate out qs with | .ub => true | _ => false)
        | _ => false)
      | _ => false) && u.all (fun x => Tidy.tidyExt 6 x && Tidy.usableExt true x)
    | none => false) = true := by decide +kernel
  split at key
  · rename_i u hu
    rw [Bool.and_eq_true] at key
    have k1 := key.1
    split at k1
    · rename_i code hg
      split at k1
      · rename_i out qs ha
        split at k1
        · rename_i hx
          refine ⟨u, code, out, qs, hu, hg, fun x hx => ?_, ha, hx⟩
          have := List.all_eq_true.1 key.2 x hx
          rwa [Bool.and_eq_true] at this
        · cases k1
      · cases k1
    · cases k1
  · cases key

/-- C74 for programs whose functions are good (`Spec/Usable.lean`): tidy in the sense of C73, with at most five values kept if they contain calls and seven otherwise, shift counts that are literals, and
no use of the value of a `void` function. They get registers and machine code.
Missing for the full claim: shifts by variables (violated), more values around calls (violated), and functions that are not tidy. -/
theorem C74_program_partial (u : List SExt) (code : List Immc) (h : Gen.generate u = .ok code) (hu : ∀ x ∈ u, Tidy.goodExt x = true) :
    ∃ N, ∀ fuel, N ≤ fuel → ∃ out qs items, Regalloc.run code 8 fuel = .ok (out, qs) ∧ X64.generate out qs = .ok items := by
  unfold Gen.generate at h
  split at h <;> try cases h
  rename_i hu'
  exact Tidy.unit_fine hu hu'

theorem treeOf_some {fuel : Nat} {src : List UInt8} {u : List SExt} (h : treeOf fuel src = some u) :
    ∃ toks a, Lexer.tokenize src = .ok toks ∧ Main.ofParser (Parser.parse fuel (.unit []) (Parser.start toks)) = .ok a ∧ Res.resolve fuel a = .ok (some u) := by
  unfold treeOf at h
  split at h <;> try cases h
  split at h <;> try cases h
  split at h <;> try cases h
  exact ⟨_, _, ‹_›, ‹_›, ‹_›⟩

/-- The same for the compiler: once there is code for the typed tree of a source text, the last two stages succeed, so assembly code comes out. -/
theorem C74_stages_partial (src : List UInt8) (u : List SExt) (code : List Immc) (h : Gen.generate u = .ok code) (hu : ∀ x ∈ u, Tidy.goodExt x = true) :
    ∃ N, ∀ fuel, N ≤ fuel → treeOf fuel src = some u → ∃ out qs items, Compiled fuel src u code out qs items ∧ Main.stages fuel src = .ok items := by
  obtain ⟨N, hN⟩ := C74_program_partial u code h hu
  refine ⟨N, fun fuel hf ht => ?_⟩
  obtain ⟨out, qs, items, h1, h2⟩ := hN fuel hf
  obtain ⟨toks, a, h3, h4, h5⟩ := treeOf_some ht
  refine ⟨out, qs, items, ⟨⟨toks, a, h3, h4, h5⟩, h, h1, h2⟩, ?_⟩
  unfold Main.stages
  rw [h3]
  show (Main.ofParser (Parser.parse fuel (.unit []) (Parser.start toks)) >>= _) = _
  rw [h4]
  show (Res.resolve fuel a >>= _) = _
  rw [h5]
  show (Gen.generate u >>= _) = _
  rw [h]
  show (Regalloc.run code 8 fuel >>= _) = _
  rw [h1]
  exact h2

/-- With C71: if the functions are also of the part of `Spec/Plain.lean`, what comes out of the compiler does what C says. Nothing is asked of the code but the sizes of the frames. -/
theorem C74_right_partial {W : Type} (src : List UInt8) (u : List SExt) (code : List Immc) (h : Gen.generate u = .ok code) (hu : ∀ x ∈ u, Tidy.goodExt x = true) :
    ∃ N, ∀ fuel, N ≤ fuel → treeOf fuel src = some u → ∃ out qs items, Compiled fuel src u code out qs items ∧ Main.stages fuel src = .ok items ∧
      ∀ (P : CStm.Prog W) (I : X86.Image W), P.lim = true → X86.Loaded P I u out items → P.fns.all (X86.plainFn out P.each) = true → ∀ n, P.stack (n + 1) < 2 ^ 61 → ∀ g ∈ P.fns, X86.Entry P I items n g := by
  obtain ⟨N, hN⟩ := C74_stages_partial src u code h hu
  refine ⟨N, fun fuel hf ht => ?_⟩
  obtain ⟨out, qs, items, h1, h2⟩ := hN fuel hf ht
  exact ⟨out, qs, items, h1, h2, fun P I hl hs hp n hn g hg => X86.C71_program h1 hl hs hp n hn g hg⟩

/-- two functions, loops, a `switch`, calls with and without a value, shifts, and an expression that keeps five values around a call -/
def goodSource : List UInt8 := X64.bytes
  "void h(int a);int g(int a,int b){return a*b>>2;} int f(int*p,int n){int i;int s;s=0;h(n);for(i=0;i<n;i++){switch(p[i]){case 1:s=s+g(i,n)*(n<<2);break;default:s=s-1;h(s);}} return s+n*(s-(n&(s|g(s,n))));} int k(int a){return a*(a-(a&(a^(a/(a%(a+a))))));}"

/-- C74 applies to it, with no register to spare -/
example : ∃ u code, treeOf 300 goodSource = some u ∧ Gen.generate u = .ok code ∧ (∀ x ∈ u, Tidy.goodExt x = true) ∧ ¬ (∀ x ∈ u, Tidy.tidyExt 6 x = true) ∧ ¬ (∀ x ∈ u, Tidy.usableExt false x = true) := by
  have key : (match treeOf 300 goodSource with
    | some u => (match Gen.generate u with | .ok _ => true | _ => false) && u.all Tidy.goodExt && !u.all (Tidy.tidyExt 6) && !u.all (Tidy.usableExt false)
    | none => false) = true := by decide +kernel
  split at key
  · rename_i u hu
    simp only [Bool.and_eq_true, Bool.not_eq_true'] at key
    obtain ⟨⟨⟨k1, k2⟩, k3⟩, k4⟩ := key
    split at k1
    · rename_i code hg
      refine ⟨u, code, hu, hg, List.all_eq_true.1 k2, fun h => ?_, fun h => ?_⟩
      · rw [List.all_eq_true.2 h] at k3; cases k3
      · rw [List.all_eq_true.2 h] at k4; cases k4
    · cases k1
  · cases key

/-- a program of both parts: a sum over an array with an early exit -/
def rightSource : List UInt8 := X64.bytes "int t;int sum(int*a,int n){int i,s=0;for(i=0;i<n;i++){if(a[i]<0)break;s+=a[i];}t=s;return t<<1;}int neg(int x){return x>=0?-x:x;}"

/-- C74 with C71 applies to it -/
example : ∃ u code out qs items, treeOf 200 rightSource = some u ∧ Gen.generate u = .ok code ∧ (∀ x ∈ u, Tidy.goodExt x = true) ∧ Compiled 200 rightSource u code out qs items ∧
    let P := X86.progOf u out items 100 true
    X86.Loaded P (X86.imageOf items) u out items ∧ P.fns.all (X86.plainFn out P.each) = true ∧ P.fns.length = 2 := by
  have key : (match X86.compile 200 rightSource with
    | some (u, _, out, _, items) => decide (items.length < 2 ^ 32) && decide (X86.labelNames items).Nodup && (CStm.fnsOf (X86.imageOf items).host.sym (X86.sizeIn out) u CStm.noVars).isSome &&
      (X86.progOf u out items 100 true).fns.all (X86.plainFn out 100) && decide ((X86.progOf u out items 100 true).fns.length = 2) && u.all Tidy.goodExt
    | none => false) = true := by decide +kernel
  split at key
  · rename_i u code out qs items hb
    simp only [Bool.and_eq_true, decide_eq_true_eq] at key
    obtain ⟨⟨⟨⟨⟨k1, k2⟩, k3⟩, k4⟩, k5⟩, k6⟩ := key
    have hc := X86.compile_of hb
    obtain ⟨toks, a, e1, e2, e3⟩ := hc.tree
    exact ⟨u, code, out, qs, items, by simp only [treeOf, e1, e2, e3], hc.generated, List.all_eq_true.1 k6, hc, X86.progOf_loaded k1 k2 k3, k4, k5⟩
  · cases key

end Umlcc
