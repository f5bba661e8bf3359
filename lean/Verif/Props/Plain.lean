import Verif.Props.Program
/-!
C71: the functions of a part of C, described by conditions on the typed tree alone (`Spec/Plain.lean`), are compiled right.
-/
namespace Umlcc
namespace X86
open X64 (Item)
open CStm
open IMach (Val Mem)
open Flow (freeBrks freeConts)
open Gen

variable {W : Type}

/-- C71: as C65, for all functions of the part. Nothing is asked of the instructions of the function; `qx` is the state of the intervals of the 8 registers before the function. -/
theorem C71_function (I : Impl W) (E : IMach.Env W) (V : Vars) (s : GState) (f : Str) (ps : Params) (rt : DType) (b : SItems) (out : List Immc) (qx : List Liveseq)
    (P items : List Item) (hf : Fits I E) (ha : Agree E V s) (hl : -1 ≤ s.lab) (hg : ∀ sc ∈ s.syms, ∀ p ∈ sc, p.2.loc = .label)
    (ht : Plain.smallTags V.tags = true) (hn : f.head? ≠ some 46) (hb : freeBrks b = false) (hc : freeConts b = false) (hs : soundAll b = true) (hp : Plain.plainBody none ps b = true)
    (hbuilt : Built f ps rt b s out qx P items) (hq : qx.length = 8) (hframe : frameOf out < 2 ^ 31 - 16) :
    Runs (limited I true) E V f ps rt b items P.length (frameSize (frameOf out)) (inSize E.args.length) 24 := by
  rw [ha.tags] at ht
  by_cases hlen : E.args.length = paramCount ps
  · obtain ⟨code, s', off, qs, fuel, qs', hgen, hal, -⟩ := hbuilt.compiled
    exact C65_function_partial I E V s f ps rt b out qx P items hf ha hl hn hb hc hs hbuilt (d := 0)
      (by rw [hlen]; exact (Plain.suits_plain hgen hal hp hs hc hb hn hl hg ht hq (.inl rfl)).1) hframe fun i _ => (Plain.suits_plain hgen hal hp hs hc hb hn hl hg ht hq (.inl rfl)).2 i
  · refine ⟨0, 0, ?_⟩
    intro H D room _ _ _ _ e M w n r M' w' _ he
    exact absurd (exec_count he) hlen

/-- The same for whole programs: entered at any function, the machine runs through the program as C says. -/
theorem C71_program {fuel : Nat} {src : List UInt8} {u : List SExt} {code out : List Immc} {qs : List Liveseq} {items : List Item} {P : Prog W} {I : Image W}
    (hc : Compiled fuel src u code out qs items) (hlim : P.lim = true) (hs : Loaded P I u out items) (hp : P.fns.all (plainFn out P.each) = true) (n : Nat) (hn : P.stack (n + 1) < 2 ^ 61)
    (g : Fn) (hg : g ∈ P.fns) : Entry P I items n g := by
  refine C68_program_partial (rounds := 0) hc hlim hs ?_ n hn g hg
  rw [List.all_eq_true] at hp ⊢
  intro g hg
  rw [proper, hp g hg, Bool.or_true]

/-! ### examples -/

/-- The loops of C36 meet the hypotheses. -/
example : ∃ out qx items, Built [102] loopParams .int loopSample initial out qx [] items ∧ qx.length = 8 ∧ frameOf out < 2 ^ 31 - 16 ∧ Plain.plainBody none loopParams loopSample = true ∧
    Fits (implOf (quietEnv [⟨.long, 5⟩]) true) (quietEnv [⟨.long, 5⟩]) ∧ Agree (quietEnv [⟨.long, 5⟩]) (varsOf (quietEnv [⟨.long, 5⟩]) initial) initial ∧
    freeBrks loopSample = false ∧ freeConts loopSample = false ∧ soundAll loopSample = true ∧ (∀ sc ∈ initial.syms, ∀ p ∈ sc, p.2.loc = .label) ∧
    Plain.smallTags (varsOf (quietEnv [⟨.long, 5⟩]) initial).tags = true ∧ Serves (quietEnv [⟨.long, 5⟩]) quietHost (frameSize 12) 4000 (inSize 1) 0 ∧
    Entered (quietEnv [⟨.long, 5⟩]) (frameSize 12) 4000 (inSize 1) (entryMach 5).mem (entryMach 5) ∧ frameOf out = 12 := by
  have key : (match build [102] loopParams .int loopSample initial 99 with
    | some (out, qx, _) => decide (qx.length = 8) && decide (frameOf out = 12)
    | none => false) = true := by decide +kernel
  split at key
  · rename_i out qx items hb
    simp only [Bool.and_eq_true, decide_eq_true_eq] at key
    exact ⟨out, qx, items, built_of hb, key.1, by rw [key.2]; decide, by decide +kernel, fits_implOf _ _, agree_varsOf _ _, by decide, by decide, by decide, by decide, by decide,
      quiet_serves (by decide) (by decide), entered_of (x := 5) rfl rfl, key.2⟩
  · cases key

/-- a sum over an array reached through a pointer, with an early exit, and an array of the function with initial values -/
def sumSource : List UInt8 := X64.bytes "int t;int sum(int*a,int n){int i,s=0;for(i=0;i<n;i++){if(a[i]<0)break;s+=a[i];}return t=s;}int neg(int x){int a[2]={x,-x};return a[x>=0?1:0];}"

/-- The program meets the hypotheses. -/
example : ∃ u code out qs items, Compiled 200 sumSource u code out qs items ∧
    let P := progOf u out items 100 true
    let I := imageOf items
    Loaded P I u out items ∧ P.fns.all (plainFn out P.each) = true ∧ P.fns.length = 2 ∧ P.stack 2 < 2 ^ 61 := by
  have key : (match compile 200 sumSource with
    | some (u, _, out, _, items) => decide (items.length < 2 ^ 32) && decide (labelNames items).Nodup && (fnsOf (imageOf items).host.sym (sizeIn out) u noVars).isSome &&
      (progOf u out items 100 true).fns.all (plainFn out 100) && decide ((progOf u out items 100 true).fns.length = 2)
    | none => false) = true := by decide +kernel
  split at key
  · rename_i u code out qs items hb
    simp only [Bool.and_eq_true, decide_eq_true_eq] at key
    obtain ⟨⟨⟨⟨k1, k2⟩, k3⟩, k4⟩, k5⟩ := key
    exact ⟨u, code, out, qs, items, compile_of hb, progOf_loaded k1 k2 k3, k4, k5, by show 0 + 2 * (100 : Nat) < _; decide⟩
  · cases key

/-- recursion, calls with a result and without one, operations with the result, calls in conditions and in the argument of another call, and a call with an argument on the stack -/
def callsSource : List UInt8 := X64.bytes
  "int fact(int n){if(n<=0)return 1;return fact(n-1)*n;}int seven(int a,int b,int c,int d,int e,int f,int g){return a-b+c-d+e-f+g;}int main(int*p,int n){int s=seven(1,2,3,4,5,6,n)+1;fact(fact(n)+s);if(fact(n)!=6&&fact(s)||n>s)p[0]=-fact(s);switch(fact(s)-1){case 5:return 2;}return p[0];}"

/-- The program meets the hypotheses, and none of the two functions with calls belongs to the part without calls. -/
example : ∃ u code out qs items, Compiled 300 callsSource u code out qs items ∧
    let P := progOf u out items 140 true
    let I := imageOf items
    Loaded P I u out items ∧ P.fns.all (plainFn out P.each) = true ∧ P.fns.length = 3 ∧ (P.fns.filter fun g => Plain.plainBody none g.ps g.body).length = 1 ∧ P.stack 2 < 2 ^ 61 := by
  have key : (match compile 300 callsSource with
    | some (u, _, out, _, items) => decide (items.length < 2 ^ 32) && decide (labelNames items).Nodup && (fnsOf (imageOf items).host.sym (sizeIn out) u noVars).isSome &&
      (progOf u out items 140 true).fns.all (plainFn out 140) && decide ((progOf u out items 140 true).fns.length = 3) &&
      decide (((progOf u out items 140 true).fns.filter fun g => Plain.plainBody none g.ps g.body).length = 1)
    | none => false) = true := by decide +kernel
  split at key
  · rename_i u code out qs items hb
    simp only [Bool.and_eq_true, decide_eq_true_eq] at key
    obtain ⟨⟨⟨⟨⟨k1, k2⟩, k3⟩, k4⟩, k5⟩, k6⟩ := key
    exact ⟨u, code, out, qs, items, compile_of hb, progOf_loaded k1 k2 k3, k4, k5, k6, by show 0 + 2 * (140 : Nat) < _; decide⟩
  · cases key

/-- divisions and remainders, a string that initialises an array, and the difference of two pointers -/
def divSource : List UInt8 := X64.bytes
  "int gcd(int a,int b){if(b==0)return a;return gcd(b,a%b);}int prime(int n){int i;for(i=2;i*i<=n;i++)if(n%i==0)return 0;return 1;}unsigned int digit(unsigned int n){n/=10;return n/10%10+48;}int day(int n){char s[8]=\"SMTWTFS\";n%=7;return s[n];}int place(int n){int a[4]={2,3,5,7};int*p=a;while(*p!=n)p++;return p-a;}"

/-- The program meets the hypotheses, and none of its functions belongs to the part without calls, divisions and strings copied. -/
example : ∃ u code out qs items, Compiled 300 divSource u code out qs items ∧
    let P := progOf u out items 100 true
    let I := imageOf items
    Loaded P I u out items ∧ P.fns.all (plainFn out P.each) = true ∧ P.fns.length = 5 ∧ (P.fns.all fun g => !Plain.plainBody none g.ps g.body) = true ∧ P.stack 2 < 2 ^ 61 := by
  have key : (match compile 300 divSource with
    | some (u, _, out, _, items) => decide (items.length < 2 ^ 32) && decide (labelNames items).Nodup && (fnsOf (imageOf items).host.sym (sizeIn out) u noVars).isSome &&
      (progOf u out items 100 true).fns.all (plainFn out 100) && decide ((progOf u out items 100 true).fns.length = 5) &&
      ((progOf u out items 100 true).fns.all fun g => !Plain.plainBody none g.ps g.body)
    | none => false) = true := by decide +kernel
  split at key
  · rename_i u code out qs items hb
    simp only [Bool.and_eq_true, decide_eq_true_eq] at key
    obtain ⟨⟨⟨⟨⟨k1, k2⟩, k3⟩, k4⟩, k5⟩, k6⟩ := key
    exact ⟨u, code, out, qs, items, compile_of hb, progOf_loaded k1 k2 k3, k4, k5, k6, by show 0 + 2 * (100 : Nat) < _; decide⟩
  · cases key

/-- structures, reached through pointers and by name, and a list -/
def structSource : List UInt8 := X64.bytes
  "struct P{int x;int y;};struct N{struct N*next;int v;};int f(struct P*p,int*q){p->y+=*q;return p->x++;}int g(int n){struct P s;s.x=n;s.y=2;return f(&s,&n)+s.x;}int sum(struct N*n){int s=0;while(n){s+=n->v;n=n->next;}return s;}"

/-- The program meets the hypotheses. -/
example : ∃ u code out qs items, Compiled 300 structSource u code out qs items ∧
    let P := progOf u out items 100 true
    let I := imageOf items
    Loaded P I u out items ∧ P.fns.all (plainFn out P.each) = true ∧ P.fns.length = 3 ∧ P.stack 2 < 2 ^ 61 := by
  have key : (match compile 300 structSource with
    | some (u, _, out, _, items) => decide (items.length < 2 ^ 32) && decide (labelNames items).Nodup && (fnsOf (imageOf items).host.sym (sizeIn out) u noVars).isSome &&
      (progOf u out items 100 true).fns.all (plainFn out 100) && decide ((progOf u out items 100 true).fns.length = 3)
    | none => false) = true := by decide +kernel
  split at key
  · rename_i u code out qs items hb
    simp only [Bool.and_eq_true, decide_eq_true_eq] at key
    obtain ⟨⟨⟨⟨k1, k2⟩, k3⟩, k4⟩, k5⟩ := key
    exact ⟨u, code, out, qs, items, compile_of hb, progOf_loaded k1 k2 k3, k4, k5, by show 0 + 2 * (100 : Nat) < _; decide⟩
  · cases key

end X86
end Umlcc
