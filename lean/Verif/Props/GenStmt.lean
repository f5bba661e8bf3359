import Verif.Lemma.StmtFunc
import Verif.Props.GenExpr
import Verif.Props.Immcgen
/-!
C36: intermediate code of statements and functions against the C semantics of `CStm`.
-/
namespace Umlcc
namespace Gen
open IMach (Val St Env Mem sem)
open RSpec (run UniqueLabels)
open CSem (Ctx safe)
open CStm
open Flow (freeBrks freeConts)

variable {W : Type}

/-- an implementation of C, with or without the limits of what the compiler is right about -/
def limited (I : Impl W) (lim : Bool) : Impl W := { I with base := { I.base with lim := lim } }

/-- What C36 asks: wherever the code `c` generated for the statement stands in a program, running it from its beginning does to memory and the world what executing
the statement does, and ends where that ends. A statement whose execution goes on for ever has code that runs for ever: the number of steps grows with the bound
on the execution. `I` may define more than `I0`. -/
def Executes (I0 I : Impl W) (E : Env W) (V : Vars) (b : SStmt) (s : GState) : Prop :=
  ∃ K, ∀ c s' pre post, stmt b s = .ok ((), c, s') → UniqueLabels (pre ++ c ++ post) →
    ∀ R m w out ret n r m' w', exec I0 n V .run b (m, w) = some (r, m', w') →
      exec I n V .run b (m, w) = some (r, m', w') ∧
      Reaches E (pre ++ c ++ post) ⟨pre.length, R, ⟨m, w, out, ret⟩⟩ s (pre.length + c.length) ⟨m, w, out, ret⟩ (n - K) (m', w') r

/-- C36 in full: all statements, all states -/
def C36_full : Prop := ∀ (W : Type) (I : Impl W) (E : Env W) (V : Vars) (s : GState) (b : SStmt), I.base.lim = false → Fits I E → Agree E V s → -1 ≤ s.lab →
  Executes I I E V b s

/-- C36 for statements whose expressions belong to the fragment of C34 (`sound`, which also says that structures declared inside are laid out by the
compiler's rules and that `for` has the form the grammar gives it), in executions in which neither the limits of C34 and C37 nor a `case` label outside the range of
the controlling expression's type are met. Missing: those; the property fails for them (below, and C34, C37). -/
theorem C36_executes_partial (I : Impl W) (E : Env W) (V : Vars) (s : GState) (b : SStmt) (hf : Fits I E) (ha : Agree E V s) (hl : -1 ≤ s.lab) (hs : sound b = true) :
    Executes (limited I true) (limited I false) E V b s := by
  refine ⟨Sim.size b, ?_⟩
  intro c s' pre post h hu R m w out ret n r m' w' hx
  refine ⟨(Sim.exec_full (I := limited I true) n).stmt hx, ?_⟩
  have hf' : Fits (limited I true) E := ⟨hf.call, hf.ok, hf.str, hf.frame, hf.place, hf.addr⟩
  have k := (Sim.all_sim hu hf' rfl n).1 b (m := .run) (k := pre.length) (R := R) (st := ⟨m, w, out, ret⟩) h hs ha hl (Sim.at_mid pre c post) rfl trivial hx
  cases r with
  | norm => obtain ⟨R', i, k⟩ := k; exact ⟨i, R', k⟩
  | brk => obtain ⟨R', k⟩ := k; intro p hp; obtain ⟨i, k⟩ := k p hp; exact ⟨i, R', k⟩
  | cont => obtain ⟨R', k⟩ := k; intro p hp; obtain ⟨i, k⟩ := k p hp; exact ⟨i, R', k⟩
  | ret v => obtain ⟨R', k⟩ := k; intro p hp; obtain ⟨i, k⟩ := k p hp; exact ⟨i, R', k⟩
  | more => exact k

/-- What C36 says about a function: run from its beginning with the arguments of `E`, its code stores them in the parameters, executes the body and arrives at its
end with the value returned. If the execution of the body goes on, so does the run. -/
def Calls (I0 I : Impl W) (E : Env W) (V : Vars) (f : Str) (ps : Params) (rt : DType) (b : SItems) (s : GState) : Prop :=
  ∃ K, ∀ code s', funcCode f (.func ps rt) b s = .ok ((), code, s') →
    ∀ R m w out n r m' w', execFunc I0 n V f ps rt b E.args (m, w) = some (r, m', w') →
      execFunc I n V f ps rt b E.args (m, w) = some (r, m', w') ∧
      match r with
      | .norm => ∃ i R', run (sem E) code ⟨0, R, ⟨m, w, out, none⟩⟩ i = some ⟨code.length, R', ⟨m', w', out, none⟩⟩
      | .ret v => ∃ i R', run (sem E) code ⟨0, R, ⟨m, w, out, none⟩⟩ i = some ⟨code.length, R', ⟨m', w', out, v⟩⟩
      | .more => ∃ i a, run (sem E) code ⟨0, R, ⟨m, w, out, none⟩⟩ i = some a ∧ n ≤ i + K ∧ a.st.mem = m' ∧ a.st.w = w'
      | .brk | .cont => False

/-- C36 for whole functions, with the same limits. No assumption about labels is left: they follow from C32. -/
theorem C36_function_partial (I : Impl W) (E : Env W) (V : Vars) (s : GState) (f : Str) (ps : Params) (rt : DType) (b : SItems) (hf : Fits I E) (ha : Agree E V s)
    (hl : -1 ≤ s.lab) (hn : f.head? ≠ some 46) (hb : freeBrks b = false) (hc : freeConts b = false) (hs : soundAll b = true) :
    Calls (limited I true) (limited I false) E V f ps rt b s := by
  refine ⟨Sim.sizes b, ?_⟩
  intro code s' h R m w out n r m' w' hx
  have hu := (C32_labels f _ b s s' code h hc hb hn hl).1
  have hf' : Fits (limited I true) E := ⟨hf.call, hf.ok, hf.str, hf.frame, hf.place, hf.addr⟩
  constructor
  · simp only [execFunc, Option.bind_eq_bind, Option.bind_eq_some_iff] at hx ⊢
    obtain ⟨V1, h1, x, h2, h3⟩ := hx
    exact ⟨V1, h1, x, (Sim.bindParams_full (I := limited I true)).trans h2, (Sim.exec_full (I := limited I true) n).items h3⟩
  · have k := Sim.func_sim hf' rfl h hu hs hb hc ha hl (R := R) (st := ⟨m, w, out, none⟩) hx
    cases r with
    | norm => obtain ⟨R', i, k⟩ := k; exact ⟨i, R', k⟩
    | brk => exact k
    | cont => exact k
    | ret v => obtain ⟨R', i, k⟩ := k; exact ⟨i, R', by simpa using k⟩
    | more => obtain ⟨i, a, k1, k2, k3⟩ := k; exact ⟨i, a, k1, by omega, k3⟩

/-- A function whose execution never ends has code that never ends. -/
theorem C36_forever_partial (I : Impl W) (E : Env W) (V : Vars) (s s' : GState) (f : Str) (ps : Params) (rt : DType) (b : SItems) (code : List Immc) (hf : Fits I E)
    (ha : Agree E V s) (hl : -1 ≤ s.lab) (hn : f.head? ≠ some 46) (hb : freeBrks b = false) (hc : freeConts b = false) (hs : soundAll b = true)
    (h : funcCode f (.func ps rt) b s = .ok ((), code, s')) (R : Int → Val) (m : Mem) (w : W) (out : List (List (Nat × Val)))
    (hx : ∀ n, ∃ σ, execFunc (limited I true) n V f ps rt b E.args (m, w) = some (.more, σ)) (i : Nat) :
    ∃ a, run (sem E) code ⟨0, R, ⟨m, w, out, none⟩⟩ i = some a := by
  obtain ⟨K, k⟩ := C36_function_partial I E V s f ps rt b hf ha hl hn hb hc hs
  obtain ⟨⟨m', w'⟩, hx⟩ := hx (i + K)
  obtain ⟨-, j, a, h1, h2, -⟩ := k code s' h R m w out _ _ _ _ hx
  have : j = i + (j - i) := by omega
  rw [this, Sim.run_add] at h1
  obtain ⟨a', h1, -⟩ := Option.bind_eq_some_iff.1 h1
  exact ⟨a', h1⟩

/-! #### samples -/

private def nn : Str := [110]
private def ns : Str := [115]
private def ni : Str := [105]
private def num (v : Int) : SExpr := .ilit .int ⟨.int, v⟩
private def var (n : Str) : SExpr := .ident .int n
private def addr (n : Str) : SExpr := .un .addr (.ptr .int) (var n)
private def set (n : Str) (e : SExpr) : SExpr := .bin .assign .int (addr n) e
private def block : List SItem → SStmt := fun l => .cmpd (l.foldr .cons .nil)

/-- `int s = 0; int i; for (i = 0; i < n; i++) { switch (i) { case 2: continue; case 3: s = s + 10; default: s = s + 1; } while (s > 10) { s = s - 5; if (s == 8) break; } }
return s;` -/
def loopSample : SItems :=
  .cons (.decls [⟨.ident ns, .int, some (.expr (num 0))⟩]) (.cons (.decls [⟨.ident ni, .int, none⟩])
  (.cons (.stmt (.for (.stmt (.expr (set ni (num 0)))) (.expr (.bin .less .int (var ni) (var nn))) (.expr (.un .postinc .int (addr ni))) (block [
    .stmt (.switch (var ni) (block [.stmt (.case (num 2) .cont), .stmt (.case (num 3) (.expr (set ns (.bin .add .int (var ns) (num 10))))),
      .stmt (.dflt (.expr (set ns (.bin .add .int (var ns) (num 1)))))])),
    .stmt (.while (.bin .greater .int (var ns) (num 10)) (block [.stmt (.expr (set ns (.bin .sub .int (var ns) (num 5)))),
      .stmt (.ite (.bin .equal .int (var ns) (num 8)) .brk)]))])))
  (.cons (.stmt (.ret (some (var ns)))) .nil)))

def loopParams : Params := .cons (some nn) .int .nil

/-- called with 5 -/
def loopEnv : Env Nat := { sampleEnv with args := [⟨.long, 5⟩] }

/-- The sample meets the hypotheses of the theorem about functions, and returns 9 after the loop: 1, 2, (skipped), 13 reduced to 8, 9. With a bound of 12 the
execution is not at its end. -/
example : Fits (implOf loopEnv true) loopEnv ∧ Agree loopEnv (varsOf loopEnv initial) initial ∧ freeBrks loopSample = false ∧ freeConts loopSample = false ∧
    soundAll loopSample = true ∧ (match funcCode [102] (.func loopParams .int) loopSample initial with
      | .ok _ => true
      | _ => false) = true ∧
    (execFunc (implOf loopEnv true) 40 (varsOf loopEnv initial) [102] loopParams .int loopSample loopEnv.args (sampleMem, 0)).map (·.1) = some (.ret (some ⟨.long, 9⟩)) ∧
    (execFunc (implOf loopEnv true) 12 (varsOf loopEnv initial) [102] loopParams .int loopSample loopEnv.args (sampleMem, 0)).map (·.1) = some .more :=
  ⟨fits_implOf _ _, agree_varsOf _ _, by decide, by decide, by decide, by decide +kernel, by decide +kernel, by decide +kernel⟩

/-- `for (;;) x = x + 1;`, an unsigned `x` -/
def foreverSample : SItems :=
  .cons (.decls [⟨.ident [120], .uint, none⟩]) (.cons (.stmt (.for (.stmt .null) .null .null (.expr (.bin .assign .uint (.un .addr (.ptr .uint) (.ident .uint [120]))
    (.bin .add .uint (.ident .uint [120]) (.ilit .uint ⟨.uint, 1⟩)))))) .nil)

theorem loop_more {I : Impl W} {V : Vars} {e : SExpr} (hs : ∀ σ, ∃ x, CSem.eval (V.ctx I) e σ = some x) : ∀ n σ,
    (∃ σ', execLoop I n V V .null .null (.expr e) σ = some (.more, σ')) ∧ (∃ σ', execNext I n V V .null .null (.expr e) σ = some (.more, σ'))
  | 0, σ => ⟨⟨_, rfl⟩, ⟨_, rfl⟩⟩
  | 1, σ => ⟨⟨_, rfl⟩, ⟨_, rfl⟩⟩
  | n + 2, σ => by
    obtain ⟨x, hx⟩ := hs σ
    obtain ⟨σ1, h1⟩ := (loop_more hs (n + 1) x.2).2
    obtain ⟨σ2, h2⟩ := (loop_more hs (n + 1) σ).1
    refine ⟨⟨σ1, ?_⟩, ⟨σ2, ?_⟩⟩
    · rw [execLoop]
      simpa [testFor, exec, hx, Res.afterBody] using h1
    · rw [execNext]
      simpa [exec, Res.andThen] using h2

/-- With every bound the execution of the sample is not at its end: it meets the hypotheses of the theorem about executions that never end. -/
theorem foreverSample_more (σ : Mem × Nat) (n : Nat) :
    ∃ σ', execFunc (implOf sampleEnv true) n (varsOf sampleEnv initial) [102] .nil .void foreverSample [] σ = some (.more, σ') := by
  have hs : ∀ σ : Mem × Nat, ∃ x, CSem.eval ((⟨[[], [([120], sampleEnv.bp - BitVec.ofNat 64 ((0 + DType.uint.nbytes + 3) / 4 * 4))], [([102], sampleEnv.glob ⟨[102], by decide⟩)]], [[], [], []], (0 + DType.uint.nbytes + 3) / 4 * 4⟩ : Vars).ctx (implOf sampleEnv true))
      (.bin .assign .uint (.un .addr (.ptr .uint) (.ident .uint [120])) (.bin .add .uint (.ident .uint [120]) (.ilit .uint ⟨.uint, 1⟩))) σ = some x := fun σ => ⟨_, rfl⟩
  match n with
  | 0 | 1 | 2 | 3 | 4 | 5 => exact ⟨_, rfl⟩
  | n + 6 =>
    obtain ⟨σ1, h1⟩ := (loop_more hs (n + 2) σ).1
    refine ⟨σ1, ?_⟩
    simp only [execFunc, foreverSample]
    rw [show withSelf (implOf sampleEnv true) [102] (.func .nil .void) (varsOf sampleEnv initial) = some ⟨[[([102], sampleEnv.glob ⟨[102], by decide⟩)]], [[]], 0⟩ from rfl]
    simp only [Option.bind_eq_bind, Option.bind_some, bindParams, Vars.enter]
    rw [execs, show scopeItem (implOf sampleEnv true) (.decls [⟨.ident [120], .uint, none⟩]) ⟨[[], [([102], sampleEnv.glob ⟨[102], by decide⟩)]], [[], []], 0⟩ =
      some ⟨[[([120], sampleEnv.bp - BitVec.ofNat 64 ((0 + DType.uint.nbytes + 3) / 4 * 4))], [([102], sampleEnv.glob ⟨[102], by decide⟩)]], [[], []], (0 + DType.uint.nbytes + 3) / 4 * 4⟩ from rfl]
    rw [show execItem (implOf sampleEnv true) (n + 5) ⟨[[], [([102], sampleEnv.glob ⟨[102], by decide⟩)]], [[], []], 0⟩ .run (.decls [⟨.ident [120], .uint, none⟩]) σ =
      some (.norm, σ) from rfl]
    simp only [Option.bind_eq_bind, Option.bind_some, Res.andThen]
    rw [execs]
    simp only [scopeItem, scope, execItem, exec, Vars.enter, Option.bind_eq_bind, Option.bind_some, Res.andThen, h1]

example : Fits (implOf sampleEnv false) sampleEnv ∧ Agree sampleEnv (varsOf sampleEnv initial) initial ∧ freeBrks foreverSample = false ∧ freeConts foreverSample = false ∧
    soundAll foreverSample = true ∧ (∃ code s', funcCode [102] (.func .nil .void) foreverSample initial = .ok ((), code, s')) ∧
    ∀ n, ∃ σ, execFunc (limited (implOf sampleEnv false) true) n (varsOf sampleEnv initial) [102] .nil .void foreverSample sampleEnv.args (sampleMem, 0) = some (.more, σ) :=
  ⟨fits_implOf _ _, agree_varsOf _ _, by decide, by decide, by decide, ⟨_, _, rfl⟩, foreverSample_more _⟩

/-- A `switch` that jumps into the middle of a loop: `switch (x) { case 0: ; while (x < 3) { x = x + 8; case 7: x = x - 6; } }` -/
def duffSample : SStmt := .switch (var [120]) (block [.stmt (.case (num 0) .null), .stmt (.while (.bin .less .int (var [120]) (num 3)) (block [
  .stmt (.expr (set [120] (.bin .add .int (var [120]) (num 8)))), .stmt (.case (num 7) (.expr (set [120] (.bin .sub .int (var [120]) (num 6)))))]))])

/-- `x` is 7 at first: it becomes 1, then 9 and 3 -/
example : sound duffSample = true ∧ (∃ c s', stmt duffSample sampleState = .ok ((), c, s')) ∧
    (exec (implOf sampleEnv true) 20 (varsOf sampleEnv sampleState) .run duffSample (sampleMem, 0)).map (fun x => (x.1, x.2.1 4092)) = some (.norm, 3) :=
  ⟨by decide, ⟨_, _, rfl⟩, by decide +kernel⟩

/-- `switch (0) case 4294967296L: x = 1;` -/
def wideSample : SStmt := .switch (num 0) (.case (.ilit .long ⟨.long, 4294967296⟩) (.expr (set [120] (num 1))))


/-- its code -/
def wideCode : List Immc :=
  [inst .load (some (.reg .long 0 false)) (some (intOpe .long 0)) none, inst .jeq (some (labelOpe 1)) (some (.reg .long 0 false)) (some (.int .quad ⟨.long, 4294967296⟩)),
   inst .jmp (some (labelOpe 0)) none none, labelAt 1, inst .load (some (.reg .long 1 false)) (some (intOpe .long 1)) none,
   inst .store (some (.mem 4)) (some (.reg .long 1 false)) none, labelAt 0]

/-- C36 fails for a control statement itself: the value of a `case` label is converted to the type of the controlling expression in C (6.8.4.2p5), here from
4294967296 to 0, so that the statement sets `x` to 1. The code compares without conversion and does nothing. -/
theorem C36_violated : ¬ C36_full := by
  intro h
  obtain ⟨K, h⟩ := h Nat (implOf sampleEnv false) sampleEnv (varsOf sampleEnv sampleState) sampleState wideSample rfl (fits_implOf _ _) (agree_varsOf _ _) (by decide)
  obtain ⟨⟨r, m', w'⟩, hx, hv⟩ := Option.map_eq_some_iff.1
    (show (exec (implOf sampleEnv false) 5 (varsOf sampleEnv sampleState) .run wideSample (sampleMem, 0)).map (fun x => (x.1, x.2.1 4092)) = some (.norm, 1) by decide +kernel)
  have hv1 : r = .norm := congrArg Prod.fst hv
  have hv2 : m' 4092 = 1 := congrArg Prod.snd hv
  subst hv1
  obtain ⟨s', hg⟩ : ∃ s', stmt wideSample sampleState = .ok ((), wideCode, s') := ⟨_, rfl⟩
  obtain ⟨-, i, R', h1⟩ := h wideCode s' [] [] hg (unique_of_nodup (by decide +kernel)) (fun _ => IMach.noVal) sampleMem 0 [] none 5 _ _ _ hx
  obtain ⟨a, ha, hb⟩ := Option.map_eq_some_iff.1 (show (run (sem sampleEnv) wideCode ⟨0, fun _ => IMach.noVal, ⟨sampleMem, 0, [], none⟩⟩ 4).map
    (fun a => (a.pc, a.st.mem 4092)) = some (7, 7) by decide +kernel)
  have hb1 : a.pc = 7 := congrArg Prod.fst hb
  have hb2 : a.st.mem 4092 = 7 := congrArg Prod.snd hb
  have e := Sim.run_end ha (show run (sem sampleEnv) wideCode ⟨0, fun _ => IMach.noVal, ⟨sampleMem, 0, [], none⟩⟩ i = some _ by simpa using h1) (by rw [hb1]; rfl) (by rfl)
  rw [e] at hb2
  exact absurd (hv2.symm.trans hb2) (by decide)

end Gen
end Umlcc
