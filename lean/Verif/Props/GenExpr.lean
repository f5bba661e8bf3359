import Verif.Lemma.SimProps
/-!
C34, C35, C55: intermediate code of expressions against the C semantics of `CSem`.
-/
namespace Umlcc
namespace Gen
open IMach (Val St Env Mem sem)
open RSpec (run UniqueLabels)
open CSem (Ctx Describes eval rep safe fresh isPtr ctxOf)

variable {W : Type}

/-- What C34 asks: wherever the code `c` generated for `e` stands in a program, running it from its beginning gets to its end, leaves C's value in the
expression's register, makes C's changes to memory and the world and nothing else, and keeps all registers in use before. `C` says what names mean;
`C0` may leave more undefined. -/
def Computes (C0 C : Ctx W) (E : Env W) (e : SExpr) (s : GState) : Prop :=
  ∀ c s' pre post, (expr e).code s = .ok ((), c, s') → UniqueLabels (pre ++ c ++ post) →
    ∀ R m w out ret v m' w', eval C0 e (m, w) = some (v, m', w') →
      eval C e (m, w) = some (v, m', w') ∧
      ∃ n R', run (sem E) (pre ++ c ++ post) ⟨pre.length, R, ⟨m, w, out, ret⟩⟩ n = some ⟨pre.length + c.length, R', ⟨m', w', out, ret⟩⟩ ∧
        (∀ r ≤ s.reg, R' r = R r) ∧ ∀ q, rep e.dt = some q → ∃ r, s'.exprReg = some (q.1, r, q.2) ∧ R' r = ⟨q.1, BitVec.ofInt _ v⟩

/-- C34 in full: all expressions, all states -/
def C34_full : Prop := ∀ (W : Type) (C : Ctx W) (E : Env W) (s : GState) (e : SExpr), C.lim = false → Describes C E s → Computes C C E e s

/-- C34 for the expressions of the fragment `safe` (no casts of casts that cannot be merged, no dereferencing or calling of an expression whose value is not in
the last register), in evaluations in which no subscript's product with the element size leaves the subscript's type and no pointer difference is
negative (`lim`). Missing: those, where the property fails (below and C30, C54, C55). -/
theorem C34_computes_partial (C : Ctx W) (E : Env W) (s : GState) (e : SExpr) (hd : Describes C E s) (hs : safe none e = true) :
    Computes { C with lim := true } { C with lim := false } E e s := by
  intro c s' pre post hg hu R m w out ret v m' w' hx
  refine ⟨CSem.eval_full (C := { C with lim := true }) e hx, ?_⟩
  have hR : Sim.Rel { C with lim := true } E s := ⟨Sim.describes_lim hd true, rfl⟩
  obtain ⟨R', ⟨n, h1⟩, h2, h3⟩ := (Sim.exprSim hu e).code hg hR hs (R := R) (st := ⟨m, w, out, ret⟩) (Sim.at_mid pre c post) hx
  refine ⟨n, R', h1, h2, fun q hq => ?_⟩
  obtain ⟨r, h4, h5, -⟩ := h3 q hq
  exact ⟨r, h4, h5⟩

/-! #### samples -/

private def sx : Str := [120]
private def sp : Str := [112]
private def sq : Str := [113]
private def sc : Str := [99]
private def sf : Str := [102]

/-- `int x; int *p, *q; char c;` in a function, and a function `int f(int, char)` -/
def sampleState : GState :=
  { initial with syms := [[(sx, ⟨.mem 4, .int⟩), (sp, ⟨.mem 12, .ptr .int⟩), (sq, ⟨.mem 20, .ptr .int⟩), (sc, ⟨.mem 24, .char⟩)],
    [(sf, ⟨.label, .func (.cons none .int (.cons none .char .nil)) .int⟩)]], mem := 24 }

/-- a frame at 4096, functions that return the number of their arguments and count calls in the world -/
def sampleEnv : Env Nat where
  bp := 4096
  glob _ := 8192
  call _ vs _ m w := some (m, w + 1, BitVec.ofNat 64 vs.length)
  ok _ := true
  args := []

/-- memory: `x` is 7, `p` points to `x`, `c` is 100, `q` is 0 -/
def sampleMem : Mem := fun a => if a = 4092 then 7 else if a = 4084 then 252 else if a = 4085 then 15 else if a = 4072 then 100 else 0

private def ex : SExpr := .ident .int sx
private def ep : SExpr := .ident (.ptr .int) sp
private def eq : SExpr := .ident (.ptr .int) sq
private def ec : SExpr := .ident .char sc
private def lit (v : Int) : SExpr := .ilit .int ⟨.int, v⟩
private def addr (e : SExpr) : SExpr := .un .addr (.ptr e.dt) e

/-- `x = c > 3 && p != q ? f(*p + x++, c) * (int)c : x` -/
def sampleExpr : SExpr :=
  .bin .assign .int (addr ex) (.cond .int (.bin .land .int (.bin .greater .int (.un .cast .int ec) (lit 3)) (.bin .nequal .int ep eq))
    (.bin .mul .int (.call .int (.un .addr (.ptr (.func (.cons none .int (.cons none .char .nil)) .int)) (.ident (.func (.cons none .int (.cons none .char .nil)) .int) sf))
      (.cons (.bin .add .int (.un .indir .int ep) (.un .postinc .int (addr ex))) (.cons ec .nil))) (.un .cast .int ec)) ex)

/-- the sample is in the fragment, is translated, and evaluates to 200 with one call -/
example : safe none sampleExpr = true ∧ (∃ c s', (expr sampleExpr).code sampleState = .ok ((), c, s')) ∧
    (eval { ctxOf sampleEnv sampleState false with lim := true } sampleExpr (sampleMem, 0)).map (fun x => (x.1, x.2.2, x.2.1 4092)) = some (200, 1, 200) := by
  refine ⟨by decide, ⟨_, _, rfl⟩, by decide +kernel⟩

/-- `p + c` -/
def scaled : SExpr := .bin .padd (.ptr .int) ep ec

/-- an expression whose code ends with a wrong value in the register -/
theorem not_computes {C : Ctx W} {E : Env W} {s s' : GState} {e : SExpr} {c : List Immc} (hg : (expr e).code s = .ok ((), c, s')) (hd : (defs c).Nodup)
    {q : Sfx × Bool} (hq : rep e.dt = some q) {r : Int} (hr : s'.exprReg = some (q.1, r, q.2)) {m : Mem} {w : W} {v : Int}
    (hv : (eval C e (m, w)).map (·.1) = some v) {R : Int → Val} {k : Nat} {b : Val}
    (hrun : (run (sem E) c ⟨0, R, ⟨m, w, [], none⟩⟩ k).map (fun m => (m.pc, m.regs r)) = some (c.length, b)) (hb : b ≠ ⟨q.1, BitVec.ofInt _ v⟩) :
    ¬ Computes C C E e s := by
  intro h
  obtain ⟨x, hx, rfl⟩ := Option.map_eq_some_iff.1 hv
  obtain ⟨-, n, R', h1, -, h2⟩ := h c s' [] [] hg (by simpa using unique_of_nodup hd) R m w [] none _ _ _ hx
  obtain ⟨r', h3, h4⟩ := h2 q hq
  rw [hr] at h3
  cases h3
  simp only [List.nil_append, List.append_nil, List.length_nil, Nat.zero_add] at h1
  obtain ⟨a, ha, hab⟩ := Option.map_eq_some_iff.1 hrun
  simp only [Prod.mk.injEq] at hab
  have := Sim.run_end h1 ha (by simp) (by rw [hab.1]; simp)
  subst this
  exact hb (hab.2.symm.trans h4)

/-- C34 fails: with `c` = 100, `p + c` (and hence `p[c]`) is computed with a subscript of type `char`: the code multiplies 100 by 4 in 8 bits and gets 112 bytes
below `p` instead of 400 above. -/
theorem C34_violated : ¬ C34_full := fun h =>
  not_computes (C := ctxOf sampleEnv sampleState false) (E := sampleEnv) (s := sampleState) (e := scaled) (q := (.quad, false)) (m := sampleMem) (w := 0)
    (v := 4492) (R := fun _ => IMach.noVal) (k := 4) (r := 2) (b := ⟨.quad, 3980⟩) rfl (by decide) rfl rfl (by decide +kernel) (by decide +kernel) (by decide)
    (h _ _ _ _ _ rfl (Sim.ctxOf_describes _ _ _))

/-- C34 fails for the other reason the fragment excludes, too: `*(1 ? p : q)` loads through the register of `q`, which was not even written. -/
def derefCond : SExpr := .un .indir .int (.cond (.ptr .int) (lit 1) ep eq)

/-- its code, of which the last instruction loads -/
def derefCode : List Immc :=
  [inst .load (some (.reg .long 0 false)) (some (intOpe .long 1)) none, inst .jeq (some (labelOpe 0)) (some (.reg .long 0 false)) (some (intOpe .long 0)),
   inst .load (some (.reg .quad 2 false)) (some (.mem 12)) none, inst .load (some (.reg .quad 1 false)) (some (.reg .quad 2 false)) none,
   inst .jmp (some (labelOpe 1)) none none, labelAt 0,
   inst .load (some (.reg .quad 3 false)) (some (.mem 20)) none, inst .load (some (.reg .quad 1 false)) (some (.reg .quad 3 false)) none, labelAt 1,
   inst .load (some (.reg .long 4 false)) (some (.ptr 3)) none]

def derefState : GState := { sampleState with reg := 4, lab := 1, exprReg := some (.long, 4, false) }

theorem derefCond_code : (expr derefCond).code sampleState = .ok ((), derefCode, derefState) := by decide +kernel

theorem C34_deref_violated : ¬ Computes (ctxOf sampleEnv sampleState false) (ctxOf sampleEnv sampleState false) sampleEnv derefCond sampleState :=
  not_computes (q := (.long, false)) (m := sampleMem) (w := 0) (v := 7) (R := fun _ => ⟨.quad, 0⟩) (k := 7) (r := 4) (b := ⟨.long, 0⟩) derefCond_code (by decide) rfl rfl
    (by decide +kernel) (by decide +kernel) (by decide)

/-! ### C35 -/

/-- What C35 asks: `j` is the branch instruction generated after `c` for the condition `e` and polarity `b`. From the beginning of `c` the machine gets to the
label the branch names if the truth value of `e` is `b`, and behind the branch otherwise. -/
def Branches (C0 C : Ctx W) (E : Env W) (e : SExpr) (s : GState) : Prop :=
  ∀ b j c s' pre post n k lt vis, (expr e).jmp b s = .ok (j, c, s') → UniqueLabels (pre ++ (c ++ [j n]) ++ post) →
    (pre ++ (c ++ [j n]) ++ post)[k]? = some (.label lt vis n) → (rep e.dt).isSome = true →
    ∀ R m w out ret v m' w', eval C0 e (m, w) = some (v, m', w') →
      eval C e (m, w) = some (v, m', w') ∧
      ∃ i R', run (sem E) (pre ++ (c ++ [j n]) ++ post) ⟨pre.length, R, ⟨m, w, out, ret⟩⟩ i =
          some ⟨if decide (v ≠ 0) = b then k else pre.length + c.length + 1, R', ⟨m', w', out, ret⟩⟩ ∧ ∀ r ≤ s.reg, R' r = R r

/-- C35 in full -/
def C35_full : Prop := ∀ (W : Type) (C : Ctx W) (E : Env W) (s : GState) (e : SExpr), C.lim = false → Describes C E s → Branches C C E e s

/-- C35 for the conditions in the fragment of C34. Missing: the others. -/
theorem C35_branches_partial (C : Ctx W) (E : Env W) (s : GState) (e : SExpr) (hd : Describes C E s) (hs : safe none e = true) :
    Branches { C with lim := true } { C with lim := false } E e s := by
  intro b j c s' pre post n k lt vis hg hu hk hq R m w out ret v m' w' hx
  refine ⟨CSem.eval_full (C := { C with lim := true }) e hx, ?_⟩
  have hR : Sim.Rel { C with lim := true } E s := ⟨Sim.describes_lim hd true, rfl⟩
  have ha := Sim.at_append.1 (Sim.at_mid pre (c ++ [j n]) post)
  simp only [Sim.At, and_true] at ha
  obtain ⟨R', ⟨i, h1⟩, h2⟩ := (Sim.exprSim hu e).jmp hg hR hs (R := R) (st := ⟨m, w, out, ret⟩) ha.1 ha.2 hk hx hq
  exact ⟨i, R', h1, h2⟩

/-- `x < *p || !(x = 0)` is in the fragment, is translated as a condition, and is true -/
def sampleCond : SExpr := .bin .lor .int (.bin .less .int ex (.un .indir .int ep)) (.un .lnot .int (.bin .assign .int (addr ex) (lit 0)))

example : safe none sampleCond = true ∧ (∃ j c s', (expr sampleCond).jmp false sampleState = .ok (j, c, s')) ∧
    (eval { ctxOf sampleEnv sampleState false with lim := true } sampleCond (sampleMem, 0)).map (fun x => (x.1, x.2.1 4092)) = some (1, 0) := by
  refine ⟨by decide, ⟨_, _, _, rfl⟩, by decide +kernel⟩

/-- C35 fails: `*(1 ? p : q)` is 7, but the branch on it being false is taken. -/
theorem C35_violated : ¬ C35_full := by
  intro h
  obtain ⟨x, hx, hv⟩ := Option.map_eq_some_iff.1
    (show (eval (ctxOf sampleEnv sampleState false) derefCond (sampleMem, 0)).map (·.1) = some 7 by decide +kernel)
  have hg : ∃ j, (expr derefCond).jmp false sampleState = .ok (j, derefCode, derefState) ∧
      ∀ n, j n = inst .jeq (some (.label n)) (some (.reg .long 4 false)) (some (intOpe .long 0)) := ⟨_, rfl, fun _ => rfl⟩
  obtain ⟨j, hg, hj⟩ := hg
  obtain ⟨-, i, R', h1, -⟩ := h Nat _ sampleEnv sampleState derefCond rfl (Sim.ctxOf_describes sampleEnv sampleState false) false j _ _ []
    [inst .stret none (some (intOpe .long 0)) none, .label .normal .none (labelName 5)] (labelName 5) 12 .normal .none hg
    (by rw [hj]; exact unique_of_nodup (by decide +kernel)) (by rw [hj]; rfl) rfl (fun _ => ⟨.quad, 0⟩) sampleMem 0 [] none _ _ _ hx
  rw [hv, hj, if_neg (by decide)] at h1
  have hne : ∀ i ≤ 9, (run (sem sampleEnv) (derefCode ++ [inst .jeq (some (.label (labelName 5))) (some (.reg .long 4 false)) (some (intOpe .long 0)),
      inst .stret none (some (intOpe .long 0)) none, .label .normal .none (labelName 5)]) ⟨0, fun _ => ⟨.quad, 0⟩, ⟨sampleMem, 0, [], none⟩⟩ i).map (·.pc) ≠ some 11 := by
    decide +kernel
  refine Sim.not_met (P := fun a => a.pc = 11) (N := 9) ?_ (fun i hi a ha hp => hne i hi ?_) h1 rfl
  · decide +kernel
  · have : run (sem sampleEnv) (derefCode ++ [inst .jeq (some (.label (labelName 5))) (some (.reg .long 4 false)) (some (intOpe .long 0)),
      inst .stret none (some (intOpe .long 0)) none, .label .normal .none (labelName 5)]) ⟨0, fun _ => ⟨.quad, 0⟩, ⟨sampleMem, 0, [], none⟩⟩ i = some a := ha
    rw [this, ← hp]
    rfl

/-! ### C55 -/

/-- What C55 asks: the code for `*E` is code that computes `E` and a load whose operand denotes the place at the address that is `E`'s value. -/
def LoadsFrom (C0 C : Ctx W) (E : Env W) (t : DType) (e : SExpr) (s : GState) : Prop :=
  ∀ c s' pre post, (expr (.un .indir t e)).code s = .ok ((), c, s') → UniqueLabels (pre ++ c ++ post) →
    ∃ c1 d o, c = c1 ++ [inst .load (some d) (some o) none] ∧ ∀ R m w out ret v m' w', eval C0 e (m, w) = some (v, m', w') →
      eval C e (m, w) = some (v, m', w') ∧
      ∃ n R', run (sem E) (pre ++ c ++ post) ⟨pre.length, R, ⟨m, w, out, ret⟩⟩ n = some ⟨pre.length + c1.length, R', ⟨m', w', out, ret⟩⟩ ∧
        IMach.place E (some o) (match o with | .ptr r => some (R' r) | _ => none) = some (BitVec.ofInt 64 v)

/-- C55 in full -/
def C55_full : Prop := ∀ (W : Type) (C : Ctx W) (E : Env W) (s : GState) (t : DType) (e : SExpr), C.lim = false → Describes C E s → isPtr e.dt = true →
  LoadsFrom C C E t e s

/-- C55 for pointer expressions whose value is in the register used last (`fresh`: everything but conditional expressions, assignments through a
pointer, and these with a sign or `&*` before them) and in the fragment of C34. Missing: the others. -/
theorem C55_address_partial (C : Ctx W) (E : Env W) (s : GState) (t : DType) (e : SExpr) (hd : Describes C E s) (hp : isPtr e.dt = true) (hs : safe none e = true)
    (hf : fresh e = true) : LoadsFrom { C with lim := true } { C with lim := false } E t e s := by
  intro c s' pre post hg hu
  rw [expr] at hg
  obtain ⟨o, c1, s1, h1, rfl, rfl⟩ := indirCode_ok hg
  refine ⟨c1, _, o, rfl, ?_⟩
  intro R m w out ret v m' w' hx
  refine ⟨CSem.eval_full (C := { C with lim := true }) e hx, ?_⟩
  have hR : Sim.Rel { C with lim := true } E s := ⟨Sim.describes_lim hd true, rfl⟩
  have ha := Sim.at_append.1 (Sim.at_mid pre (c1 ++ [load (.reg (Sfx.get t.nbytes) (s1.reg + 1) t.isUnsigned) o]) post)
  obtain ⟨R', ⟨n, k1⟩, k2, k3, k4⟩ := (Sim.exprSim hu e).ptr h1 hR hs hf hp (R := R) (st := ⟨m, w, out, ret⟩) ha.1 hx
  refine ⟨n, R', k1, ?_⟩
  rcases k3 with ⟨r, rfl, h⟩ | ⟨k, rfl, h⟩ | ⟨l, rfl, h⟩
  · simp only [IMach.place, h, IMach.asPtr]
  · simp only [IMach.place, h]
  · simp only [IMach.place, h]

/-- `*(p + (p == q))` satisfies the hypotheses -/
example : ∃ e, isPtr e.dt = true ∧ safe none e = true ∧ fresh e = true ∧ (∃ c s', (expr (.un .indir .int e)).code sampleState = .ok ((), c, s')) ∧
    (eval { ctxOf sampleEnv sampleState false with lim := true } e (sampleMem, 0)).map (fun x => x.1) = some 4092 :=
  ⟨.bin .padd (.ptr .int) ep (.bin .equal .int ep eq), rfl, by decide, by decide, ⟨_, _, rfl⟩, by decide +kernel⟩

/-- C55 fails: for `*(1 ? p : q)` the operand is the register `q` would have been loaded to, which holds anything. -/
theorem C55_violated : ¬ C55_full := by
  intro h
  obtain ⟨x, hx, hv⟩ := Option.map_eq_some_iff.1
    (show (eval (ctxOf sampleEnv sampleState false) (.cond (.ptr .int) (lit 1) ep eq) (sampleMem, 0)).map (·.1) = some 4092 by decide +kernel)
  obtain ⟨c1, d, o, hc, h⟩ := h Nat _ sampleEnv sampleState .int (.cond (.ptr .int) (lit 1) ep eq) rfl (Sim.ctxOf_describes sampleEnv sampleState false) rfl _ _ [] []
    derefCond_code (by simpa using unique_of_nodup (c := derefCode) (by decide))
  obtain ⟨h1, h2⟩ := List.append_inj' (show derefCode.dropLast ++ [inst .load (some (.reg .long 4 false)) (some (.ptr 3)) none] = _ from hc) rfl
  cases h2
  obtain ⟨-, n, R', h3, h4⟩ := h (fun _ => ⟨.quad, 0⟩) sampleMem 0 [] none _ _ _ hx
  rw [hv, ← h1] at *
  simp only [List.nil_append, List.append_nil, List.length_nil] at h3
  have hne : ∀ i ≤ 7, (run (sem sampleEnv) derefCode ⟨0, fun _ => ⟨.quad, 0⟩, ⟨sampleMem, 0, [], none⟩⟩ i).map (fun a => (a.pc, IMach.asPtr (a.regs 3))) ≠ some (9, some 4092) := by
    decide +kernel
  refine Sim.not_met (P := fun a => (a.pc, IMach.asPtr (a.regs 3)) = (9, some 4092)) (N := 7) (by decide +kernel) (fun i hi a ha hp => hne i hi ?_) h3 ?_
  · rw [ha, ← hp]
    rfl
  · exact Prod.ext rfl h4

end Gen
end Umlcc
