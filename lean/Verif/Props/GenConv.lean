import Verif.Props.GenExpr
/-!
C54, C30: casts and pointer differences in intermediate code.
-/
namespace Umlcc
namespace Gen
open IMach (Val St Env Mem sem)
open RSpec (run UniqueLabels)
open CSem (Ctx Describes eval rep safe fresh isPtr ctxOf wrap)

variable {W : Type}

/-- What C54 asks of an operand generated for `e`: it denotes C's value. -/
def Denotes (C0 C : Ctx W) (E : Env W) (e : SExpr) (s : GState) : Prop :=
  ∀ o c s' pre post q, (expr e).int none s = .ok (o, c, s') → UniqueLabels (pre ++ c ++ post) → rep e.dt = some q →
    ∀ R m w out ret v m' w', eval C0 e (m, w) = some (v, m', w') →
      eval C e (m, w) = some (v, m', w') ∧
      ∃ n R', run (sem E) (pre ++ c ++ post) ⟨pre.length, R, ⟨m, w, out, ret⟩⟩ n = some ⟨pre.length + c.length, R', ⟨m', w', out, ret⟩⟩ ∧
        IMach.src (some o) (match o with | .reg _ r _ => some (R' r) | _ => none) q.1 = some (BitVec.ofInt _ v)

/-- an expression under a chain of casts, the first of the list being the outermost -/
def casts : List DType → SExpr → SExpr
  | [], e => e
  | t :: ts, e => .un .cast t (casts ts e)

/-- C54 in full, for the expressions that C34 holds for: the value of a chain of casts is that of C, in which the casts are done one after the other. -/
def C54_full : Prop := ∀ (W : Type) (C : Ctx W) (E : Env W) (s : GState) (e : SExpr) (ts : List DType), Describes C E s → safe none e = true →
  Denotes { C with lim := true } { C with lim := false } E (casts ts e) s

/-- C54 for chains in which every cast but the last keeps all values or is to a type that is not narrower than the next: `safe` says so for each cast in the
chain. One cast is always right. Missing: the other chains, which are violated. -/
theorem C54_chain_partial (C : Ctx W) (E : Env W) (s : GState) (e : SExpr) (hd : Describes C E s) (hs : safe none e = true) :
    Denotes { C with lim := true } { C with lim := false } E e s := by
  intro o c s' pre post q hg hu hq R m w out ret v m' w' hx
  refine ⟨CSem.eval_full (C := { C with lim := true }) e hx, ?_⟩
  have hR : Sim.Rel { C with lim := true } E s := ⟨Sim.describes_lim hd true, rfl⟩
  obtain ⟨R', ⟨n, k1⟩, k2, k3, k4⟩ := (Sim.exprSim hu e).int hg hR hs (R := R) (st := ⟨m, w, out, ret⟩) (Sim.at_mid pre c post) hx (by rw [hq]; rfl) hq
  refine ⟨n, R', k1, ?_⟩
  have := k3.src (Sim.rep_get hq).2.2.1
  rw [Sim.src_erase] at this
  rcases k3 with ⟨r, rfl, -⟩ | ⟨l, rfl, -⟩ <;> exact this

/-- C54 for one cast of any expression without a cast around it -/
theorem C54_single (C : Ctx W) (E : Env W) (s : GState) (t : DType) (e : SExpr) (hd : Describes C E s) (hs : safe (some t) e = true) :
    Denotes { C with lim := true } { C with lim := false } E (.un .cast t e) s :=
  C54_chain_partial C E s _ hd (by simpa [safe] using hs)

/-- C54 for constants: a constant converted to an integer type is an operand of that type's width and signedness, equal to the constant modulo the width.
No code is needed. -/
theorem C54_constant (t t0 : DType) (l : ILit) (s : GState) (q : Sfx × Bool) (hq : rep t = some q) :
    ∃ l', (expr (.un .cast t (.ilit t0 l))).int none s = .ok (.int q.1 l', [], s) ∧ l'.type.isUnsigned = q.2 ∧
      l'.value % 2 ^ q.1.bits = l.value % 2 ^ q.1.bits := by
  have h := Sim.dtypedLit_holds hq l (fun _ => IMach.noVal)
  rcases h with ⟨r, h, -⟩ | ⟨l', h1, h2, h3⟩
  · cases h
  · refine ⟨l', ?_, h2, Sim.ofInt_eq.1 h3⟩
    rw [← h1]
    rfl

/-- `(char)300` -/
example : ∃ l', (expr (.un .cast .char (.ilit .int ⟨.int, 300⟩))).int none initial = .ok (.int .byte l', [], initial) ∧ l'.value % 256 = 44 := ⟨_, rfl, by decide⟩

/-- `(int)(char)x`, `(char)(int)x` and `(long)(int)(char)x` with `char x`; the theorem applies to the last two -/
example : safe none (casts [.int, .char] (.ident .int [120])) = false ∧ safe none (casts [.char, .int] (.ident .int [120])) = true ∧
    safe none (casts [.long, .int, .char] (.ident .char [120])) = true ∧
    ∃ o c s', (expr (casts [.char, .int] (.ident .int [120]))).int none sampleState = .ok (o, c, s') := by
  refine ⟨by decide, by decide, by decide, _, _, _, rfl⟩

/-- Why C54 fails: casts under a cast are ignored. -/
theorem C54_inner_ignored (t : DType) (ts : List DType) (e : SExpr) : (expr (casts (t :: ts) e)).int none = (expr (.un .cast t e)).int none := by
  have h : ∀ (ts : List DType) (u : DType), (expr (casts ts e)).int (some u) = (expr e).int (some u) := by
    intro ts u
    induction ts with
    | nil => rfl
    | cons t' ts ih => rw [← ih, casts, expr]; rfl
  rw [casts, expr, expr]
  exact h ts t

/-- C54 fails: `(long)(char)300` is 44 in C but the operand is 300. -/
theorem C54_violated : ¬ C54_full := by
  intro h
  obtain ⟨-, n, R', -, h2⟩ := h Nat (ctxOf sampleEnv sampleState true) sampleEnv sampleState (.ilit .int ⟨.int, 300⟩) [.long, .char] (Sim.ctxOf_describes _ _ _) rfl
    (.int .quad ⟨.long, 300⟩) [] sampleState [] [] (.quad, false) rfl (unique_of_nodup (by decide)) rfl (fun _ => IMach.noVal) sampleMem 0 [] none 44 sampleMem 0 rfl
  have h3 : some (BitVec.ofInt 64 300) = some (BitVec.ofInt 64 44) := h2
  revert h3
  decide

/-! ### C30 -/

/-- What C30 asks: if `l` and `r` are pointers that are `k` elements apart, `l - r` leaves `k` in its register. -/
def Distance (C : Ctx W) (E : Env W) (s : GState) (t u : DType) (l r : SExpr) (k : Int) : Prop :=
  ∀ c s' pre post, (expr (.bin .pdiff t l r)).code s = .ok ((), c, s') → UniqueLabels (pre ++ c ++ post) →
    ∀ R m w out ret a m1 w1 b m2 w2, eval C l (m, w) = some (a, m1, w1) → eval C r (m1, w1) = some (b, m2, w2) → a - b = k * u.nbytes →
      ∃ n R' q i, run (sem E) (pre ++ c ++ post) ⟨pre.length, R, ⟨m, w, out, ret⟩⟩ n = some ⟨pre.length + c.length, R', ⟨m2, w2, out, ret⟩⟩ ∧
        s'.exprReg = some (.quad, i, q) ∧ R' i = ⟨.quad, BitVec.ofInt 64 k⟩

/-- C30 in full: the distance may be negative. Elements have a size, addresses are less than half the address space apart (as within one array). -/
def C30_full : Prop := ∀ (W : Type) (C : Ctx W) (E : Env W) (s : GState) (t u : DType) (l r : SExpr) (k : Int), Describes C E s → C.lim = true →
  rep t = some (.quad, true) → l.dt = .ptr u → isPtr r.dt = true → safe none l = true → safe none r = true → 0 < u.nbytes → u.nbytes < 2 ^ 63 →
  -2 ^ 63 ≤ k * u.nbytes → k * u.nbytes < 2 ^ 63 → Distance C E s t u l r k

/-- C30 for pointers of which the first is not before the second. Missing: the others, for which it fails. -/
theorem C30_difference_partial (C : Ctx W) (E : Env W) (s : GState) (t u : DType) (l r : SExpr) (k : Int) (hd : Describes C E s) (hC : C.lim = true)
    (ht : rep t = some (.quad, true)) (hl : l.dt = .ptr u) (hr : isPtr r.dt = true) (hsl : safe none l = true) (hsr : safe none r = true)
    (hu : 0 < u.nbytes) (hu63 : u.nbytes < 2 ^ 63) (hk : 0 ≤ k) (hb : k * u.nbytes < 2 ^ 63) : Distance C E s t u l r k := by
  intro c s' pre post hg hul R m w out ret a m1 w1 b m2 w2 ha hb' hab
  have hn : (0 : Int) < u.nbytes := by omega
  have hk0 : 0 ≤ k * u.nbytes := Int.mul_nonneg hk (by omega)
  have hkb : k ≤ k * u.nbytes := by
    have := Int.mul_le_mul_of_nonneg_left (show (1 : Int) ≤ u.nbytes by omega) hk
    omega
  have hx : eval C (.bin .pdiff t l r) (m, w) = some (k, m2, w2) := by
    have hkr : CSem.InRange (.quad, true) k := ⟨hk, by simp [Sfx.bits, Sfx.nbytes]; omega⟩
    have hq : (a - b).tdiv u.nbytes = k := by rw [hab, Int.mul_tdiv_cancel _ (by omega)]
    simp only [eval, ha, hb', CSem.binary, hl, ht, hr, bind, Option.bind]
    have hr63 : CSem.InRange (.quad, false) (a - b) := by
      rw [hab]
      simp only [CSem.InRange, Sfx.bits, Sfx.nbytes]
      simp
      omega
    rw [CSem.need, if_pos ⟨trivial, trivial, by omega, hu63, by rw [hab]; simp, hr63, fun _ _ => by omega⟩]
    simp only [hq, Sim.wrap_eq hkr nofun]
  have hR : Sim.Rel C E s := ⟨hd, hC⟩
  obtain ⟨R', ⟨n, k1⟩, k2, k3⟩ := (Sim.exprSim hul (.bin .pdiff t l r)).code hg hR (by simp [safe, hsl, hsr]) (R := R) (st := ⟨m, w, out, ret⟩) (Sim.at_mid pre c post) hx
  obtain ⟨i, k4, k5, -⟩ := k3 _ ht
  exact ⟨n, R', true, i, k1, k4, k5⟩

/-- `(p + 1) - p` satisfies the hypotheses with `k` = 1 -/
example : let l : SExpr := .bin .padd (.ptr .int) (.ident (.ptr .int) [112]) (.ilit .int ⟨.int, 1⟩)
    let r : SExpr := .ident (.ptr .int) [112]
    (∃ c s', (expr (.bin .pdiff .ullong l r)).code sampleState = .ok ((), c, s')) ∧ safe none l = true ∧ safe none r = true ∧
    (eval (ctxOf sampleEnv sampleState true) l (sampleMem, 0)).map (·.1) = some 4096 ∧ (eval (ctxOf sampleEnv sampleState true) r (sampleMem, 0)).map (·.1) = some 4092 :=
  ⟨⟨_, _, rfl⟩, by decide, by decide, by decide +kernel, by decide +kernel⟩

/-- the code of `p - (p + 1)` -/
def beforeCode : List Immc :=
  [inst .load (some (.reg .quad 0 false)) (some (.mem 12)) none, inst .load (some (.reg .quad 1 false)) (some (.mem 12)) none,
   inst .load (some (.reg .long 2 false)) (some (intOpe .long 1)) none, inst .mul (some (.reg .long 2 false)) (some (.reg .long 2 false)) (some (intOpe .long 4)),
   inst .add (some (.reg .quad 3 false)) (some (.reg .quad 1 false)) (some (.reg .long 2 false)),
   inst .sub (some (.reg .quad 4 true)) (some (.reg .quad 0 false)) (some (.reg .quad 3 false)),
   inst .div (some (.reg .quad 4 true)) (some (.reg .quad 4 true)) (some (intOpe .quad 4))]

/-- C30 fails: `p - (p + 1)` is 4611686018427387903 instead of -1, since the difference of the addresses is divided as an unsigned number. -/
theorem C30_violated : ¬ C30_full := by
  intro h
  obtain ⟨x, hx, hxv⟩ := Option.map_eq_some_iff.1
    (show (eval (ctxOf sampleEnv sampleState true) (.ident (.ptr .int) [112]) (sampleMem, 0)).map (·.1) = some 4092 by decide +kernel)
  obtain ⟨y, hy, hyv⟩ := Option.map_eq_some_iff.1
    (show (eval (ctxOf sampleEnv sampleState true) (.bin .padd (.ptr .int) (.ident (.ptr .int) [112]) (.ilit .int ⟨.int, 1⟩)) (sampleMem, 0)).map (·.1) = some 4096
      by decide +kernel)
  have hx2 : x = (4092, sampleMem, 0) := by
    obtain ⟨q, a, h1, h2, _, rfl⟩ := CSem.eval_ident hx
    exact Prod.ext hxv rfl
  subst hx2
  obtain ⟨n, R', q, i, h1, h2, h3⟩ := h Nat (ctxOf sampleEnv sampleState true) sampleEnv sampleState .ullong .int (.ident (.ptr .int) [112])
    (.bin .padd (.ptr .int) (.ident (.ptr .int) [112]) (.ilit .int ⟨.int, 1⟩)) (-1) (Sim.ctxOf_describes _ _ _) rfl rfl rfl rfl rfl (by decide) (by decide) (by decide)
    (by decide) (by decide) beforeCode { sampleState with reg := 4, exprReg := some (.quad, 4, true) } [] [] (by decide +kernel)
    (by simpa using unique_of_nodup (c := beforeCode) (by decide)) (fun _ => IMach.noVal) sampleMem 0 [] none _ _ _ _ _ _ hx hy (by rw [hyv]; decide)
  cases h2
  obtain ⟨a, ha, hab⟩ := Option.map_eq_some_iff.1
    (show (run (sem sampleEnv) beforeCode ⟨0, fun _ => IMach.noVal, ⟨sampleMem, 0, [], none⟩⟩ 7).map (fun m => (m.pc, m.regs 4)) = some (7, ⟨.quad, 4611686018427387903⟩)
      by decide +kernel)
  simp only [Prod.mk.injEq] at hab
  simp only [List.nil_append, List.append_nil, List.length_nil] at h1
  have := Sim.run_end h1 ha rfl (by rw [hab.1]; rfl)
  subst this
  have h4 := hab.2.symm.trans h3
  revert h4
  decide

end Gen
end Umlcc
