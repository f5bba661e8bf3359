import Verif.Lemma.LiveStmt
import Verif.Lemma.Once
import Verif.Props.GenStmt
import Verif.Props.Regalloc
/-!
C33: virtual registers of generated code are written before they are read, and once in straight-line code.
C64: what a function does is still what C says after its registers have been allocated.
-/
namespace Umlcc
namespace Gen
open RSpec (Path WrittenOnPath WrittenOnce calm UniqueLabels LiveIn run seen)
open CSem (safe)
open CStm
open IMach (Val St Env Mem sem)
open Flow (freeBrks freeConts)

variable {W : Type}

/-- C33 in full: the code of any expression, generated in any state -/
def C33_full : Prop := ∀ (e : SExpr) (s s' : GState) (c : List Immc), (expr e).code s = .ok ((), c, s') → WrittenOnPath c ∧ WrittenOnce c

theorem written_of_dead {c : List Immc} (h : ∀ v, ¬ LiveIn c v 0) : WrittenOnPath c := by
  have key : ∀ l i, Path c l i → ∀ v, LiveIn c v i → (∃ k ∈ l, ∃ y, c[k]? = some y ∧ RSpec.writes y = some v) ∨ LiveIn c v 0 := by
    intro l i hp
    induction hp with
    | start => exact fun v h => .inr h
    | @step l i j _ hs ih =>
      intro v hv
      obtain ⟨x, hx, _⟩ := id hs
      by_cases hw : RSpec.writes x = some v
      · exact .inl ⟨i, by simp, x, hx, hw⟩
      · rcases ih v (.thru hx hw hs hv) with ⟨k, hk, r⟩ | h
        · exact .inl ⟨k, by simp [hk], r⟩
        · exact .inr h
  intro l i x v hp hx hr
  exact (key l i hp v (.read hx hr)).resolve_right (h v)

/-- C33, first half, for the expressions of the fragment of C34 (`safe`). Missing: `*` and calls applied to values that are not in the register allocated last, such
as `*(c ? p : q)`, for which it fails (below). -/
theorem C33_written_on_path_partial (e : SExpr) (s s' : GState) (c : List Immc) (hl : -1 ≤ s.lab) (hs : safe none e = true)
    (h : (expr e).code s = .ok ((), c, s')) : WrittenOnPath c := by
  obtain ⟨Λe, t⟩ := ((Live.expr_live e none hs).code h).typ0 (D := Live.Nul) fun _ h => h.elim
  refine written_of_dead (Live.Typ.start (Λ := fun m v => ∃ id : Int, s.lab < id ∧ m = labelName id ∧ Λe id v) (t _ ?_))
  intro id x _
  funext v
  refine propext ⟨?_, fun h => ⟨id, x, rfl, h⟩⟩
  rintro ⟨id', x', e, h⟩
  rw [labelName_inj (by omega) (by omega) e]
  exact h

/-- C33, second half, for all expressions without pointer arithmetic, increments and decrements (`calm`). Missing: those, for which it fails (below). -/
theorem C33_written_once_partial (e : SExpr) (s s' : GState) (c : List Immc) (hs : calm e = true) (h : (expr e).code s = .ok ((), c, s')) : WrittenOnce c :=
  ((Live.expr_new e hs).code h).once

/-- The first half for the code of whole functions, from their beginning. -/
theorem C33_function_partial (f : Str) (t : DType) (b : SItems) (s s' : GState) (code : List Immc) (h : funcCode f t b s = .ok ((), code, s')) (hs : soundAll b = true)
    (hc : freeConts b = false) (hb : freeBrks b = false) (hn : f.head? ≠ some 46) (hl : -1 ≤ s.lab) : WrittenOnPath code := by
  obtain ⟨Λ, t⟩ := Live.funcCode_live h hs hc hb hl hn
  exact written_of_dead (Live.Typ.start t)

/-- the expressions of C34 and the functions of C36 meet the hypotheses -/
example : safe none sampleExpr = true ∧ (∃ c s', (expr sampleExpr).code sampleState = .ok ((), c, s')) ∧ soundAll loopSample = true ∧
    (match funcCode [102] (.func loopParams .int) loopSample initial with
      | .ok (_, code, _) => code.length > 40
      | _ => false) = true := ⟨by decide, ⟨_, _, rfl⟩, by decide, by decide +kernel⟩

/-- `x ? c : x && c` -/
def calmSample : SExpr := .cond .int (.ident .int [120]) (.un .cast .int (.ident .char [99])) (.bin .land .int (.ident .int [120]) (.ident .char [99]))
example : calm calmSample = true ∧ (∃ c s', (expr calmSample).code sampleState = .ok ((), c, s')) := ⟨by decide, ⟨_, _, rfl⟩⟩

private def isJmp : Immc → Bool
  | .inst i => i.op == .jmp
  | _ => false

/-- C33 fails: `*(1 ? p : q)` loads through the register of `q`, which is not written on the path where the condition holds. -/
theorem C33_violated : ¬ C33_full := by
  intro h
  have hp : Path derefCode [0, 1, 2, 3, 4, 8] 9 := by
    have st : ∀ i x, derefCode[i]? = some x → isJmp x = false → RSpec.Succ derefCode i (i + 1) := fun i x hx hj => ⟨x, hx, .inl ⟨rfl, fun d f s e => by
      rw [e] at hj; exact absurd hj (by simp [isJmp])⟩⟩
    have p1 := Path.start.step (st 0 _ rfl rfl)
    have p2 := p1.step (st 1 _ rfl rfl)
    have p3 := p2.step (st 2 _ rfl rfl)
    have p4 := p3.step (st 3 _ rfl rfl)
    have p5 := p4.step (j := 8) ⟨_, rfl, .inr ⟨labelName 1, labelAt 1, rfl, rfl, by decide +kernel⟩⟩
    exact p5.step (st 8 (labelAt 1) rfl rfl)
  have hx : derefCode[9]? = some (inst .load (some (.reg .long 4 false)) (some (.ptr 3)) none) := rfl
  obtain ⟨k, hk, y, hy, hw⟩ := (h _ _ _ _ derefCond_code).1 _ 9 _ 3 hp hx (by decide)
  have hn : ∀ k ∈ [0, 1, 2, 3, 4, 8], ((derefCode[k]?).bind RSpec.writes) ≠ some 3 := by decide +kernel
  exact hn k hk (by rw [hy]; exact hw)

/-- The second half fails for `p + c`, whose code multiplies the register of `c` in place: `load r0 <- p; load r1 <- c; mul r1 <- r1, 4; add r2 <- r0, r1`. -/
theorem C33_once_violated : ∃ (e : SExpr) (s s' : GState) (c : List Immc), safe none e = true ∧ (expr e).code s = .ok ((), c, s') ∧ ¬ WrittenOnce c := by
  refine ⟨scaled, sampleState, _, _, by decide, rfl, fun h => ?_⟩
  obtain ⟨j, z, h1, h2, -⟩ := h 1 2 _ _ 1 (by omega) rfl rfl rfl rfl
  omega

/-! ### C38, C41 -/

theorem funcCode_last {f : Str} {t : DType} {b : SItems} {s s' : GState} {code : List Immc} (h : funcCode f t b s = .ok ((), code, s')) :
    ∀ x, code.getLast? = some x → x.isLabel = false := by
  intro x hx
  obtain ⟨name, ps, rt, pc, s1, bc, s2, -, -, -, -, e, -⟩ := funcCode_ok h
  have : x = inst .leave none (some (intOpe .quad s2.mem)) none := by
    rw [e] at hx
    have e2 : ∀ (a b : Immc) (l1 l2 : List Immc) (u v : Immc), (a :: b :: (l1 ++ (l2 ++ [u, v]))).getLast? = some v := by
      intro a b l1 l2 u v
      rw [show a :: b :: (l1 ++ (l2 ++ [u, v])) = (a :: b :: (l1 ++ (l2 ++ [u]))) ++ [v] by simp, List.getLast?_append]
      rfl
    rw [e2] at hx
    exact (Option.some.inj hx).symm
  rw [this]
  rfl

/-- C38 for the code of functions: no assumption about labels, branches or liveness is left. Missing: expressions outside of the fragment. -/
theorem C38_function_partial (f : Str) (t : DType) (b : SItems) (s s' : GState) (code out : List Immc) (o nregs fuel : Nat) (qs qs' : List Liveseq)
    (h : funcCode f t b s = .ok ((), code, s')) (hs : soundAll b = true) (hc : freeConts b = false) (hb : freeBrks b = false) (hn : f.head? ≠ some 46) (hl : -1 ≤ s.lab)
    (ha : Regalloc.allocFunction code o nregs qs fuel = .ok (out, qs')) :
    ∃ ρ : Int → Int, out = code.map (RSpec.rename ρ) ∧
      ∀ i u, LiveIn code u i → 0 ≤ ρ u ∧ ρ u < nregs ∧ ∀ v, LiveIn code v i → u ≠ v → ρ u ≠ ρ v := by
  obtain ⟨Λ, ty⟩ := Live.funcCode_live h hs hc hb hl hn
  have hu := (C32_labels f _ b s s' code h hc hb hn hl).1
  exact C38_live_registers_distinct_partial code out o nregs fuel qs qs' ha (funcCode_last h) hu (.inr (Live.Typ.backDead ty hu)) (Live.Typ.defBefore ty)

/-- C41 for the code of functions, whatever the instructions mean. -/
theorem C41_function_partial {Val St : Type} (sem : RSpec.Sem Val St) (f : Str) (t : DType) (b : SItems) (s s' : GState) (code out : List Immc) (o nregs fuel : Nat)
    (qs qs' : List Liveseq) (h : funcCode f t b s = .ok ((), code, s')) (hs : soundAll b = true) (hc : freeConts b = false) (hb : freeBrks b = false)
    (hn : f.head? ≠ some 46) (hl : -1 ≤ s.lab) (ha : Regalloc.allocFunction code o nregs qs fuel = .ok (out, qs')) (st : St) (regs regs' : Int → Val) (steps : Nat) :
    seen (run sem out ⟨0, regs', st⟩ steps) = seen (run sem code ⟨0, regs, st⟩ steps) := by
  obtain ⟨Λ, ty⟩ := Live.funcCode_live h hs hc hb hl hn
  have hu := (C32_labels f _ b s s' code h hc hb hn hl).1
  exact C41_allocation_preserves_behaviour_partial sem code out o nregs fuel qs qs' ha (funcCode_last h) hu (.inr (Live.Typ.backDead ty hu)) (Live.Typ.defBefore ty)
    (Live.Typ.writesMatter ty) _ _ _ steps

/-- the loop of C36 is a function that the allocator accepts with eight registers -/
example : soundAll loopSample = true ∧ freeConts loopSample = false ∧ freeBrks loopSample = false ∧
    (match funcCode [102] (.func loopParams .int) loopSample initial with
      | .ok (_, code, _) => match Regalloc.allocFunction code 0 8 (List.replicate 8 Liveseq.new) 99 with
        | .ok _ => true
        | _ => false
      | _ => false) = true := ⟨by decide, by decide, by decide, by decide +kernel⟩

/-! ### C64 -/

/-- C64: if register allocation accepts the code of a function, then the code it makes of it, run from its beginning with the arguments of `E` and whatever in the physical
registers, stores them in the parameters, executes the body as C says and arrives at its end with the value returned; the run goes on for ever if the execution does. -/
def CallsAllocated (I0 : Impl W) (E : Env W) (V : Vars) (f : Str) (ps : Params) (rt : DType) (b : SItems) (s : GState) : Prop :=
  ∃ K, ∀ code s' o nregs qs fuel out qs', funcCode f (.func ps rt) b s = .ok ((), code, s') → Regalloc.allocFunction code o nregs qs fuel = .ok (out, qs') →
    ∀ R m w log n r m' w', execFunc I0 n V f ps rt b E.args (m, w) = some (r, m', w') →
      match r with
      | .norm => ∃ i R', run (sem E) out ⟨0, R, ⟨m, w, log, none⟩⟩ i = some ⟨out.length, R', ⟨m', w', log, none⟩⟩
      | .ret v => ∃ i R', run (sem E) out ⟨0, R, ⟨m, w, log, none⟩⟩ i = some ⟨out.length, R', ⟨m', w', log, v⟩⟩
      | .more => ∃ i a, run (sem E) out ⟨0, R, ⟨m, w, log, none⟩⟩ i = some a ∧ n ≤ i + K ∧ a.st.mem = m' ∧ a.st.w = w'
      | .brk | .cont => False

/-- C64 in full: all functions, no limits on the execution -/
def C64_full : Prop := ∀ (W : Type) (I : Impl W) (E : Env W) (V : Vars) (s : GState) (f : Str) (ps : Params) (rt : DType) (b : SItems), I.base.lim = false → Fits I E →
  Agree E V s → -1 ≤ s.lab → f.head? ≠ some 46 → freeBrks b = false → freeConts b = false → CallsAllocated I E V f ps rt b s

theorem seen_run {Val St : Type} {sem : RSpec.Sem Val St} {c1 c2 : List Immc} {a b : RSpec.Mach Val St} {i : Nat} {x : RSpec.Mach Val St}
    (h : seen (run sem c1 a i) = seen (run sem c2 b i)) (hx : run sem c2 b i = some x) : ∃ R, run sem c1 a i = some ⟨x.pc, R, x.st⟩ := by
  rw [hx] at h
  obtain ⟨y, hy, e⟩ := Option.map_eq_some_iff.1 h
  simp only [Prod.mk.injEq] at e
  obtain ⟨pc, R, st⟩ := y
  obtain ⟨rfl, rfl⟩ := e
  exact ⟨R, hy⟩

/-- C64 for functions whose expressions belong to the fragment and executions within the limits of C36. Nothing is assumed about labels, liveness or the order of
writes: it is proved of the generator (C32, C33). Missing: what C36 misses. -/
theorem C64_allocated_function_partial (I : Impl W) (E : Env W) (V : Vars) (s : GState) (f : Str) (ps : Params) (rt : DType) (b : SItems) (hf : Fits I E)
    (ha : Agree E V s) (hl : -1 ≤ s.lab) (hn : f.head? ≠ some 46) (hb : freeBrks b = false) (hc : freeConts b = false) (hs : soundAll b = true) :
    CallsAllocated (limited I true) E V f ps rt b s := by
  obtain ⟨K, k⟩ := C36_function_partial I E V s f ps rt b hf ha hl hn hb hc hs
  refine ⟨K, ?_⟩
  intro code s' o nregs qs fuel out qs' h halloc R m w log n r m' w' hx
  obtain ⟨Λ, t⟩ := Live.funcCode_live h hs hc hb hl hn
  have hu := (C32_labels f _ b s s' code h hc hb hn hl).1
  have hlast := funcCode_last h
  have hsame : ∀ i, seen (run (sem E) out ⟨0, R, ⟨m, w, log, none⟩⟩ i) = seen (run (sem E) code ⟨0, R, ⟨m, w, log, none⟩⟩ i) := fun i =>
    C41_allocation_preserves_behaviour_partial (sem E) code out o nregs fuel qs qs' halloc hlast hu (.inr (Live.Typ.backDead t hu))
      (Live.Typ.defBefore t) (Live.Typ.writesMatter t) _ _ _ i
  have hlen : out.length = code.length := by
    obtain ⟨ρ, e, -⟩ := C38_live_registers_distinct_partial code out o nregs fuel qs qs' halloc hlast hu (.inr (Live.Typ.backDead t hu)) (Live.Typ.defBefore t)
    rw [e, List.length_map]
  obtain ⟨-, k⟩ := k code s' h R m w log n r m' w' hx
  cases r with
  | norm => obtain ⟨i, R', k⟩ := k; obtain ⟨R2, k2⟩ := seen_run (hsame i) k; exact ⟨i, R2, by rw [hlen]; exact k2⟩
  | ret v => obtain ⟨i, R', k⟩ := k; obtain ⟨R2, k2⟩ := seen_run (hsame i) k; exact ⟨i, R2, by rw [hlen]; exact k2⟩
  | brk => exact k
  | cont => exact k
  | more => obtain ⟨i, a, k, k1, k2, k3⟩ := k; obtain ⟨R2, k4⟩ := seen_run (hsame i) k; exact ⟨i, _, k4, k1, k2, k3⟩

/-- loopSample (C36) meets the hypotheses and is accepted with eight registers; with 5 it returns 9 (C36) -/
example : Fits (implOf loopEnv true) loopEnv ∧ Agree loopEnv (varsOf loopEnv initial) initial ∧ freeBrks loopSample = false ∧ freeConts loopSample = false ∧
    soundAll loopSample = true ∧ (match funcCode [102] (.func loopParams .int) loopSample initial with
      | .ok (_, code, _) => match Regalloc.allocFunction code 0 8 (List.replicate 8 Liveseq.new) 99 with
        | .ok (out, _) => (run (sem loopEnv) out ⟨0, fun _ => IMach.noVal, ⟨sampleMem, 0, [], none⟩⟩ 131).map (fun a => (a.pc == out.length, a.st.ret)) == some (true, some ⟨.long, 9⟩)
        | _ => false
      | _ => false) = true :=
  ⟨fits_implOf _ _, agree_varsOf _ _, by decide, by decide, by decide, by decide +kernel⟩

/-- `switch (0) case 4294967296L: return 1; return 2;` -/
def narrowSample : SItems :=
  .cons (.stmt (.switch (.ilit .int ⟨.int, 0⟩) (.case (.ilit .long ⟨.long, 4294967296⟩) (.ret (some (.ilit .int ⟨.int, 1⟩))))))
  (.cons (.stmt (.ret (some (.ilit .int ⟨.int, 2⟩)))) .nil)

/-- C64 fails where C36 does: the function returns 1 in C, 2 after compilation. -/
theorem C64_violated : ¬ C64_full := by
  intro h
  obtain ⟨K, h⟩ := h Nat (implOf sampleEnv false) sampleEnv (varsOf sampleEnv initial) initial [102] .nil .int narrowSample rfl (fits_implOf _ _) (agree_varsOf _ _)
    (by decide) (by decide) (by decide) (by decide)
  have key : (match funcCode [102] (.func .nil .int) narrowSample initial with
      | .ok (_, code, _) => match Regalloc.allocFunction code 0 8 (List.replicate 8 Liveseq.new) 99 with
        | .ok (out, _) => (run (sem sampleEnv) out ⟨0, fun _ => IMach.noVal, ⟨sampleMem, 0, [], none⟩⟩ 10).map (fun a => (a.pc == out.length, a.st.ret)) == some (true, some ⟨.long, 2⟩)
        | _ => false
      | _ => false) = true := by decide +kernel
  obtain ⟨⟨r, m', w'⟩, hx, hv⟩ := Option.map_eq_some_iff.1
    (show (execFunc (implOf sampleEnv false) 9 (varsOf sampleEnv initial) [102] .nil .int narrowSample [] (sampleMem, 0)).map (·.1) = some (.ret (some ⟨.long, 1⟩)) by decide +kernel)
  dsimp only at hv
  subst hv
  split at key
  next code s' hg =>
    split at key
    next out qs' ha =>
      obtain ⟨i, R', h1⟩ := h _ _ _ _ _ _ _ _ hg ha (fun _ => IMach.noVal) sampleMem 0 [] 9 _ _ _ hx
      obtain ⟨a, hr, hb⟩ := Option.map_eq_some_iff.1 (eq_of_beq key)
      simp only [Prod.mk.injEq, beq_iff_eq] at hb
      have e := Sim.run_end hr h1 (by rw [hb.1]; simp) (by simp)
      rw [e] at hb
      have e2 : (some ⟨.long, 1⟩ : Option Val) = some ⟨.long, 2⟩ := hb.2
      exact absurd e2 (by decide)
    next => exact absurd key (by decide)
  next => exact absurd key (by decide)

end Gen
end Umlcc
