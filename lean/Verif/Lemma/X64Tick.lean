import Verif.Spec.X64Run
import Verif.Lemma.X64Func
/-!
Helper lemmas: running through the items of a function block by block.
-/
namespace Umlcc
namespace X86
open X64 ISem

variable {W : Type}

theorem ticks_add (H : Host W) (code : List Item) (c : Conf W) (a b : Nat) :
    ticks H code c (a + b) = (ticks H code c a).bind fun c' => ticks H code c' b := by
  induction b with
  | zero => cases h : ticks H code c a <;> simp [ticks, h]
  | succ b ih =>
    rw [← Nat.add_assoc]
    simp only [ticks, ih]
    cases ticks H code c a <;> rfl

theorem ticks_trans {H : Host W} {code : List Item} {c' c'' : Option (Conf W)} {x : Conf W} {a b : Nat} (h1 : ticks H code x a = c')
    (h2 : c'.bind (fun y => ticks H code y b) = c'') : ticks H code x (a + b) = c'' := by
  rw [ticks_add, h1, h2]

/-! ### which instructions are calls -/

theorem mn_call : ∀ s, mnOf s = some .call → s = "call" := by
  intro s h
  unfold mnOf at h
  have key : ∀ (t : List (String × Mn)) , (∀ p ∈ t, p.2 = .call → p.1 = "call") → t.lookup s = some .call → s = "call" := by
    intro t
    induction t with
    | nil => intro _ h; cases h
    | cons p t ih =>
      intro ht h
      obtain ⟨a, b⟩ := p
      simp only [List.lookup] at h
      split at h
      · rename_i e
        simp only [Option.some.injEq] at h
        have := ht (a, b) (by simp) h
        simp only at this
        rw [← this]; simpa using e
      · exact ih (fun p hp => ht p (by simp [hp])) h
  exact key mnTable (by decide) h

theorem fmt1_ne (pre post : String) (hp : ∀ s, fmt1 pre s post ≠ "call") (s : Sfx) : fmt1 pre s post ≠ "call" := hp s

theorem mnemonic_call {i : XInst} (h : mnemonic i = .ok "call") : i.op = .call := by
  obtain ⟨op, src, dst⟩ := i
  have k1 : ∀ pre post, pre ∈ ["mov", "movabs", "lea", "push", "pop", "add", "sub", "imul", "div", "idiv", "neg", "and", "not", "or", "xor", "sal", "sar", "cmp"] →
      post = "" → ∀ s, fmt1 pre s post ≠ "call" := by
    intro pre post hp hq s; subst hq
    have : ∀ pre ∈ ["mov", "movabs", "lea", "push", "pop", "add", "sub", "imul", "div", "idiv", "neg", "and", "not", "or", "xor", "sal", "sar", "cmp"],
        ∀ s ∈ [Sfx.none, .byte, .word, .long, .quad], fmt1 pre s "" ≠ "call" := by decide
    exact this pre hp s (by cases s <;> decide)
  have k2 : ∀ s, fmt1 "c" s "td" ≠ "call" := by
    intro s
    have : ∀ s ∈ [Sfx.none, .byte, .word, .long, .quad], fmt1 "c" s "td" ≠ "call" := by decide
    exact this s (by cases s <;> decide)
  have k3 : ∀ s t, fmt2 "movs" s "" t ≠ "call" ∧ fmt2 "movz" s "" t ≠ "call" ∧ fmt2 "c" s "t" t ≠ "call" := by
    intro s t
    have : ∀ s ∈ [Sfx.none, .byte, .word, .long, .quad], ∀ t ∈ [Sfx.none, .byte, .word, .long, .quad],
        fmt2 "movs" s "" t ≠ "call" ∧ fmt2 "movz" s "" t ≠ "call" ∧ fmt2 "c" s "t" t ≠ "call" := by decide
    exact this s (by cases s <;> decide) t (by cases t <;> decide)
  have k4 : ∀ c : Cond, "set" ++ c.str ≠ "call" ∧ "j" ++ c.str ≠ "call" := by intro c; cases c <;> decide
  cases op <;> simp only [mnemonic, Out.ok.injEq] at h ⊢ <;> exfalso
  case movs => split at h <;> simp only [Out.ok.injEq, reduceCtorEq] at h; exact (k3 _ _).1 h
  case movz => split at h <;> simp only [Out.ok.injEq, reduceCtorEq] at h; exact (k3 _ _).2.1 h
  case cxtx => split at h <;> simp only [Out.ok.injEq, reduceCtorEq] at h; exact (k3 _ _).2.2 h
  case cxtd => exact k2 _ h
  case set c => exact (k4 c).1 h
  case jcc c => exact (k4 c).2 h
  case cqto => revert h; decide
  case jmp => revert h; decide
  case ret => revert h; decide
  all_goals exact k1 _ _ (by decide) rfl _ h

theorem callee_none {H : Host W} {m : Mach} {i : XInst} (h : i.op ≠ .call) : callee H m i = none := by
  unfold callee
  cases hl : line i with
  | ok l =>
    simp only
    have : mnOf l.mn ≠ some .call := by
      intro e
      apply h
      apply mnemonic_call
      rw [← mn_call _ e]
      simp only [line, Out.bind_eq_ok, Out.pure_eq, Out.ok.injEq] at hl
      obtain ⟨mn, h1, ops, h2, rfl⟩ := hl
      exact h1
    cases hm : mnOf l.mn with
    | none => rfl
    | some mn => cases mn <;> first | rfl | exact absurd hm this
  | _ => rfl

theorem worldAfter_none {H : Host W} {p : Nat} {m : Mach} {w : W} {i : XInst} (h : i.op ≠ .call) : worldAfter H p m w i = w := by
  unfold worldAfter; rw [callee_none h]

/-- other instructions do not depend on what functions do -/
theorem stepI_env {e e' : Env} (hs : e.sym = e'.sym) (m : Mach) {i : XInst} (h : i.op ≠ .call) : stepI e m i = stepI e' m i := by
  unfold stepI
  cases hl : line i with
  | ok l =>
    simp only [exec]
    have hc : mnOf l.mn ≠ some .call := by
      intro e
      apply h
      apply mnemonic_call
      rw [← mn_call _ e]
      simp only [line, Out.bind_eq_ok, Out.pure_eq, Out.ok.injEq] at hl
      obtain ⟨mn, h1, ops, h2, rfl⟩ := hl
      exact h1
    have ha : ∀ o, addr e m o = addr e' m o := by intro o; cases o <;> simp [addr, hs]
    have ha' : ∀ o, addr e (forget m) o = addr e' (forget m) o := by intro o; cases o <;> simp [addr, hs]
    have hv : ∀ s o, value e m s o = value e' m s o := by intro s o; cases o <;> simp [value, ha]
    have has : ∀ s d v, assign e m s d v = assign e' m s d v := by intro s d v; cases d <;> simp [assign, ha]
    have has' : ∀ s d v, assign e (forget m) s d v = assign e' (forget m) s d v := by intro s d v; cases d <;> simp [assign, ha']
    have hmov : ∀ s a b, mov e m s a b = mov e' m s a b := by
      intro s a b; unfold mov; split <;> simp [hv, has]
    have halu : ∀ o s a b, alu e m o s a b = alu e' m o s a b := by
      intro o s a b; unfold alu; simp only [hv, has']
    cases hm : mnOf l.mn with
    | none => rfl
    | some mn =>
      cases opsOf l.ops with
      | none => rfl
      | some ops =>
        simp only
        cases mn <;> first | exact absurd hm hc | skip
        all_goals (unfold step; split <;> simp_all)
  | _ => rfl

theorem run_env {e e' : Env} (hs : e.sym = e'.sym) : ∀ (cs : List XInst) (m : Mach), (∀ i ∈ cs, i.op ≠ .call) → run e m cs = run e' m cs := by
  intro cs
  induction cs with
  | nil => intro m _; rfl
  | cons i cs ih =>
    intro m h
    simp only [run]
    rw [stepI_env hs m (h i (by simp))]
    split
    · exact ih _ (fun j hj => h j (by simp [hj]))
    · rfl

/-! ### blocks -/

theorem items_at {pre post : List Item} {i : XInst} {cs : List XInst} : (pre ++ (i :: cs).map Item.inst ++ post)[pre.length]? = some (.inst i) := by
  simp

/-- a block without calls runs through -/
theorem block_next (H : Host W) (p : Nat) (w : W) : ∀ (cs : List XInst) (pre post : List Item) (m m' : Mach), (∀ i ∈ cs, i.op ≠ .call) →
    run (H.env p w) m cs = .next m' →
    ticks H (pre ++ cs.map Item.inst ++ post) (.at pre.length m w) cs.length = some (.at (pre.length + cs.length) m' w) := by
  intro cs
  induction cs with
  | nil => intro pre post m m' _ h; cases h; rfl
  | cons i cs ih =>
    intro pre post m m' hc h
    simp only [run] at h
    have hse := stepI_env (e := H.env pre.length w) (e' := H.env p w) rfl m (hc i (by simp))
    cases hs : stepI (H.env p w) m i with
    | next m1 =>
      rw [hs] at h
      simp only at h
      have := ih (pre ++ [.inst i]) post m1 m' (fun j hj => hc j (by simp [hj])) h
      rw [List.length_cons, Nat.add_comm cs.length 1, ticks_add]
      have h1 : ticks H (pre ++ (i :: cs).map Item.inst ++ post) (.at pre.length m w) 1 = some (.at (pre.length + 1) m1 w) := by
        simp only [ticks, tick, items_at, hse, hs, Option.bind_some]
        rw [worldAfter_none (hc i (by simp))]
      rw [h1]
      simp only [Option.bind_some]
      simp only [List.append_assoc, List.length_append, List.length_cons, List.length_nil, List.map_cons, List.cons_append, List.nil_append] at this ⊢
      rw [this]
      congr 2; omega
    | _ => rw [hs] at h; cases h

/-- a block without calls that jumps -/
theorem block_jump (H : Host W) (p : Nat) (w : W) {n : Name} : ∀ (cs : List XInst) (pre post : List Item) (m m' : Mach), (∀ i ∈ cs, i.op ≠ .call) →
    run (H.env p w) m cs = .jump n m' →
    ∃ t, 0 < t ∧ ticks H (pre ++ cs.map Item.inst ++ post) (.at pre.length m w) t =
      ((pre ++ cs.map Item.inst ++ post).findIdx? (isItemLabel n)).map fun p => .at p m' w := by
  intro cs
  induction cs with
  | nil => intro pre post m m' _ h; cases h
  | cons i cs ih =>
    intro pre post m m' hc h
    simp only [run] at h
    have hse := stepI_env (e := H.env pre.length w) (e' := H.env p w) rfl m (hc i (by simp))
    cases hs : stepI (H.env p w) m i with
    | next m1 =>
      rw [hs] at h
      simp only at h
      obtain ⟨t, ht, this⟩ := ih (pre ++ [.inst i]) post m1 m' (fun j hj => hc j (by simp [hj])) h
      refine ⟨1 + t, by omega, ?_⟩
      rw [ticks_add]
      have h1 : ticks H (pre ++ (i :: cs).map Item.inst ++ post) (.at pre.length m w) 1 = some (.at (pre.length + 1) m1 w) := by
        simp only [ticks, tick, items_at, hse, hs, Option.bind_some]
        rw [worldAfter_none (hc i (by simp))]
      rw [h1]
      simp only [Option.bind_some]
      simp only [List.append_assoc, List.length_append, List.length_cons, List.length_nil, List.map_cons, List.cons_append, List.nil_append] at this ⊢
      exact this
    | jump l m1 =>
      rw [hs] at h; cases h
      refine ⟨1, by omega, ?_⟩
      simp only [ticks, tick, items_at, hse, hs, Option.bind_some]
    | _ => rw [hs] at h; cases h

/-- a block without calls that returns -/
theorem block_ret (H : Host W) (p : Nat) (w : W) {a : BitVec 64} : ∀ (cs : List XInst) (pre post : List Item) (m m' : Mach), (∀ i ∈ cs, i.op ≠ .call) →
    run (H.env p w) m cs = .ret a m' →
    ∃ t, ticks H (pre ++ cs.map Item.inst ++ post) (.at pre.length m w) t = some (.done a m' w) := by
  intro cs
  induction cs with
  | nil => intro pre post m m' _ h; cases h
  | cons i cs ih =>
    intro pre post m m' hc h
    simp only [run] at h
    have hse := stepI_env (e := H.env pre.length w) (e' := H.env p w) rfl m (hc i (by simp))
    cases hs : stepI (H.env p w) m i with
    | next m1 =>
      rw [hs] at h
      simp only at h
      obtain ⟨t, this⟩ := ih (pre ++ [.inst i]) post m1 m' (fun j hj => hc j (by simp [hj])) h
      refine ⟨1 + t, ?_⟩
      rw [ticks_add]
      have h1 : ticks H (pre ++ (i :: cs).map Item.inst ++ post) (.at pre.length m w) 1 = some (.at (pre.length + 1) m1 w) := by
        simp only [ticks, tick, items_at, hse, hs, Option.bind_some]
        rw [worldAfter_none (hc i (by simp))]
      rw [h1]
      simp only [Option.bind_some]
      simp only [List.append_assoc, List.length_append, List.length_cons, List.length_nil, List.map_cons, List.cons_append, List.nil_append] at this ⊢
      exact this
    | ret l m1 =>
      rw [hs] at h; cases h
      refine ⟨1, ?_⟩
      simp only [ticks, tick, items_at, hse, hs, Option.bind_some]
    | _ => rw [hs] at h; cases h

theorem run_split {env : Env} {m m' : Mach} : ∀ {a b : List XInst} {m1 : Mach}, run env m a = .next m1 → run env m (a ++ b) = .next m' → run env m1 b = .next m' := by
  intro a b m1 h h'
  rw [run_append_next h] at h'
  exact h'

/-- a block with one call -/
theorem block_call (H : Host W) (p : Nat) (w w' : W) {pre1 post1 : List XInst} {tgt : XOpe} {v : BitVec 64} {m mc y m' : Mach} (pre post : List Item)
    (hp : p = pre.length + pre1.length) (h1 : ∀ i ∈ pre1, i.op ≠ .call) (h2 : ∀ i ∈ post1, i.op ≠ .call)
    (ht : (∃ n, tgt = .jlabel n ∧ v = H.sym n) ∨ (∃ r, tgt = .jptr r ∧ v = mc.regs r))
    (r1 : run (H.env p w) m pre1 = .next mc) (hc : stepI (H.env p w) mc (is .call tgt) = doCall (H.env p w) mc v)
    (hf : H.fn v (push mc (H.back p)) w = some (y, w')) (hr : run (H.env p w) m (pre1 ++ [is .call tgt] ++ post1) = .next m') :
    ticks H (pre ++ (pre1 ++ [is .call tgt] ++ post1).map Item.inst ++ post) (.at pre.length m w) (pre1 ++ [is .call tgt] ++ post1).length =
      some (.at (pre.length + (pre1 ++ [is .call tgt] ++ post1).length) m' w') := by
  have hstep : stepI (H.env p w) mc (is .call tgt) = .next y := by
    rw [hc]; simp [doCall, Host.env, hf]
  have hpost : run (H.env p w') y post1 = .next m' := by
    rw [List.append_assoc, run_append_next r1] at hr
    simp only [List.cons_append, List.nil_append, run, hstep] at hr
    rw [← hr]
    exact run_env (e := H.env p w') (e' := H.env p w) rfl _ _ h2
  have hw : worldAfter H p mc w (is .call tgt) = w' := by
    have : callee H mc (is .call tgt) = some v := by
      unfold callee
      rcases ht with ⟨n, rfl, rfl⟩ | ⟨r, rfl, rfl⟩
      · rfl
      · cases r <;> rfl
    unfold worldAfter
    rw [this]
    simp only [hf]
  have b1 := block_next H p w pre1 pre ((([is .call tgt] ++ post1).map Item.inst) ++ post) m mc h1 r1
  have b2 := block_next H p w' post1 (pre ++ (pre1 ++ [is .call tgt]).map Item.inst) post y m' h2 hpost
  have e : (pre1 ++ [is .call tgt] ++ post1).length = pre1.length + (1 + post1.length) := by simp; omega
  rw [e, ticks_add]
  have e1 : pre ++ (pre1 ++ [is .call tgt] ++ post1).map Item.inst ++ post =
      pre ++ pre1.map Item.inst ++ ((([is .call tgt] ++ post1).map Item.inst) ++ post) := by simp
  rw [e1, b1]
  simp only [Option.bind_some]
  rw [ticks_add]
  have hstep' : ticks H (pre ++ pre1.map Item.inst ++ ((([is .call tgt] ++ post1).map Item.inst) ++ post)) (.at (pre.length + pre1.length) mc w) 1 =
      some (.at (pre.length + pre1.length + 1) y w') := by
    have hg : (pre ++ pre1.map Item.inst ++ ((([is .call tgt] ++ post1).map Item.inst) ++ post))[pre.length + pre1.length]? = some (.inst (is .call tgt)) := by
      simp
    rw [← hp] at hg ⊢
    simp only [ticks, tick, hg, hstep, Option.bind_some, hw]
  rw [hstep']
  simp only [Option.bind_some]
  have e2 : pre ++ pre1.map Item.inst ++ ((([is .call tgt] ++ post1).map Item.inst) ++ post) =
      pre ++ (pre1 ++ [is .call tgt]).map Item.inst ++ post1.map Item.inst ++ post := by simp
  have e3 : (pre ++ (pre1 ++ [is .call tgt]).map Item.inst).length = pre.length + pre1.length + 1 := by simp; omega
  rw [e3] at b2
  rw [e2, b2]
  congr 2; omega

/-! ### the generated code has calls for calls only -/

def noCall (cs : List XInst) : Prop := ∀ i ∈ cs, i.op ≠ .call

theorem noCall_nil : noCall [] := by intro i h; cases h
theorem noCall_cons {i : XInst} {cs : List XInst} (h : i.op ≠ .call) (h' : noCall cs) : noCall (i :: cs) := by
  intro j hj
  rcases List.mem_cons.mp hj with rfl | hj
  · exact h
  · exact h' j hj
theorem noCall_append {a b : List XInst} (h : noCall a) (h' : noCall b) : noCall (a ++ b) := by
  intro j hj
  rcases List.mem_append.mp hj with hj | hj
  · exact h j hj
  · exact h' j hj
theorem noCall_flatMap {α : Type} {l : List α} {f : α → List XInst} (h : ∀ a ∈ l, noCall (f a)) : noCall (l.flatMap f) := by
  intro j hj
  obtain ⟨a, ha, hj⟩ := List.mem_flatMap.mp hj
  exact h a ha j hj
theorem noCall_map {α : Type} {l : List α} {f : α → XInst} (h : ∀ a ∈ l, (f a).op ≠ .call) : noCall (l.map f) := by
  intro j hj
  obtain ⟨a, ha, rfl⟩ := List.mem_map.mp hj
  exact h a ha

theorem appendMov_noCall (ss : Sfx) (sr : Reg) (ds : Sfx) (dr : Reg) (u : Bool) : noCall (appendMov ss sr ds dr u) := by
  unfold appendMov movSimple movUnsigned movSigned
  intro i hi
  (repeat' split at hi) <;> simp [i2] at hi <;> (try rcases hi with hi | hi | hi) <;> (try obtain ⟨_, hi⟩ := hi) <;> subst_vars <;> simp_all

theorem strRest_noCall (rest : List UInt8) (off : Int) : noCall (strRest rest off) := by
  unfold strRest strUnit
  simp only
  intro i hi
  (repeat' split at hi) <;> simp [i2] at hi <;> (try rcases hi with hi | hi) <;> subst_vars <;> simp

theorem strLoop_noCall : ∀ (fuel : Nat) (bs : List UInt8) (off : Int), noCall (strLoop fuel bs off) := by
  intro fuel
  induction fuel with
  | zero => intro bs off; exact strRest_noCall _ _
  | succ f ih =>
    intro bs off
    unfold strLoop
    split
    · refine noCall_append ?_ (ih _ _)
      intro i hi; simp [strUnit, i2] at hi; rcases hi with rfl | rfl <;> simp
    · exact strRest_noCall _ _

theorem binInPlace_noCall {op : XOp} (ho : op ≠ .call) {w fs : Sfx} {fr : Reg} {fu : Bool} {snd : Ope} {cs : List XInst}
    (h : binInPlace op w fs fr fu snd = .ok cs) : noCall cs := by
  unfold binInPlace at h
  split at h
  · cases h; exact noCall_append (appendMov_noCall _ _ _ _ _) (noCall_cons ho noCall_nil)
  · simp only [Out.bind_eq_ok, Out.pure_eq, Out.ok.injEq] at h
    obtain ⟨p, _, rfl⟩ := h
    exact noCall_append (noCall_append (appendMov_noCall _ _ _ _ _) (appendMov_noCall _ _ _ _ _)) (noCall_cons ho noCall_nil)
  · cases h

theorem keep_ok {ev ev' : Nat} {c : Out (List XInst)} {cs : List XInst} (h : keep ev c = .ok (cs, ev')) : c = .ok cs := by
  simp only [keep, Out.bind_eq_ok, Out.pure_eq, Out.ok.injEq, Prod.mk.injEq] at h
  obtain ⟨_, h1, rfl, _⟩ := h
  exact h1

theorem genBin_noCall {op : XOp} (ho : op ≠ .call) {i : Inst} {cs : List XInst} (h : genBin op i = .ok cs) : noCall cs := by
  simp only [genBin, Out.bind_eq_ok, Out.pure_eq, Out.ok.injEq] at h
  obtain ⟨_, _, _, _, _, _, _, _, _, _, c, hc, rfl⟩ := h
  exact noCall_append (binInPlace_noCall ho hc) (appendMov_noCall _ _ _ _ _)

theorem genMul_noCall {i : Inst} {cs : List XInst} (h : genMul i = .ok cs) : noCall cs := by
  simp only [genMul, Out.bind_eq_ok, Out.pure_eq, Out.ok.injEq] at h
  obtain ⟨_, _, _, _, _, _, _, _, _, _, c, hc, rfl⟩ := h
  refine noCall_append ?_ (appendMov_noCall _ _ _ _ _)
  split at hc
  · cases hc; exact noCall_append (appendMov_noCall _ _ _ _ _) (noCall_cons (by simp [i2]) noCall_nil)
  · simp only [Out.bind_eq_ok, Out.pure_eq, Out.ok.injEq] at hc
    obtain ⟨p, _, rfl⟩ := hc
    exact noCall_append (noCall_append (appendMov_noCall _ _ _ _ _) (appendMov_noCall _ _ _ _ _)) (noCall_cons (by simp [i2]) noCall_nil)
  · cases hc

theorem divPrep_noCall {w fs : Sfx} {fr : Reg} {fu : Bool} {snd : Ope} {p : List XInst × Reg} (h : divPrep w fs fr fu snd = .ok p) : noCall p.1 := by
  unfold divPrep at h
  split at h
  · cases h; exact noCall_append (appendMov_noCall _ _ _ _ _) (noCall_cons (by simp [i2]) noCall_nil)
  · simp only [Out.bind_eq_ok, Out.pure_eq] at h
    obtain ⟨q, _, h⟩ := h
    split at h <;> (cases h; exact noCall_append (appendMov_noCall _ _ _ _ _) (appendMov_noCall _ _ _ _ _))
  · cases h

theorem genDiv_noCall {r : Reg} {qs : List Liveseq} {ev ev' : Nat} {i : Inst} {cs : List XInst} (h : genDiv r qs ev i = .ok (cs, ev')) : noCall cs := by
  simp only [genDiv, Out.bind_eq_ok] at h
  obtain ⟨_, _, _, _, _, _, _, _, _, _, p, hp, e, _, h⟩ := h
  simp only [Out.pure_eq, Out.ok.injEq, Prod.mk.injEq] at h
  rw [← h.1]
  refine noCall_append (noCall_append (noCall_append (noCall_append (divPrep_noCall hp) ?_) ?_) (appendMov_noCall _ _ _ _ _)) ?_
  · split
    · exact appendMov_noCall _ _ _ _ _
    · exact noCall_nil
  · unfold divCore
    split
    · exact noCall_cons (by simp [i2]) (noCall_cons (by simp [is]) noCall_nil)
    · split
      · exact noCall_cons (by simp [is]) (noCall_cons (by simp [is]) noCall_nil)
      · exact noCall_cons (by simp) (noCall_cons (by simp [is]) noCall_nil)
  · split
    · exact appendMov_noCall _ _ _ _ _
    · exact noCall_nil

theorem genUnary_noCall {op : XOp} (ho : op ≠ .call) {i : Inst} {cs : List XInst} (h : genUnary op i = .ok cs) : noCall cs := by
  simp only [genUnary, Out.bind_eq_ok] at h
  obtain ⟨_, _, _, _, _, _, h⟩ := h
  split at h
  · cases h
    exact noCall_append (noCall_append (noCall_cons (by simp [i2]) noCall_nil) (noCall_cons ho noCall_nil)) (appendMov_noCall _ _ _ _ _)
  · simp only [Out.bind_eq_ok, Out.pure_eq, Out.ok.injEq] at h
    obtain ⟨p, _, rfl⟩ := h
    exact noCall_append (noCall_cons ho noCall_nil) (appendMov_noCall _ _ _ _ _)
  · cases h

theorem genShift_noCall {op : XOp} (ho : op ≠ .call) {i : Inst} {cs : List XInst} (h : genShift op i = .ok cs) : noCall cs := by
  simp only [genShift, Out.bind_eq_ok, Out.pure_eq, Out.ok.injEq] at h
  obtain ⟨_, _, _, _, _, _, _, _, c, hc, _, _, rfl⟩ := h
  refine noCall_append ?_ (appendMov_noCall _ _ _ _ _)
  split at hc
  · cases hc; exact noCall_append (appendMov_noCall _ _ _ _ _) (noCall_cons ho noCall_nil)
  · cases hc

theorem genSet_noCall {c : Cond} {i : Inst} {cs : List XInst} (h : genSet c i = .ok cs) : noCall cs := by
  simp only [genSet, Out.bind_eq_ok, Out.pure_eq, Out.ok.injEq] at h
  obtain ⟨_, _, _, _, _, _, _, _, c, hc, _, _, rfl⟩ := h
  exact noCall_append (noCall_append (binInPlace_noCall (by simp) hc) (noCall_cons (by simp [id1]) noCall_nil)) (appendMov_noCall _ _ _ _ _)

theorem genJcc_noCall {c : Cond} {i : Inst} {cs : List XInst} (h : genJcc c i = .ok cs) : noCall cs := by
  simp only [genJcc, Out.bind_eq_ok, Out.pure_eq, Out.ok.injEq] at h
  obtain ⟨_, _, _, _, _, _, _, _, c, hc, _, _, rfl⟩ := h
  exact noCall_append (binInPlace_noCall (by simp) hc) (noCall_cons (by simp [id1]) noCall_nil)

theorem one_noCall (x : XInst) (hx : x.op ≠ .call) : noCall [x] := noCall_cons hx noCall_nil

theorem genLoad_noCall {i : Inst} {cs : List XInst} (h : genLoad i = .ok cs) : noCall cs := by
  simp only [genLoad, Out.bind_eq_ok] at h
  obtain ⟨_, _, _, _, _, _, h⟩ := h
  split at h
  · cases h; exact one_noCall _ (by simp [i2])
  · simp only [Out.bind_eq_ok, Out.pure_eq, Out.ok.injEq] at h
    obtain ⟨_, _, rfl⟩ := h; exact appendMov_noCall _ _ _ _ _
  · simp only [Out.bind_eq_ok, Out.pure_eq, Out.ok.injEq] at h
    obtain ⟨_, _, rfl⟩ := h; exact one_noCall _ (by simp [i2])
  · cases h; exact one_noCall _ (by simp [i2])
  · cases h; exact one_noCall _ (by simp [i2])
  · cases h

theorem genAddr_noCall {i : Inst} {cs : List XInst} (h : genAddr i = .ok cs) : noCall cs := by
  simp only [genAddr, Out.bind_eq_ok] at h
  obtain ⟨_, _, _, _, _, _, h⟩ := h
  split at h
  · cases h; exact one_noCall _ (by simp [i2])
  · cases h; exact one_noCall _ (by simp [i2])
  · cases h

theorem genStr_noCall {i : Inst} {cs : List XInst} (h : genStr i = .ok cs) : noCall cs := by
  simp only [genStr, Out.bind_eq_ok] at h
  obtain ⟨_, _, _, _, h⟩ := h
  split at h
  · cases h; exact strLoop_noCall _ _ _
  · cases h

theorem genStore_noCall {i : Inst} {cs : List XInst} (h : genStore i = .ok cs) : noCall cs := by
  simp only [genStore, Out.bind_eq_ok] at h
  obtain ⟨_, _, _, _, _, _, h⟩ := h
  split at h
  · cases h; exact one_noCall _ (by simp [i2])
  · simp only [Out.bind_eq_ok, Out.pure_eq, Out.ok.injEq] at h
    obtain ⟨_, _, rfl⟩ := h; exact one_noCall _ (by simp [i2])
  · cases h

theorem genLdarg_noCall {i : Inst} {cs : List XInst} (h : genLdarg i = .ok cs) : noCall cs := by
  simp only [genLdarg, Out.bind_eq_ok] at h
  obtain ⟨_, _, _, _, h⟩ := h
  split at h
  · cases h
  · split at h
    · split at h
      · cases h
      · cases h; exact one_noCall _ (by simp [i2])
    · cases h; exact noCall_cons (by simp [i2]) (one_noCall _ (by simp [i2]))

theorem genStarg_noCall {i : Inst} {cs : List XInst} (h : genStarg i = .ok cs) : noCall cs := by
  simp only [genStarg, Out.bind_eq_ok] at h
  obtain ⟨_, _, h⟩ := h
  split at h
  · cases h; exact one_noCall _ (by simp [is])
  · simp only [Out.bind_eq_ok, Out.pure_eq, Out.ok.injEq] at h
    obtain ⟨_, _, rfl⟩ := h; exact one_noCall _ (by simp [is])
  · cases h

theorem genStret_noCall {i : Inst} {cs : List XInst} (h : genStret i = .ok cs) : noCall cs := by
  simp only [genStret, Out.bind_eq_ok] at h
  obtain ⟨_, _, h⟩ := h
  split at h
  · cases h; exact one_noCall _ (by simp [i2])
  · simp only [Out.bind_eq_ok, Out.pure_eq, Out.ok.injEq] at h
    obtain ⟨_, _, rfl⟩ := h; exact appendMov_noCall _ _ _ _ _
  · cases h

theorem genJmp_noCall {i : Inst} {cs : List XInst} (h : genJmp i = .ok cs) : noCall cs := by
  simp only [genJmp, Out.bind_eq_ok, Out.pure_eq, Out.ok.injEq] at h
  obtain ⟨_, _, _, _, rfl⟩ := h; exact one_noCall _ (by simp [id1])

theorem genEnter_noCall {i : Inst} {cs : List XInst} (h : genEnter i = .ok cs) : noCall cs := by
  simp only [genEnter, Out.bind_eq_ok, Out.pure_eq, Out.ok.injEq] at h
  obtain ⟨_, _, _, _, rfl⟩ := h
  refine noCall_append (noCall_cons (by simp [is]) (one_noCall _ (by simp [i2]))) ?_
  split
  · exact one_noCall _ (by simp [spImm, i2])
  · exact noCall_nil

theorem genLeave_noCall {i : Inst} {cs : List XInst} (h : genLeave i = .ok cs) : noCall cs := by
  simp only [genLeave, Out.bind_eq_ok, Out.pure_eq, Out.ok.injEq] at h
  obtain ⟨_, _, _, _, rfl⟩ := h
  refine noCall_append ?_ (noCall_cons (by simp [id1]) (one_noCall _ (by simp)))
  split
  · exact one_noCall _ (by simp [spImm, i2])
  · exact noCall_nil

theorem genPrep_noCall {i : Inst} {cs : List XInst} (h : genPrep i = .ok cs) : noCall cs := by
  simp only [genPrep, Out.bind_eq_ok, Out.pure_eq, Out.ok.injEq] at h
  obtain ⟨_, _, _, _, rfl⟩ := h
  split
  · exact one_noCall _ (by simp [spImm, i2])
  · exact noCall_nil

theorem genClean_noCall {i : Inst} {cs : List XInst} (h : genClean i = .ok cs) : noCall cs := by
  simp only [genClean, Out.bind_eq_ok, Out.pure_eq, Out.ok.injEq] at h
  obtain ⟨_, _, _, _, rfl⟩ := h
  split
  · exact one_noCall _ (by simp [spImm, i2])
  · exact noCall_nil

theorem genInst_noCall {qs : List Liveseq} {ev ev' : Nat} {i : Inst} {cs : List XInst} (hi : i.op ≠ .call) (h : genInst qs ev i = .ok (cs, ev')) :
    noCall cs := by
  cases hop : i.op
  case call => exact absurd hop hi
  all_goals simp only [genInst, hop] at h
  case load => exact genLoad_noCall (keep_ok h)
  case addr => exact genAddr_noCall (keep_ok h)
  case str => exact genStr_noCall (keep_ok h)
  case store => exact genStore_noCall (keep_ok h)
  case ldarg => exact genLdarg_noCall (keep_ok h)
  case starg => exact genStarg_noCall (keep_ok h)
  case stret => exact genStret_noCall (keep_ok h)
  case add => exact genBin_noCall (by simp) (keep_ok h)
  case sub => exact genBin_noCall (by simp) (keep_ok h)
  case and => exact genBin_noCall (by simp) (keep_ok h)
  case or => exact genBin_noCall (by simp) (keep_ok h)
  case xor => exact genBin_noCall (by simp) (keep_ok h)
  case mul => exact genMul_noCall (keep_ok h)
  case div => exact genDiv_noCall h
  case mod => exact genDiv_noCall h
  case neg => exact genUnary_noCall (by simp) (keep_ok h)
  case not => exact genUnary_noCall (by simp) (keep_ok h)
  case sal => exact genShift_noCall (by simp) (keep_ok h)
  case sar => exact genShift_noCall (by simp) (keep_ok h)
  case seteq => exact genSet_noCall (keep_ok h)
  case setneq => exact genSet_noCall (keep_ok h)
  case jeq => exact genJcc_noCall (keep_ok h)
  case jneq => exact genJcc_noCall (keep_ok h)
  case jmp => exact genJmp_noCall (keep_ok h)
  case enter => exact genEnter_noCall (keep_ok h)
  case leave => exact genLeave_noCall (keep_ok h)
  case prep => exact genPrep_noCall (keep_ok h)
  case clean => exact genClean_noCall (keep_ok h)
  case setgt => rw [Out.bind_eq_ok] at h; obtain ⟨u, _, h⟩ := h; split at h <;> first | exact genSet_noCall (keep_ok h) | cases h
  case setgeq => rw [Out.bind_eq_ok] at h; obtain ⟨u, _, h⟩ := h; split at h <;> first | exact genSet_noCall (keep_ok h) | cases h
  case setlt => rw [Out.bind_eq_ok] at h; obtain ⟨u, _, h⟩ := h; split at h <;> first | exact genSet_noCall (keep_ok h) | cases h
  case setleq => rw [Out.bind_eq_ok] at h; obtain ⟨u, _, h⟩ := h; split at h <;> first | exact genSet_noCall (keep_ok h) | cases h
  case jgt => rw [Out.bind_eq_ok] at h; obtain ⟨u, _, h⟩ := h; split at h <;> first | exact genJcc_noCall (keep_ok h) | cases h
  case jgeq => rw [Out.bind_eq_ok] at h; obtain ⟨u, _, h⟩ := h; split at h <;> first | exact genJcc_noCall (keep_ok h) | cases h
  case jlt => rw [Out.bind_eq_ok] at h; obtain ⟨u, _, h⟩ := h; split at h <;> first | exact genJcc_noCall (keep_ok h) | cases h
  case jleq => rw [Out.bind_eq_ok] at h; obtain ⟨u, _, h⟩ := h; split at h <;> first | exact genJcc_noCall (keep_ok h) | cases h

theorem savePushes_noCall (ev : Nat) : noCall (savePushes ev) := by
  unfold savePushes
  refine noCall_append (noCall_map (by intro a _; simp [is])) ?_
  split
  · exact noCall_cons (by simp [spImm, i2]) noCall_nil
  · exact noCall_nil

theorem restorePops_noCall (ev : Nat) : noCall (restorePops ev) := by
  unfold restorePops
  refine noCall_append ?_ (noCall_map (by intro a _; simp [id1]))
  split
  · exact noCall_cons (by simp [spImm, i2]) noCall_nil
  · exact noCall_nil

end X86
end Umlcc
