import Verif.Lemma.X64Stack
/-!
Helper lemmas: the code emitted for calls.
-/
namespace Umlcc
namespace X86
open X64 ISem

theorem mov_quad_run (env : Env) (m : Mach) (a b : Reg) :
    run env m (appendMov .quad a .quad b false) = .next (if a = b then m else setReg m b (m.regs a)) := by
  simp only [appendMov, Nat.le_refl, ge_iff_le, if_true, movSimple]
  split
  · simp [run]
  · rw [run_one (step_mov_rr env m (good_quad a) (good_quad b)), get_quad, set_quad]

/-- a list of moves whose targets are distinct and are not sources -/
theorem moves_run (env : Env) (m : Mach) (ps : List (Reg × Reg)) (hnd : (ps.map (·.2)).Nodup)
    (hd : ∀ p ∈ ps, ∀ q ∈ ps, p.1 ≠ q.2) :
    ∃ m', run env m (ps.flatMap fun p => appendMov .quad p.1 .quad p.2 false) = .next m' ∧
      (∀ p ∈ ps, m'.regs p.2 = m.regs p.1) ∧ (∀ r, r ∉ ps.map (·.2) → m'.regs r = m.regs r) ∧
      m'.mem = m.mem := by
  induction ps generalizing m with
  | nil => exact ⟨m, rfl, by simp, by simp, rfl⟩
  | cons p ps ih =>
    simp only [List.map_cons, List.nodup_cons] at hnd
    have hp : p.1 ≠ p.2 := hd p (by simp) p (by simp)
    obtain ⟨m', h1, h2, h3, h4⟩ := ih (setReg m p.2 (m.regs p.1)) hnd.2
      (fun a ha b hb => hd a (by simp [ha]) b (by simp [hb]))
    refine ⟨m', ?_, ?_, ?_, ?_⟩
    · rw [List.flatMap_cons, run_append_next (mov_quad_run env m p.1 p.2), if_neg hp, h1]
    · intro q hq
      rcases List.mem_cons.mp hq with rfl | hq'
      · rw [h3 _ hnd.1]; simp
      · rw [h2 q hq', regs_setReg_ne]
        exact hd q hq p (by simp)
    · intro r hr
      simp only [List.map_cons, List.mem_cons, not_or] at hr
      rw [h3 r hr.2, regs_setReg_ne _ _ _ _ hr.1]
    · rw [h4]; rfl

/-- what `evacPairs` returns -/
theorem evacPairs_facts (d : Ope) (id : Int) (u : Bool) (hd : regField d = some (id, u)) (n : Nat) (ks : List Int)
    (pairs : List (Reg × Reg)) (h : evacPairs (some d) n ks = .ok pairs) :
    (∀ (j : Nat) (p : Reg × Reg), pairs[j]? = some p → calleeSaved[n + j]? = some p.2) ∧
    (pairs.map (fun p => Out.ok p.1) = (ks.filter (· ≠ id)).map callerAt) := by
  induction ks generalizing n pairs with
  | nil => simp only [evacPairs, Out.ok.injEq] at h; subst h; simp
  | cons k ks ih =>
    simp only [evacPairs, deref, Out.ok_bind, hd] at h
    split at h
    · rename_i hk
      obtain ⟨h1, h2⟩ := ih n pairs h
      exact ⟨h1, by simpa [hk] using h2⟩
    · rename_i hk
      simp only [Out.bind_eq_ok, Out.pure_eq, Out.ok.injEq] at h
      obtain ⟨callee, hce, caller, hcr, rest, hrest, rfl⟩ := h
      obtain ⟨h1, h2⟩ := ih (n + 1) rest hrest
      constructor
      · intro j p hj
        cases j with
        | zero =>
          simp at hj; subst hj
          unfold calleeAt at hce
          split at hce
          · rename_i r hr; cases hce; simpa using hr
          · cases hce
        | succ j =>
          simp at hj
          have := h1 j p hj
          rw [← this]; congr 1; omega
      · simp only [List.map_cons, h2, List.filter_cons, hk]
        simp [hcr, hk]

theorem callee_mem {n j : Nat} {r : Reg} (h : calleeSaved[n + j]? = some r) : r ∈ calleeSaved := List.mem_of_getElem? h

theorem pairs_len {n : Nat} {pairs : List (Reg × Reg)}
    (h : ∀ (j : Nat) (p : Reg × Reg), pairs[j]? = some p → calleeSaved[n + j]? = some p.2) : pairs.length + n ≤ 5 ∨ pairs = [] := by
  rcases hp : pairs.length with _ | l
  · right; exact List.length_eq_zero_iff.mp hp
  · left
    have hlt : l < pairs.length := by omega
    have := h l pairs[l] (by simp)
    have := (List.getElem?_eq_some_iff.mp this).1
    simp [calleeSaved] at this
    omega

theorem nodup_of_getElem? {α : Type} (l : List α) (h : ∀ i j : Nat, i < j → ∀ a, l[i]? = some a → l[j]? ≠ some a) : l.Nodup := by
  rw [List.Nodup, List.pairwise_iff_getElem]
  intro i j hi hj hij e
  exact h i j hij l[i] (by simp) (by rw [e]; simp)

theorem calleeSaved_nodup : calleeSaved.Nodup := by decide

theorem pairs_nodup {n : Nat} {pairs : List (Reg × Reg)}
    (h : ∀ (j : Nat) (p : Reg × Reg), pairs[j]? = some p → calleeSaved[n + j]? = some p.2) : (pairs.map (·.2)).Nodup := by
  apply nodup_of_getElem?
  intro i j hij a hi hj
  simp only [List.getElem?_map, Option.map_eq_some_iff] at hi hj
  obtain ⟨p, hp, rfl⟩ := hi
  obtain ⟨q, hq, e⟩ := hj
  have h1 := h i p hp
  have h2 := h j q hq
  rw [e] at h2
  have hlt := (List.getElem?_eq_some_iff.mp h1).1
  have := (List.getElem?_inj hlt calleeSaved_nodup).mp (h1.trans h2.symm)
  omega

theorem caller_not_callee {r q : Reg} (h : r ∈ callerSaved) (h' : q ∈ calleeSaved) : r ≠ q := by
  intro e; subst e; revert h h'; revert r; decide

theorem callerAt_inj {a b : Int} {r : Reg} (ha : callerAt a = .ok r) (hb : callerAt b = .ok r) : a = b := by
  unfold callerAt at ha hb
  have hnd : callerSaved.Nodup := by decide
  split at ha
  · rename_i r1 h1
    split at hb
    · rename_i r2 h2
      cases ha; cases hb
      split at h1
      · split at h2
        · have hl1 := (List.getElem?_eq_some_iff.mp h1).1
          have := (List.getElem?_inj hl1 hnd).mp (h1.trans h2.symm)
          omega
        · cases h2
      · cases h1
    · cases hb
  · cases ha

/-! ### the set of live registers -/

/-- `aliveSet` as a function of the answers of `isAlive` -/
def aliveSetB (s : HSet Int) (i : Nat) : List Bool → Out (HSet Int)
  | [] => .ok s
  | a :: bs => if a then do let s ← HSet.add hashInteger s i; aliveSetB s (i + 1) bs else aliveSetB s (i + 1) bs

theorem aliveSet_bools (s : HSet Int) (i : Nat) (qs : List Liveseq) (bs : List Bool)
    (h : qs.map Liveseq.isAlive = bs.map Out.ok) : aliveSet s i qs = aliveSetB s i bs := by
  induction qs generalizing s i bs with
  | nil => cases bs with
    | nil => rfl
    | cons => simp at h
  | cons q qs ih =>
    cases bs with
    | nil => simp at h
    | cons b bs =>
      simp only [List.map_cons, List.cons.injEq] at h
      simp only [aliveSet, aliveSetB, h.1, Out.ok_bind]
      cases b
      · simp only [Bool.false_eq_true, if_false]; exact ih s (i + 1) bs h.2
      · simp only [if_true]
        cases HSet.add hashInteger s i with
        | ok s' => simp only [Out.ok_bind]; exact ih s' (i + 1) bs h.2
        | _ => rfl

def okElems (o : Out (HSet Int)) (bs : List Bool) : Bool :=
  match o with
  | .ok s => decide (HSet.elems s).Nodup && (HSet.elems s).all (fun k => decide (0 ≤ k) && bs[k.toNat]? == some true) &&
      (List.range 8).all (fun k => bs[k]? != some true || (HSet.elems s).contains (k : Int))
  | _ => false

theorem alive_elems : ∀ b0 b1 b2 b3 b4 b5 b6 b7 : Bool,
    okElems (aliveSetB HMap.new 0 [b0, b1, b2, b3, b4, b5, b6, b7]) [b0, b1, b2, b3, b4, b5, b6, b7] = true := by
  decide +kernel

/-- the elements of the set of live registers are the live registers -/
theorem aliveSet_facts (qs : List Liveseq) (live : List Bool) (hl : qs.map Liveseq.isAlive = live.map Out.ok)
    (h8 : live.length = 8) :
    ∃ s, aliveSet HMap.new 0 qs = .ok s ∧ (HSet.elems s).Nodup ∧
      ∀ k : Int, k ∈ HSet.elems s ↔ 0 ≤ k ∧ live[k.toNat]? = some true := by
  obtain ⟨b0, b1, b2, b3, b4, b5, b6, b7, rfl⟩ := len8 h8
  rw [aliveSet_bools _ _ _ _ hl]
  have h := alive_elems b0 b1 b2 b3 b4 b5 b6 b7
  generalize aliveSetB HMap.new 0 [b0, b1, b2, b3, b4, b5, b6, b7] = o at h
  unfold okElems at h
  split at h
  · rename_i s
    simp only [Bool.and_eq_true, decide_eq_true_eq, List.all_eq_true, beq_iff_eq, Bool.or_eq_true, bne_iff_ne,
      List.mem_range, List.contains_eq_mem] at h
    obtain ⟨⟨hn, h1⟩, h2⟩ := h
    refine ⟨s, rfl, hn, fun k => ⟨fun hk => h1 k hk, ?_⟩⟩
    intro ⟨hk, hb⟩
    have hlt : k.toNat < 8 := by
      have := (List.getElem?_eq_some_iff.mp hb).1
      simpa using this
    rcases h2 k.toNat hlt with h3 | h3
    · exact absurd hb h3
    · rw [Int.toNat_of_nonneg hk] at h3; exact h3
  · cases h

/-! ### calls -/

/-- the parts of the code emitted for a call -/
theorem genCall_shape {qs : List Liveseq} {ev ev' : Nat} {iop : IOp} {dst : Option Ope} {fst : Ope} {s : Sfx} {l : ILit} {cs : List XInst}
    (h : genCall qs ev ⟨iop, dst, some fst, some (.int s l)⟩ = .ok (cs, ev')) :
    ∃ alive pairs pre tgt ret, aliveSet HMap.new 0 qs = .ok alive ∧ evacPairs dst 0 (HSet.elems alive) = .ok pairs ∧
      callTarget fst l.value = .ok (pre, tgt) ∧
      (match dst with
        | none => ret = []
        | some d => ∃ dr du, physReg d = .ok (dr, du) ∧ ret = appendMov (sfxOf d) .ax (sfxOf d) dr du) ∧
      cs = (pairs.flatMap (fun p => appendMov .quad p.1 .quad p.2 false) ++ pre ++
          (argRegs.take l.value.toNat).map (fun r => id1 .pop (.reg .quad r)) ++
          [i2 .mov (.int .quad ⟨.int, 0⟩) (.reg .quad .ax)]) ++ [is .call tgt] ++
        (pairs.flatMap (fun p => appendMov .quad p.2 .quad p.1 false) ++ ret) ∧ ev' = max ev pairs.length := by
  simp only [genCall, deref, countOf, Out.ok_bind, Out.bind_eq_ok] at h
  obtain ⟨alive, h1, pairs, h2, ⟨pre, tgt⟩, h3, ret, h4, h5⟩ := h
  simp only [Out.pure_eq, Out.ok.injEq, Prod.mk.injEq] at h5
  refine ⟨alive, pairs, pre, tgt, ret, h1, h2, h3, ?_, ?_, h5.2.symm⟩
  · cases dst with
    | none => simp only [Out.pure_eq, Out.ok.injEq] at h4; exact h4.symm
    | some d =>
      simp only [Out.bind_eq_ok, Out.pure_eq, Out.ok.injEq] at h4
      obtain ⟨⟨dr, du⟩, h6, h7⟩ := h4
      exact ⟨dr, du, h6, h7.symm⟩
  · rw [← h5.1]; simp

theorem argRegs_take (n : Nat) : (argRegs.take n).Nodup ∧ Reg.sp ∉ argRegs.take n ∧ Reg.r10 ∉ argRegs.take n ∧
    (∀ r ∈ argRegs.take n, r ∈ callerSaved) := by
  have h : argRegs.Nodup := by decide
  refine ⟨h.sublist (List.take_sublist _ _), fun e => ?_, fun e => ?_, fun r hr => ?_⟩
  · have := List.mem_of_mem_take e; revert this; decide
  · have := List.mem_of_mem_take e; revert this; decide
  · have := List.mem_of_mem_take hr; clear hr; revert this; revert r; decide

/-- the code before the call: live registers saved, arguments popped, `rax` cleared -/
theorem callPre_run (env : Env) (m : Mach) {pairs : List (Reg × Reg)} {fst : Ope} {n : Int} {pre : List XInst} {tgt : XOpe}
    {v : BitVec 64} (hnd : (pairs.map (·.2)).Nodup) (hcr : ∀ p ∈ pairs, p.1 ∈ callerSaved) (hce : ∀ p ∈ pairs, p.2 ∈ calleeSaved)
    (ht : callTarget fst n = .ok (pre, tgt)) (hv : targetVal env m fst = some v) :
    ∃ mc, run env m (pairs.flatMap (fun p => appendMov .quad p.1 .quad p.2 false) ++ pre ++
          (argRegs.take n.toNat).map (fun r => id1 .pop (.reg .quad r)) ++
          [i2 .mov (.int .quad ⟨.int, 0⟩) (.reg .quad .ax)]) = .next mc ∧
      (∀ p ∈ pairs, mc.regs p.2 = m.regs p.1) ∧ (∀ r ∈ sysvKept, r ∉ pairs.map (·.2) → mc.regs r = m.regs r) ∧
      mc.regs .sp = rel64 (m.regs .sp) (8 * (argRegs.take n.toNat).length) ∧
      (∀ (k : Nat) (r : Reg), (argRegs.take n.toNat)[k]? = some r → mc.regs r = load m (rel64 (m.regs .sp) (8 * k)) .quad) ∧
      mc.mem = m.mem ∧ stepI env mc (is .call tgt) = doCall env mc v ∧
      ((∃ n, tgt = .jlabel n ∧ v = env.sym n) ∨ (∃ r, tgt = .jptr r ∧ v = mc.regs r)) := by
  obtain ⟨m1, h1, s1, r1, e1⟩ := moves_run env m pairs hnd (fun p hp q hq => caller_not_callee (hcr p hp) (hce q hq))
  have hkeep : ∀ r, r ∉ calleeSaved → m1.regs r = m.regs r := by
    intro r hr; apply r1; intro hm
    obtain ⟨p, hp, rfl⟩ := List.mem_map.mp hm
    exact hr (hce p hp)
  obtain ⟨t1, t2, t3, t4⟩ := argRegs_take n.toNat
  -- the target
  have hpre : ∃ m2, run env m1 pre = .next m2 ∧ (∀ r, r ≠ .r10 → m2.regs r = m1.regs r) ∧ m2.mem = m1.mem ∧
      ((∃ nm, fst = .label nm ∧ tgt = .jlabel nm) ∨ (∃ q, tgt = .jptr q ∧ q ∈ callerSaved ∧ q ∉ argRegs.take n.toNat ∧ m2.regs q = v)) := by
    cases fst <;> simp only [targetVal, reduceCtorEq] at hv
    · rename_i id
      split at hv
      · rename_i r hc
        have hph : physReg (.ptr id) = .ok (r, false) := by simp [physReg, regField, hc]
        simp only [callTarget, hph, Out.ok_bind] at ht
        have hr := (caller_ok hc).2.2.2.2.2
        have hval : m1.regs r = v := by
          rw [hkeep r (fun h => caller_not_callee hr h rfl)]; exact Option.some.inj hv
        split at ht
        · simp only [Out.pure_eq, Out.ok.injEq, Prod.mk.injEq] at ht
          obtain ⟨rfl, rfl⟩ := ht
          rename_i hmem
          have hne : r ≠ .r10 := by intro e; rw [e] at hmem; exact t3 hmem
          refine ⟨setReg m1 .r10 (m1.regs r), ?_, ?_, rfl, Or.inr ⟨.r10, rfl, by decide, t3, ?_⟩⟩
          · rw [show tmpReg = Reg.r10 from rfl, mov_quad_run, if_neg hne]
          · intro q hq; exact regs_setReg_ne _ _ _ _ hq
          · rw [regs_setReg_same, hval]
        · simp only [Out.pure_eq, Out.ok.injEq, Prod.mk.injEq] at ht
          obtain ⟨rfl, rfl⟩ := ht
          rename_i hmem
          exact ⟨m1, rfl, fun _ _ => rfl, rfl, Or.inr ⟨r, rfl, hr, hmem, hval⟩⟩
      · cases hv
    · rename_i nm
      simp only [callTarget, Out.pure_eq, Out.ok.injEq, Prod.mk.injEq] at ht
      obtain ⟨rfl, rfl⟩ := ht
      exact ⟨m1, rfl, fun _ _ => rfl, rfl, Or.inl ⟨nm, rfl, rfl⟩⟩
  obtain ⟨m2, h2, r2, e2, htg⟩ := hpre
  obtain ⟨m3, h3, sp3, a3, r3, e3⟩ := pops_run env m2 (argRegs.take n.toNat) t1 t2
  have h4 : stepI env m3 (i2 .mov (.int .quad ⟨.int, 0⟩) (.reg .quad .ax)) = .next (setReg m3 .ax 0) := by
    rw [step_mov_ir env m3 (good_quad _) (by decide), set_quad]; rfl
  have hsp : m2.regs .sp = m.regs .sp := by rw [r2 .sp (by decide), hkeep .sp (by decide)]
  have hmem : m2.mem = m.mem := by rw [e2, e1]
  have hkept : ∀ r, r ∈ sysvKept → (setReg m3 .ax 0).regs r = m1.regs r := by
    intro r hr
    have q1 : r ≠ .ax ∧ r ≠ .sp ∧ r ≠ .r10 ∧ r ∉ callerSaved := by revert hr; revert r; decide
    rw [regs_setReg_ne _ _ _ _ q1.1, r3 r q1.2.1 (fun h => q1.2.2.2 (t4 r h)), r2 r q1.2.2.1]
  refine ⟨setReg m3 .ax 0, ?_, ?_, ?_, ?_, ?_, ?_, ?_, ?_⟩
  · rw [List.append_assoc, List.append_assoc, run_append_next h1, run_append_next h2, run_append_next h3, run_one h4]
  · intro p hp
    rw [hkept p.2 (by have := hce p hp; revert this; generalize p.2 = r; revert r; decide), s1 p hp]
  · intro r hr hr'
    rw [hkept r hr, r1 r hr']
  · rw [regs_setReg_ne _ _ _ _ (by decide), sp3, hsp]
  · intro k r hk
    have hr := t4 r (List.mem_of_getElem? hk)
    have hax : r ≠ .ax := by intro e; rw [e] at hr; revert hr; decide
    rw [regs_setReg_ne _ _ _ _ hax, a3 k r hk, hsp, load_mem hmem]
  · show m3.mem = _; rw [e3, hmem]
  · rcases htg with ⟨nm, rfl, rfl⟩ | ⟨q, rfl, hq, hq', hqv⟩
    · rw [stepI_is env _ .call (.jlabel nm) "call" .call rfl (by decide) (by trivial)]
      simp only [targetVal, Option.some.injEq] at hv
      simp [step, den, hv]
    · rw [stepI_is env _ .call (.jptr q) "call" .call rfl (by decide) (by trivial)]
      have hqax : q ≠ .ax := by intro e; rw [e] at hq; revert hq; decide
      have hqsp : q ≠ .sp := by intro e; rw [e] at hq; revert hq; decide
      simp only [step, den]
      rw [regs_setReg_ne _ _ _ _ hqax, r3 q hqsp hq', hqv]
  · rcases htg with ⟨nm, rfl, rfl⟩ | ⟨q, rfl, hq, hq', hqv⟩
    · simp only [targetVal, Option.some.injEq] at hv
      exact .inl ⟨nm, rfl, hv.symm⟩
    · have hqax : q ≠ .ax := by intro e; rw [e] at hq; revert hq; decide
      have hqsp : q ≠ .sp := by intro e; rw [e] at hq; revert hq; decide
      exact .inr ⟨q, rfl, by rw [regs_setReg_ne _ _ _ _ hqax, r3 q hqsp hq', hqv]⟩

theorem evacPairs_none {n : Nat} {ks : List Int} {pairs : List (Reg × Reg)} (h : evacPairs none n ks = .ok pairs) :
    ks = [] ∧ pairs = [] := by
  cases ks with
  | nil => simp only [evacPairs, Out.ok.injEq] at h; exact ⟨rfl, h.symm⟩
  | cons k ks => simp [evacPairs, deref] at h

/-- destination of a call: none, or an allocated register -/
def dstReg : Option Ope → Option Reg
  | some (.reg _ id _) => match callerAt id with
    | .ok r => some r
    | _ => none
  | _ => none

theorem genCall_run (env : Env) (habi : Abi env) (m : Mach) {qs : List Liveseq} {live : List Bool} {ev ev' : Nat} {iop : IOp}
    {dst : Option Ope} {fst : Ope} {s : Sfx} {l : ILit} {cs : List XInst} {v : BitVec 64}
    (hl : qs.map Liveseq.isAlive = live.map Out.ok) (h8 : live.length = 8)
    (hd : dst = none ∨ ∃ ds id du dr, dst = some (.reg ds id du) ∧ callerAt id = .ok dr ∧ ds ≠ .none)
    (h : genCall qs ev ⟨iop, dst, some fst, some (.int s l)⟩ = .ok (cs, ev')) (hv : targetVal env m fst = some v) :
    ∃ pre tgt post mc, cs = pre ++ [is .call tgt] ++ post ∧ run env m pre = .next mc ∧
      stepI env mc (is .call tgt) = doCall env mc v ∧
      mc.regs .sp = rel64 (m.regs .sp) (8 * (argRegs.take l.value.toNat).length) ∧
      (∀ (k : Nat) (r : Reg), (argRegs.take l.value.toNat)[k]? = some r → mc.regs r = load m (rel64 (m.regs .sp) (8 * k)) .quad) ∧
      mc.mem = m.mem ∧ ((∃ n, tgt = .jlabel n ∧ v = env.sym n) ∨ (∃ r, tgt = .jptr r ∧ v = mc.regs r)) ∧
      ∀ y, env.fn v (push mc env.back) = some y →
        ∃ m', run env m cs = .next m' ∧
          (∀ (k : Nat) (r : Reg), live[k]? = some true → callerAt (k : Int) = .ok r → dstReg dst ≠ some r → m'.regs r = m.regs r) ∧
          m'.regs .sp = mc.regs .sp ∧ m'.mem = y.mem ∧
          (∀ ds id du dr, dst = some (.reg ds id du) → callerAt id = .ok dr → get m' dr ds = get y .ax ds) ∧
          (∀ r ∈ sysvKept, r ∉ calleeSaved.take ev' → m'.regs r = m.regs r) := by
  obtain ⟨alive, pairs, pre, tgt, ret, hal, hpairs, htg, hret, hcs, hev⟩ := genCall_shape h
  obtain ⟨S, hS, hnd, hmem⟩ := aliveSet_facts qs live hl h8
  rw [hal] at hS; cases hS
  have facts : (∀ (j : Nat) (p : Reg × Reg), pairs[j]? = some p → calleeSaved[0 + j]? = some p.2) ∧
      (∀ p ∈ pairs, ∃ k : Int, callerAt k = .ok p.1 ∧ dstReg dst ≠ some p.1) ∧ (pairs.map (·.1)).Nodup ∧
      (∀ (k : Nat) (r : Reg), live[k]? = some true → callerAt (k : Int) = .ok r → dstReg dst ≠ some r → ∃ q, (r, q) ∈ pairs) := by
    rcases hd with rfl | ⟨ds, id, du, dr, rfl, hdr, hds⟩
    · obtain ⟨hk, rfl⟩ := evacPairs_none hpairs
      refine ⟨by simp, by simp, by simp, ?_⟩
      intro k r hk' _ _
      have := (hmem k).mpr ⟨by omega, by simpa using hk'⟩
      rw [hk] at this; simp at this
    · obtain ⟨f1, f2⟩ := evacPairs_facts (.reg ds id du) id du rfl 0 _ pairs hpairs
      have hdst : dstReg (some (.reg ds id du)) = some dr := by simp [dstReg, hdr]
      have hin : ∀ p ∈ pairs, ∃ k : Int, k ∈ HSet.elems alive ∧ k ≠ id ∧ callerAt k = .ok p.1 := by
        intro p hp
        have : Out.ok p.1 ∈ pairs.map (fun p => Out.ok p.1) := List.mem_map.mpr ⟨p, hp, rfl⟩
        rw [f2] at this
        obtain ⟨k, hk, e⟩ := List.mem_map.mp this
        simp only [List.mem_filter, decide_eq_true_eq] at hk
        exact ⟨k, hk.1, hk.2, e⟩
      refine ⟨f1, ?_, ?_, ?_⟩
      · intro p hp
        obtain ⟨k, _, hk, e⟩ := hin p hp
        refine ⟨k, e, ?_⟩
        rw [hdst]; intro e'
        cases e'
        exact hk (callerAt_inj e hdr)
      · have h1 : ((HSet.elems alive).filter (· ≠ id)).Nodup := hnd.filter _
        have h2 : (((HSet.elems alive).filter (· ≠ id)).map callerAt).Nodup := by
          rw [List.Nodup, List.pairwise_map]
          refine List.Pairwise.imp_of_mem ?_ h1
          intro a b ha hb hab e
          have : ∃ r, callerAt a = .ok r := by
            have : callerAt a ∈ ((HSet.elems alive).filter (· ≠ id)).map callerAt := List.mem_map.mpr ⟨a, ha, rfl⟩
            rw [← f2] at this
            obtain ⟨p, _, e⟩ := List.mem_map.mp this
            exact ⟨p.1, e.symm⟩
          obtain ⟨r, hr⟩ := this
          exact hab (callerAt_inj hr (e ▸ hr))
        rw [← f2] at h2
        rw [List.Nodup, List.pairwise_map] at h2 ⊢
        refine List.Pairwise.imp ?_ h2
        intro a b hab e
        exact hab (by rw [e])
      · intro k r hk hr hne
        have h1 := (hmem k).mpr ⟨by omega, by simpa using hk⟩
        have h2 : (k : Int) ≠ id := by
          intro e; rw [e, hdr] at hr; cases hr; exact hne hdst
        have : callerAt (k : Int) ∈ ((HSet.elems alive).filter (· ≠ id)).map callerAt :=
          List.mem_map.mpr ⟨k, by simp [h1, h2], rfl⟩
        rw [← f2] at this
        obtain ⟨p, hp, e⟩ := List.mem_map.mp this
        rw [hr] at e; cases e
        exact ⟨p.2, hp⟩
  obtain ⟨f1, f2, f3, f4⟩ := facts
  have hcr : ∀ p ∈ pairs, p.1 ∈ callerSaved := by
    intro p hp; obtain ⟨k, hk, _⟩ := f2 p hp; exact (caller_ok hk).2.2.2.2.2
  have hce : ∀ p ∈ pairs, p.2 ∈ calleeSaved := by
    intro p hp; obtain ⟨j, hj, rfl⟩ := List.getElem_of_mem hp
    exact callee_mem (f1 j _ (by simp))
  obtain ⟨mc, hrun, hsave, hkeep, hsp, harg, hm, hst, htf⟩ := callPre_run env m (pairs_nodup f1) hcr hce htg hv
  refine ⟨_, tgt, _, mc, hcs, hrun, hst, hsp, harg, hm, htf, ?_⟩
  intro y hy
  obtain ⟨hab, hysp⟩ := habi v _ y hy
  -- back in the caller: restore
  have hdis : ∀ p ∈ pairs.map (fun p => (p.2, p.1)), ∀ q ∈ pairs.map (fun p => (p.2, p.1)), p.1 ≠ q.2 := by
    intro p hp q hq
    obtain ⟨p', hp', rfl⟩ := List.mem_map.mp hp
    obtain ⟨q', hq', rfl⟩ := List.mem_map.mp hq
    exact fun e => caller_not_callee (hcr q' hq') (hce p' hp') e.symm
  obtain ⟨m5, h5, s5, r5, e5⟩ := moves_run env y (pairs.map fun p => (p.2, p.1))
    (by simpa [Function.comp_def] using f3) hdis
  rw [List.flatMap_map] at h5
  have hcall : stepI env mc (is .call tgt) = .next y := by rw [hst, doCall, hy]
  have hrest : ∀ p ∈ pairs, m5.regs p.1 = m.regs p.1 := by
    intro p hp
    have h1 := s5 (p.2, p.1) (List.mem_map.mpr ⟨p, hp, rfl⟩)
    have hk : p.2 ∈ sysvKept := by have := hce p hp; revert this; generalize p.2 = r; revert r; decide
    have hns : p.2 ≠ .sp := by have := hce p hp; revert this; generalize p.2 = r; revert r; decide
    rw [h1, hab p.2 hk, push_regs _ _ _ hns, hsave p hp]
  have hnot : ∀ r, r ∉ callerSaved → m5.regs r = y.regs r := by
    intro r hr; apply r5; intro hm
    simp only [List.map_map, List.mem_map, Function.comp_apply] at hm
    obtain ⟨p, hp, rfl⟩ := hm
    exact hr (hcr p hp)
  have hpsp : m5.regs .sp = mc.regs .sp := by
    rw [hnot .sp (by decide), hysp, push_sp, add8, rel64_rel64]; simp [rel64_zero]
  have hkept5 : ∀ r ∈ sysvKept, r ∉ calleeSaved.take ev' → m5.regs r = m.regs r := by
    intro r hr hr'
    have q1 : r ∉ callerSaved ∧ r ≠ .sp := by revert hr; clear hr'; revert r; decide
    rw [hnot r q1.1, hab r hr, push_regs _ _ _ q1.2]
    apply hkeep r hr
    intro hm
    apply hr'
    obtain ⟨p, hp, rfl⟩ := List.mem_map.mp hm
    obtain ⟨j, hj, rfl⟩ := List.getElem_of_mem hp
    have := f1 j pairs[j] (by simp)
    rw [Nat.zero_add] at this
    apply List.mem_of_getElem? (i := j)
    rw [List.getElem?_take_of_lt (by omega)]; exact this
  have hpre : run env m cs = run env m5 ret := by
    rw [hcs, List.append_assoc, run_append_next hrun, run_append_next (run_one hcall), run_append_next h5]
  rcases hd with rfl | ⟨ds, id, du, dr, rfl, hdr, hds⟩
  · simp only at hret; subst hret
    refine ⟨m5, hpre, ?_, hpsp, e5, by simp, hkept5⟩
    intro k r hk hr hne
    obtain ⟨q, hq⟩ := f4 k r hk hr hne
    exact hrest _ hq
  · simp only [physReg_ok hdr] at hret
    obtain ⟨dr', du', e, rfl⟩ := hret
    cases e
    have hax : ∀ {x}, x ≠ .none → GoodReg x .ax := fun h => ax_good h
    obtain ⟨m6, h6, g6, r6, e6, _⟩ := appendMov_run env m5 ds ds .ax dr du (hax hds) (caller_good hdr hds) (hax hds)
      (by unfold BadExt; cases ds <;> simp)
    have hvia : ¬ ViaAx ds ds du := by unfold ViaAx; cases ds <;> simp
    have hdrc := (caller_ok hdr).2.2.2.2.2
    refine ⟨m6, by rw [hpre]; exact h6, ?_, ?_, by rw [e6, e5], ?_, ?_⟩
    · intro k r hk hr hne
      obtain ⟨q, hq⟩ := f4 k r hk hr hne
      rw [r6 r (fun e => hne (by simp [dstReg, hdr, e])) (fun h => absurd h hvia)]
      exact hrest _ hq
    · rw [r6 .sp (Ne.symm (caller_ok hdr).2.2.1) (fun h => absurd h hvia), hpsp]
    · intro ds' id' du' dr' e hd'
      cases e
      rw [hdr] at hd'; cases hd'
      rw [g6, conv_self]; simp only [get]; rw [hnot .ax (by decide)]
    · intro r hr hr'
      have q1 : r ∉ callerSaved := by revert hr; clear hr'; revert r; decide
      rw [r6 r (fun e => q1 (e ▸ hdrc)) (fun h => absurd h hvia)]
      exact hkept5 r hr hr'

end X86
end Umlcc
