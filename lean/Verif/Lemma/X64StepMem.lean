import Verif.Lemma.X64Step
/-!
Helper lemmas: instructions that move values between registers and memory.
-/
namespace Umlcc
namespace X86
open X64 ISem
open IMach (Val)
open Sim (rv pv upd)

variable {W : Type}
variable {env : Env} {E : IMach.Env W} {F D T ev : Nat} {e m0 : Mach} {live : Int → Prop} {ps : List Prep} {R : Int → Val}
  {st st' : IMach.St W} {v : Val} {t : Bool} {m : Mach} {cs : List XInst}

theorem rel64_ofInt_inj {b : BitVec 64} {x y : Int} (h : rel64 b x = rel64 b y) (hx : -2 ^ 62 ≤ x ∧ x < 2 ^ 62) (hy : -2 ^ 62 ≤ y ∧ y < 2 ^ 62) : x = y := by
  rcases Int.le_total x y with hle | hle
  · have := rel64_sub_toNat b x y (by omega) (by omega)
    rw [h, BitVec.sub_self] at this
    simp at this
    omega
  · have := rel64_sub_toNat b y x (by omega) (by omega)
    rw [h, BitVec.sub_self] at this
    simp at this
    omega

theorem not_priv {bp : BitVec 64} {x : Int} (hD : D < 2 ^ 62) (hT : T < 2 ^ 62) (hF : F ≤ D) (hx : -(F : Int) ≤ x ∧ x < 0) : ¬ Priv bp F D T (rel64 bp x) := by
  rintro ⟨y, hy, h⟩
  have := rel64_ofInt_inj (b := bp) (x := x) (y := y) hy (by omega) (by omega)
  omega

/-- the bytes of a local object are not private -/
theorem local_free {bp : BitVec 64} {k : Int} {n s j : Nat} (hD : D < 2 ^ 62) (hT : T < 2 ^ 62) (hF : F ≤ D) (hn : n ≤ F) (hk : (s : Int) ≤ k ∧ k ≤ n) (hj : j < s) :
    ¬ Priv bp F D T (bp - BitVec.ofInt 64 k + BitVec.ofNat 64 j) := by
  rw [subInt, addNat, rel64_rel64]
  exact not_priv hD hT hF (by omega)

theorem byte_at {x a : BitVec 64} {n : Nat} (h : (x - a).toNat < n) : ∃ k, k < n ∧ x = a + BitVec.ofNat 64 k :=
  ⟨(x - a).toNat, h, by rw [BitVec.ofNat_toNat, BitVec.setWidth_eq, BitVec.add_comm, BitVec.sub_add_cancel]⟩

/-- the same bytes written to two memories -/
theorem write_rel {P : BitVec 64 → Prop} {M : IMach.Mem} {a : BitVec 64} {s : Sfx} {b : BitVec s.bits} (ha : ∀ k, k < s.nbytes → ¬ P (a + BitVec.ofNat 64 k))
    (hm : ∀ x, ¬ P x → m.mem x = M x) :
    (∀ x, P x → (store m a s b).mem x = m.mem x) ∧ (∀ x, ¬ P x → (store m a s b).mem x = IMach.write M a s b x) := by
  constructor
  · intro x hx
    simp only [store, writeLE]
    rw [if_neg]
    intro h
    obtain ⟨k, hk, rfl⟩ := byte_at h
    exact ha k hk hx
  · intro x hx
    simp only [store, writeLE, IMach.write]
    split
    · rfl
    · exact hm x hx

theorem read_rel {P : BitVec 64 → Prop} {M : IMach.Mem} {a : BitVec 64} {s : Sfx} (ha : ∀ k, k < s.nbytes → ¬ P (a + BitVec.ofNat 64 k))
    (hm : ∀ x, ¬ P x → m.mem x = M x) : load m a s = IMach.read M a s := by
  unfold load IMach.read
  rw [readLE_congr M m.mem a _ (fun i hi => hm _ (ha i hi))]

theorem writeBytes_eq : ∀ (bs : List UInt8) (M : IMach.Mem) (a : BitVec 64), bs.length ≤ 2 ^ 63 → IMach.writeBytes M a bs = putBytes M a bs := by
  intro bs
  induction bs with
  | nil => intro M a _; rfl
  | cons c bs ih =>
    intro M a h
    simp only [List.length_cons] at h
    simp only [IMach.writeBytes]
    rw [ih _ _ (by omega)]
    funext x
    simp only [putBytes]
    by_cases hx : x = a
    · subst hx
      have h1 : (x - (x + 1)).toNat = 2 ^ 64 - 1 := by
        have : x - (x + 1) = -1 := by
          rw [BitVec.sub_eq_add_neg, BitVec.neg_add, BitVec.sub_eq_add_neg, ← BitVec.add_assoc, ← BitVec.sub_eq_add_neg x x, BitVec.sub_self, BitVec.zero_add]
        rw [this]; rfl
      have h2 : bs[(x - (x + 1)).toNat]? = none := by
        rw [h1, List.getElem?_eq_none]; omega
      rw [h2]
      simp [writeLE]
    · have h0 : (x - a).toNat ≠ 0 := by
        intro h0
        apply hx
        have : x - a = 0 := BitVec.eq_of_toNat_eq h0
        have h3 : x - a + a = x := BitVec.sub_add_cancel x a
        rw [this] at h3
        simpa using h3.symm
      have h1 : (x - (a + 1)).toNat = (x - a).toNat - 1 := by
        have e1 : x - (a + 1) = (x - a) - 1 := by
          rw [BitVec.sub_eq_add_neg, BitVec.neg_add, BitVec.sub_eq_add_neg (-a), ← BitVec.add_assoc, ← BitVec.sub_eq_add_neg, ← BitVec.sub_eq_add_neg]
        rw [e1, BitVec.toNat_sub_of_le]
        · rfl
        · exact BitVec.le_def.2 (by rw [show (1 : BitVec 64).toNat = 1 from rfl]; omega)
      obtain ⟨k, hk⟩ : ∃ k, (x - a).toNat = k + 1 := ⟨(x - a).toNat - 1, by omega⟩
      rw [h1, hk]
      simp only [List.getElem?_cons_succ, Nat.add_sub_cancel]
      split
      · rfl
      · simp [writeLE, hk]

theorem after_none {i : Inst} (h : RSpec.writes (.inst i) = none) : after i R v = R := by
  unfold after; rw [h]

/-- an instruction without result register -/
theorem fin_mem {op : IOp} {dst fo so : Option Ope} {m' : Mach}
    (hp : Pre E F D T ev e m0 live ps ⟨op, dst, fo, so⟩ R st st' v t m) (hw : RSpec.writes (.inst ⟨op, dst, fo, so⟩) = none) (h0 : RSpec.branches op = false)
    (h1 : op ≠ .prep) (h2 : op ≠ .starg) (h3 : op ≠ .call) (h4 : op ≠ .clean) (h5 : op ≠ .stret)
    (hr : run env m cs = .next m') (hout : st'.out = st.out) (hret : st'.ret = st.ret)
    (hk : ∀ u r, live u → callerAt u = .ok r → m'.regs r = m.regs r)
    (hf : ∀ r, r = .sp ∨ r = .bp ∨ r ∈ sysvKept → m'.regs r = m.regs r)
    (hpv : ∀ a, Priv E.bp F D T a → m'.mem a = m.mem a) (hn : ∀ a, ¬ Priv E.bp F D T a → m'.mem a = st'.mem a)
    (harg : op = .ldarg → ∀ k r, sysvArg k = some r → m'.regs r = m.regs r) :
    Follows env E F D T ev e m0 live ps ⟨op, dst, fo, so⟩ R st st' v t m m' cs where
  run := by
    have : RSpec.target (.inst ⟨op, dst, fo, so⟩) = none := by
      unfold RSpec.target
      split
      · rename_i heq
        cases heq
        rw [h0]; rfl
      · rfl
    rw [hr]
    simp only [goes, this]
  core := by
    rw [prepAfter_keep h1 h2 h3 h4]
    exact hp.core.step hp.room hout hpv hn (fun r hr => hf r (by rcases hr with h | h | h <;> simp [h]))
  regs := by
    intro u r hu hr'
    rw [after_none hw]
    unfold get
    rw [hk u r hu hr']
    exact hp.regs u r (.inr ⟨hu, by rw [hw]; simp⟩) hr'
  ret := fun h => absurd h h5
  other := fun _ => hret
  jmp := fun h => by have h' : op = .jmp := h; rw [h'] at h0; cases h0
  arg := harg

/-- the address a memory operand denotes, in the machine -/
theorem place_addr {op : IOp} {dst fo so : Option Ope} {o : Ope} {w : Option Val} {a : BitVec 64}
    (hp : Pre E F D T ev e m0 live ps ⟨op, dst, fo, so⟩ R st st' v t m) (hsym : env.sym = E.glob)
    (hrd : ∀ r, o = .ptr r → r ∈ RSpec.reads (.inst ⟨op, dst, fo, so⟩)) (hw : ∀ r, o = .ptr r → w = some (R r))
    (h : IMach.place E (some o) w = some a) :
    ∃ x, memAddr env m x = some a ∧ ((∃ k, o = .mem k ∧ x = .mem k) ∨ (∃ n, o = .label n ∧ x = .label n) ∨
      ∃ r q, o = .ptr r ∧ callerAt r = .ok q ∧ x = .ptr q ∧ IMach.asPtr (R r) = some a) := by
  cases o with
  | mem k =>
    simp only [IMach.place, Option.some.injEq] at h
    refine ⟨.mem k, ?_, .inl ⟨k, rfl, rfl⟩⟩
    simp only [memAddr, slot, hp.core.bp, ← h, subInt]
    rfl
  | label n =>
    simp only [IMach.place, Option.some.injEq] at h
    exact ⟨.label n, by simp [memAddr, hsym, h], .inr (.inl ⟨n, rfl, rfl⟩)⟩
  | ptr r =>
    have hw' := hw r rfl
    subst hw'
    obtain ⟨q, hq⟩ := callerAt_ex (hp.small r (.inl (hrd r rfl)))
    have hr := hp.regs r q (.inl (hrd r rfl)) hq
    simp only [IMach.place] at h
    refine ⟨.ptr q, ?_, .inr (.inr ⟨r, q, rfl, hq, rfl, h⟩)⟩
    simp only [memAddr]
    unfold IMach.asPtr at h
    split at h
    · rename_i b hb
      cases h
      rw [hb] at hr
      have hr : get m q .quad = a := hr
      rw [← hr]
      simp [get, Sfx.bits]
    · cases h
  | _ => cases w <;> cases h

theorem execI_load {ds : Sfx} {d : Int} {du : Bool} {o : Ope} {so : Option Ope}
    (h : execI E ⟨.load, some (.reg ds d du), some o, so⟩ R st = some (st', v, t)) :
    ds ≠ .none ∧ ∃ b, IMach.fetch E st.mem (some o) (rv R (some o)) ds = some b ∧ st' = st ∧ v = ⟨ds, b⟩ := by
  change IMach.exec E .load (some (.reg ds 0 du)) (RSpec.eraseOpe (some o)) (RSpec.eraseOpe so) (rv R (some o)) (rv R so) none st = _ at h
  simp only [IMach.exec, IMach.result, Sim.fetch_erase] at h
  split at h
  · cases h
  · rename_i hd
    obtain ⟨b, hb, h⟩ := Option.map_eq_some_iff.1 h
    cases h
    exact ⟨hd, b, hb, rfl, rfl⟩

/-- a value set in the destination register -/
theorem fin_set {op : IOp} {ds : Sfx} {d : Int} {du : Bool} {fo so : Option Ope} {dr : Reg} {b : BitVec ds.bits}
    (hp : Pre E F D T ev e m0 live ps ⟨op, some (.reg ds d du), fo, so⟩ R st st' v t m)
    (h1 : op ≠ .prep) (h2 : op ≠ .starg) (h3 : op ≠ .call) (h4 : op ≠ .clean) (h5 : op ≠ .stret) (h6 : op ≠ .jmp) (h7 : op ≠ .ldarg)
    (hdr : callerAt d = .ok dr) (hs : st' = st) (hr : run env m cs = .next (set m dr ds b)) (hv : v = ⟨ds, b⟩) :
    Follows env E F D T ev e m0 live ps ⟨op, some (.reg ds d du), fo, so⟩ R st st' v t m (set m dr ds b) cs := by
  refine fin_reg hp h1 h2 h3 h4 h5 h6 h7 hdr hs hr ?_ ?_ ?_ rfl
  · subst hv
    exact get_set_same _ _ _ _
  · intro u r hu hud hr'
    exact get_set_ne _ _ _ _ _ _ (by rintro rfl; exact hud (callerAt_inj hr' hdr))
  · intro r hr'
    exact regs_set_ne _ _ _ _ _ (caller_fixed hdr (by rcases hr' with h | h | h <;> simp [h]))

theorem may_bytes {o : Ope} {a : BitVec 64} {n j : Nat} (h : IMach.may E (some o) a n = true) (ho : ∀ k, o ≠ .mem k) (hj : j < n) :
    E.ok (a + BitVec.ofNat 64 j) = true := by
  unfold IMach.may at h
  split at h
  · rename_i k e
    cases e
    exact absurd rfl (ho k)
  · exact List.all_eq_true.1 h j (List.mem_range.2 hj)

theorem follows_load {qs : List Liveseq} {k k' n : Nat} {ds : Sfx} {d : Int} {du : Bool} {o : Ope} {so : Option Ope}
    (hp : Pre E F D T ev e m0 live ps ⟨.load, some (.reg ds d du), some o, so⟩ R st st' v t m)
    (hg : genInst qs k ⟨.load, some (.reg ds d du), some o, so⟩ = .ok (cs, k')) (hsym : env.sym = E.glob)
    (hD : D < 2 ^ 62) (hT : T < 2 ^ 62) (hF : F ≤ D) (hn : n ≤ F)
    (hok : ∀ a, E.ok a = true → ¬ Priv E.bp F D T a)
    (h1 : LitLoads ds o) (h2 : ¬ Widens true o ds) (h3 : InFrame n ds.nbytes (some o)) :
    ∃ m', Follows env E F D T ev e m0 live ps ⟨.load, some (.reg ds d du), some o, so⟩ R st st' v t m m' cs := by
  obtain ⟨hds, b, hb, hst, hv⟩ := execI_load hp.exec
  obtain ⟨dr, hdr⟩ := callerAt_ex (hp.small d (.inr rfl))
  unfold IMach.fetch at hb
  -- operands in memory
  have hmem : ∀ a, IMach.place E (some o) (rv R (some o)) = some a →
      (∀ x, memAddr env m x = some a → ((∃ k, o = .mem k ∧ x = .mem k) ∨ (∃ n, o = .label n ∧ x = .label n) ∨
        ∃ r q, o = .ptr r ∧ callerAt r = .ok q ∧ x = .ptr q ∧ IMach.asPtr (R r) = some a) → genLoad ⟨.load, some (.reg ds d du), some o, so⟩ = .ok [i2 .mov x (.reg ds dr)]) →
      ∃ m', Follows env E F D T ev e m0 live ps ⟨.load, some (.reg ds d du), some o, so⟩ R st st' v t m m' cs := by
    intro a ha hgen
    obtain ⟨x, hx, hc⟩ := place_addr hp hsym (fun r h => by subst h; simp [RSpec.reads, RSpec.opeRegs]) (fun r h => by subst h; rfl) ha
    have hg1 := hgen x hx hc
    obtain rfl := keep_out hg hg1
    refine ⟨_, fin_set hp (by decide) (by decide) (by decide) (by decide) (by decide) (by decide) (by decide) hdr hst
      (run_one (step_load_any env m hx (caller_good hdr hds))) ?_⟩
    rw [hv]
    rw [ha] at hb
    simp only [Option.ite_none_right_eq_some, Option.some.injEq] at hb
    obtain ⟨hm, hb⟩ := hb
    rw [← hb, read_rel (P := Priv E.bp F D T) ?_ hp.core.mem]
    intro j hj
    rcases hc with ⟨k, rfl, rfl⟩ | ⟨l, rfl, rfl⟩ | ⟨r, q, rfl, hq, rfl, hr⟩
    · simp only [IMach.place, Option.some.injEq] at ha
      subst ha
      exact local_free hD hT hF hn (h3 k rfl) hj
    · simp only [IMach.place, Option.some.injEq] at ha
      subst ha
      exact hok _ (may_bytes hm nofun hj)
    · exact hok _ (may_bytes hm nofun hj)
  cases o with
  | mem q =>
    refine hmem _ rfl ?_
    rintro x - (⟨k, hk, rfl⟩ | ⟨l, hk, rfl⟩ | ⟨r, q, hk, hq, rfl, -⟩) <;> cases hk
    simp [genLoad, deref, sfxOf, physReg_ok hdr]
  | label q =>
    refine hmem _ rfl ?_
    rintro x - (⟨k, hk, rfl⟩ | ⟨l, hk, rfl⟩ | ⟨r, q, hk, hq, rfl, -⟩) <;> cases hk
    simp [genLoad, deref, sfxOf, physReg_ok hdr]
  | ptr q =>
    cases hpl : IMach.place E (some (.ptr q)) (rv R (some (.ptr q))) with
    | none => rw [hpl] at hb; cases hb
    | some a =>
      refine hmem a hpl ?_
      rintro x - (⟨k, hk, rfl⟩ | ⟨l, hk, rfl⟩ | ⟨r, q, hk, hq, rfl, -⟩) <;> cases hk
      simp [genLoad, deref, sfxOf, physReg_ok hdr, physReg, regField, hq, hdr]
  | int s l =>
    have hb : IMach.src (some (.int s l)) (rv R (some (.int s l))) ds = some b := hb
    simp only [IMach.src] at hb
    split at hb
    · cases hb
      have hg1 : genLoad ⟨.load, some (.reg ds d du), some (.int s l), so⟩ = .ok [i2 .mov (.int ds l) (.reg ds dr)] := by
        simp [genLoad, deref, sfxOf, physReg_ok hdr]
      obtain rfl := keep_out hg hg1
      exact ⟨_, fin_set hp (by decide) (by decide) (by decide) (by decide) (by decide) (by decide) (by decide) hdr hst
        (run_one (step_mov_ir env m (caller_good hdr hds) h1)) hv⟩
    · cases hb
  | reg ss f u =>
    have hb : IMach.src (some (.reg ss f u)) (rv R (some (.reg ss f u))) ds = some b := hb
    have hf := hp.small f (.inl (by simp [RSpec.reads, RSpec.opeRegs]))
    obtain ⟨fr, hfr⟩ := callerAt_ex hf
    obtain ⟨h4, hss, -⟩ := src_opVal (o := .reg ss f u) hp.regs (fun s u k e => by
      cases e
      exact ⟨.inl (by simp [RSpec.reads, RSpec.opeRegs]), hf⟩) hb
    have hss : ss ≠ .none := hss
    rw [opVal_reg hfr hss] at h4
    have hg1 : genLoad ⟨.load, some (.reg ds d du), some (.reg ss f u), so⟩ = .ok (appendMov ss fr ds dr u) := by
      simp [genLoad, deref, sfxOf, physReg_ok hdr, physReg_ok hfr]
    obtain rfl := keep_out hg hg1
    obtain ⟨m', g1, g2, g3, g4, -⟩ := appendMov_run env m ss ds fr dr u (caller_good hfr hss) (caller_good hdr hds) (caller_good hfr hds) (badExt_of h2)
    refine ⟨m', fin_reg hp (by decide) (by decide) (by decide) (by decide) (by decide) (by decide) (by decide) hdr hst g1 ?_ ?_ ?_ g4⟩
    · subst hv
      show get m' dr ds = b
      rw [g2]
      exact Option.some.inj h4
    · intro u' r hu hud hr
      unfold get
      rw [g3 r (by rintro rfl; exact hud (callerAt_inj hr hdr)) (fun _ => (caller_ok hr).1)]
    · intro r hr
      have hr' : r = .sp ∨ r = .bp ∨ r ∈ sysvKept := by rcases hr with h | h | h <;> simp [h]
      exact g3 r (caller_fixed hdr hr') (fun _ => ax_fixed hr')
  | _ =>
    have hg1 : genInst qs k ⟨.load, some (.reg ds d du), some _, so⟩ = .ok (cs, k') := hg
    simp [genInst, keep, genLoad, deref, physReg_ok hdr] at hg1

theorem follows_addr {qs : List Liveseq} {k k' : Nat} {dst so : Option Ope} {o : Ope}
    (hp : Pre E F D T ev e m0 live ps ⟨.addr, dst, some o, so⟩ R st st' v t m)
    (hg : genInst qs k ⟨.addr, dst, some o, so⟩ = .ok (cs, k')) (hsym : env.sym = E.glob) (h : ∀ r, o ≠ .ptr r) :
    ∃ m', Follows env E F D T ev e m0 live ps ⟨.addr, dst, some o, so⟩ R st st' v t m m' cs := by
  have hx := hp.exec
  rcases dst with _ | dst
  · cases hx
  cases dst with
  | reg ds d du =>
    change IMach.exec E .addr (some (.reg ds 0 du)) (RSpec.eraseOpe (some o)) (RSpec.eraseOpe so) (rv R (some o)) (rv R so) none st = _ at hx
    cases ds with
    | quad =>
      simp only [IMach.exec, IMach.result, Sim.place_erase] at hx
      obtain ⟨a, ha, hx⟩ := Option.map_eq_some_iff.1 hx
      cases hx
      obtain ⟨dr, hdr⟩ := callerAt_ex (hp.small d (.inr rfl))
      obtain ⟨x, hx, hc⟩ := place_addr hp hsym (fun r h => by subst h; simp [RSpec.reads, RSpec.opeRegs]) (fun r h => by subst h; rfl) ha
      have hg1 : genAddr ⟨.addr, some (.reg .quad d du), some o, so⟩ = .ok [i2 .lea x (.reg .quad dr)] := by
        rcases hc with ⟨k, rfl, rfl⟩ | ⟨l, rfl, rfl⟩ | ⟨r, q, rfl, -⟩
        · simp [genAddr, deref, sfxOf, physReg_ok hdr]
        · simp [genAddr, deref, sfxOf, physReg_ok hdr]
        · exact absurd rfl (h r)
      obtain rfl := keep_out hg hg1
      exact ⟨_, fin_set hp (by decide) (by decide) (by decide) (by decide) (by decide) (by decide) (by decide) hdr rfl
        (run_one (step_lea env m hx)) rfl⟩
    | _ => cases hx
  | _ => cases hx

/-- the source of a store, return or argument, in the machine -/
theorem own_src {op : IOp} {dst so : Option Ope} {o : Ope} {b : BitVec (IMach.width (some o)).bits}
    (hp : Pre E F D T ev e m0 live ps ⟨op, dst, some o, so⟩ R st st' v t m)
    (hb : IMach.src (some o) (rv R (some o)) (IMach.width (some o)) = some b) :
    (∃ s l, o = .int s l ∧ s ≠ .none) ∨ (∃ s f u r, o = .reg s f u ∧ s ≠ .none ∧ callerAt f = .ok r ∧ (R f).1 = s ∧ HEq b (get m r s)) := by
  cases o with
  | int s l =>
    simp only [IMach.src] at hb
    split at hb
    · rename_i hs
      exact .inl ⟨s, l, rfl, hs⟩
    · cases hb
  | reg s f u =>
    have hf := hp.small f (.inl (by simp [RSpec.reads, RSpec.opeRegs]))
    obtain ⟨fr, hfr⟩ := callerAt_ex hf
    obtain ⟨h4, hss, h5⟩ := src_opVal (o := .reg s f u) hp.regs (fun s u k e => by
      cases e
      exact ⟨.inl (by simp [RSpec.reads, RSpec.opeRegs]), hf⟩) hb
    have hss : s ≠ .none := hss
    rw [opVal_reg hfr hss] at h4
    have h6 : conv u (get m fr s) s.bits = b := Option.some.inj h4
    rw [conv_self] at h6
    exact .inr ⟨s, f, u, fr, rfl, hss, hfr, h5 s f u rfl, heq_of_eq h6.symm⟩
  | _ => cases hb

theorem follows_store {qs : List Liveseq} {k k' n : Nat} {dst so : Option Ope} {o : Ope}
    (hp : Pre E F D T ev e m0 live ps ⟨.store, dst, some o, so⟩ R st st' v t m)
    (hg : genInst qs k ⟨.store, dst, some o, so⟩ = .ok (cs, k')) (hsym : env.sym = E.glob)
    (hD : D < 2 ^ 62) (hT : T < 2 ^ 62) (hF : F ≤ D) (hn : n ≤ F)
    (hok : ∀ a, E.ok a = true → ¬ Priv E.bp F D T a)
    (h1 : LitFits (IMach.width (some o)) o) (h3 : InFrame n (IMach.width (some o)).nbytes dst) :
    ∃ m', Follows env E F D T ev e m0 live ps ⟨.store, dst, some o, so⟩ R st st' v t m m' cs := by
  obtain ⟨a, b, ha, hb, hm, hst⟩ := execI_store hp.exec
  rcases dst with _ | dst
  · cases ha
  obtain ⟨x, hx, hc⟩ := place_addr hp hsym (o := dst) (fun r h => by subst h; simp [RSpec.reads]) (fun r h => by subst h; rfl) ha
  have hw : RSpec.writes (.inst ⟨.store, some dst, some o, so⟩) = none := by
    rcases hc with ⟨k, rfl, -⟩ | ⟨l, rfl, -⟩ | ⟨r, q, rfl, -⟩ <;> rfl
  have hfree : ∀ j, j < (IMach.width (some o)).nbytes → ¬ Priv E.bp F D T (a + BitVec.ofNat 64 j) := by
    intro j hj
    rcases hc with ⟨k, rfl, -⟩ | ⟨l, rfl, -⟩ | ⟨r, q, rfl, hq, -, hr⟩
    · simp only [IMach.place, Option.some.injEq] at ha
      subst ha
      exact local_free hD hT hF hn (h3 k rfl) hj
    · simp only [IMach.place, Option.some.injEq] at ha
      subst ha
      exact hok _ (may_bytes hm nofun hj)
    · exact hok _ (may_bytes hm nofun hj)
  have hd : ∀ src, (match dst with
      | .ptr _ => do let (r, _) ← physReg dst; pure (.ptr r)
      | .mem off => pure (.mem off)
      | .label n => pure (.label n)
      | _ => .fatal : Out XOpe) >>= src = (src x : Out (List XInst)) := by
    intro src
    rcases hc with ⟨k, rfl, rfl⟩ | ⟨l, rfl, rfl⟩ | ⟨r, q, rfl, hq, rfl, hr⟩
    · rfl
    · rfl
    · simp [physReg, regField, hq]
  have main : ∀ (b' : BitVec (IMach.width (some o)).bits), run env m cs = .next (store m a (IMach.width (some o)) b') → b' = b →
      ∃ m', Follows env E F D T ev e m0 live ps ⟨.store, some dst, some o, so⟩ R st st' v t m m' cs := by
    rintro b' hr rfl
    obtain ⟨w1, w2⟩ := write_rel (m := m) (b := b') hfree hp.core.mem
    refine ⟨_, fin_mem hp hw rfl (by decide) (by decide) (by decide) (by decide) (by decide) hr ?_ ?_ ?_ ?_ w1 ?_ (fun h => by cases h)⟩
    · rw [hst]
    · rw [hst]
    · intro u r hu hr'; rfl
    · intro r hr'; rfl
    · rw [hst]; exact w2
  rcases own_src hp hb with ⟨s, l, rfl, hs⟩ | ⟨s, f, u, r, rfl, hs, hfr, -, hbr⟩
  · have hg1 : genStore ⟨.store, some dst, some (.int s l), so⟩ = .ok [i2 .mov (.int s l) x] := by
      simp only [genStore, deref, Out.ok_bind]
      exact hd _
    obtain rfl := keep_out hg hg1
    refine main _ (run_one (step_storei_any env m hx hs h1)) ?_
    simp only [IMach.src, hs, ne_eq, not_false_eq_true, if_true, Option.some.injEq] at hb
    exact hb
  · have hg1 : genStore ⟨.store, some dst, some (.reg s f u), so⟩ = .ok [i2 .mov (.reg s r) x] := by
      simp only [genStore, deref, Out.ok_bind, physReg_ok hfr]
      exact hd _
    obtain rfl := keep_out hg hg1
    exact main _ (run_one (step_store_any env m hx (caller_good hfr hs))) (eq_of_heq hbr).symm

end X86
end Umlcc
