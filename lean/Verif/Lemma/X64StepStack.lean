import Verif.Lemma.X64StepMem
/-!
Helper lemmas: strings, arguments, return values and the stack around calls.
-/
namespace Umlcc
namespace X86
open X64 ISem
open IMach (Val)
open Sim (rv pv upd)

variable {W : Type}
variable {env : Env} {E : IMach.Env W} {F D T ev : Nat} {e m0 : Mach} {live : Int → Prop} {ps : List Prep} {R : Int → Val}
  {st st' : IMach.St W} {v : Val} {t : Bool} {m : Mach} {cs : List XInst}

theorem caller_of_live {u : Int} {r : Reg} {l : Int → Prop} (hl : l u) (hr : callerAt u = .ok r) (h6 : ¬ l 6) : r ≠ .r10 := by
  rintro rfl
  have : u = 6 := callerAt_inj hr (show callerAt 6 = .ok .r10 from rfl)
  subst this
  exact h6 hl

theorem follows_str {qs : List Liveseq} {k k' n : Nat} {off : Int} {bs : List UInt8} {so : Option Ope}
    (hp : Pre E F D T ev e m0 live ps ⟨.str, some (.mem off), some (.str bs), so⟩ R st st' v t m)
    (hg : genInst qs k ⟨.str, some (.mem off), some (.str bs), so⟩ = .ok (cs, k'))
    (hD : D < 2 ^ 62) (hT : T < 2 ^ 62) (hF : F ≤ D) (hn : n ≤ F)
    (h1 : ∀ c ∈ bs, c.toNat < 128) (h2 : bs.length % 8 = 0 ∨ bs.length % 8 = 1 ∨ bs.length % 8 = 2 ∨ bs.length % 8 = 4)
    (h3 : (bs.length : Int) ≤ off) (h4 : off ≤ n) (h5 : ¬ live 6) :
    ∃ m', Follows env E F D T ev e m0 live ps ⟨.str, some (.mem off), some (.str bs), so⟩ R st st' v t m m' cs := by
  have hx := hp.exec
  change IMach.exec E .str (some (.mem off)) (some (.str bs)) (RSpec.eraseOpe so) none (rv R so) none st = _ at hx
  simp only [IMach.exec, IMach.place] at hx
  cases hx
  obtain ⟨cs', m', g1, g2, g3, g4⟩ := genStr_run env m bs off (snd := so) (by omega) h1 h2
  obtain rfl := keep_out hg g1
  have hfree : ∀ x, bs[(x - rel64 E.bp (-off)).toNat]? ≠ none → ¬ Priv E.bp F D T x := by
    intro x hx
    have hlt : (x - rel64 E.bp (-off)).toNat < bs.length := by
      rcases Nat.lt_or_ge (x - rel64 E.bp (-off)).toNat bs.length with h | h
      · exact h
      · exact absurd (List.getElem?_eq_none h) hx
    obtain ⟨j, hj, rfl⟩ := byte_at hlt
    rw [← subInt]
    exact local_free hD hT hF hn ⟨h3, h4⟩ hj
  rw [hp.core.bp] at g3
  refine ⟨m', fin_mem hp rfl rfl (by decide) (by decide) (by decide) (by decide) (by decide) g2 rfl rfl ?_ ?_ ?_ ?_ (fun h => (by cases h))⟩
  · intro u r hu hr
    exact g4 r (caller_of_live hu hr h5)
  · intro r hr; exact g4 r (r10_fixed hr)
  · intro x hx
    rw [g3]
    simp only [putBytes]
    split
    · rename_i c hc
      exact absurd hx (hfree x (by rw [hc]; simp))
    · rfl
  · intro x hx
    rw [g3, subInt, writeBytes_eq _ _ _ (by omega)]
    simp only [putBytes]
    split
    · rfl
    · exact hp.core.mem x hx

theorem follows_ldarg {qs : List Liveseq} {k k' n nargs : Nat} {off : Int} {s : Sfx} {j : Int} {u : Bool} {so : Option Ope}
    (hp : Pre E F D T ev e m0 live ps ⟨.ldarg, some (.mem off), some (.arg s j u), so⟩ R st st' v t m)
    (hg : genInst qs k ⟨.ldarg, some (.mem off), some (.arg s j u), so⟩ = .ok (cs, k'))
    (hD : D < 2 ^ 62) (hT : T < 2 ^ 62) (hF : F ≤ D) (hn : n ≤ F)
    (harg : ∀ (k : Nat) (w : Val), k < nargs → E.args[k]? = some w → (∀ r, sysvArg k = some r → (m.regs r).setWidth w.1.bits = w.2) ∧
      (6 ≤ k → (load m (rel64 E.bp (16 + 8 * (k - 6 : Nat))) .quad).setWidth w.1.bits = w.2))
    (h3 : (s.nbytes : Int) ≤ off) (h4 : off ≤ n) (h5 : j < nargs) (h6 : 6 ≤ j → ¬ live 6) :
    ∃ m', Follows env E F D T ev e m0 live ps ⟨.ldarg, some (.mem off), some (.arg s j u), so⟩ R st st' v t m m' cs := by
  have hx := hp.exec
  change IMach.exec E .ldarg (some (.mem off)) (some (.arg s j u)) (RSpec.eraseOpe so) none (rv R so) none st = _ at hx
  simp only [IMach.exec, IMach.place] at hx
  split at hx
  · rename_i w hw
    split at hx
    · rename_i hc
      obtain ⟨hws, hs, hj⟩ := hc
      obtain ⟨ws, wb⟩ := w
      simp only at hws
      subst hws
      cases hx
      obtain ⟨k, rfl⟩ : ∃ k : Nat, j = k := ⟨j.toNat, by omega⟩
      have hw' : E.args[k]? = some ⟨ws, wb⟩ := hw
      obtain ⟨a1, a2⟩ := harg k ⟨ws, wb⟩ (by omega) hw'
      simp only at a1 a2
      have hslot : slot m off = E.bp - BitVec.ofInt 64 off := by rw [slot, hp.core.bp, subInt]; rfl
      have hfree : ∀ i, i < ws.nbytes → ¬ Priv E.bp F D T (E.bp - BitVec.ofInt 64 off + BitVec.ofNat 64 i) :=
        fun i hi => local_free hD hT hF hn ⟨h3, h4⟩ hi
      by_cases hk : k < 6
      · obtain ⟨r, ha, hsv, hmem, hr10⟩ := argRegs_sysv k hk
        have hgood : GoodReg ws r := ⟨hs, by intro _ e; rw [e] at hmem; revert hmem; decide⟩
        have hg1 : genLdarg ⟨.ldarg, some (.mem off), some (.arg ws k u), so⟩ = .ok [i2 .mov (.reg ws r) (.mem off)] := by
          simp [genLdarg, deref, sfxOf, regField, ha]
          omega
        obtain rfl := keep_out hg hg1
        have hv : get m r ws = wb := a1 r hsv
        have hrun := run_one (step_store_mem env m (off := off) hgood)
        rw [hv, hslot] at hrun
        obtain ⟨w1, w2⟩ := write_rel (m := m) (b := wb) hfree hp.core.mem
        exact ⟨_, fin_mem hp rfl rfl (by decide) (by decide) (by decide) (by decide) (by decide) hrun rfl rfl
          (fun _ _ _ _ => rfl) (fun _ _ => rfl) w1 w2 (fun _ _ _ _ => rfl)⟩
      · have hgood : GoodReg ws .r10 := ⟨hs, by simp⟩
        have e1 : (-((k : Int) - 6 + 1) * 8 - 8) = -(16 + 8 * (k - 6)) := by omega
        have hld := step_load_mem env m (s := ws) (off := -((k : Int) - 6 + 1) * 8 - 8) hgood
        have hv : load m (slot m (-((k : Int) - 6 + 1) * 8 - 8)) ws = wb := by
          rw [slot, hp.core.bp, e1, Int.neg_neg]
          show load m (rel64 E.bp (16 + 8 * (k - 6))) ws = _
          have := a2 (by omega)
          rw [load_low _ _ _ hs, ← this]
          congr 4
          omega
        rw [hv] at hld
        have hst := step_store_mem env (set m .r10 ws wb) (off := off) hgood
        have hslot' : slot (set m .r10 ws wb) off = E.bp - BitVec.ofInt 64 off := by
          rw [slot, regs_set_ne _ _ _ _ _ (by decide), ← hslot]; rfl
        rw [get_set_same, hslot'] at hst
        have hg1 : genLdarg ⟨.ldarg, some (.mem off), some (.arg ws k u), so⟩ =
            .ok [i2 .mov (.mem (-((k : Int) - 6 + 1) * 8 - 8)) (.reg ws .r10), i2 .mov (.reg ws .r10) (.mem off)] := by
          have : ¬ ((k : Int) < 6) := by omega
          simp [genLdarg, deref, sfxOf, regField, this, tmpReg]
        obtain rfl := keep_out hg hg1
        obtain ⟨w1, w2⟩ := write_rel (m := set m .r10 ws wb) (b := wb) hfree hp.core.mem
        refine ⟨_, fin_mem hp rfl rfl (by decide) (by decide) (by decide) (by decide) (by decide) (by simp only [run, hld, hst]) rfl rfl
          ?_ ?_ w1 w2 ?_⟩
        · intro u' r hu hr
          rw [regs_store, regs_set_ne _ _ _ _ _ (caller_of_live hu hr (h6 (by omega)))]
        · intro r hr
          rw [regs_store, regs_set_ne _ _ _ _ _ (r10_fixed hr)]
        · intro _ q r hr
          rw [regs_store, regs_set_ne]
          rintro rfl
          rcases Nat.lt_or_ge q 6 with h | h
          · obtain ⟨r', _, hr', _, hne⟩ := argRegs_sysv q h
            rw [hr] at hr'
            cases hr'
            exact hne rfl
          · rw [sysvArg_ge q h] at hr
            cases hr
    · cases hx
  · cases hx

theorem follows_stret {qs : List Liveseq} {k k' : Nat} {o : Ope} {so : Option Ope}
    (hp : Pre E F D T ev e m0 live ps ⟨.stret, none, some o, so⟩ R st st' v t m)
    (hg : genInst qs k ⟨.stret, none, some o, so⟩ = .ok (cs, k')) (h1 : LitLoads (IMach.width (some o)) o) :
    ∃ m', Follows env E F D T ev e m0 live ps ⟨.stret, none, some o, so⟩ R st st' v t m m' cs := by
  obtain ⟨b, hb, hst⟩ := execI_stret hp.exec
  have main : ∀ m', run env m cs = .next m' → get m' .ax (IMach.width (some o)) = b → (∀ r, r ≠ .ax → m'.regs r = m.regs r) → m'.mem = m.mem →
      ∃ m', Follows env E F D T ev e m0 live ps ⟨.stret, none, some o, so⟩ R st st' v t m m' cs := by
    intro m' hr hax hk hm
    refine ⟨m', hr, ?_, ?_, ?_, fun h => absurd rfl h, fun h => (by cases h), fun h => (by cases h)⟩
    · rw [prepAfter_keep (by decide) (by decide) (by decide) (by decide)]
      refine hp.core.step hp.room (by rw [hst]) (fun a _ => by rw [hm]) (fun a ha => by rw [hm, hst]; exact hp.core.mem a ha) ?_
      intro r hr'
      exact hk r (ax_fixed (by rcases hr' with h | h | h <;> simp [h]))
    · intro u r hu hr'
      rw [after_none rfl]
      unfold get
      rw [hk r (caller_ok hr').1]
      exact hp.regs u r (.inr ⟨hu, by simp [RSpec.writes]⟩) hr'
    · intro _ w hw
      rw [hst] at hw
      cases hw
      exact hax
  rcases own_src hp hb with ⟨s, l, rfl, hs⟩ | ⟨s, f, u, r, rfl, hs, hfr, -, hbr⟩
  · have hg1 : genStret ⟨.stret, none, some (.int s l), so⟩ = .ok [i2 .mov (.int s l) (.reg s .ax)] := rfl
    obtain rfl := keep_out hg hg1
    refine main _ (run_one (step_mov_ir env m (ax_good hs) h1)) ?_ (fun r hr => regs_set_ne _ _ _ _ _ hr) rfl
    simp only [IMach.src, hs, ne_eq, not_false_eq_true, if_true, Option.some.injEq] at hb
    rw [← hb]
    exact get_set_same _ _ _ _
  · have hg1 : genStret ⟨.stret, none, some (.reg s f u), so⟩ = .ok (appendMov s r s .ax u) := by
      simp [genStret, deref, sfxOf, physReg_ok hfr]
    obtain rfl := keep_out hg hg1
    obtain ⟨m', g1, g2, g3, g4, -⟩ := appendMov_run env m s s r .ax u (caller_good hfr hs) (ax_good hs) (caller_good hfr hs)
      (by rintro ⟨-, rfl, h⟩; cases h)
    refine main m' g1 ?_ (fun q hq => g3 q hq (fun _ => hq)) g4
    show get m' .ax s = b
    rw [g2, conv_self]
    exact (eq_of_heq hbr).symm

/-- the stack pointer moves, nothing else -/
theorem Core.move {ps' : List Prep} {m' : Mach} (h : Core E F D T ev e m0 ps st m) (hm : m'.mem = m.mem) (hst : st'.mem = st.mem)
    (hr : ∀ r, r ≠ .sp → m'.regs r = m.regs r) (hsp : m'.regs .sp = rel64 E.bp (-(base F ev + heldAll ps' : Nat)))
    (hs : Stacked E.bp (base F ev) m ps' st'.out) : Core E F D T ev e m0 ps' st' m' where
  mem := by intro a ha; rw [hm, hst]; exact h.mem a ha
  bp := by rw [hr _ (by decide)]; exact h.bp
  sp := hsp
  kept := by rw [hm]; exact h.kept
  saved := by
    intro r h1 h2 h3
    rw [hr r (by rintro rfl; simp [sysvKept] at h1)]
    exact h.saved r h1 h2 h3
  stack := stacked_congr (fun x _ _ => by rw [hm]) hs

theorem pad_eq (n k : Nat) (b : Bool) : ((⟨n, k, b⟩ : Prep).pad : Int) = prepPad n := by
  show ((if 6 < n ∧ n % 2 = 1 then 8 else 0 : Nat) : Int) = _
  unfold prepPad
  rw [Int.tmod_eq_emod_of_nonneg (by omega)]
  split <;> split <;> first | rfl | omega

theorem follows_prep {qs : List Liveseq} {k k' : Nat} {s : Sfx} {l : ILit} {so : Option Ope}
    (hp : Pre E F D T ev e m0 live ps ⟨.prep, none, some (.int s l), so⟩ R st st' v t m)
    (hg : genInst qs k ⟨.prep, none, some (.int s l), so⟩ = .ok (cs, k')) (h1 : 0 ≤ l.value) :
    ∃ m', Follows env E F D T ev e m0 live ps ⟨.prep, none, some (.int s l), so⟩ R st st' v t m m' cs := by
  have hx := hp.exec
  simp only [execI, IMach.exec] at hx
  cases hx
  obtain ⟨lt, lv⟩ := l
  obtain ⟨n, rfl⟩ : ∃ n : Nat, lv = n := ⟨lv.toNat, by simp at h1; omega⟩
  obtain ⟨cs', m', g1, g2, g3, g4, g5⟩ := prep_run env m (i := ⟨.prep, none, some (.int s ⟨lt, n⟩), so⟩) rfl
  obtain rfl := keep_out hg g1
  refine ⟨m', g2, ?_, ?_, fun h => (by cases h), fun _ => rfl, fun h => (by cases h), fun h => (by cases h)⟩
  · show Core E F D T ev e m0 (⟨(n : Int).toNat, 0, false⟩ :: ps) _ m'
    refine hp.core.move g5 rfl g4 ?_ ⟨fun _ => ⟨rfl, trivial⟩, hp.core.stack⟩
    rw [g3, hp.core.sp, rel64_rel64]
    congr 1
    have : ((if 6 < n ∧ n % 2 = 1 then 8 else 0 : Nat) : Int) = prepPad n := pad_eq n 0 false
    simp only [heldAll, Prep.held, Int.toNat_natCast, Nat.mul_zero, Nat.add_zero]
    simp only [Bool.false_eq_true, if_false]
    omega
  · intro u r hu hr
    rw [after_none rfl]
    unfold get
    rw [g4 r (caller_ok hr).2.2.1]
    exact hp.regs u r (.inr ⟨hu, by simp [RSpec.writes]⟩) hr

theorem follows_clean {qs : List Liveseq} {k k' : Nat} {s : Sfx} {l : ILit} {so : Option Ope} {p : Prep}
    (hp : Pre E F D T ev e m0 live (p :: ps) ⟨.clean, none, some (.int s l), so⟩ R st st' v t m)
    (hg : genInst qs k ⟨.clean, none, some (.int s l), so⟩ = .ok (cs, k')) (h1 : p.called = true) (h2 : l.value = p.n) (h3 : p.n < 2 ^ 27) :
    ∃ m', Follows env E F D T ev e m0 live (p :: ps) ⟨.clean, none, some (.int s l), so⟩ R st st' v t m m' cs := by
  have hx := hp.exec
  simp only [execI, IMach.exec] at hx
  split at hx
  · rename_i ys rest ho
    cases hx
    obtain ⟨lt, lv⟩ := l
    simp only at h2
    subst h2
    obtain ⟨cs', m', g1, g2, g3, g4, g5⟩ := clean_run env m (i := ⟨.clean, none, some (.int s ⟨lt, p.n⟩), so⟩) rfl (by omega)
    obtain rfl := keep_out hg g1
    refine ⟨m', g2, ?_, ?_, fun h => (by cases h), fun _ => rfl, fun h => (by cases h), fun h => (by cases h)⟩
    · show Core E F D T ev e m0 ps _ m'
      refine hp.core.move g5 rfl g4 ?_ ?_
      · rw [g3, hp.core.sp, rel64_rel64]
        congr 1
        simp only [heldAll, Prep.held, h1, if_true]
        unfold leftover
        by_cases h6 : 6 < p.n
        · rw [if_pos h6, if_pos (by omega), Int.tdiv_eq_ediv_of_nonneg (by omega)]
          omega
        · rw [if_neg h6, if_neg (by omega)]
          omega
      · have := hp.core.stack
        rw [ho] at this
        exact this.2
    · intro u r hu hr
      rw [after_none rfl]
      unfold get
      rw [g4 r (caller_ok hr).2.2.1]
      exact hp.regs u r (.inr ⟨hu, by simp [RSpec.writes]⟩) hr
  · cases hx

theorem setWidth_ofInt {n : Nat} (x : Int) (h : n ≤ 64) : (BitVec.ofInt 64 x).setWidth n = BitVec.ofInt n x := by
  apply BitVec.eq_of_toInt_eq
  rw [BitVec.toInt_setWidth, BitVec.toInt_ofInt]
  have h2 : ((BitVec.ofInt 64 x).toNat : Int) = x % 2 ^ 64 := by
    rw [BitVec.toNat_ofInt]
    have : (0 : Int) ≤ x % 2 ^ 64 := Int.emod_nonneg _ (by decide)
    omega
  rw [h2]
  have h3 : (2 : Int) ^ n ∣ 2 ^ 64 := ⟨2 ^ (64 - n), by rw [← Int.pow_add]; congr 1; omega⟩
  unfold Int.bmod
  rw [show (((2 ^ n : Nat) : Int)) = (2 : Int) ^ n by simp, Int.emod_emod_of_dvd _ h3]

/-- a push leaves the bytes outside its slot alone -/
theorem push_mem_rel {bp : BitVec 64} {x y : Int} (m : Mach) (v : BitVec 64) (hsp : m.regs .sp = rel64 bp (y + 8)) (hx : -2 ^ 62 ≤ x ∧ x < 2 ^ 62)
    (hy : -2 ^ 62 ≤ y ∧ y < 2 ^ 61) (h : x < y ∨ y + 8 ≤ x) : (push m v).mem (rel64 bp x) = m.mem (rel64 bp x) := by
  apply push_mem_far
  rw [hsp, rel64_rel64, show y + 8 + -8 = y from by omega]
  rcases Nat.lt_or_ge (rel64 bp x - rel64 bp y).toNat 8 with h8 | h8
  · obtain ⟨k, hk, e⟩ := byte_at h8
    rw [addNat, rel64_rel64] at e
    have := rel64_ofInt_inj e (by omega) (by omega)
    omega
  · exact h8

theorem push_mem_free {bp : BitVec 64} {y : Int} (m : Mach) (v : BitVec 64) (hsp : m.regs .sp = rel64 bp (y + 8)) (h : -(D : Int) ≤ y ∧ y + 8 ≤ -(F : Int))
    {a : BitVec 64} (ha : ¬ Priv bp F D T a) : (push m v).mem a = m.mem a := by
  apply push_mem_far
  rw [hsp, rel64_rel64, show y + 8 + -8 = y from by omega]
  rcases Nat.lt_or_ge (a - rel64 bp y).toNat 8 with h8 | h8
  · obtain ⟨k, hk, rfl⟩ := byte_at h8
    rw [addNat, rel64_rel64] at ha
    exact absurd (priv_of (by omega)) ha
  · exact h8

theorem heldAll_cons (p : Prep) (ps : List Prep) : heldAll (p :: ps) = p.held + heldAll ps := rfl

theorem held_open (n k : Nat) : (⟨n, k, false⟩ : Prep).held = (⟨n, k, false⟩ : Prep).pad + 8 * k := by simp [Prep.held, Prep.pad]

theorem follows_starg {qs : List Liveseq} {k k' : Nat} {p : Prep} {rest : List Prep} {j : Int} {s : Sfx} {u : Bool} {o : Ope} {so : Option Ope}
    (hp : Pre E F D T ev e m0 live (p :: rest) ⟨.starg, some (.arg s j u), some o, so⟩ R st st' v t m)
    (hg : genInst qs k ⟨.starg, some (.arg s j u), some o, so⟩ = .ok (cs, k'))
    (hD : D < 2 ^ 61) (hT : T < 2 ^ 62) (hroom : base F ev + heldAll (p :: rest) + 8 ≤ D)
    (h1 : p.called = false) (h2 : p.k < p.n) (h3 : j = (p.n - 1 - p.k : Nat)) (h4 : LitFits .quad o) :
    ∃ m', Follows env E F D T ev e m0 live (p :: rest) ⟨.starg, some (.arg s j u), some o, so⟩ R st st' v t m m' cs := by
  obtain ⟨b, xs, g, hb, ho, hj, hst⟩ := execI_starg hp.exec
  obtain ⟨pn, pk, pc⟩ := p
  simp only at h1 h2 h3
  subst h1
  have hstk := hp.core.stack
  rw [ho] at hstk
  obtain ⟨hx, hrest⟩ := hstk
  obtain ⟨hlen, hargs⟩ := hx rfl
  simp only at hlen hargs
  -- the instruction and the value pushed
  have hpush : ∃ x64 : BitVec 64, run env m cs = .next (push m x64) ∧ x64.setWidth (IMach.width (some o)).bits = b := by
    rcases own_src hp hb with ⟨s, l, rfl, hs⟩ | ⟨s, f, u, r, rfl, hs, hfr, -, hbr⟩
    · have hg1 : genStarg ⟨.starg, some (.arg s j u), some (.int s l), so⟩ = .ok [is .push (.int .quad l)] := rfl
      obtain rfl := keep_out hg hg1
      refine ⟨_, run_one (step_pushi env m l h4), ?_⟩
      simp only [IMach.src, hs, ne_eq, not_false_eq_true, if_true, Option.some.injEq] at hb
      rw [← hb]
      exact setWidth_ofInt _ (show s.bits ≤ 64 by cases s <;> decide)
    · have hg1 : genStarg ⟨.starg, some (.arg s j u), some (.reg s f u), so⟩ = .ok [is .push (.reg .quad r)] := by
        simp [genStarg, deref, physReg_ok hfr]
      obtain rfl := keep_out hg hg1
      exact ⟨_, run_one (step_push env m r), (eq_of_heq hbr).symm⟩
  obtain ⟨x64, hrun, hval⟩ := hpush
  have hheld := held_open pn pk
  have hheld' := held_open pn (pk + 1)
  rw [heldAll_cons] at hroom
  have hpad : (⟨pn, pk + 1, false⟩ : Prep).pad = (⟨pn, pk, false⟩ : Prep).pad := rfl
  have hsp : m.regs .sp = rel64 E.bp ((-(base F ev + heldAll (⟨pn, pk, false⟩ :: rest) : Nat) - 8 : Int) + 8) := by
    rw [hp.core.sp]; congr 1; omega
  have hbase : F ≤ base F ev := by unfold base; omega
  have hmem : ∀ x : Int, -2 ^ 62 ≤ x ∧ x < 2 ^ 62 → -(base F ev + heldAll (⟨pn, pk, false⟩ :: rest) : Nat) ≤ x →
      (push m x64).mem (rel64 E.bp x) = m.mem (rel64 E.bp x) := by
    intro x hx hle
    refine push_mem_rel m x64 hsp hx ?_ (by omega)
    rw [heldAll_cons]
    omega
  refine ⟨_, hrun, ?_, ?_, fun h => (by cases h), fun _ => by rw [hst], fun h => (by cases h), fun h => (by cases h)⟩
  · show Core E F D T ev e m0 (⟨pn, pk + 1, false⟩ :: rest) st' _
    refine ⟨?_, ?_, ?_, ?_, ?_, ?_⟩
    · intro a ha
      rw [push_mem_free (F := F) (D := D) (T := T) m x64 hsp (by rw [heldAll_cons]; omega) ha, hst]
      exact hp.core.mem a ha
    · rw [push_regs _ _ _ (by decide)]; exact hp.core.bp
    · rw [push_sp, hp.core.sp, rel64_rel64]
      congr 1
      rw [heldAll_cons, heldAll_cons]
      omega
    · intro x hx
      rw [hmem x (by unfold base at *; omega) (by unfold base at *; omega)]
      exact hp.core.kept x hx
    · intro r h1 h2 h3
      rw [push_regs _ _ _ (by rintro rfl; simp [sysvKept] at h1)]
      exact hp.core.saved r h1 h2 h3
    · rw [hst]
      have hy : (-(base F ev + heldAll rest : Nat) - (⟨pn, pk, false⟩ : Prep).pad : Int) - 8 * (xs.length + 1 : Nat) =
          -(base F ev + heldAll (⟨pn, pk, false⟩ :: rest) : Nat) - 8 := by
        rw [heldAll_cons, hheld, hlen]; omega
      refine ⟨fun _ => ⟨by simp only [List.length_cons, hlen], ⟨?_, ?_, ?_⟩⟩, stacked_congr ?_ hrest⟩
      · simp only [hlen]; omega
      · show (load _ (rel64 _ ((-(base F ev + heldAll rest : Nat) - (⟨pn, pk, false⟩ : Prep).pad : Int) - 8 * (xs.length + 1 : Nat))) .quad).setWidth _ = b
        rw [hy]
        have := push_load_same m x64
        rw [hp.core.sp, rel64_rel64] at this
        rw [show (-((base F ev + heldAll (⟨pn, pk, false⟩ :: rest) : Nat) : Int) - 8) = -((base F ev + heldAll (⟨pn, pk, false⟩ :: rest) : Nat) : Int) + -8 from by omega, this]
        exact hval
      · refine argsAt_congr (fun x hx hx' => hmem x ?_ ?_) hargs
        · simp only [hpad] at hx
          omega
        · rw [heldAll_cons, hheld]
          rw [hlen] at hx
          simp only [hpad] at hx
          omega
      · intro x hx hx'
        refine hmem x (by omega) ?_
        rw [heldAll_cons]; omega
  · intro u' r hu hr
    rw [after_none rfl]
    unfold get
    rw [push_regs _ _ _ (caller_ok hr).2.2.1]
    exact hp.regs u' r (.inr ⟨hu, by simp [RSpec.writes]⟩) hr

/-! ### calls -/

theorem gather_at {xs : List (Nat × Val)} : ∀ {n : Nat} {vs : List Val}, IMach.gather xs n = some vs →
    vs.length = n ∧ ∀ (k : Nat) (v : Val), vs[k]? = some v → xs.lookup k = some v := by
  intro n
  induction n with
  | zero => intro vs h; cases h; exact ⟨rfl, by simp⟩
  | succ n ih =>
    intro vs h
    simp only [IMach.gather] at h
    split at h
    · rename_i vs' v' h1 h2
      cases h
      obtain ⟨i1, i2⟩ := ih h1
      refine ⟨by simp [i1], ?_⟩
      intro k v hk
      rcases Nat.lt_or_ge k vs'.length with h | h
      · rw [List.getElem?_append_left h] at hk
        exact i2 k v hk
      · rw [List.getElem?_append_right h] at hk
        have : k - vs'.length = 0 := by
          rcases Nat.eq_zero_or_pos (k - vs'.length) with h0 | h0
          · exact h0
          · rw [List.getElem?_eq_none (by simp; omega)] at hk
            cases hk
        rw [this] at hk
        cases hk
        rw [show k = n from by omega]
        exact h2
    · cases h

theorem argsAt_lookup {bp : BitVec 64} {n : Nat} {y : Int} : ∀ {xs : List (Nat × Val)}, ArgsAt bp m n y xs → ∀ {j : Nat} {v : Val}, xs.lookup j = some v →
    j < n ∧ (load m (rel64 bp (y - 8 * (n - j : Nat))) .quad).setWidth v.1.bits = v.2 := by
  intro xs
  induction xs with
  | nil => intro _ j v h; simp at h
  | cons a xs ih =>
    obtain ⟨i, w⟩ := a
    intro ⟨h1, h2, h3⟩ j v h
    rw [List.lookup_cons] at h
    split at h
    · rename_i he
      have he : j = i := by simpa using he
      cases h
      subst he
      refine ⟨by omega, ?_⟩
      rw [show n - j = xs.length + 1 from by omega]
      exact h2
    · exact ih h3 h

theorem rel64_mod (b : BitVec 64) (x : Int) : ((rel64 b x).toNat : Int) % 16 = (b.toNat + x) % 16 := by
  unfold rel64
  rw [BitVec.toNat_add, BitVec.toNat_ofInt]
  have : (0 : Int) ≤ x % 2 ^ 64 := Int.emod_nonneg _ (by decide)
  omega

/-- the decomposition of a block around its only call -/
theorem call_unique {a b c d : List XInst} {x y : XInst} (hy : y.op = .call) (ha : ∀ i ∈ a, i.op ≠ .call) (hb : ∀ i ∈ b, i.op ≠ .call)
    (h : a ++ [x] ++ b = c ++ [y] ++ d) : (∀ i ∈ c, i.op ≠ .call) ∧ ∀ i ∈ d, i.op ≠ .call := by
  induction a generalizing c with
  | nil =>
    cases c with
    | nil =>
      simp at h
      obtain ⟨-, rfl⟩ := h
      exact ⟨by simp, hb⟩
    | cons z c =>
      simp at h
      obtain ⟨-, rfl⟩ := h
      exact absurd hy (hb y (by simp))
  | cons z a ih =>
    cases c with
    | nil =>
      simp at h
      exact absurd (by rw [h.1]; exact hy) (ha z (by simp))
    | cons z' c =>
      simp at h
      obtain ⟨rfl, h⟩ := h
      obtain ⟨i1, i2⟩ := ih (c := c) (fun i hi => ha i (by simp [hi])) (by simpa using h)
      refine ⟨?_, i2⟩
      intro i hi
      rcases List.mem_cons.1 hi with rfl | hi
      · exact ha i (by simp)
      · exact i1 i hi

end X86
end Umlcc
