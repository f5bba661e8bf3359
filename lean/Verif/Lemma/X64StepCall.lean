import Verif.Lemma.X64StepStack
/-!
Helper lemmas: calls.
-/
namespace Umlcc
namespace X86
open X64 ISem
open IMach (Val)
open Sim (rv pv upd)

variable {W : Type}
variable {E : IMach.Env W} {F D T ev : Nat} {e m0 : Mach} {live : Int → Prop} {ps : List Prep} {R : Int → Val}
  {st st' : IMach.St W} {v : Val} {t : Bool} {m : Mach} {cs : List XInst}

theorem execI_call {d : Option Ope} {o : Ope} {s : Sfx} {l : ILit} (hl : 0 ≤ l.value)
    (h : execI E ⟨.call, d, some o, some (.int s l)⟩ R st = some (st', v, t)) :
    ∃ a xs g vs M w r, IMach.place E (some o) (rv R (some o)) = some a ∧ st.out = xs :: g ∧ IMach.gather xs l.value.toNat = some vs ∧
      E.call a vs (IMach.width d) st.mem st.w = some (M, w, r) ∧ st' = { st with mem := M, w := w } ∧
      ∀ ds k du, d = some (.reg ds k du) → v = ⟨ds, r.setWidth ds.bits⟩ := by
  have hn : IMach.litNat (some (.int s l)) = some l.value.toNat := by simp [IMach.litNat, hl]
  simp only [execI, IMach.exec, Sim.place_erase, Sim.litNat_erase, Sim.width_erase, hn] at h
  split at h
  · rename_i a n xs g ha hn hx
    cases hn
    split at h
    · rename_i vs hv
      split at h
      · rename_i M w r hc
        cases h
        refine ⟨a, xs, g, vs, M, w, r, ha, hx, hv, hc, rfl, ?_⟩
        intro ds k du hd
        subst hd
        rfl
      · cases h
    · cases h
  · cases h

/-- where the call is -/
def callPos (cs : List XInst) : Nat := cs.findIdx fun i => decide (i.op = .call)

theorem callPos_mid {a b : List XInst} {x : XInst} (ha : ∀ i ∈ a, i.op ≠ .call) (hx : x.op = .call) : callPos (a ++ [x] ++ b) = a.length := by
  induction a with
  | nil => simp [callPos, List.findIdx_cons, hx]
  | cons i a ih =>
    have := ih fun j hj => ha j (by simp [hj])
    simp only [callPos, List.cons_append, List.findIdx_cons] at this ⊢
    simpa [ha i (by simp)] using this

theorem take_sub {a b : Nat} {r : Reg} (h : a ≤ b) (hr : r ∈ calleeSaved.take a) : r ∈ calleeSaved.take b := by
  rw [List.mem_take_iff_getElem] at hr ⊢
  obtain ⟨i, hi, e⟩ := hr
  exact ⟨i, by omega, e⟩

theorem follows_call {H : Host W} (p0 : Nat) {room : Nat} {qs : List Liveseq} {flags : List Bool} {k k' : Nat} {d : Option Ope} {o : Ope} {s : Sfx} {l : ILit} {p : Prep} {rest : List Prep}
    (hp : Pre E F D T ev e m0 live (p :: rest) ⟨.call, d, some o, some (.int s l)⟩ R st st' v t m)
    (hg : genInst qs k ⟨.call, d, some o, some (.int s l)⟩ = .ok (cs, k'))
    (hs : Serves E H F D T room) (hD : D < 2 ^ 61) (hT : T < 2 ^ 61) (hk : k' ≤ ev) (hev : ev ≤ 1) (hal : E.bp.toNat % 16 = 0) (hF : F % 16 = 0)
    (hroom : base F ev + heldAll (⟨p.n, p.k, true⟩ :: rest) + 8 + room ≤ D)
    (hl : qs.map Liveseq.isAlive = flags.map Out.ok) (h8 : flags.length = 8)
    (h1 : p.called = false) (h2 : p.k = p.n) (h3 : l.value = p.n) (h4 : p.n < 2 ^ 27) (h5 : heldAll rest % 16 = 0)
    (h6 : d = none ∨ ∃ ds d' du, d = some (.reg ds d' du) ∧ ds ≠ .none)
    (h7 : ∀ u, live u → (∀ s d', d ≠ some (.reg s u d')) → flags[u.toNat]? = some true) :
    ∃ m', Follows (H.env p0 st.w) E F D T ev e m0 live (p :: rest) ⟨.call, d, some o, some (.int s l)⟩ R st st' v t m m' cs ∧
      ∀ pre post, pre.length + callPos cs = p0 → ticks H (pre ++ cs.map Item.inst ++ post) (.at pre.length m st.w) cs.length = some (.at (pre.length + cs.length) m' st'.w) := by
  obtain ⟨a, xs, g, vs, M, w', r, ha, ho, hvs, hcall, hst, hval⟩ := execI_call (by omega) hp.exec
  obtain ⟨pn, pk, pc⟩ := p
  simp only at h1 h2 h3 h4 hroom
  subst h1 h2
  obtain ⟨lt, lv⟩ := l
  simp only at h3
  subst h3
  simp only [Int.toNat_natCast] at hvs
  have hstk := hp.core.stack
  rw [ho] at hstk
  obtain ⟨hx, hrest⟩ := hstk
  obtain ⟨hlen, hargs⟩ := hx rfl
  simp only at hlen hargs
  obtain ⟨hvlen, hvk⟩ := gather_at hvs
  change genCall qs k _ = _ at hg
  have hreg : ∀ {ds d' du}, d = some (.reg ds d' du) → ∃ dr, callerAt d' = .ok dr := fun hd =>
    callerAt_ex (hp.small _ (.inr (by rw [hd]; rfl)))
  have hd : d = none ∨ ∃ ds id du dr, d = some (.reg ds id du) ∧ callerAt id = .ok dr ∧ ds ≠ .none := by
    rcases h6 with h | ⟨ds, d', du, hd, hds⟩
    · exact .inl h
    · obtain ⟨dr, hdr⟩ := hreg hd
      exact .inr ⟨ds, d', du, dr, hd, hdr, hds⟩
  -- the address called
  have htv : targetVal (H.env p0 st.w) m o = some a := by
    cases o with
    | ptr id =>
      obtain ⟨q, hq⟩ := callerAt_ex (hp.small id (.inl (by simp [RSpec.reads, RSpec.opeRegs])))
      have hR := hp.regs id q (.inl (by simp [RSpec.reads, RSpec.opeRegs])) hq
      simp only [IMach.place, rv] at ha
      simp only [targetVal, hq]
      revert hR ha
      generalize R id = z
      obtain ⟨zs, zb⟩ := z
      intro ha hR
      cases zs <;> simp only [IMach.asPtr, reduceCtorEq, Option.some.injEq] at ha
      subst ha
      have hR : (m.regs q).setWidth 64 = zb := hR
      rw [← hR, BitVec.setWidth_eq]
    | label n =>
      simp only [IMach.place, Option.some.injEq] at ha
      simp only [targetVal, Host.env]
      rw [← ha, hs.glob]
    | _ =>
      exfalso
      simp only [genCall, deref, countOf, Out.ok_bind, Out.bind_eq_ok, callTarget] at hg
      obtain ⟨alive, -, pairs, -, z, h3, -⟩ := hg
      cases h3
  obtain ⟨alive, pairs, pre', tgt', ret, hal', hpairs, htg', hret, hcs', hev'⟩ := genCall_shape hg
  obtain ⟨pre1, tgt, post1, mc, hcs, hpre, hstep, hsp, hargreg, hmem, htf, hfin⟩ := genCall_run (H.env p0 st.w) (hs.abi _ _) m hl h8 hd hg htv
  -- the only call
  have hno : (∀ i ∈ pre1, i.op ≠ .call) ∧ ∀ i ∈ post1, i.op ≠ .call := by
    refine call_unique (y := is .call tgt) rfl ?_ ?_ (hcs'.symm.trans hcs)
    · refine noCall_append (noCall_append (noCall_append (noCall_flatMap fun q _ => appendMov_noCall _ _ _ _ _) ?_) (noCall_map (by intro a _; simp [id1]))) (one_noCall _ (by simp [i2]))
      unfold callTarget at htg'
      split at htg'
      · rw [Out.bind_eq_ok] at htg'
        obtain ⟨⟨q, b⟩, -, htg'⟩ := htg'
        simp only at htg'
        split at htg' <;> cases htg'
        · exact appendMov_noCall _ _ _ _ _
        · exact noCall_nil
      · cases htg'; exact noCall_nil
      · cases htg'
    · refine noCall_append (noCall_flatMap fun q _ => appendMov_noCall _ _ _ _ _) ?_
      cases d with
      | none => simp only at hret; rw [hret]; exact noCall_nil
      | some d =>
        obtain ⟨dr, du, -, rfl⟩ := hret
        exact appendMov_noCall _ _ _ _ _
  -- where the stack pointer is
  obtain ⟨hb1, hb2⟩ := call_balance pk
  have hpad := pad_eq pk pk false
  have hheld := held_open pk pk
  have hleft : ((⟨pk, pk, true⟩ : Prep).held : Int) = leftover pk := by
    unfold leftover Prep.held
    simp only [if_true]
    by_cases h6 : 6 < pk
    · rw [if_pos h6, if_pos (by omega), Int.tdiv_eq_ediv_of_nonneg (by omega)]
      omega
    · rw [if_neg h6, if_neg (by omega)]
      omega
  have hleft2 : 8 * ((pk - 6 : Nat) : Int) ≤ leftover pk := by
    rw [← hleft]
    unfold Prep.held
    simp only [if_true]
    split <;> omega
  rw [heldAll_cons] at hroom
  have hcsp : mc.regs .sp = rel64 E.bp (-(base F ev + heldAll (⟨pk, pk, true⟩ :: rest) : Nat)) := by
    rw [hsp, hp.core.sp, rel64_rel64]
    congr 1
    rw [heldAll_cons, heldAll_cons]
    simp only at hb1 ⊢
    omega
  have hbase : F ≤ base F ev := by unfold base; omega
  have hbase16 : base F ev % 16 = 0 := by unfold base; omega
  have hcsp' : mc.regs .sp = rel64 E.bp ((-(base F ev + heldAll (⟨pk, pk, true⟩ :: rest) : Nat) - 8 : Int) + 8) := by
    rw [hcsp]; congr 1; omega
  have hpsp : (push mc (H.back p0)).regs .sp = rel64 E.bp (-(base F ev + heldAll (⟨pk, pk, true⟩ :: rest) : Nat) - 8) := by
    rw [push_sp, hcsp, rel64_rel64]; congr 1
  -- the callee
  obtain ⟨y, hfn, hax, hyn, hyp⟩ := hs.fn a vs _ st.mem st.w M w' r (push mc (H.back p0))
    (-(base F ev + heldAll (⟨pk, pk, true⟩ :: rest) : Nat) - 8) hcall hpsp (by rw [heldAll_cons]; omega) (by rw [heldAll_cons, hvlen]; omega)
    (by
      have := rel64_mod E.bp (-(base F ev + heldAll (⟨pk, pk, true⟩ :: rest) : Nat) - 8)
      rw [hpsp]
      rw [heldAll_cons] at this ⊢
      omega)
    (by
      intro j v hj
      have hjn : j < pk := by rw [← hvlen]; exact (List.getElem?_eq_some_iff.1 hj).1
      have he := entry_args m mc (H.back p0) pk ((List.range pk).map fun j => load m (rel64 (m.regs .sp) (8 * (j : Nat))) .quad) (by simp) (by omega)
        (by
          intro j v hj
          rw [List.getElem?_map] at hj
          obtain ⟨q, hq, rfl⟩ := Option.map_eq_some_iff.1 hj
          have : q = j := by
            obtain ⟨hh, rfl⟩ := List.getElem?_eq_some_iff.1 hq
            simp
          subst this
          rfl)
        (by simpa using hsp) (by simpa using hargreg) hmem j _ (by rw [List.getElem?_map, List.getElem?_range hjn]; rfl)
      simp only at he
      rw [he]
      obtain ⟨-, hl⟩ := argsAt_lookup hargs (hvk j v hj)
      rw [← hl, hp.core.sp, rel64_rel64]
      have : -((base F ev + heldAll (⟨pk, pk, false⟩ :: rest) : Nat) : Int) + 8 * (j : Int) =
          -((base F ev + heldAll rest : Nat) : Int) - ((⟨pk, pk, false⟩ : Prep).pad : Int) - 8 * ((pk - j : Nat) : Int) := by
        rw [heldAll_cons, hheld]
        omega
      rw [this])
    (by
      intro x hx
      rw [push_mem_free (F := F) (D := D) (T := T) mc (H.back p0) hcsp' (by rw [heldAll_cons]; omega) hx, hmem]
      exact hp.core.mem x hx)
  obtain ⟨m', hrun, hlive, hsp', hmem', hdst, hkept⟩ := hfin y (by simp [Host.env, hfn])
  have hbytes : ∀ x : Int, -((base F ev + heldAll rest : Nat) : Int) ≤ x → x < T → (x < -(F : Int) ∨ 0 ≤ x) → m'.mem (rel64 E.bp x) = m.mem (rel64 E.bp x) := by
    intro x hx hxT hx'
    rw [hmem']
    have := hyp x (by rw [heldAll_cons, hvlen]; omega) (priv_of (by omega)) hxT
    rw [show E.bp + BitVec.ofInt 64 x = rel64 E.bp x from rfl] at this
    rw [this, push_mem_rel (x := x) mc (H.back p0) hcsp' (by omega) (by rw [heldAll_cons]; omega) (by rw [heldAll_cons]; omega), hmem]
  have hgo : goes ⟨.call, d, some o, some (.int s ⟨lt, pk⟩)⟩ t m' = .next m' := by
    rcases h6 with rfl | ⟨ds, d', du, rfl, -⟩ <;> rfl
  refine ⟨m', ⟨hrun.trans hgo.symm, ?_, ?_, fun h => (by cases h), fun _ => by rw [hst], fun h => (by cases h), fun h => (by cases h)⟩, ?_⟩
  · show Core E F D T ev e m0 (⟨pk, pk, true⟩ :: rest) st' m'
    refine ⟨?_, ?_, ?_, ?_, ?_, ?_⟩
    · intro x hx
      rw [hmem', hst]
      exact hyn x hx
    · rw [hkept .bp (by decide) (fun h => ?_)]
      · exact hp.core.bp
      · have := take_sub (Nat.le_trans hk hev) h
        revert this; decide
    · rw [hsp', hcsp]
    · intro x hx
      rw [hbytes x (by omega) (by omega) (by omega)]
      exact hp.core.kept x hx
    · intro q hq hq1 hq2
      rw [hkept q hq (fun h => hq2 (take_sub hk h))]
      exact hp.core.saved q hq hq1 hq2
    · rw [hst]
      show Stacked _ _ _ _ st.out
      rw [ho]
      exact ⟨fun h => (by cases h), stacked_congr (fun x hx hx' => hbytes x hx (by omega) (by omega)) hrest⟩
  · intro u q hu hq
    by_cases hdu : ∃ s d', d = some (.reg s u d')
    · obtain ⟨ds, du, rfl⟩ := hdu
      have : after ⟨.call, some (.reg ds u du), some o, some (.int s ⟨lt, pk⟩)⟩ R v u = v := by
        simp [after, RSpec.writes, upd]
      rw [this, hval ds u du rfl]
      simp only
      rw [hdst ds u du q rfl hq]
      exact hax.symm ▸ rfl
    · have hne : ∀ s d', d ≠ some (.reg s u d') := fun s d' h => hdu ⟨s, d', h⟩
      have hw : RSpec.writes (.inst ⟨.call, d, some o, some (.int s ⟨lt, pk⟩)⟩) ≠ some u := by
        intro hw
        rcases h6 with rfl | ⟨ds, d', du, rfl, -⟩
        · simp [RSpec.writes] at hw
        · simp [RSpec.writes] at hw
          subst hw
          exact hne _ _ rfl
      have : after ⟨.call, d, some o, some (.int s ⟨lt, pk⟩)⟩ R v u = R u := by
        rcases h6 with rfl | ⟨ds, d', du, rfl, -⟩
        · rfl
        · exact Sim.upd_other (fun h => hw (by rw [h]; rfl))
      rw [this]
      have hu8 : 0 ≤ u := by
        rcases Int.lt_or_le u 0 with h | h
        · simp [callerAt, show ¬ 0 ≤ u by omega] at hq
        · exact h
      unfold get
      rw [hlive u.toNat q (h7 u hu hne) (by rw [Int.toNat_of_nonneg hu8]; exact hq) ?_]
      · exact hp.regs u q (.inr ⟨hu, hw⟩) hq
      · rcases h6 with rfl | ⟨ds, d', du, rfl, -⟩
        · simp [dstReg]
        · intro hh
          obtain ⟨dr, hdr⟩ := hreg rfl
          simp only [dstReg, hdr, Option.some.injEq] at hh
          subst hh
          have := callerAt_inj hdr hq
          subst this
          exact hne _ _ rfl
  · intro pre post hpos
    rw [hst]
    subst hcs
    rw [callPos_mid hno.1 rfl] at hpos
    exact block_call H p0 st.w w' pre post hpos.symm hno.1 hno.2 htf hpre hstep hfn hrun

end X86
end Umlcc
