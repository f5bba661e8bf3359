import Verif.Lemma.X64Inst
/-!
Shape of the code of a function, and calls composed with the passing of arguments.
-/
namespace Umlcc
namespace X86
open X64 ISem

theorem evacPairs_len : ∀ (ks : List Int) (dst : Option Ope) (n : Nat) (pairs : List (Reg × Reg)), n ≤ 5 →
    evacPairs dst n ks = .ok pairs → pairs.length + n ≤ 5 := by
  intro ks
  induction ks with
  | nil => intro dst n pairs hn h; simp only [evacPairs, Out.ok.injEq] at h; subst h; simpa using hn
  | cons k ks ih =>
    intro dst n pairs hn h
    simp only [evacPairs, Out.bind_eq_ok] at h
    obtain ⟨d, _, h⟩ := h
    split at h
    · cases h
    · split at h
      · exact ih _ _ _ hn h
      · simp only [Out.bind_eq_ok, Out.pure_eq, Out.ok.injEq] at h
        obtain ⟨c, hc, _, _, rest, hr, rfl⟩ := h
        have : n < 5 := by
          unfold calleeAt at hc
          split at hc
          · rename_i r hr; have := (List.getElem?_eq_some_iff.mp hr).1; simpa [calleeSaved] using this
          · cases hc
        have := ih _ _ _ (by omega) hr
        simp only [List.length_cons]; omega

theorem keep_ev {ev ev' : Nat} {c : Out (List XInst)} {cs : List XInst} (h : keep ev c = .ok (cs, ev')) : ev' = ev := by
  simp only [keep, Out.bind_eq_ok, Out.pure_eq, Out.ok.injEq, Prod.mk.injEq] at h
  obtain ⟨_, _, _, h⟩ := h; exact h.symm

/-- at most five registers are ever evacuated -/
theorem genInst_ev {qs : List Liveseq} {ev ev' : Nat} {i : Inst} {cs : List XInst} (h : genInst qs ev i = .ok (cs, ev')) (hev : ev ≤ 5) :
    ev ≤ ev' ∧ ev' ≤ 5 := by
  have hk : ∀ c, keep ev c = .ok (cs, ev') → ev ≤ ev' ∧ ev' ≤ 5 := fun c hc => by have := keep_ev hc; omega
  have hu : ∀ f : Bool → Out (List XInst × Nat), (∀ u, f u = .ok (cs, ev') → ev ≤ ev' ∧ ev' ≤ 5) → (fstUnsigned i >>= f) = .ok (cs, ev') →
      ev ≤ ev' ∧ ev' ≤ 5 := by
    intro f hf hh
    rw [Out.bind_eq_ok] at hh
    obtain ⟨u, _, hh⟩ := hh
    exact hf u hh
  have hd : ∀ r, genDiv r qs ev i = .ok (cs, ev') → ev ≤ ev' ∧ ev' ≤ 5 := by
    intro r hh
    simp only [genDiv, Out.bind_eq_ok] at hh
    obtain ⟨_, _, _, _, _, _, _, _, _, _, _, _, e, _, hh⟩ := hh
    simp only [Out.pure_eq, Out.ok.injEq, Prod.mk.injEq] at hh
    have := hh.2
    split at this <;> omega
  have hc : genCall qs ev i = .ok (cs, ev') → ev ≤ ev' ∧ ev' ≤ 5 := by
    intro hh
    simp only [genCall, Out.bind_eq_ok] at hh
    obtain ⟨_, _, _, _, al, _, ps, hps, _, _, _, _, _, _, hh⟩ := hh
    simp only [Out.pure_eq, Out.ok.injEq, Prod.mk.injEq] at hh
    have := evacPairs_len _ _ _ _ (by omega) hps
    omega
  cases hop : i.op <;> simp only [genInst, hop] at h <;>
    first
    | exact hk _ h
    | exact hd _ h
    | exact hc h
    | (refine hu _ ?_ h
       intro u hh
       split at hh
       · exact hk _ hh
       · cases hh)

theorem genItem_ev {x : Immc} {st st' : St} {cs : List Item} (h : genItem x st = .ok (cs, st')) (hev : st.ev ≤ 5) :
    st.ev ≤ st'.ev ∧ st'.ev ≤ 5 ∧ st'.rest = st.rest.tail := by
  simp only [genItem, Out.bind_eq_ok] at h
  obtain ⟨⟨c, ev⟩, h1, qs, h2, h3⟩ := h
  simp only [Out.pure_eq, Out.ok.injEq, Prod.mk.injEq] at h3
  obtain ⟨rfl, rfl⟩ := h3
  refine ⟨?_, ?_, rfl⟩ <;>
  · cases x with
    | inst i =>
      simp only [Out.bind_eq_ok] at h1
      obtain ⟨⟨c', ev'⟩, h4, h5⟩ := h1
      simp only [Out.pure_eq, Out.ok.injEq, Prod.mk.injEq] at h5
      have := genInst_ev h4 hev
      show _ ≤ _
      simp only
      omega
    | label t v n =>
      simp only [Out.pure_eq, Out.ok.injEq, Prod.mk.injEq] at h1
      show _ ≤ _
      simp only
      omega
    | data d =>
      simp only [Out.pure_eq, Out.ok.injEq, Prod.mk.injEq] at h1
      show _ ≤ _
      simp only
      omega

theorem genBody_ev : ∀ (xs : List Immc) (acc : List Item) (qs : List Liveseq) (ev : Nat) (cs : List Item) (st : St), ev ≤ 5 →
    genBody acc qs ev xs = .ok (cs, st) → st.ev ≤ 5 ∧ (∃ bc, cs = acc ++ bc) ∧
      ∃ lv tl, st.rest = .inst lv :: tl ∧ lv.op = .leave ∧ .inst lv ∈ xs := by
  intro xs
  induction xs with
  | nil => intro acc qs ev cs st _ h; cases h
  | cons x xs ih =>
    intro acc qs ev cs st hev h
    simp only [genBody] at h
    split at h
    · rename_i hl
      cases h
      refine ⟨hev, ⟨[], by simp⟩, ?_⟩
      cases x with
      | inst i => exact ⟨i, xs, rfl, by simpa [isLeave] using hl, by simp⟩
      | _ => cases hl
    · split at h
      · cases h
      · simp only [Out.bind_eq_ok] at h
        obtain ⟨⟨c, st1⟩, h1, h2⟩ := h
        have := genItem_ev h1 hev
        obtain ⟨h3, ⟨bc, h4⟩, lv, tl, h5, h6, h7⟩ := ih _ _ _ _ _ this.2.1 h2
        exact ⟨h3, ⟨c ++ bc, by rw [h4, List.append_assoc]⟩, lv, tl, h5, h6, by simp [h7]⟩

/-- the code of a function: label, prologue, saved registers, body, saved registers back, epilogue -/
theorem genFunction_shape {st st' : St} {cs : List Item} (h : genFunction st = .ok (cs, st')) {t : LblType} {v : Vis} {nm : Name}
    {ent : Inst} {rest : List Immc} (hr : st.rest = .label t v nm :: .inst ent :: rest) (he : ent.op = .enter) :
    ∃ ev entc bc lv lvc, ev ≤ 5 ∧ genEnter ent = .ok entc ∧ .inst lv ∈ rest ∧ lv.op = .leave ∧ genLeave lv = .ok lvc ∧
      cs = Item.label t v nm :: (entc.map .inst ++ (savePushes ev).map .inst ++ bc ++ (restorePops ev).map .inst ++ lvc.map .inst) := by
  simp only [genFunction, hr, Out.bind_eq_ok] at h
  obtain ⟨⟨lc, st1⟩, h1, ⟨hc, st2⟩, h2, ⟨bc, st3⟩, h3, h4⟩ := h
  have e1 := genItem_ev h1 (Nat.zero_le 5)
  have e2 := genItem_ev h2 e1.2.1
  obtain ⟨e3, ⟨bc', hbc⟩, lv, tl, hlv, hop, hmem⟩ := genBody_ev _ _ _ _ _ _ e2.2.1 h3
  simp only [hlv, Out.bind_eq_ok] at h4
  obtain ⟨⟨tc, st4⟩, h5, h6⟩ := h4
  simp only [Out.pure_eq, Out.ok.injEq, Prod.mk.injEq] at h6
  simp only [genItem, Out.pure_eq, Out.ok_bind, Out.bind_eq_ok, Out.ok.injEq, Prod.mk.injEq] at h1
  obtain ⟨_, _, rfl, _⟩ := h1
  simp only [genItem, genInst, he, keep, Out.pure_eq, Out.bind_eq_ok, Out.ok.injEq, Prod.mk.injEq] at h2
  obtain ⟨⟨c2, v2⟩, ⟨⟨c2', v2'⟩, ⟨entc, hent, rfl, rfl⟩, rfl, rfl⟩, _, _, rfl, _⟩ := h2
  simp only [genItem, genInst, hop, keep, Out.pure_eq, Out.bind_eq_ok, Out.ok.injEq, Prod.mk.injEq] at h5
  obtain ⟨⟨c5, v5⟩, ⟨⟨c5', v5'⟩, ⟨lvc, hlvc, rfl, rfl⟩, rfl, rfl⟩, _, _, rfl, _⟩ := h5
  refine ⟨st3.ev, c2', bc, lv, c5', e3, hent, hmem, hop, hlvc, ?_⟩
  rw [← h6.1]; simp

/-! ### arguments -/

/-- arguments on the stack, after more code that leaves them alone -/
theorem passed_keeps (env : Env) {m m1 m2 : Mach} {vs : List (BitVec 64)} (h : Passed env m vs m1) (hk : Keeps (8 * vs.length) m1 m2)
    (hn : 8 * vs.length < 2 ^ 62) :
    m2.regs .sp = rel64 (m.regs .sp) (-8 * vs.length) ∧
    ∀ (k : Nat) (v : BitVec 64), vs[k]? = some v → load m2 (rel64 (m2.regs .sp) (8 * k)) .quad = v := by
  obtain ⟨h1, h2⟩ := passed_stack env m m1 vs h hn
  refine ⟨by rw [hk.1, h1], ?_⟩
  intro k v hv
  have hlt := (List.getElem?_eq_some_iff.mp hv).1
  have := keeps_load hk (8 * k) (by omega)
  rw [hk.1]
  have e : ((8 * k : Nat) : Int) = 8 * (k : Int) := by simp
  rw [e] at this
  rw [this]; exact h2 k v hv

theorem argAt_ge (m : Mach) (i : Nat) (h : 6 ≤ i) : argAt m i = load m (rel64 (m.regs .sp) (8 + 8 * (i - 6 : Nat))) .quad := by
  unfold argAt
  rw [sysvArg_ge i h]
  simp only
  rw [addNat]; congr 2

theorem argAt_lt (m : Mach) (i : Nat) {r : Reg} (h : sysvArg i = some r) : argAt m i = m.regs r := by
  unfold argAt; rw [h]

/-- what is in the argument registers and on the stack at the call is what the callee finds -/
theorem entry_args (m mc : Mach) (back : BitVec 64) (n : Nat) (vs : List (BitVec 64)) (hlen : vs.length = n)
    (hn : n < 2 ^ 32)
    (hst : ∀ (k : Nat) (v : BitVec 64), vs[k]? = some v → load m (rel64 (m.regs .sp) (8 * k)) .quad = v)
    (hsp : mc.regs .sp = rel64 (m.regs .sp) (8 * (argRegs.take n).length))
    (hr : ∀ (k : Nat) (r : Reg), (argRegs.take n)[k]? = some r → mc.regs r = load m (rel64 (m.regs .sp) (8 * k)) .quad)
    (hm : mc.mem = m.mem) :
    ∀ (k : Nat) (v : BitVec 64), vs[k]? = some v → argAt (push mc back) k = v := by
  intro k v hv
  have hk : k < n := by rw [← hlen]; exact (List.getElem?_eq_some_iff.mp hv).1
  by_cases h6 : k < 6
  · obtain ⟨r, ha, hs, hc, _⟩ := argRegs_sysv k h6
    rw [argAt_lt _ _ hs, push_regs _ _ _ (by rintro rfl; revert hc; decide)]
    rw [hr k r (by rw [List.getElem?_take_of_lt hk]; exact ha)]
    exact hst k v hv
  · have hlen6 : (argRegs.take n).length = 6 := by simp [argRegs]; omega
    rw [argAt_ge _ _ (by omega), push_sp, rel64_rel64, hsp, hlen6, rel64_rel64]
    have e : (8 * ((6 : Nat) : Int) + (-8 + (8 + 8 * ((k - 6 : Nat) : Int)))) = 8 * (k : Int) := by omega
    rw [e]
    have hfar : far (rel64 (mc.regs .sp) (-8)) 8 (rel64 (m.regs .sp) (8 * (k : Int))) Sfx.quad.nbytes := by
      rw [hsp, hlen6, rel64_rel64]
      apply far_rel (b := m.regs .sp) _ _ (by decide) (by decide)
      · omega
      · show _ + ((8 : Nat) : Int) ≤ _
        omega
    rw [push_load_far _ _ hfar, load_mem hm]
    exact hst k v hv

/-- the saved frame pointer and the return address as words -/
theorem frame_words {a : BitVec 64} {mem mem' : BitVec 64 → BitVec 8}
    (hm : ∀ k : Nat, k < 16 → mem' (a - 8 + BitVec.ofNat 64 k) = mem (a - 8 + BitVec.ofNat 64 k)) (x : Int) (hx : x = -8 ∨ x = 0) :
    Same a x 8 mem mem' := by
  apply readLE_congr
  intro i hi
  have := hm ((x + 8).toNat + i) (by omega)
  rw [sub8, addNat, rel64_rel64] at this
  rw [addNat, rel64_rel64]
  have e1 : (-8 + (((x + 8).toNat + i : Nat) : Int)) = x + (i : Int) := by omega
  rw [e1] at this
  exact this

end X86
end Umlcc
