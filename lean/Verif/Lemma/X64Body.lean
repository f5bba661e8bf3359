import Verif.Lemma.X64StepAll
/-!
Helper lemmas: the blocks the code of a function consists of, its prologue and its epilogue.
-/
namespace Umlcc
namespace X86
open X64 ISem
open IMach (Val)

/-! ### the intervals at every line -/

def nextAllN (qs : List Liveseq) : Nat → Out (List Liveseq)
  | 0 => .ok qs
  | n + 1 => nextAllN qs n >>= nextAll

theorem nextAllN_succ {qs qs1 qs' : List Liveseq} (h : nextAll qs = .ok qs1) : ∀ {k : Nat}, nextAllN qs1 k = .ok qs' → nextAllN qs (k + 1) = .ok qs' := by
  intro k
  induction k generalizing qs' with
  | zero => intro h'; cases h'; simp [nextAllN, h]
  | succ k ih =>
    intro h'
    simp only [nextAllN, Out.bind_eq_ok] at h'
    obtain ⟨q, hq, h'⟩ := h'
    rw [nextAllN, ih hq]
    exact h'

theorem nextAll_at : ∀ {qs qs' : List Liveseq}, nextAll qs = .ok qs' → qs'.length = qs.length ∧
    ∀ (j : Nat) (q : Liveseq), qs[j]? = some q → ∃ q', q.next = .ok q' ∧ qs'[j]? = some q' := by
  intro qs
  induction qs with
  | nil => intro qs' h; cases h; exact ⟨rfl, by simp⟩
  | cons a qs ih =>
    intro qs' h
    simp only [nextAll, Out.bind_eq_ok, Out.pure_eq] at h
    obtain ⟨a', ha, r, hr, h⟩ := h
    cases h
    obtain ⟨h1, h2⟩ := ih hr
    refine ⟨by simp [h1], ?_⟩
    intro j q hj
    cases j with
    | zero => cases hj; exact ⟨a', ha, rfl⟩
    | succ j => exact h2 j q hj

theorem nextAllN_at {qs : List Liveseq} : ∀ {k : Nat} {qs' : List Liveseq}, nextAllN qs k = .ok qs' → qs'.length = qs.length ∧
    ∀ (j : Nat) (q : Liveseq), qs[j]? = some q → ∃ q', q.nextN k = .ok q' ∧ qs'[j]? = some q' := by
  intro k
  induction k with
  | zero => intro qs' h; cases h; exact ⟨rfl, fun j q h => ⟨q, rfl, h⟩⟩
  | succ k ih =>
    intro qs' h
    simp only [nextAllN, Out.bind_eq_ok] at h
    obtain ⟨q1, h1, h2⟩ := h
    obtain ⟨a1, a2⟩ := ih h1
    obtain ⟨b1, b2⟩ := nextAll_at h2
    refine ⟨by omega, ?_⟩
    intro j q hj
    obtain ⟨q', c1, c2⟩ := a2 j q hj
    obtain ⟨q'', d1, d2⟩ := b2 j q' c2
    exact ⟨q'', by simp [Liveseq.nextN, c1, d1], d2⟩

/-- what is reported alive -/
theorem alive_flags {qs qs' : List Liveseq} {k : Nat} {fl : List Bool} (h : nextAllN qs k = .ok qs') (hr : Reports qs k fl) (hl : fl.length = qs.length) :
    qs'.map Liveseq.isAlive = fl.map Out.ok := by
  obtain ⟨h1, h2⟩ := nextAllN_at h
  apply List.ext_getElem?
  intro j
  rw [List.getElem?_map, List.getElem?_map]
  rcases Nat.lt_or_ge j qs.length with hj | hj
  · have hq : qs[j]? = some qs[j] := List.getElem?_eq_getElem hj
    obtain ⟨q', a1, a2⟩ := h2 j _ hq
    obtain ⟨q'', b1, b, b2, b3⟩ := hr j _ hq
    rw [a1] at b1
    cases b1
    rw [a2, b2]
    simp [b3]
  · rw [List.getElem?_eq_none (by omega), List.getElem?_eq_none (by omega)]
    rfl

/-! ### blocks -/

/-- the code of item `x` of a function body, `ev` registers being saved in the end -/
def BlockOf (qs : List Liveseq) (ev : Nat) (x : Immc) (c : List Item) : Prop :=
  (∃ t v n, x = .label t v n ∧ c = [.label t v n]) ∨
  (∃ i ek ek' cs, x = .inst i ∧ genInst qs ek i = .ok (cs, ek') ∧ ek' ≤ ev ∧ c = cs.map Item.inst)

theorem genBody_blocks : ∀ (xs : List Immc) (acc : List Item) (qs : List Liveseq) (ev : Nat) (cs : List Item) (st : St), ev ≤ 5 →
    genBody acc qs ev xs = .ok (cs, st) → ev ≤ st.ev ∧ ∃ ys lv tl, ∃ bls : List (List Item), xs = ys ++ .inst lv :: tl ∧ lv.op = .leave ∧ st.rest = .inst lv :: tl ∧
      cs = acc ++ bls.flatten ∧ bls.length = ys.length ∧
      ∀ (k : Nat) (x : Immc), ys[k]? = some x → ∃ qk c, isLeave x = false ∧ nextAllN qs k = .ok qk ∧ bls[k]? = some c ∧ BlockOf qk st.ev x c := by
  intro xs
  induction xs with
  | nil => intro acc qs ev cs st _ h; cases h
  | cons x xs ih =>
    intro acc qs ev cs st hev h
    simp only [genBody] at h
    split at h
    · rename_i hl
      cases h
      cases x with
      | inst i => exact ⟨Nat.le_refl _, [], i, xs, [], rfl, by simpa [isLeave] using hl, rfl, by simp, rfl, by simp⟩
      | _ => cases hl
    · rename_i hnl
      have hnl : isLeave x = false := by simpa using hnl
      split at h
      · cases h
      · rename_i hd
        simp only [Out.bind_eq_ok] at h
        obtain ⟨⟨c, st1⟩, h1, h2⟩ := h
        have hge := genItem_ev h1 hev
        obtain ⟨g0, ys, lv, tl, bls, g1, g2, g3, g4, g5, g6⟩ := ih _ _ _ _ _ hge.2.1 h2
        refine ⟨Nat.le_trans hge.1 g0, x :: ys, lv, tl, c :: bls, by rw [g1]; rfl, g2, g3, by rw [g4]; simp, by simp [g5], ?_⟩
        simp only [genItem, Out.bind_eq_ok, Out.pure_eq, Out.ok.injEq, Prod.mk.injEq] at h1
        obtain ⟨⟨c', ev'⟩, h3, q1, h4, rfl, rfl⟩ := h1
        intro k y hk
        cases k with
        | zero =>
          cases hk
          refine ⟨qs, c', hnl, rfl, rfl, ?_⟩
          cases x with
          | inst i =>
            simp only [Out.bind_eq_ok, Out.ok.injEq, Prod.mk.injEq] at h3
            obtain ⟨⟨cs', ek'⟩, h5, rfl, rfl⟩ := h3
            exact .inr ⟨i, ev, ek', cs', rfl, h5, g0, rfl⟩
          | label t v n =>
            simp only [Out.ok.injEq, Prod.mk.injEq] at h3
            exact .inl ⟨t, v, n, rfl, h3.1.symm⟩
          | data d => exact absurd rfl (hd d)
        | succ k =>
          obtain ⟨qk, c, a0, a1, a2, a3⟩ := g6 k y hk
          exact ⟨qk, c, a0, nextAllN_succ h4 a1, a2, a3⟩

/-! ### number of saved registers -/

theorem genBody_ev1 : ∀ (xs : List Immc) (acc : List Item) (qs : List Liveseq) (ev : Nat) (cs : List Item) (st : St),
    (∀ (k : Nat) (i : Inst) (qk : List Liveseq) (ek ek' : Nat) (c : List XInst), xs[k]? = some (.inst i) →
      (∀ (j : Nat) (y : Immc), j ≤ k → xs[j]? = some y → isLeave y = false) → nextAllN qs k = .ok qk → genInst qk ek i = .ok (c, ek') → ek ≤ 1 → ek' ≤ 1) →
    ev ≤ 1 → genBody acc qs ev xs = .ok (cs, st) → st.ev ≤ 1 := by
  intro xs
  induction xs with
  | nil => intro acc qs ev cs st _ _ h; cases h
  | cons x xs ih =>
    intro acc qs ev cs st hx hev h
    simp only [genBody] at h
    split at h
    · cases h; exact hev
    · rename_i hnl
      have hnl : isLeave x = false := by simpa using hnl
      split at h
      · cases h
      · simp only [Out.bind_eq_ok] at h
        obtain ⟨⟨c, st1⟩, h1, h2⟩ := h
        simp only [genItem, Out.bind_eq_ok, Out.pure_eq, Out.ok.injEq, Prod.mk.injEq] at h1
        obtain ⟨⟨c', ev'⟩, h3, q1, h4, rfl, rfl⟩ := h1
        refine ih _ _ _ _ _ (fun k i qk ek ek' c a1 a2 a3 => hx (k + 1) i qk ek ek' c a1 (fun j y hj hy => ?_) (nextAllN_succ h4 a3)) ?_ h2
        · cases j with
          | zero => cases hy; exact hnl
          | succ j => exact a2 j y (by omega) hy
        cases x with
        | inst i =>
          simp only [Out.bind_eq_ok, Out.ok.injEq, Prod.mk.injEq] at h3
          obtain ⟨⟨cs', ek'⟩, h5, rfl, rfl⟩ := h3
          exact hx 0 i qs ev ek' cs' rfl (fun j y hj hy => by cases Nat.le_zero.1 hj; cases hy; exact hnl) rfl h5 hev
        | _ =>
          simp only [Out.ok.injEq, Prod.mk.injEq] at h3
          obtain ⟨-, rfl⟩ := h3
          exact hev

theorem nodup_one {l : List Int} (h : l.Nodup) (h' : ∀ a ∈ l, ∀ b ∈ l, a = b) : l.length ≤ 1 := by
  match l, h, h' with
  | [], _, _ => simp
  | [_], _, _ => simp
  | a :: b :: l, h, h' =>
    have := h' a (by simp) b (by simp)
    subst this
    simp at h

/-- not more than one register is saved for an instruction of the right shape -/
theorem genInst_ev1 {qs : List Liveseq} {flags : List Bool} {live : Int → Prop} {ps : List Prep} {n nargs : Nat} {early : Prop} {i : Inst} {ek ek' : Nat} {cs : List XInst}
    (hl : qs.map Liveseq.isAlive = flags.map Out.ok) (h8 : flags.length = 8) (hs : Shape live flags ps n nargs early i ∨ i.op = .leave)
    (hg : genInst qs ek i = .ok (cs, ek')) (hk : ek ≤ 1) : ek' ≤ 1 := by
  have hkp : ∀ c, keep ek c = .ok (cs, ek') → ek' ≤ 1 := fun c hc => by have := keep_ev hc; omega
  have hu : ∀ f : Bool → Out (List XInst × Nat), (∀ u, f u = .ok (cs, ek') → ek' ≤ 1) → (fstUnsigned i >>= f) = .ok (cs, ek') → ek' ≤ 1 := by
    intro f hf hh
    rw [Out.bind_eq_ok] at hh
    obtain ⟨u, _, hh⟩ := hh
    exact hf u hh
  have hd : ∀ r, genDiv r qs ek i = .ok (cs, ek') → ek' ≤ 1 := by
    intro r hh
    simp only [genDiv, Out.bind_eq_ok] at hh
    obtain ⟨_, _, _, _, _, _, _, _, _, _, _, _, e, _, hh⟩ := hh
    simp only [Out.pure_eq, Out.ok.injEq, Prod.mk.injEq] at hh
    have := hh.2
    split at this <;> omega
  obtain ⟨op, d, f, s⟩ := i
  cases op
  case call =>
    have hs := hs.resolve_right (by simp)
    simp only [Shape] at hs
    obtain ⟨o, s', l, p, rest, rfl, rfl, rfl, h1, h2, h3, h4, h5, h6, h7, h9⟩ := hs
    change genCall qs ek _ = _ at hg
    obtain ⟨alive, pairs, pre', tgt', ret, hal, hpairs, -, -, -, hev'⟩ := genCall_shape hg
    obtain ⟨S, hS, hnd, hmem⟩ := aliveSet_facts qs flags hl h8
    rw [hal] at hS
    cases hS
    have : pairs.length ≤ 1 := by
      rcases h6 with rfl | ⟨ds, d', du, rfl, hds⟩
      · obtain ⟨-, rfl⟩ := evacPairs_none hpairs
        simp
      · obtain ⟨f1, f2⟩ := evacPairs_facts (.reg ds d' du) d' du rfl 0 _ pairs hpairs
        have hlen : pairs.length = ((HSet.elems alive).filter (· ≠ d')).length := by
          have := congrArg List.length f2
          simpa using this
        rw [hlen]
        refine nodup_one (hnd.filter _) ?_
        intro a ha b hb
        simp only [List.mem_filter, decide_eq_true_eq] at ha hb
        obtain ⟨a0, a1⟩ := (hmem a).1 ha.1
        obtain ⟨b0, b1⟩ := (hmem b).1 hb.1
        have := h9 a.toNat b.toNat a1 b1 (fun s e h => ha.2 (by cases h; omega)) (fun s e h => hb.2 (by cases h; omega))
        omega
    omega
  case div => exact hd _ hg
  case mod => exact hd _ hg
  all_goals first
    | exact hkp _ hg
    | (refine hu _ (fun u hh => ?_) hg; split at hh <;> first | exact hkp _ hh | cases hh)

/-! ### prologue and epilogue -/

theorem frame_align (n : Nat) : align16 n = frameSize n := by
  unfold align16 frameSize
  rw [Int.tdiv_eq_ediv_of_nonneg (by omega)]
  omega

theorem frame_facts (n : Nat) : n ≤ frameSize n ∧ frameSize n < n + 16 ∧ frameSize n % 16 = 0 := by
  unfold frameSize; omega

theorem saves_run (env : Env) (m : Mach) {bp : BitVec 64} {F ev : Nat} (hev : ev ≤ 1) (hF : F < 2 ^ 32) (hsp : m.regs .sp = rel64 bp (-(F : Int))) :
    ∃ m', run env m (savePushes ev) = .next m' ∧ m'.regs .sp = rel64 bp (-(base F ev : Int)) ∧ (∀ r, r ≠ .sp → m'.regs r = m.regs r) ∧
      (ev = 1 → load m' (rel64 bp (-(F : Int) - 8)) .quad = m.regs .bx) ∧
      (∀ x : Int, -2 ^ 62 ≤ x ∧ x < 2 ^ 62 → x < -(F : Int) - 8 ∨ -(F : Int) ≤ x → m'.mem (rel64 bp x) = m.mem (rel64 bp x)) ∧
      (∀ D T a, F + 8 ≤ D → ¬ Priv bp F D T a → m'.mem a = m.mem a) := by
  match ev, hev with
  | 0, _ =>
    refine ⟨m, rfl, ?_, fun _ _ => rfl, by simp, fun _ _ _ => rfl, fun _ _ _ _ _ => rfl⟩
    rw [hsp]; simp [base]
  | 1, _ =>
    have h1 := step_push env m .bx
    have h2 := (step_sp env (push m (m.regs .bx)) 8 (by decide)).1
    have hsp' : m.regs .sp = rel64 bp ((-(F : Int) - 8) + 8) := by rw [hsp]; congr 1; omega
    refine ⟨setReg (forget (push m (m.regs .bx))) .sp ((push m (m.regs .bx)).regs .sp - BitVec.ofInt 64 8), ?_, ?_, ?_, ?_, ?_, ?_⟩
    · show run env m [is .push (.reg .quad .bx), spImm .sub 8] = _
      simp only [run, h1, h2]
    · rw [regs_setReg_same, push_sp, subInt, hsp, rel64_rel64, rel64_rel64]
      congr 1
      unfold base
      omega
    · intro r h
      rw [regs_setReg_ne _ _ _ _ h]
      exact push_regs m (m.regs .bx) r h
    · intro _
      have := push_load_same m (m.regs .bx)
      rw [hsp, rel64_rel64] at this
      exact this
    · intro x hx hx'
      exact push_mem_rel m (m.regs .bx) hsp' hx (by omega) (by omega)
    · intro D T a hD ha
      exact push_mem_free (D := D) (F := F) (T := T) m (m.regs .bx) hsp' (by omega) ha

theorem prologue_run (env : Env) (e : Mach) {bp : BitVec 64} {n ev : Nat} {i : Inst} {s : Sfx} {t : ILType} (hi : i.fst = some (.int s ⟨t, n⟩)) (hn : n < 2 ^ 31 - 16)
    (hev : ev ≤ 1) (hsp : e.regs .sp = bp + 8) :
    ∃ cs m0, genEnter i = .ok cs ∧ run env e (cs ++ savePushes ev) = .next m0 ∧ m0.regs .bp = bp ∧ m0.regs .sp = rel64 bp (-(base (frameSize n) ev : Int)) ∧
      (∀ r, r ≠ .sp → r ≠ .bp → m0.regs r = e.regs r) ∧ load m0 bp .quad = e.regs .bp ∧
      (ev = 1 → load m0 (rel64 bp (-(frameSize n : Int) - 8)) .quad = e.regs .bx) ∧
      (∀ x : Int, 8 ≤ x ∧ x < 2 ^ 62 → m0.mem (rel64 bp x) = e.mem (rel64 bp x)) ∧
      (∀ D T a, frameSize n + 8 ≤ D → 8 ≤ T → ¬ Priv bp (frameSize n) D T a → m0.mem a = e.mem a) := by
  rw [add8] at hsp
  obtain ⟨f1, f2, f3⟩ := frame_facts n
  obtain ⟨cs, m1, a1, a2, a3, a4, a5, a6, -, a7⟩ := enter_run env e hi (by omega) (by omega)
  rw [hsp, rel64_rel64] at a3 a4 a5
  rw [frame_align] at a4
  have a3 : m1.regs .bp = bp := by rw [a3]; exact rel64_zero bp
  have a4 : m1.regs .sp = rel64 bp (-(frameSize n : Int)) := by rw [a4]; congr 1; omega
  have a5 : load m1 bp .quad = e.regs .bp := by
    rw [show (8 + -8 : Int) = 0 from rfl, rel64_zero] at a5
    exact a5
  obtain ⟨m0, b1, b2, b3, b4, b5, b6⟩ := saves_run env m1 hev (by omega) a4
  have hsp0 : e.regs .sp = rel64 bp (0 + 8) := hsp
  refine ⟨cs, m0, a1, ?_, ?_, b2, ?_, ?_, ?_, ?_, ?_⟩
  · rw [run_append_next a2, b1]
  · rw [b3 _ (by decide), a3]
  · intro r h1 h2
    rw [b3 r h1, a6 r h1 h2]
  · rw [← a5]
    apply load_congr
    intro j hj
    have hj' : j < 8 := hj
    rw [addNat]
    exact b5 _ (by omega) (by omega)
  · intro h
    rw [b4 h, a6 _ (by decide) (by decide)]
  · intro x hx
    rw [b5 x (by omega) (by omega), a7]
    exact push_mem_rel e (e.regs .bp) hsp0 (by omega) (by omega) (by omega)
  · intro D T a hD hT ha
    rw [b6 D T a hD ha, a7]
    apply push_mem_far
    rw [hsp0, rel64_rel64, show (0 + 8 + -8 : Int) = 0 from rfl]
    rcases Nat.lt_or_ge (a - rel64 bp 0).toNat 8 with h8 | h8
    · obtain ⟨k, hk, rfl⟩ := byte_at h8
      rw [addNat, rel64_rel64] at ha
      exact absurd (priv_of (by omega)) ha
    · exact h8

/-! ### where labels are -/

theorem find_label {pre post : List Item} {x : Item} {n : Name} (h : ∀ y ∈ pre, isItemLabel n y = false) (hx : isItemLabel n x = true) :
    (pre ++ x :: post).findIdx? (isItemLabel n) = some pre.length := by
  rw [List.findIdx?_append]
  have h1 : pre.findIdx? (isItemLabel n) = none := by
    rw [List.findIdx?_eq_none_iff]
    exact h
  rw [h1]
  simp [List.findIdx?_cons, hx]

end X86
end Umlcc
