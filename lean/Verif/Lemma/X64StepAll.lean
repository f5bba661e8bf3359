import Verif.Lemma.X64StepCall
/-!
Helper lemmas: all instructions of a function.
-/
namespace Umlcc
namespace X86
open X64 ISem
open IMach (Val)
open Sim (rv pv upd)

variable {W : Type}
variable {E : IMach.Env W} {F D T ev : Nat} {e m0 : Mach} {live : Int → Prop} {ps : List Prep} {R : Int → Val}
  {st st' : IMach.St W} {v : Val} {t : Bool} {m : Mach} {cs : List XInst}

/-- only calls change the world -/
theorem execI_world {i : Inst} (hi : i.op ≠ .call) (h : execI E i R st = some (st', v, t)) : st'.w = st.w := by
  obtain ⟨op, d, f, s⟩ := i
  cases op <;> simp only [execI, IMach.exec] at h <;> first
    | exact absurd rfl hi
    | (repeat' split at h) <;> first
      | (cases h; done)
      | (cases h; rfl)
      | (obtain ⟨_, _, h⟩ := Option.map_eq_some_iff.1 h; cases h; rfl)

/-- what the arguments not yet stored look like -/
def ArgsIn (E : IMach.Env W) (nargs : Nat) (m : Mach) : Prop :=
  ∀ (k : Nat) (w : Val), k < nargs → E.args[k]? = some w → (∀ r, sysvArg k = some r → (m.regs r).setWidth w.1.bits = w.2) ∧
    (6 ≤ k → (load m (rel64 E.bp (16 + 8 * (k - 6 : Nat))) .quad).setWidth w.1.bits = w.2)

theorem follows_inst {H : Host W} (p0 : Nat) {room n nargs : Nat} {early : Prop} {qs : List Liveseq} {flags : List Bool} {k k' : Nat} {i : Inst}
    (hp : Pre E F D T ev e m0 live ps i R st st' v t m) (hg : genInst qs k i = .ok (cs, k')) (hs : Shape live flags ps n nargs early i)
    (hsv : Serves E H F D T room) (hD : D < 2 ^ 61) (hT : T < 2 ^ 61) (hF : F ≤ D) (hF16 : F % 16 = 0) (hal : E.bp.toNat % 16 = 0) (hn : n ≤ F)
    (hk : k' ≤ ev) (hev : ev ≤ 1) (hroom : base F ev + heldAll (prepAfter (.inst i) ps) + 8 + room ≤ D)
    (hl : qs.map Liveseq.isAlive = flags.map Out.ok) (h8 : flags.length = 8)
    (harg : early → ArgsIn E nargs m) :
    ∃ m', Follows (H.env p0 st.w) E F D T ev e m0 live ps i R st st' v t m m' cs ∧
      (i.op = .call → ∀ pre post, pre.length + callPos cs = p0 → ticks H (pre ++ cs.map Item.inst ++ post) (.at pre.length m st.w) cs.length = some (.at (pre.length + cs.length) m' st'.w)) := by
  have hsym : (H.env p0 st.w).sym = E.glob := hsv.glob.symm
  have add : ∀ {i : Inst}, i.op ≠ .call → (∃ m', Follows (H.env p0 st.w) E F D T ev e m0 live ps i R st st' v t m m' cs) →
      ∃ m', Follows (H.env p0 st.w) E F D T ev e m0 live ps i R st st' v t m m' cs ∧
      (i.op = .call → ∀ pre post, pre.length + callPos cs = p0 → ticks H (pre ++ cs.map Item.inst ++ post) (.at pre.length m st.w) cs.length = some (.at (pre.length + cs.length) m' st'.w)) := by
    rintro i hi ⟨m', h⟩
    exact ⟨m', h, fun h => absurd h hi⟩
  obtain ⟨op, d, f, s⟩ := i
  cases op <;> simp only [Shape] at hs
  case load =>
    obtain ⟨ds, d', du, o, rfl, rfl, h1, h2, h3⟩ := hs
    exact add (by simp) (follows_load hp hg hsym (by omega) (by omega) hF hn hsv.ok h1 h2 h3)
  case addr =>
    obtain ⟨o, rfl, h1⟩ := hs
    exact add (by simp) (follows_addr hp hg hsym h1)
  case store =>
    obtain ⟨o, rfl, h1, h2⟩ := hs
    exact add (by simp) (follows_store hp hg hsym (by omega) (by omega) hF hn hsv.ok h1 h2)
  case str =>
    obtain ⟨off, bs, rfl, rfl, h1, h2, h3, h4, h5⟩ := hs
    exact add (by simp) (follows_str hp hg (by omega) (by omega) hF hn h1 h2 h3 h4 h5)
  case ldarg =>
    obtain ⟨he, off, s', j, u, rfl, rfl, h3, h4, h5, h6⟩ := hs
    exact add (by simp) (follows_ldarg hp hg (by omega) (by omega) hF hn (harg he) h3 h4 h5 h6)
  case starg =>
    obtain ⟨p, rest, j, s', u, o, rfl, h1, h2, rfl, h3, rfl, h4⟩ := hs
    have hr : base F ev + heldAll (⟨p.n, p.k + 1, p.called⟩ :: rest) + 8 + room ≤ D := hroom
    refine add (by simp) (follows_starg hp hg hD (by omega) ?_ h1 h2 h3 h4)
    have e1 := held_open p.n p.k
    have e2 := held_open p.n (p.k + 1)
    obtain ⟨pn, pk, pc⟩ := p
    simp only at h1
    subst h1
    have e3 : (⟨pn, pk + 1, false⟩ : Prep).pad = (⟨pn, pk, false⟩ : Prep).pad := rfl
    rw [heldAll_cons] at hr ⊢
    simp only at e1 e2 hr
    omega
  case stret =>
    obtain ⟨o, rfl, rfl, h1⟩ := hs
    exact add (by simp) (follows_stret hp hg h1)
  case mul =>
    obtain ⟨fs, f', fu, o, w, ds, d', du, h1, h2, h3, h4, h5⟩ := hs
    obtain rfl := h1.fst; obtain rfl := h1.snd; obtain rfl := h2.dst
    exact add (by simp) (follows_mul hp hg h1 h2.wide h3 h4 h5)
  case jmp =>
    obtain ⟨l, rfl⟩ := hs
    exact add (by simp) (follows_jump hp hg)
  case call =>
    obtain ⟨o, s', l, p, rest, rfl, rfl, rfl, h1, h2, h3, h4, h5, h6, h7, -⟩ := hs
    obtain ⟨m', hf, ht⟩ := follows_call p0 hp hg hsv hD hT hk hev hal hF16 hroom hl h8 h1 h2 h3 h4 h5 h6 h7
    exact ⟨m', hf, fun _ => ht⟩
  case prep =>
    obtain ⟨s', l, rfl, rfl, h1⟩ := hs
    exact add (by simp) (follows_prep hp hg h1)
  case clean =>
    obtain ⟨s', l, p, rest, rfl, rfl, rfl, h1, h2, h3⟩ := hs
    exact add (by simp) (follows_clean hp hg h1 h2 h3)
  case neg | not =>
    obtain ⟨fs, f', fu, ds, d', du, rfl, rfl, rfl, h2, h3⟩ := hs
    exact add (by simp) (follows_unary (by simp) hp hg h2 h3)
  case div | mod =>
    obtain ⟨fs, f', fu, o, w, ds, d', du, h1, h2, h3, h4, h5, h6, h7, h9⟩ := hs
    obtain rfl := h1.fst; obtain rfl := h1.snd; obtain rfl := h2.dst
    exact add (by simp) (follows_div (by simp) hp hg hk hl h8 h1 h2.wide h3 h4 h5 h6 h7 h9)
  case sal | sar =>
    obtain ⟨fs, f', fu, s', l, w, ds, d', du, h1, h2, h3, h4, h5, h6⟩ := hs
    obtain rfl := h1.fst; obtain rfl := h1.snd; obtain rfl := h2.dst
    exact add (by simp) (follows_shift (by simp) hp hg h1 h2.wide h3 h4 (by simpa using h5) h6)
  case add | sub | and | or | xor =>
    obtain ⟨fs, f', fu, o, w, ds, d', du, h1, h2, h3, h4⟩ := hs
    obtain rfl := h1.fst; obtain rfl := h1.snd; obtain rfl := h2.dst
    exact add (by simp) (follows_alu (by simp) hp hg h1 h2.wide h3 h4)
  case seteq | setneq | setlt | setgt | setleq | setgeq =>
    obtain ⟨fs, f', fu, o, w, ds, du, h1, rfl, h3⟩ := hs
    obtain rfl := h1.fst; obtain rfl := h1.snd
    exact add (by simp) (follows_set (by simp) hp hg h1 h3)
  case jeq | jneq | jgt | jgeq | jlt | jleq =>
    obtain ⟨fs, f', fu, o, w, l, h1, rfl, h3⟩ := hs
    obtain rfl := h1.fst; obtain rfl := h1.snd
    exact add (by simp) (follows_jcc (by simp) hp hg h1 h3)

/-- The machine code of one instruction, anywhere in a program. -/
theorem inst_ticks {H : Host W} {room n nargs : Nat} {early : Prop} {qs : List Liveseq} {flags : List Bool} {k k' : Nat} {i : Inst}
    (hp : Pre E F D T ev e m0 live ps i R st st' v t m) (hg : genInst qs k i = .ok (cs, k')) (hs : Shape live flags ps n nargs early i)
    (hsv : Serves E H F D T room) (hD : D < 2 ^ 61) (hT : T < 2 ^ 61) (hF : F ≤ D) (hF16 : F % 16 = 0) (hal : E.bp.toNat % 16 = 0) (hn : n ≤ F)
    (hk : k' ≤ ev) (hev : ev ≤ 1) (hroom : base F ev + heldAll (prepAfter (.inst i) ps) + 8 + room ≤ D)
    (hl : qs.map Liveseq.isAlive = flags.map Out.ok) (h8 : flags.length = 8)
    (harg : early → ArgsIn E nargs m)
    (pre post : List Item) :
    ∃ m', Follows (H.env (pre.length + callPos cs) st.w) E F D T ev e m0 live ps i R st st' v t m m' cs ∧
      ∃ q, (∀ n m1, goes i t m' = .jump n m1 → 0 < q) ∧ ticks H (pre ++ cs.map Item.inst ++ post) (.at pre.length m st.w) q =
        match goes i t m' with
        | .jump n _ => ((pre ++ cs.map Item.inst ++ post).findIdx? (isItemLabel n)).map fun p => .at p m' st'.w
        | _ => some (.at (pre.length + cs.length) m' st'.w) := by
  obtain ⟨m', hf, hc⟩ := follows_inst (pre.length + callPos cs) hp hg hs hsv hD hT hF hF16 hal hn hk hev hroom hl h8 harg
  refine ⟨m', hf, ?_⟩
  by_cases hi : i.op = .call
  · have : goes i t m' = .next m' := by
      obtain ⟨op, d, f, s⟩ := i
      simp only at hi
      subst hi
      unfold goes
      rcases d with _ | d
      · rfl
      · cases d <;> rfl
    rw [this]
    exact ⟨_, fun _ _ h => (by cases h), hc hi pre post rfl⟩
  · have hno := genInst_noCall hi hg
    rw [execI_world hi hp.exec]
    have hr := hf.run
    have hgo : (∃ n, goes i t m' = .jump n m') ∨ goes i t m' = .next m' := by
      unfold goes
      split
      · split
        · exact .inl ⟨_, rfl⟩
        · exact .inr rfl
      · exact .inr rfl
    rcases hgo with ⟨n, h⟩ | h
    · rw [h] at hr ⊢
      obtain ⟨q, hq, h⟩ := block_jump H _ st.w cs pre post m m' hno hr
      exact ⟨q, fun _ _ _ => hq, h⟩
    · rw [h] at hr ⊢
      exact ⟨_, fun _ _ h => (by cases h), block_next H _ st.w cs pre post m m' hno hr⟩

end X86
end Umlcc
