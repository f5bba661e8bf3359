import Verif.Lemma.Program
import Verif.Props.X64Run
/-!
Helper lemmas: with calls done at once, the machine code of functions that call each other does what C says about calls.
-/
namespace Umlcc
namespace X86
open X64 (Item)
open IMach (Val Mem)
open CStm

variable {W : Type}

theorem withFrame_true {ok : BitVec 64 → Bool} {bp : BitVec 64} {size : Nat} {a : BitVec 64} (h : withFrame ok bp size a = true) : ok a = true ∨ Near bp size 0 a := by
  simp only [withFrame, Bool.or_eq_true, decide_eq_true_eq] at h
  exact h

/-- the private bytes of a function and its objects lie on the stack its caller left for it -/
theorem priv_near {sp : BitVec 64} {F R n : Nat} {a : BitVec 64} (h8 : 8 ≤ R) (hR : R < 2 ^ 61) (hn : inSize n < 2 ^ 61) (h : Priv (sp - 8) F (R - 8) (inSize n) a) :
    Near sp R (8 + 8 * (n - 6)) a := by
  obtain ⟨x, rfl, hx⟩ := h
  rw [sub8, addInt, rel64_rel64]
  simp only [inSize] at hx hn
  exact rel_near (by omega) (by omega) (by omega)

theorem frame_near {sp : BitVec 64} {F R n : Nat} {a : BitVec 64} (h8 : F + 8 ≤ R) (hR : R < 2 ^ 61) (hn : inSize n < 2 ^ 61) (h : Near (sp - 8) F 0 a) : Near sp R (8 + 8 * (n - 6)) a := by
  obtain ⟨z, rfl, h1, h2⟩ := near_rel h
  rw [sub8, rel64_rel64]
  simp only [inSize] at hn
  exact rel_near (by omega) (by omega) (by omega)

theorem frame_priv {sp : BitVec 64} {F R n : Nat} {a : BitVec 64} (h8 : F + 8 ≤ R) (hR : R < 2 ^ 61) (hn : inSize n < 2 ^ 61) (h : Near (sp - 8) F 0 a) :
    ¬ Priv (sp - 8) F (R - 8) (inSize n) a := by
  rintro ⟨x, hx, h'⟩
  obtain ⟨z, rfl, h1, h2⟩ := near_rel h
  have := rel64_ofInt_inj (hx : rel64 _ z = rel64 _ x) ⟨by omega, by omega⟩ ⟨by omega, by omega⟩
  omega

/-- the function behaves as C65 says, on the stack each function gets -/
structure Good (P : Prog W) (I : Image W) (items : List Item) (g : Fn) (vs : List Val) : Prop where
  run : ∃ p need, I.locate (P.sym g.name) = some p ∧ g.size + need + 8 ≤ P.each ∧
    ∀ E : IMach.Env W, E.glob = P.sym → E.args = vs → Runs (implOf E P.lim) E g.scope g.name.val g.ps g.rt g.body items p g.size (inSize E.args.length) need
  few : inSize vs.length < 2 ^ 61

/-- a function entered as the calling convention says is entered as C65 asks -/
theorem setup {P : Prog W} {I : Image W} {items : List Item} {n : Nat} {g : Fn} {vs : List Val} {ok : BitVec 64 → Bool} {need : Nat} {m : Mach} {E : IMach.Env W}
    (hn : P.stack (n + 1) < 2 ^ 61) (habi : ∀ p w, Abi (I.host.env p w)) (hsym : I.host.sym = P.sym) (hsz : g.size + need + 8 ≤ P.each) (hT : inSize vs.length < 2 ^ 61)
    (ih : ∀ ok t vs s M w y, P.call n ok t vs s M w = some y → Provides (nest I items n).fn (P.stack n) ok t vs s M w y ∧ ∀ a, ok a = false → y.1 a = M a)
    (hfree : Free ok (P.stack (n + 1)) vs.length (m.regs .sp)) (hargs : ∀ k v, vs[k]? = some v → (argAt m k).setWidth v.1.bits = v.2)
    (hE : P.env (P.call n) g ok (m.regs .sp - 8) vs = E) :
    (∀ a, Priv E.bp g.size (P.stack (n + 1) - 8) (inSize vs.length) a → Near (m.regs .sp) (P.stack (n + 1)) (8 + 8 * (vs.length - 6)) a) ∧
    (∀ a, E.ok a = true → ¬ Priv E.bp g.size (P.stack (n + 1) - 8) (inSize vs.length) a) ∧
    Serves E (nest I items n) g.size (P.stack (n + 1) - 8) (inSize vs.length) (P.stack n) ∧ Entered E g.size (P.stack (n + 1) - 8) (inSize vs.length) m.mem m := by
  have hst : P.stack (n + 1) = P.stack n + P.each := by simp only [Prog.stack]; rw [Nat.succ_mul, Nat.add_assoc]
  have hbp : E.bp = m.regs .sp - 8 := by rw [← hE]; rfl
  have hEok : E.ok = withFrame ok (m.regs .sp - 8) g.size := by rw [← hE]; rfl
  have hEargs : E.args = vs := by rw [← hE]; rfl
  have hglob : E.glob = P.sym := by rw [← hE]; rfl
  have hcall : E.call = P.call n E.ok := by rw [← hE]; rfl
  have hpn : ∀ a, Priv E.bp g.size (P.stack (n + 1) - 8) (inSize vs.length) a → Near (m.regs .sp) (P.stack (n + 1)) (8 + 8 * (vs.length - 6)) a := by
    intro a ha
    rw [hbp] at ha
    exact priv_near (by omega) hn hT ha
  have hok : ∀ a, E.ok a = true → ¬ Priv E.bp g.size (P.stack (n + 1) - 8) (inSize vs.length) a := by
    intro a ha hp
    rw [hEok] at ha
    rcases withFrame_true ha with ha | ha
    · rw [hfree.2 a (hpn a hp)] at ha
      cases ha
    · rw [hbp] at hp
      exact frame_priv (by omega) hn hT ha hp
  have hserves : Serves E (nest I items n) g.size (P.stack (n + 1) - 8) (inSize vs.length) (P.stack n) := by
    refine serves_of (nest_abi n habi) (by rw [nest_sym, hglob, hsym]) hok (by omega) hT ?_
    intro t vs s M w y hc
    rw [hcall] at hc
    exact ih _ _ _ _ _ _ _ hc
  have hent : Entered E g.size (P.stack (n + 1) - 8) (inSize vs.length) m.mem m := by
    refine ⟨?_, hfree.1, ?_, fun _ _ => rfl⟩
    · rw [hbp, sub8, add8, rel64_rel64, show (-8 : Int) + 8 = 0 from rfl, rel64_zero]
    · rw [hEargs]; exact hargs
  exact ⟨hpn, hok, hserves, hent⟩

theorem provides_in {P : Prog W} {I : Image W} {items : List Item} {n : Nat} {g : Fn} {vs : List Val} {ok : BitVec 64 → Bool} {s : Sfx} {M : Mem} {w : W} {y : Mem × W × BitVec 64}
    (hn : P.stack (n + 1) < 2 ^ 61) (habi : ∀ p w, Abi (I.host.env p w)) (hsym : I.host.sym = P.sym) (hg : Good P I items g vs)
    (ih : ∀ ok t vs s M w y, P.call n ok t vs s M w = some y → Provides (nest I items n).fn (P.stack n) ok t vs s M w y ∧ ∀ a, ok a = false → y.1 a = M a)
    (h : P.Does (P.call n) (P.stack (n + 1)) g ok vs s M w y) : Provides (nest I items (n + 1)).fn (P.stack (n + 1)) ok (P.sym g.name) vs s M w y := by
  intro m hfree hargs hmem
  obtain ⟨⟨p, need, hloc, hsz, hrun⟩, hT⟩ := hg
  obtain ⟨k, r, M1, hex, hv, h1, h2⟩ := h.2.2 (m.regs .sp) m.mem hfree hmem
  have hst : P.stack (n + 1) = P.stack n + P.each := by simp only [Prog.stack]; rw [Nat.succ_mul, Nat.add_assoc]
  generalize hE : P.env (P.call n) g ok (m.regs .sp - 8) vs = E at hex
  obtain ⟨hpn, hok, hserves, hent⟩ := setup hn habi hsym hsz hT ih hfree hargs hE
  have hEok : E.ok = withFrame ok (m.regs .sp - 8) g.size := by rw [← hE]; rfl
  have hEargs : E.args = vs := by rw [← hE]; rfl
  have hglob : E.glob = P.sym := by rw [← hE]; rfl
  obtain ⟨L, K, key⟩ := hrun E hglob hEargs
  rw [hEargs] at key
  have hd := key (nest I items n) (P.stack (n + 1) - 8) (P.stack n) (by omega) hT (by omega) hserves m m.mem w k r M1 y.2.1 hent hex
  have fin : ∀ ret : Option Val, (∀ v, ret = some v → get m .ax s = get m .ax s) →
      (∃ t a m', ticks (nest I items n) items (.at p m w) t = some (.done a m' y.2.1) ∧ Returned E g.size (P.stack (n + 1) - 8) (inSize vs.length) m M1 ret a m') →
      (∀ m', (∀ v, ret = some v → get m' .ax v.1 = v.2) → get m' .ax s = y.2.2.setWidth s.bits) →
      ∃ m', (nest I items (n + 1)).fn (P.sym g.name) m w = some (m', y.2.1) ∧ get m' .ax s = y.2.2.setWidth s.bits ∧ (∀ a, ok a = true → m'.mem a = y.1 a) ∧
        ∀ a, ok a = false → ¬ Near (m.regs .sp) (P.stack (n + 1)) (8 + 8 * (vs.length - 6)) a → m'.mem a = m.mem a := by
    rintro ret - ⟨t, a, m', ht, hr⟩ hres
    refine ⟨m', nest_of hloc ⟨⟨t, by rw [ht, hr.back]⟩, hr.kept, hr.sp⟩, hres m' hr.result, ?_, ?_⟩
    · intro x hx
      rw [hr.mem x (hok x (by rw [hEok]; simp [withFrame, hx])), h1 x hx]
    · intro x hx hne
      rw [hr.mem x fun hp => hne (hpn x hp)]
      apply h2
      cases hw : withFrame ok (m.regs .sp - 8) g.size x with
      | false => rfl
      | true =>
        rcases withFrame_true hw with h3 | h3
        · rw [hx] at h3; cases h3
        · exact absurd (frame_near (by omega) hn hT h3) hne
  have none0 : ∀ m' : Mach, s = .none → get m' .ax s = y.2.2.setWidth s.bits := by
    intro m' hs
    subst hs
    apply BitVec.eq_of_toNat_eq
    have h1 := (get m' .ax .none).isLt
    have h2 := (y.2.2.setWidth Sfx.none.bits).isLt
    rw [show 2 ^ Sfx.none.bits = 1 from rfl] at h1 h2
    omega
  cases r with
  | norm =>
    refine fin none (fun _ _ => rfl) hd fun m' _ => none0 m' ?_
    simp only [valueOf] at hv
    split at hv
    · assumption
    · cases hv
  | ret v =>
    refine fin v (fun _ _ => rfl) hd fun m' hm' => ?_
    cases v with
    | none =>
      refine none0 m' ?_
      simp only [valueOf] at hv
      split at hv
      · assumption
      · cases hv
    | some v =>
      simp only [valueOf] at hv
      split at hv
      · rename_i hs
        subst hs
        rw [hm' v rfl, ← Option.some.inj hv, BitVec.setWidth_setWidth_of_le]
        · simp
        · cases v.1 <;> decide
      · split at hv
        · exact none0 m' ‹_›
        · cases hv
  | brk => exact hd.elim
  | cont => exact hd.elim
  | more => simp [valueOf] at hv

theorem near_mono {a x : BitVec 64} {b c b' : Nat} (hb : b ≤ b') (h' : b' + c ≤ 2 ^ 64) (h : Near a b c x) : Near a b' c x := by
  obtain ⟨z, rfl, h1, h2⟩ := near_rel h
  exact rel_near (by omega) h2 h'

theorem provides_mono {fn : BitVec 64 → Mach → W → Option (Mach × W)} {room room' : Nat} {ok : BitVec 64 → Bool} {t : BitVec 64} {vs : List Val} {s : Sfx} {M : Mem} {w : W}
    {y : Mem × W × BitVec 64} (hr : room ≤ room') (h' : room' + (8 + 8 * (vs.length - 6)) ≤ 2 ^ 64) (h : Provides fn room ok t vs s M w y) : Provides fn room' ok t vs s M w y := by
  intro m hf ha hm
  obtain ⟨m', h1, h2, h3, h4⟩ := h m ⟨hf.1, fun x hx => hf.2 x (near_mono hr h' hx)⟩ ha hm
  exact ⟨m', h1, h2, h3, fun a h5 h6 => h4 a h5 fun h7 => h6 (near_mono hr h' h7)⟩

theorem provides_all {P : Prog W} {I : Image W} {items : List Item} (hout : Outside P I) (hsym : I.host.sym = P.sym)
    (hg : ∀ g ∈ P.fns, ∀ vs, (∃ I k σ r, execFunc (W := W) I k g.scope g.name.val g.ps g.rt g.body vs σ = some r) → Good P I items g vs) :
    ∀ n, P.stack n < 2 ^ 61 → ∀ ok t vs s M w y, P.call n ok t vs s M w = some y →
      Provides (nest I items n).fn (P.stack n) ok t vs s M w y ∧ ∀ a, ok a = false → y.1 a = M a := by
  have ext : ∀ n, P.stack n < 2 ^ 61 → ∀ ok t vs s M w y, P.fn t = none → P.ext ok t vs s M w = some y →
      Provides (nest I items n).fn (P.stack n) ok t vs s M w y ∧ ∀ a, ok a = false → y.1 a = M a := by
    intro n hn ok t vs s M w y ht h
    obtain ⟨h1, h2, h3, h4⟩ := hout.does ok t vs s M w y ht h
    refine ⟨?_, h4⟩
    intro m hf ha hm
    have := provides_mono (room' := P.stack n) (by simp [Prog.stack]) (by omega) h3 m hf ha hm
    simpa only [nest_out n h1] using this
  intro n
  induction n with
  | zero =>
    intro hn ok t vs s M w y h
    simp only [Prog.call] at h
    cases ht : P.fn t with
    | some g => simp [ht] at h
    | none =>
      simp only [ht] at h
      exact ext 0 hn ok t vs s M w y ht h
  | succ n ih =>
    intro hn ok t vs s M w y h
    simp only [Prog.call] at h
    cases ht : P.fn t with
    | none =>
      simp only [ht] at h
      exact ext (n + 1) hn ok t vs s M w y ht h
    | some g =>
      simp only [ht] at h
      split at h
      · rename_i hex
        have hy := hex.choose_spec
        rw [Option.some.inj h] at hy
        have hmem := List.mem_of_find?_eq_some ht
        have htg : P.sym g.name = t := by simpa using List.find?_some ht
        refine ⟨?_, hy.2.1⟩
        obtain ⟨sp, hsp⟩ := hy.1
        obtain ⟨k, r, M1, he, -⟩ := hy.2.2 sp M hsp fun _ _ => rfl
        rw [← htg]
        refine provides_in hn hout.abi hsym (hg g hmem vs ⟨_, _, _, _, he⟩) (ih ?_) hy
        simp only [Prog.stack] at hn ⊢
        rw [Nat.succ_mul] at hn
        omega
      · cases h

end X86
end Umlcc
