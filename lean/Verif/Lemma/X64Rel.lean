import Verif.Lemma.X64Tick
import Verif.Lemma.SimMach
/-!
Helper lemmas: the relation between a run of allocated intermediate code and the run of its machine code.
-/
namespace Umlcc
namespace X86
open X64 ISem
open IMach (Val)
open Sim (rv pv upd)

variable {W : Type}

/-! ### one step of the intermediate machine -/

/-- what an instruction does, its operands' registers holding `R` -/
abbrev execI (E : IMach.Env W) (i : Inst) (R : Int → Val) (st : IMach.St W) : Option (IMach.St W × Val × Bool) :=
  IMach.exec E i.op (RSpec.eraseOpe i.dst) (RSpec.eraseOpe i.fst) (RSpec.eraseOpe i.snd) (rv R i.fst) (rv R i.snd) (pv R i.dst) st

theorem execI_bin {E : IMach.Env W} {op : IOp} {R : Int → Val} {st st' : IMach.St W} {v : Val} {t : Bool} {ds fs : Sfx} {d f : Int} {du fu : Bool} {o : Ope}
    (ho : op = .add ∨ op = .sub ∨ op = .mul ∨ op = .div ∨ op = .mod ∨ op = .and ∨ op = .or ∨ op = .xor ∨ op = .sal ∨ op = .sar)
    (h : execI E ⟨op, some (.reg ds d du), some (.reg fs f fu), some o⟩ R st = some (st', v, t)) :
    ds ≠ .none ∧ ∃ a b c, IMach.src (some (.reg fs f fu)) (some (R f)) (IMach.wider fs (IMach.width (some o))) = some a ∧
      IMach.src (some o) (rv R (some o)) (IMach.wider fs (IMach.width (some o))) = some b ∧ IMach.arith op du fu a b = some c ∧
      st' = st ∧ v = ⟨ds, conv du c ds.bits⟩ := by
  cases o with
  | reg s r u =>
    rcases ho with rfl | rfl | rfl | rfl | rfl | rfl | rfl | rfl | rfl | rfl <;>
    · simp only [execI, IMach.exec, RSpec.eraseOpe, pv, IMach.width, IMach.isUns] at h
      by_cases hd : ds = .none
      · rw [if_pos hd] at h
        cases h
      rw [if_neg hd] at h
      refine ⟨hd, ?_⟩
      generalize ha : IMach.src (some (.reg fs 0 fu)) _ _ = x at h
      generalize hb : IMach.src (some (.reg s 0 u)) _ _ = y at h
      rcases x with _ | a
      · cases h
      rcases y with _ | b
      · cases h
      obtain ⟨c, hc, h⟩ := Option.map_eq_some_iff.1 h
      cases h
      exact ⟨a, b, c, ha, hb, hc, rfl, rfl⟩
  | int s l =>
    rcases ho with rfl | rfl | rfl | rfl | rfl | rfl | rfl | rfl | rfl | rfl <;>
    · simp only [execI, IMach.exec, RSpec.eraseOpe, pv, IMach.width, IMach.isUns] at h
      by_cases hd : ds = .none
      · rw [if_pos hd] at h
        cases h
      rw [if_neg hd] at h
      refine ⟨hd, ?_⟩
      generalize ha : IMach.src (some (.reg fs 0 fu)) _ _ = x at h
      generalize hb : IMach.src (some (.int s l)) _ _ = y at h
      rcases x with _ | a
      · cases h
      rcases y with _ | b
      · cases h
      obtain ⟨c, hc, h⟩ := Option.map_eq_some_iff.1 h
      cases h
      exact ⟨a, b, c, ha, hb, hc, rfl, rfl⟩
  | _ =>
    exfalso
    rcases ho with rfl | rfl | rfl | rfl | rfl | rfl | rfl | rfl | rfl | rfl <;>
    · simp only [execI, IMach.exec, RSpec.eraseOpe, pv, IMach.width, IMach.isUns] at h
      by_cases hd : ds = .none
      · rw [if_pos hd] at h
        cases h
      rw [if_neg hd] at h
      generalize IMach.src (some (.reg fs 0 fu)) _ _ = x at h
      rcases x with _ | a <;> cases h

theorem execI_rel {E : IMach.Env W} {op : IOp} {R : Int → Val} {st st' : IMach.St W} {v : Val} {t : Bool} {ds fs : Sfx} {d f : Int} {du fu : Bool} {o : Ope}
    (ho : op = .seteq ∨ op = .setneq ∨ op = .setlt ∨ op = .setgt ∨ op = .setleq ∨ op = .setgeq)
    (h : execI E ⟨op, some (.reg ds d du), some (.reg fs f fu), some o⟩ R st = some (st', v, t)) :
    ds ≠ .none ∧ ∃ a b c, IMach.src (some (.reg fs f fu)) (some (R f)) (IMach.wider fs (IMach.width (some o))) = some a ∧
      IMach.src (some o) (rv R (some o)) (IMach.wider fs (IMach.width (some o))) = some b ∧ rel op fu a b = some c ∧
      st' = st ∧ v = ⟨ds, if c then 1 else 0⟩ := by
  cases o with
  | reg s r u =>
    rcases ho with rfl | rfl | rfl | rfl | rfl | rfl <;>
    · simp only [execI, IMach.exec, RSpec.eraseOpe, pv, IMach.width, IMach.isUns] at h
      by_cases hd : ds = .none
      · rw [if_pos hd] at h
        cases h
      rw [if_neg hd] at h
      refine ⟨hd, ?_⟩
      generalize ha : IMach.src (some (.reg fs 0 fu)) _ _ = x at h
      generalize hb : IMach.src (some (.reg s 0 u)) _ _ = y at h
      rcases x with _ | a
      · cases h
      rcases y with _ | b
      · cases h
      obtain ⟨c, hc, h⟩ := Option.map_eq_some_iff.1 h
      cases h
      exact ⟨a, b, c, ha, hb, hc, rfl, rfl⟩
  | int s l =>
    rcases ho with rfl | rfl | rfl | rfl | rfl | rfl <;>
    · simp only [execI, IMach.exec, RSpec.eraseOpe, pv, IMach.width, IMach.isUns] at h
      by_cases hd : ds = .none
      · rw [if_pos hd] at h
        cases h
      rw [if_neg hd] at h
      refine ⟨hd, ?_⟩
      generalize ha : IMach.src (some (.reg fs 0 fu)) _ _ = x at h
      generalize hb : IMach.src (some (.int s l)) _ _ = y at h
      rcases x with _ | a
      · cases h
      rcases y with _ | b
      · cases h
      obtain ⟨c, hc, h⟩ := Option.map_eq_some_iff.1 h
      cases h
      exact ⟨a, b, c, ha, hb, hc, rfl, rfl⟩
  | _ =>
    exfalso
    rcases ho with rfl | rfl | rfl | rfl | rfl | rfl <;>
    · simp only [execI, IMach.exec, RSpec.eraseOpe, pv, IMach.width, IMach.isUns] at h
      by_cases hd : ds = .none
      · rw [if_pos hd] at h
        cases h
      rw [if_neg hd] at h
      generalize IMach.src (some (.reg fs 0 fu)) _ _ = x at h
      rcases x with _ | a <;> cases h

theorem execI_jcc {E : IMach.Env W} {op : IOp} {R : Int → Val} {st st' : IMach.St W} {v : Val} {t : Bool} {fs : Sfx} {f : Int} {fu : Bool} {o : Ope} {n : Name}
    (ho : op = .jeq ∨ op = .jneq ∨ op = .jgt ∨ op = .jgeq ∨ op = .jlt ∨ op = .jleq)
    (h : execI E ⟨op, some (.label n), some (.reg fs f fu), some o⟩ R st = some (st', v, t)) :
    ∃ a b, IMach.src (some (.reg fs f fu)) (some (R f)) (IMach.wider fs (IMach.width (some o))) = some a ∧
      IMach.src (some o) (rv R (some o)) (IMach.wider fs (IMach.width (some o))) = some b ∧ rel op fu a b = some t ∧
      st' = st := by
  cases o with
  | reg s r u =>
    rcases ho with rfl | rfl | rfl | rfl | rfl | rfl <;>
    · simp only [execI, IMach.exec, RSpec.eraseOpe, pv, IMach.width, IMach.isUns] at h
      generalize ha : IMach.src (some (.reg fs 0 fu)) _ _ = x at h
      generalize hb : IMach.src (some (.reg s 0 u)) _ _ = y at h
      rcases x with _ | a
      · cases h
      rcases y with _ | b
      · cases h
      obtain ⟨c, hc, h⟩ := Option.map_eq_some_iff.1 h
      cases h
      exact ⟨a, b, ha, hb, hc, rfl⟩
  | int s l =>
    rcases ho with rfl | rfl | rfl | rfl | rfl | rfl <;>
    · simp only [execI, IMach.exec, RSpec.eraseOpe, pv, IMach.width, IMach.isUns] at h
      generalize ha : IMach.src (some (.reg fs 0 fu)) _ _ = x at h
      generalize hb : IMach.src (some (.int s l)) _ _ = y at h
      rcases x with _ | a
      · cases h
      rcases y with _ | b
      · cases h
      obtain ⟨c, hc, h⟩ := Option.map_eq_some_iff.1 h
      cases h
      exact ⟨a, b, ha, hb, hc, rfl⟩
  | _ =>
    exfalso
    rcases ho with rfl | rfl | rfl | rfl | rfl | rfl <;>
    · simp only [execI, IMach.exec, RSpec.eraseOpe, pv, IMach.width, IMach.isUns] at h
      generalize IMach.src (some (.reg fs 0 fu)) _ _ = x at h
      rcases x with _ | a <;> cases h

/-- the source of an instruction with one source operand -/
theorem src_own {o : Ope} {R : Int → Val} {b : BitVec (IMach.width (RSpec.eraseOpe (some o))).bits}
    (h : IMach.src (RSpec.eraseOpe (some o)) (rv R (some o)) (IMach.width (RSpec.eraseOpe (some o))) = some b) :
    ∃ b' : BitVec (IMach.width (some o)).bits, IMach.src (some o) (rv R (some o)) (IMach.width (some o)) = some b' ∧
      (⟨IMach.width (RSpec.eraseOpe (some o)), b⟩ : Val) = ⟨IMach.width (some o), b'⟩ := by
  cases o with
  | reg s r u => exact ⟨b, h, rfl⟩
  | int s l => exact ⟨b, h, rfl⟩
  | _ => cases h

theorem execI_store {E : IMach.Env W} {d : Option Ope} {R : Int → Val} {st st' : IMach.St W} {v : Val} {t : Bool} {o : Ope} {so : Option Ope}
    (h : execI E ⟨.store, d, some o, so⟩ R st = some (st', v, t)) :
    ∃ a b, IMach.place E d (pv R d) = some a ∧ IMach.src (some o) (rv R (some o)) (IMach.width (some o)) = some b ∧
      IMach.may E d a (IMach.width (some o)).nbytes = true ∧
      st' = { st with mem := IMach.write st.mem a (IMach.width (some o)) b } := by
  simp only [execI, IMach.exec, Sim.place_erase, Sim.may_erase] at h
  split at h
  · rename_i a b ha hb
    obtain ⟨b', h1, h2⟩ := src_own hb
    split at h
    case isFalse => cases h
    rename_i hm
    refine ⟨a, b', ha, h1, by rw [Sim.width_erase] at hm; exact hm, ?_⟩
    have : st' = { st with mem := IMach.write st.mem a (⟨IMach.width (RSpec.eraseOpe (some o)), b⟩ : Val).1 (⟨IMach.width (RSpec.eraseOpe (some o)), b⟩ : Val).2 } := by
      cases h; rfl
    rw [this, h2]
  · cases h

theorem execI_stret {E : IMach.Env W} {d : Option Ope} {R : Int → Val} {st st' : IMach.St W} {v : Val} {t : Bool} {o : Ope} {so : Option Ope}
    (h : execI E ⟨.stret, d, some o, so⟩ R st = some (st', v, t)) :
    ∃ b, IMach.src (some o) (rv R (some o)) (IMach.width (some o)) = some b ∧ st' = { st with ret := some ⟨IMach.width (some o), b⟩ } := by
  simp only [execI, IMach.exec, IMach.result] at h
  obtain ⟨b, hb, h⟩ := Option.map_eq_some_iff.1 h
  obtain ⟨b', h1, h2⟩ := src_own hb
  refine ⟨b', h1, ?_⟩
  rw [h2] at h
  cases h; rfl

theorem execI_starg {E : IMach.Env W} {R : Int → Val} {st st' : IMach.St W} {v : Val} {t : Bool} {o : Ope} {so : Option Ope} {s : Sfx} {j : Int} {u : Bool}
    (h : execI E ⟨.starg, some (.arg s j u), some o, so⟩ R st = some (st', v, t)) :
    ∃ b xs rest, IMach.src (some o) (rv R (some o)) (IMach.width (some o)) = some b ∧ st.out = xs :: rest ∧ 0 ≤ j ∧
      st' = { st with out := ((j.toNat, ⟨IMach.width (some o), b⟩) :: xs) :: rest } := by
  change IMach.exec E .starg (some (.arg s j u)) (RSpec.eraseOpe (some o)) (RSpec.eraseOpe so) (rv R (some o)) (rv R so) none st = _ at h
  simp only [IMach.exec, IMach.result] at h
  split at h
  · rename_i hd hb hx
    cases hd
    obtain ⟨b', h1, h2⟩ := src_own hb
    split at h
    · rename_i hj
      refine ⟨b', _, _, h1, hx, hj, ?_⟩
      rw [h2] at h
      cases h; rfl
    · cases h
  · cases h

theorem wider_greater (a b : Sfx) : IMach.wider a b = a.greater b := by cases a <;> cases b <;> decide
theorem width_sfxOf (o : Ope) : IMach.width (some o) = sfxOf o := by cases o <;> rfl

/-! ### registers and stack -/

/-- bytes below the frame base when no call is in preparation -/
def base (F ev : Nat) : Nat := F + 8 * (ev + ev % 2)

/-- padding of a call in preparation -/
def Prep.pad (p : Prep) : Nat := if 6 < p.n ∧ p.n % 2 = 1 then 8 else 0

/-- arguments stored for a call with `n` of them, newest first, below `y` -/
def ArgsAt (bp : BitVec 64) (m : Mach) (n : Nat) (y : Int) : List (Nat × Val) → Prop
  | [] => True
  | (j, v) :: xs => xs.length + 1 + j = n ∧ (load m (rel64 bp (y - 8 * (xs.length + 1 : Nat))) .quad).setWidth v.1.bits = v.2 ∧ ArgsAt bp m n y xs

/-- the arguments stored for the calls in preparation -/
def Stacked (bp : BitVec 64) (B : Nat) (m : Mach) : List Prep → List (List (Nat × Val)) → Prop
  | [], _ => True
  | p :: ps, xs :: g => (p.called = false → xs.length = p.k ∧ ArgsAt bp m p.n (-(B + heldAll ps : Nat) - p.pad) xs) ∧ Stacked bp B m ps g
  | _ :: _, [] => False

/-- everything but the registers of the code -/
structure Core (E : IMach.Env W) (F D T ev : Nat) (e m0 : Mach) (ps : List Prep) (st : IMach.St W) (m : Mach) : Prop where
  mem : ∀ a, ¬ Priv E.bp F D T a → m.mem a = st.mem a
  bp : m.regs .bp = E.bp
  sp : m.regs .sp = rel64 E.bp (-(base F ev + heldAll ps : Nat))
  kept : ∀ x : Int, (-(base F ev : Int) ≤ x ∧ x < -(F : Int)) ∨ (0 ≤ x ∧ x < T) → m.mem (rel64 E.bp x) = m0.mem (rel64 E.bp x)
  saved : ∀ r ∈ sysvKept, r ≠ .bp → r ∉ calleeSaved.take ev → m.regs r = e.regs r
  stack : Stacked E.bp (base F ev) m ps st.out

/-- registers the intermediate code may rely on -/
def Holds (live : Int → Prop) (R : Int → Val) (m : Mach) : Prop := ∀ u r, live u → callerAt u = .ok r → get m r (R u).1 = (R u).2

/-- registers after an instruction -/
def after (i : Inst) (R : Int → Val) (v : Val) : Int → Val :=
  match RSpec.writes (.inst i) with
  | some r => upd R r v
  | none => R

theorem load_congr {m m' : Mach} {a : BitVec 64} {s : Sfx} (h : ∀ i, i < s.nbytes → m'.mem (a + BitVec.ofNat 64 i) = m.mem (a + BitVec.ofNat 64 i)) :
    load m' a s = load m a s := by
  unfold load
  rw [readLE_congr _ _ _ _ h]

theorem argsAt_congr {bp : BitVec 64} {m m' : Mach} {n : Nat} {y : Int} : ∀ {xs : List (Nat × Val)},
    (∀ x : Int, y - 8 * xs.length ≤ x → x < y → m'.mem (rel64 bp x) = m.mem (rel64 bp x)) → ArgsAt bp m n y xs → ArgsAt bp m' n y xs := by
  intro xs
  induction xs with
  | nil => intro _ _; trivial
  | cons p xs ih =>
    obtain ⟨j, v⟩ := p
    intro h ⟨h1, h2, h3⟩
    simp only [List.length_cons] at h
    refine ⟨h1, ?_, ih (fun x hx hy => h x (by omega) hy) h3⟩
    have : load m' (rel64 bp (y - 8 * (xs.length + 1 : Nat))) .quad = load m (rel64 bp (y - 8 * (xs.length + 1 : Nat))) .quad := by
      apply load_congr
      intro i hi
      have hi' : i < 8 := hi
      rw [addNat, rel64_rel64]
      exact h _ (by omega) (by omega)
    rw [this]
    exact h2

theorem stacked_congr {bp : BitVec 64} {m m' : Mach} {B : Nat} : ∀ {ps : List Prep} {g : List (List (Nat × Val))},
    (∀ x : Int, -(B + heldAll ps : Nat) ≤ x → x < -(B : Int) → m'.mem (rel64 bp x) = m.mem (rel64 bp x)) → Stacked bp B m ps g → Stacked bp B m' ps g := by
  intro ps
  induction ps with
  | nil => intro g _ _; trivial
  | cons p ps ih =>
    intro g h hs
    cases g with
    | nil => exact hs
    | cons xs g =>
      obtain ⟨h1, h2⟩ := hs
      simp only [heldAll] at h
      refine ⟨fun hc => ?_, ih (fun x hx hy => h x (by omega) hy) h2⟩
      obtain ⟨h3, h4⟩ := h1 hc
      refine ⟨h3, argsAt_congr (fun x hx hy => h x ?_ ?_) h4⟩
      · rw [h3] at hx
        have : p.held = p.pad + 8 * p.k := by simp [Prep.held, Prep.pad, hc]
        omega
      · omega

theorem priv_of {bp : BitVec 64} {F D T : Nat} {x : Int} (h : (-(D : Int) ≤ x ∧ x < -(F : Int)) ∨ (0 ≤ x ∧ x < T)) : Priv bp F D T (rel64 bp x) :=
  ⟨x, rfl, h⟩

/-- an instruction that changes neither the private bytes nor the registers with a fixed role -/
theorem Core.step {E : IMach.Env W} {F D T ev : Nat} {e m0 m m' : Mach} {ps : List Prep} {st st' : IMach.St W} (h : Core E F D T ev e m0 ps st m)
    (hroom : base F ev + heldAll ps ≤ D) (hout : st'.out = st.out) (hp : ∀ a, Priv E.bp F D T a → m'.mem a = m.mem a)
    (hn : ∀ a, ¬ Priv E.bp F D T a → m'.mem a = st'.mem a)
    (hr : ∀ r, r = .sp ∨ r = .bp ∨ (r ∈ sysvKept ∧ r ∉ calleeSaved.take ev) → m'.regs r = m.regs r) : Core E F D T ev e m0 ps st' m' where
  mem := hn
  bp := by rw [hr _ (by simp)]; exact h.bp
  sp := by rw [hr _ (by simp)]; exact h.sp
  kept := by
    intro x hx
    rw [hp _ (priv_of (by unfold base at *; omega))]
    exact h.kept x hx
  saved := by
    intro r h1 h2 h3
    rw [hr _ (by simp [h1, h3])]
    exact h.saved r h1 h2 h3
  stack := by
    rw [hout]
    refine stacked_congr (fun x hx hy => hp _ (priv_of ?_)) h.stack
    unfold base at *; omega

theorem callerAt_ex {u : Int} (h : 0 ≤ u ∧ u < 8) : ∃ r, callerAt u = .ok r := by
  have : u.toNat < callerSaved.length := by simp [callerSaved]; omega
  refine ⟨callerSaved[u.toNat], ?_⟩
  simp [callerAt, h.1, List.getElem?_eq_getElem this]

theorem caller_fixed {u : Int} {r q : Reg} (h : callerAt u = .ok r) (hq : q = .sp ∨ q = .bp ∨ q ∈ sysvKept) : q ≠ r := by
  have := (caller_ok h).2.2.2.2.2
  rintro rfl
  cases q <;> simp_all [callerSaved, sysvKept]

theorem ax_fixed {q : Reg} (hq : q = .sp ∨ q = .bp ∨ q ∈ sysvKept) : q ≠ .ax := by
  rintro rfl
  simp_all [sysvKept]

theorem r10_fixed {q : Reg} (hq : q = .sp ∨ q = .bp ∨ q ∈ sysvKept) : q ≠ .r10 := by
  rintro rfl
  simp_all [sysvKept]

theorem dx_fixed {q : Reg} (hq : q = .sp ∨ q = .bp ∨ q ∈ sysvKept) : q ≠ .dx := by
  rintro rfl
  simp_all [sysvKept]

/-- the operand's value, in the machine -/
theorem src_opVal {P : Int → Prop} {R : Int → Val} {m : Mach} {o : Ope} {w : Sfx} {b : BitVec w.bits} (hR : Holds P R m)
    (hP : ∀ s u k, o = .reg s u k → P u ∧ 0 ≤ u ∧ u < 8) (h : IMach.src (some o) (rv R (some o)) w = some b) :
    opVal m w o = some b ∧ sfxOf o ≠ .none ∧ ∀ s u k, o = .reg s u k → (R u).1 = s := by
  cases o with
  | reg s u k =>
    obtain ⟨hp, hu⟩ := hP s u k rfl
    obtain ⟨r, hr⟩ := callerAt_ex hu
    simp only [IMach.src, rv] at h
    split at h
    · rename_i hs
      obtain ⟨rfl, hn⟩ := hs
      have := hR u r hp hr
      refine ⟨?_, hn, fun s' u' k' e => by cases e; rfl⟩
      rw [opVal_reg hr hn, this, h]
    · cases h
  | int s l =>
    simp only [IMach.src] at h
    split at h
    · rename_i hs
      exact ⟨h, hs, fun _ _ _ e => by cases e⟩
    · cases h
  | _ => simp [IMach.src] at h

end X86
end Umlcc
