import Verif.Spec.Program
import Verif.Lemma.X64Tick
import Verif.Lemma.X64StepMem
/-!
Helper lemmas: functions that call each other. First the machine with every call done at once, up to a depth of calls (`nest`); then the machine that goes on in the called
function.
-/
namespace Umlcc
namespace X86
open X64 (Item XInst)
open IMach (Val Mem)
open CStm (Near Free withFrame)

variable {W : Type}

/-! ### addresses -/

theorem near_rel {a x : BitVec 64} {b c : Nat} (h : Near a b c x) : ∃ z : Int, x = rel64 a z ∧ -(b : Int) ≤ z ∧ z < c := by
  refine ⟨((x - (a - BitVec.ofNat 64 b)).toNat : Int) - b, ?_, by omega, by unfold Near at h; omega⟩
  unfold rel64
  rw [Int.sub_eq_add_neg, BitVec.ofInt_add, BitVec.ofInt_neg, BitVec.ofInt_natCast, BitVec.ofInt_natCast, BitVec.ofNat_toNat, BitVec.setWidth_eq]
  rw [← BitVec.sub_eq_add_neg]
  generalize BitVec.ofNat 64 b = q
  apply BitVec.eq_of_toNat_eq
  simp only [BitVec.toNat_sub, BitVec.toNat_add]
  have := a.isLt; have := x.isLt; have := q.isLt
  omega

theorem rel_near {a : BitVec 64} {b c : Nat} {z : Int} (h1 : -(b : Int) ≤ z) (h2 : z < c) (h : b + c ≤ 2 ^ 64) : Near a b c (rel64 a z) := by
  unfold Near
  rw [show a - BitVec.ofNat 64 b = rel64 a (-(b : Int)) by rw [← subInt, BitVec.ofInt_natCast], rel64_sub_toNat _ _ _ (by omega) (by omega)]
  omega

/-! ### calls made by a function -/

theorem serves_of {E : IMach.Env W} {H : Host W} {F D T room : Nat} (habi : ∀ p w, Abi (H.env p w)) (hg : E.glob = H.sym) (hok : ∀ a, E.ok a = true → ¬ Priv E.bp F D T a)
    (hD : D < 2 ^ 61) (hT : T < 2 ^ 61)
    (hc : ∀ t vs s M w y, E.call t vs s M w = some y → Provides H.fn room E.ok t vs s M w y ∧ ∀ a, E.ok a = false → y.1 a = M a) : Serves E H F D T room := by
  refine ⟨habi, hok, hg, ?_⟩
  intro t vs s M w M' w' r m x hcall hsp hx1 hx2 hal hargs hmem
  obtain ⟨hp, hun⟩ := hc t vs s M w _ hcall
  have hpriv : ∀ a, Near (m.regs .sp) room (8 + 8 * (vs.length - 6)) a → Priv E.bp F D T a := by
    intro a ha
    obtain ⟨z, rfl, h1, h2⟩ := near_rel ha
    refine ⟨x + z, ?_, Or.inl ⟨by omega, by omega⟩⟩
    rw [hsp, addInt, rel64_rel64]
    rfl
  have hno : ∀ a, Priv E.bp F D T a → E.ok a = false := by
    intro a ha
    cases h : E.ok a with
    | false => rfl
    | true => exact absurd ha (hok a h)
  obtain ⟨m', h1, h2, h3, h4⟩ := hp m ⟨hal, fun a ha => hno a (hpriv a ha)⟩ hargs fun a ha => hmem a (hok a ha)
  refine ⟨m', h1, h2, ?_, ?_⟩
  · intro a ha
    cases h : E.ok a with
    | true => exact h3 a h
    | false =>
      rw [h4 a h fun hn => ha (hpriv a hn), hmem a ha]
      exact (hun a h).symm
  · intro y hy hpy hyT
    refine h4 _ (hno _ hpy) ?_
    intro hn
    obtain ⟨z, hz, h5, h6⟩ := near_rel hn
    rw [hsp, addInt, addInt, rel64_rel64] at hz
    have := rel64_ofInt_inj hz ⟨by omega, by omega⟩ ⟨by omega, by omega⟩
    omega

/-! ### calls done at once -/

/-- entered at item `p`, the code comes back to the return address, obeying the calling convention -/
def ComesBack (H : Host W) (code : List Item) (p : Nat) (m : Mach) (w : W) (y : Mach × W) : Prop :=
  (∃ k, ticks H code (.at p m w) k = some (.done (load m (m.regs .sp) .quad) y.1 y.2)) ∧ (∀ r ∈ sysvKept, y.1.regs r = m.regs r) ∧ y.1.regs .sp = m.regs .sp + 8

open Classical in
noncomputable def nest (I : Image W) (code : List Item) : Nat → Host W
  | 0 => ⟨I.host.sym, fun t m w => match I.locate t with
    | some _ => none
    | none => I.host.fn t m w, I.host.back⟩
  | n + 1 => ⟨I.host.sym, fun t m w => match I.locate t with
    | some p => if h : ∃ y, ComesBack (nest I code n) code p m w y then some h.choose else none
    | none => I.host.fn t m w, I.host.back⟩

theorem nest_sym {I : Image W} {code : List Item} (n : Nat) : (nest I code n).sym = I.host.sym := by cases n <;> rfl
theorem nest_back {I : Image W} {code : List Item} (n : Nat) : (nest I code n).back = I.host.back := by cases n <;> rfl
theorem nest_out {I : Image W} {code : List Item} (n : Nat) {t : BitVec 64} (h : I.locate t = none) (m : Mach) (w : W) : (nest I code n).fn t m w = I.host.fn t m w := by
  cases n <;> simp [nest, h]
theorem nest_in {I : Image W} {code : List Item} {n : Nat} {t : BitVec 64} {p : Nat} (h : I.locate t = some p) {m : Mach} {w : W} {y : Mach × W}
    (hy : (nest I code n).fn t m w = some y) : ∃ k, n = k + 1 ∧ ComesBack (nest I code k) code p m w y := by
  cases n with
  | zero => simp [nest, h] at hy
  | succ n =>
    refine ⟨n, rfl, ?_⟩
    simp only [nest, h] at hy
    split at hy
    · rename_i hex
      cases hy
      exact hex.choose_spec
    · cases hy

theorem done_none {H : Host W} {code : List Item} {a : BitVec 64} {x : Mach} {v : W} : ∀ d, ticks H code (.done a x v) (d + 1) = none
  | 0 => rfl
  | d + 1 => by rw [ticks, done_none d]; rfl

theorem done_unique {H : Host W} {code : List Item} {c : Conf W} {s t : Nat} {a b : BitVec 64} {x y : Mach} {v w : W} (h1 : ticks H code c s = some (.done a x v))
    (h2 : ticks H code c t = some (.done b y w)) : (x, v) = (y, w) := by
  rcases Nat.lt_trichotomy s t with h | h | h
  · obtain ⟨d, rfl⟩ := Nat.exists_eq_add_of_lt h
    rw [Nat.add_assoc, ticks_add, h1, Option.bind_some, done_none] at h2
    cases h2
  · subst h
    rw [h1] at h2
    cases h2; rfl
  · obtain ⟨d, rfl⟩ := Nat.exists_eq_add_of_lt h
    rw [Nat.add_assoc, ticks_add, h2, Option.bind_some, done_none] at h1
    cases h1

theorem nest_of {I : Image W} {code : List Item} {n : Nat} {t : BitVec 64} {p : Nat} (h : I.locate t = some p) {m : Mach} {w : W} {y : Mach × W}
    (hy : ComesBack (nest I code n) code p m w y) : (nest I code (n + 1)).fn t m w = some y := by
  have hex : ∃ y, ComesBack (nest I code n) code p m w y := ⟨y, hy⟩
  simp only [nest, h, dif_pos hex]
  obtain ⟨⟨k, h1⟩, -⟩ := hex.choose_spec
  obtain ⟨⟨k', h2⟩, -⟩ := hy
  have := done_unique h1 h2
  simp only [Prod.mk.injEq] at this
  exact congrArg some (Prod.ext this.1 this.2)

theorem nest_abi {I : Image W} {code : List Item} (n : Nat) (h : ∀ p w, Abi (I.host.env p w)) (p : Nat) (w : W) : Abi ((nest I code n).env p w) := by
  intro t x y hy
  simp only [Host.env, Option.map_eq_some_iff] at hy
  obtain ⟨⟨m', w'⟩, hy, rfl⟩ := hy
  cases hl : I.locate t with
  | none =>
    rw [nest_out n hl] at hy
    exact h p w t x m' (by simp only [Host.env, hy]; rfl)
  | some q =>
    obtain ⟨k, -, h1⟩ := nest_in hl hy
    exact h1.2

/-! ### going on in the called function -/

theorem hops_add (I : Image W) (code : List Item) (c : Conf W) (a b : Nat) : hops I code c (a + b) = (hops I code c a).bind fun c' => hops I code c' b := by
  induction b with
  | zero => simp [hops]
  | succ b ih =>
    rw [Nat.add_succ, hops, ih, Option.bind_assoc]
    rfl

/-- the configuration of the whole program -/
def Image.flat (I : Image W) : Conf W → Conf W
  | .done a m w => I.goto a m w
  | c => c

theorem callee_step {H : Host W} {m : Mach} {i : XInst} {t : BitVec 64} {p : Nat} {w : W} (h : callee H m i = some t) : stepI (H.env p w) m i = doCall (H.env p w) m t := by
  unfold callee at h
  unfold stepI
  cases hl : X64.line i with
  | ok l =>
    simp only [hl] at h ⊢
    unfold exec
    split at h
    · rename_i n h1 h2
      cases h
      simp only [h1, h2]
      rfl
    · rename_i r h1 h2
      cases h
      simp only [h1, h2]
      rfl
    · cases h
  | _ => simp [hl] at h

theorem callee_none_step {H : Host W} {m : Mach} {i : XInst} {e : Env} (hi : i.op = .call) (h : callee H m i = none) : stepI e m i = .bad := by
  unfold callee at h
  unfold stepI
  cases hl : X64.line i with
  | ok l =>
    simp only [hl] at h ⊢
    unfold exec
    have hm : mnOf l.mn = some .call := by
      have : l.mn = "call" := by
        obtain ⟨op, s, d⟩ := i
        cases hi
        simp only [X64.line, Out.bind_eq_ok, Out.pure_eq, Out.ok.injEq] at hl
        obtain ⟨mn, h1, ops, h2, rfl⟩ := hl
        simp only [X64.mnemonic, Out.ok.injEq] at h1
        exact h1.symm
      rw [this]
      decide
    simp only [hm] at h ⊢
    cases ho : opsOf l.ops with
    | none => rfl
    | some ops =>
      simp only [ho] at h ⊢
      unfold step
      split <;> simp_all
  | _ => rfl

theorem callee_host {I : Image W} {code : List Item} {n : Nat} {m : Mach} {i : XInst} : callee (nest I code n) m i = callee I.host m i := by
  unfold callee; rw [nest_sym]

/-- the return address of a call is that of the next item -/
def Returns (I : Image W) (code : List Item) : Prop := ∀ p i, code[p]? = some (.inst i) → i.op = .call → I.locate (I.host.back p) = some (p + 1)

theorem callee_op {H : Host W} {m : Mach} {i : XInst} {t : BitVec 64} (h : callee H m i = some t) : i.op = .call := by
  by_cases hi : i.op = .call
  · exact hi
  · rw [callee_none hi] at h; cases h

/-- a step with calls done at once, as steps of the whole program -/
theorem hop_of_tick {I : Image W} {code : List Item} {n : Nat} (hback : Returns I code)
    (ih : ∀ k, k < n → ∀ t p m w c', ticks (nest I code k) code (.at p m w) t = some c' → ∃ j, t ≤ j ∧ hops I code (.at p m w) j = some (I.flat c')) {c c' : Conf W}
    (h : tick (nest I code n) code c = some c') : ∃ j, 1 ≤ j ∧ hops I code c j = some (I.flat c') := by
  cases c with
  | done a m w => cases h
  | «at» pc m w =>
    have one : ∀ c1, hop I code (.at pc m w) = some c1 → hops I code (.at pc m w) 1 = some c1 := fun c1 h => by simp [hops, h]
    cases hi : code[pc]? with
    | none => simp [tick, hi] at h
    | some x =>
      cases x with
      | label t v l =>
        simp only [tick, hi, Option.some.injEq] at h
        subst h
        exact ⟨1, Nat.le_refl _, one _ (by simp [hop, tick, hi, Image.flat])⟩
      | data d => simp [tick, hi] at h
      | inst i =>
        cases hc : callee I.host m i with
        | none =>
          have hst : ∀ e : Env, e.sym = I.host.sym → stepI e m i = stepI (I.host.env pc w) m i := by
            intro e he
            by_cases ho : i.op = .call
            · rw [callee_none_step ho hc, callee_none_step ho hc]
            · exact stepI_env he m ho
          have ht : tick (nest I code n) code (.at pc m w) = tick I.host code (.at pc m w) := by
            simp only [tick, hi, hst ((nest I code n).env pc w) (nest_sym n), worldAfter, callee_host, hc]
          refine ⟨1, Nat.le_refl _, one _ ?_⟩
          simp only [hop, hi, hc, Option.bind_none, ← ht, h, Option.map_some]
          cases c' <;> rfl
        | some t =>
          have hs : stepI ((nest I code n).env pc w) m i = doCall ((nest I code n).env pc w) m t := callee_step (by rw [callee_host]; exact hc)
          simp only [tick, hi, hs] at h
          simp only [doCall, worldAfter, callee_host, hc, nest_back, Host.env] at h
          cases hf : (nest I code n).fn t (push m (I.host.back pc)) w with
          | none => simp [hf] at h
          | some y =>
            obtain ⟨m', w'⟩ := y
            simp only [hf, Option.map_some, Option.some.injEq] at h
            subst h
            cases hl : I.locate t with
            | none =>
              rw [nest_out n hl] at hf
              refine ⟨1, Nat.le_refl _, one _ ?_⟩
              have hs' : stepI (I.host.env pc w) m i = doCall (I.host.env pc w) m t := callee_step hc
              simp only [hop, hi, hc, Option.bind_some, hl, tick, hs']
              simp only [doCall, worldAfter, hc, Host.env, hf, Option.map_some]
              rfl
            | some p =>
              obtain ⟨k, rfl, ⟨⟨t', ht⟩, -⟩⟩ := nest_in hl hf
              obtain ⟨j, -, hj⟩ := ih k (Nat.lt_succ_self k) t' _ _ _ _ ht
              refine ⟨1 + j, by omega, ?_⟩
              rw [hops_add, one (.at p (push m (I.host.back pc)) w) (by simp [hop, hi, hc, hl]), Option.bind_some, hj]
              congr 1
              show I.goto _ m' w' = _
              have : load (push m (I.host.back pc)) ((push m (I.host.back pc)).regs .sp) .quad = I.host.back pc := by rw [push_sp, push_load_same]
              simp only [Image.goto, this, hback pc i hi (callee_op hc), Image.flat]

theorem hops_of_ticks {I : Image W} {code : List Item} (hback : Returns I code) : ∀ n t p m w c', ticks (nest I code n) code (.at p m w) t = some c' →
    ∃ j, t ≤ j ∧ hops I code (.at p m w) j = some (I.flat c') := by
  intro n
  induction n using Nat.strongRecOn with
  | ind n ih =>
    intro t
    induction t with
    | zero =>
      intro p m w c' h
      cases h
      exact ⟨0, Nat.le_refl _, rfl⟩
    | succ t iht =>
      intro p m w c' h
      simp only [ticks, Option.bind_eq_some_iff] at h
      obtain ⟨c1, h1, h2⟩ := h
      obtain ⟨j1, hj1, h3⟩ := iht p m w c1 h1
      obtain ⟨j2, hj2, h4⟩ := hop_of_tick hback ih h2
      refine ⟨j1 + j2, by omega, ?_⟩
      rw [hops_add, h3, Option.bind_some]
      cases c1 with
      | done a m w => cases h2
      | «at» p' m' w' => exact h4

end X86
end Umlcc
