import Verif.Lemma.X64Body
/-!
Helper lemmas: the machine code of a whole function follows its allocated intermediate code.
-/
namespace Umlcc
namespace X86
open X64 ISem
open IMach (Val)
open Sim (rv pv upd)

variable {W : Type}

/-! ### layout -/

/-- the code of a function, in pieces -/
structure Layout (out : List Immc) (qs : List Liveseq) (n ev : Nat) (cs hd : List Item) (bls : List (List Item)) (lvc : List XInst) : Prop where
  code : cs = hd ++ bls.flatten ++ (restorePops ev ++ lvc).map Item.inst
  head : ∃ t v f i s l entc, out[0]? = some (.label t v f) ∧ hd = .label t v f :: (entc ++ savePushes ev).map Item.inst ∧ genEnter i = .ok entc ∧
    i.fst = some (.int s ⟨l, (n : Int)⟩)
  leave : ∃ i s l, genLeave i = .ok lvc ∧ i.fst = some (.int s ⟨l, (n : Int)⟩)
  small : ev ≤ 1
  len : bls.length + 3 = out.length
  block : ∀ i x, 2 ≤ i → i + 1 < out.length → out[i]? = some x → ∃ qi c, nextAllN qs i = .ok qi ∧ bls[i - 2]? = some c ∧ BlockOf qi ev x c

theorem suits_notLeave {out : List Immc} {qs : List Liveseq} {n nargs K : Nat} {flags : Nat → List Bool} {A : Nat → List Prep} {Z : Nat → Prop}
    (hs : Suits out qs n nargs K flags A Z) {i : Nat} {x : Inst} (h2 : 2 ≤ i) (h : i + 1 < out.length) (hx : out[i]? = some (.inst x)) : x.op ≠ .leave := by
  intro hl
  have := hs.shape i x h2 h hx
  obtain ⟨op, d, f, s⟩ := x
  simp only at hl
  subst hl
  exact this

theorem layout {out more : List Immc} {qs : List Liveseq} {n nargs K : Nat} {flags : Nat → List Bool} {A : Nat → List Prep} {Z : Nat → Prop} {cs : List Item} {st : St}
    (hs : Suits out qs n nargs K flags A Z) (hg : genFunction ⟨out ++ more, qs, 0⟩ = .ok (cs, st)) :
    ∃ ev hd bls lvc, Layout out qs n ev cs hd bls lvc := by
  obtain ⟨t, v, f, s, l, h0, h1, hn⟩ := hs.head
  obtain ⟨s', l', hl, hn'⟩ := hs.last
  have hlong := hs.long
  match out, h0, h1, hl, hlong with
  | x0 :: x1 :: body, h0, h1, hl, hlong =>
    cases h0; cases h1
    obtain ⟨lt, lv⟩ := l
    obtain ⟨lt', lv'⟩ := l'
    simp only at hn hn'
    subst hn hn'
    simp only [List.cons_append, genFunction, Out.bind_eq_ok] at hg
    obtain ⟨⟨lc, st1⟩, e1, ⟨hc, st2⟩, e2, ⟨bc, st3⟩, e3, e4⟩ := hg
    simp only [genItem, Out.bind_eq_ok, Out.pure_eq, Out.ok.injEq, Prod.mk.injEq] at e1 e2
    obtain ⟨⟨c1, v1⟩, a1, q1, b1, rfl, rfl⟩ := e1
    simp only [Prod.mk.injEq] at a1
    obtain ⟨rfl, rfl⟩ := a1
    obtain ⟨⟨c2, v2⟩, ⟨⟨c2', v2'⟩, a2, a3⟩, q2, b2, rfl, rfl⟩ := e2
    simp only [Prod.mk.injEq] at a3
    obtain ⟨rfl, rfl⟩ := a3
    have hq2 : ∀ {k : Nat} {q : List Liveseq}, nextAllN q2 k = .ok q → nextAllN qs (k + 2) = .ok q := fun h => nextAllN_succ b1 (nextAllN_succ b2 h)
    obtain ⟨hent, hv2⟩ : genEnter ⟨.enter, none, some (.int s ⟨lt, (n : Int)⟩), none⟩ = .ok c2' ∧ v2' = 0 := by
      have a2 : keep 0 (genEnter ⟨.enter, none, some (.int s ⟨lt, (n : Int)⟩), none⟩) = .ok (c2', v2') := a2
      exact ⟨keep_ok a2, keep_ev a2⟩
    subst hv2
    obtain ⟨-, ys, lv, tl, bls, g1, g2, g3, g4, g5, g6⟩ := genBody_blocks _ _ _ _ _ _ (Nat.zero_le 5) e3
    simp only [List.length_cons] at hl hlong hs
    -- the first LEAVE is the last item of the function
    have hbody : ∀ k : Nat, (Immc.label t v f :: .inst ⟨.enter, none, some (.int s ⟨lt, (n : Int)⟩), none⟩ :: body)[k + 2]? = body[k]? := fun k => by simp
    have hlast : body[body.length - 1]? = some (.inst ⟨.leave, none, some (.int s' ⟨lt', (n : Int)⟩), none⟩) := by
      rw [← hbody, ← hl]
      congr 1; omega
    have hge : body.length - 1 ≤ ys.length := by
      rcases Nat.lt_or_ge ys.length (body.length - 1) with h | h
      · exfalso
        have h3 : (ys ++ .inst lv :: tl)[ys.length]? = some (.inst lv) := by simp
        rw [← g1, List.getElem?_append_left (by omega), ← hbody] at h3
        exact suits_notLeave hs (by omega) (by simp only [List.length_cons]; omega) h3 g2
      · exact h
    have hle : ys.length ≤ body.length - 1 := by
      rcases Nat.lt_or_ge (body.length - 1) ys.length with h | h
      · exfalso
        have h3 : (ys ++ .inst lv :: tl)[body.length - 1]? = ys[body.length - 1]? := List.getElem?_append_left h
        rw [← g1, List.getElem?_append_left (by omega), hlast] at h3
        obtain ⟨_, _, h4, _⟩ := g6 _ _ h3.symm
        cases h4
      · exact h
    have hlen : ys.length + 1 = body.length := by omega
    have hys : ∀ k : Nat, k < ys.length → ys[k]? = body[k]? := by
      intro k hk
      rw [← List.getElem?_append_left (l₂ := .inst lv :: tl) hk, ← g1, List.getElem?_append_left (by omega)]
    have hlv : lv = ⟨.leave, none, some (.int s' ⟨lt', (n : Int)⟩), none⟩ := by
      have h3 : (ys ++ .inst lv :: tl)[ys.length]? = some (.inst lv) := by simp
      rw [← g1, List.getElem?_append_left (by omega), show ys.length = body.length - 1 from Nat.le_antisymm hle hge, hlast] at h3
      cases h3; rfl
    have hev : st3.ev ≤ 1 := by
      refine genBody_ev1 _ _ _ _ _ _ ?_ (Nat.zero_le _) e3
      intro k i qk ek ek' c a1 a2 a3 a4 a5
      have hk : k < ys.length := by
        rcases Nat.lt_or_ge k ys.length with h | h
        · exact h
        · have := a2 ys.length (.inst lv) h (by rw [g1]; simp)
          rw [hlv] at this
          cases this
      rw [List.getElem?_append_left (by omega), ← hbody] at a1
      obtain ⟨f1, f2⟩ := hs.flags (k + 2) (by omega) (by simp only [List.length_cons]; omega)
      exact genInst_ev1 (alive_flags (hq2 a3) f2 (by rw [f1, hs.eight])) f1
        (.inl (hs.shape (k + 2) i (by omega) (by simp only [List.length_cons]; omega) a1)) a4 a5
    obtain ⟨r3, q3, v3⟩ := st3
    simp only at g3 hev
    subst g3
    simp only [Out.bind_eq_ok] at e4
    obtain ⟨⟨tc, st4⟩, e5, e6⟩ := e4
    simp only [Out.pure_eq, Out.ok.injEq, Prod.mk.injEq] at e6
    obtain ⟨rfl, -⟩ := e6
    simp only [genItem, Out.bind_eq_ok, Out.pure_eq, Out.ok.injEq, Prod.mk.injEq] at e5
    obtain ⟨⟨c5, v5⟩, ⟨⟨c5', v5'⟩, a5, a6⟩, q5, b5, rfl, rfl⟩ := e5
    simp only [Prod.mk.injEq] at a6
    obtain ⟨rfl, rfl⟩ := a6
    refine ⟨v3, .label t v f :: (c2' ++ savePushes v3).map Item.inst, bls, c5', ?_, ⟨t, v, f, _, s, lt, c2', rfl, rfl, hent, rfl⟩, ?_, hev, ?_, ?_⟩
    · rw [g4]; simp
    · subst hlv
      exact ⟨_, s', lt', keep_ok a5, rfl⟩
    · simp only [List.length_cons]; omega
    · intro i x h2 h3 hx
      obtain ⟨k, rfl⟩ : ∃ k, i = k + 2 := ⟨i - 2, by omega⟩
      simp only [List.length_cons] at h3
      rw [hbody, ← hys k (by omega)] at hx
      obtain ⟨qk, c, -, b1, b2, b3⟩ := g6 k x hx
      exact ⟨qk, c, hq2 b1, b2, b3⟩

/-! ### positions -/

/-- the items before those of line `i` -/
def front (P hd : List Item) (bls : List (List Item)) (i : Nat) : List Item := P ++ hd ++ (bls.take (i - 2)).flatten

section
variable {out : List Immc} {qs : List Liveseq} {n nargs K ev : Nat} {flags : Nat → List Bool} {A : Nat → List Prep} {Z : Nat → Prop}
  {cs hd P Q : List Item} {bls : List (List Item)} {lvc : List XInst}

theorem front_succ {i : Nat} {c : List Item} (h2 : 2 ≤ i) (hc : bls[i - 2]? = some c) : front P hd bls (i + 1) = front P hd bls i ++ c := by
  obtain ⟨h, rfl⟩ := List.getElem?_eq_some_iff.1 hc
  unfold front
  rw [show i + 1 - 2 = (i - 2) + 1 from by omega, List.take_succ_eq_append_getElem h, List.flatten_append, List.flatten_singleton]
  simp only [List.append_assoc]

theorem code_split (hL : Layout out qs n ev cs hd bls lvc) {i : Nat} {c : List Item} (hc : bls[i - 2]? = some c) :
    ∃ post, P ++ cs ++ Q = front P hd bls i ++ c ++ post := by
  obtain ⟨h, rfl⟩ := List.getElem?_eq_some_iff.1 hc
  refine ⟨(bls.drop (i - 2 + 1)).flatten ++ (restorePops ev ++ lvc).map Item.inst ++ Q, ?_⟩
  have : bls.flatten = (bls.take (i - 2)).flatten ++ bls[i - 2] ++ (bls.drop (i - 2 + 1)).flatten := by
    rw [List.append_assoc, ← List.flatten_cons, List.getElem_cons_drop, ← List.flatten_append, List.take_append_drop]
  rw [hL.code, this]
  simp [front]

theorem code_last (hL : Layout out qs n ev cs hd bls lvc) : P ++ cs ++ Q = front P hd bls (out.length - 1) ++ (restorePops ev ++ lvc).map Item.inst ++ Q := by
  have := hL.len
  rw [hL.code]
  unfold front
  rw [List.take_of_length_le (by omega)]
  simp

theorem insts_noLabel (l : List XInst) (n : Name) : ∀ y ∈ l.map Item.inst, isItemLabel n y = false := by
  intro y hy
  obtain ⟨i, -, rfl⟩ := List.mem_map.1 hy
  rfl

/-- a label of the function is found where its line is -/
theorem label_at (hs : Suits out qs n nargs K flags A Z) (hL : Layout out qs n ev cs hd bls lvc)
    (hP : ∀ y ∈ P, ∀ x ∈ out, ∀ l, isItemLabel l y = true → RSpec.isLabelNamed l x = false) {p : Nat} {l : Name} {x : Immc} (h2 : 2 ≤ p) (hp : p + 1 < out.length)
    (hx : out[p]? = some x) (hl : RSpec.isLabelNamed l x = true) : (P ++ cs ++ Q).findIdx? (isItemLabel l) = some (front P hd bls p).length := by
  obtain ⟨qi, c, -, hc, hb⟩ := hL.block p x h2 hp hx
  obtain ⟨post, hpost⟩ := code_split (P := P) (Q := Q) hL hc
  have hxl : ∃ t v, x = .label t v l := by
    cases x with
    | label t v m => simp only [RSpec.isLabelNamed, decide_eq_true_eq] at hl; subst hl; exact ⟨t, v, rfl⟩
    | _ => cases hl
  obtain ⟨t, v, rfl⟩ := hxl
  rcases hb with ⟨t', v', l', h, rfl⟩ | ⟨i, _, _, _, h, _⟩
  · cases h
    rw [hpost, List.append_assoc, List.singleton_append]
    refine find_label ?_ (by simp [isItemLabel])
    intro y hy
    by_cases hyl : isItemLabel l y = true
    · exfalso
      unfold front at hy
      rcases List.mem_append.1 hy with hy | hy
      · rcases List.mem_append.1 hy with hy | hy
        · have := hP y hy _ (List.mem_of_getElem? hx) l hyl
          rw [hl] at this
          cases this
        · obtain ⟨t0, v0, f0, _, _, _, entc, h0, rfl, -, -⟩ := hL.head
          rcases List.mem_cons.1 hy with rfl | hy
          · have : 0 = p := hs.labels 0 p l _ _ h0 hx hyl hl
            omega
          · rw [insts_noLabel _ _ _ hy] at hyl
            cases hyl
      · obtain ⟨b, hb, hyb⟩ := List.mem_flatten.1 hy
        obtain ⟨k, hk⟩ := List.getElem?_of_mem hb
        have hkl : k < p - 2 := by
          have := (List.getElem?_eq_some_iff.1 hk).1
          simp at this
          omega
        rw [List.getElem?_take_of_lt hkl] at hk
        have hkx : out[k + 2]? = some out[k + 2] := List.getElem?_eq_getElem (by omega)
        obtain ⟨_, c', -, hc', hb'⟩ := hL.block (k + 2) _ (by omega) (by omega) hkx
        rw [show k + 2 - 2 = k from by omega, hk] at hc'
        cases hc'
        rcases hb' with ⟨t1, v1, l1, h1, rfl⟩ | ⟨_, _, _, cs1, _, _, _, rfl⟩
        · rw [List.mem_singleton] at hyb
          subst hyb
          rw [h1] at hkx
          have : k + 2 = p := hs.labels (k + 2) p l _ _ hkx hx hyl hl
          omega
        · rw [insts_noLabel _ _ _ hyb] at hyl
          cases hyl
    · simpa using hyl
  · cases h

/-! ### one step -/

/-- the relation between the two machines at a line of the body -/
structure Inv (E : IMach.Env W) (F D T ev K : Nat) (e m0 : Mach) (out : List Immc) (A : Nat → List Prep) (Z : Nat → Prop) (a : RSpec.Mach Val (IMach.St W)) (m : Mach) : Prop where
  core : Core E F D T ev e m0 (A a.pc) a.st m
  regs : Holds (fun u => RSpec.LiveIn out u a.pc) a.regs m
  early : a.pc < K + 2 → ∀ k r, sysvArg k = some r → m.regs r = e.regs r
  zone : a.st.ret = none ∨ Z a.pc
  ret : ∀ v, a.st.ret = some v → get m .ax v.1 = v.2

/-- what a step does -/
theorem step_inst {E : IMach.Env W} {a b : RSpec.Mach Val (IMach.St W)} {i : Inst} (hx : out[a.pc]? = some (.inst i)) (h : RSpec.step (IMach.sem E) out a = some b) :
    ∃ v t, execI E i a.regs a.st = some (b.st, v, t) ∧ b.regs = after i a.regs v ∧
      ((RSpec.target (.inst i) = none ∧ i.op ≠ .jmp ∧ b.pc = a.pc + 1) ∨
       (∃ l, RSpec.target (.inst i) = some l ∧ (i.op = .jmp ∨ t = true) ∧ RSpec.labelPos out l = some b.pc) ∨
       (∃ l, RSpec.target (.inst i) = some l ∧ ¬ (i.op = .jmp ∨ t = true) ∧ b.pc = a.pc + 1)) := by
  unfold RSpec.step at h
  rw [hx] at h
  simp only [Sim.sem_inst] at h
  generalize he : IMach.exec E i.op _ _ _ _ _ _ _ = x at h
  rcases x with _ | ⟨st', v, t⟩
  · cases h
  simp only at h
  refine ⟨v, t, ?_⟩
  rcases ht : RSpec.target (.inst i) with _ | l
  · rw [ht] at h
    simp only at h
    split at h
    · cases h
    · rename_i hj
      cases h
      exact ⟨he, (by unfold after upd; rcases RSpec.writes (.inst i) with _ | r <;> rfl), .inl ⟨rfl, hj, rfl⟩⟩
  · rw [ht] at h
    simp only at h
    split at h
    · rename_i hj
      obtain ⟨p, hp, h⟩ := Option.map_eq_some_iff.1 h
      cases h
      exact ⟨he, (by unfold after upd; rcases RSpec.writes (.inst i) with _ | r <;> rfl), .inr (.inl ⟨l, rfl, hj, hp⟩)⟩
    · rename_i hj
      cases h
      exact ⟨he, (by unfold after upd; rcases RSpec.writes (.inst i) with _ | r <;> rfl), .inr (.inr ⟨l, rfl, hj, rfl⟩)⟩

theorem labelPos_some {l : Name} {p : Nat} (h : RSpec.labelPos out l = some p) : ∃ x, out[p]? = some x ∧ RSpec.isLabelNamed l x = true := by
  unfold RSpec.labelPos at h
  obtain ⟨hp, h1, -⟩ := List.findIdx?_eq_some_iff_getElem.1 h
  exact ⟨_, List.getElem?_eq_getElem hp, h1⟩

theorem step_succ {E : IMach.Env W} {a b : RSpec.Mach Val (IMach.St W)} {x : Immc} (hx : out[a.pc]? = some x) (h : RSpec.step (IMach.sem E) out a = some b) :
    RSpec.Succ out a.pc b.pc := by
  refine ⟨x, hx, ?_⟩
  cases x with
  | inst i =>
    obtain ⟨v, t, -, -, h | ⟨l, h1, -, h2⟩ | ⟨l, -, h1, h2⟩⟩ := step_inst hx h
    · refine .inl ⟨h.2.2, ?_⟩
      intro d f s he
      cases he
      exact h.2.1 rfl
    · obtain ⟨y, hy, hl⟩ := labelPos_some h2
      exact .inr ⟨l, y, h1, hy, hl⟩
    · refine .inl ⟨h2, ?_⟩
      intro d f s he
      cases he
      exact h1 (.inl rfl)
  | _ =>
    unfold RSpec.step at h
    rw [hx] at h
    cases h
    exact .inl ⟨rfl, fun _ _ _ h => by cases h⟩

theorem argsIn_of {E : IMach.Env W} {F D T : Nat} {e m0 m : Mach} {ps : List Prep} {st : IMach.St W} {M : IMach.Mem} (hc : Core E F D T ev e m0 ps st m) (hen : Entered E F D T M e)
    (hT : inSize nargs ≤ T) (hT' : T < 2 ^ 61) (hm0 : ∀ x : Int, 8 ≤ x ∧ x < 2 ^ 62 → m0.mem (rel64 E.bp x) = e.mem (rel64 E.bp x))
    (hr : ∀ k r, sysvArg k = some r → m.regs r = e.regs r) : ArgsIn E nargs m := by
  intro k w hk hw
  have ha := hen.args k w hw
  refine ⟨fun r h => ?_, fun h6 => ?_⟩
  · rw [hr k r h]
    rw [argAt, h] at ha
    exact ha
  · rw [argAt, sysvArg_ge k h6, hen.sp, add8, addNat, rel64_rel64] at ha
    rw [← ha]
    have : load m (rel64 E.bp (16 + 8 * (k - 6 : Nat))) .quad = load e (rel64 E.bp (8 + (8 + 8 * (k - 6) : Nat))) .quad := by
      rw [show (16 + 8 * (k - 6 : Nat) : Int) = 8 + (8 + 8 * (k - 6) : Nat) from by omega]
      apply load_congr
      intro j hj
      have hj : j < 8 := hj
      rw [addNat, rel64_rel64]
      unfold inSize at hT
      rw [hc.kept _ (.inr (by omega)), hm0 _ (by omega)]
    rw [this]

theorem base_le {F : Nat} (h : ev ≤ 1) : base F ev ≤ F + 16 := by
  unfold base
  omega

theorem inv_step {H : Host W} {E : IMach.Env W} {D T room : Nat} {e m0 m : Mach} {M : IMach.Mem} {a b : RSpec.Mach Val (IMach.St W)}
    (hs : Suits out qs n nargs K flags A Z) (hL : Layout out qs n ev cs hd bls lvc)
    (hP : ∀ y ∈ P, ∀ x ∈ out, ∀ l, isItemLabel l y = true → RSpec.isLabelNamed l x = false)
    (hsv : Serves E H (frameSize n) D T room) (hD : D < 2 ^ 61) (hT : inSize nargs ≤ T) (hT' : T < 2 ^ 61)
    (hen : Entered E (frameSize n) D T M e) (hal : E.bp.toNat % 16 = 0)
    (hm0 : ∀ x : Int, 8 ≤ x ∧ x < 2 ^ 62 → m0.mem (rel64 E.bp x) = e.mem (rel64 E.bp x))
    (hroom : ∀ i, 2 ≤ i → i < out.length → frameSize n + 16 + heldAll (A i) + 8 + room ≤ D)
    (hinv : Inv E (frameSize n) D T ev K e m0 out A Z a m) (h2 : 2 ≤ a.pc) (hlt : a.pc + 1 < out.length) (hst : RSpec.step (IMach.sem E) out a = some b) :
    2 ≤ b.pc ∧ b.pc < out.length ∧ ∃ q m', (q = 0 → b.pc = a.pc + 1) ∧ ticks H (P ++ cs ++ Q) (.at (front P hd bls a.pc).length m a.st.w) q = some (.at (front P hd bls b.pc).length m' b.st.w) ∧
      Inv E (frameSize n) D T ev K e m0 out A Z b m' := by
  have hx : out[a.pc]? = some out[a.pc] := List.getElem?_eq_getElem (by omega)
  generalize out[a.pc] = x at hx
  have hsucc := step_succ hx hst
  have hb2 : 2 ≤ b.pc := by
    rcases hs.forward _ _ hsucc with h | h <;> omega
  obtain ⟨qi, c, hq, hc, hb⟩ := hL.block _ _ h2 hlt hx
  obtain ⟨post, hpost⟩ := code_split (P := P) (Q := Q) hL hc
  have hzone : ∀ j, RSpec.Succ out a.pc j → Z a.pc → Z j := fun j hj hz => hs.zoneNext _ _ hz hj
  rcases hb with ⟨t, v, l, rfl, rfl⟩ | ⟨i, ek, ek', c', rfl, hg, hek, rfl⟩
  · -- a label
    have hbe : b = ⟨a.pc + 1, a.regs, a.st⟩ := by
      unfold RSpec.step at hst
      rw [hx] at hst
      cases hst; rfl
    subst hbe
    refine ⟨hb2, hlt, 1, m, fun h => (by cases h), ?_, ?_, ?_, ?_, ?_, ?_⟩
    · simp only [ticks, Option.bind_some, tick]
      rw [front_succ h2 hc, hpost]
      simp
    · show Core E (frameSize n) D T ev e m0 (A (a.pc + 1)) a.st m
      rw [hs.prep _ _ _ h2 hx hsucc hlt]
      exact hinv.core
    · intro u r hu hr
      exact hinv.regs u r (.thru hx (by simp [RSpec.writes]) hsucc hu) hr
    · intro h
      exfalso
      have h' : a.pc < K + 2 := by
        have : a.pc + 1 < K + 2 := h
        omega
      obtain ⟨_, _, _, h⟩ := hs.args _ _ h2 h' hx
      cases h
    · exact hinv.zone.imp id (hzone _ hsucc)
    · exact hinv.ret
  · -- an instruction
    obtain ⟨v, t, hex, hregs, hgo⟩ := step_inst hx hst
    obtain ⟨f1, f2⟩ := hs.flags _ h2 hlt
    have hpc : b.pc < out.length := by
      rcases hgo with ⟨-, -, h⟩ | ⟨l, -, -, h⟩ | ⟨l, -, -, h⟩
      · omega
      · obtain ⟨y, hy, -⟩ := labelPos_some h
        exact (List.getElem?_eq_some_iff.1 hy).1
      · omega
    have hAb : A b.pc = prepAfter (.inst i) (A a.pc) := hs.prep _ _ _ h2 hx hsucc hpc
    have hbl := base_le (F := frameSize n) hL.small
    have hr1 := hroom _ h2 (by omega)
    have hr2 := hroom _ hb2 hpc
    rw [hAb] at hr2
    obtain ⟨g1, g2, g3⟩ := frame_facts n
    have hpre : Pre E (frameSize n) D T ev e m0 (fun u => RSpec.LiveOut out u a.pc) (A a.pc) i a.regs a.st b.st v t m := by
      refine ⟨hinv.core, by omega, ?_, ?_, hex⟩
      · rintro u r (hu | ⟨⟨j, hj, hu⟩, hw⟩) hr
        · exact hinv.regs u r (.read hx hu) hr
        · exact hinv.regs u r (.thru hx hw hj hu) hr
      · intro u hu
        exact hs.regs _ _ u hx hu
    obtain ⟨m', hf, q, hqj, hq'⟩ := inst_ticks (early := a.pc < K + 2) hpre hg (hs.shape _ _ h2 hlt hx) hsv hD hT' (by omega) g3 hal g1 hek hL.small (by omega)
      (alive_flags hq f2 (by rw [f1, hs.eight])) f1
      (fun h => argsIn_of hinv.core hen hT hT' hm0 (hinv.early h)) (front P hd bls a.pc) post
    rw [← hpost] at hq'
    refine ⟨hb2, hpc, q, m', ?_, ?_, ?_, ?_, ?_, ?_, ?_⟩
    · intro h0
      rcases hgo with ⟨-, -, h⟩ | ⟨l, h, h', -⟩ | ⟨l, -, -, h⟩
      · exact h
      · have := hqj l m' (by simp only [goes, h, h', if_true])
        omega
      · exact h
    · rw [hq']
      rcases hgo with ⟨h, h', h''⟩ | ⟨l, h, h', h''⟩ | ⟨l, h, h', h''⟩
      · simp only [goes, h]
        rw [h'', front_succ h2 hc]
        simp
      · simp only [goes, h, h', if_true]
        obtain ⟨y, hy, hyl⟩ := labelPos_some h''
        have hne : b.pc + 1 < out.length := by
          rcases Nat.lt_or_ge (b.pc + 1) out.length with h | h
          · exact h
          · obtain ⟨s, l', hl, -⟩ := hs.last
            rw [show out.length - 1 = b.pc from by omega, hy] at hl
            cases hl
            cases hyl
        rw [label_at hs hL hP hb2 hne hy hyl]
        rfl
      · simp only [goes, h, h', if_false]
        rw [h'', front_succ h2 hc]
        simp
    · rw [hAb]
      exact hf.core
    · rw [hregs]
      intro u r hu hr
      exact hf.regs u r ⟨_, hsucc, hu⟩ hr
    · intro h k r hk
      have hax : a.pc < K + 2 ∧ b.pc = a.pc + 1 := by
        rcases hgo with ⟨-, -, h⟩ | ⟨l, -, -, h'⟩ | ⟨l, -, -, h⟩
        · omega
        · exfalso
          obtain ⟨y, hy, hyl⟩ := labelPos_some h'
          obtain ⟨_, _, _, rfl⟩ := hs.args _ _ hb2 h hy
          cases hyl
        · omega
      obtain ⟨_, _, _, hi⟩ := hs.args _ _ h2 hax.1 hx
      cases hi
      rw [hf.arg rfl k r hk]
      exact hinv.early hax.1 k r hk
    · by_cases hi : i.op = .stret
      · obtain ⟨op, d, f, s⟩ := i
        simp only at hi
        subst hi
        exact .inr (hs.ret _ _ _ _ _ hx hsucc)
      · rw [hf.other hi]
        exact hinv.zone.imp id (hzone _ hsucc)
    · intro w hw
      by_cases hi : i.op = .stret
      · exact hf.ret hi w hw
      · rw [hf.other hi] at hw
        have hz : Z a.pc := by
          rcases hinv.zone with h | h
          · rw [h] at hw; cases hw
          · exact h
        have hjmp : i.op = .jmp := by
          rcases hs.zone _ _ hz hx with ⟨_, _, _, h⟩ | ⟨_, _, _, h⟩ | ⟨_, _, _, h⟩
          · cases h
          · cases h; rfl
          · cases h
            exact absurd rfl (suits_notLeave hs h2 hlt hx)
        rw [← hinv.ret w hw]
        unfold get
        rw [hf.jmp hjmp]

/-! ### entry and return -/

/-- what the prologue leaves behind -/
structure Begun (E : IMach.Env W) (F ev : Nat) (e m0 : Mach) : Prop where
  bp : load m0 E.bp .quad = e.regs .bp
  bx : ev = 1 → load m0 (rel64 E.bp (-(F : Int) - 8)) .quad = e.regs .bx
  above : ∀ x : Int, 8 ≤ x ∧ x < 2 ^ 62 → m0.mem (rel64 E.bp x) = e.mem (rel64 E.bp x)

theorem inv_start {H : Host W} {E : IMach.Env W} {D T room : Nat} {e : Mach} {M : IMach.Mem} {R : Int → Val} {w : W} {g : List (List (Nat × Val))}
    (hs : Suits out qs n nargs K flags A Z) (hL : Layout out qs n ev cs hd bls lvc) (hn : n < 2 ^ 31 - 16) (hT : inSize nargs ≤ T)
    (hen : Entered E (frameSize n) D T M e)
    (hroom : ∀ i, 2 ≤ i → i < out.length → frameSize n + 16 + heldAll (A i) + 8 + room ≤ D) :
    ∃ m0 t, Begun E (frameSize n) ev e m0 ∧ ticks H (P ++ cs ++ Q) (.at P.length e w) t = some (.at (front P hd bls 2).length m0 w) ∧
      Inv E (frameSize n) D T ev K e m0 out A Z ⟨2, R, ⟨M, w, g, none⟩⟩ m0 := by
  obtain ⟨t, v, f, i, s, l, entc, h0, rfl, hent, hi⟩ := hL.head
  obtain ⟨cs', m0, a1, a2, a3, a4, a5, a6, a7, a8, a9⟩ := prologue_run (H.env 0 w) e hi hn hL.small hen.sp
  rw [hent] at a1
  cases a1
  have hr := hroom 2 (by omega) (by have := hs.long; omega)
  have hT16 : 16 ≤ T := by unfold inSize at hT; omega
  refine ⟨m0, 1 + (entc ++ savePushes ev).length, ⟨a6, a7, a8⟩, ?_, ?_, ?_, ?_, ?_, ?_⟩
  · have hno : ∀ i ∈ entc ++ savePushes ev, i.op ≠ .call := noCall_append (genEnter_noCall hent) (savePushes_noCall ev)
    have := block_next H 0 w (entc ++ savePushes ev) (P ++ [.label t v f]) (bls.flatten ++ (restorePops ev ++ lvc).map Item.inst ++ Q) e m0 hno a2
    have hcode : P ++ cs ++ Q = P ++ [.label t v f] ++ (entc ++ savePushes ev).map Item.inst ++ (bls.flatten ++ (restorePops ev ++ lvc).map Item.inst ++ Q) := by
      rw [hL.code]; simp
    rw [hcode, ticks_add]
    have h1 : ticks H (P ++ [Item.label t v f] ++ (entc ++ savePushes ev).map Item.inst ++ (bls.flatten ++ (restorePops ev ++ lvc).map Item.inst ++ Q)) (.at P.length e w) 1 =
        some (.at (P ++ [Item.label t v f]).length e w) := by
      simp [ticks, tick]
    rw [h1, Option.bind_some, this]
    simp [front]
    omega
  · show Core E (frameSize n) D T ev e m0 (A 2) _ m0
    rw [hs.start]
    refine ⟨?_, a3, ?_, fun _ _ => rfl, ?_, trivial⟩
    · intro x hx
      rw [a9 D T x (by omega) (by omega) hx]
      exact hen.mem x hx
    · rw [a4]; simp [heldAll]
    · intro r h1 h2 _
      refine a5 r ?_ h2
      rintro rfl
      revert h1; decide
  · intro u r hu
    exact absurd hu (hs.fresh u)
  · intro _ k r hk
    refine a5 r ?_ ?_ <;> (rintro rfl; unfold sysvArg at hk; split at hk <;> cases hk)
  · exact .inl rfl
  · intro v hv
    cases hv

theorem load_kept {E : IMach.Env W} {F D T : Nat} {e m0 m : Mach} {ps : List Prep} {st : IMach.St W} (hc : Core E F D T ev e m0 ps st m) {x : Int}
    (h : (-(base F ev : Int) ≤ x ∧ x + 8 ≤ -(F : Int)) ∨ (0 ≤ x ∧ x + 8 ≤ T)) : load m (rel64 E.bp x) .quad = load m0 (rel64 E.bp x) .quad := by
  apply load_congr
  intro j hj
  have hj : j < 8 := hj
  rw [addNat, rel64_rel64]
  exact hc.kept _ (by omega)

theorem inv_finish {H : Host W} {E : IMach.Env W} {D T : Nat} {e m0 m : Mach} {a b : RSpec.Mach Val (IMach.St W)}
    (hs : Suits out qs n nargs K flags A Z) (hL : Layout out qs n ev cs hd bls lvc) (hn : n < 2 ^ 31 - 16) (hT : inSize nargs ≤ T) (hT' : T < 2 ^ 61)
    {M : IMach.Mem} (hen : Entered E (frameSize n) D T M e) (hm0 : Begun E (frameSize n) ev e m0)
    (hinv : Inv E (frameSize n) D T ev K e m0 out A Z a m) (hlt : a.pc + 1 = out.length) (hst : RSpec.step (IMach.sem E) out a = some b) :
    b.pc = out.length ∧ ∃ q adr m', ticks H (P ++ cs ++ Q) (.at (front P hd bls a.pc).length m a.st.w) q = some (.done adr m' b.st.w) ∧
      Returned E (frameSize n) D T e b.st.mem b.st.ret adr m' := by
  obtain ⟨s0, l0, hx, -⟩ := hs.last
  have hpc : out.length - 1 = a.pc := by omega
  rw [hpc] at hx
  obtain ⟨v, t, hex, -, hgo⟩ := step_inst hx hst
  have hbst : b.st = a.st := by
    simp only [execI, IMach.exec, Option.some.injEq, Prod.mk.injEq] at hex
    exact hex.1.symm
  have hbpc : b.pc = out.length := by
    rcases hgo with ⟨-, -, h⟩ | ⟨l, h, -⟩ | ⟨l, h, -⟩
    · omega
    · cases h
    · cases h
  refine ⟨hbpc, ?_⟩
  rw [hbst]
  obtain ⟨i, s, l, hlv, hi⟩ := hL.leave
  have hc := hinv.core
  have hsp := hc.sp
  rw [← hpc, hs.finish] at hsp
  have hsp : m.regs .sp = rel64 E.bp (-(base (frameSize n) ev : Int)) := by rw [hsp]; simp [heldAll]
  have hev := hL.small
  have hT16 : 16 ≤ T := by unfold inSize at hT; omega
  obtain ⟨m1, r1, r2, r3, r4, r5⟩ := restorePops_run (H.env 0 a.st.w) m ev (by omega)
  obtain ⟨cs', m2, l1, l2, l3, l4, l5, l6⟩ := leave_run (H.env 0 a.st.w) m1 hi (by omega) (by omega)
  rw [hlv] at l1
  cases l1
  have hsp1 : m1.regs .sp = rel64 E.bp (-(frameSize n : Int)) := by
    rw [r2, hsp, rel64_rel64]
    congr 1
    unfold base
    omega
  have hload : ∀ x, load m1 x .quad = load m x .quad := by intro x; unfold load; rw [r5]
  rw [hsp1, frame_align, rel64_rel64] at l2 l3 l4
  have e1 : (-(frameSize n : Int) + ((frameSize n : Int) + 8)) = 8 := by omega
  have e2 : (-(frameSize n : Int) + ((frameSize n : Int) + 16)) = 16 := by omega
  have e3 : (-(frameSize n : Int) + (frameSize n : Int)) = 0 := by omega
  rw [e1, hload, load_kept hc (.inr (by omega))] at l2
  rw [e2] at l3
  rw [e3, hload, load_kept hc (.inr (by omega)), rel64_zero, hm0.bp] at l4
  have hback : load m0 (rel64 E.bp 8) .quad = load e (e.regs .sp) .quad := by
    rw [hen.sp, add8]
    apply load_congr
    intro j hj
    have hj : j < 8 := hj
    rw [addNat, rel64_rel64]
    exact hm0.above _ (by omega)
  have hno : ∀ i ∈ restorePops ev ++ lvc, i.op ≠ .call := noCall_append (restorePops_noCall ev) (genLeave_noCall hlv)
  obtain ⟨q, hq⟩ := block_ret H 0 a.st.w (restorePops ev ++ lvc) (front P hd bls (out.length - 1)) Q m m2 hno (by rw [run_append_next r1]; exact l2)
  rw [← code_last hL, hpc] at hq
  refine ⟨q, _, m2, hq, hback, ?_, ?_, ?_, ?_⟩
  · rw [l3, hen.sp, add8, add8, rel64_rel64]
    rfl
  · intro r hr
    by_cases hbp : r = .bp
    · subst hbp; exact l4
    have hrs : r ≠ .sp := by rintro rfl; revert hr; decide
    rw [l5 r hrs hbp]
    by_cases hmem : r ∈ calleeSaved.take ev
    · have he : ev = 1 := by
        rcases Nat.lt_or_ge ev 1 with h | h
        · obtain rfl : ev = 0 := by omega
          simp at hmem
        · omega
      subst he
      have hrb : r = .bx := by simpa [calleeSaved] using hmem
      subst hrb
      rw [r3 0 .bx rfl, hsp, rel64_rel64, ← hm0.bx rfl]
      have e4 : -(base (frameSize n) 1 : Int) + (8 * (1 + 1 % 2 : Nat) - 8 * ((0 : Nat) + 1)) = -(frameSize n : Int) - 8 := by unfold base; omega
      rw [e4]
      exact load_kept hc (.inl (by unfold base; omega))
    · rw [r4 r hrs hmem]
      exact hc.saved r hr hbp hmem
  · intro x hx'
    rw [l6, r5]
    exact hc.mem x hx'
  · intro v hv
    rw [← hinv.ret v hv]
    have h1 : m2.regs .ax = m.regs .ax := by
      rw [l5 .ax (by decide) (by decide), r4 .ax (by decide)]
      intro h
      have := List.mem_of_mem_take h
      revert this; decide
    unfold get
    rw [h1]

/-! ### the whole function -/

theorem func_run {H : Host W} {E : IMach.Env W} {D T room : Nat} {e : Mach} {M : IMach.Mem} {R : Int → Val} {w : W} {g : List (List (Nat × Val))} {more : List Immc} {st : St}
    (hs : Suits out qs n nargs K flags A Z) (hg : genFunction ⟨out ++ more, qs, 0⟩ = .ok (cs, st))
    (hP : ∀ y ∈ P, ∀ x ∈ out, ∀ l, isItemLabel l y = true → RSpec.isLabelNamed l x = false)
    (hn : n < 2 ^ 31 - 16) (hD : D < 2 ^ 61) (hT : inSize nargs ≤ T) (hT' : T < 2 ^ 61)
    (hroom : ∀ i, 2 ≤ i → i < out.length → frameSize n + 16 + heldAll (A i) + 8 + room ≤ D)
    (hsv : Serves E H (frameSize n) D T room) (hen : Entered E (frameSize n) D T M e) :
    ∀ {k : Nat} {a : RSpec.Mach Val (IMach.St W)}, RSpec.run (IMach.sem E) out ⟨0, R, ⟨M, w, g, none⟩⟩ k = some a →
      (a.pc < out.length → ∃ t pc m, k ≤ t * out.length + a.pc ∧ ticks H (P ++ cs ++ Q) (.at P.length e w) t = some (.at pc m a.st.w) ∧
        ∀ x, ¬ Priv E.bp (frameSize n) D T x → m.mem x = a.st.mem x) ∧
      (out.length ≤ a.pc → ∃ t adr m, k ≤ t * out.length + out.length ∧ ticks H (P ++ cs ++ Q) (.at P.length e w) t = some (.done adr m a.st.w) ∧
        Returned E (frameSize n) D T e a.st.mem a.st.ret adr m) := by
  obtain ⟨ev, hd, bls, lvc, hL⟩ := layout hs hg
  have hal : E.bp.toNat % 16 = 0 := by
    have h1 := hen.aligned
    rw [hen.sp, add8] at h1
    have h2 := rel64_mod16 E.bp 8
    omega
  obtain ⟨m0, t0, hb, ht0, hi0⟩ := inv_start (H := H) (R := R) (w := w) (g := g) (P := P) (Q := Q) hs hL hn hT hen hroom
  obtain ⟨t1, v1, f1, s1, l1, hx0, hx1, -⟩ := hs.head
  have key : ∀ (k : Nat) (a : RSpec.Mach Val (IMach.St W)), RSpec.run (IMach.sem E) out ⟨0, R, ⟨M, w, g, none⟩⟩ k = some a →
      (a.pc < 2 ∧ a = ⟨a.pc, R, ⟨M, w, g, none⟩⟩ ∧ k = a.pc) ∨
      (2 ≤ a.pc ∧ a.pc < out.length ∧ ∃ t m, k ≤ t * out.length + a.pc ∧ ticks H (P ++ cs ++ Q) (.at P.length e w) t = some (.at (front P hd bls a.pc).length m a.st.w) ∧
        Inv E (frameSize n) D T ev K e m0 out A Z a m) ∨
      (a.pc = out.length ∧ ∃ t adr m, k ≤ t * out.length + out.length ∧ ticks H (P ++ cs ++ Q) (.at P.length e w) t = some (.done adr m a.st.w) ∧
        Returned E (frameSize n) D T e a.st.mem a.st.ret adr m) := by
    intro k
    induction k with
    | zero => intro a h; cases h; exact .inl ⟨Nat.zero_lt_two, rfl, rfl⟩
    | succ k ih =>
      intro b h
      simp only [RSpec.run, Option.bind_eq_some_iff] at h
      obtain ⟨a, ha, hst⟩ := h
      rcases ih a ha with ⟨h1, h2, h5⟩ | ⟨h1, h2, t, m, h5, h3, h4⟩ | ⟨h1, -⟩
      · obtain ⟨pc, R', st'⟩ := a
        simp only at h1
        cases h2
        match pc, h1 with
        | 0, _ =>
          have : b = ⟨1, R, ⟨M, w, g, none⟩⟩ := by
            unfold RSpec.step at hst
            rw [hx0] at hst
            cases hst; rfl
          subst this
          exact .inl ⟨by simp, rfl, congrArg (· + 1) h5⟩
        | 1, _ =>
          have : b = ⟨2, R, ⟨M, w, g, none⟩⟩ := by
            unfold RSpec.step at hst
            rw [hx1] at hst
            cases hst; rfl
          subst this
          have := hs.long
          refine .inr (.inl ⟨Nat.le_refl _, ?_, t0, m0, ?_, ht0, hi0⟩)
          · show 2 < out.length
            omega
          · show k + 1 ≤ t0 * out.length + 2
            have h5 : k = 1 := h5
            omega
      · rcases Nat.lt_or_ge (a.pc + 1) out.length with hlt | hge
        · obtain ⟨a1, a2, q, m', a5, a3, a4⟩ := inv_step (P := P) (Q := Q) hs hL hP hsv hD hT hT' hen hal hb.above hroom h4 h1 hlt hst
          refine .inr (.inl ⟨a1, a2, t + q, m', ?_, by rw [ticks_add, h3]; exact a3, a4⟩)
          rw [Nat.add_mul]
          cases q with
          | zero =>
            have := a5 rfl
            omega
          | succ q =>
            have : (q + 1) * out.length ≥ out.length := Nat.le_mul_of_pos_left _ (by omega)
            omega
        · obtain ⟨a1, q, adr, m', a2, a3⟩ := inv_finish (P := P) (Q := Q) (H := H) hs hL hn hT hT' hen hb h4 (by omega) hst
          exact .inr (.inr ⟨a1, t + q, adr, m', by rw [Nat.add_mul]; omega, by rw [ticks_add, h3]; exact a2, a3⟩)
      · exfalso
        unfold RSpec.step at hst
        rw [List.getElem?_eq_none (by omega)] at hst
        cases hst
  intro k a hrun
  have hlong := hs.long
  rcases key k a hrun with ⟨h1, h2, h5⟩ | ⟨h1, h2, t, m, h5, h3, h4⟩ | ⟨h1, h2⟩
  · refine ⟨fun _ => ⟨0, P.length, e, by omega, ?_, ?_⟩, fun h => by omega⟩
    · rw [h2]; rfl
    · rw [h2]; exact hen.mem
  · exact ⟨fun _ => ⟨t, _, m, h5, h3, h4.core.mem⟩, fun h => by omega⟩
  · exact ⟨fun h => by omega, fun _ => h2⟩

end

end X86
end Umlcc
