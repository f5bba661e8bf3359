import Verif.Lemma.FlowSet
/-! The sets of registers of regalloc.c while they hold at most three neighbouring registers: each register sits in the slot
its hash value names, so adding it again finds it (helper lemmas). -/
namespace Umlcc
namespace Regalloc
open HMap

def home (k : Int) (n : Nat) : Nat := ((hashInteger k).tmod n).toNat

theorem home_eq {k : Int} (hk : 0 ≤ k) (n : Nat) : home k n = (2 * k.toNat) % n := by
  unfold home hashInteger
  rw [if_pos hk]
  obtain ⟨m, rfl⟩ := Int.eq_ofNat_of_zero_le hk
  rw [show (m : Int) * 2 = ((2 * m : Nat) : Int) by omega, ← Int.ofNat_tmod]
  rfl

/-- registers of the window that begins with `w` -/
def Near (w k : Int) : Prop := w ≤ k ∧ k ≤ w + 2

theorem mod_apart {a d n : Nat} (hn : 3 ≤ n) (ho : n % 2 = 1) (hd : d = 1 ∨ d = 2) : (2 * (a + d)) % n ≠ (2 * a) % n := by
  intro h
  have h1 := Nat.div_add_mod (2 * (a + d)) n
  have h2 := Nat.div_add_mod (2 * a) n
  rw [h] at h1
  generalize (2 * (a + d)) / n = p at *
  generalize (2 * a) / n = q at *
  generalize 2 * a % n = r at *
  have h3 : n * p = n * q + 2 * d := by omega
  have hq : q < p := by
    apply Classical.byContradiction
    intro hc
    have := Nat.mul_le_mul_left n (show p ≤ q by omega)
    omega
  obtain ⟨e, rfl⟩ : ∃ e, p = q + 1 + e := ⟨p - (q + 1), by omega⟩
  have h4 : n * (1 + e) = 2 * d := by
    have : n * (q + 1 + e) = n * q + n * (1 + e) := by rw [Nat.add_assoc, Nat.mul_add]
    omega
  rcases e with _ | _ | e
  · simp at h4; omega
  · rcases hd with rfl | rfl <;> omega
  · have : n * 3 ≤ n * (1 + (e + 1 + 1)) := Nat.mul_le_mul_left n (by omega)
    omega

theorem home_apart {w a b : Int} {n : Nat} (hw : 0 ≤ w) (ha : Near w a) (hb : Near w b) (hn : 3 ≤ n) (ho : n % 2 = 1)
    (h : home a n = home b n) : a = b := by
  obtain ⟨ha1, ha2⟩ := ha
  obtain ⟨hb1, hb2⟩ := hb
  rw [home_eq (by omega), home_eq (by omega)] at h
  apply Classical.byContradiction
  intro hne
  rcases Int.lt_or_gt_of_ne hne with hlt | hlt
  · have : b.toNat = a.toNat + (b.toNat - a.toNat) := by omega
    rw [this] at h
    exact mod_apart hn ho (by omega) h.symm
  · have : a.toNat = b.toNat + (a.toNat - b.toNat) := by omega
    rw [this] at h
    exact mod_apart hn ho (by omega) h

/-- every register is in the slot named by its hash value -/
def Homed (slots : List (Slot Int Unit)) : Prop := ∀ (i : Nat) k, slots[i]? = some (.cell k () false) → i = home k slots.length

theorem Homed.uniq {slots : List (Slot Int Unit)} (h : Homed slots) : Uniq slots := by
  intro i j k v w hi hj
  rw [h i k hi, h j k hj]

theorem rehash_homed {w : Int} (hw : 0 ≤ w) : ∀ (rest new s : List (Slot Int Unit)), rehash hashInteger rest new = .ok s →
    Homed new → NoTomb new → Uniq rest → new.length % 2 = 1 →
    (∀ (i : Nat) k, rest[i]? = some (.cell k () false) → Near w k ∧ 3 ≤ new.length ∧ ∀ j : Nat, new[j]? ≠ some (.cell k () false)) →
    (∀ (i : Nat) k, new[i]? = some (.cell k () false) → Near w k) → Homed s := by
  intro rest
  induction rest with
  | nil => intro new s h hh _ _ _ _ _; simp [rehash] at h; subst h; exact hh
  | cons x rest ih =>
    intro new s h hh hnt hu ho hr hnew
    have hu' : Uniq rest := by
      intro i j k v u hi hj
      have := hu (i + 1) (j + 1) k v u (by simpa using hi) (by simpa using hj)
      omega
    have hr' : ∀ (i : Nat) k, rest[i]? = some (.cell k () false) → Near w k ∧ 3 ≤ new.length ∧ ∀ j : Nat, new[j]? ≠ some (.cell k () false) :=
      fun i k hi => hr (i + 1) k (by simpa using hi)
    match x, h, hu, hr with
    | .null, h, _, _ => exact ih new s (by simpa [rehash] using h) hh hnt hu' ho hr' hnew
    | .cell _ _ true, h, _, _ => exact ih new s (by simpa [rehash] using h) hh hnt hu' ho hr' hnew
    | .cell k () false, h, hu, hr =>
      obtain ⟨hk, h3, hfr⟩ := hr 0 k rfl
      simp only [rehash, Out.bind_eq_ok] at h
      obtain ⟨i, h1, j, h2, h4⟩ := h
      obtain ⟨hi1, hi2⟩ := index_ok (intHash k) (show 0 < new.length by omega)
      rw [h1] at hi1
      simp at hi1; subst hi1
      have hj : j = home k new.length := by
        have hlt : ((hashInteger k).tmod new.length).toNat < new.length := hi2
        obtain ⟨n, hn⟩ : ∃ n, new.length = n + 1 := ⟨new.length - 1, by omega⟩
        rw [show probe new nullStop new.length = probe new nullStop (n + 1) by rw [← hn]] at h2
        have hs : new[((hashInteger k).tmod new.length).toNat]? = some .null := by
          have hg : new[((hashInteger k).tmod new.length).toNat]? = some new[((hashInteger k).tmod new.length).toNat] := by simp [hlt]
          cases hc : new[((hashInteger k).tmod new.length).toNat] with
          | null => rw [hg, hc]
          | cell k' u b =>
            exfalso
            rw [hc] at hg
            cases b with
            | true => exact hnt _ _ _ hg
            | false =>
              have e := hh _ _ hg
              have : k = k' := home_apart hw hk (hnew _ _ hg) h3 ho e
              subst this
              exact hfr _ hg
        simp only [probe, hs, nullStop] at h2
        simp at h2
        rw [← h2]; rfl
      subst hj
      have hget : ∀ (i : Nat) c, (new.set (home k new.length) (.cell k () false))[i]? = some c →
          (i = home k new.length ∧ c = .cell k () false) ∨ new[i]? = some c := by
        intro i c hc
        rw [getElem?_set_some] at hc
        rcases hc with ⟨e1, _, e2⟩ | ⟨_, e⟩
        · exact Or.inl ⟨e1.symm, e2.symm⟩
        · exact Or.inr e
      refine ih _ s h4 ?_ ?_ hu' (by simpa using ho) ?_ ?_
      · intro i c hc
        simp only [List.length_set]
        rcases hget i _ hc with ⟨e1, e2⟩ | e
        · cases e2; exact e1
        · exact hh i c e
      · intro i c u hc
        rcases hget i _ hc with ⟨_, e2⟩ | e
        · cases e2
        · exact hnt i c u e
      · intro i c hc
        obtain ⟨g1, g2, g3⟩ := hr' i c hc
        refine ⟨g1, by simpa using g2, ?_⟩
        intro j hj
        rcases hget j _ hj with ⟨_, e2⟩ | e
        · cases e2
          have := hu 0 (i + 1) k () () rfl (by simpa using hc)
          omega
        · exact g3 j e
      · intro i c hc
        rcases hget i _ hc with ⟨_, e2⟩ | e
        · cases e2; exact hk
        · exact hnew i c e

theorem updateCapacity_homed {w : Int} (hw : 0 ≤ w) {m m' : ISet} {n : Nat} (h : updateCapacity hashInteger m n = .ok m') (hu : Uniq m.slots) (ho : n % 2 = 1)
    (hm : ∀ (i : Nat) k, m.slots[i]? = some (.cell k () false) → Near w k ∧ 3 ≤ n) : Homed m'.slots := by
  simp only [updateCapacity, Out.bind_eq_ok] at h
  obtain ⟨s, h1, h2⟩ := h
  simp at h2; subst h2
  refine rehash_homed hw _ _ s h1 ?_ ?_ hu (by simpa using ho) ?_ ?_
  · intro i k hi; simp [List.getElem?_replicate] at hi
  · intro i k v hi; simp [List.getElem?_replicate] at hi
  · intro i k hi
    obtain ⟨g1, g2⟩ := hm i k hi
    refine ⟨g1, by simpa using g2, ?_⟩
    intro j hj; simp [List.getElem?_replicate] at hj
  · intro i k hi; simp [List.getElem?_replicate] at hi

/-- a set of at most three neighbouring registers, all at home -/
structure AtHome (w : Int) (s : ISet) : Prop where
  inv : Inv hashInteger s
  homed : Homed s.slots
  odd : OddCap s
  near : ∀ k ∈ HSet.elems s, Near w k

theorem AtHome.neat {w : Int} {s : ISet} (h : AtHome w s) : Neat s := ⟨h.inv, h.homed.uniq, h.odd⟩

theorem cell_elem {s : ISet} {i : Nat} {k : Int} (h : s.slots[i]? = some (.cell k () false)) : k ∈ HSet.elems s :=
  HSet.mem_elems.2 ⟨(), i, h⟩

theorem live_pos {s : ISet} (hi : Inv hashInteger s) {i : Nat} {k : Int} (h : s.slots[i]? = some (.cell k () false)) : 1 ≤ s.size := by
  have h1 := hi.live
  have : 0 < s.slots.countP isLive := List.countP_pos_iff.2 ⟨_, List.mem_of_getElem? h, rfl⟩
  omega

theorem AtHome.add {w : Int} (hw : 0 ≤ w) {s : ISet} (h : AtHome w s) {k : Int} (hk : Near w k) :
    ∃ s', HSet.add hashInteger s k = .ok s' ∧ AtHome w s' ∧ ∀ x, x ∈ HSet.elems s' ↔ x = k ∨ x ∈ HSet.elems s := by
  obtain ⟨s', h1, h2, h3⟩ := HSet.add_mem intHash h.inv k
  have hnear : ∀ x ∈ HSet.elems s', Near w x := by
    intro x hx
    rcases (h3 x).1 hx with rfl | hx
    · exact hk
    · exact h.near x hx
  refine ⟨s', h1, ⟨h2, ?_, add_odd h1 h.odd, hnear⟩, h3⟩
  have h1' := h1
  simp only [HSet.add, HMap.add, Out.bind_eq_ok] at h1'
  obtain ⟨i, h4, j, h5, h6⟩ := h1'
  have hpos : 0 < s.slots.length := by have := h.inv.room; omega
  obtain ⟨hi1, hi2⟩ := index_ok (intHash k) hpos
  rw [show s.capacity = s.slots.length from rfl] at h4 h5
  rw [h4] at hi1
  simp at hi1; subst hi1
  have hj : j = home k s.slots.length := by
    obtain ⟨n, hn⟩ : ∃ n, s.slots.length = n + 1 := ⟨s.slots.length - 1, by omega⟩
    rw [show probe s.slots (addStop k) s.slots.length = probe s.slots (addStop k) (n + 1) by rw [← hn]] at h5
    have hg : s.slots[((hashInteger k).tmod s.slots.length).toNat]? = some s.slots[((hashInteger k).tmod s.slots.length).toNat] := by simp [hi2]
    have hs : addStop k s.slots[((hashInteger k).tmod s.slots.length).toNat] = true := by
      cases hc : s.slots[((hashInteger k).tmod s.slots.length).toNat] with
      | null => rfl
      | cell k' u b =>
        cases b with
        | true => rfl
        | false =>
          rw [hc] at hg
          have e := h.homed _ _ hg
          have hsz := live_pos h.inv hg
          have := h.inv.room
          have : k = k' := home_apart hw hk (h.near _ (cell_elem hg)) (by omega) h.odd e
          simp [addStop, this]
    simp only [probe, hg, hs, if_true] at h5
    simp at h5
    rw [← h5]; rfl
  subst hj
  have hset : Homed (s.slots.set (home k s.slots.length) (.cell k () false)) := by
    intro i c hc
    simp only [List.length_set]
    rw [getElem?_set_some] at hc
    rcases hc with ⟨e1, _, e2⟩ | ⟨_, e⟩
    · cases e2; exact e1.symm
    · exact h.homed i c e
  split at h6
  · refine updateCapacity_homed hw h6 hset.uniq (by omega) ?_
    intro i c hc
    have : Near w c := by
      simp only at hc
      rw [getElem?_set_some] at hc
      rcases hc with ⟨_, _, e2⟩ | ⟨_, e⟩
      · cases e2; exact hk
      · exact h.near c (cell_elem e)
    refine ⟨this, ?_⟩
    simp only [capacity, List.length_set]; omega
  · simp at h6; subst h6; exact hset

theorem AtHome.remove {w : Int} (hw : 0 ≤ w) {s : ISet} (h : AtHome w s) (k : Int) :
    ∃ s', HMap.remove hashInteger s k = .ok s' ∧ AtHome w s' ∧ ∀ x, x ∈ HSet.elems s' ↔ x ∈ HSet.elems s ∧ x ≠ k := by
  obtain ⟨s', h1, h2, h3⟩ := h.neat.remove k
  refine ⟨s', h1, ⟨h2.inv, ?_, h2.2.2, fun x hx => h.near x ((h3 x).1 hx).1⟩, h3⟩
  have h1' := h1
  simp only [HMap.remove, Out.bind_eq_ok] at h1'
  obtain ⟨i, h4, r, h5, h6⟩ := h1'
  have hpos : 0 < s.slots.length := by have := h.inv.room; omega
  obtain ⟨hi1, hi2⟩ := index_ok (intHash k) hpos
  rw [show s.capacity = s.slots.length from rfl] at h4 h5
  rw [h4] at hi1
  simp at hi1; subst hi1
  obtain ⟨r', hf, hr⟩ := find_correct intHash h.inv.reach k hpos
  rw [h5] at hf
  simp at hf; subst hf
  cases r with
  | none => simp at h6; subst h6; exact h.homed
  | some j =>
    obtain ⟨u, hu⟩ := hr
    dsimp only at h6
    split at h6
    · rename_i k' v b hg
      have hset : Homed (s.slots.set j (.cell k' v true)) := by
        intro i c hc
        simp only [List.length_set]
        rw [getElem?_set_some] at hc
        rcases hc with ⟨_, _, e2⟩ | ⟨_, e⟩
        · cases e2
        · exact h.homed i c e
      split at h6
      · refine updateCapacity_homed hw h6 hset.uniq (by omega) ?_
        intro i c hc
        simp only at hc
        rw [getElem?_set_some] at hc
        rcases hc with ⟨_, _, e2⟩ | ⟨hne, e⟩
        · cases e2
        · refine ⟨h.near c (cell_elem e), ?_⟩
          have hne' : c ≠ k := by
            rintro rfl
            exact hne ((h.homed _ _ hu).trans (h.homed _ _ e).symm)
          obtain ⟨_, q, hq⟩ := HSet.mem_elems.1 ((h3 c).2 ⟨cell_elem e, hne'⟩)
          have hsz := live_pos h2.inv hq
          have : s'.size = s.size - 1 := by
            simp only [updateCapacity, Out.bind_eq_ok] at h6
            obtain ⟨sl, _, h8⟩ := h6
            simp at h8; subst h8; rfl
          omega
      · simp at h6; subst h6; exact hset
    · simp at h6

theorem AtHome.empty {s : ISet} (h : Neat s) (he : ∀ v, v ∉ HSet.elems s) (w : Int) : AtHome w s :=
  ⟨h.inv, fun _ _ hi => absurd (cell_elem hi) (he _), h.2.2, fun k hk => absurd hk (he k)⟩

theorem addUse_home {w : Int} (hw : 0 ≤ w) {s : ISet} (h : AtHome w s) (o : Option Ope) (ho : ∀ v ∈ RSpec.opeRegs o, Near w v) :
    ∃ s', addUse s o = .ok s' ∧ AtHome w s' ∧ ∀ x, x ∈ HSet.elems s' ↔ x ∈ RSpec.opeRegs o ∨ x ∈ HSet.elems s := by
  unfold addUse
  split
  · rename_i a id b
    obtain ⟨s', h1, h2, h3⟩ := h.add hw (k := id) (ho id (by simp [RSpec.opeRegs]))
    exact ⟨s', h1, h2, by simpa [RSpec.opeRegs] using h3⟩
  · rename_i id
    obtain ⟨s', h1, h2, h3⟩ := h.add hw (k := id) (ho id (by simp [RSpec.opeRegs]))
    exact ⟨s', h1, h2, by simpa [RSpec.opeRegs] using h3⟩
  · rename_i n1 n2
    refine ⟨s, rfl, h, fun x => ?_⟩
    have : RSpec.opeRegs o = [] := by
      unfold RSpec.opeRegs
      split
      · rename_i a id b; exact absurd rfl (n1 a id b)
      · rename_i id; exact absurd rfl (n2 id)
      · rfl
    simp [this]

theorem flowInst_home {w : Int} (hw : 0 ≤ w) {s : ISet} (h : AtHome w s) (x : Immc) (hr : ∀ v ∈ RSpec.reads x, Near w v) :
    ∃ s', flowInst s x = .ok s' ∧ AtHome w s' ∧
      ∀ v, v ∈ HSet.elems s' ↔ v ∈ RSpec.reads x ∨ (v ∈ HSet.elems s ∧ RSpec.writes x ≠ some v) := by
  match x with
  | .data d => exact ⟨s, rfl, h, by intro v; simp [RSpec.reads, RSpec.writes]⟩
  | .label a b c => exact ⟨s, rfl, h, by intro v; simp [RSpec.reads, RSpec.writes]⟩
  | .inst ⟨op, d, f, sn⟩ =>
    have hreads : RSpec.reads (.inst ⟨op, d, f, sn⟩) = RSpec.opeRegs f ++ RSpec.opeRegs sn ++ dstRegs d := rfl
    rw [hreads] at hr ⊢
    have hd : ∃ s1, flowDst s d = .ok s1 ∧ AtHome w s1 ∧
        ∀ v, v ∈ HSet.elems s1 ↔ v ∈ dstRegs d ∨ (v ∈ HSet.elems s ∧ RSpec.writes (.inst ⟨op, d, f, sn⟩) ≠ some v) := by
      unfold flowDst
      split
      · rename_i a id b
        obtain ⟨s1, h1, h2, h3⟩ := h.remove hw id
        refine ⟨s1, h1, h2, fun v => ?_⟩
        rw [h3]
        simp only [dstRegs, RSpec.writes, List.not_mem_nil, false_or, ne_eq, Option.some.injEq]
        exact and_congr_right fun _ => ⟨fun e e' => e e'.symm, fun e e' => e e'.symm⟩
      · rename_i id
        obtain ⟨s1, h1, h2, h3⟩ := h.add hw (k := id) (hr id (by simp [dstRegs]))
        refine ⟨s1, h1, h2, fun v => ?_⟩
        rw [h3]; simp [dstRegs, RSpec.writes]
      · rename_i n1 n2
        refine ⟨s, rfl, h, fun v => ?_⟩
        have e1 : dstRegs d = [] := by
          unfold dstRegs
          split
          · rename_i id; exact absurd rfl (n2 id)
          · rfl
        have e2 : RSpec.writes (.inst ⟨op, d, f, sn⟩) = none := by
          unfold RSpec.writes
          split
          · rename_i a id b e; cases e; exact absurd rfl (n1 _ _ _)
          · rfl
        simp [e1, e2]
    obtain ⟨s1, h1, h2, h3⟩ := hd
    obtain ⟨s2, h5, h6, h7⟩ := addUse_home hw h2 f (fun v hv => hr v (by simp [hv]))
    obtain ⟨s3, h8, h9, h10⟩ := addUse_home hw h6 sn (fun v hv => hr v (by simp [hv]))
    refine ⟨s3, ?_, h9, ?_⟩
    · unfold flowInst
      dsimp only
      rw [h1, Out.ok_bind, h5, Out.ok_bind, h8]
    · intro v
      rw [h10, h7, h3]
      simp only [List.mem_append]
      constructor
      · rintro (h | h | h | h)
        · exact Or.inl (Or.inl (Or.inr h))
        · exact Or.inl (Or.inl (Or.inl h))
        · exact Or.inl (Or.inr h)
        · exact Or.inr h
      · rintro (((h | h) | h) | h)
        · exact Or.inr (Or.inl h)
        · exact Or.inl h
        · exact Or.inr (Or.inr (Or.inl h))
        · exact Or.inr (Or.inr (Or.inr h))

theorem flowLoop_home {w : Int} (hw : 0 ≤ w) : ∀ (is : List Immc) (s : ISet), AtHome w s → (∀ x ∈ is, ∀ v ∈ RSpec.reads x, Near w v) →
    ∃ s', flowLoop s is.reverse = .ok s' ∧ AtHome w s' ∧ ∀ v, v ∈ HSet.elems s' ↔ before is (fun v => v ∈ HSet.elems s) v := by
  intro is
  induction is with
  | nil => intro s h _; exact ⟨s, rfl, h, fun v => Iff.rfl⟩
  | cons x is ih =>
    intro s h hr
    obtain ⟨s1, h1, h2, h3⟩ := ih s h (fun y hy => hr y (by simp [hy]))
    obtain ⟨s2, h4, h5, h6⟩ := flowInst_home hw h2 x (hr x (by simp))
    refine ⟨s2, ?_, h5, ?_⟩
    · rw [List.reverse_cons, flowLoop_append, h1, Out.ok_bind]
      simp [flowLoop, h4]
    · intro v
      rw [h6, h3]; rfl

theorem before_append : ∀ (a b : List Immc) (O : Int → Prop), before (a ++ b) O = before a (before b O) := by
  intro a
  induction a with
  | nil => intro b O; rfl
  | cons x a ih => intro b O; simp only [List.cons_append, before, ih]

theorem before_congr (is : List Immc) {O O' : Int → Prop} (h : ∀ v, O v ↔ O' v) (v : Int) : before is O v ↔ before is O' v :=
  ⟨before_mono is (fun v => (h v).1) v, before_mono is (fun v => (h v).2) v⟩

/-- the item `x`, followed by `b`, does not upset a set -/
def Calm (O : Int → Prop) (x : Immc) (b : List Immc) : Prop :=
  ((RSpec.reads x).Nodup ∧ ∀ v ∈ RSpec.reads x, RSpec.writes x ≠ some v → ¬ before b O v) ∨
  (∃ c d w, 0 ≤ w ∧ b = c ++ d ∧ (∀ v, ¬ before d O v) ∧ ∀ y ∈ x :: c, ∀ v ∈ RSpec.reads y, Near w v) ∨ (b = [] ∧ RSpec.writes x = none)

theorem flowLoop_calm : ∀ (n : Nat) (is : List Immc) (s : ISet), is.length ≤ n → Pristine s →
    (∀ a x b, is = a ++ x :: b → Calm (fun v => v ∈ HSet.elems s) x b) →
    ∃ s', flowLoop s is.reverse = .ok s' ∧ Neat s' ∧ ∀ v, v ∈ HSet.elems s' ↔ before is (fun v => v ∈ HSet.elems s) v := by
  intro n
  induction n with
  | zero =>
    intro is s hn h _
    have : is = [] := List.length_eq_zero_iff.1 (by omega)
    subst this
    exact ⟨s, rfl, h.neat, fun v => Iff.rfl⟩
  | succ n ih =>
    intro is s hn h hc
    match is, hn, hc with
    | [], _, _ => exact ⟨s, rfl, h.neat, fun v => Iff.rfl⟩
    | x :: is, hn, hc =>
      simp at hn
      rcases hc [] x is rfl with ⟨hnd, hr⟩ | ⟨c, d, w, hw, e, hd, hr⟩ | ⟨rfl, hw⟩
      · obtain ⟨s1, h1, h2, h3⟩ := ih is s hn h (fun a y b e => hc (x :: a) y b (by simp [e]))
        obtain ⟨s2, h4, h5, h6⟩ := flowInst_neat h2 x hnd (by
          intro v hv hw hm
          exact hr v hv hw ((h3 v).1 hm))
        refine ⟨s2, ?_, h5, ?_⟩
        · rw [List.reverse_cons, flowLoop_append, h1, Out.ok_bind]
          simp [flowLoop, h4]
        · intro v
          rw [h6, h3]; rfl
      · obtain ⟨s1, h1, h2, h3⟩ := ih d s (by rw [e] at hn; simp at hn; omega) h (fun a y b e' => hc (x :: c ++ a) y b (by simp [e, e']))
        obtain ⟨s2, h4, h5, h6⟩ := flowLoop_home hw (x :: c) s1 (AtHome.empty h2 (fun v hv => hd v ((h3 v).1 hv)) w) hr
        refine ⟨s2, ?_, h5.neat, ?_⟩
        · rw [e, ← List.cons_append, List.reverse_append, flowLoop_append, h1, Out.ok_bind, h4]
        · intro v
          rw [h6, e, ← List.cons_append, before_append]
          exact before_congr _ h3 v
      · obtain ⟨s2, h4, h5, h6⟩ := flowInst_pristine h x hw
        refine ⟨s2, ?_, h5, fun v => ?_⟩
        · simp [flowLoop, h4]
        · rw [h6]; rfl

end Regalloc
end Umlcc
