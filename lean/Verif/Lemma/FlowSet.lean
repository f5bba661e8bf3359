import Verif.Lemma.Cfg
import Verif.Lemma.FlowRun
import Verif.Spec.FlowSets
/-! The sets of registers of regalloc.c as long as no register present is added again (helper lemmas). -/
namespace Umlcc
namespace Regalloc
open HMap

theorem rehash_length {K V : Type} {hash : K → Int} : ∀ (old new s : List (Slot K V)), rehash hash old new = .ok s → s.length = new.length := by
  intro old
  induction old with
  | nil => intro new s h; simp [rehash] at h; subst h; rfl
  | cons x old ih =>
    intro new s h
    match x, h with
    | .null, h => exact ih new s (by simpa [rehash] using h)
    | .cell _ _ true, h => exact ih new s (by simpa [rehash] using h)
    | .cell k v false, h =>
      simp only [rehash, Out.bind_eq_ok] at h
      obtain ⟨i, _, j, _, h3⟩ := h
      have := ih _ s h3
      simpa using this

theorem updateCapacity_length {K V : Type} {hash : K → Int} {m m' : HMap K V} {n : Nat} (h : updateCapacity hash m n = .ok m') :
    m'.slots.length = n := by
  simp only [updateCapacity, Out.bind_eq_ok] at h
  obtain ⟨s, h1, h2⟩ := h
  simp at h2; subst h2
  have := rehash_length _ _ _ h1
  simpa using this

/-- the number of slots is odd -/
def OddCap (s : ISet) : Prop := s.slots.length % 2 = 1

theorem add_odd {s s' : ISet} {k : Int} (h : HSet.add hashInteger s k = .ok s') (ho : OddCap s) : OddCap s' := by
  unfold OddCap at *
  simp only [HSet.add, HMap.add, Out.bind_eq_ok] at h
  obtain ⟨i, _, j, _, h3⟩ := h
  split at h3
  · have := updateCapacity_length h3
    omega
  · simp at h3; subst h3; simpa using ho

theorem remove_odd {s s' : ISet} {k : Int} (h : HMap.remove hashInteger s k = .ok s') (ho : OddCap s) : OddCap s' := by
  unfold OddCap at *
  simp only [HMap.remove, Out.bind_eq_ok] at h
  obtain ⟨i, _, r, _, h3⟩ := h
  split at h3
  · simp at h3; subst h3; exact ho
  · split at h3
    · split at h3
      · have := updateCapacity_length h3
        omega
      · simp at h3; subst h3; simpa using ho
    · simp at h3

/-- a set holding each of its registers once -/
def Neat (s : ISet) : Prop := Inv hashInteger s ∧ Uniq s.slots ∧ OddCap s

theorem Neat.inv {s : ISet} (h : Neat s) : Inv hashInteger s := h.1

theorem neat_new : Neat (HMap.new : ISet) := ⟨exact_new.inv, (exact_new (hash := hashInteger)).uniq, rfl⟩

/-- the history that leaves the given registers -/
theorem lookup_of (k : Int) : ∀ (ks : List Int), MSpec.lookup (MOp.remove 0 :: ks.map fun k => MOp.add k ()) k = if k ∈ ks then some () else none := by
  have : ∀ (ks : List Int) (c : Option Unit), MSpec.after k c (ks.map fun k => MOp.add k ()) = if k ∈ ks then some () else c := by
    intro ks
    induction ks with
    | nil => intro c; simp [MSpec.after]
    | cons a ks ih =>
      intro c
      simp only [List.map_cons, MSpec.after]
      rw [ih]
      by_cases h1 : k ∈ ks
      · simp [h1]
      · by_cases h2 : a = k
        · subst h2; simp [h1]
        · simp only [List.mem_cons, h1, or_false, if_neg h2, if_neg fun e : k = a => h2 e.symm]; simp
  intro ks
  simp only [MSpec.lookup, MSpec.after]
  rw [this]
  simp

theorem Neat.exact {s : ISet} (h : Neat s) : ∃ os, Exact hashInteger os s := by
  refine ⟨MOp.remove 0 :: (HSet.elems s).map fun k => MOp.add k (), h.1, h.2.1, ?_, ?_⟩
  · intro k v
    rw [lookup_of]
    constructor
    · intro hl; rw [if_pos (HSet.mem_elems.2 ⟨v, hl⟩)]
    · intro hl
      split at hl
      · rename_i hm
        obtain ⟨u, hu⟩ := HSet.mem_elems.1 hm
        exact hu
      · cases hl
  · intro ho
    have := ho (MOp.remove 0) (by simp)
    cases this

theorem Neat.add {s : ISet} (h : Neat s) {k : Int} (hk : k ∉ HSet.elems s) :
    ∃ s', HSet.add hashInteger s k = .ok s' ∧ Neat s' ∧ ∀ x, x ∈ HSet.elems s' ↔ x = k ∨ x ∈ HSet.elems s := by
  obtain ⟨os, he⟩ := h.exact
  obtain ⟨s', h1, h2⟩ := exact_add intHash he k () (Or.inl (by
    cases hl : MSpec.lookup os k with
    | none => rfl
    | some u => exact absurd (HSet.mem_elems.2 ⟨u, (he.live k u).2 hl⟩) hk))
  obtain ⟨s'', h3, _, h4⟩ := HSet.add_mem intHash he.inv k
  have : s'' = s' := by
    have e : HSet.add hashInteger s k = .ok s' := h1
    rw [h3] at e; cases e; rfl
  subst this
  exact ⟨s'', h3, ⟨h2.inv, h2.uniq, add_odd h3 h.2.2⟩, h4⟩

theorem Neat.remove {s : ISet} (h : Neat s) (k : Int) :
    ∃ s', HMap.remove hashInteger s k = .ok s' ∧ Neat s' ∧ ∀ x, x ∈ HSet.elems s' ↔ x ∈ HSet.elems s ∧ x ≠ k := by
  have hodd := h.2.2
  obtain ⟨os, h⟩ := h.exact
  obtain ⟨s', h1, h2⟩ := exact_remove intHash h k
  refine ⟨s', h1, ⟨h2.inv, h2.uniq, remove_odd h1 hodd⟩, ?_⟩
  intro x
  rw [HSet.mem_elems, HSet.mem_elems]
  constructor
  · rintro ⟨u, hu⟩
    have := (h2.live x u).1 hu
    rw [lookup_remove] at this
    split at this
    · cases this
    · rename_i hne
      exact ⟨⟨u, (h.live x u).2 this⟩, fun e => hne e.symm⟩
  · rintro ⟨⟨u, hu⟩, hne⟩
    refine ⟨u, (h2.live x u).2 ?_⟩
    rw [lookup_remove, if_neg fun e => hne e.symm]
    exact (h.live x u).1 hu

/-- adding to a set from which nothing was ever removed -/
theorem addAll_exact : ∀ (ks : List Int) (s : ISet) (os : List (MOp Int Unit)), Exact hashInteger os s → (∀ o ∈ os, MSpec.isRemove o = false) → OddCap s →
    ∃ s' os', HSet.addAll hashInteger (fun _ => .ok true) ks s = .ok s' ∧ Exact hashInteger os' s' ∧ (∀ o ∈ os', MSpec.isRemove o = false) ∧ OddCap s' := by
  intro ks
  induction ks with
  | nil => intro s os h ho hd; exact ⟨s, os, rfl, h, ho, hd⟩
  | cons k ks ih =>
    intro s os h ho hd
    obtain ⟨s1, h1, h2⟩ := exact_add intHash h k () (Or.inr ho)
    obtain ⟨s2, os2, h3, h4, h5⟩ := ih s1 _ h2 (by
      intro o ho'
      rcases List.mem_append.1 ho' with h | h
      · exact ho o h
      · simp at h; subst h; rfl) (add_odd h1 hd)
    refine ⟨s2, os2, ?_, h4, h5⟩
    have e : HSet.add hashInteger s k = .ok s1 := h1
    simp [HSet.addAll, e, h3]

/-- nothing was ever removed from the set -/
def Pristine (s : ISet) : Prop := ∃ os, Exact hashInteger os s ∧ (∀ o ∈ os, MSpec.isRemove o = false) ∧ OddCap s

theorem Pristine.neat {s : ISet} (h : Pristine s) : Neat s := by
  obtain ⟨os, h1, _, h2⟩ := h
  exact ⟨h1.inv, h1.uniq, h2⟩

theorem pristine_new : Pristine (HMap.new : ISet) := ⟨[], exact_new, by simp, rfl⟩

/-- any register may be added to it -/
theorem Pristine.add {s : ISet} (h : Pristine s) (k : Int) :
    ∃ s', HSet.add hashInteger s k = .ok s' ∧ Pristine s' ∧ ∀ x, x ∈ HSet.elems s' ↔ x = k ∨ x ∈ HSet.elems s := by
  obtain ⟨os, h1, h2, h3⟩ := h
  obtain ⟨s1, e1, e2⟩ := exact_add intHash h1 k () (Or.inr h2)
  refine ⟨s1, e1, ⟨_, e2, ?_, add_odd e1 h3⟩, fun x => ?_⟩
  · intro o ho
    rcases List.mem_append.1 ho with h | h
    · exact h2 o h
    · simp at h; subst h; rfl
  · rw [HSet.mem_elems, HSet.mem_elems]
    simp only [e2.live, h1.live, lookup_add]
    constructor
    · rintro ⟨u, hu⟩
      split at hu
      · rename_i e; exact Or.inl e.symm
      · exact Or.inr ⟨u, hu⟩
    · rintro (rfl | ⟨u, hu⟩)
      · exact ⟨(), by simp⟩
      · exact ⟨(), by split <;> simp [hu]⟩

theorem addUse_pristine {s : ISet} (h : Pristine s) (o : Option Ope) :
    ∃ s', addUse s o = .ok s' ∧ Pristine s' ∧ ∀ x, x ∈ HSet.elems s' ↔ x ∈ RSpec.opeRegs o ∨ x ∈ HSet.elems s := by
  unfold addUse
  split
  · rename_i a id b
    obtain ⟨s', h1, h2, h3⟩ := h.add id
    exact ⟨s', h1, h2, by simpa [RSpec.opeRegs] using h3⟩
  · rename_i id
    obtain ⟨s', h1, h2, h3⟩ := h.add id
    exact ⟨s', h1, h2, by simpa [RSpec.opeRegs] using h3⟩
  · rename_i n1 n2
    refine ⟨s, rfl, h, fun x => ?_⟩
    have : RSpec.opeRegs o = [] := by
      unfold RSpec.opeRegs
      split
      · rename_i a id b; exact absurd rfl (n1 a id b)
      · rename_i id; exact absurd rfl (n2 id)
      · rfl
    simp [this]

theorem union_pristine {s o : ISet} (hs : Inv hashInteger s) (ho : Inv hashInteger o) :
    ∃ u, HSet.union hashInteger s o = .ok u ∧ Pristine u ∧ ∀ x, x ∈ HSet.elems u ↔ x ∈ HSet.elems s ∨ x ∈ HSet.elems o := by
  obtain ⟨u, h1, _, h2⟩ := union_mem hs ho
  obtain ⟨s1, os1, h3, h4, h5, h8⟩ := addAll_exact (HSet.elems s) HMap.new [] exact_new (by simp) rfl
  obtain ⟨s2, os2, h6, h7, h7', h9⟩ := addAll_exact (HSet.elems o) s1 os1 h4 h5 h8
  have : HSet.union hashInteger s o = .ok s2 := by unfold HSet.union; rw [h3, Out.ok_bind, h6]
  have e : u = s2 := by rw [this] at h1; injection h1 with h1; exact h1.symm
  rw [e] at h2
  exact ⟨s2, this, ⟨os2, h7, h7', h9⟩, h2⟩

theorem addUse_neat {s : ISet} (h : Neat s) (o : Option Ope) (ho : ∀ v ∈ RSpec.opeRegs o, v ∉ HSet.elems s) :
    ∃ s', addUse s o = .ok s' ∧ Neat s' ∧ ∀ x, x ∈ HSet.elems s' ↔ x ∈ RSpec.opeRegs o ∨ x ∈ HSet.elems s := by
  unfold addUse
  split
  · rename_i a id b
    obtain ⟨s', h1, h2, h3⟩ := h.add (k := id) (ho id (by simp [RSpec.opeRegs]))
    exact ⟨s', h1, h2, by simpa [RSpec.opeRegs] using h3⟩
  · rename_i id
    obtain ⟨s', h1, h2, h3⟩ := h.add (k := id) (ho id (by simp [RSpec.opeRegs]))
    exact ⟨s', h1, h2, by simpa [RSpec.opeRegs] using h3⟩
  · rename_i n1 n2
    refine ⟨s, rfl, h, fun x => ?_⟩
    have : RSpec.opeRegs o = [] := by
      unfold RSpec.opeRegs
      split
      · rename_i a id b; exact absurd rfl (n1 a id b)
      · rename_i id; exact absurd rfl (n2 id)
      · rfl
    simp [this]

/-- registers the destination operand needs -/
def dstRegs (d : Option Ope) : List Int := match d with | some (.ptr id) => [id] | _ => []

theorem flowInst_neat {s : ISet} (h : Neat s) (x : Immc) (hn : (RSpec.reads x).Nodup)
    (hr : ∀ v ∈ RSpec.reads x, RSpec.writes x ≠ some v → v ∉ HSet.elems s) :
    ∃ s', flowInst s x = .ok s' ∧ Neat s' ∧
      ∀ v, v ∈ HSet.elems s' ↔ v ∈ RSpec.reads x ∨ (v ∈ HSet.elems s ∧ RSpec.writes x ≠ some v) := by
  match x with
  | .data d => exact ⟨s, rfl, h, by intro v; simp [RSpec.reads, RSpec.writes]⟩
  | .label a b c => exact ⟨s, rfl, h, by intro v; simp [RSpec.reads, RSpec.writes]⟩
  | .inst ⟨op, d, f, sn⟩ =>
    have hreads : RSpec.reads (.inst ⟨op, d, f, sn⟩) = RSpec.opeRegs f ++ RSpec.opeRegs sn ++ dstRegs d := rfl
    rw [hreads] at hn hr ⊢
    rw [List.nodup_append] at hn
    obtain ⟨hn1, hn4, hn3⟩ := hn
    clear hn4
    rw [List.nodup_append] at hn1
    obtain ⟨_, _, hn2⟩ := hn1
    have hd : ∃ s1, flowDst s d = .ok s1 ∧ Neat s1 ∧
        ∀ v, v ∈ HSet.elems s1 ↔ v ∈ dstRegs d ∨ (v ∈ HSet.elems s ∧ RSpec.writes (.inst ⟨op, d, f, sn⟩) ≠ some v) := by
      unfold flowDst
      split
      · rename_i a id b
        obtain ⟨s1, h1, h2, h3⟩ := h.remove id
        refine ⟨s1, h1, h2, fun v => ?_⟩
        rw [h3]
        simp only [dstRegs, RSpec.writes, List.not_mem_nil, false_or, ne_eq, Option.some.injEq]
        exact and_congr_right fun _ => ⟨fun e e' => e e'.symm, fun e e' => e e'.symm⟩
      · rename_i id
        obtain ⟨s1, h1, h2, h3⟩ := h.add (k := id) (hr id (by simp [dstRegs]) (by simp [RSpec.writes]))
        refine ⟨s1, h1, h2, fun v => ?_⟩
        rw [h3]; simp [dstRegs, RSpec.writes]
      · rename_i n1 n2
        refine ⟨s, rfl, h, fun v => ?_⟩
        have e1 : dstRegs d = [] := by
          unfold dstRegs
          split
          · rename_i id; exact absurd rfl (n2 id)
          · rfl
        have e2 : RSpec.writes (.inst ⟨op, d, f, sn⟩) = none := by
          unfold RSpec.writes
          split
          · rename_i a id b e; cases e; exact absurd rfl (n1 _ _ _)
          · rfl
        simp [e1, e2]
    obtain ⟨s1, h1, h2, h3⟩ := hd
    obtain ⟨s2, h5, h6, h7⟩ := addUse_neat h2 f (by
      intro v hv hm
      rw [h3] at hm
      rcases hm with hm | ⟨hm, hw⟩
      · exact hn3 v (by simp [hv]) v hm rfl
      · exact hr v (by simp [hv]) hw hm)
    obtain ⟨s3, h8, h9, h10⟩ := addUse_neat h6 sn (by
      intro v hv hm
      rw [h7, h3] at hm
      rcases hm with hm | hm | ⟨hm, hw⟩
      · exact hn2 v hm v hv rfl
      · exact hn3 v (by simp [hv]) v hm rfl
      · exact hr v (by simp [hv]) hw hm)
    refine ⟨s3, ?_, h9, ?_⟩
    · unfold flowInst
      dsimp only
      rw [h1, Out.ok_bind, h5, Out.ok_bind, h8]
    · intro v
      rw [h10, h7, h3]
      simp only [List.mem_append]
      constructor
      · rintro (h | h | h | h)
        · exact Or.inl (Or.inl (Or.inr h))
        · exact Or.inl (Or.inl (Or.inl h))
        · exact Or.inl (Or.inr h)
        · exact Or.inr h
      · rintro (((h | h) | h) | h)
        · exact Or.inr (Or.inl h)
        · exact Or.inl h
        · exact Or.inr (Or.inr (Or.inl h))
        · exact Or.inr (Or.inr (Or.inr h))

/-- an item that writes no register, when nothing was removed from the set before -/
theorem flowInst_pristine {s : ISet} (h : Pristine s) (x : Immc) (hw : RSpec.writes x = none) :
    ∃ s', flowInst s x = .ok s' ∧ Neat s' ∧
      ∀ v, v ∈ HSet.elems s' ↔ v ∈ RSpec.reads x ∨ (v ∈ HSet.elems s ∧ RSpec.writes x ≠ some v) := by
  match x with
  | .data d => exact ⟨s, rfl, h.neat, by intro v; simp [RSpec.reads, RSpec.writes]⟩
  | .label a b c => exact ⟨s, rfl, h.neat, by intro v; simp [RSpec.reads, RSpec.writes]⟩
  | .inst ⟨op, d, f, sn⟩ =>
    have hreads : RSpec.reads (.inst ⟨op, d, f, sn⟩) = RSpec.opeRegs f ++ RSpec.opeRegs sn ++ dstRegs d := rfl
    have hd : ∃ s1, flowDst s d = .ok s1 ∧ Pristine s1 ∧ ∀ v, v ∈ HSet.elems s1 ↔ v ∈ dstRegs d ∨ v ∈ HSet.elems s := by
      unfold flowDst
      split
      · cases hw
      · rename_i id
        obtain ⟨s1, h1, h2, h3⟩ := h.add id
        exact ⟨s1, h1, h2, fun v => by rw [h3]; simp [dstRegs]⟩
      · rename_i n1 n2
        refine ⟨s, rfl, h, fun v => ?_⟩
        have e1 : dstRegs d = [] := by
          unfold dstRegs
          split
          · rename_i id; exact absurd rfl (n2 id)
          · rfl
        simp [e1]
    obtain ⟨s1, h1, h2, h3⟩ := hd
    obtain ⟨s2, h5, h6, h7⟩ := addUse_pristine h2 f
    obtain ⟨s3, h8, h9, h10⟩ := addUse_pristine h6 sn
    refine ⟨s3, ?_, h9.neat, ?_⟩
    · unfold flowInst
      dsimp only
      rw [h1, Out.ok_bind, h5, Out.ok_bind, h8]
    · intro v
      rw [h10, h7, h3, hreads, hw]
      simp only [List.mem_append, ne_eq, reduceCtorEq, not_false_eq_true, and_true]
      constructor
      · rintro (h | h | h | h)
        · exact Or.inl (Or.inl (Or.inr h))
        · exact Or.inl (Or.inl (Or.inl h))
        · exact Or.inl (Or.inr h)
        · exact Or.inr h
      · rintro (((h | h) | h) | h)
        · exact Or.inr (Or.inl h)
        · exact Or.inl h
        · exact Or.inr (Or.inr (Or.inl h))
        · exact Or.inr (Or.inr (Or.inr h))

/-- registers needed before items when those of `O` are needed after them -/
def before : List Immc → (Int → Prop) → Int → Prop
  | [], O => O
  | x :: is, O => fun v => v ∈ RSpec.reads x ∨ (before is O v ∧ RSpec.writes x ≠ some v)

theorem before_mono : ∀ (is : List Immc) {O O' : Int → Prop}, (∀ v, O v → O' v) → ∀ v, before is O v → before is O' v := by
  intro is
  induction is with
  | nil => intro O O' h; exact h
  | cons x is ih =>
    intro O O' h v hv
    rcases hv with hv | ⟨hv, hw⟩
    · exact Or.inl hv
    · exact Or.inr ⟨ih h v hv, hw⟩

theorem flowLoop_neat : ∀ (is : List Immc) (s : ISet), Neat s → (∀ x ∈ is, (RSpec.reads x).Nodup) →
    (∀ a x b, is = a ++ x :: b → ∀ v ∈ RSpec.reads x, RSpec.writes x ≠ some v → ¬ before b (fun v => v ∈ HSet.elems s) v) →
    ∃ s', flowLoop s is.reverse = .ok s' ∧ Neat s' ∧ ∀ v, v ∈ HSet.elems s' ↔ before is (fun v => v ∈ HSet.elems s) v := by
  intro is
  induction is with
  | nil => intro s h _ _; exact ⟨s, rfl, h, fun v => Iff.rfl⟩
  | cons x is ih =>
    intro s h hn hr
    obtain ⟨s1, h1, h2, h3⟩ := ih s h (fun y hy => hn y (by simp [hy])) (fun a y b e => hr (x :: a) y b (by simp [e]))
    obtain ⟨s2, h4, h5, h6⟩ := flowInst_neat h2 x (hn x (by simp)) (by
      intro v hv hw hm
      exact hr [] x is rfl v hv hw ((h3 v).1 hm))
    refine ⟨s2, ?_, h5, ?_⟩
    · rw [List.reverse_cons, flowLoop_append, h1, Out.ok_bind]
      simp [flowLoop, h4]
    · intro v
      rw [h6, h3]; rfl

theorem unionSucc_neat (bs : List Block) (hb : ∀ b ∈ bs, Neat b.input) : ∀ (ts : List Int) (acc : ISet), Pristine acc →
    (∀ t ∈ ts, ∃ c, 0 ≤ t ∧ bs[t.toNat]? = some c) →
    ∃ u, unionSucc bs ts acc = .ok u ∧ Pristine u ∧
      ∀ v, v ∈ HSet.elems u ↔ v ∈ HSet.elems acc ∨ ∃ t ∈ ts, ∃ c, bs[t.toNat]? = some c ∧ v ∈ HSet.elems c.input := by
  intro ts
  induction ts with
  | nil => intro acc h _; exact ⟨acc, rfl, h, by simp⟩
  | cons t ts ih =>
    intro acc h ht
    obtain ⟨c, hc0, hc⟩ := ht t (by simp)
    obtain ⟨u1, h1, h2, h3⟩ := union_pristine h.neat.inv (hb c (List.mem_of_getElem? hc)).inv
    obtain ⟨u2, h4, h5, h6⟩ := ih u1 h2 (fun t' h' => ht t' (by simp [h']))
    refine ⟨u2, ?_, h5, ?_⟩
    · unfold unionSucc
      rw [if_pos hc0, hc]
      dsimp only
      rw [h1, Out.ok_bind, h4]
    · intro v
      rw [h6, h3]
      constructor
      · rintro ((h | h) | ⟨t', h, c', h', h''⟩)
        · exact Or.inl h
        · exact Or.inr ⟨t, by simp, c, hc, h⟩
        · exact Or.inr ⟨t', by simp [h], c', h', h''⟩
      · rintro (h | ⟨t', h, c', h', h''⟩)
        · exact Or.inl (Or.inl h)
        · rcases List.mem_cons.1 h with rfl | h
          · rw [hc] at h'; cases h'; exact Or.inl (Or.inr h'')
          · exact Or.inr ⟨t', h, c', h', h''⟩

end Regalloc
end Umlcc
