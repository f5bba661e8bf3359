import Verif.Lemma.Map
import Verif.Spec.Map
namespace Umlcc
namespace HMap
variable {K V : Type} [DecidableEq K]

theorem after_append (k : K) (cur : Option V) (a b : List (MOp K V)) :
    MSpec.after k cur (a ++ b) = MSpec.after k (MSpec.after k cur a) b := by
  induction a generalizing cur with
  | nil => rfl
  | cons o os ih => cases o <;> simp [MSpec.after, ih]

theorem lookup_add (os : List (MOp K V)) (k k' : K) (v : V) :
    MSpec.lookup (os ++ [.add k v]) k' = if k = k' then some v else MSpec.lookup os k' := by
  simp [MSpec.lookup, after_append, MSpec.after]

theorem lookup_remove (os : List (MOp K V)) (k k' : K) :
    MSpec.lookup (os ++ [.remove k]) k' = if k = k' then none else MSpec.lookup os k' := by
  simp [MSpec.lookup, after_append, MSpec.after]

theorem run_append (hash : K → Int) (m : HMap K V) (a b : List (MOp K V)) :
    run hash m (a ++ b) = (run hash m a).bind (fun m => run hash m b) := by
  induction a generalizing m with
  | nil => rfl
  | cons o os ih =>
    simp only [List.cons_append, run]
    cases h : step hash m o with
    | ok m' => simp [ih]
    | _ => rfl

/-- never loses: in all histories -/
theorem run_keeps {hash : K → Int} (hn : ∀ k, 0 ≤ hash k) (m : HMap K V) (hi : Inv hash m) (key : K)
    (cur : Option V) (os : List (MOp K V)) (hcur : cur ≠ none → ∃ v, LiveAt m.slots key v) :
    ∃ m', run hash m os = .ok m' ∧ Inv hash m' ∧
      (MSpec.after key cur os ≠ none → ∃ v, LiveAt m'.slots key v) := by
  induction os generalizing m cur with
  | nil => exact ⟨m, rfl, hi, hcur⟩
  | cons o os ih =>
    cases o with
    | add k v =>
      obtain ⟨m1, P, s, h1, h2, hP, hst, hlive, -⟩ := add_spec hn hi k v
      obtain ⟨m2, h3, h4, h5⟩ := ih m1 h2 (if k = key then some v else cur) (by
        by_cases hk : k = key
        · subst hk
          intro _
          refine ⟨v, (hlive _ _).2 ⟨P, ?_⟩⟩
          rw [getElem?_set_some]; exact Or.inl ⟨rfl, get_lt hP, rfl⟩
        · rw [if_neg hk]
          intro hc
          obtain ⟨w, i, hw⟩ := hcur hc
          refine ⟨w, (hlive _ _).2 ⟨i, ?_⟩⟩
          rw [getElem?_set_some]
          refine Or.inr ⟨?_, hw⟩
          rintro rfl
          rw [hP] at hw; simp at hw; subst hw
          simp [addStop] at hst; exact hk hst.symm)
      exact ⟨m2, by simp [run, step, h1, h3], h4, h5⟩
    | remove k =>
      obtain ⟨m1, h1, h2, hcase⟩ := remove_spec hn hi k
      obtain ⟨m2, h3, h4, h5⟩ := ih m1 h2 (if k = key then none else cur) (by
        by_cases hk : k = key
        · simp [hk]
        · rw [if_neg hk]
          intro hc
          obtain ⟨w, i, hw⟩ := hcur hc
          rcases hcase with ⟨rfl, _⟩ | ⟨P, w', hP, hlive, _⟩
          · exact ⟨w, i, hw⟩
          · refine ⟨w, (hlive _ _).2 ⟨i, ?_⟩⟩
            rw [getElem?_set_some]
            refine Or.inr ⟨?_, hw⟩
            rintro rfl
            rw [hP] at hw; simp at hw; exact hk hw.1)
      exact ⟨m2, by simp [run, step, h1, h3], h4, h5⟩

/-- exact state of the table after a calm history -/
structure Exact (hash : K → Int) (os : List (MOp K V)) (m : HMap K V) : Prop where
  inv : Inv hash m
  uniq : Uniq m.slots
  live : ∀ k v, LiveAt m.slots k v ↔ MSpec.lookup os k = some v
  notomb : (∀ o ∈ os, MSpec.isRemove o = false) → NoTomb m.slots

theorem exact_new {hash : K → Int} : Exact hash [] (HMap.new : HMap K V) := by
  refine ⟨inv_new, ?_, ?_, ?_⟩
  · intro i j k v w hi
    match i, hi with
    | 0, hi => simp [new] at hi
    | i+1, hi => simp [new] at hi
  · intro k v
    simp only [MSpec.lookup, MSpec.after, reduceCtorEq, iff_false]
    rintro ⟨i, hi⟩
    match i, hi with
    | 0, hi => simp [new] at hi
    | i+1, hi => simp [new] at hi
  · intro _ i k v hi
    match i, hi with
    | 0, hi => simp [new] at hi
    | i+1, hi => simp [new] at hi

theorem exact_add {hash : K → Int} (hn : ∀ k, 0 ≤ hash k) {os : List (MOp K V)} {m : HMap K V} (h : Exact hash os m)
    (k : K) (v : V) (hc : MSpec.lookup os k = none ∨ ∀ o ∈ os, MSpec.isRemove o = false) :
    ∃ m', add hash m k v = .ok m' ∧ Exact hash (os ++ [.add k v]) m' := by
  obtain ⟨m1, P, s, h1, h2, hP, hst, hlive, hnt, huniq, hfresh, hex⟩ := add_spec hn h.inv k v
  -- no live cell of `k` outside slot `P`
  have honly : ∀ (i : Nat) w, m.slots[i]? = some (.cell k w false) → i = P := by
    intro i w hi
    rcases hc with hc | hc
    · have := (h.live k w).1 ⟨i, hi⟩
      rw [hc] at this; simp at this
    · obtain ⟨w', hw'⟩ := hex i w (h.notomb hc) hi
      subst hw'
      exact h.uniq i P k w w' hi hP
  have hkeep : ∀ (i : Nat) k' w, k' ≠ k → m.slots[i]? = some (.cell k' w false) → P ≠ i := by
    rintro i k' w hne hi rfl
    rw [hP] at hi; simp at hi; subst hi
    simp [addStop] at hst; exact hne hst
  refine ⟨m1, h1, h2, huniq ?_, ?_, ?_⟩
  · intro i j k' a b hi hj
    rw [getElem?_set_some] at hi hj
    rcases hi with ⟨h3, _, h'⟩ | ⟨h3, h'⟩ <;> rcases hj with ⟨h4, _, h''⟩ | ⟨h4, h''⟩
    · omega
    · simp at h'; rw [← h'.1] at h''; exact absurd (honly j b h'').symm h4
    · simp at h''; rw [← h''.1] at h'; exact absurd (honly i a h').symm h3
    · exact h.uniq i j k' a b h' h''
  · intro k' w
    rw [hlive, lookup_add]
    constructor
    · rintro ⟨i, hi⟩
      rw [getElem?_set_some] at hi
      rcases hi with ⟨_, _, h'⟩ | ⟨h3, h'⟩
      · simp at h'; simp [h']
      · by_cases hk : k = k'
        · subst hk; exact absurd (honly i w h').symm h3
        · rw [if_neg hk]; exact (h.live k' w).1 ⟨i, h'⟩
    · by_cases hk : k = k'
      · subst hk
        simp only [if_true, Option.some.injEq]
        rintro rfl
        exact ⟨P, by rw [getElem?_set_some]; exact Or.inl ⟨rfl, get_lt hP, rfl⟩⟩
      · rw [if_neg hk]
        intro hl
        obtain ⟨i, hi⟩ := (h.live k' w).2 hl
        exact ⟨i, by rw [getElem?_set_some]; exact Or.inr ⟨hkeep i k' w (fun e => hk e.symm) hi, hi⟩⟩
  · intro hr
    apply hnt
    intro i k' w hi
    rw [getElem?_set_some] at hi
    rcases hi with ⟨_, _, h'⟩ | ⟨h3, h'⟩
    · simp at h'
    · exact h.notomb (fun o ho => hr o (by simp [ho])) i k' w h'

theorem exact_remove {hash : K → Int} (hn : ∀ k, 0 ≤ hash k) {os : List (MOp K V)} {m : HMap K V} (h : Exact hash os m)
    (k : K) : ∃ m', remove hash m k = .ok m' ∧ Exact hash (os ++ [.remove k]) m' := by
  obtain ⟨m1, h1, h2, hcase⟩ := remove_spec hn h.inv k
  refine ⟨m1, h1, h2, ?_, ?_, ?_⟩
  · rcases hcase with ⟨rfl, _⟩ | ⟨P, w, hP, _, hu⟩
    · exact h.uniq
    · apply hu
      intro i j k' a b hi hj
      rw [getElem?_set_some] at hi hj
      rcases hi with ⟨h3, _, h'⟩ | ⟨h3, h'⟩ <;> rcases hj with ⟨h4, _, h''⟩ | ⟨h4, h''⟩
      · omega
      · simp at h'
      · simp at h''
      · exact h.uniq i j k' a b h' h''
  · intro k' a
    rw [lookup_remove]
    rcases hcase with ⟨rfl, hno⟩ | ⟨P, w, hP, hl, hu⟩
    · by_cases hk : k = k'
      · subst hk; simp [hno]
      · rw [if_neg hk]; exact h.live k' a
    · rw [hl]
      constructor
      · rintro ⟨i, hi⟩
        rw [getElem?_set_some] at hi
        rcases hi with ⟨_, _, h'⟩ | ⟨h3, h'⟩
        · simp at h'
        · by_cases hk : k = k'
          · subst hk; exact absurd (h.uniq i P k a w h' hP).symm h3
          · rw [if_neg hk]; exact (h.live k' a).1 ⟨i, h'⟩
      · by_cases hk : k = k'
        · simp [hk]
        · rw [if_neg hk]
          intro hl
          obtain ⟨i, hi⟩ := (h.live k' a).2 hl
          refine ⟨i, by rw [getElem?_set_some]; refine Or.inr ⟨?_, hi⟩; rintro rfl; rw [hP] at hi; simp at hi; exact hk hi.1⟩
  · intro hr
    have := hr (.remove k) (by simp)
    simp [MSpec.isRemove] at this

theorem exact_run {hash : K → Int} (hn : ∀ k, 0 ≤ hash k) (os : List (MOp K V)) : ∀ (pre : List (MOp K V)) (m : HMap K V),
    Exact hash pre m → MSpec.Calm (pre ++ os) → ∃ m', run hash m os = .ok m' ∧ Exact hash (pre ++ os) m' := by
  induction os with
  | nil => intro pre m h _; exact ⟨m, rfl, by simpa using h⟩
  | cons o os ih =>
    intro pre m h hc
    have : ∃ m', step hash m o = .ok m' ∧ Exact hash (pre ++ [o]) m' := by
      cases o with
      | add k v => exact exact_add hn h k v (hc pre k v os rfl)
      | remove k => exact exact_remove hn h k
    obtain ⟨m1, h1, h2⟩ := this
    obtain ⟨m2, h3, h4⟩ := ih (pre ++ [o]) m1 h2 (by simpa using hc)
    exact ⟨m2, by simp [run, h1, h3], by simpa using h4⟩

theorem mem_items {m : HMap K V} {k : K} {v : V} : (k, v) ∈ items m ↔ LiveAt m.slots k v := by
  simp only [items, List.mem_filterMap, LiveAt, ← List.mem_iff_getElem?]
  constructor
  · rintro ⟨s, hs, h⟩
    match s, h with
    | .cell k' v' false, h => simp at h; rw [← h.1, ← h.2]; exact hs
  · intro h; exact ⟨_, h, rfl⟩

theorem uniq_keys {slots : List (Slot K V)} (hu : Uniq slots) {n : Nat} :
    ((items ⟨slots, n⟩).map (·.1)).Nodup := by
  induction slots with
  | nil => simp [items]
  | cons s ss ih =>
    have hu' : Uniq ss := by
      intro i j k v w hi hj
      have := hu (i+1) (j+1) k v w (by simpa using hi) (by simpa using hj)
      omega
    have := ih hu'
    match s with
    | .null => simpa [items] using this
    | .cell _ _ true => simpa [items] using this
    | .cell k v false =>
      simp only [items, List.filterMap_cons, List.map_cons, List.nodup_cons]
      refine ⟨?_, this⟩
      intro hm
      rw [List.mem_map] at hm
      obtain ⟨⟨k', w⟩, hm, hk⟩ := hm
      simp only at hk; subst hk
      have := (mem_items (m := ⟨ss, n⟩)).1 hm
      obtain ⟨i, hi⟩ := this
      have := hu 0 (i+1) k' v w (by simp) (by simpa using hi)
      omega

/-! sets -/

theorem contains_spec {hash : K → Int} (hn : ∀ k, 0 ≤ hash k) {m : HMap K V} (h : Inv hash m) (key : K) :
    ∃ b, contains hash m key = .ok b ∧ (b = true ↔ ∃ v, LiveAt m.slots key v) := by
  obtain ⟨r, h1, h2, h3⟩ := get_spec hn h key
  refine ⟨r.isSome, by simp [contains, h1], ?_⟩
  cases r with
  | none => simp [h3]
  | some v => simp; exact ⟨v, h2 v rfl⟩

end HMap

namespace HSet
variable {K : Type} [DecidableEq K]
open HMap

theorem mem_elems {s : HSet K} {k : K} : k ∈ elems s ↔ ∃ v, LiveAt s.slots k v := by
  simp only [elems, List.mem_map]
  constructor
  · rintro ⟨⟨k', v⟩, h, rfl⟩; exact ⟨v, mem_items.1 h⟩
  · rintro ⟨v, h⟩; exact ⟨(k, v), mem_items.2 h, rfl⟩

theorem add_mem {hash : K → Int} (hn : ∀ k, 0 ≤ hash k) {s : HSet K} (h : Inv hash s) (k : K) :
    ∃ s', add hash s k = .ok s' ∧ Inv hash s' ∧ ∀ x, x ∈ elems s' ↔ x = k ∨ x ∈ elems s := by
  obtain ⟨m1, P, c, h1, h2, hP, hst, hlive, -⟩ := add_spec hn h k ()
  refine ⟨m1, h1, h2, fun x => ?_⟩
  rw [mem_elems, mem_elems]
  constructor
  · rintro ⟨v, hv⟩
    rw [hlive] at hv
    obtain ⟨i, hi⟩ := hv
    rw [getElem?_set_some] at hi
    rcases hi with ⟨_, _, h'⟩ | ⟨h3, h'⟩
    · simp at h'; exact Or.inl h'.symm
    · exact Or.inr ⟨v, i, h'⟩
  · rintro (rfl | ⟨v, i, hi⟩)
    · exact ⟨(), (hlive _ _).2 ⟨P, by rw [getElem?_set_some]; exact Or.inl ⟨rfl, get_lt hP, rfl⟩⟩⟩
    · by_cases hx : x = k
      · subst hx
        exact ⟨(), (hlive _ _).2 ⟨P, by rw [getElem?_set_some]; exact Or.inl ⟨rfl, get_lt hP, rfl⟩⟩⟩
      · refine ⟨v, (hlive _ _).2 ⟨i, ?_⟩⟩
        rw [getElem?_set_some]
        refine Or.inr ⟨?_, hi⟩
        rintro rfl
        rw [hP] at hi; simp at hi; subst hi
        simp [addStop] at hst; exact hx hst

theorem addAll_mem {hash : K → Int} (hn : ∀ k, 0 ≤ hash k) (test : K → Out Bool) (p : K → Prop)
    (ht : ∀ k, ∃ b, test k = .ok b ∧ (b = true ↔ p k)) (ks : List K) {s : HSet K} (h : Inv hash s) :
    ∃ s', addAll hash test ks s = .ok s' ∧ Inv hash s' ∧ ∀ x, x ∈ elems s' ↔ x ∈ elems s ∨ (x ∈ ks ∧ p x) := by
  induction ks generalizing s with
  | nil => exact ⟨s, rfl, h, by simp⟩
  | cons k ks ih =>
    obtain ⟨b, hb, hbp⟩ := ht k
    cases b with
    | true =>
      obtain ⟨s1, h1, h2, h3⟩ := add_mem hn h k
      obtain ⟨s2, h4, h5, h6⟩ := ih h2
      refine ⟨s2, by simp [addAll, hb, h1, h4], h5, fun x => ?_⟩
      rw [h6, h3]
      simp only [List.mem_cons]
      have : p k := hbp.1 rfl
      constructor
      · rintro ((rfl | h) | ⟨h, h'⟩)
        · exact Or.inr ⟨Or.inl rfl, this⟩
        · exact Or.inl h
        · exact Or.inr ⟨Or.inr h, h'⟩
      · rintro (h | ⟨rfl | h, h'⟩)
        · exact Or.inl (Or.inr h)
        · exact Or.inl (Or.inl rfl)
        · exact Or.inr ⟨h, h'⟩
    | false =>
      obtain ⟨s2, h4, h5, h6⟩ := ih h
      refine ⟨s2, by simp [addAll, hb, h4], h5, fun x => ?_⟩
      rw [h6]
      have : ¬ p k := fun h => by simpa using hbp.2 h
      simp only [List.mem_cons]
      constructor
      · rintro (h | ⟨h, h'⟩)
        · exact Or.inl h
        · exact Or.inr ⟨Or.inr h, h'⟩
      · rintro (h | ⟨rfl | h, h'⟩)
        · exact Or.inl h
        · exact absurd h' this
        · exact Or.inr ⟨h, h'⟩

theorem contains_mem {hash : K → Int} (hn : ∀ k, 0 ≤ hash k) {s : HSet K} (h : Inv hash s) (key : K) :
    ∃ b, contains hash s key = .ok b ∧ (b = true ↔ key ∈ elems s) := by
  obtain ⟨b, h1, h2⟩ := contains_spec hn h key
  exact ⟨b, h1, by rw [h2, mem_elems]⟩

theorem allIn_spec {hash : K → Int} (hn : ∀ k, 0 ≤ hash k) {s : HSet K} (h : Inv hash s) (ks : List K) :
    ∃ b, allIn hash s ks = .ok b ∧ (b = true ↔ ∀ k ∈ ks, k ∈ elems s) := by
  induction ks with
  | nil => exact ⟨true, rfl, by simp⟩
  | cons k ks ih =>
    obtain ⟨b, hb, hbp⟩ := contains_mem hn h k
    obtain ⟨b2, hb2, hbp2⟩ := ih
    cases b with
    | true => refine ⟨b2, by simp [allIn, hb, hb2], ?_⟩; simp [hbp2, hbp.1 rfl]
    | false => refine ⟨false, by simp [allIn, hb], ?_⟩; simp; intro h; simpa using hbp.2 h

end HSet
end Umlcc
