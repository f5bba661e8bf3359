import Verif.Lemma.RegSim
import Verif.Spec.Intervals
/-! When linear scan runs out of registers (helper lemmas). -/
namespace Umlcc
namespace Regalloc

def busy (lv : List Live) (l : Live) (u : Nat) : Bool :=
  match lv[u]? with
  | some lu => decide (l.first < lu.last)
  | none => false

theorem pressure_busy {lv : List Live} {v : Nat} {l : Live} (hv : lv[v]? = some l) :
    RSpec.pressure lv v = ((List.range v).filter (busy lv l)).length := by
  unfold RSpec.pressure
  rw [List.countP_eq_length_filter]
  congr 2
  funext u
  simp only [hv, busy]
  cases lv[u]? <;> rfl

theorem occ_full : ∀ (st : List (Option Nat)), firstFree st = none → (st.filterMap id).length = st.length := by
  intro st
  induction st with
  | nil => simp
  | cons s ss ih =>
    intro h
    cases s with
    | none => simp [firstFree] at h
    | some u =>
      simp only [firstFree, Option.map_eq_none_iff] at h
      simp [ih h]

theorem occ_lt : ∀ (st : List (Option Nat)), firstFree st ≠ none → (st.filterMap id).length < st.length := by
  intro st
  induction st with
  | nil => simp [firstFree]
  | cons s ss ih =>
    intro h
    have hle : (ss.filterMap id).length ≤ ss.length := List.length_filterMap_le _ _
    cases s with
    | none => simp; omega
    | some u =>
      have : firstFree ss ≠ none := by
        intro e; apply h; simp [firstFree, e]
      have := ih this
      simp only [List.filterMap_cons, id, List.length_cons]; omega

theorem occ_nodup : ∀ (st : List (Option Nat)),
    (∀ (r q u : Nat), st[r]? = some (some u) → st[q]? = some (some u) → r = q) → (st.filterMap id).Nodup := by
  intro st
  induction st with
  | nil => simp
  | cons s ss ih =>
    intro h
    have ht := ih (fun r q u hr hq => by
      have := h (r + 1) (q + 1) u (by simpa using hr) (by simpa using hq); omega)
    cases s with
    | none => simpa using ht
    | some u =>
      simp only [List.filterMap_cons, id]
      refine List.nodup_cons.2 ⟨?_, ht⟩
      intro hm
      rw [List.mem_filterMap] at hm
      obtain ⟨o, ho, e⟩ := hm
      simp at e; subst e
      obtain ⟨q, hq⟩ := List.mem_iff_getElem?.1 ho
      have := h 0 (q + 1) u (by simp) (by simpa using hq)
      omega

theorem full_iff {lv : List Live} {n v : Nat} {l : Live} {st al st1 : List (Option Nat)} (hm : Mono lv)
    (hv : lv[v]? = some l) (h : AInv lv n v st al) (hall : ∀ u : Nat, u < v → ∃ r, al[u]? = some (some r))
    (hf : freeUnused lv l st = .ok st1) : firstFree st1 = none ↔ n ≤ RSpec.pressure lv v := by
  obtain ⟨st', h1, h2, h3⟩ := freeUnused_spec lv l st (fun r u hr => (h.stat r u hr).2.1)
  rw [hf] at h1; simp at h1; subst h1
  rw [pressure_busy hv]
  have hsn : st1.length = n := by rw [h2, h.stlen]
  have hnd : (st1.filterMap id).Nodup := by
    apply occ_nodup
    intro r q u hr hq
    have a := (h.stat r u ((h3 r u).1 hr).1).2.2
    have b := (h.stat q u ((h3 q u).1 hq).1).2.2
    rw [a] at b; simpa using b
  constructor
  · intro hff
    have hsub : st1.filterMap id ⊆ (List.range v).filter (busy lv l) := by
      intro u hu
      rw [List.mem_filterMap] at hu
      obtain ⟨o, ho, e⟩ := hu
      simp at e; subst e
      obtain ⟨r, hr⟩ := List.mem_iff_getElem?.1 ho
      obtain ⟨h4, lu, h5, h6⟩ := (h3 r u).1 hr
      rw [List.mem_filter]
      exact ⟨List.mem_range.2 (h.stat r u h4).1, by simp [busy, h5, h6]⟩
    have := hnd.length_le_of_subset hsub
    rw [occ_full st1 hff] at this
    omega
  · intro hp
    cases hff : firstFree st1 with
    | none => rfl
    | some r =>
      exfalso
      have hlt := occ_lt st1 (by simp [hff])
      have hsub : (List.range v).filter (busy lv l) ⊆ st1.filterMap id := by
        intro u hu
        rw [List.mem_filter, List.mem_range] at hu
        obtain ⟨huv, hb⟩ := hu
        obtain ⟨r', hr'⟩ := hall u huv
        unfold busy at hb
        split at hb
        · rename_i lu hlu
          simp at hb
          rcases h.old u r' hr' with h4 | ⟨w, lu', lw, h4, h5, h6, h7⟩
          · have : st1[r']? = some (some u) := (h3 r' u).2 ⟨h4, lu, hlu, hb⟩
            rw [List.mem_filterMap]
            exact ⟨some u, List.mem_of_getElem? this, rfl⟩
          · rw [hlu] at h5; simp at h5; subst h5
            have := hm w v lw l (by omega) h6 hv
            omega
        · simp at hb
      have hnd2 : ((List.range v).filter (busy lv l)).Nodup := List.nodup_range.filter _
      have := hnd2.length_le_of_subset hsub
      omega

theorem allocLoop_all {lv : List Live} {n : Nat} (hm : Mono lv) : ∀ (k v : Nat) (st al : List (Option Nat)),
    v + k = lv.length → AInv lv n v st al → (∀ u : Nat, u < v → ∃ r, al[u]? = some (some r)) →
    (∀ w, v ≤ w → w < lv.length → RSpec.pressure lv w < n) →
    ∃ al', allocLoop lv st al v k = .ok al' ∧ ∀ u : Nat, u < lv.length → ∃ r, al'[u]? = some (some r) := by
  intro k
  induction k with
  | zero => intro v st al hk h hall _; simp at hk; subst hk; exact ⟨al, rfl, hall⟩
  | succ k ih =>
    intro v st al hk h hall hp
    have hv : lv[v]? = some (lv[v]'(by omega)) := by simp
    obtain ⟨st1, al1, h1, h2, h3⟩ := allocStep_spec hm hv h
    rcases h3 with ⟨_, r, rfl⟩ | ⟨⟨s1, h4, h5⟩, _⟩
    · obtain ⟨al2, h6, h7⟩ := ih (v + 1) st1 _ (by omega) h2 (by
        intro u hu
        by_cases e : v = u
        · subst e
          exact ⟨r, by rw [List.getElem?_set]; simp [h.allen]; omega⟩
        · obtain ⟨r', hr'⟩ := hall u (by omega)
          exact ⟨r', by rw [List.getElem?_set, if_neg e]; exact hr'⟩) (fun w hw => hp w (by omega))
      exact ⟨al2, by simp [allocLoop, h1, h6], h7⟩
    · have := (full_iff hm hv h hall h4).1 h5
      have := hp v (Nat.le_refl _) (by omega)
      omega

theorem allocLoop_spills {lv : List Live} {n : Nat} (hm : Mono lv) : ∀ (k v : Nat) (st al : List (Option Nat)),
    v + k = lv.length → AInv lv n v st al → (∀ u : Nat, u < v → ∃ r, al[u]? = some (some r)) →
    (∃ w, v ≤ w ∧ w < lv.length ∧ n ≤ RSpec.pressure lv w) →
    ∃ al', allocLoop lv st al v k = .ok al' ∧ ∃ u : Nat, u < lv.length ∧ al'[u]? = some none := by
  intro k
  induction k with
  | zero => intro v st al hk h hall ⟨w, h1, h2, _⟩; omega
  | succ k ih =>
    intro v st al hk h hall hp
    have hv : lv[v]? = some (lv[v]'(by omega)) := by simp
    obtain ⟨st1, al1, h1, h2, h3⟩ := allocStep_spec hm hv h
    rcases h3 with ⟨⟨s1, h4, h5⟩, r, rfl⟩ | ⟨_, u, hu, hn⟩
    · obtain ⟨w, hw1, hw2, hw3⟩ := hp
      have hne : w ≠ v := by
        rintro rfl
        exact h5 ((full_iff hm hv h hall h4).2 hw3)
      obtain ⟨al2, h6, h7⟩ := ih (v + 1) st1 _ (by omega) h2 (by
        intro u hu
        by_cases e : v = u
        · subst e
          exact ⟨r, by rw [List.getElem?_set]; simp [h.allen]; omega⟩
        · obtain ⟨r', hr'⟩ := hall u (by omega)
          exact ⟨r', by rw [List.getElem?_set, if_neg e]; exact hr'⟩) ⟨w, by omega, hw2, hw3⟩
      exact ⟨al2, by simp [allocLoop, h1, h6], h7⟩
    · obtain ⟨st2, al2, h6, _⟩ := allocLoop_spec hm k (v + 1) st1 al1 (by omega) h2
      refine ⟨al2, by simp [allocLoop, h1, h6], u, by omega, ?_⟩
      exact allocLoop_keeps_none hm k (v + 1) st1 al1 (by omega) h2 u (by omega) hn al2 h6

theorem updateLiveseqs_none : ∀ (ps : List (Live × Option Nat)) (qs : List Liveseq),
    (∃ p ∈ ps, p.2 = none) → updateLiveseqs qs ps = .ub := by
  intro ps
  induction ps with
  | nil => intro qs ⟨p, hp, _⟩; simp at hp
  | cons a as ih =>
    intro qs ⟨p, hp, hn⟩
    obtain ⟨l, r⟩ := a
    cases r with
    | none => rfl
    | some r =>
      simp at hp
      rcases hp with rfl | hp
      · simp at hn
      · simp only [updateLiveseqs]
        split
        · rfl
        · exact ih _ ⟨p, hp, hn⟩

theorem updateLiveseqs_some : ∀ (ps : List (Live × Option Nat)) (qs : List Liveseq),
    (∀ p ∈ ps, ∃ r, p.2 = some r ∧ r < qs.length) → ∃ qs', updateLiveseqs qs ps = .ok qs' := by
  intro ps
  induction ps with
  | nil => intro qs _; exact ⟨qs, rfl⟩
  | cons a as ih =>
    intro qs h
    obtain ⟨l, r⟩ := a
    obtain ⟨r', h1, h2⟩ := h _ (List.mem_cons_self ..)
    simp at h1; subst h1
    simp only [updateLiveseqs]
    rw [List.getElem?_eq_getElem h2]
    exact ih _ (fun p hp => by simpa using h p (List.mem_cons_of_mem _ hp))

end Regalloc
end Umlcc
