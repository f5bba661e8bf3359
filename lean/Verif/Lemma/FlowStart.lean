import Verif.Lemma.FlowExact
/-! The graph of a function whose jumps find their labels is built, and so is its interval table (helper lemmas). -/
namespace Umlcc
namespace Regalloc
open HMap

theorem labelMap_ok : ∀ (bs : List Block) (m : HMap Name Int) (id : Nat) (os : List (MOp Name Int)),
    (∀ b ∈ bs, b.immcs ≠ []) → Exact hashName os m → (∀ o ∈ os, MSpec.isRemove o = false) →
    ∃ m' os', labelMap m id bs = .ok m' ∧ Exact hashName os' m' ∧ (∀ n, MSpec.lookup os n ≠ none → MSpec.lookup os' n ≠ none) ∧
      ∀ b ∈ bs, ∀ x n, b.immcs[0]? = some x → RSpec.isLabelNamed n x = true → MSpec.lookup os' n ≠ none := by
  intro bs
  induction bs with
  | nil => intro m id os _ he _; exact ⟨m, os, rfl, he, fun _ h => h, by simp⟩
  | cons b bs ih =>
    intro m id os hne he hr
    have hne' : ∀ b ∈ bs, b.immcs ≠ [] := fun c hc => hne c (List.mem_cons_of_mem _ hc)
    unfold labelMap
    split
    · rename_i h0
      rw [List.getElem?_eq_none_iff] at h0
      exact absurd (List.length_eq_zero_iff.1 (by omega)) (hne b (by simp))
    · rename_i ty vis name hhead
      obtain ⟨m1, h1, h2⟩ := exact_add hashName_nonneg he name (id : Int) (Or.inr hr)
      have hr1 : ∀ o ∈ os ++ [MOp.add name (id : Int)], MSpec.isRemove o = false := by
        intro o ho; simp at ho; rcases ho with ho | rfl
        · exact hr o ho
        · rfl
      obtain ⟨m', os', h3, h4, h5, h6⟩ := ih m1 (id + 1) _ hne' h2 hr1
      refine ⟨m', os', by rw [h1, Out.ok_bind, h3], h4, ?_, ?_⟩
      · intro n hn
        apply h5
        rw [lookup_add]
        split
        · simp
        · exact hn
      · intro c hc x n hx hl
        simp at hc
        rcases hc with rfl | hc
        · rw [hhead] at hx; simp at hx; subst hx
          simp [RSpec.isLabelNamed] at hl
          apply h5
          rw [lookup_add, if_pos hl]
          simp
        · exact h6 c hc x n hx hl
    · rename_i x0 h0 hhead
      obtain ⟨m', os', h3, h4, h5, h6⟩ := ih m (id + 1) os hne' he hr
      refine ⟨m', os', h3, h4, h5, ?_⟩
      intro c hc x n hx hl
      simp at hc
      rcases hc with rfl | hc
      · rw [hhead] at hx; simp at hx; subst hx
        cases x0 with
        | label a b' c' => exact absurd rfl (h0 a b' c')
        | inst _ => simp [RSpec.isLabelNamed] at hl
        | data _ => simp [RSpec.isLabelNamed] at hl
      · exact h6 c hc x n hx hl

theorem connectLoop_ok : ∀ (bs : List Block) (m : HMap Name Int) (n id : Nat),
    (∀ b ∈ bs, ∀ id, ∃ s, succOf m n id b = .ok s) → ∃ bs', connectLoop m n id bs = .ok bs' := by
  intro bs
  induction bs with
  | nil => intro m n id _; exact ⟨[], rfl⟩
  | cons b bs ih =>
    intro m n id h
    obtain ⟨s, h1⟩ := h b (by simp) id
    obtain ⟨r, h2⟩ := ih m n (id + 1) (fun c hc => h c (List.mem_cons_of_mem _ hc))
    exact ⟨_, by simp only [connectLoop]; rw [h1, Out.ok_bind, h2, Out.ok_bind]; rfl⟩

theorem connect_ok {code : List Immc} {bl : List (List Immc)} (hcode : bl.flatten = code) (hblk : ∀ b ∈ bl, BlkOk b)
    (hj : RSpec.JumpsFind code) : ∃ g, connect (bl.map newBlock) = .ok g := by
  obtain ⟨m, os, h1, h2, _, h3⟩ := labelMap_ok (bl.map newBlock) HMap.new 0 []
    (by intro b hb; simp at hb; obtain ⟨c, hc, rfl⟩ := hb; exact (hblk c hc).ne) exact_new (by simp)
  unfold connect
  rw [h1, Out.ok_bind]
  apply connectLoop_ok
  intro b hb id
  simp at hb
  obtain ⟨c, hc, rfl⟩ := hb
  unfold succOf
  simp only [newBlock]
  split
  · rename_i hn
    exact absurd (by simpa using hn) (hblk c hc).ne
  · rename_i tail ht
    have hjs : ∃ s, jumpSucc m (HMap.new : ISet) tail = .ok s ∧ Inv hashInteger s := by
      unfold jumpSucc
      split
      · rename_i hjt
        have hmem : tail ∈ code := by rw [← hcode]; exact List.mem_flatten.2 ⟨c, hc, List.mem_of_getLast? ht⟩
        obtain ⟨n, y, ht1, hy, hl⟩ := hj tail hmem hjt
        obtain ⟨d, hd, hyd⟩ := List.mem_flatten.1 (hcode ▸ hy)
        obtain ⟨k, hk⟩ := List.getElem?_of_mem hyd
        have hk0 : k = 0 := by
          rcases Nat.eq_zero_or_pos k with h | h
          · exact h
          · have := (hblk d hd).lab k y h hk
            cases y <;> simp [RSpec.isLabelNamed, Immc.isLabel] at hl this
        subst hk0
        have hlk := h3 (newBlock d) (by simp; exact ⟨d, hd, rfl⟩) y n hk hl
        unfold RSpec.target at ht1
        split at ht1
        · split at ht1
          · simp at ht1; subst ht1
            obtain ⟨r, h4, h5, h6⟩ := get_spec hashName_nonneg h2.inv ‹_›
            dsimp only
            rw [h4, Out.ok_bind]
            cases r with
            | none =>
              exfalso
              apply hlk
              cases hq : MSpec.lookup os _ with
              | none => rfl
              | some t => exact absurd ((h2.live _ t).2 hq) (h6 rfl t)
            | some t =>
              obtain ⟨s', h8, h9, _⟩ := HSet.add_mem intHash (exact_new (hash := hashInteger)).inv t
              exact ⟨s', h8, h9⟩
          · simp at ht1
        · simp at ht1
      · exact ⟨_, rfl, (exact_new (hash := hashInteger)).inv⟩
    obtain ⟨s, hs, hi⟩ := hjs
    rw [hs, Out.ok_bind]
    split
    · obtain ⟨s', h8, _⟩ := HSet.add_mem intHash hi ((id : Int) + 1)
      exact ⟨s', h8⟩
    · exact ⟨s, rfl⟩

end Regalloc
end Umlcc
