import Verif.Model.Specifiers
namespace Umlcc
namespace Specifiers

def g (a : List Nat) (k : Nat) : Nat := a.getD k 0

theorem load_ok {a : List Nat} {i : Nat} (h : i < a.length) : load a i = .ok (g a i) := by
  simp [load, g, List.getD, h]

theorem store_ok {a : List Nat} {i x : Nat} (h : i < a.length) : store a i x = .ok (a.set i x) := by
  simp [store, h]

theorem get_ok {a : List Nat} {i : Nat} (h : i < a.length) : a[i]? = some (g a i) := by
  simp [g, List.getD, h]

theorem g_set {a : List Nat} {i k x : Nat} (h : i < a.length) : g (a.set i x) k = if i = k then x else g a k := by
  unfold g
  rw [List.getD_eq_getElem?_getD, List.getD_eq_getElem?_getD, List.getElem?_set]
  by_cases hk : i = k
  · subst hk; simp [h]
  · simp [hk]

theorem scanDown_spec (a : List Nat) (p i : Nat) : ∀ j, i ≤ j → j < a.length →
    ∃ j', scanDown a p i j = .ok j' ∧ i ≤ j' ∧ j' ≤ j ∧ (i < j' → g a j' ≤ p) ∧ ∀ k, j' < k → k ≤ j → p < g a k := by
  intro j
  induction j with
  | zero => intro h _; exact ⟨0, rfl, h, Nat.le_refl _, by omega, by omega⟩
  | succ j ih =>
    intro h hl
    simp only [scanDown]
    by_cases hij : i < j + 1
    · rw [if_pos hij, get_ok hl]
      simp only
      by_cases hx : g a (j + 1) > p
      · rw [if_pos hx]
        obtain ⟨j', h1, h2, h3, h4, h5⟩ := ih (by omega) (by omega)
        refine ⟨j', h1, h2, by omega, h4, fun k hk1 hk2 => ?_⟩
        by_cases hk : k = j + 1
        · subst hk; omega
        · exact h5 k hk1 (by omega)
      · rw [if_neg hx]; exact ⟨j + 1, rfl, h, Nat.le_refl _, fun _ => by omega, by omega⟩
    · rw [if_neg hij]; exact ⟨j + 1, rfl, h, Nat.le_refl _, by omega, by omega⟩

theorem scanUp_spec (a : List Nat) (p j : Nat) : ∀ fuel i, i ≤ j → j < a.length → j - i < fuel →
    ∃ i', scanUp a p j fuel i = .ok i' ∧ i ≤ i' ∧ i' ≤ j ∧ (i' < j → p < g a i') ∧ ∀ k, i ≤ k → k < i' → g a k ≤ p := by
  intro fuel
  induction fuel with
  | zero => intro i _ _ h; omega
  | succ n ih =>
    intro i hij hl hf
    simp only [scanUp]
    by_cases h : i < j
    · rw [if_pos h, get_ok (by omega)]
      simp only
      by_cases hx : g a i ≤ p
      · rw [if_pos hx]
        obtain ⟨i', h1, h2, h3, h4, h5⟩ := ih (i + 1) (by omega) hl (by omega)
        refine ⟨i', h1, by omega, h3, h4, fun k hk1 hk2 => ?_⟩
        by_cases hk : k = i
        · subst hk; exact hx
        · exact h5 k (by omega) hk2
      · rw [if_neg hx]; exact ⟨i, rfl, Nat.le_refl _, hij, fun _ => by omega, by omega⟩
    · rw [if_neg h]; exact ⟨i, rfl, Nat.le_refl _, hij, by omega, by omega⟩

/-- moving the hole from `i` to `j` -/
theorem hole_move {a : List Nat} {i j p : Nat} (hi : i < a.length) (hj : j < a.length) :
    ((a.set i (g a j)).set j p).Perm (a.set i p) := by
  rw [List.perm_iff_count]
  intro x
  unfold List.count
  have hgi : a[i] = g a i := by simp [g, List.getD, hi]
  have hgj : a[j] = g a j := by simp [g, List.getD, hj]
  have hj' : j < (a.set i (g a j)).length := by simpa using hj
  rw [List.countP_set hj', List.countP_set hi, List.countP_set hi, List.getElem_set, hgi, hgj]
  have h1 : (g a i == x) = true → 0 < a.countP (· == x) := by
    intro h; rw [List.countP_pos_iff]; exact ⟨a[i], List.getElem_mem hi, by rw [hgi]; exact h⟩
  by_cases hij : i = j
  · subst hij; simp only [if_true]
    split <;> split <;> simp_all <;> omega
  · simp only [hij, if_false]
    by_cases h2 : (g a i == x) = true
    · have := h1 h2
      simp only [h2, if_true]
      split <;> split <;> omega
    · simp only [h2]
      split <;> split <;> simp <;> omega

structure PInv (a0 : List Nat) (lo hi p : Nat) (a : List Nat) (i j : Nat) : Prop where
  len : a.length = a0.length
  hi_le : hi ≤ a0.length
  lo_i : lo ≤ i
  i_j : i ≤ j
  j_hi : j < hi
  perm : (a.set i p).Perm a0
  out : ∀ k, k < lo ∨ hi ≤ k → g a k = g a0 k
  low : ∀ k, lo ≤ k → k < i → g a k ≤ p
  high : ∀ k, j < k → k < hi → p < g a k
  pred : ∀ Q : Nat → Prop, (∀ k, lo ≤ k → k < hi → Q (g a0 k)) → ∀ k, lo ≤ k → k < hi → Q (g a k)

theorem partition_spec (a0 : List Nat) (lo hi p : Nat) : ∀ fuel a i j, j - i < fuel → PInv a0 lo hi p a i j →
    ∃ a' i', partition p fuel a i j = .ok (a', i', i') ∧ PInv a0 lo hi p a' i' i' := by
  intro fuel
  induction fuel with
  | zero => intro a i j h; omega
  | succ n ih =>
    intro a i j hf h
    simp only [partition]
    have hlen := h.len
    have hhl := h.hi_le
    have hjh := h.j_hi
    have hlo := h.lo_i
    by_cases hij : i < j
    · rw [if_pos hij]
      obtain ⟨j1, h1, h2, h3, h4, h5⟩ := scanDown_spec a p i j (by omega) (by omega)
      rw [h1, Out.ok_bind, load_ok (by omega), Out.ok_bind, store_ok (by omega), Out.ok_bind]
      have hl1 : (a.set i (g a j1)).length = a.length := by simp
      obtain ⟨i1, h6, h7, h8, h9, h10⟩ := scanUp_spec (a.set i (g a j1)) p j1 ((a.set i (g a j1)).length + 1) i (by omega) (by omega) (by omega)
      rw [h6, Out.ok_bind, load_ok (by omega), Out.ok_bind, store_ok (by omega), Out.ok_bind]
      -- the scan over `i` moved if the first scan stopped before `i`
      have hprog : i < j1 → i < i1 := by
        intro hlt
        rcases Nat.lt_or_ge i i1 with h' | h'
        · exact h'
        · have : i1 = i := by omega
          subst this
          have := h9 hlt
          rw [g_set (by omega)] at this
          simp at this
          have := h4 hlt
          omega
      have hgi1 : g (a.set i (g a j1)) i1 = if i = i1 then g a j1 else g a i1 := g_set (by omega)
      apply ih
      · by_cases h' : i < j1
        · have := hprog h'; omega
        · omega
      · refine ⟨by simp [hlen], hhl, by omega, h8, by omega, ?_, ?_, ?_, ?_, ?_⟩
        · refine List.Perm.trans ?_ (List.Perm.trans (hole_move (a := a) (i := i) (j := j1) (p := p) (by omega) (by omega)) h.perm)
          have := hole_move (a := a.set i (g a j1)) (i := j1) (j := i1) (p := p) (by omega) (by omega)
          exact this
        · intro k hk
          rw [g_set (by omega), if_neg (by omega), g_set (by omega), if_neg (by omega)]
          exact h.out k hk
        · intro k hk1 hk2
          rw [g_set (by omega), if_neg (by omega)]
          by_cases hki : k < i
          · rw [g_set (by omega), if_neg (by omega)]; exact h.low k hk1 hki
          · exact h10 k (by omega) hk2
        · intro k hk1 hk2
          rw [g_set (by omega)]
          by_cases hkj : j1 = k
          · omega
          · rw [if_neg hkj, g_set (by omega), if_neg (by omega)]
            by_cases hkj2 : k ≤ j
            · exact h5 k hk1 hkj2
            · exact h.high k (by omega) hk2
        · intro Q hQ k hk1 hk2
          have hq := h.pred Q hQ
          have hq1 : ∀ m, lo ≤ m → m < hi → Q (g (a.set i (g a j1)) m) := by
            intro m hm1 hm2
            rw [g_set (by omega)]
            split
            · exact hq j1 (by omega) (by omega)
            · exact hq m hm1 hm2
          rw [g_set (by omega)]
          split
          · exact hq1 i1 (by omega) (by omega)
          · exact hq1 k hk1 hk2
    · rw [if_neg hij]
      have : j = i := by have := h.i_j; omega
      subst this
      exact ⟨a, j, rfl, h⟩

structure SInv (a b : List Nat) (lo hi : Nat) : Prop where
  len : b.length = a.length
  perm : b.Perm a
  out : ∀ k, k < lo ∨ hi ≤ k → g b k = g a k
  sorted : ∀ x y, lo ≤ x → x ≤ y → y < hi → g b x ≤ g b y
  pred : ∀ Q : Nat → Prop, (∀ k, lo ≤ k → k < hi → Q (g a k)) → ∀ k, lo ≤ k → k < hi → Q (g b k)

theorem sort_spec : ∀ fuel (a : List Nat) lo hi, hi - lo < fuel → hi ≤ a.length →
    ∃ b, sort fuel a lo hi = .ok b ∧ SInv a b lo hi := by
  intro fuel
  induction fuel with
  | zero => intro a lo hi h; omega
  | succ n ih =>
    intro a lo hi hf hl
    simp only [sort]
    by_cases hlt : hi ≤ lo + 1
    · rw [if_pos hlt]
      refine ⟨a, rfl, ⟨rfl, List.Perm.refl _, fun _ _ => rfl, ?_, fun Q h => h⟩⟩
      intro x y h1 h2 h3
      have : x = y := by omega
      subst this; exact Nat.le_refl _
    · rw [if_neg hlt, load_ok (by omega), Out.ok_bind]
      have hP0 : PInv a lo hi (g a lo) a lo (hi - 1) := by
        refine ⟨rfl, hl, Nat.le_refl _, by omega, by omega, ?_, fun _ _ => rfl, by omega, by omega, fun Q h => h⟩
        have : a.set lo (g a lo) = a := by
          apply List.ext_getElem?
          intro k
          rw [List.getElem?_set]
          by_cases hk : lo = k
          · subst hk; rw [get_ok (by omega)]; simp; omega
          · simp [hk]
        rw [this]
      obtain ⟨a1, i, h1, h2⟩ := partition_spec a lo hi (g a lo) (a.length + 1) a lo (hi - 1) (by omega) hP0
      rw [h1, Out.ok_bind]
      simp only
      have hl1 := h2.len
      have hlo := h2.lo_i
      have hih := h2.j_hi
      rw [store_ok (by omega), Out.ok_bind]
      generalize hp : g a lo = p at *
      have hl2 : (a1.set i p).length = a.length := by simp [hl1]
      have gs : ∀ k, g (a1.set i p) k = if i = k then p else g a1 k := fun k => g_set (by omega)
      obtain ⟨b1, h3, h4⟩ := ih (a1.set i p) lo i (by omega) (by omega)
      rw [h3, Out.ok_bind]
      obtain ⟨b2, h5, h6⟩ := ih b1 (i + 1) hi (by omega) (by have := h4.len; omega)
      refine ⟨b2, h5, ⟨by rw [h6.len, h4.len, hl2], h6.perm.trans (h4.perm.trans h2.perm), ?_, ?_, ?_⟩⟩
      · intro k hk
        rw [h6.out k (by omega), h4.out k (by omega), gs, if_neg (by omega)]
        exact h2.out k hk
      · -- low part ≤ p, position i = p, high part > p
        have hi_val : g b2 i = p := by rw [h6.out i (by omega), h4.out i (by omega), gs, if_pos rfl]
        have hlow : ∀ k, lo ≤ k → k < i → g b2 k ≤ p := by
          intro k hk1 hk2
          rw [h6.out k (by omega)]
          refine h4.pred (fun v => v ≤ p) ?_ k hk1 hk2
          intro m hm1 hm2
          rw [gs, if_neg (by omega)]; exact h2.low m hm1 hm2
        have hhigh : ∀ k, i < k → k < hi → p < g b2 k := by
          intro k hk1 hk2
          refine h6.pred (fun v => p < v) ?_ k (by omega) hk2
          intro m hm1 hm2
          rw [h4.out m (by omega), gs, if_neg (by omega)]; exact h2.high m (by omega) hm2
        intro x y hx hxy hy
        rcases Nat.lt_trichotomy x i with hxi | hxi | hxi
        · rcases Nat.lt_trichotomy y i with hyi | hyi | hyi
          · rw [h6.out x (by omega), h6.out y (by omega)]; exact h4.sorted x y hx hxy hyi
          · subst hyi; rw [hi_val]; exact hlow x hx hxi
          · have := hlow x hx hxi; have := hhigh y hyi hy; omega
        · subst hxi
          rcases Nat.lt_or_ge x y with h | h
          · have := hhigh y h hy; omega
          · have : x = y := by omega
            subst this; exact Nat.le_refl _
        · exact h6.sorted x y (by omega) hxy hy
      · intro Q hQ
        have hq1 := h2.pred Q hQ
        have hqp : Q p := by rw [← hp]; exact hQ lo (by omega) (by omega)
        have hq2 : ∀ k, lo ≤ k → k < hi → Q (g (a1.set i p) k) := by
          intro k h7 h8; rw [gs]; split
          · exact hqp
          · exact hq1 k h7 h8
        have hq3 : ∀ k, lo ≤ k → k < hi → Q (g b1 k) := by
          intro k h7 h8
          by_cases hki : k < i
          · exact h4.pred Q (fun m h9 h10 => hq2 m h9 (by omega)) k h7 hki
          · rw [h4.out k (by omega)]; exact hq2 k h7 h8
        intro k h7 h8
        by_cases hki : k < i + 1
        · rw [h6.out k (by omega)]; exact hq3 k h7 h8
        · exact h6.pred Q (fun m h9 h10 => hq3 m (by omega) h10) k (by omega) h8

theorem sortAll_spec (a : List Nat) : ∃ b, sortAll a = .ok b ∧ b.Perm a ∧ b.Pairwise (· ≤ ·) := by
  obtain ⟨b, h1, h2⟩ := sort_spec (a.length + 1) a 0 a.length (by omega) (Nat.le_refl _)
  refine ⟨b, h1, h2.perm, ?_⟩
  rw [List.pairwise_iff_getElem]
  intro i j hi hj hij
  have := h2.sorted i j (by omega) (by omega) (by rw [h2.len] at hj; exact hj)
  simpa [g, List.getD, hi, hj] using this

end Specifiers
end Umlcc
