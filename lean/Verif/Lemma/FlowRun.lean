import Verif.Model.Regalloc
/-! How the number of passes allowed to the flow analysis of regalloc.c matters (helper lemmas). -/
namespace Umlcc
namespace Regalloc

/-- `n` passes over the blocks, none of which finds the sets unchanged -/
def passes : Nat → List Block → Option (List Block)
  | 0, g => some g
  | n + 1, g =>
    match flowPass g true g.length with
    | .ok (g', false) => passes n g'
    | _ => none

theorem passes_step {n : Nat} {g g' : List Block} (h : passes (n + 1) g = some g') :
    ∃ g1, flowPass g true g.length = .ok (g1, false) ∧ passes n g1 = some g' := by
  simp only [passes] at h
  split at h
  · rename_i g1 h1; exact ⟨g1, h1, h⟩
  · cases h

theorem analyzeFlow_passes : ∀ (n : Nat) (g g' : List Block) (f : Nat), passes n g = some g' →
    analyzeFlow g (n + f) = analyzeFlow g' f ∧ ∀ m, m ≤ n → analyzeFlow g m = .hang := by
  intro n
  induction n with
  | zero =>
    intro g g' f h
    simp [passes] at h; subst h
    refine ⟨by simp, ?_⟩
    intro m hm
    have : m = 0 := by omega
    subst this; rfl
  | succ n ih =>
    intro g g' f h
    obtain ⟨g1, h1, h2⟩ := passes_step h
    obtain ⟨h3, h4⟩ := ih g1 g' f h2
    refine ⟨?_, ?_⟩
    · rw [show n + 1 + f = (n + f) + 1 by omega]
      simp [analyzeFlow, h1, h3]
    · intro m hm
      match m, hm with
      | 0, _ => rfl
      | m + 1, hm => simp [analyzeFlow, h1, h4 m (by omega)]

/-- passes that come back to the same sets go on forever -/
theorem analyzeFlow_cycle {n m : Nat} {g0 g : List Block} (h0 : passes n g0 = some g) (hm : 0 < m) (hc : passes m g = some g) (f : Nat) :
    analyzeFlow g0 f = .hang := by
  have cyc : ∀ f, analyzeFlow g f = .hang := by
    intro f
    induction f using Nat.strongRecOn with
    | _ f ih =>
      by_cases hf : f ≤ m
      · exact (analyzeFlow_passes m g g 0 hc).2 f hf
      · have := (analyzeFlow_passes m g g (f - m) hc).1
        rw [show m + (f - m) = f by omega] at this
        rw [this]; exact ih (f - m) (by omega)
  by_cases hf : f ≤ n
  · exact (analyzeFlow_passes n g0 g 0 h0).2 f hf
  · have := (analyzeFlow_passes n g0 g (f - n) h0).1
    rw [show n + (f - n) = f by omega] at this
    rw [this]; exact cyc _

/-- more passes than needed change nothing -/
theorem analyzeFlow_more : ∀ (n : Nat) (g g' : List Block) (f : Nat), analyzeFlow g n = .ok g' → n ≤ f → analyzeFlow g f = .ok g' := by
  intro n
  induction n with
  | zero => intro g g' f h; simp [analyzeFlow] at h
  | succ n ih =>
    intro g g' f h hf
    match f, hf with
    | f + 1, hf =>
      simp only [analyzeFlow, Out.bind_eq_ok] at h ⊢
      obtain ⟨⟨g1, t⟩, h1, h2⟩ := h
      refine ⟨(g1, t), h1, ?_⟩
      dsimp only at h2 ⊢
      split
      · rename_i ht; rw [if_pos ht] at h2; exact h2
      · rename_i ht; rw [if_neg ht] at h2; exact ih g1 g' f h2 (by omega)

theorem controlFlow_more {code : List Immc} {n f : Nat} {g : List Block} (h : controlFlow code n = .ok g) (hf : n ≤ f) :
    controlFlow code f = .ok g := by
  unfold controlFlow at h ⊢
  rw [Out.bind_eq_ok] at h ⊢
  obtain ⟨g0, h1, h2⟩ := h
  exact ⟨g0, h1, analyzeFlow_more _ _ _ _ h2 hf⟩

/-- the code of one function only -/
def single : List Immc → Bool
  | .label .function _ _ :: rest => rest.all (fun x => !startsExternal x)
  | _ => false

theorem takeWhile_all {α : Type} (p : α → Bool) : ∀ (l : List α), (∀ x ∈ l, p x = true) → l.takeWhile p = l ∧ l.dropWhile p = [] := by
  intro l
  induction l with
  | nil => intro _; exact ⟨rfl, rfl⟩
  | cons x l ih =>
    intro h
    obtain ⟨h1, h2⟩ := ih fun y hy => h y (by simp [hy])
    have hx := h x (by simp)
    simp [List.takeWhile_cons, List.dropWhile_cons, hx, h1, h2]

theorem run_single {code : List Immc} {n f : Nat} (h : single code = true) :
    run code n f = allocFunction code 0 n (List.replicate n Liveseq.new) f := by
  unfold single at h
  split at h
  · rename_i v nm rest
    obtain ⟨h1, h2⟩ := takeWhile_all _ rest (List.all_eq_true.1 h)
    unfold run
    simp only [List.length_cons, allocAll, h1, h2]
    cases allocFunction (.label .function v nm :: rest) 0 n (List.replicate n Liveseq.new) f with
    | ok p =>
      obtain ⟨o, q⟩ := p
      cases hl : rest.length <;> simp [allocAll]
    | _ => rfl
  · cases h

end Regalloc
end Umlcc
