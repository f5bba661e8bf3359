import Verif.Lemma.Vector
/-! C01, C02: the dynamic array `src/vector/vector.c`. -/
namespace Umlcc

/-- **C01.** Any program over any number of vectors (all created by `new_vector`) that respects the contract
(never pops an empty vector, never extends a vector by itself) runs to completion and every call returns what
the same call returns on ordinary sequences; afterwards, each vector read by index agrees with its sequence. -/
theorem C01_vector_refines_list {α : Type} (ops : List (VOp α)) (τ : Nat → List α) (obs : List (VObs α))
    (h : VSpec.run (fun _ => []) ops = some (τ, obs)) :
    ∃ σ, VProg.run (fun _ => Vec.new) ops = .ok (σ, obs) ∧
      ∀ k, (σ k).size = (τ k).length ∧ ∀ i : Int, (σ k).get i = .ok (VSpec.get (τ k) i) := by
  obtain ⟨σ, h1, h2⟩ := Vec.run_repr ops (fun _ => Vec.repr_new) h
  exact ⟨σ, h1, fun k => ⟨(h2 k).1, fun i => Vec.get_repr (h2 k) i⟩⟩

/-- A history using every operation, meeting the hypothesis of `C01_vector_refines_list`. -/
example : (VSpec.run (fun _ => [])
    [.push 0 5, .push 0 6, .push 1 7, .insert 0 1 9, .extend 0 1, .erase 0 0, .set 0 1 8, .fill 0 5 1, .copy 2 0,
     .pop 2, .get 0 1, .get 0 (-1), .size 0, .size 1, .new 0]).map (·.2) =
    some [VObs.unit, .unit, .unit, .unit, .unit, .unit, .flag true, .unit, .unit, .item (some 1), .item (some 8),
      .item none, .num 5, .num 0, .unit] := by decide

/-- **C02.** In every history respecting the contract no slot outside the allocated block (and no uninitialised
slot) is accessed, and afterwards each vector's block is non-empty and at least as large as its size.
Dropping the contract: popping an empty vector accesses memory outside the block, and nothing else does. -/
theorem C02_vector_memory_safe {α : Type} (ops : List (VOp α)) :
    ((∃ τ obs, VSpec.run (fun _ => []) ops = some (τ, obs)) →
      ∃ σ obs, VProg.run (fun _ => Vec.new) ops = .ok (σ, obs) ∧
        ∀ k, 1 ≤ (σ k).capacity ∧ (σ k).size ≤ (σ k).capacity) ∧
    (∀ pre k post τ obs, ops = pre ++ .pop k :: post → VSpec.run (fun _ => []) pre = some (τ, obs) → τ k = [] →
      VProg.run (fun _ => Vec.new) ops = .ub) := by
  constructor
  · rintro ⟨τ, obs, h⟩
    obtain ⟨σ, h1, h2⟩ := Vec.run_repr ops (fun _ => Vec.repr_new) h
    refine ⟨σ, obs, h1, fun k => ?_⟩
    obtain ⟨hs, hc, j, hj⟩ := h2 k
    refine ⟨hc, ?_⟩
    simp [Vec.capacity, hj, hs]
  · intro pre k post τ obs hops hpre hk
    obtain ⟨σ, h1, h2⟩ := Vec.run_repr pre (fun _ => Vec.repr_new) hpre
    subst hops
    have happ : ∀ (l : List (VOp α)) (σ0 σ1 : Nat → Vec α) (xs : List (VObs α)) (r : List (VOp α)),
        VProg.run σ0 l = .ok (σ1, xs) → VProg.run σ1 r = .ub → VProg.run σ0 (l ++ r) = .ub := by
      intro l
      induction l with
      | nil => intro σ0 σ1 xs r h hr; simp [VProg.run] at h; rw [← h.1] at hr; exact hr
      | cons o l ih =>
        intro σ0 σ1 xs r h hr
        simp only [VProg.run, Out.bind_eq_ok] at h
        obtain ⟨⟨σ', x⟩, ha, ⟨⟨σ'', ys⟩, hb, hc⟩⟩ := h
        simp at hc
        obtain ⟨rfl, _⟩ := hc
        simp [VProg.run, ha, ih _ _ _ _ hb hr]
    refine happ pre _ σ obs _ h1 ?_
    have := (h2 k).1
    rw [hk] at this
    simp at this
    simp [VProg.run, VProg.step, Vec.pop, this, Vec.rd]

/-- both parts of `C02_vector_memory_safe` have instances -/
example : (VSpec.run (fun _ => []) [VOp.push 0 1, .push 0 2, .push 0 3, .pop 0]).isSome ∧
    (VSpec.run (fun _ => []) [VOp.push 0 1, .pop 0]).map (fun r => r.1 0) = some [] := by decide

end Umlcc
