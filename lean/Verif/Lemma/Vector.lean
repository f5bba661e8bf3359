import Verif.Spec.Vector
/-! Helper lemmas for the vector refinement. -/
namespace Umlcc
namespace Vec
variable {α : Type}

/-- `v` stores the sequence `l`. -/
def Repr (v : Vec α) (l : List α) : Prop :=
  v.size = l.length ∧ 1 ≤ v.slots.length ∧ ∃ junk, v.slots = l.map some ++ junk

theorem rd_eq {s : List (Option α)} {i : Nat} {a : α} (h : s[i]? = some (some a)) :
    rd s (i : Int) = .ok a := by
  simp [rd, h]

theorem wr_eq {s : List (Option α)} {i : Nat} {a : α} (h : i < s.length) :
    wr s (i : Int) a = .ok (s.set i (some a)) := by
  simp [wr, h]

theorem get_map_append {l : List α} {j : List (Option α)} {i : Nat} (h : i < l.length) :
    (l.map some ++ j)[i]? = some (some l[i]) := by
  rw [List.getElem?_append_left (by simpa using h)]; simp [h]

theorem realloc_grow {s : List (Option α)} {n : Nat} (h : s.length ≤ n) :
    realloc s n = s ++ List.replicate (n - s.length) none := by
  simp [realloc, List.take_of_length_le h]

theorem repr_new : Repr (new : Vec α) [] := ⟨rfl, by simp [new], _, rfl⟩

theorem push_repr {v : Vec α} {l : List α} (h : Repr v l) (a : α) :
    ∃ v', push v a = .ok v' ∧ Repr v' (l ++ [a]) := by
  obtain ⟨hs, hc, j, hj⟩ := h
  have key : ∀ s j', s = l.map some ++ j' → 1 ≤ j'.length → l.length < s.length →
      ∃ v', (wr s (v.size : Int) a >>= fun s => pure (⟨s, v.size + 1⟩ : Vec α)) = .ok v' ∧
        Repr v' (l ++ [a]) := by
    intro s j' hs' hj' hl
    rw [hs, wr_eq hl]
    refine ⟨_, rfl, by simp, ?_, j'.drop 1, ?_⟩
    · simp; omega
    · subst hs'
      match j', hj' with
      | x :: xs, _ => simp [List.set_append]
  unfold push
  by_cases hcap : v.size ≥ v.capacity
  · simp only [hcap, if_true]
    have hjl : j.length = 0 := by
      have : v.slots.length = l.length + j.length := by rw [hj]; simp
      simp [capacity] at hcap; omega
    have hslen : v.slots.length = l.length := by rw [hj]; simp [hjl]
    rw [realloc_grow (by simp [capacity]; omega)]
    apply key _ (j ++ List.replicate (2 * v.capacity - v.slots.length) none)
    · rw [hj]; simp
    · simp [capacity]; omega
    · simp [capacity]; omega
  · simp only [hcap, if_false]
    have hslen : v.slots.length = l.length + j.length := by rw [hj]; simp
    simp [capacity] at hcap
    exact key _ j hj (by omega) (by omega)

theorem pop_repr {v : Vec α} {l : List α} {a : α} (h : Repr v (l ++ [a])) :
    ∃ v', pop v = .ok (a, v') ∧ Repr v' l := by
  obtain ⟨hs, hc, j, hj⟩ := h
  have e : (v.size : Int) - 1 = (l.length : Nat) := by simp [hs]
  have hr : rd v.slots ((v.size : Int) - 1) = .ok a := by
    rw [e]; apply rd_eq
    rw [hj, get_map_append (by simp)]; simp
  unfold pop
  rw [hr]
  have hn : v.size - 1 = l.length := by simp [hs]
  have hslen : v.slots.length = l.length + 1 + j.length := by rw [hj]; simp; omega
  by_cases hcap : v.capacity > 1 ∧ 2 * (v.size - 1) < v.capacity
  · refine ⟨_, rfl, hn, ?_, ?_⟩
    · simp only [hcap, and_self, if_true, realloc]
      simp [capacity] at *; omega
    · simp only [hcap, and_self, if_true, realloc]
      refine ⟨(some a :: j).take (v.capacity / 2 - l.length) ++ List.replicate (v.capacity / 2 - v.slots.length) none, ?_⟩
      rw [hj]
      simp only [List.map_append, List.map_cons, List.map_nil, List.append_assoc, List.singleton_append]
      rw [List.take_append]
      rw [List.take_of_length_le (by simp; simp [capacity] at *; omega)]
      simp
  · refine ⟨_, rfl, hn, ?_, some a :: j, ?_⟩
    · simp only [hcap, if_false]; exact hc
    · simp only [hcap, if_false]; rw [hj]; simp

theorem fillLoop_eq (a : α) : ∀ (n : Nat) (pre : List (Option α)) (j : List (Option α)),
    n ≤ j.length →
    fillLoop (pre ++ j) a pre.length n = .ok (pre ++ List.replicate n (some a) ++ j.drop n) := by
  intro n
  induction n with
  | zero => intro pre j _; simp [fillLoop]
  | succ n ih =>
    intro pre j hn
    match j, hn with
    | x :: xs, hn =>
      unfold fillLoop
      rw [wr_eq (by simp)]
      simp only [Out.ok_bind, List.set_append, Nat.lt_irrefl, if_false, Nat.sub_self, List.set_cons_zero]
      have := ih (pre ++ [some a]) xs (by simpa using hn)
      simp only [List.append_assoc, List.singleton_append, List.length_append, List.length_cons,
        List.length_nil, Nat.zero_add] at this
      rw [this]
      simp [List.replicate_succ]

theorem fill_repr {v : Vec α} {l : List α} (h : Repr v l) (n : Int) (a : α) :
    ∃ v', fill v n a = .ok v' ∧ Repr v' (l ++ List.replicate (n.toNat - l.length) a) := by
  unfold fill
  by_cases hn : n ≤ v.size
  · simp only [hn, if_true]
    refine ⟨v, rfl, ?_⟩
    have : n.toNat - l.length = 0 := by have := h.1; omega
    simpa [this] using h
  · simp only [hn, if_false]
    obtain ⟨hs, hc, j, hj⟩ := h
    have key : ∀ s j', s = l.map some ++ j' → n.toNat - l.length ≤ j'.length → 1 ≤ s.length →
      ∃ v', (fillLoop s a v.size (n.toNat - v.size) >>= fun s => pure (⟨s, n.toNat⟩ : Vec α)) = .ok v' ∧
        Repr v' (l ++ List.replicate (n.toNat - l.length) a) := by
      intro s j' hs' hj' h1
      have := fillLoop_eq a (n.toNat - l.length) (l.map some) j' hj'
      simp only [List.length_map] at this
      rw [hs', hs, this]
      have hll : l.length < n.toNat := by omega
      refine ⟨_, rfl, ?_, ?_, j'.drop (n.toNat - l.length), ?_⟩
      · simp; omega
      · simp; omega
      · simp
    have hslen : v.slots.length = l.length + j.length := by rw [hj]; simp
    by_cases hcap : v.capacity < n.toNat
    · simp only [hcap, if_true]
      simp [capacity] at hcap
      rw [realloc_grow (by omega)]
      apply key _ (j ++ List.replicate (n.toNat - v.slots.length) none)
      · rw [hj]; simp
      · simp; omega
      · simp; omega
    · simp only [hcap, if_false]
      simp [capacity] at hcap
      exact key _ j hj (by omega) hc

theorem set_repr {v : Vec α} {l : List α} (h : Repr v l) (i : Int) (a : α) :
    ∃ v', set v i a = .ok (decide (0 ≤ i ∧ i < l.length), v') ∧ Repr v' (VSpec.put l i a) := by
  have hs := h.1
  unfold set VSpec.put
  by_cases hi : 0 > i ∨ i ≥ v.size
  · have : ¬ (0 ≤ i ∧ i < (l.length : Int)) := by omega
    simp only [hi, if_true, this, if_false, decide_false]
    exact ⟨v, rfl, h⟩
  · have hi' : 0 ≤ i ∧ i < (l.length : Int) := by omega
    simp only [hi, if_false, hi', and_self, if_true, decide_true]
    obtain ⟨hs, hc, j, hj⟩ := h
    obtain ⟨k, rfl⟩ := Int.eq_ofNat_of_zero_le hi'.1
    have hk : k < l.length := by omega
    have hkl : k < v.slots.length := by rw [hj]; simp; omega
    rw [rd_eq (a := l[k]) (by rw [hj, get_map_append hk]), wr_eq hkl]
    refine ⟨_, rfl, ?_, ?_, j, ?_⟩
    · simp; omega
    · simpa using hc
    · rw [hj]
      simp only [Int.toNat_natCast]
      rw [List.set_append_left _ _ (by simpa using hk)]
      rw [List.set_eq_take_append_cons_drop]
      simp [hk, List.map_take, List.map_drop]

theorem shiftUp_eq (pre : List (Option α)) : ∀ (n : Nat) (mid : List α) (x : Option α) (j : List (Option α)),
    mid.length = n →
    ∃ y : Option α, shiftUp (pre ++ mid.map some ++ x :: j) (pre.length + mid.length) n =
      .ok (pre ++ y :: (mid.map some ++ j)) := by
  intro n
  induction n with
  | zero =>
    intro mid x j h
    have : mid = [] := List.length_eq_zero_iff.mp h
    subst this
    exact ⟨x, by simp [shiftUp]⟩
  | succ n ih =>
    intro mid x j h
    have hne : mid ≠ [] := by intro h'; simp [h'] at h
    obtain ⟨ini, la, rfl⟩ : ∃ ini la, mid = ini ++ [la] := ⟨mid.dropLast, mid.getLast hne, (List.dropLast_concat_getLast hne).symm⟩
    have hl : ini.length = n := by simpa using h
    obtain ⟨y, hy⟩ := ih ini (some la) (some la :: j) hl
    refine ⟨y, ?_⟩
    unfold shiftUp
    have e : ((pre.length + (ini ++ [la]).length : Nat) : Int) - 1 = ((pre.length + ini.length : Nat) : Int) := by
      simp; omega
    rw [e, rd_eq (a := la)]
    · rw [Out.ok_bind, wr_eq (by simp)]
      rw [Out.ok_bind]
      have e2 : pre.length + (ini ++ [la]).length - 1 = pre.length + ini.length := by simp
      rw [e2]
      have e3 : (pre ++ List.map some (ini ++ [la]) ++ x :: j).set (pre.length + (ini ++ [la]).length) (some la)
          = pre ++ List.map some ini ++ some la :: some la :: j := by
        simp [List.set_append]
      rw [e3, hy]
      simp
    · simp [List.getElem?_append]

theorem insert_repr {v : Vec α} {l : List α} (h : Repr v l) (i : Int) (a : α) :
    ∃ v', insert v i a = .ok v' ∧ Repr v' (VSpec.ins l i a) := by
  have hs := h.1
  unfold insert VSpec.ins
  by_cases hi : 0 > i ∨ i > v.size
  · have : ¬ (0 ≤ i ∧ i ≤ (l.length : Int)) := by omega
    simp only [hi, if_true, this, if_false]
    exact ⟨v, rfl, h⟩
  · have hi' : 0 ≤ i ∧ i ≤ (l.length : Int) := by omega
    simp only [hi, if_false, hi', and_self, if_true]
    obtain ⟨hs, hc, j, hj⟩ := h
    obtain ⟨k, rfl⟩ := Int.eq_ofNat_of_zero_le hi'.1
    have hk : k ≤ l.length := by omega
    have key : ∀ s x j', s = l.map some ++ x :: j' →
      ∃ v', (shiftUp s v.size (v.size - k) >>= fun s => wr s (k : Int) a >>= fun s =>
          pure (⟨s, v.size + 1⟩ : Vec α)) = .ok v' ∧ Repr v' (l.take k ++ a :: l.drop k) := by
      intro s x j' hs'
      obtain ⟨y, hy⟩ := shiftUp_eq ((l.take k).map some) (l.length - k) (l.drop k) x j' (by simp)
      have e1 : List.map some (List.take k l) ++ List.map some (List.drop k l) ++ x :: j' = s := by
        rw [hs', ← List.map_append, List.take_append_drop]
      have e2 : (List.map some (List.take k l)).length + (List.drop k l).length = v.size := by
        simp [hs]; omega
      rw [e1, e2] at hy
      rw [hs] at hy ⊢
      rw [hy, Out.ok_bind, wr_eq (by simp; omega), Out.ok_bind]
      have hkl : (List.map (some : α → _) (List.take k l)).length = k := by simp; omega
      refine ⟨_, rfl, ?_, ?_, j', ?_⟩
      · simp; omega
      · simp; omega
      · rw [List.set_append_right _ _ (by omega), hkl]
        simp
    have hslen : v.slots.length = l.length + j.length := by rw [hj]; simp
    simp only [Int.toNat_natCast]
    by_cases hcap : v.size ≥ v.capacity
    · simp only [hcap, if_true]
      simp [capacity] at hcap
      have hj0 : j = [] := List.length_eq_zero_iff.mp (by omega)
      rw [realloc_grow (by simp [capacity]; omega)]
      have : 2 * v.capacity - v.slots.length = (2 * v.capacity - v.slots.length - 1) + 1 := by
        simp [capacity]; omega
      rw [this, List.replicate_succ]
      apply key _ none (List.replicate (2 * v.capacity - v.slots.length - 1) none)
      rw [hj, hj0]; simp
    · simp only [hcap, if_false]
      simp [capacity] at hcap
      match j, hj, hslen with
      | [], hj, hslen => simp at hslen; omega
      | x :: xs, hj, _ => exact key _ x xs hj

theorem shiftDown_eq (pre : List (Option α)) : ∀ (n : Nat) (post : List α) (pre : List (Option α)) (x : Option α)
    (j : List (Option α)), post.length = n →
    ∃ y : Option α, shiftDown (pre ++ x :: post.map some ++ j) (pre.length + 1) n =
      .ok (pre ++ post.map some ++ y :: j) := by
  intro n
  induction n with
  | zero =>
    intro post pre x j h
    have : post = [] := List.length_eq_zero_iff.mp h
    subst this
    exact ⟨x, by simp [shiftDown]⟩
  | succ n ih =>
    intro post pre x j h
    match post, h with
    | p :: ps, h =>
      obtain ⟨y, hy⟩ := ih ps (pre ++ [some p]) (some p) j (by simpa using h)
      refine ⟨y, ?_⟩
      unfold shiftDown
      rw [rd_eq (a := p) (by simp [List.getElem?_append])]
      have e : ((pre.length + 1 : Nat) : Int) - 1 = (pre.length : Nat) := by omega
      rw [Out.ok_bind, e, wr_eq (by simp), Out.ok_bind]
      have e3 : (pre ++ x :: List.map some (p :: ps) ++ j).set pre.length (some p)
        = pre ++ [some p] ++ some p :: List.map some ps ++ j := by simp [List.set_append]
      rw [e3]
      simp only [List.length_append, List.length_cons, List.length_nil, Nat.zero_add] at hy
      rw [hy]; simp

theorem erase_repr {v : Vec α} {l : List α} (h : Repr v l) (i : Int) :
    ∃ v', erase v i = .ok v' ∧ Repr v' (VSpec.del l i) := by
  have hs := h.1
  unfold erase VSpec.del
  by_cases hi : 0 > i ∨ i ≥ v.size
  · have : ¬ (0 ≤ i ∧ i < (l.length : Int)) := by omega
    simp only [hi, if_true, this, if_false]
    exact ⟨v, rfl, h⟩
  · have hi' : 0 ≤ i ∧ i < (l.length : Int) := by omega
    simp only [hi, if_false, hi', and_self, if_true]
    obtain ⟨hs, hc, j, hj⟩ := h
    obtain ⟨k, rfl⟩ := Int.eq_ofNat_of_zero_le hi'.1
    have hk : k < l.length := by omega
    simp only [Int.toNat_natCast]
    rw [rd_eq (a := l[k]) (by rw [hj, get_map_append hk]), Out.ok_bind]
    obtain ⟨y, hy⟩ := shiftDown_eq [] (l.length - (k + 1)) (l.drop (k + 1)) ((l.take k).map some) (some l[k]) j (by simp)
    have e1 : List.map some (List.take k l) ++ some l[k] :: List.map some (List.drop (k + 1) l) ++ j = v.slots := by
      rw [hj]
      conv => rhs; rw [← List.take_append_drop k l, ← List.getElem_cons_drop hk]
      rw [List.map_append, List.map_cons]
    have e2 : (List.map (some : α → _) (List.take k l)).length + 1 = k + 1 := by simp; omega
    rw [e1, e2] at hy
    rw [hs, hy, Out.ok_bind]
    refine ⟨_, rfl, ?_, ?_, y :: j, ?_⟩
    · simp; omega
    · simp; omega
    · simp

theorem get_repr {v : Vec α} {l : List α} (h : Repr v l) (i : Int) :
    get v i = .ok (VSpec.get l i) := by
  obtain ⟨hs, hc, j, hj⟩ := h
  unfold get VSpec.get
  by_cases hi : 0 > i ∨ i ≥ v.size
  · simp only [hi, if_true]
    by_cases h0 : i < 0
    · simp [h0]
    · simp only [h0, if_false]
      rw [List.getElem?_eq_none (by omega)]
  · have hi' : 0 ≤ i ∧ i < (l.length : Int) := by omega
    simp only [hi, if_false]
    obtain ⟨k, rfl⟩ := Int.eq_ofNat_of_zero_le hi'.1
    have hk : k < l.length := by omega
    rw [rd_eq (a := l[k]) (by rw [hj, get_map_append hk]), Out.ok_bind]
    have : ¬ ((k : Int) < 0) := by omega
    simp [this, hk]

theorem copyLoop_eq (j : List (Option α)) : ∀ (rest done : List α) (d : List (Option α)),
    rest.length ≤ d.length →
    copyLoop ((done ++ rest).map some ++ j) (done.map some ++ d) done.length rest.length =
      .ok ((done ++ rest).map some ++ d.drop rest.length) := by
  intro rest
  induction rest with
  | nil => intro done d _; simp [copyLoop]
  | cons r rs ih =>
    intro done d hd
    match d, hd with
    | x :: xs, hd =>
      rw [List.length_cons]; unfold copyLoop
      rw [rd_eq (a := r) (by simp [List.getElem?_append]), Out.ok_bind, wr_eq (by simp), Out.ok_bind]
      have := ih (done ++ [r]) xs (by simpa using hd)
      have e : (List.map some done ++ x :: xs).set done.length (some r) = List.map some (done ++ [r]) ++ xs := by
        simp [List.set_append]
      rw [e]
      simp only [List.append_assoc, List.singleton_append, List.length_append, List.length_cons, List.length_nil,
        Nat.zero_add] at this
      simp only [List.append_assoc, List.singleton_append, List.length_append, List.length_cons, List.length_nil,
        Nat.zero_add] at *
      rw [this]
      simp

theorem copy_repr {v : Vec α} {l : List α} (h : Repr v l) :
    ∃ v', copy v = .ok v' ∧ Repr v' l := by
  obtain ⟨hs, hc, j, hj⟩ := h
  have hslen : v.slots.length = l.length + j.length := by rw [hj]; simp
  have := copyLoop_eq j l [] (List.replicate v.capacity none) (by simp [capacity]; omega)
  simp only [List.nil_append, List.map_nil, List.length_nil] at this
  unfold copy
  rw [hj, hs, this]
  refine ⟨_, rfl, by simp, ?_, _, rfl⟩
  simp [capacity]; omega

theorem extendLoop_repr (j : List (Option α)) : ∀ (rest done l : List α) (v : Vec α), Repr v l →
    ∃ v', extendLoop v ((done ++ rest).map some ++ j) done.length rest.length = .ok v' ∧ Repr v' (l ++ rest) := by
  intro rest
  induction rest with
  | nil => intro done l v h; exact ⟨v, rfl, by simpa using h⟩
  | cons r rs ih =>
    intro done l v h
    rw [List.length_cons]; unfold extendLoop
    rw [rd_eq (a := r) (by simp [List.getElem?_append]), Out.ok_bind]
    obtain ⟨v1, h1, h1r⟩ := push_repr h r
    obtain ⟨v2, h2, h2r⟩ := ih (done ++ [r]) _ v1 h1r
    refine ⟨v2, ?_, by simpa using h2r⟩
    rw [h1, Out.ok_bind]
    simpa using h2

theorem extend_repr {v w : Vec α} {l m : List α} (h : Repr v l) (h' : Repr w m) :
    ∃ v' w', extend v w = .ok (v', w') ∧ Repr v' (l ++ m) ∧ Repr w' [] := by
  obtain ⟨hs, hc, j, hj⟩ := h'
  obtain ⟨v', hv, hr⟩ := extendLoop_repr j m [] l v h
  refine ⟨v', ⟨realloc w.slots 1, 0⟩, ?_, hr, rfl, ?_, _, rfl⟩
  · unfold extend
    rw [hs, hj]
    simp only [List.nil_append, List.length_nil] at hv
    rw [hv]; rfl
  · simp [realloc]; omega

theorem upd_repr {σ : Nat → Vec α} {τ : Nat → List α} (h : ∀ k, Repr (σ k) (τ k)) {k : Nat} {v : Vec α} {l : List α}
    (hv : Repr v l) : ∀ j, Repr (VStore.upd σ k v j) (VStore.upd τ k l j) := by
  intro j; unfold VStore.upd; split
  · exact hv
  · exact h j

theorem step_repr {σ : Nat → Vec α} {τ : Nat → List α} (h : ∀ k, Repr (σ k) (τ k)) (o : VOp α)
    {τ' : Nat → List α} {x : VObs α} (hs : VSpec.step τ o = some (τ', x)) :
    ∃ σ', VProg.step σ o = .ok (σ', x) ∧ ∀ k, Repr (σ' k) (τ' k) := by
  cases o with
  | new d => simp [VSpec.step] at hs; obtain ⟨rfl, rfl⟩ := hs; exact ⟨_, rfl, upd_repr h repr_new⟩
  | copy d s =>
    simp [VSpec.step] at hs; obtain ⟨rfl, rfl⟩ := hs
    obtain ⟨v, hv, hr⟩ := copy_repr (h s)
    exact ⟨_, by simp [VProg.step, hv], upd_repr h hr⟩
  | push k a =>
    simp [VSpec.step] at hs; obtain ⟨rfl, rfl⟩ := hs
    obtain ⟨v, hv, hr⟩ := push_repr (h k) a
    exact ⟨_, by simp [VProg.step, hv], upd_repr h hr⟩
  | pop k =>
    simp only [VSpec.step] at hs
    split at hs
    · simp at hs
    · rename_i a ha
      simp at hs; obtain ⟨rfl, rfl⟩ := hs
      have hne : τ k ≠ [] := by intro h'; simp [h'] at ha
      have e : τ k = (τ k).dropLast ++ [a] := by
        have := List.dropLast_concat_getLast hne
        rw [List.getLast?_eq_some_getLast hne] at ha
        simp at ha; rw [ha] at this; exact this.symm
      have hk := h k
      rw [e] at hk
      obtain ⟨v, hv, hr⟩ := pop_repr hk
      exact ⟨_, by simp [VProg.step, hv], upd_repr h hr⟩
  | fill k n a =>
    simp [VSpec.step] at hs; obtain ⟨rfl, rfl⟩ := hs
    obtain ⟨v, hv, hr⟩ := fill_repr (h k) n a
    exact ⟨_, by simp [VProg.step, hv], upd_repr h hr⟩
  | set k i a =>
    simp only [VSpec.step, Option.some.injEq, Prod.mk.injEq] at hs; obtain ⟨rfl, rfl⟩ := hs
    obtain ⟨v, hv, hr⟩ := set_repr (h k) i a
    exact ⟨_, by simp [VProg.step, hv], upd_repr h hr⟩
  | insert k i a =>
    simp [VSpec.step] at hs; obtain ⟨rfl, rfl⟩ := hs
    obtain ⟨v, hv, hr⟩ := insert_repr (h k) i a
    exact ⟨_, by simp [VProg.step, hv], upd_repr h hr⟩
  | erase k i =>
    simp [VSpec.step] at hs; obtain ⟨rfl, rfl⟩ := hs
    obtain ⟨v, hv, hr⟩ := erase_repr (h k) i
    exact ⟨_, by simp [VProg.step, hv], upd_repr h hr⟩
  | get k i =>
    simp [VSpec.step] at hs; obtain ⟨rfl, rfl⟩ := hs
    exact ⟨_, by simp [VProg.step, get_repr (h k)], h⟩
  | size k =>
    simp [VSpec.step] at hs; obtain ⟨rfl, rfl⟩ := hs
    exact ⟨_, by simp [VProg.step, (h k).1], h⟩
  | extend k j =>
    simp only [VSpec.step] at hs
    split at hs
    · simp at hs
    · rename_i hkj
      simp at hs; obtain ⟨rfl, rfl⟩ := hs
      obtain ⟨v, w, hv, hr, hr'⟩ := extend_repr (h k) (h j)
      exact ⟨_, by simp [VProg.step, hkj, hv], upd_repr (upd_repr h hr) hr'⟩

theorem run_repr : ∀ (os : List (VOp α)) {σ : Nat → Vec α} {τ : Nat → List α} (_ : ∀ k, Repr (σ k) (τ k))
    {τ' : Nat → List α} {xs : List (VObs α)} (_ : VSpec.run τ os = some (τ', xs)),
    ∃ σ', VProg.run σ os = .ok (σ', xs) ∧ ∀ k, Repr (σ' k) (τ' k) := by
  intro os
  induction os with
  | nil => intro σ τ h τ' xs hs; simp [VSpec.run] at hs; obtain ⟨rfl, rfl⟩ := hs; exact ⟨σ, rfl, h⟩
  | cons o os ih =>
    intro σ τ h τ' xs hs
    simp only [VSpec.run] at hs
    split at hs
    · simp at hs
    · rename_i τ1 x h1
      split at hs
      · simp at hs
      · rename_i τ2 ys h2
        simp at hs; obtain ⟨rfl, rfl⟩ := hs
        obtain ⟨σ1, hσ1, hr1⟩ := step_repr h o h1
        obtain ⟨σ2, hσ2, hr2⟩ := ih hr1 h2
        exact ⟨σ2, by simp [VProg.run, hσ1, hσ2], hr2⟩

end Vec
end Umlcc
