import Verif.Lemma.LiveExprs
import Verif.Spec.Tidy
/-!
Code that reads every register once: pieces of code, how they are put together, and how many registers are needed later on.
-/
namespace Umlcc
namespace Tidy
open RSpec (reads writes opeRegs branches)
open Gen hiding Branch Branch.defs
open CSem (fresh safe safeArgs)
open Live (reads_inst GLive expr_live)

/-- an item reads a register for good -/
def Spends (x : Immc) (v : Int) : Prop := v ∈ reads x ∧ writes x ≠ some v ∧ x.isJump = false

/-- at every write of a register in `c`, at most `k` registers with smaller numbers are read later on in `c` or belong to `R` -/
def Level (c : List Immc) (R : List Int) (k : Nat) : Prop :=
  ∀ a x b, c = a ++ x :: b → ∀ w, writes x = some w → ∀ l : List Int, l.Nodup → (∀ u ∈ l, u < w ∧ ((∃ y ∈ b, u ∈ reads y) ∨ u ∈ R)) → l.length ≤ k

/-- a call -/
def isCall : Immc → Bool
  | .inst i => decide (i.op = .call)
  | _ => false

/-- what a call writes is newer than all that is written before -/
def CallsNew (c : List Immc) : Prop := ∀ a x b, c = a ++ x :: b → isCall x = true → ∀ w, writes x = some w → ∀ y ∈ a, ∀ v, writes y = some v → v < w

/-- the code `c` between two states, with its value in the registers `R`, which are still to be read -/
structure Runs (s : GState) (c : List Immc) (s' : GState) (R : List Int) (k : Nat) : Prop where
  reg : s.reg ≤ s'.reg
  rd : ∀ x ∈ c, ∀ v ∈ reads x, s.reg < v ∧ v ≤ s'.reg
  wr : ∀ x ∈ c, ∀ v, writes x = some v → s.reg < v ∧ v ≤ s'.reg
  two : ∀ x ∈ c, x.isJump = false → (reads x).Nodup
  jw : ∀ x ∈ c, x.isJump = true → writes x = none ∧ RSpec.target x ≠ none
  solo : ∀ a x b, c = a ++ x :: b → ∀ v, Spends x v → ∀ y ∈ b, v ∉ reads y
  nd : R.Nodup
  res : ∀ v ∈ R, (s.reg < v ∧ v ≤ s'.reg) ∧ ∀ x ∈ c, ¬ Spends x v
  level : Level c R k
  call : CallsNew c

theorem nodup_le : ∀ {l m : List Int}, l.Nodup → (∀ u ∈ l, u ∈ m) → l.length ≤ m.length
  | [], _, _, _ => Nat.zero_le _
  | a :: l, m, hl, h => by
    have h1 := List.nodup_cons.1 hl
    have ha := h a (by simp)
    have := nodup_le (m := m.erase a) h1.2 fun u hu => (List.mem_erase_of_ne (by rintro rfl; exact h1.1 hu)).2 (h u (by simp [hu]))
    rw [List.length_erase_of_mem ha] at this
    have := List.length_pos_of_mem ha
    simp only [List.length_cons]
    omega

theorem Level.mono {c : List Immc} {R R' : List Int} {k k' : Nat} (h : Level c R k) (hR : ∀ x ∈ c, ∀ w, writes x = some w → ∀ v ∈ R', v < w → v ∈ R) (hk : k ≤ k') : Level c R' k' :=
  fun a x b e w hw l hl hu => Nat.le_trans (h a x b e w hw l hl fun u hu' => ⟨(hu u hu').1, (hu u hu').2.imp id fun m => hR x (by simp [e]) w hw u m (hu u hu').1⟩) hk

theorem Runs.nil {s s' : GState} (h : s'.reg = s.reg) (k : Nat) : Runs s [] s' [] k where
  reg := by omega
  rd := by simp
  wr := by simp
  two := by simp
  jw := by simp
  solo a x b e := by simp at e
  nd := by simp
  res := by simp
  level a x b e := by simp at e
  call a x b e := by simp at e

/-- states that differ elsewhere, a larger level -/
theorem Runs.to {s s' t t' : GState} {c : List Immc} {R : List Int} {k k' : Nat} (h : Runs s c s' R k) (hr : t.reg = s.reg) (hl : t'.reg = s'.reg) (hk : k ≤ k') : Runs t c t' R k' := by
  obtain ⟨h1, h2, h3, h4, h5, h6, h7, h8, h9, h10⟩ := h
  rw [← hr, ← hl] at *
  exact ⟨h1, h2, h3, h4, h5, h6, h7, h8, h9.mono (fun _ _ _ _ _ h _ => h) hk, h10⟩

/-- registers are allocated, or forgotten -/
theorem Runs.bump {s s' t : GState} {c : List Immc} {R R' : List Int} {k : Nat} (h : Runs s c s' R k) (hr : s'.reg ≤ t.reg) (hd : R'.Nodup)
    (hR : ∀ v ∈ R', v ∈ R ∨ (s'.reg < v ∧ v ≤ t.reg)) : Runs s c t R' k := by
  obtain ⟨h1, h2, h3, h4, h5, h6, h7, h8, h9, h10⟩ := h
  refine ⟨by omega, ?_, ?_, h4, h5, h6, hd, ?_, h9.mono ?_ (Nat.le_refl _), h10⟩
  · intro x hx v hv; have := h2 x hx v hv; omega
  · intro x hx v hv; have := h3 x hx v hv; omega
  · intro v hv
    rcases hR v hv with hm | hm
    · have := h8 v hm; exact ⟨by omega, this.2⟩
    · exact ⟨by omega, fun x hx hs => by have := h2 x hx v hs.1; omega⟩
  · intro x hx w hw v hv hlt
    rcases hR v hv with hm | hm
    · exact hm
    · have := h3 x hx w hw; omega

theorem append_split {α : Type} {a b p q : List α} {x : α} (h : a ++ b = p ++ x :: q) : (∃ q', a = p ++ x :: q' ∧ q = q' ++ b) ∨ ∃ p', p = a ++ p' ∧ b = p' ++ x :: q := by
  rcases List.append_eq_append_iff.1 h with ⟨z, h1, h2⟩ | ⟨z, h1, h2⟩
  · exact .inr ⟨z, h1, h2⟩
  · cases z with
    | nil => exact .inr ⟨[], by simpa using h1.symm, by simpa using h2.symm⟩
    | cons y z =>
      simp only [List.cons_append, List.cons.injEq] at h2
      obtain ⟨rfl, h2⟩ := h2
      exact .inl ⟨z, h1, h2⟩

theorem Runs.seq {s s1 s' : GState} {a b : List Immc} {R1 R2 : List Int} {k1 k2 k : Nat} (h : Runs s a s1 R1 k1) (g : Runs s1 b s' R2 k2) (hk1 : k1 ≤ k)
    (hk2 : R1.length + k2 ≤ k) : Runs s (a ++ b) s' (R1 ++ R2) k := by
  have hb := h.reg
  have gb := g.reg
  refine ⟨by omega, ?_, ?_, ?_, ?_, ?_, ?_, ?_, ?_, ?_⟩
  · intro x hx v hv
    rcases List.mem_append.1 hx with hx | hx
    · have := h.rd x hx v hv; omega
    · have := g.rd x hx v hv; omega
  · intro x hx v hv
    rcases List.mem_append.1 hx with hx | hx
    · have := h.wr x hx v hv; omega
    · have := g.wr x hx v hv; omega
  · intro x hx
    rcases List.mem_append.1 hx with hx | hx
    · exact h.two x hx
    · exact g.two x hx
  · intro x hx
    rcases List.mem_append.1 hx with hx | hx
    · exact h.jw x hx
    · exact g.jw x hx
  · intro p x q e v hv y hy
    rcases append_split e with ⟨q', rfl, rfl⟩ | ⟨p', rfl, rfl⟩
    · rcases List.mem_append.1 hy with hy | hy
      · exact h.solo p x q' rfl v hv y hy
      · intro hm
        have := g.rd y hy v hm
        have := h.rd x (by simp) v hv.1
        omega
    · exact g.solo p' x q rfl v hv y hy
  · refine List.nodup_append.2 ⟨h.nd, g.nd, ?_⟩
    rintro u hu v hv rfl
    have := (h.res u hu).1
    have := (g.res u hv).1
    omega
  · intro v hv
    rcases List.mem_append.1 hv with hv | hv
    · have := h.res v hv
      refine ⟨by omega, fun x hx hs => ?_⟩
      rcases List.mem_append.1 hx with hx | hx
      · exact this.2 x hx hs
      · have := g.rd x hx v hs.1; omega
    · have := g.res v hv
      refine ⟨by omega, fun x hx hs => ?_⟩
      rcases List.mem_append.1 hx with hx | hx
      · have := h.rd x hx v hs.1; omega
      · exact this.2 x hx hs
  · intro p x q e w hw l hl hu
    rcases append_split e with ⟨q', rfl, rfl⟩ | ⟨p', rfl, rfl⟩
    · refine Nat.le_trans (h.level p x q' rfl w hw l hl fun u hu' => ?_) hk1
      have hw' := h.wr x (by simp) w hw
      obtain ⟨u1, u2⟩ := hu u hu'
      refine ⟨u1, ?_⟩
      rcases u2 with ⟨y, hy, hm⟩ | hm
      · rcases List.mem_append.1 hy with hy | hy
        · exact .inl ⟨y, hy, hm⟩
        · have := g.rd y hy u hm; omega
      · rcases List.mem_append.1 hm with hm | hm
        · exact .inr hm
        · have := (g.res u hm).1; omega
    · have e1 : l.length = (l.filter (· ∈ R1)).length + (l.filter (fun u => !decide (u ∈ R1))).length := by
        rw [← List.countP_eq_length_filter, ← List.countP_eq_length_filter]
        simpa using List.length_eq_countP_add_countP (p := fun u => decide (u ∈ R1)) (l := l)
      have e2 : (l.filter (· ∈ R1)).length ≤ R1.length := nodup_le (hl.filter _) fun u hu => by simpa using (List.mem_filter.1 hu).2
      have e3 : (l.filter (fun u => !decide (u ∈ R1))).length ≤ k2 := by
        refine g.level p' x q rfl w hw _ (hl.filter _) fun u hu' => ?_
        obtain ⟨m1, m2⟩ := List.mem_filter.1 hu'
        obtain ⟨u1, u2⟩ := hu u m1
        refine ⟨u1, u2.imp id fun hm => ?_⟩
        rcases List.mem_append.1 hm with hm | hm
        · simp [hm] at m2
        · exact hm
      omega
  · intro p x q e hc w hw y hy v hv
    rcases append_split e with ⟨q', rfl, rfl⟩ | ⟨p', rfl, rfl⟩
    · exact h.call p x q' rfl hc w hw y hy v hv
    · rcases List.mem_append.1 hy with hy | hy
      · have := h.wr y hy v hv
        have := g.wr x (by simp) w hw
        omega
      · exact g.call p' x q rfl hc w hw y hy v hv

/-- one more item, which may read the registers at hand -/
theorem Runs.add {s s1 t : GState} {c : List Immc} {R R' : List Int} {k k' : Nat} (h : Runs s c s1 R k) {x : Immc} (hr : s1.reg ≤ t.reg) (hk : k ≤ k')
    (hrd : ∀ v ∈ reads x, v ∈ R) (hwr : ∀ v, writes x = some v → v ∈ R ∨ (s1.reg < v ∧ v ≤ t.reg)) (h2 : x.isJump = false → (reads x).Nodup)
    (hj : x.isJump = true → writes x = none ∧ RSpec.target x ≠ none) (hd : R'.Nodup)
    (hR : ∀ v ∈ R', (v ∈ R ∨ (s1.reg < v ∧ v ≤ t.reg)) ∧ ¬ Spends x v) (hl : ∀ w, writes x = some w → (R'.filter (· < w)).length ≤ k')
    (hc : isCall x = true → ∀ w, writes x = some w → s1.reg < w) : Runs s (c ++ [x]) t R' k' := by
  have hb := h.reg
  refine ⟨by omega, ?_, ?_, ?_, ?_, ?_, hd, ?_, ?_, ?_⟩
  · intro y hy v hv
    rcases List.mem_append.1 hy with hy | hy
    · have := h.rd y hy v hv; omega
    · obtain rfl := List.mem_singleton.1 hy
      have := (h.res v (hrd v hv)).1; omega
  · intro y hy v hv
    rcases List.mem_append.1 hy with hy | hy
    · have := h.wr y hy v hv; omega
    · obtain rfl := List.mem_singleton.1 hy
      rcases hwr v hv with hm | hm
      · have := (h.res v hm).1; omega
      · omega
  · intro y hy
    rcases List.mem_append.1 hy with hy | hy
    · exact h.two y hy
    · obtain rfl := List.mem_singleton.1 hy; exact h2
  · intro y hy
    rcases List.mem_append.1 hy with hy | hy
    · exact h.jw y hy
    · obtain rfl := List.mem_singleton.1 hy; exact hj
  · intro p y q e v hv z hz
    rcases append_split e with ⟨q', rfl, rfl⟩ | ⟨p', rfl, e'⟩
    · rcases List.mem_append.1 hz with hz | hz
      · exact h.solo p y q' rfl v hv z hz
      · obtain rfl := List.mem_singleton.1 hz
        exact fun hm => (h.res v (hrd v hm)).2 y (by simp) hv
    · cases p' with
      | nil => cases e'; cases hz
      | cons _ p' => simp at e'
  · intro v hv
    obtain ⟨m, ns⟩ := hR v hv
    rcases m with m | m
    · have := h.res v m
      refine ⟨by omega, fun y hy => ?_⟩
      rcases List.mem_append.1 hy with hy | hy
      · exact this.2 y hy
      · obtain rfl := List.mem_singleton.1 hy; exact ns
    · refine ⟨by omega, fun y hy hs => ?_⟩
      rcases List.mem_append.1 hy with hy | hy
      · have := h.rd y hy v hs.1; omega
      · obtain rfl := List.mem_singleton.1 hy; exact ns hs
  · intro p y q e w hw l hl' hu
    rcases append_split e with ⟨q', rfl, rfl⟩ | ⟨p', rfl, e'⟩
    · refine Nat.le_trans (h.level p y q' rfl w hw l hl' fun u hu' => ?_) hk
      obtain ⟨u1, u2⟩ := hu u hu'
      have hw' := h.wr y (by simp) w hw
      refine ⟨u1, ?_⟩
      rcases u2 with ⟨z, hz, hm⟩ | hm
      · rcases List.mem_append.1 hz with hz | hz
        · exact .inl ⟨z, hz, hm⟩
        · obtain rfl := List.mem_singleton.1 hz
          exact .inr (hrd u hm)
      · rcases (hR u hm).1 with hm | hm
        · exact .inr hm
        · omega
    · cases p' with
      | cons _ p' => simp at e'
      | nil =>
        cases e'
        refine Nat.le_trans (nodup_le hl' fun u hu' => ?_) (hl w hw)
        obtain ⟨u1, u2⟩ := hu u hu'
        rcases u2 with ⟨z, hz, _⟩ | hm
        · cases hz
        · exact List.mem_filter.2 ⟨hm, by simpa using u1⟩
  · intro p y q e hy w hw z hz v hv
    rcases append_split e with ⟨q', rfl, rfl⟩ | ⟨p', rfl, e'⟩
    · exact h.call p y q' rfl hy w hw z hz v hv
    · cases p' with
      | cons _ p' => simp at e'
      | nil =>
        cases e'
        have := hc hy w hw
        have := h.wr z (by simpa using hz) v hv
        omega

/-- an item that has nothing to do with registers -/
theorem Runs.skip {s s1 : GState} {c : List Immc} {R : List Int} {k : Nat} (h : Runs s c s1 R k) {x : Immc} (hr : reads x = []) (hw : writes x = none)
    (ha : x.isJump = true → RSpec.target x ≠ none := by first | exact fun h => absurd h Bool.false_ne_true | exact fun _ => Option.some_ne_none _) : Runs s (c ++ [x]) s1 R k :=
  h.add (Int.le_refl _) (Nat.le_refl _) (by simp [hr]) (by simp [hw]) (by simp [hr]) (fun j => ⟨hw, ha j⟩) h.nd (fun v hv => ⟨.inl hv, fun hs => by have := hs.1; simp [hr] at this⟩) (by simp [hw]) (by simp [hw])

/-- an item that reads all registers at hand and writes a new one -/
theorem Runs.last {s s1 t : GState} {c : List Immc} {R : List Int} {k : Nat} (h : Runs s c s1 R k) {x : Immc} (hr : reads x = R) (hw : writes x = some (s1.reg + 1))
    (hj : x.isJump = false) (ht : t.reg = s1.reg + 1) : Runs s (c ++ [x]) t [s1.reg + 1] k := by
  refine h.add (by omega) (Nat.le_refl _) (by simp [hr]) ?_ (fun _ => by rw [hr]; exact h.nd) (by simp [hj]) (by simp) ?_ ?_ ?_
  · intro v hv; rw [hw] at hv; cases hv; right; omega
  · intro v hv
    obtain rfl := List.mem_singleton.1 hv
    exact ⟨.inr (by omega), fun hs => hs.2.1 hw⟩
  · intro w hw'; rw [hw] at hw'; cases hw'; simp
  · intro _ w hw'; rw [hw] at hw'; cases hw'; omega

/-- an item that reads all registers at hand and writes none -/
theorem Runs.use {s s1 : GState} {c : List Immc} {R : List Int} {k : Nat} (h : Runs s c s1 R k) {x : Immc} (hr : (reads x).Perm R) (hw : writes x = none)
    (ha : x.isJump = true → RSpec.target x ≠ none := by first | exact fun h => absurd h Bool.false_ne_true | exact fun _ => Option.some_ne_none _) : Runs s (c ++ [x]) s1 [] k :=
  h.add (Int.le_refl _) (Nat.le_refl _) (fun v hv => hr.mem_iff.1 hv) (by simp [hw]) (fun _ => hr.nodup_iff.2 h.nd) (fun j => ⟨hw, ha j⟩) (by simp) (by simp) (by simp [hw]) (by simp [hw])

end Tidy
end Umlcc
