import Verif.Lemma.FlowSet
/-! The flow analysis of regalloc.c ends with sets inside given bounds (helper lemmas). -/
namespace Umlcc
namespace Regalloc
open HMap

/-- number of members of `U` in a set -/
def cnt (U : List Int) (s : ISet) : Nat := U.countP fun v => decide (v ∈ HSet.elems s)

theorem cnt_le (U : List Int) (s : ISet) : cnt U s ≤ U.length := List.countP_le_length

theorem cnt_mono (U : List Int) {s s' : ISet} (h : ∀ v, v ∈ HSet.elems s → v ∈ HSet.elems s') : cnt U s ≤ cnt U s' := by
  unfold cnt
  apply List.countP_mono_left
  intro v _ hv
  simp only [decide_eq_true_eq] at hv ⊢
  exact h v hv

theorem cnt_lt : ∀ (U : List Int) {s s' : ISet}, (∀ v, v ∈ HSet.elems s → v ∈ HSet.elems s') → ∀ v ∈ U, v ∈ HSet.elems s' → v ∉ HSet.elems s →
    cnt U s < cnt U s' := by
  intro U
  induction U with
  | nil => intro s s' _ v hv; simp at hv
  | cons u U ih =>
    intro s s' h v hv h1 h2
    have hm := cnt_mono U h
    unfold cnt at hm ih ⊢
    rw [List.countP_cons, List.countP_cons]
    rcases List.mem_cons.1 hv with rfl | hv
    · simp only [h1, h2, decide_true, decide_false, if_true]; simp; omega
    · have := ih h v hv h1 h2
      by_cases hu : u ∈ HSet.elems s
      · simp only [hu, h u hu, decide_true, if_true]; omega
      · simp only [hu, decide_false]; simp; omega

theorem sum_set {α : Type} (f : α → Nat) : ∀ (l : List α) (i : Nat) (b b' : α), l[i]? = some b →
    (l.map f).sum + f b' = ((l.set i b').map f).sum + f b := by
  intro l
  induction l with
  | nil => intro i b b' h; simp at h
  | cons a l ih =>
    intro i b b' h
    cases i with
    | zero => simp at h; subst h; simp; omega
    | succ i =>
      simp at h
      have := ih i b b' h
      simp only [List.set_cons_succ, List.map_cons, List.sum_cons]; omega

def load (U : List Int) (b : Block) : Nat := cnt U b.input + cnt U b.output
def weight (U : List Int) (g : List Block) : Nat := (g.map (load U)).sum

theorem weight_le (U : List Int) : ∀ (g : List Block), weight U g ≤ g.length * (2 * U.length) := by
  intro g
  induction g with
  | nil => simp [weight]
  | cons b g ih =>
    unfold weight at ih ⊢
    have h1 := cnt_le U b.input
    have h2 := cnt_le U b.output
    simp only [List.map_cons, List.sum_cons, List.length_cons, load] at ih ⊢
    rw [Nat.add_mul]; omega

/-- what holds between two steps of the analysis of the graph `g0`; `L p` are the registers that may be in the set at the head of block `p` -/
structure Going (g0 : List Block) (L : Nat → Int → Prop) (g : List Block) : Prop where
  len : g.length = g0.length
  same : ∀ (p : Nat) b b0, g[p]? = some b → g0[p]? = some b0 → b.immcs = b0.immcs ∧ b.succ = b0.succ
  neat : ∀ b ∈ g, Neat b.input ∧ Neat b.output
  inp : ∀ (p : Nat) b, g[p]? = some b → ∀ v ∈ HSet.elems b.input, L p v
  out : ∀ (p : Nat) b, g[p]? = some b → ∀ v ∈ HSet.elems b.output, ∃ t ∈ HSet.elems b.succ, L t.toNat v
  grow : ∀ (p : Nat) b, g[p]? = some b → ∀ v ∈ HSet.elems b.output, ∃ t ∈ HSet.elems b.succ, ∃ c, g[t.toNat]? = some c ∧ v ∈ HSet.elems c.input
  ahead : ∀ (p : Nat) b, g[p]? = some b → ∀ v ∈ HSet.elems b.input, before b.immcs (fun v => v ∈ HSet.elems b.output) v

/-- what the analysis needs to know about the graph -/
structure Ground (g0 : List Block) (L : Nat → Int → Prop) (U : List Int) : Prop where
  succ : ∀ (p : Nat) b, g0[p]? = some b → ∀ t ∈ HSet.elems b.succ, ∃ c, 0 ≤ t ∧ g0[t.toNat]? = some c
  fin : ∀ p v, L p v → v ∈ U
  back : ∀ (p : Nat) b, g0[p]? = some b → ∀ v, before b.immcs (fun v => ∃ t ∈ HSet.elems b.succ, L t.toNat v) v → L p v
  run : ∀ (p : Nat) b, g0[p]? = some b → ∀ s, Pristine s → (∀ v ∈ HSet.elems s, ∃ t ∈ HSet.elems b.succ, L t.toNat v) →
    ∃ s', flowLoop s b.immcs.reverse = .ok s' ∧ Neat s' ∧ ∀ v, v ∈ HSet.elems s' ↔ before b.immcs (fun v => v ∈ HSet.elems s) v

theorem updateFlow_going {g0 g : List Block} {L : Nat → Int → Prop} {U : List Int} (hg : Ground g0 L U) (h : Going g0 L g) {id : Nat} (hid : id < g.length) :
    ∃ g' c, updateFlow g id = .ok (g', c) ∧ Going g0 L g' ∧ weight U g ≤ weight U g' ∧ (c = false → weight U g < weight U g') := by
  have hb : g[id]? = some g[id] := by simp [hid]
  generalize g[id] = b at hb
  have hid0 : id < g0.length := by rw [← h.len]; exact hid
  have hb0 : g0[id]? = some g0[id] := by simp [hid0]
  generalize g0[id] = b0 at hb0
  obtain ⟨e1, e2⟩ := h.same id b b0 hb hb0
  have hbm := List.mem_of_getElem? hb
  obtain ⟨n1, n2⟩ := h.neat b hbm
  obtain ⟨out, h1, h2, h3⟩ := unionSucc_neat g (fun b hb => (h.neat b hb).1) (HSet.elems b.succ) HMap.new pristine_new (by
    intro t ht
    obtain ⟨c, h5, h6⟩ := hg.succ id b0 hb0 t (by rw [← e2]; exact ht)
    have : t.toNat < g.length := by rw [h.len]; exact (List.getElem?_eq_some_iff.1 h6).1
    exact ⟨g[t.toNat], h5, by simp [this]⟩)
  have hnew : ∀ v : Int, v ∉ HSet.elems (HMap.new : ISet) := by
    have : HSet.elems (HMap.new : ISet) = [] := by decide
    simp [this]
  have h3' : ∀ v, v ∈ HSet.elems out ↔ ∃ t ∈ HSet.elems b.succ, ∃ c, g[t.toNat]? = some c ∧ v ∈ HSet.elems c.input := by
    intro v; rw [h3]
    exact ⟨fun h => h.resolve_left (hnew v), Or.inr⟩
  have hout : ∀ v ∈ HSet.elems out, ∃ t ∈ HSet.elems b.succ, L t.toNat v := by
    intro v hv
    obtain ⟨t, ht, c, hc, hvc⟩ := (h3' v).1 hv
    exact ⟨t, ht, h.inp _ c hc v hvc⟩
  obtain ⟨inp, h4, h5, h6⟩ := hg.run id b0 hb0 out h2 (by rw [← e2]; exact hout)
  rw [← e1] at h4 h6
  have og : ∀ v, v ∈ HSet.elems b.output → v ∈ HSet.elems out := fun v hv => (h3' v).2 (h.grow id b hb v hv)
  have ig : ∀ v, v ∈ HSet.elems b.input → v ∈ HSet.elems inp := fun v hv => (h6 v).2 (before_mono _ og v (h.ahead id b hb v hv))
  have hL : ∀ v ∈ HSet.elems inp, L id v := by
    intro v hv
    refine hg.back id b0 hb0 v ?_
    rw [← e1, ← e2]
    exact before_mono _ hout v ((h6 v).1 hv)
  obtain ⟨ci, h7, h8⟩ := equals_mem h5.inv n1.inv
  obtain ⟨co, h9, h10⟩ := equals_mem h2.neat.inv n2.inv
  have hget : ∀ (p : Nat) c, (g.set id { b with input := inp, output := out })[p]? = some c →
      (p = id ∧ c = { b with input := inp, output := out }) ∨ (p ≠ id ∧ g[p]? = some c) := by
    intro p c hp
    rw [List.getElem?_set] at hp
    split at hp
    · rename_i e; injection hp with hp; exact Or.inl ⟨e.symm, hp.symm⟩
    · rename_i e; exact Or.inr ⟨fun e' => e e'.symm, hp⟩
  -- inputs only grow
  have hup : ∀ (p : Nat) c v, g[p]? = some c → v ∈ HSet.elems c.input →
      ∃ c', (g.set id { b with input := inp, output := out })[p]? = some c' ∧ v ∈ HSet.elems c'.input := by
    intro p c v hc hv
    by_cases e : p = id
    · subst e
      rw [hb] at hc; cases hc
      exact ⟨{ b with input := inp, output := out }, by simp [hid], ig v hv⟩
    · exact ⟨c, by rw [List.getElem?_set, if_neg fun e' => e e'.symm]; exact hc, hv⟩
  have hw := sum_set (load U) g id b { b with input := inp, output := out } hb
  have hld : load U b ≤ load U { b with input := inp, output := out } := by
    unfold load; exact Nat.add_le_add (cnt_mono U ig) (cnt_mono U og)
  refine ⟨g.set id { b with input := inp, output := out }, ci && co, ?_, ?_, ?_, ?_⟩
  · unfold updateFlow
    rw [hb]
    dsimp only
    rw [h1, Out.ok_bind, h4, Out.ok_bind, h7, Out.ok_bind, h9, Out.ok_bind]
    rfl
  · refine ⟨by simp [h.len], ?_, ?_, ?_, ?_, ?_, ?_⟩
    · intro p c c0 hp hp0
      rcases hget p c hp with ⟨rfl, rfl⟩ | ⟨_, hp⟩
      · rw [hb0] at hp0; cases hp0; exact ⟨e1, e2⟩
      · exact h.same p c c0 hp hp0
    · intro c hc
      obtain ⟨p, hp⟩ := List.mem_iff_getElem?.1 hc
      rcases hget p c hp with ⟨rfl, rfl⟩ | ⟨_, hp⟩
      · exact ⟨h5, h2.neat⟩
      · exact h.neat c (List.mem_of_getElem? hp)
    · intro p c hp v hv
      rcases hget p c hp with ⟨rfl, rfl⟩ | ⟨_, hp⟩
      · exact hL v hv
      · exact h.inp p c hp v hv
    · intro p c hp v hv
      rcases hget p c hp with ⟨rfl, rfl⟩ | ⟨_, hp⟩
      · exact hout v hv
      · exact h.out p c hp v hv
    · intro p c hp v hv
      have : ∃ t ∈ HSet.elems c.succ, ∃ d, g[t.toNat]? = some d ∧ v ∈ HSet.elems d.input := by
        rcases hget p c hp with ⟨rfl, rfl⟩ | ⟨_, hp⟩
        · exact (h3' v).1 hv
        · exact h.grow p c hp v hv
      obtain ⟨t, ht, d, hd, hvd⟩ := this
      exact ⟨t, ht, hup _ d v hd hvd⟩
    · intro p c hp v hv
      rcases hget p c hp with ⟨rfl, rfl⟩ | ⟨_, hp⟩
      · exact (h6 v).1 hv
      · exact h.ahead p c hp v hv
  · unfold weight; omega
  · intro hc
    have : load U b < load U { b with input := inp, output := out } := by
      unfold load
      rw [Bool.and_eq_false_iff] at hc
      rcases hc with hc | hc
      · have : ∃ v, v ∈ HSet.elems inp ∧ v ∉ HSet.elems b.input := by
          apply Classical.byContradiction
          intro hno
          have := h8.2 fun v => ⟨fun hv => Classical.byContradiction fun hn => hno ⟨v, hv, hn⟩, ig v⟩
          rw [hc] at this; cases this
        obtain ⟨v, hv, hn⟩ := this
        exact Nat.add_lt_add_of_lt_of_le (cnt_lt U ig v (hg.fin _ _ (hL v hv)) hv hn) (cnt_mono U og)
      · have : ∃ v, v ∈ HSet.elems out ∧ v ∉ HSet.elems b.output := by
          apply Classical.byContradiction
          intro hno
          have := h10.2 fun v => ⟨fun hv => Classical.byContradiction fun hn => hno ⟨v, hv, hn⟩, og v⟩
          rw [hc] at this; cases this
        obtain ⟨v, hv, hn⟩ := this
        obtain ⟨t, _, ht⟩ := hout v hv
        exact Nat.add_lt_add_of_le_of_lt (cnt_mono U ig) (cnt_lt U og v (hg.fin _ _ ht) hv hn)
    unfold weight; omega

theorem flowPass_going {g0 : List Block} {L : Nat → Int → Prop} {U : List Int} (hg : Ground g0 L U) : ∀ (n : Nat) (g : List Block) (term : Bool), Going g0 L g → n ≤ g.length →
    ∃ g' t, flowPass g term n = .ok (g', t) ∧ Going g0 L g' ∧ weight U g ≤ weight U g' ∧ (t = false → term = true → weight U g < weight U g') := by
  intro n
  induction n with
  | zero => intro g term h _; exact ⟨g, term, rfl, h, Nat.le_refl _, fun e e' => by rw [e] at e'; cases e'⟩
  | succ n ih =>
    intro g term h hn
    obtain ⟨g1, c, h1, h2, h3, h4⟩ := updateFlow_going hg h (id := n) (by omega)
    obtain ⟨g2, t, h5, h6, h7, h8⟩ := ih g1 (term && c) h2 (by rw [h2.len, ← h.len]; omega)
    refine ⟨g2, t, by simp [flowPass, h1, h5], h6, by omega, ?_⟩
    intro ht hterm
    cases c with
    | false => have := h4 rfl; omega
    | true => have := h8 ht (by simp [hterm]); omega

theorem analyzeFlow_going {g0 : List Block} {L : Nat → Int → Prop} {U : List Int} (hg : Ground g0 L U) : ∀ (fuel : Nat) (g : List Block), Going g0 L g →
    g0.length * (2 * U.length) < weight U g + fuel → ∃ g', analyzeFlow g fuel = .ok g' ∧ Going g0 L g' := by
  intro fuel
  induction fuel with
  | zero =>
    intro g h hf
    have := weight_le U g
    rw [h.len] at this; omega
  | succ fuel ih =>
    intro g h hf
    obtain ⟨g1, t, h1, h2, h3, h4⟩ := flowPass_going hg g.length g true h (Nat.le_refl _)
    cases t with
    | true => exact ⟨g1, by simp [analyzeFlow, h1], h2⟩
    | false =>
      have := h4 rfl rfl
      obtain ⟨g2, h5, h6⟩ := ih g1 h2 (by omega)
      exact ⟨g2, by simp [analyzeFlow, h1, h5], h6⟩

end Regalloc
end Umlcc
