import Verif.Lemma.SymTab
/-! Property theorems C24 (scoping), C25 (locals disjoint), C26 (locals aligned). -/
namespace Umlcc
open ScopeSpec

/-- C24 (lookup). After any well-bracketed history of enter/exit/define calls: each define succeeded exactly when
the innermost scope did not declare the name yet, and searching any name gives the declaration of the innermost
open scope declaring it. -/
theorem C24_names_resolve_innermost (os : List SOp) (hw : wellBracketed 0 os = true) :
    ∃ t rs, SymTab.run SymTab.new os = .ok (t, rs) ∧
      rs.map (·.isSome) = (ScopeSpec.run [[]] os).2 ∧
      ∀ n, ∃ r, SymTab.search t n = .ok r ∧ r.map declOf = visible (ScopeSpec.run [[]] os).1 n := by
  obtain ⟨t, rs, h1, h2, h3⟩ := SymTab.run_rel os SymTab.new [[]] 0 (.cons (SymTab.rel_new 0) .nil) (by simp) hw
  exact ⟨t, rs, h1, h3, SymTab.search_rel h2⟩

/-- C24 (restore). Entering a scope, running any balanced history inside and leaving it makes exactly the same
declarations visible as before. -/
theorem C24_leaving_restores (os body : List SOp) (hw : wellBracketed 0 os = true) (hb : balanced 0 body = true) :
    ∃ t rs t' rs', SymTab.run SymTab.new os = .ok (t, rs) ∧
      SymTab.run SymTab.new (os ++ (.enter :: body ++ [.exit])) = .ok (t', rs') ∧
      ∀ n, ∃ r r', SymTab.search t n = .ok r ∧ SymTab.search t' n = .ok r' ∧ r'.map declOf = r.map declOf := by
  have hbw : ∀ (b rest : List SOp) (d e : Nat), balanced d b = true → wellBracketed e rest = true →
      wellBracketed (d + e) (b ++ rest) = true := by
    intro b
    induction b with
    | nil => intro rest d e hb hr; simp [balanced] at hb; subst hb; simpa using hr
    | cons o b ih =>
      intro rest d e hb hr
      rcases SymTab.bal_cons hb with ⟨rfl, hw⟩ | ⟨rfl, d', rfl, hw⟩ | ⟨ho1, ho2, hw⟩
      · have := ih rest (d + 1) e hw hr
        simp only [List.cons_append, wellBracketed]
        rw [show d + e + 1 = d + 1 + e by omega]; exact this
      · have := ih rest d' e hw hr
        rw [show d' + 1 + e = (d' + e) + 1 by omega]
        simpa [List.cons_append, wellBracketed] using this
      · have := ih rest d e hw hr
        cases o <;> simp_all [wellBracketed]
  have hwapp : ∀ (a b : List SOp) (d : Nat), wellBracketed d a = true →
      (∀ e, wellBracketed e b = true) → wellBracketed d (a ++ b) = true := by
    intro a
    induction a with
    | nil => intro b d _ h; exact h d
    | cons o a ih =>
      intro b d ha h
      rcases SymTab.wb_cons ha with ⟨rfl, hw⟩ | ⟨rfl, d', rfl, hw⟩ | ⟨ho1, ho2, hw⟩
      · simpa [wellBracketed] using ih b _ hw h
      · simpa [wellBracketed] using ih b _ hw h
      · have := ih b _ hw h
        cases o <;> simp_all [wellBracketed]
  have hw2 : wellBracketed 0 (os ++ (.enter :: body ++ [.exit])) = true := by
    apply hwapp os _ 0 hw
    intro e
    simp only [List.cons_append, wellBracketed]
    have := hbw body [.exit] 0 (e + 1) hb (by simp [wellBracketed])
    simpa using this
  obtain ⟨t, rs, h1, h2, h3⟩ := SymTab.run_rel os SymTab.new [[]] 0 (.cons (SymTab.rel_new 0) .nil) (by simp) hw
  obtain ⟨t', rs', h1', h2', h3'⟩ := SymTab.run_rel _ SymTab.new [[]] 0 (.cons (SymTab.rel_new 0) .nil) (by simp) hw2
  refine ⟨t, rs, t', rs', h1, h1', fun n => ?_⟩
  obtain ⟨r, h4, h5⟩ := SymTab.search_rel h2 n
  obtain ⟨r', h4', h5'⟩ := SymTab.search_rel h2' n
  refine ⟨r, r', h4, h4', ?_⟩
  rw [h5, h5']
  rw [SymTab.spec_run_append]
  have : ∀ st : Stack, (ScopeSpec.run st (.enter :: body ++ [.exit])).1 = st := by
    intro st
    rw [SymTab.spec_run_append]
    simp only [ScopeSpec.run, ScopeSpec.step]
    have := SymTab.spec_balanced body ([] :: st) 0 (by simp) hb
    simpa using this.1
  rw [this]

/-- names for the examples -/
def nameX : Name := ⟨[0x78], by decide⟩
def nameY : Name := ⟨[0x79], by decide⟩

example : wellBracketed 0 [.label nameX .int, .enter, .mem nameX .char, .mem nameX .int, .enter, .int nameY .int 3, .exit] = true ∧
    (ScopeSpec.run [[]] [.label nameX .int, .enter, .mem nameX .char, .mem nameX .int, .enter, .int nameY .int 3, .exit]).2
      = [true, false, true, false, false, true, false] ∧
    visible (ScopeSpec.run [[]] [.label nameX .int, .enter, .mem nameX .char]).1 nameX = some (.mem .char) ∧
    balanced 0 [.mem nameX .char, .enter, .mem nameX .int, .exit] = true := by decide

/-- The table at the start of a function body: a fresh scope with its memory counter set to 0
(resolver/external.c:132-133, immcgen/external.c:26-27). -/
def functionScope (outer : SymTab) : SymTab := ⟨HMap.new, 0⟩ :: outer

/-- memory objects defined by a history, as (frame offset, size) in order; an object at offset `o` of size `s`
occupies the bytes `rbp - o, ..., rbp - o + s - 1` -/
def frameObjects (rs : List (Option Symbol)) : List (Nat × Nat) :=
  rs.filterMap fun r => match r with
    | some ⟨.mem o, ty⟩ => some (o, ty.nbytes)
    | _ => none

/-- byte `b` below the frame pointer (address `rbp - b`) belongs to the object -/
def occupies (p : Nat × Nat) (b : Nat) : Prop := b ≤ p.1 ∧ p.1 < b + p.2

/-- C25. In every function body (any balanced history of scopes and declarations, whatever was declared outside),
no byte belongs to two different memory objects and every byte of every object lies in the frame whose size is the
counter at the end of the body (the operand of ENTER, immcgen/external.c:54). -/
theorem C25_locals_disjoint (outer : SymTab) (body : List SOp) (hb : wellBracketed 0 body = true) (t' : SymTab)
    (rs : List (Option Symbol)) (hrun : SymTab.run (functionScope outer) body = .ok (t', rs)) :
    (∀ (i j : Nat) p q b, i ≠ j → (frameObjects rs)[i]? = some p → (frameObjects rs)[j]? = some q →
      occupies p b → ¬ occupies q b) ∧
    (∀ p ∈ frameObjects rs, ∀ b, occupies p b → 1 ≤ b ∧ ∃ s ss, t' = s :: ss ∧ b ≤ s.mem) := by
  obtain ⟨h1, h2, h3⟩ := SymTab.run_mem body (functionScope outer) t' rs 0 (by simp [functionScope]) hb hrun
  have h3' : (frameObjects rs).Pairwise (fun p q => p.1 + q.2 ≤ q.1) := h3
  have h2' : ∀ p ∈ frameObjects rs, SymTab.top (functionScope outer) + p.2 ≤ p.1 ∧ p.1 ≤ SymTab.top t' ∧ 4 ∣ p.1 := h2
  constructor
  · intro i j p q b hij hi hj ho ho'
    rw [List.getElem?_eq_some_iff] at hi hj
    obtain ⟨hi1, hi2⟩ := hi
    obtain ⟨hj1, hj2⟩ := hj
    rw [List.pairwise_iff_getElem] at h3'
    unfold occupies at ho ho'
    rcases Nat.lt_or_gt_of_ne hij with h | h
    · have := h3' i j hi1 hj1 h; rw [hi2, hj2] at this; omega
    · have := h3' j i hj1 hi1 h; rw [hi2, hj2] at this; omega
  · intro p hp b hb
    obtain ⟨h4, h5, _⟩ := h2' p hp
    have hz : SymTab.top (functionScope outer) = 0 := rfl
    unfold occupies at hb
    cases t' with
    | nil => simp only [SymTab.top] at h5; omega
    | cons s ss => exact ⟨by omega, s, ss, rfl, by simp only [SymTab.top] at h5; omega⟩

/-- such runs exist: two blocks one after the other and nested -/
example : ∃ t rs, SymTab.run (functionScope []) [.mem nameX .char, .enter, .mem nameX .long, .exit, .enter, .mem nameX (.arr .int 3), .exit]
    = .ok (t, rs) ∧ frameObjects rs = [(4, 1), (12, 8), (24, 12)] := ⟨_, _, rfl, by decide⟩

/-- C26 restricted to alignments 1 and 4. Missing for the full claim: offsets are only rounded to 4, so objects
aligned to 8 may be misaligned (violated, next theorem). -/
theorem C26_locals_aligned_partial (outer : SymTab) (body : List SOp) (hb : wellBracketed 0 body = true) (t' : SymTab)
    (rs : List (Option Symbol)) (hrun : SymTab.run (functionScope outer) body = .ok (t', rs)) :
    ∀ o ty, some (Symbol.mk (.mem o) ty) ∈ rs → ty.alignment = 1 ∨ ty.alignment = 4 → ty.alignment ∣ o := by
  obtain ⟨h1, h2, h3⟩ := SymTab.run_mem body (functionScope outer) t' rs 0 (by simp [functionScope]) hb hrun
  intro o ty hm ha
  have := (h2 (o, ty.nbytes) (by
    simp only [SymTab.memDefs, List.mem_filterMap]
    exact ⟨_, hm, rfl⟩)).2.2
  rcases ha with h | h <;> rw [h]
  · exact Nat.one_dvd _
  · exact this

/-- C26, witness of the violation: `char x; long y;` puts y at rbp-12. -/
theorem C26_locals_aligned_violated : ∃ t rs o ty,
    SymTab.run (functionScope []) [.mem nameX .char, .mem nameY .long] = .ok (t, rs) ∧
    some (Symbol.mk (.mem o) ty) ∈ rs ∧ ty.alignment = 8 ∧ ¬ ty.alignment ∣ o :=
  ⟨_, _, 12, .long, rfl, by decide, by decide, by decide⟩

end Umlcc
