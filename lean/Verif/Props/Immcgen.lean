import Verif.Lemma.GenLabelUnit
/-!
C32: labels of generated intermediate code.
-/
namespace Umlcc
namespace Gen
open RSpec (target isLabelNamed UniqueLabels)
open Flow

/-- C32: in the code of a function each label occurs once, and the label of each jump occurs. Preconditions: every `break` and `continue` of the body
belongs to a loop or `switch` in it (the resolver refuses others, C56), the function's name does not begin with a dot, and the label counter is not below its
initial value. -/
theorem C32_labels (n : Str) (t : DType) (b : SItems) (s s' : GState) (code : List Immc) (h : funcCode n t b s = .ok ((), code, s'))
    (hc : freeConts b = false) (hb : freeBrks b = false) (hn : n.head? ≠ some 46) (hl : -1 ≤ s.lab) :
    UniqueLabels code ∧ ∀ x ∈ code, ∀ m, target x = some m → ∃ y ∈ code, isLabelNamed m y = true := by
  obtain ⟨name, is, hm, h1, h2, h3, h4, -⟩ := funcCode_labels h hc hb
  constructor
  · refine unique_of_nodup ?_
    rw [h1]
    exact defs_nodup (hm ▸ hn) hl h2 fun i hi => (h3 i hi).1
  · intro x hx m ht
    obtain ⟨i, hi, rfl⟩ := h4 m (List.mem_filterMap.2 ⟨x, hx, ht⟩)
    refine mem_defs.1 ?_
    rw [h1]
    exact List.mem_cons_of_mem _ (List.mem_map_of_mem hi)

/-- `int f(void) { while (1) { switch (2) { case 1: break; default: if (3) continue; else ; } if (4) break; } return 5 ? 6 || 7 : 8; }` -/
def labelSample : SItems :=
  let n (k : Int) : SExpr := .ilit .int ⟨.int, k⟩
  .cons (.stmt (.while (n 1) (.cmpd (.cons (.stmt (.switch (n 2) (.cmpd (.cons (.stmt (.case (n 1) .brk)) (.cons (.stmt (.dflt (.itee (n 3) .cont .null))) .nil)))))
    (.cons (.stmt (.ite (n 4) .brk)) .nil)))))
  (.cons (.stmt (.ret (some (.cond .int (n 5) (.bin .lor .int (n 6) (n 7)) (n 8))))) .nil)

example : ∃ code s', funcCode [102] (.func .nil .int) labelSample initial = .ok ((), code, s') ∧ (defs code).length = 13 ∧
    freeConts labelSample = false ∧ freeBrks labelSample = false := by
  exact ⟨_, _, rfl, by decide, by decide, by decide⟩

/-- labels with a number -/
def numbered (m : Name) : Prop := ∃ i : Int, 0 ≤ i ∧ m = labelName i

/-- C32 for the whole output: a numbered label is defined at most once in all functions together (the assembler sees them in one file), and every jump's label is
defined. Preconditions as above. -/
theorem C32_unit (u : List SExt) (hu : ∀ x ∈ u, plainExt x) (code : List Immc) (h : generate u = .ok code) :
    (∀ (i j : Nat) m x y, numbered m → code[i]? = some x → code[j]? = some y → isLabelNamed m x = true → isLabelNamed m y = true → i = j) ∧
    ∀ x ∈ code, ∀ m, target x = some m → ∃ y ∈ code, isLabelNamed m y = true := by
  have hg : ∃ s', unit u initial = .ok ((), code, s') := by
    unfold generate at h
    split at h <;> simp at h
    rename_i c s' hs
    exact ⟨s', by rw [hs, h]⟩
  obtain ⟨s', hs⟩ := hg
  obtain ⟨h1, h2, h3⟩ := unit_good hu (by decide) hs
  constructor
  · rintro i j m x y ⟨k, hk, rfl⟩ hi hj hx hy
    refine unique_of_count ?_ hi hj hx hy
    have := h2 k hk
    split at this <;> omega
  · intro x hx m ht
    exact mem_defs.1 (h3 m (List.mem_filterMap.2 ⟨x, hx, ht⟩))

/-- two functions, a string and a variable -/
def unitSample : List SExt :=
  [.decls [⟨.str 0, .arr .char 2, some (.str (.arr .char 2) [97, 0])⟩, ⟨.ident [120], .int, some (.expr (.ilit .int ⟨.int, 3⟩))⟩],
   .func [102] (.func .nil .int) labelSample, .func [103] (.func .nil .int) labelSample]
example : (match generate unitSample with | .ok code => (defs code).length | _ => 0) = 28 := by decide +kernel
example : ∀ x ∈ unitSample, plainExt x := by
  intro x hx
  simp only [unitSample, List.mem_cons, List.not_mem_nil, or_false] at hx
  rcases hx with rfl | rfl | rfl
  · simp [plainExt, plainWho]
  · exact ⟨by decide, by decide, by decide⟩
  · exact ⟨by decide, by decide, by decide⟩

end Gen
end Umlcc
