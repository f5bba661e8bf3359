import Verif.Lemma.RegCheck
import Verif.Spec.FlowSets
/-! A table-driven checker for the hypotheses of C72, used for concrete code. -/
namespace Umlcc
namespace RSpec

/-- one backward pass over a table of live registers -/
def refine (code : List Immc) (t : List (List Int)) : List (List Int) :=
  (List.range code.length).map fun i => match code[i]? with
    | some x => (reads x ++ (succs code i).flatMap fun j => (tab t j).filter fun u => decide (writes x ≠ some u)).eraseDups
    | none => []

/-- the table after `n` passes -/
def liveTab (code : List Immc) : Nat → List (List Int)
  | 0 => []
  | n + 1 => refine code (liveTab code n)

def deadAfter (code : List Immc) (t : List (List Int)) (i : Nat) : Bool := (succs code i).all fun j => decide (tab t j = [])

theorem deadAfter_dead {code : List Immc} {t : List (List Int)} (h : tableOk code t = true) {i : Nat} (hd : deadAfter code t i = true) (v : Int) :
    ¬ LiveOut code v i := by
  rintro ⟨j, hs, hl⟩
  have := of_decide_eq_true ((List.all_eq_true.1 hd) j (succ_mem hs))
  have hm := tableOk_live h hl
  rw [this] at hm; simp at hm

def lastOk (code : List Immc) (t : List (List Int)) (i : Nat) (x : Immc) : Bool :=
  decide (reads x).Nodup && (reads x).all fun v => decide (writes x = some v) || (succs code i).all fun j => !(tab t j).contains v

theorem lastOk_last {code : List Immc} {t : List (List Int)} (h : tableOk code t = true) {i : Nat} {x : Immc} (hl : lastOk code t i x = true) :
    LastRead code i x := by
  unfold lastOk at hl
  rw [Bool.and_eq_true] at hl
  refine ⟨of_decide_eq_true hl.1, ?_⟩
  rintro v hv hw ⟨j, hs, hlv⟩
  have := (List.all_eq_true.1 hl.2) v hv
  rw [Bool.or_eq_true] at this
  rcases this with h1 | h1
  · exact hw (of_decide_eq_true h1)
  · have h2 := (List.all_eq_true.1 h1) j (succ_mem hs)
    simp at h2
    exact h2 (tableOk_live h hlv)

def stepOk (code : List Immc) (k : Nat) : Bool :=
  match code[k]?, code[k + 1]? with
  | some x, some y => !x.isJump && !y.isLabel
  | _, _ => true

def nearOk (code : List Immc) (w : Int) (k : Nat) : Bool :=
  match code[k]? with
  | some x => (reads x).all fun v => decide (w ≤ v ∧ v ≤ w + 2)
  | none => true

def stretchOk (code : List Immc) (t : List (List Int)) (i n : Nat) (w : Int) : Bool :=
  decide (i ≤ n) && decide (n < code.length) && decide (0 ≤ w) && deadAfter code t n &&
    ((List.range n).all fun k => decide (k < i) || stepOk code k) && (List.range (n + 1)).all fun k => decide (k < i) || nearOk code w k

theorem stretchOk_short {code : List Immc} {t : List (List Int)} (h : tableOk code t = true) {i n : Nat} {w : Int}
    (hs : stretchOk code t i n w = true) : Short code i := by
  unfold stretchOk at hs
  simp only [Bool.and_eq_true, decide_eq_true_eq] at hs
  obtain ⟨⟨⟨⟨⟨h1, h2⟩, h3⟩, h4⟩, h5⟩, h6⟩ := hs
  refine ⟨n, w, h1, h2, h3, deadAfter_dead h h4, ?_, ?_⟩
  · intro k x y hk hkn hx hy
    have := (List.all_eq_true.1 h5) k (List.mem_range.2 hkn)
    rw [Bool.or_eq_true] at this
    rcases this with h7 | h7
    · have := of_decide_eq_true h7; omega
    · simp only [stepOk, hx, hy, Bool.and_eq_true] at h7
      simpa using h7
  · intro k x v hk hkn hx hv
    have := (List.all_eq_true.1 h6) k (List.mem_range.2 (by omega))
    rw [Bool.or_eq_true] at this
    rcases this with h7 | h7
    · have := of_decide_eq_true h7; omega
    · simp only [nearOk, hx] at h7
      exact of_decide_eq_true ((List.all_eq_true.1 h7) v hv)

def orderOk (code : List Immc) (t : List (List Int)) : Bool :=
  (List.range code.length).all fun i => match code[i]? with
    | some x => lastOk code t i x || (x.isJump && decide (writes x = none)) || (List.range 8).any fun d => (reads x).any fun w => stretchOk code t i (i + d) w
    | none => true

theorem orderOk_orderly {code : List Immc} {t : List (List Int)} (h : tableOk code t = true) (ho : orderOk code t = true) : Orderly code := by
  intro i x hx
  have := (List.all_eq_true.1 ho) i (List.mem_range.2 (List.getElem?_eq_some_iff.1 hx).1)
  simp only [hx, Bool.or_eq_true] at this
  rcases this with (h1 | h1) | h1
  · exact Or.inl (lastOk_last h h1)
  · rw [Bool.and_eq_true] at h1
    exact Or.inr (Or.inr ⟨h1.1, of_decide_eq_true h1.2⟩)
  · rw [List.any_eq_true] at h1
    obtain ⟨d, _, h2⟩ := h1
    rw [List.any_eq_true] at h2
    obtain ⟨w, _, h3⟩ := h2
    exact Or.inr (Or.inl (stretchOk_short h h3))

def jumpsOk (code : List Immc) : Bool :=
  code.all fun x => !x.isJump || match target x with
    | some n => code.any (isLabelNamed n)
    | none => false

theorem jumpsOk_find {code : List Immc} (h : jumpsOk code = true) : JumpsFind code := by
  intro x hx hj
  have := (List.all_eq_true.1 h) x hx
  rw [hj] at this
  simp only [Bool.not_true, Bool.false_or] at this
  split at this
  · rename_i n ht
    rw [List.any_eq_true] at this
    obtain ⟨y, h1, h2⟩ := this
    exact ⟨n, y, ht, h1, h2⟩
  · cases this

def knownOk (code : List Immc) : Bool := code.all fun x => x.isJump || decide (target x = none)

theorem knownOk_known {code : List Immc} (h : knownOk code = true) : KnownBranches code := by
  intro x hx ht
  have := (List.all_eq_true.1 h) x hx
  rw [Bool.or_eq_true] at this
  rcases this with h1 | h1
  · exact h1
  · exact absurd (of_decide_eq_true h1) ht

def natOk (code : List Immc) : Bool := code.all fun x => match writes x with | some v => decide (0 ≤ v) | none => true

theorem natOk_natural {code : List Immc} (h : natOk code = true) : NaturalRegs code := by
  intro x hx v hv
  have := (List.all_eq_true.1 h) x hx
  simp only [hv] at this
  exact of_decide_eq_true this

/-- everything C72 asks of code -/
def flowOk (code : List Immc) : Bool :=
  let t := liveTab code 9
  (match code.getLast? with | some x => !x.isLabel | none => true) && jumpsOk code && uniqueOk code && knownOk code && natOk code &&
    tableOk code t && orderOk code t && defOk code t

theorem flowOk_all {code : List Immc} (h : flowOk code = true) : (∀ x, code.getLast? = some x → x.isLabel = false) ∧ JumpsFind code ∧
    UniqueLabels code ∧ KnownBranches code ∧ NaturalRegs code ∧ Orderly code ∧ DefBefore code := by
  unfold flowOk at h
  simp only [Bool.and_eq_true] at h
  obtain ⟨⟨⟨⟨⟨⟨⟨h1, h2⟩, h3⟩, h4⟩, h5⟩, h6⟩, h7⟩, h8⟩ := h
  refine ⟨?_, jumpsOk_find h2, uniqueOk_unique h3, knownOk_known h4, natOk_natural h5, orderOk_orderly h6 h7, defOk_before h6 h8⟩
  intro x hx
  rw [hx] at h1
  simpa using h1

end RSpec
end Umlcc
