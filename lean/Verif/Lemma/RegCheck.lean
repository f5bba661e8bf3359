import Verif.Spec.Regalloc
/-! A table-driven checker for the hypotheses of the allocation theorems, used for concrete code. -/
namespace Umlcc
namespace RSpec

def isJmp : Immc → Bool
  | .inst i => decide (i.op = .jmp)
  | _ => false

def labelAt (code : List Immc) (n : Name) (j : Nat) : Bool :=
  match code[j]? with
  | some y => isLabelNamed n y
  | none => false

def succs (code : List Immc) (i : Nat) : List Nat :=
  match code[i]? with
  | none => []
  | some x => (if isJmp x then [] else [i + 1]) ++
    (match target x with
    | none => []
    | some n => (List.range code.length).filter (labelAt code n))

theorem succ_mem {code : List Immc} {i j : Nat} (h : Succ code i j) : j ∈ succs code i := by
  obtain ⟨x, hx, hc⟩ := h
  simp only [succs, hx, List.mem_append]
  rcases hc with ⟨rfl, hn⟩ | ⟨n, y, ht, hy, hl⟩
  · left
    have : isJmp x = false := by
      cases x with
      | inst i0 =>
        obtain ⟨op, d, f, s⟩ := i0
        simp only [isJmp, decide_eq_false_iff_not]
        rintro rfl; exact hn d f s rfl
      | data _ => rfl
      | label _ _ _ => rfl
    simp [this]
  · right
    rw [ht]
    simp only [List.mem_filter, List.mem_range]
    exact ⟨(List.getElem?_eq_some_iff.1 hy).1, by simp [labelAt, hy, hl]⟩

/-- registers the table claims live before line `i` -/
def tab (t : List (List Int)) (i : Nat) : List Int := (t[i]?).getD []

def lineOk (code : List Immc) (t : List (List Int)) (i : Nat) : Bool :=
  match code[i]? with
  | none => true
  | some x => (reads x).all (fun u => decide (u ∈ tab t i)) &&
    (succs code i).all fun j => (tab t j).all fun u => decide (writes x = some u) || decide (u ∈ tab t i)

def tableOk (code : List Immc) (t : List (List Int)) : Bool := (List.range code.length).all (lineOk code t)

theorem tableOk_live {code : List Immc} {t : List (List Int)} (h : tableOk code t = true) {u : Int} {i : Nat}
    (hl : LiveIn code u i) : u ∈ tab t i := by
  have line : ∀ (i : Nat) x, code[i]? = some x → lineOk code t i = true := by
    intro i x hx
    have := (List.getElem?_eq_some_iff.1 hx).1
    exact (List.all_eq_true.1 h) i (List.mem_range.2 this)
  induction hl with
  | @read i x hx hr =>
    have := line i x hx
    simp only [lineOk, hx, Bool.and_eq_true] at this
    simpa using (List.all_eq_true.1 this.1) u hr
  | @thru i j x hx hw hs _ ih =>
    have := line i x hx
    simp only [lineOk, hx, Bool.and_eq_true] at this
    have := (List.all_eq_true.1 ((List.all_eq_true.1 this.2) j (succ_mem hs))) u ih
    simp at this
    rcases this with h1 | h1
    · exact absurd h1 hw
    · exact h1

def backOk (code : List Immc) (t : List (List Int)) : Bool :=
  (List.range code.length).all fun i => (succs code i).all fun j => decide (i < j) || decide (tab t j = [])

theorem backOk_dead {code : List Immc} {t : List (List Int)} (h : tableOk code t = true) (hb : backOk code t = true) : BackDead code := by
  intro i j u hs hji hl
  have hi : i < code.length := by obtain ⟨x, hx, _⟩ := hs; exact (List.getElem?_eq_some_iff.1 hx).1
  have := (List.all_eq_true.1 ((List.all_eq_true.1 hb) i (List.mem_range.2 hi))) j (succ_mem hs)
  simp at this
  rcases this with h1 | h1
  · omega
  · have := tableOk_live h hl; rw [h1] at this; simp at this

def writesAt (code : List Immc) (u : Int) (k : Nat) : Bool :=
  match code[k]? with
  | some x => decide (writes x = some u)
  | none => false

def readsAt (code : List Immc) (u : Int) (k : Nat) : Bool :=
  match code[k]? with
  | some x => decide (u ∈ reads x)
  | none => false

def defOk (code : List Immc) (t : List (List Int)) : Bool :=
  (List.range code.length).all fun i => (tab t i).all fun u => (List.range i).any (writesAt code u)

theorem LiveIn.lt {code : List Immc} {u : Int} {i : Nat} (h : LiveIn code u i) : i < code.length := by
  cases h with
  | read h _ => exact (List.getElem?_eq_some_iff.1 h).1
  | thru h _ _ _ => exact (List.getElem?_eq_some_iff.1 h).1

theorem defOk_before {code : List Immc} {t : List (List Int)} (h : tableOk code t = true) (hd : defOk code t = true) : DefBefore code := by
  intro i u hl
  have := (List.all_eq_true.1 ((List.all_eq_true.1 hd) i (List.mem_range.2 hl.lt))) u (tableOk_live h hl)
  rw [List.any_eq_true] at this
  obtain ⟨k, hk, hw⟩ := this
  unfold writesAt at hw
  split at hw
  · rename_i x hx
    exact ⟨k, x, List.mem_range.1 hk, hx, by simpa using hw⟩
  · simp at hw

def lowerBefore (code : List Immc) (v : Int) (k : Nat) : Bool :=
  match code[k]? with
  | some x => match writes x with
    | some w => decide (w < v)
    | none => true
  | none => true

def matterLine (code : List Immc) (t : List (List Int)) (i : Nat) : Bool :=
  match code[i]? with
  | none => true
  | some x => match writes x with
    | none => true
    | some v => (List.range i).all (lowerBefore code v) || (List.range code.length).any (fun k => decide (i ≤ k) && readsAt code v k) ||
        (succs code i).all fun j => (tab t j).all fun u => decide (u = v)

def matterOk (code : List Immc) (t : List (List Int)) : Bool := (List.range code.length).all (matterLine code t)

theorem matterOk_matter {code : List Immc} {t : List (List Int)} (h : tableOk code t = true) (hm : matterOk code t = true) : WritesMatter code := by
  intro i x v hx hw
  have := (List.all_eq_true.1 hm) i (List.mem_range.2 (List.getElem?_eq_some_iff.1 hx).1)
  simp only [matterLine, hx, hw, Bool.or_eq_true] at this
  rcases this with (h1 | h1) | h1
  · left
    intro k y w hk hy hwy
    have := (List.all_eq_true.1 h1) k (List.mem_range.2 hk)
    simpa [lowerBefore, hy, hwy] using this
  · right; left
    rw [List.any_eq_true] at h1
    obtain ⟨k, _, h2⟩ := h1
    simp at h2
    obtain ⟨h3, h4⟩ := h2
    unfold readsAt at h4
    split at h4
    · rename_i y hy; exact ⟨k, y, h3, hy, by simpa using h4⟩
    · simp at h4
  · right; right
    rintro u hne ⟨j, hs, hl⟩
    have := (List.all_eq_true.1 ((List.all_eq_true.1 h1) j (succ_mem hs))) u (tableOk_live h hl)
    simp at this
    exact hne this

def uniqueOk (code : List Immc) : Bool :=
  (List.range code.length).all fun i => (List.range code.length).all fun j =>
    match code[i]?, code[j]? with
    | some (.label _ _ n), some (.label _ _ m) => decide (n = m → i = j)
    | _, _ => true

theorem uniqueOk_unique {code : List Immc} (h : uniqueOk code = true) : UniqueLabels code := by
  intro i j n x y hx hy hnx hny
  have := (List.all_eq_true.1 ((List.all_eq_true.1 h) i (List.mem_range.2 (List.getElem?_eq_some_iff.1 hx).1))) j
    (List.mem_range.2 (List.getElem?_eq_some_iff.1 hy).1)
  cases x with
  | label a b c =>
    cases y with
    | label a' b' c' =>
      simp [isLabelNamed] at hnx hny
      subst hnx hny
      simpa [hx, hy] using this
    | _ => simp [isLabelNamed] at hny
  | _ => simp [isLabelNamed] at hnx

end RSpec
end Umlcc
