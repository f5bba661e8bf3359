import Verif.Props.Map
import Verif.Model.Lexer
/-! The hash maps and sets of the lexer answer like the tables they are built from (helper lemmas). -/
namespace Umlcc
namespace Lexer

theorem lookup_adds {K V : Type} [DecidableEq K] [BEq K] [LawfulBEq K] (k : K) : ∀ (tbl : List (K × V)) (cur : Option V), (tbl.map (·.1)).Nodup →
    MSpec.after k cur (tbl.map fun e => MOp.add e.1 e.2) = (match tbl.lookup k with | some v => some v | none => cur) := by
  intro tbl
  induction tbl with
  | nil => intro cur _; rfl
  | cons a as ih =>
    obtain ⟨a1, a2⟩ := a
    intro cur hnd
    rw [List.map_cons, List.nodup_cons] at hnd
    simp only [List.map_cons, MSpec.after]
    rw [ih _ hnd.2]
    by_cases e : a1 = k
    · subst e
      have hno : as.lookup a1 = none := by
        rw [List.lookup_eq_none_iff]
        intro p hp
        have : a1 ≠ p.1 := fun e => hnd.1 (List.mem_map.2 ⟨p, hp, e.symm⟩)
        simpa using this
      simp [hno]
    · simp only [if_neg e, List.lookup_cons]
      have : (k == a1) = false := by simpa using fun h => e h.symm
      rw [this]

theorem calm_adds {K V : Type} [DecidableEq K] (tbl : List (K × V)) : MSpec.Calm (tbl.map fun e => MOp.add e.1 e.2) := by
  intro pre k v post h
  right
  intro o ho
  have : o ∈ tbl.map fun e => MOp.add e.1 e.2 := by rw [h]; simp [ho]
  rw [List.mem_map] at this
  obtain ⟨e, _, rfl⟩ := this
  rfl

/-- a map built from a table of distinct keys under a non-negative hash -/
theorem built_get {K V : Type} [DecidableEq K] [BEq K] [LawfulBEq K] {hash : K → Int} (hn : ∀ k, 0 ≤ hash k) (tbl : List (K × V))
    (hnd : (tbl.map (·.1)).Nodup) :
    ∃ m, HMap.run hash HMap.new (tbl.map fun e => MOp.add e.1 e.2) = .ok m ∧ ∀ k, HMap.get hash m k = .ok (tbl.lookup k) := by
  obtain ⟨m, h1, h2, _⟩ := C03_map_last_write_partial hash hn _ (calm_adds tbl)
  refine ⟨m, h1, fun k => ?_⟩
  rw [h2 k]
  unfold MSpec.lookup
  rw [lookup_adds k tbl none hnd]
  cases tbl.lookup k <;> rfl

/-- `hashString` made non-negative -/
def nnHash (s : List UInt8) : Int := if 0 ≤ hashString s then hashString s else 0

theorem nnHash_nonneg (s : List UInt8) : 0 ≤ nnHash s := by unfold nnHash; split <;> omega

theorem tableGet_eq_of {V : Type} (tbl : List (List UInt8 × V)) (hnd : (tbl.map (·.1)).Nodup)
    (hrun : HMap.run hashString HMap.new (tbl.map fun e => MOp.add e.1 e.2) = HMap.run nnHash HMap.new (tbl.map fun e => MOp.add e.1 e.2))
    (s : List UInt8) : tableGet tbl s = HMap.get hashString (build tbl) s := by
  unfold tableGet
  split
  · rename_i hs
    obtain ⟨m, h1, h2⟩ := built_get nnHash_nonneg tbl hnd
    have hb : build tbl = m := by unfold build; rw [hrun, h1]
    rw [hb]
    have : HMap.get hashString m s = HMap.get nnHash m s := by
      unfold HMap.get
      have : nnHash s = hashString s := by unfold nnHash; rw [if_pos hs]
      rw [this]
    rw [this, h2]
  · rfl

/-- the three string tables of the lexer are what map.c computes -/
theorem tableGet_keywords (s : List UInt8) : tableGet keywords s = HMap.get hashString (build keywords) s :=
  tableGet_eq_of _ (by decide +kernel) (by decide +kernel) s
theorem tableGet_suffixes (s : List UInt8) : tableGet suffixes s = HMap.get hashString (build suffixes) s :=
  tableGet_eq_of _ (by decide +kernel) (by decide +kernel) s
theorem tableGet_punctuators (s : List UInt8) : tableGet punctuators s = HMap.get hashString (build punctuators) s :=
  tableGet_eq_of _ (by decide +kernel) (by decide +kernel) s

/-- the sets and digit maps of the lexer are what set.c and map.c compute -/
theorem digit_maps_get (c : Int) :
    (∃ m, HMap.run hashInteger HMap.new (octdigits.map fun e => MOp.add e.1 e.2) = .ok m ∧ HMap.get hashInteger m c = .ok (octVal c)) ∧
    (∃ m, HMap.run hashInteger HMap.new (digits.map fun e => MOp.add e.1 e.2) = .ok m ∧ HMap.get hashInteger m c = .ok (digVal c)) ∧
    (∃ m, HMap.run hashInteger HMap.new (hexdigits.map fun e => MOp.add e.1 e.2) = .ok m ∧ HMap.get hashInteger m c = .ok (hexVal c)) := by
  have h := fun tbl hnd => built_get (V := Int) (hash := hashInteger) C04_hash_integer_nonneg tbl hnd
  refine ⟨?_, ?_, ?_⟩
  · obtain ⟨m, h1, h2⟩ := h octdigits (by decide); exact ⟨m, h1, h2 c⟩
  · obtain ⟨m, h1, h2⟩ := h digits (by decide); exact ⟨m, h1, h2 c⟩
  · obtain ⟨m, h1, h2⟩ := h hexdigits (by decide); exact ⟨m, h1, h2 c⟩

theorem lookup_unit_isSome {K : Type} [DecidableEq K] (l : List K) (k : K) :
    ((l.map fun x => (x, ())).lookup k).isSome = decide (k ∈ l) := by
  induction l with
  | nil => rfl
  | cons a as ih =>
    simp only [List.map_cons, List.lookup_cons]
    by_cases e : k = a
    · subst e; simp
    · have : (k == a) = false := by simpa using e
      rw [this]; simp [ih, e]

theorem char_sets_contain (c : Int) :
    (∃ s, HMap.run hashInteger HMap.new ((nondigits.map fun x => (x, ())).map fun e => MOp.add e.1 e.2) = .ok s ∧
      HSet.contains hashInteger s c = .ok (isNondigit c)) ∧
    (∃ s, HMap.run hashInteger HMap.new ((whiteSpaces.map fun x => (x, ())).map fun e => MOp.add e.1 e.2) = .ok s ∧
      HSet.contains hashInteger s c = .ok (isSpace c)) := by
  have h := fun tbl hnd => built_get (V := Unit) (hash := hashInteger) C04_hash_integer_nonneg tbl hnd
  refine ⟨?_, ?_⟩
  · obtain ⟨m, h1, h2⟩ := h (nondigits.map fun x => (x, ())) (by decide +kernel)
    refine ⟨m, h1, ?_⟩
    simp only [HSet.contains, HMap.contains, h2 c, Out.ok_bind, Out.pure_eq, lookup_unit_isSome]; rfl
  · obtain ⟨m, h1, h2⟩ := h (whiteSpaces.map fun x => (x, ())) (by decide +kernel)
    refine ⟨m, h1, ?_⟩
    simp only [HSet.contains, HMap.contains, h2 c, Out.ok_bind, Out.pure_eq, lookup_unit_isSome]; rfl

end Lexer
end Umlcc
