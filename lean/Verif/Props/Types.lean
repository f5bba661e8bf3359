import Verif.Lemma.DType
import Verif.Model.Conversion
/-! Property theorems C21 (struct layout), C22 (type equality), C23 (usual arithmetic conversions). -/
namespace Umlcc
open DType TSpec

/-- (size, alignment) of each member, and the offsets assigned -/
def memberDims (l : List (Str × DType × Nat)) : List (Nat × Nat) := l.map fun m => (nbytes m.2.1, alignment m.2.1)
def memberOffsets (l : List (Str × DType × Nat)) : List Nat := l.map fun m => m.2.2
def memberSigs (l : List (Str × DType × Nat)) : List (Str × DType) := l.map fun m => (m.1, m.2.1)

/-- C21. For every non-empty list of members of object types, laying a struct out succeeds, keeps names and types,
places the members validly (aligned, in order without overlap, inside), makes the alignment of every member divide
the struct's alignment and the latter divide the struct's size; and no valid placement uses smaller offsets or
less total space. -/
theorem C21_struct_layout (ms : Members) (hne : ms ≠ .nil) (hobj : ∀ m ∈ ms.toList, Obj m.2.1) :
    ∃ ms' nb al, newUnnamedStruct ms = .ok (.ustruct ms' nb al) ∧
      memberSigs ms'.toList = memberSigs ms.toList ∧
      ValidLayout (memberDims ms.toList) (memberOffsets ms'.toList) nb ∧
      (∀ m ∈ ms.toList, alignment m.2.1 ∣ al) ∧ al ∣ nb ∧ 0 < nb ∧
      (∃ m ∈ ms.toList, alignment m.2.1 = al) ∧
      (∀ offs' total', ValidLayout (memberDims ms.toList) offs' total' → al ∣ total' →
        nb ≤ total' ∧ ∀ (i : Nat) o o', (memberOffsets ms'.toList)[i]? = some o → offs'[i]? = some o' → o ≤ o') := by
  have hpos : ∀ d ∈ dims ms.toList, 0 < d.2 := by
    intro d hd
    simp only [dims, List.mem_map] at hd
    obtain ⟨m, hm, rfl⟩ := hd
    have := (hobj m hm).align.1
    simp only; omega
  obtain ⟨ms', nb0, nb, al, h1, h2, h3, h4, h5, h6, ⟨d, hd, hda⟩⟩ := newUnnamedStruct_spec ms hne hpos
  have hO := Obj.align (Obj.ustruct ms ms' nb al hne hobj h1)
  simp only [dims, List.mem_map] at hd
  obtain ⟨m0, hm0, rfl⟩ := hd
  have hal := (hobj m0 hm0).align.1
  refine ⟨ms', nb, al, h1, h2.sig, ?_, ?_, h3, hO.2.2, ⟨m0, hm0, hda⟩, ?_⟩
  · exact ⟨h2.valid.len, h2.valid.aligned, h2.valid.disjoint,
      fun i sz a o hi hj => Nat.le_trans (h2.valid.inside i sz a o hi hj) h4⟩
  · intro m hm
    have ha := (hobj m hm).align.1
    have hle := h2.amax.2 (nbytes m.2.1, alignment m.2.1) (by simp only [dims, List.mem_map]; exact ⟨m, hm, rfl⟩)
    simp only at hle hda
    rw [hda] at hal
    rcases ha with h | h | h <;> rcases hal with h' | h' | h' <;> rw [h, h'] <;> first | omega | decide
  · intro offs' total' hv hd
    obtain ⟨h7, h8⟩ := h2.minimal offs' total' hv (by omega) (by omega)
    exact ⟨h5 _ h7 hd, h8⟩

/-- struct { char a; long b; int c[3]; } -/
def exMembers : Members := .cons [97] .char 0 (.cons [98] .long 0 (.cons [99] (.arr .int 3) 0 .nil))

example : exMembers ≠ .nil ∧ (∀ m ∈ exMembers.toList, Obj m.2.1) ∧
    newUnnamedStruct exMembers = .ok (.ustruct (.cons [97] .char 0 (.cons [98] .long 8 (.cons [99] (.arr .int 3) 16 .nil))) 32 8) := by
  refine ⟨by simp [exMembers], ?_, by decide⟩
  intro m hm
  simp [exMembers, Members.toList] at hm
  rcases hm with rfl | rfl | rfl
  · exact .char
  · exact .long
  · exact .arr _ _ .int (by omega)

/-- An object type has an alignment of 1, 4 or 8 dividing its size, so array elements stay aligned. -/
theorem C21_size_multiple_of_alignment (t : DType) (h : Obj t) :
    (alignment t = 1 ∨ alignment t = 4 ∨ alignment t = 8) ∧ alignment t ∣ nbytes t ∧ 0 < nbytes t := h.align

example : Obj (.arr (.ustruct (.cons [97] .char 0 (.cons [98] .int 4 .nil)) 8 4) 3) := by
  refine .arr _ _ (.ustruct (.cons [97] .char 0 (.cons [98] .int 0 .nil)) _ 8 4 (by simp) ?_ (by decide)) (by omega)
  intro m hm
  simp [Members.toList] at hm
  rcases hm with rfl | rfl
  · exact .char
  · exact .int

/-- C22 (equality). Type equality holds exactly between types of the same structure, so it is an equivalence
relation, and copying gives back an equal type. -/
theorem C22_equality_is_structural (a b c : DType) :
    (equals a b = true ↔ shape a = shape b) ∧ equals a a = true ∧ equals a b = equals b a ∧
    (equals a b = true → equals b c = true → equals a c = true) ∧ equals (copy a) a = true ∧ copy a = a := by
  refine ⟨equals_iff a b, (equals_iff a a).2 rfl, ?_, ?_, ?_, copy_eq a⟩
  · have h1 := equals_iff a b
    have h2 := equals_iff b a
    rw [Bool.eq_iff_iff, h1, h2]; exact eq_comm
  · rw [equals_iff, equals_iff, equals_iff]; exact Eq.trans
  · rw [copy_eq]; exact (equals_iff a a).2 rfl

example : equals (.func (.cons (some [120]) .int .nil) (.ptr .char)) (.func (.cons (some [121]) .int .nil) (.ptr .char)) = true ∧
    equals (.arr .int 3) (.arr .int 4) = false := by decide

/-- C22 (sizes). Equal types have equal size and alignment provided named structs carry the layout of their tag.
Missing for the full claim: named structs taken before and after the tag's definition compare equal although their
sizes differ (next theorem). -/
theorem C22_equal_types_same_layout_partial (ρ : Str → Nat × Nat) (a b : DType) (ha : Laid ρ a) (hb : Laid ρ b)
    (h : equals a b = true) : nbytes a = nbytes b ∧ alignment a = alignment b := equals_size ρ a b ha hb h

example : Laid (fun _ => (8, 4)) (.arr (.nstruct [115] 8 4) 3) ∧
    Laid (fun _ => (8, 4)) (.ustruct (.cons [97] .char 0 (.cons [98] .int 4 .nil)) 8 4) := by
  refine ⟨by simp [Laid], ?_⟩
  simp only [Laid, MLaid, and_self, and_true]; exact ⟨.cons [97] .char 0 (.cons [98] .int 4 .nil), by decide⟩

theorem C22_incomplete_struct_violated :
    ∃ a b, equals a b = true ∧ nbytes a ≠ nbytes b := ⟨.nstruct [115] 0 0, .nstruct [115] 8 4, by decide, by decide⟩

/-- C23. For every pair of integer types both operands of a binary operator are converted to the type C11 6.3.1.8
prescribes. -/
theorem C23_usual_arithmetic_conversions (a b : IntTy) :
    Conv.castTo a.toDType (Conv.usual a.toDType b.toDType).1 = (IntTy.common a b).toDType ∧
    Conv.castTo b.toDType (Conv.usual a.toDType b.toDType).2 = (IntTy.common a b).toDType := by
  cases a <;> cases b <;> decide

example : IntTy.common .ulong .llong = .ullong ∧ IntTy.common .uint .long = .long ∧ IntTy.common .char .char = .int := by
  decide

end Umlcc
