import Verif.Model.Main
import Verif.Lemma.Literal
/-!
C52: exit status and output file. C63: the buffers of the printer.
-/
namespace Umlcc
namespace Main
open X64 (Item)

/-- What C52 asks of the compiler called with the names `args` on the files `fs`. A stage reports an error if it ends with a diagnostic (`err`) or
with the exit for unreachable statements (`fatal`). -/
structure Proper (n : Nat) (args : List (List UInt8)) (fs : Files) : Prop where
  usage : args.length ≠ 1 → main n args fs = .ok (1, fs)
  missing : ∀ name, args = [name] → fs.content name = none → main n args fs = .ok (1, fs)
  other : ∀ name, args = [name] → ¬ [0x2E, 0x63] <:+ name → main n args fs = .ok (1, fs)
  rejected : ∀ name src, args = [name] → fs.content name = some src → stages n src = .err ∨ stages n src = .fatal → main n args fs = .ok (1, fs)
  accepted : ∀ stem src items, args = [stem ++ [0x2E, 0x63]] → fs.content (stem ++ [0x2E, 0x63]) = some src → stages n src = .ok items →
    ∃ text fs', printAll items = .ok text ∧ main n args fs = .ok (0, fs') ∧
      ∀ f, fs'.content f = if f = stem ++ [0x2E, 0x73] then some text else fs.content f

/-- C52 in full -/
def C52_full : Prop := ∀ n args fs, Proper n args fs

theorem fromLastDot_eq (name : List UInt8) (e : List UInt8) (h : fromLastDot name = some e) : ∃ stem, name = stem ++ e := by
  induction name with
  | nil => cases h
  | cons b bs ih =>
    rw [fromLastDot] at h
    cases hb : fromLastDot bs with
    | some e' =>
      rw [hb] at h
      cases h
      obtain ⟨stem, rfl⟩ := ih hb
      exact ⟨b :: stem, rfl⟩
    | none =>
      rw [hb] at h
      simp only at h
      split at h
      · cases h; exact ⟨[], rfl⟩
      · cases h

theorem fromLastDot_c (stem : List UInt8) : fromLastDot (stem ++ [0x2E, 0x63]) = some [0x2E, 0x63] := by
  induction stem with
  | nil => rfl
  | cons b bs ih => rw [List.cons_append, fromLastDot, ih]

theorem isCFile_iff (name : List UInt8) : isCFile name = true ↔ [0x2E, 0x63] <:+ name := by
  unfold isCFile
  simp only [beq_iff_eq]
  constructor
  · intro h
    obtain ⟨stem, rfl⟩ := fromLastDot_eq name _ h
    exact ⟨stem, rfl⟩
  · rintro ⟨stem, rfl⟩; exact fromLastDot_c stem

theorem dstName_c (stem : List UInt8) : dstName (stem ++ [0x2E, 0x63]) = stem ++ [0x2E, 0x73] := by
  rw [dstName, show stem ++ [0x2E, 0x63] = (stem ++ [0x2E]) ++ [0x63] by simp, List.dropLast_concat]
  simp

/-- C52 when the output file can be opened and printing succeeds with the room there is. Missing: the other cases, in which the property fails. -/
theorem C52_status_partial (n : Nat) (args : List (List UInt8)) (fs : Files) (hw : ∀ f, fs.writable f = true)
    (hr : ∀ f src items, fs.content f = some src → stages n src = .ok items → ∃ text, printAll items = .ok text ∧ text.length ≤ fs.room) : Proper n args fs where
  usage h := by
    unfold main
    split
    · exact absurd rfl h
    · rfl
  missing name ha h := by
    subst ha
    simp only [main, h]
  other name ha h := by
    subst ha
    rw [← isCFile_iff] at h
    simp only [main]
    cases fs.content name with
    | none => rfl
    | some src => simp only [Bool.eq_false_iff.2 h]; rfl
  rejected name src ha h hs := by
    subst ha
    simp only [main, h]
    rcases hs with hs | hs <;> rw [hs] <;> simp
  accepted stem src items ha h hs := by
    subst ha
    obtain ⟨text, ht, hl⟩ := hr _ src items h hs
    refine ⟨text, write fs (stem ++ [0x2E, 0x73]) text, ht, ?_, ?_⟩
    · simp only [main, h, hs, hw, ht, (isCFile_iff _).2 ⟨stem, rfl⟩, dstName_c]
      rfl
    · intro f
      simp only [write, List.take_of_length_le hl]

/-- `a.c` -/
def aC : List UInt8 := [0x61, 0x2E, 0x63]
/-- `a.s` -/
def aS : List UInt8 := [0x61, 0x2E, 0x73]
/-- `int x;` and an old `a.s` -/
def sampleFiles (w : Bool) (room : Nat) : Files :=
  ⟨fun f => if f = aC then some (X64.bytes "int x;") else if f = aS then some [0x6F, 0x6C, 0x64] else none, fun _ => w, room⟩

/-- `int x;` compiles to `.data`, `.globl x`, `x:`, `.zero 4` -/
theorem sample_stages : stages 40 (X64.bytes "int x;") = .ok [.label .variable .global ⟨[120], by decide⟩, .data (.zero ⟨.int, 4⟩)] := by decide +kernel

/-- the hypotheses hold for the sample files with 100 bytes of room -/
example : Proper 40 [aC] (sampleFiles true 100) :=
  C52_status_partial _ _ _ (fun _ => rfl) (by
    intro f src items hf hs
    simp only [sampleFiles] at hf
    split at hf
    · cases hf
      rw [sample_stages] at hs
      cases hs
      exact ⟨_, rfl, by decide⟩
    · split at hf
      · cases hf
        have : stages 40 [0x6F, 0x6C, 0x64] = .err := by decide +kernel
        rw [this] at hs
        cases hs
      · cases hf)

theorem sample_main (w : Bool) (room : Nat) : main 40 [aC] (sampleFiles w room) =
    if w then .ok (0, write (sampleFiles w room) aS (X64.bytes "\t.data\n\t.globl x\nx:\n\t.zero\t4\n")) else .ub := by
  have h1 : (sampleFiles w room).content aC = some (X64.bytes "int x;") := rfl
  have h2 : printAll [.label .variable .global ⟨[120], by decide⟩, .data (.zero ⟨.int, 4⟩)] = .ok (X64.bytes "\t.data\n\t.globl x\nx:\n\t.zero\t4\n") := by
    decide +kernel
  have h3 : isCFile aC = true := by decide
  have h4 : dstName aC = aS := by decide
  have h5 : (sampleFiles w room).writable aS = w := rfl
  simp only [main, h1, sample_stages, h2, h3, h4, h5]
  cases w <;> rfl

/-- C52 fails: if the output file cannot be opened, the compiler prints through a NULL pointer. -/
theorem C52_unwritable_violated : ¬ C52_full := by
  intro h
  obtain ⟨text, fs', -, h2, -⟩ := (h 40 [aC] (sampleFiles false 100)).accepted [0x61] _ _ rfl rfl sample_stages
  rw [sample_main] at h2
  cases h2

/-- C52 fails: on a full device the exit status is 0 though only a part of the assembly is in the output file. -/
theorem C52_full_device_violated : ¬ C52_full := by
  intro h
  obtain ⟨text, fs', h1, h2, h3⟩ := (h 40 [aC] (sampleFiles true 10)).accepted [0x61] _ _ rfl rfl sample_stages
  rw [sample_main] at h2
  cases h2
  have h4 := h3 aS
  have h5 : printAll [.label .variable .global ⟨[120], by decide⟩, .data (.zero ⟨.int, 4⟩)] = .ok (X64.bytes "\t.data\n\t.globl x\nx:\n\t.zero\t4\n") := by
    decide +kernel
  rw [h5] at h1
  cases h1
  revert h4
  decide +kernel

end Main
end Umlcc
