import Verif.Spec.Lexer
import Verif.Lemma.LexTables
/-! Character classes and tables of the lexer against the lexical grammar (helper lemmas). -/
namespace Umlcc
namespace Lexer
open LSpec (isLetter isDigit isOct isHex isWord)

theorem forallByte {p : UInt8 → Prop} [∀ b, Decidable (p b)]
    (h : (List.range 256).all (fun n => decide (p (UInt8.ofNat n))) = true) (b : UInt8) : p b := by
  rw [List.all_eq_true] at h
  have := h b.toNat (List.mem_range.2 b.toNat_lt)
  simpa using this

theorem isNondigit_charVal (b : UInt8) : isNondigit (charVal b) = (isLetter b || b == 0) := by
  revert b; apply forallByte; decide +kernel
theorem isSpace_charVal (b : UInt8) : isSpace (charVal b) = (LSpec.isSpace b || b == 0) := by
  revert b; apply forallByte; decide +kernel
theorem octVal_charVal (b : UInt8) : octVal (charVal b) = if isOct b then some (LSpec.digit b : Int) else none := by
  revert b; apply forallByte; decide +kernel
theorem digVal_charVal (b : UInt8) : digVal (charVal b) = if isDigit b then some (LSpec.digit b : Int) else none := by
  revert b; apply forallByte; decide +kernel
theorem hexVal_charVal (b : UInt8) : hexVal (charVal b) = if isHex b then some (LSpec.digit b : Int) else none := by
  revert b; apply forallByte; decide +kernel
theorem isWordChar_charVal (b : UInt8) : isWordChar (charVal b) = (isWord b || b == 0) := by
  revert b; apply forallByte; decide +kernel

theorem charVal_inj {a b : UInt8} (h : charVal a = charVal b) : a = b := by
  have ha := a.toNat_lt
  have hb := b.toNat_lt
  unfold charVal at h
  apply UInt8.toNat_inj.1
  split at h <;> split at h <;> omega

theorem charVal_eq_iff (a b : UInt8) : charVal a = charVal b ↔ a = b := ⟨charVal_inj, fun h => h ▸ rfl⟩

theorem charVal_sq (b : UInt8) : charVal b = 0x27 ↔ b = 0x27 := charVal_eq_iff b 0x27
theorem charVal_dq (b : UInt8) : charVal b = 0x22 ↔ b = 0x22 := charVal_eq_iff b 0x22
theorem charVal_zero (b : UInt8) : charVal b = 0x30 ↔ b = 0x30 := charVal_eq_iff b 0x30
theorem charVal_x (b : UInt8) : charVal b = 0x78 ↔ b = 0x78 := charVal_eq_iff b 0x78
theorem charVal_eof (b : UInt8) : charVal b = -1 ↔ b = 0xFF := charVal_eq_iff b 0xFF

theorem charVal_value (b : UInt8) : charVal b = (LSpec.Item.plain b).value := rfl

theorem ofInt_toByte (v : Int) : UInt8.ofInt v = LSpec.toByte v := by
  simp only [UInt8.ofInt, LSpec.toByte]
  rfl

theorem hash_ascii {s : List UInt8} (h : ∀ b ∈ s, b.toNat < 128) : 0 ≤ hashString s := (C06_hash_string_index_partial s h).1

theorem tableGet_ascii {V : Type} (tbl : List (List UInt8 × V)) {s : List UInt8} (h : ∀ b ∈ s, b.toNat < 128) :
    tableGet tbl s = .ok (tbl.lookup s) := by
  unfold tableGet; rw [if_pos (hash_ascii h)]

theorem lookup_mem {K V : Type} [BEq K] [LawfulBEq K] {k : K} {v : V} : ∀ {tbl : List (K × V)}, tbl.lookup k = some v → (k, v) ∈ tbl := by
  intro tbl
  induction tbl with
  | nil => intro h; simp at h
  | cons a as ih =>
    obtain ⟨a1, a2⟩ := a
    intro h
    rw [List.lookup_cons] at h
    split at h
    · rename_i e
      have e := eq_of_beq e
      simp at h; subst e; subst h; simp
    · exact List.mem_cons_of_mem _ (ih h)

/-- keyword table = spelling of the keywords -/
theorem keywords_lookup (s : List UInt8) (k : KW) : keywords.lookup s = some k ↔ s = LSpec.kwText k := by
  constructor
  · intro h
    have hm := lookup_mem h
    have : ∀ p ∈ keywords, p.1 = LSpec.kwText p.2 := by decide +kernel
    exact this _ hm
  · rintro rfl; cases k <;> decide +kernel

theorem punctuators_lookup (s : List UInt8) (p : Pct) : punctuators.lookup s = some p ↔ s = LSpec.pctText p := by
  constructor
  · intro h
    have hm := lookup_mem h
    have : ∀ p ∈ punctuators, p.1 = LSpec.pctText p.2 := by decide +kernel
    exact this _ hm
  · rintro rfl; cases p <;> decide +kernel

theorem suffixes_lookup (s : List UInt8) (t : ILType) : suffixes.lookup s = some t ↔ (s ∈ LSpec.suffix t ∧ s ≠ []) := by
  constructor
  · intro h
    have hm := lookup_mem h
    have : ∀ p ∈ suffixes, p.1 ∈ LSpec.suffix p.2 ∧ p.1 ≠ [] := by decide +kernel
    exact this _ hm
  · rintro ⟨h1, h2⟩
    have : ∀ t, ∀ s ∈ LSpec.suffix t, s ≠ [] → suffixes.lookup s = some t := by
      intro t; cases t <;> decide +kernel
    exact this t s h1 h2

theorem pctText_len (p : Pct) : 1 ≤ (LSpec.pctText p).length ∧ (LSpec.pctText p).length ≤ 3 := by cases p <;> decide
theorem pctText_chars (p : Pct) : ∀ b ∈ LSpec.pctText p, b.toNat < 128 ∧ LSpec.isSpace b = false ∧ isWord b = false ∧ b ≠ 0x27 ∧ b ≠ 0x22 ∧ b ≠ 0 := by
  cases p <;> decide
theorem pctText_inj {p q : Pct} (h : LSpec.pctText p = LSpec.pctText q) : p = q := by
  have h1 := (punctuators_lookup _ p).2 rfl
  rw [h, (punctuators_lookup _ q).2 rfl] at h1
  simpa using h1.symm
theorem suffix_len : ∀ (t : ILType), ∀ s ∈ LSpec.suffix t, s.length ≤ 3 ∧ (∀ b ∈ s, b.toNat < 128 ∧ isLetter b = true ∧ LSpec.isHex b = false ∧ LSpec.isSpace b = false ∧ b ≠ 0x78 ∧ b ≠ 0x58) := by
  intro t; cases t <;> decide
theorem kwText_word (k : KW) : ∃ c r, LSpec.kwText k = c :: r ∧ isLetter c = true ∧ r.all isWord = true := by
  cases k <;> exact ⟨_, _, rfl, by decide, by decide⟩

end Lexer
end Umlcc
