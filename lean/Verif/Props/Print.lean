import Verif.Props.Main
/-!
C63: the buffers in which assembly is put together.
-/
namespace Umlcc
namespace X64

/-- C63 in full: whatever a source text compiles to can be printed. -/
def C63_full : Prop := ∀ n src items, Main.stages n src = .ok items → ∃ text, Main.printAll items = .ok text

theorem decimal_length {v : Int} {k : Nat} (hk : 0 < k) (h : v.natAbs < 10 ^ k) : (decimal v).length ≤ k + 1 := by
  unfold decimal
  have := (Nat.length_toDigits_le_iff (b := 10) (by decide) hk).2 h
  split <;> simp <;> omega

theorem bytes_length (s : String) : (bytes s).length = s.length := by
  rw [bytes, List.length_map, String.length_toList]

/-- operands that fit the buffer for operands: symbols of at most 43 characters (49 as targets of jumps), offsets of type `int`, 64-bit constants -/
def Fits : XOpe → Prop
  | .label n => n.1.length ≤ 43
  | .jlabel n => n.1.length ≤ 49
  | .mem off => off.natAbs ≤ 2 ^ 31
  | .int _ l => l.value.natAbs < 2 ^ 64
  | _ => True

theorem regName_length {r : Reg} {s : Sfx} {n : String} (h : regName r s = some n) : n.length ≤ 5 := by
  cases r <;> cases s <;> cases h <;> decide

theorem opeString_ok {o : XOpe} {t : OpTxt} (ho : opTxt o = .ok t) (hf : Fits o) : ∃ s, opeString o = .ok s ∧ s.length ≤ 49 := by
  have key : t.bytes.length ≤ 49 := by
    cases o with
    | sfx s => cases ho
    | reg s r | ptr r | jptr r =>
      simp only [opTxt] at ho
      cases hr : regName r _ with
      | none => rw [hr] at ho; cases ho
      | some n =>
        have := regName_length hr
        rw [hr] at ho
        cases ho
        simp only [OpTxt.bytes, bytes_length, List.length_append]
        first | omega | (have : ("(" : String).length = 1 ∧ (")" : String).length = 1 ∧ ("*" : String).length = 1 := by decide); omega
    | mem off =>
      simp only [opTxt, orUb] at ho
      cases hr : regName .bp .quad with
      | none => rw [hr] at ho; cases ho
      | some n =>
        have := regName_length hr
        rw [hr] at ho
        cases ho
        have h2 : (decimal (-off)).length ≤ 11 + 1 := decimal_length (by decide) (by simp only [Fits] at hf; omega)
        have : ("(" : String).length = 1 ∧ (")" : String).length = 1 := by decide
        simp only [OpTxt.bytes, bytes_length, List.length_append]
        omega
    | label n =>
      cases ho
      simp only [Fits] at hf
      have : ("(%rip)" : String).length = 6 := by decide
      simp only [OpTxt.bytes, bytes_length, List.length_append]
      omega
    | jlabel n => cases ho; simpa [Fits, OpTxt.bytes] using hf
    | int s l =>
      cases ho
      have h2 : (decimal l.value).length ≤ 20 + 1 := decimal_length (by decide) (by simp only [Fits] at hf; omega)
      have : ("$" : String).length = 1 := by decide
      simp only [OpTxt.bytes, bytes_length, List.length_append]
      omega
  refine ⟨t.bytes, ?_, key⟩
  rw [opeString, ho]
  show inBuffer 50 t.bytes = _
  rw [inBuffer, if_pos (by omega)]

theorem fmt1_length (pre : String) (s : Sfx) (post : String) : (fmt1 pre s post).length ≤ pre.length + 1 + post.length := by
  unfold fmt1
  split
  · omega
  · rw [String.length_append, String.length_append, String.length_singleton]
    omega

theorem fmt2_length (pre : String) (s : Sfx) (mid : String) (t : Sfx) : (fmt2 pre s mid t).length ≤ pre.length + 2 + mid.length := by
  unfold fmt2
  split
  · omega
  · have := fmt1_length (pre ++ String.singleton (sfxChar s) ++ mid) t ""
    rw [String.length_append, String.length_append, String.length_singleton] at this
    have : ("" : String).length = 0 := by decide
    omega

theorem mnemonic_length {i : XInst} {mn : String} (h : mnemonic i = .ok mn) : mn.length ≤ 8 := by
  have l1 : ∀ (pre post : String) (s : Sfx), pre.length + post.length ≤ 7 → (fmt1 pre s post).length ≤ 8 := fun pre post s h => by
    have := fmt1_length pre s post; omega
  have l2 : ∀ (pre mid : String) (s t : Sfx), pre.length + mid.length ≤ 6 → (fmt2 pre s mid t).length ≤ 8 := fun pre mid s t h => by
    have := fmt2_length pre s mid t; omega
  obtain ⟨op, src, dst⟩ := i
  cases op
  case movs | movz | cxtx =>
    cases src <;> cases dst <;> first | cases h | skip
    exact l2 _ _ _ _ (by decide)
  case set c | jcc c => cases h; cases c <;> decide
  case cqto | jmp | call | ret => cases h; decide
  all_goals
    have h := Out.ok.inj h
    subst h
    exact l1 _ _ _ (by decide)

theorem opeStrings_ok : ∀ (os : List XOpe) (ts : List OpTxt) (sep : List UInt8), opTxts os = .ok ts → (∀ o ∈ os, Fits o) → sep.length ≤ 2 →
    ∃ s, opeStrings sep os = .ok s ∧ s.length ≤ 51 * os.length
  | [], _, _, _, _, _ => ⟨[], rfl, by simp⟩
  | o :: os, ts, sep, h, hf, hs => by
    simp only [opTxts, Out.bind_eq_ok] at h
    obtain ⟨t, h1, ts', h2, -⟩ := h
    obtain ⟨s, h3, h4⟩ := opeString_ok h1 (hf o (by simp))
    obtain ⟨s', h5, h6⟩ := opeStrings_ok os ts' (bytes ", ") h2 (fun o ho => hf o (by simp [ho])) (by decide)
    refine ⟨sep ++ s ++ s', ?_, ?_⟩
    · simp only [opeStrings, h3, h5, Out.ok_bind, Out.pure_eq]
    · simp only [List.length_append, List.length_cons]
      omega

theorem printedOps_length (i : XInst) : (printedOps i).length ≤ 2 := by
  unfold printedOps
  exact Nat.le_trans (List.length_filterMap_le ..) (by simp)

/-- C63 for instructions: one whose mnemonic and operands can be printed at all and whose operands fit -/
theorem C63_instruction_partial (i : XInst) (l : Line) (h : line i = .ok l) (hf : ∀ o ∈ printedOps i, Fits o) : ∃ t, instString i = .ok t := by
  simp only [line, Out.bind_eq_ok] at h
  obtain ⟨mn, h1, ts, h2, -⟩ := h
  obtain ⟨s, h3, h4⟩ := opeStrings_ok _ _ (bytes "\t") h2 hf (by decide)
  have := mnemonic_length h1
  have := printedOps_length i
  refine ⟨bytes "\t" ++ bytes mn ++ s ++ bytes "\n", ?_⟩
  · simp only [instString, h1, h3, Out.ok_bind]
    rw [inBuffer, if_pos]
    rw [List.length_append, List.length_append, List.length_append, bytes_length mn, show (bytes "\t").length = 1 by decide, show (bytes "\n").length = 1 by decide]
    omega

/-- C63 for labels of at most 90 characters -/
theorem C63_label_partial (t : LblType) (v : Vis) (n : Name) (h : n.1.length ≤ 90) : ∃ s, labelString t v n = .ok s := by
  refine ⟨section_ t ++ visibility n v ++ n.1 ++ bytes ":\n", ?_⟩
  have h1 : (section_ t).length ≤ 7 := by cases t <;> decide
  have h2 : (visibility n v).length ≤ 9 + n.1.length := by
    have h3 : (bytes "\t.globl ").length = 8 ∧ (bytes "\t.local ").length = 8 ∧ (bytes "\n").length = 1 := by decide
    cases v <;> simp only [visibility, List.length_append, List.length_nil] <;> omega
  have h4 : (bytes ":\n").length = 2 := by decide
  rw [labelString, inBuffer, if_pos (by simp only [List.length_append]; omega)]

/-- data that fits: 64-bit constants and ASCII strings of at most 46 bytes -/
def FitsData : IData → Prop
  | .byte l | .word l | .long l | .quad l | .zero l => l.value.natAbs < 2 ^ 64
  | .str b => (∀ c ∈ b, c.toNat < 128) ∧ b.length ≤ 46

theorem pieces_short {bs : List UInt8} (h : ∀ b ∈ bs, b.toNat < 128) : (Literal.pieces bs).length ≤ 4 * bs.length := by
  induction bs with
  | nil => simp [Literal.pieces]
  | cons b bs ih =>
    have h1 := Literal.piece_ascii b (h b (by simp))
    have h2 := ih fun c hc => h c (by simp [hc])
    simp only [Literal.pieces, List.map_cons, List.flatten_cons, List.length_append, List.length_cons] at h2 ⊢
    omega

/-- C63 for data -/
theorem C63_data_partial (d : IData) (h : FitsData d) : ∃ s, dataString d = .ok s := by
  have h1 : (bytes "\t.byte\t").length = 7 ∧ (bytes "\t.word\t").length = 7 ∧ (bytes "\t.long\t").length = 7 ∧ (bytes "\t.quad\t").length = 7 ∧
    (bytes "\t.zero\t").length = 7 ∧ (bytes "\t.ascii\t").length = 8 ∧ (bytes "\n").length = 1 := by decide
  cases d with
  | str b =>
    obtain ⟨h2, h3⟩ := h
    have h4 := pieces_short h2
    refine ⟨bytes "\t.ascii\t" ++ (0x22 :: Literal.pieces b ++ [0x22]) ++ bytes "\n", ?_⟩
    simp only [dataString, Literal.display_ascii h2, Out.ok_bind]
    rw [inBuffer, if_pos (by simp only [List.length_append, List.length_cons, List.length_nil]; omega)]
  | byte l | word l | long l | quad l | zero l =>
    have h2 : (decimal l.value).length ≤ 20 + 1 := decimal_length (by decide) (by simp only [FitsData] at h; omega)
    exact ⟨_, by rw [dataString, inBuffer, if_pos (by simp only [List.length_append]; omega)]⟩

/-- items that fit their buffers -/
def FitsItem : Item → Prop
  | .inst i => (∃ l, line i = .ok l) ∧ ∀ o ∈ printedOps i, Fits o
  | .label _ _ n => n.1.length ≤ 90
  | .data d => FitsData d

/-- C63 for short symbols and strings. Missing: longer ones, for which it fails. -/
theorem C63_printed_partial (items : List Item) (h : ∀ x ∈ items, FitsItem x) : ∃ text, Main.printAll items = .ok text := by
  induction items with
  | nil => exact ⟨[], rfl⟩
  | cons x xs ih =>
    obtain ⟨ts, h1⟩ := ih fun y hy => h y (by simp [hy])
    have hx := h x (by simp)
    have : ∃ t, itemString x = .ok t := by
      cases x with
      | inst i => exact C63_instruction_partial i _ hx.1.choose_spec hx.2
      | label t v n => exact C63_label_partial t v n hx
      | data d => exact C63_data_partial d hx
    obtain ⟨t, h2⟩ := this
    exact ⟨t ++ ts, by simp only [Main.printAll, h1, h2, Out.ok_bind, Out.pure_eq]⟩

/-- a label, an instruction with a symbol, and a string satisfy the hypothesis -/
example : ∀ x ∈ [Item.label .function .global ⟨[109, 97, 105, 110], by decide⟩, .inst (i2 .mov (.label ⟨[120], by decide⟩) (.reg .long .cx)),
    .inst (i2 .add (.int .quad ⟨.int, -8⟩) (.reg .quad .sp)), .data (.str [104, 105, 0])], FitsItem x := by
  intro x hx
  simp only [List.mem_cons, List.not_mem_nil, or_false] at hx
  rcases hx with rfl | rfl | rfl | rfl
  · simp [FitsItem]
  · exact ⟨⟨_, rfl⟩, by simp [printedOps, i2, Fits]⟩
  · exact ⟨⟨_, rfl⟩, by simp [printedOps, i2, Fits]⟩
  · simp [FitsItem, FitsData]

/-- `int a…a; int main(void) { return a…a; }` with a name of 44 characters -/
def longName : List UInt8 := bytes "int " ++ List.replicate 44 0x61 ++ bytes ";int main(void){return " ++ List.replicate 44 0x61 ++ bytes ";}"

/-- C63 fails: the name of a global variable may have at most 43 characters; with 44 the text for the operand is written past its buffer. -/
theorem C63_long_name_violated : ¬ C63_full := by
  intro h
  have h1 : ((match Main.stages 60 longName with | .ok items => some items | _ => none).map fun items => decide (Main.printAll items = Out.ub)) = some true := by
    decide +kernel
  cases hs : Main.stages 60 longName with
  | ok items =>
    obtain ⟨text, ht⟩ := h _ _ _ hs
    rw [hs] at h1
    simp [ht] at h1
  | _ => rw [hs] at h1; cases h1

/-- `char s[] = "x…x"` with 190 characters -/
def longString : List UInt8 := bytes "char s[200]=\"" ++ List.replicate 190 0x78 ++ bytes "\";"

/-- C63 fails for strings of 190 characters. -/
theorem C63_long_string_violated : ¬ C63_full := by
  intro h
  have h1 : ((match Main.stages 60 longString with | .ok items => some items | _ => none).map fun items => decide (Main.printAll items = Out.ub)) = some true := by
    decide +kernel
  cases hs : Main.stages 60 longString with
  | ok items =>
    obtain ⟨text, ht⟩ := h _ _ _ hs
    rw [hs] at h1
    simp [ht] at h1
  | _ => rw [hs] at h1; cases h1

end X64
end Umlcc
