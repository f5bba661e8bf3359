import Verif.Lemma.LexTok
/-! Whole inputs (helper lemmas). -/
namespace Umlcc
namespace Lexer
open LSpec (isLetter isDigit isOct isHex isWord Item Munch itemsText Lexeme)

theorem skipSpaces_spec : ∀ s : List UInt8, ∃ sp, s = sp ++ skipSpaces s ∧ (∀ b ∈ sp, LSpec.isSpace b = true ∨ b = 0) := by
  intro s
  induction s with
  | nil => exact ⟨[], rfl, by simp⟩
  | cons b s ih =>
    rw [skipSpaces]
    split
    · rename_i h
      obtain ⟨sp, h1, h2⟩ := ih
      refine ⟨b :: sp, by rw [List.cons_append, ← h1], ?_⟩
      intro c hc
      simp at hc
      rcases hc with rfl | hc
      · rw [isSpace_charVal] at h; simp at h; exact h
      · exact h2 c hc
    · exact ⟨[], rfl, by simp⟩

theorem skipSpaces_append {sp rest : List UInt8} (h : sp.all LSpec.isSpace = true)
    (hs : Stops (fun b => LSpec.isSpace b || b == 0) rest) : skipSpaces (sp ++ rest) = rest := by
  induction sp with
  | nil =>
    cases rest with
    | nil => rfl
    | cons b r =>
      have : (LSpec.isSpace b || b == 0) = false := hs
      simp [skipSpaces, isSpace_charVal, this]
  | cons b sp ih =>
    simp only [List.all_cons, Bool.and_eq_true] at h
    rw [List.cons_append, skipSpaces, if_pos (by rw [isSpace_charVal, h.1]; rfl)]
    exact ih h.2

/-- a lexeme begins with a visible character -/
theorem text_first {l : Lexeme} (hw : l.WF) : ∃ b r, l.text = b :: r ∧ LSpec.isSpace b = false ∧ b ≠ 0 := by
  cases l with
  | kw k =>
    obtain ⟨c, r, h1, h2, _⟩ := kwText_word k
    refine ⟨c, r, h1, ?_, (word_ascii (letter_word h2)).2⟩
    cases h : LSpec.isSpace c with
    | false => rfl
    | true => have := (space_props h).1; rw [letter_word h2] at this; simp at this
  | ident s =>
    obtain ⟨⟨c, r, rfl, h2, _⟩, _⟩ := hw
    refine ⟨c, r, rfl, ?_, (word_ascii (letter_word h2)).2⟩
    cases h : LSpec.isSpace c with
    | false => rfl
    | true => have := (space_props h).1; rw [letter_word h2] at this; simp at this
  | int base ds t sfx =>
    have key : ∀ b, isDigit b = true → LSpec.isSpace b = false ∧ b ≠ 0 := by apply forallByte; decide +kernel
    obtain ⟨h1, _⟩ := hw
    cases base with
    | dec =>
      obtain ⟨⟨d, r, rfl, _⟩, hall⟩ := h1
      simp at hall
      exact ⟨d, _, rfl, key d hall.1⟩
    | oct => obtain ⟨⟨r, rfl⟩, _⟩ := h1; exact ⟨0x30, _, rfl, by decide, by decide⟩
    | hex x => exact ⟨0x30, _, rfl, by decide, by decide⟩
  | char is => exact ⟨0x27, _, rfl, by decide, by decide⟩
  | str is => exact ⟨0x22, _, rfl, by decide, by decide⟩
  | punct p =>
    have hl := pctText_len p
    have hc := pctText_chars p
    cases hp : LSpec.pctText p with
    | nil => rw [hp] at hl; simp at hl
    | cons b r =>
      have := hc b (by simp [hp])
      exact ⟨b, r, hp, this.2.1, this.2.2.2.2.2⟩

theorem tok_ne_eof (l : Lexeme) : l.tok ≠ .eof := by cases l <;> simp [Lexeme.tok]

theorem readTok_nil : readTok [] = .ok (.eof, []) := by decide +kernel

/-- reading laid out lexemes -/
theorem lexLoop_layout : ∀ (ls : List (Lexeme × List UInt8)) (fuel : Nat), ls.length < fuel →
    (∀ p ∈ ls, p.1.WF ∧ p.1.Fits ∧ p.2.all LSpec.isSpace = true) → (∀ p ∈ ls.dropLast, p.2 ≠ []) →
    (∀ b ∈ (ls.map fun p => p.1.text ++ p.2).flatten, b.toNat < 128) →
    lexLoop fuel (ls.map fun p => p.1.text ++ p.2).flatten = .ok (ls.map (fun p => p.1.tok) ++ [.eof]) := by
  intro ls
  induction ls with
  | nil =>
    intro fuel hf _ _ _
    obtain ⟨f, rfl⟩ : ∃ f, fuel = f + 1 := ⟨fuel - 1, by simp at hf; omega⟩
    simp only [List.map_nil, List.flatten_nil, lexLoop, readTok_nil, Out.ok_bind]
    rfl
  | cons p ps ih =>
    intro fuel hf hw hsep ha
    obtain ⟨f, rfl⟩ : ∃ f, fuel = f + 1 := ⟨fuel - 1, by simp at hf; omega⟩
    obtain ⟨l, sp⟩ := p
    obtain ⟨h1, h2, h3⟩ := hw (l, sp) (by simp)
    dsimp only at h1 h2 h3
    have hps : ∀ p ∈ ps, p.1.WF ∧ p.1.Fits ∧ p.2.all LSpec.isSpace = true := fun p hp => hw p (by simp [hp])
    have e : ((((l, sp) :: ps).map fun p => p.1.text ++ p.2).flatten) = l.text ++ (sp ++ (ps.map fun p => p.1.text ++ p.2).flatten) := by simp
    rw [e] at ha ⊢
    have hend : Ended (sp ++ (ps.map fun p => p.1.text ++ p.2).flatten) := by
      cases sp with
      | nil =>
        cases ps with
        | nil => exact Or.inl rfl
        | cons q qs => exact absurd rfl (hsep (l, []) (by simp))
      | cons b r => simp at h3; exact Or.inr ⟨b, _, rfl, h3.1⟩
    have hsk : skipSpaces (sp ++ (ps.map fun p => p.1.text ++ p.2).flatten) = (ps.map fun p => p.1.text ++ p.2).flatten := by
      apply skipSpaces_append h3
      cases ps with
      | nil => trivial
      | cons q qs =>
        obtain ⟨b, r, e1, e2, e3⟩ := text_first (hps q (by simp)).1
        simp only [List.map_cons, List.flatten_cons, e1, List.cons_append]
        show (LSpec.isSpace b || b == 0) = false
        rw [e2]; simpa using e3
    rw [lexLoop, readTok_complete h1 h2 hend (fun b hb => ha b (by rw [List.mem_append]; exact Or.inr (List.mem_of_mem_take hb))), Out.ok_bind]
    dsimp only
    rw [if_neg (tok_ne_eof l), hsk, ih f (by simp at hf; omega) hps ?_ ?_]
    · rfl
    · intro p hp
      apply hsep p
      cases ps with
      | nil => simp at hp
      | cons q qs => simp only [List.dropLast_cons_cons]; exact List.mem_cons_of_mem _ hp
    · intro b hb; exact ha b (by simp only [List.mem_append]; exact Or.inr (Or.inr hb))

/-- whatever is read is a sequence of lexemes -/
theorem lexLoop_sound : ∀ (fuel : Nat) (s : List UInt8) (ts : List Tok), (0 : UInt8) ∉ s → lexLoop fuel s = .ok ts →
    ∃ (ls : List (Lexeme × List UInt8 × Tok)) (tail : List UInt8),
      s = (ls.map fun p => p.1.text ++ p.2.1).flatten ++ tail ∧ (tail = [] ∨ ∃ r, tail = 0xFF :: r) ∧
      ts = ls.map (fun p => p.2.2) ++ [.eof] ∧
      ∀ p ∈ ls, p.1.WF ∧ p.2.1.all LSpec.isSpace = true ∧ (p.1.Fits → p.2.2 = p.1.tok) ∧ p.2.2 ≠ .eof := by
  intro fuel
  induction fuel with
  | zero => intro s ts _ h; simp [lexLoop] at h
  | succ f ih =>
    intro s ts hn h
    rw [lexLoop, Out.bind_eq_ok] at h
    obtain ⟨⟨t, s1⟩, h1, h2⟩ := h
    dsimp only at h2
    rcases readTok_sound hn h1 with ⟨e1, e2⟩ | ⟨l, e1, e2, e3, e4⟩
    · rw [if_pos e1] at h2
      simp at h2
      exact ⟨[], s, by simp, e2, by simp [h2], by simp⟩
    · rw [if_neg e4, Out.bind_eq_ok] at h2
      obtain ⟨ts', h3, h4⟩ := h2
      simp at h4
      obtain ⟨sp, f1, f2⟩ := skipSpaces_spec s1
      have hn1 : (0 : UInt8) ∉ s1 := by intro h; apply hn; rw [e1]; simp [h]
      have hn2 : (0 : UInt8) ∉ skipSpaces s1 := by intro h; apply hn1; rw [f1]; simp [h]
      obtain ⟨ls, tail, g1, g2, g3, g4⟩ := ih _ _ hn2 h3
      refine ⟨(l, sp, t) :: ls, tail, ?_, g2, by simp [← h4, g3], ?_⟩
      · simp only [List.map_cons, List.flatten_cons, List.append_assoc]
        rw [← g1, ← f1]; exact e1
      · intro p hp
        simp at hp
        rcases hp with rfl | hp
        · refine ⟨e2, ?_, e3, e4⟩
          rw [List.all_eq_true]
          intro b hb
          rcases f2 b hb with h | rfl
          · exact h
          · exact absurd (by rw [f1]; simp [hb]) hn1
        · exact g4 p hp

/-! ### totality -/

theorem takeWhile_self {α : Type} {p : α → Bool} : ∀ {l : List α}, (∀ a ∈ l, p a = true) → l.takeWhile p = l := by
  intro l
  induction l with
  | nil => intro _; rfl
  | cons a l ih => intro h; rw [List.takeWhile_cons_of_pos (h a (by simp)), ih (fun b hb => h b (by simp [hb]))]

/-- empty, or ending in a newline -/
def EndsNL (s : List UInt8) : Prop := s = [] ∨ ∃ t, s = t ++ [0x0A]

theorem EndsNL.mem {s : List UInt8} (h : EndsNL s) (hne : s ≠ []) : (0x0A : UInt8) ∈ s := by
  rcases h with rfl | ⟨t, rfl⟩
  · simp at hne
  · simp

theorem EndsNL.of_append {a b : List UInt8} (h : EndsNL (a ++ b)) : EndsNL b := by
  rcases h with h | ⟨t, h⟩
  · simp at h; exact Or.inl h.2
  · rcases List.eq_nil_or_concat b with rfl | ⟨b', x, rfl⟩
    · exact Or.inl rfl
    · right
      refine ⟨b', ?_⟩
      rw [List.concat_eq_append] at h ⊢
      rw [← List.append_assoc] at h
      have := (List.append_inj' h rfl).2
      rw [this]

theorem longHex_tail {b : UInt8} {s : List UInt8} (h : ¬ LongHex (b :: s)) : ¬ LongHex s :=
  fun hl => h (hl.append_left [b])

theorem readWord_total {s : List UInt8} (hn : isNondigit (top s) = true) (ha : ∀ b ∈ s, b.toNat < 128) : ∃ r, readWord s = .ok r := by
  cases s with
  | nil => exact absurd hn (by decide)
  | cons b s =>
    have hsp := (span_sound isWordChar s).1
    have : tableGet keywords (b :: (span isWordChar s).1) = .ok _ := tableGet_ascii _ (by
      intro c hc
      simp at hc
      rcases hc with rfl | hc
      · exact ha c (by simp)
      · exact ha c (by rw [hsp]; simp [hc]))
    rw [readWord]
    rw [this, Out.ok_bind]
    split
    · exact ⟨_, rfl⟩
    · exact ⟨_, rfl⟩

theorem intConstant_total (base : Int) (dig : Int → Option Int) {s : List UInt8} (ha : ∀ b ∈ s, b.toNat < 128) :
    (∃ r, intConstant base dig s = .ok r) ∨ intConstant base dig s = .err := by
  unfold intConstant readDigits
  split
  · left
    rw [Out.ok_bind]
    have hsp := (span_sound (fun c => (dig c).isSome) s).1
    generalize span (fun c => (dig c).isSome) s = pr at hsp
    obtain ⟨ds, r⟩ := pr
    dsimp only at hsp ⊢
    have har : ∀ b ∈ r, b.toNat < 128 := fun b hb => ha b (by rw [hsp]; simp [hb])
    unfold readSuffix
    dsimp only
    rw [buffer_ascii 3 r (fun b hb => har b (List.mem_of_mem_take hb))]
    obtain ⟨x, hx⟩ := longest_ascii suffixes (r.take 3) (fun b hb => har b (List.mem_of_mem_take hb)) (r.take 3).length
    rw [hx, Out.ok_bind]
    cases x with
    | none => exact ⟨_, rfl⟩
    | some p => exact ⟨_, rfl⟩
  · right; rfl

theorem readInteger_total {s : List UInt8} (ha : ∀ b ∈ s, b.toNat < 128) : (∃ r, readInteger s = .ok r) ∨ readInteger s = .err := by
  unfold readInteger
  split
  · exact intConstant_total _ _ (fun b hb => ha b (List.mem_of_mem_drop hb))
  · split
    · exact intConstant_total _ _ ha
    · exact intConstant_total _ _ ha

theorem readTok_total {s : List UInt8} (ha : ∀ b ∈ s, b.toNat < 128) (hnl : EndsNL s) (hl : ¬ LongHex s) :
    (∃ r, readTok s = .ok r) ∨ readTok s = .err := by
  unfold readTok
  split
  · rename_i h; exact Or.inl (readWord_total h ha)
  · split
    · exact readInteger_total ha
    · split
      · rename_i h
        have hc := cons_of_top (q := 0x27) (by decide) h
        generalize s.tail = u at hc
        subst hc
        have hl1 := longHex_tail hl
        have hnl1 : EndsNL u := EndsNL.of_append (a := [0x27]) hnl
        have hune : u ≠ [] := by
          rintro rfl
          rcases hnl with h | ⟨t, h⟩
          · simp at h
          · have := congrArg List.getLast? h; simp at this
        unfold readChar
        split
        · exact Or.inr rfl
        · rename_i ht
          rcases literalItem_outcome u with ⟨⟨c, s1⟩, h⟩ | h | ⟨h, hlx⟩ | ⟨h, rfl⟩
          · obtain ⟨it, a1, a2, _, _⟩ := literalItem_sound (q := 0x27) h (head_ne_of_top ht)
            rw [h, Out.ok_bind]
            dsimp only
            have hnl2 : EndsNL s1 := by rw [a1] at hnl1; exact hnl1.of_append
            have hm : (0x0A : UInt8) ∈ s1 := by
              have := EndsNL.mem hnl1 hune
              rw [a1, List.mem_append] at this
              rcases this with h | h
              · exact absurd h (Item.text_no_newline a2)
              · exact h
            rcases charRest_outcome (s1.length + 1) s1 (by omega) with ⟨s2, h'⟩ | h' | ⟨h', hlx⟩ | ⟨h', hn⟩
            · rw [h']; exact Or.inl ⟨_, rfl⟩
            · rw [h']; exact Or.inr rfl
            · exact absurd (by rw [a1]; exact hlx.append_left _) hl1
            · exact absurd hm hn
          · rw [h]; exact Or.inr rfl
          · exact absurd hlx hl1
          · exact absurd rfl hune
      · split
        · rename_i h
          have hc := cons_of_top (q := 0x22) (by decide) h
          generalize s.tail = u at hc
          subst hc
          have hl1 := longHex_tail hl
          have hnl1 : EndsNL u := EndsNL.of_append (a := [0x22]) hnl
          have hune : u ≠ [] := by
            rintro rfl
            rcases hnl with h | ⟨t, h⟩
            · simp at h
            · have := congrArg List.getLast? h; simp at this
          unfold readString
          rcases strLoop_outcome (u.length + 1) u (by omega) with ⟨⟨cs, s2⟩, h'⟩ | h' | ⟨h', hlx⟩ | ⟨h', hn⟩
          · rw [h']; exact Or.inl ⟨_, rfl⟩
          · rw [h']; exact Or.inr rfl
          · exact absurd hlx hl1
          · exact absurd (EndsNL.mem hnl1 hune) hn
        · by_cases hs : s = []
          · subst hs; exact Or.inl ⟨(.eof, []), rfl⟩
          · rcases readPunct_ascii (fun b hb => ha b (List.mem_of_mem_take hb)) hs with ⟨h, _⟩ | ⟨p, h, _⟩
            · exact Or.inr h
            · exact Or.inl ⟨_, h⟩

theorem lexLoop_total : ∀ (fuel : Nat) (s : List UInt8), s.length < fuel → (∀ b ∈ s, b.toNat < 128) → (0 : UInt8) ∉ s → EndsNL s → ¬ LongHex s →
    (∃ ts, lexLoop fuel s = .ok (ts ++ [.eof]) ∧ Tok.eof ∉ ts) ∨ lexLoop fuel s = .err := by
  intro fuel
  induction fuel with
  | zero => intro s h; simp at h
  | succ f ih =>
    intro s hf ha hn hnl hl
    rcases readTok_total ha hnl hl with ⟨⟨t, s1⟩, h⟩ | h
    · rw [lexLoop, h, Out.ok_bind]
      dsimp only
      rcases readTok_sound hn h with ⟨e1, e2⟩ | ⟨l, e1, e2, e3, e4⟩
      · rw [if_pos e1]; exact Or.inl ⟨[], rfl, by simp⟩
      · rw [if_neg e4]
        obtain ⟨sp, f1, f2⟩ := skipSpaces_spec s1
        have hs : s = (l.text ++ sp) ++ skipSpaces s1 := by rw [List.append_assoc, ← f1]; exact e1
        have hlen : (skipSpaces s1).length < f := by
          obtain ⟨b, r, g, _⟩ := text_first e2
          have := congrArg List.length hs
          rw [g] at this
          simp at this
          omega
        rcases ih (skipSpaces s1) hlen (fun b hb => ha b (by rw [hs]; simp [hb])) (fun h => hn (by rw [hs]; simp [h]))
          (by rw [hs] at hnl; exact hnl.of_append) (fun h => hl (by rw [hs]; exact h.append_left _)) with ⟨ts, g, g2⟩ | g
        · rw [g]
          refine Or.inl ⟨t :: ts, rfl, ?_⟩
          intro hm
          simp only [List.mem_cons] at hm
          rcases hm with h | h
          · exact e4 h.symm
          · exact g2 h
        · rw [g]; exact Or.inr rfl
    · rw [lexLoop, h]; exact Or.inr rfl

end Lexer
end Umlcc
