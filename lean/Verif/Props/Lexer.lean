import Verif.Lemma.Literal
/-! Property theorems C07–C14, C57, C58: from the bytes of the source file to tokens, and strings back to text. -/
namespace Umlcc
open Lexer LSpec

/-! ### C07 -/

/-- C07 fails: a file whose last character literal is not closed keeps the lexer reading `EOF` for ever (and pushing
it into a growing buffer for strings). -/
theorem C07_unterminated_literal_hangs_violated : tokenize (ascii "'a") = .hang ∧ tokenize (ascii "x = \"abc") = .hang := by
  constructor <;> decide +kernel

/-- C07 also fails outside ASCII: a string argument beginning with a UTF-8 letter makes the punctuator lookup
compute a negative table index. -/
theorem C07_non_ascii_crashes_violated : tokenize (ascii "puts(\"" ++ [0xC3, 0xA9] ++ ascii "\");\n") = .ub := by decide +kernel

/-- C07 for text files of ASCII characters that end in a newline, without eight or more digits in a hexadecimal escape: tokenising
finishes with an error or with a list of tokens of which the last one, and no other, is the end-of-file token.
Missing: the inputs above. -/
theorem C07_lexing_terminates_partial (text : List UInt8) (hascii : ∀ b ∈ text, 0 < b.toNat ∧ b.toNat < 128)
    (hnl : ∃ t, text = t ++ [0x0A])
    (hhex : ¬ ∃ pre ds post, text = pre ++ (ascii "\\x" ++ ds ++ post) ∧ ds.all isHex = true ∧ 8 ≤ ds.length) :
    tokenize text = .err ∨ ∃ ts, tokenize text = .ok (ts ++ [.eof]) ∧ Tok.eof ∉ ts := by
  have h0 : (0 : UInt8) ∉ text := fun h => by have := (hascii 0 h).1; simp at this
  have hne : text ≠ [] := by rintro rfl; obtain ⟨t, h⟩ := hnl; simp at h
  have hc : fileContent text = .ok text := by
    unfold fileContent
    rw [if_neg hne]
    congr 1
    apply takeWhile_self
    intro b hb; simp; rintro rfl; exact h0 hb
  unfold tokenize lex
  rw [hc, Out.ok_bind]
  obtain ⟨sp, h1, h2⟩ := skipSpaces_spec text
  have hsub : ∀ b ∈ skipSpaces text, b ∈ text := fun b hb => by rw [h1]; simp [hb]
  have hlen : (skipSpaces text).length < text.length + 1 := by
    have := congrArg List.length h1; simp at this; omega
  have hend : EndsNL (skipSpaces text) := by
    apply EndsNL.of_append (a := sp)
    rw [← h1]; exact Or.inr hnl
  have hlh : ¬ LongHex (skipSpaces text) := by
    intro h
    apply hhex
    have h' := h.append_left sp
    rw [← h1] at h'
    exact h'
  rcases lexLoop_total _ _ hlen (fun b hb => (hascii b (hsub b hb)).2) (fun h => h0 (hsub _ h)) hend hlh with h | h
  · exact Or.inr h
  · exact Or.inl h

example : (∀ b ∈ ascii "int f() { return '\\x41'; }\n", 0 < b.toNat ∧ b.toNat < 128) ∧
    (∃ t, ascii "int f() { return '\\x41'; }\n" = t ++ [0x0A]) :=
  ⟨by decide +kernel, ascii "int f() { return '\\x41'; }", by decide +kernel⟩

/-! ### C08 -/

/-- C08: among the punctuators that are a prefix of the remaining input the longest is returned, and exactly its
characters are consumed. `_partial`: the next three bytes must be ASCII (the violation below shows this is needed). -/
theorem C08_maximal_munch_partial (s : List UInt8) (hascii : ∀ b ∈ s.take 3, b.toNat < 128) (hsome : ∃ p, pctText p <+: s) :
    ∃ p rest, readTok s = .ok (.punct p, rest) ∧ s = pctText p ++ rest ∧
      ∀ q, pctText q <+: s → (pctText q).length ≤ (pctText p).length := by
  obtain ⟨p0, h0⟩ := hsome
  have hne : s ≠ [] := by
    rintro rfl
    have := h0.length_le
    have h1 := (pctText_len p0).1
    simp at this; rw [this] at h1; simp at h1
  have htok : readTok s = readPunct s := by
    cases s with
    | nil => simp at hne
    | cons c r =>
      have hc : c ∈ pctText p0 := by
        have h1 := (pctText_len p0).1
        obtain ⟨t, ht⟩ := h0
        cases hp : pctText p0 with
        | nil => rw [hp] at h1; simp at h1
        | cons x xs => rw [hp] at ht; simp at ht; simp [ht.1]
      have := pctText_chars p0 c hc
      exact readTok_punct _ this.2.2.1 this.2.2.2.2.2 this.2.2.2.1 this.2.2.2.2.1
  rcases readPunct_ascii hascii hne with ⟨_, h⟩ | ⟨p, h1, h2, h3⟩
  · exact absurd h0 (h p0)
  · refine ⟨p, _, by rw [htok]; exact h1, ?_, h3⟩
    conv => lhs; rw [← List.take_append_drop (pctText p).length s]
    rw [← List.prefix_iff_eq_take.1 h2]

example : (∀ b ∈ (ascii "<<=x").take 3, b.toNat < 128) ∧ ∃ p, pctText p <+: ascii "<<=x" := ⟨by decide, .less, by decide⟩
example : readTok (ascii "<<=x") = .ok (.punct .lessLessEqual, ascii "x") := by decide +kernel

/-- C08 fails when a byte above 127 follows the punctuator closely: `("é` hashes to a negative index. -/
theorem C08_non_ascii_violated : pctText .lparen <+: [0x28, 0x22, 0xC3] ∧ readTok [0x28, 0x22, 0xC3] = .ub := by
  refine ⟨by decide, by decide +kernel⟩

/-! ### C09 -/

/-- C09: a letter starts a word, read to the end of the longest run of letters, digits and underscores: a keyword token
if the run spells a keyword, else an identifier with that spelling. (`hnul`: the content handed to the lexer contains
no NUL, `fileContent`.) -/
theorem C09_words (c : UInt8) (r rest : List UInt8) (hc : isLetter c = true) (hr : r.all isWord = true)
    (hrest : ∀ b, rest.head? = some b → isWord b = false) (hnul : (0 : UInt8) ∉ rest) :
    (∀ k, kwText k = c :: r → readTok (c :: r ++ rest) = .ok (.kw k, rest)) ∧
    ((∀ k, kwText k ≠ c :: r) → readTok (c :: r ++ rest) = .ok (.ident (c :: r), rest)) := by
  have hst : Stops (fun b => isWord b || b == 0) rest := by
    cases rest with
    | nil => trivial
    | cons b t =>
      simp at hnul
      show (isWord b || b == 0) = false
      rw [hrest b rfl]
      have : b ≠ 0 := fun e => hnul.1 e.symm
      simp [this]
  rw [List.cons_append, readTok_letter _ hc, ← List.cons_append, readWord_eq c r rest hc hr hst]
  constructor
  · intro k hk
    rw [(keywords_lookup _ k).2 hk.symm]
  · intro hk
    cases h : keywords.lookup (c :: r) with
    | none => rfl
    | some k => exact absurd ((keywords_lookup _ k).1 h).symm (hk k)

example : readTok (ascii "integer x") = .ok (.ident (ascii "integer"), ascii " x") ∧
    readTok (ascii "int*p") = .ok (.kw .kint, ascii "*p") := by constructor <;> decide +kernel
example : isLetter 0x69 = true ∧ (ascii "nteger").all isWord = true ∧ (∀ b, (ascii " x").head? = some b → isWord b = false) ∧
    (0 : UInt8) ∉ ascii " x" := by
  refine ⟨by decide, by decide, ?_, by decide⟩
  intro b h; simp [ascii] at h; subst h; decide

/-! ### C10, C11 -/

/-- C10: a well-formed constant followed by a character that cannot continue it is read as one token with the value its digits spell, and
exactly the prefix, the digits and the suffix are consumed. `_partial`: the value must fit the 64-bit type of the suffix's
signedness, and the next three bytes must be ASCII. -/
theorem C10_integer_value_partial (base : Base) (ds sfx rest : List UInt8) (t : ILType) (hd : base.Digits ds) (hs : sfx ∈ suffix t)
    (hrest : ∀ b, rest.head? = some b → isWord b = false) (hascii : ∀ b ∈ rest.take 3, b.toNat < 128)
    (hfit : number base.num ds ≤ largest t) :
    readTok (base.lead ++ ds ++ sfx ++ rest) = .ok (.int ⟨t, number base.num ds⟩, rest) := by
  have hst : Stops isWord rest := by
    cases rest with
    | nil => trivial
    | cons b r => exact hrest b rfl
  have hfirst : ∃ c r, base.lead ++ (ds ++ (sfx ++ rest)) = c :: r ∧ isDigit c = true := by
    cases base with
    | dec =>
      obtain ⟨⟨d, r, rfl, _⟩, hall⟩ := hd
      simp at hall
      exact ⟨d, _, rfl, hall.1⟩
    | oct => obtain ⟨⟨r, rfl⟩, _⟩ := hd; exact ⟨0x30, _, rfl, by decide⟩
    | hex x => exact ⟨0x30, _, rfl, by decide⟩
  obtain ⟨c, r, e, hc⟩ := hfirst
  rw [List.append_assoc, List.append_assoc, e, readTok_digit r hc, ← e]
  exact readInteger_complete hd hs hascii hst hfit

example : (Base.hex 0x78).Digits (ascii "fF0") ∧ ascii "uL" ∈ suffix .ulong ∧ number 16 (ascii "fF0") = 4080 ∧
    number 16 (ascii "fF0") ≤ largest .ulong ∧ (∀ b, (ascii ";\n").head? = some b → isWord b = false) := by
  refine ⟨⟨by decide, by decide, by decide⟩, by decide, by decide, by decide, ?_⟩
  intro b h; simp [ascii] at h; subst h; decide
example : readTok (ascii "0xfF0uL;\n") = .ok (.int ⟨.ulong, 4080⟩, ascii ";\n") := by decide +kernel

/-- C10 fails for unsuffixed constants from 2^63 to 2^64-1, which hexadecimal constants may denote: the value is clamped. -/
theorem C10_clamped_violated : number 16 (ascii "FFFFFFFFFFFFFFFF") = 2 ^ 64 - 1 ∧
    readTok (ascii "0xFFFFFFFFFFFFFFFF;") = .ok (.int ⟨.int, 2 ^ 63 - 1⟩, ascii ";") := by
  constructor <;> decide +kernel

/-- largest value of a type (LP64) -/
def maxOf : ILType → Nat
  | .int => 2 ^ 31 - 1
  | .uint => 2 ^ 32 - 1
  | .long | .llong => 2 ^ 63 - 1
  | .ulong | .ullong => 2 ^ 64 - 1

/-- the types tried for a base and a suffix (named by the type the suffix asks for first), C11 6.4.4.1p5 -/
def candidates (base : Base) (sfx : ILType) : List ILType :=
  match base, sfx with
  | .dec, .int => [.int, .long, .llong]
  | _, .int => [.int, .uint, .long, .ulong, .llong, .ullong]
  | _, .uint => [.uint, .ulong, .ullong]
  | .dec, .long => [.long, .llong]
  | _, .long => [.long, .ulong, .llong, .ullong]
  | _, .ulong => [.ulong, .ullong]
  | .dec, .llong => [.llong]
  | _, .llong => [.llong, .ullong]
  | _, .ullong => [.ullong]

/-- C11: the token's type is the first candidate that holds the value. `_partial`: only for values that fit the first candidate;
the code never tries a second one. -/
theorem C11_integer_type_partial (base : Base) (ds sfx rest : List UInt8) (t u : ILType) (hd : base.Digits ds) (hs : sfx ∈ suffix t)
    (hrest : ∀ b, rest.head? = some b → isWord b = false) (hascii : ∀ b ∈ rest.take 3, b.toNat < 128)
    (hfirst : number base.num ds ≤ maxOf t)
    (hu : (candidates base t).find? (fun u => decide (number base.num ds ≤ maxOf u)) = some u) :
    readTok (base.lead ++ ds ++ sfx ++ rest) = .ok (.int ⟨u, number base.num ds⟩, rest) := by
  have ht : u = t := by
    cases base <;> cases t <;> simp_all [candidates]
  subst ht
  apply C10_integer_value_partial base ds sfx rest u hd hs hrest hascii
  cases u <;> simp [maxOf, largest] at * <;> omega

example : (candidates .dec .int).find? (fun u => decide (number 10 (ascii "2147483647") ≤ maxOf u)) = some .int := by decide +kernel

/-- C11 fails at 2^31: the standard's type is `long`, the code's is `int` (with a value `int` cannot hold). -/
theorem C11_int_too_small_violated :
    (candidates .dec .int).find? (fun u => decide (number 10 (ascii "2147483648") ≤ maxOf u)) = some .long ∧
    readTok (ascii "2147483648;") = .ok (.int ⟨.int, 2147483648⟩, ascii ";") := by
  constructor <;> decide +kernel

/-- C11 fails with a suffix too: `4294967296u` should be `unsigned long`. -/
theorem C11_uint_too_small_violated :
    (candidates .dec .uint).find? (fun u => decide (number 10 (ascii "4294967296") ≤ maxOf u)) = some .ulong ∧
    readTok (ascii "4294967296u;") = .ok (.int ⟨.uint, 4294967296⟩, ascii ";") := by
  constructor <;> decide +kernel

/-! ### C12 -/

/-- C12: any literal body of characters and escapes, each denoting a byte, decodes to those bytes plus a NUL,
and the literal ends at its quote. (`hmunch` fixes the reading of escapes: an octal escape with fewer than three digits is
not followed by an octal digit, a hexadecimal one not by a hexadecimal digit. `hbyte` is C11's constraint.) -/
theorem C12_string_escapes (is : List Item) (rest : List UInt8) (hwf : ∀ i ∈ is, i.WF 0x22) (hmunch : Munch is)
    (hbyte : ∀ i ∈ is, i.value ≤ 255) :
    readTok (0x22 :: itemsText is ++ 0x22 :: rest) = .ok (.str (is.map (fun i => toByte i.value) ++ [0]), rest) := by
  show readString (itemsText is ++ 0x22 :: rest) = _
  unfold readString
  rw [strLoop_complete is _ rest (by have := itemsText_length is; simp; omega) hwf hmunch (fun i hi => by have := hbyte i hi; omega)]
  rfl

/-- C12, converse: whatever is read as a string is a body of well-formed items read by maximal munch. -/
theorem C12_only_such_strings (s rest bs : List UInt8) (h : readTok (0x22 :: s) = .ok (.str bs, rest)) :
    ∃ is, s = itemsText is ++ 0x22 :: rest ∧ (∀ i ∈ is, i.WF 0x22) ∧ Munch is ∧ bs = is.map (fun i => toByte i.value) ++ [0] := by
  have h : readString s = .ok (.str bs, rest) := h
  unfold readString at h
  rw [Out.bind_eq_ok] at h
  obtain ⟨⟨cs, s1⟩, h1, h2⟩ := h
  simp at h2
  obtain ⟨rfl, rfl⟩ := h2
  obtain ⟨is, a1, a2, a3, a4⟩ := strLoop_sound _ _ _ _ h1
  exact ⟨is, a1, a2, a3, by rw [a4]⟩

/-- `"a\n\1018\x7e"` -/
example : (∀ i ∈ [Item.plain 0x61, .simple 0x6E, .oct (ascii "101"), .plain 0x38, .hex (ascii "7e")], i.WF 0x22 ∧ i.value ≤ 255) ∧
    Munch [Item.plain 0x61, .simple 0x6E, .oct (ascii "101"), .plain 0x38, .hex (ascii "7e")] ∧
    readTok (ascii "\"a\\n\\1018\\x7e\" ;") = .ok (.str [0x61, 0x0A, 0x41, 0x38, 0x7E, 0], ascii " ;") := by
  refine ⟨?_, ?_, by decide +kernel⟩
  · intro i hi
    simp at hi
    rcases hi with rfl | rfl | rfl | rfl | rfl <;> refine ⟨?_, by decide⟩ <;> simp [Item.WF] <;> decide
  · simp [Munch]; decide

/-! ### C13, C57 -/

/-- C13: the text printed for an ASCII string, read again as a literal, denotes the same bytes (the NUL is what reading
appends). `_partial`: bytes above 127 are excluded. -/
theorem C13_display_round_trip_partial (bs : List UInt8) (hascii : ∀ b ∈ bs, b.toNat < 128) (rest : List UInt8) :
    ∃ text, Literal.display bs = .ok text ∧ readTok (text ++ rest) = .ok (.str (bs ++ [0]), rest) := by
  refine ⟨_, Literal.display_ascii hascii, ?_⟩
  rw [Literal.pieces_items hascii]
  have e : (0x22 :: itemsText (bs.map Literal.itemOf) ++ [0x22]) ++ rest = 0x22 :: (itemsText (bs.map Literal.itemOf) ++ 0x22 :: rest) := by simp
  rw [e]
  show readString (itemsText (bs.map Literal.itemOf) ++ 0x22 :: rest) = _
  unfold readString
  rw [strLoop_complete _ _ rest (by have := itemsText_length (bs.map Literal.itemOf); simp at this ⊢; omega) ?_ (Literal.pieces_munch hascii) ?_]
  · rw [Out.ok_bind]
    dsimp only
    congr 4
    rw [List.map_map]
    conv => rhs; rw [← List.map_id bs]
    apply List.map_congr_left
    intro b hb
    exact (Literal.piece_ascii b (hascii b hb)).2.2.2.2.1
  · intro i hi
    simp at hi
    obtain ⟨b, hb, rfl⟩ := hi
    exact Literal.itemOf_wf (hascii b hb)
  · intro i hi
    simp at hi
    obtain ⟨b, hb, rfl⟩ := hi
    exact (Literal.piece_ascii b (hascii b hb)).2.2.2.2.2.2.2.2

example : Literal.display [0x07, 0x31, 0x22, 0x01, 0x31, 0] = .ok (ascii "\"\\a1\\\"\\0011\\000\"") := by decide +kernel

/-- C13 fails above 127: the string literal `"\x80"` (two bytes) overflows the print buffer. -/
theorem C13_buffer_overflow_violated : Literal.display [0x80, 0] = .ub := by decide +kernel

/-- C13 fails above 127: where the buffer is large enough, the text printed for `"éaaaa"` denotes other bytes. -/
theorem C13_wrong_bytes_violated :
    ∃ text, Literal.display [0xC3, 0xA9, 0x61, 0x61, 0x61, 0x61, 0] = .ok text ∧
      readTok text = .ok (.str [0xFF, 0xFF, 0x61, 0x61, 0x61, 0x61, 0, 0], []) :=
  ⟨ascii "\"\\377\\377aaaa\\000\"", by decide +kernel, by decide +kernel⟩

/-- C57: the assembler decodes the printed text to the bytes of the literal. `_partial`: without bytes above 127, `\a` and `\v`. -/
theorem C57_assembler_reads_bytes_partial (bs : List UInt8) (hascii : ∀ b ∈ bs, b.toNat < 128 ∧ b ≠ 7 ∧ b ≠ 11) :
    ∃ text, Literal.display bs = .ok text ∧ Gas.decode text = some bs := by
  refine ⟨_, Literal.display_ascii (fun b hb => (hascii b hb).1), ?_⟩
  have hok : ∀ b ∈ bs, Literal.gasOk b = true := fun b hb => Literal.gas_ascii b (hascii b hb)
  have := Literal.body_pieces hok ((Literal.pieces bs ++ [0x22]).length + 1) [] (by have := Literal.pieces_length hok; simp; omega)
  show (match Gas.body ((Literal.pieces bs ++ [0x22]).length + 1) (Literal.pieces bs ++ [0x22]) with
    | some (bs, []) => some bs | _ => none) = some bs
  rw [this]

example : ∀ b ∈ [(0x01 : UInt8), 0x31, 0x5C, 0x22, 0x0A, 0], b.toNat < 128 ∧ b ≠ 7 ∧ b ≠ 11 := by decide

/-- C57 fails for the alert and vertical-tab characters: the assembler knows neither `\a` nor `\v`. -/
theorem C57_alert_violated : ∃ text, Literal.display [0x07, 0x0B, 0] = .ok text ∧ Gas.decode text = some [0x61, 0x76, 0] :=
  ⟨ascii "\"\\a\\v\\000\"", by decide +kernel, by decide +kernel⟩

/-! ### C14, C58 -/

/-- C14: lexemes separated by non-empty white space lex to exactly their tokens. `_partial`: the text is ASCII and constants are in range. -/
theorem C14_layout_partial (lead : List UInt8) (ls : List (Lexeme × List UInt8)) (hlead : lead.all isSpace = true)
    (hwf : ∀ p ∈ ls, p.1.WF ∧ p.1.Fits) (hsp : ∀ p ∈ ls, p.2.all isSpace = true) (hsep : ∀ p ∈ ls.dropLast, p.2 ≠ [])
    (hascii : ∀ b ∈ layout lead ls, b.toNat < 128) :
    lex (layout lead ls) = .ok (ls.map (fun p => p.1.tok) ++ [.eof]) := by
  unfold lex
  have hsk : skipSpaces (layout lead ls) = (ls.map fun p => p.1.text ++ p.2).flatten := by
    apply skipSpaces_append hlead
    cases ls with
    | nil => trivial
    | cons q qs =>
      obtain ⟨b, r, e1, e2, e3⟩ := text_first (hwf q (by simp)).1
      simp only [List.map_cons, List.flatten_cons, e1, List.cons_append]
      show (isSpace b || b == 0) = false
      rw [e2]; simpa using e3
  rw [hsk]
  apply lexLoop_layout
  · have : ls.length ≤ (ls.map fun p => p.1.text ++ p.2).flatten.length := by
      clear hsep hsk hascii
      induction ls with
      | nil => simp
      | cons q qs ih =>
        have := ih (fun p hp => hwf p (by simp [hp])) (fun p hp => hsp p (by simp [hp]))
        obtain ⟨b, r, e1, _, _⟩ := text_first (hwf q (by simp)).1
        simp only [List.map_cons, List.flatten_cons, e1, List.cons_append, List.length_cons, List.length_append] at this ⊢
        omega
    simp only [layout, List.length_append]
    omega
  · exact fun p hp => ⟨(hwf p hp).1, (hwf p hp).2, hsp p hp⟩
  · exact hsep
  · intro b hb; exact hascii b (by simp only [layout, List.mem_append]; exact Or.inr hb)

/-- `- - 1 ->` with assorted spacing -/
example : lex (layout [0x0A] [(.punct .minus, [0x20, 0x09]), (.punct .minus, [0x0A]), (.int .dec (ascii "1") .int [], [0x20]), (.punct .arrow, [])]) =
    .ok [.punct .minus, .punct .minus, .int ⟨.int, 1⟩, .punct .arrow, .eof] := by decide +kernel

/-- C14 fails for literals with bytes above 127: the token before one is not even read safely. -/
theorem C14_non_ascii_violated :
    lex (layout [] [(.int .dec (ascii "1") .int [], [0x20]), (.str [.plain 0xC3, .plain 0xA9], [])]) = .ub := by decide +kernel

/-- C58: when tokenising succeeds, the source is the concatenation of the spellings of the tokens returned, in order, and white space:
nothing is skipped. `_partial`: the file contains neither NUL nor 0xFF. -/
theorem C58_nothing_skipped_partial (bytes : List UInt8) (ts : List Tok) (hb : ∀ b ∈ bytes, b ≠ 0 ∧ b ≠ 0xFF) (h : tokenize bytes = .ok ts) :
    ∃ (lead : List UInt8) (ls : List (Lexeme × List UInt8 × Tok)),
      bytes = layout lead (ls.map fun p => (p.1, p.2.1)) ∧ ts = ls.map (fun p => p.2.2) ++ [.eof] ∧ lead.all isSpace = true ∧
      ∀ p ∈ ls, p.1.WF ∧ p.2.1.all isSpace = true ∧ (p.1.Fits → p.2.2 = p.1.tok) := by
  unfold tokenize at h
  rw [Out.bind_eq_ok] at h
  obtain ⟨c, h1, h2⟩ := h
  have hc : c = bytes := by
    unfold fileContent at h1
    split at h1
    · simp at h1
    · simp only [Out.ok.injEq] at h1
      rw [← h1]; apply takeWhile_self
      intro b hb'; simp; exact (hb b hb').1
  subst hc
  unfold lex at h2
  obtain ⟨sp, e1, e2⟩ := skipSpaces_spec c
  have hsub : ∀ b ∈ skipSpaces c, b ∈ c := fun b hb => by rw [e1]; simp [hb]
  obtain ⟨ls, tail, g1, g2, g3, g4⟩ := lexLoop_sound _ _ _ (fun h0 => (hb 0 (hsub 0 h0)).1 rfl) h2
  have ht : tail = [] := by
    rcases g2 with h | ⟨r, h⟩
    · exact h
    · exact absurd rfl (hb 0xFF (hsub 0xFF (by rw [g1, h]; simp))).2
  refine ⟨sp, ls, ?_, g3, ?_, fun p hp => ⟨(g4 p hp).1, (g4 p hp).2.1, (g4 p hp).2.2.1⟩⟩
  · unfold layout
    rw [List.map_map]
    rw [ht, List.append_nil] at g1
    conv => lhs; rw [e1, g1]
    rfl
  · rw [List.all_eq_true]
    intro b hb'
    rcases e2 b hb' with h | rfl
    · exact h
    · exact absurd rfl (hb 0 (by rw [e1]; simp [hb'])).1

example : (∀ b ∈ ascii "x+=1;", b ≠ 0 ∧ b ≠ 0xFF) ∧
    tokenize (ascii "x+=1;") = .ok [.ident (ascii "x"), .punct .plusEqual, .int ⟨.int, 1⟩, .punct .semicolon, .eof] := by
  constructor <;> decide +kernel

/-- C58 fails: everything after a NUL or after a byte 0xFF (where a token could start) is silently ignored. -/
theorem C58_rest_ignored_violated :
    tokenize (ascii "x;" ++ 0 :: ascii " y @") = .ok [.ident (ascii "x"), .punct .semicolon, .eof] ∧
    tokenize (ascii "x; " ++ 0xFF :: ascii " y @") = .ok [.ident (ascii "x"), .punct .semicolon, .eof] := by
  constructor <;> decide +kernel

end Umlcc
