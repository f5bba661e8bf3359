import Verif.Lemma.LexLit
/-! Reading single tokens (helper lemmas). -/
namespace Umlcc
namespace Lexer
open LSpec (isLetter isDigit isOct isHex isWord Item Munch itemsText Lexeme)

/-! ### runs of characters -/

theorem span_append (p : Int → Bool) : ∀ (a rest : List UInt8), (∀ b ∈ a, p (charVal b) = true) → Stops (fun b => p (charVal b)) rest →
    span p (a ++ rest) = (a, rest) := by
  intro a
  induction a with
  | nil =>
    intro rest _ hs
    cases rest with
    | nil => rfl
    | cons b r =>
      have : p (charVal b) = false := hs
      simp [span, this]
  | cons x xs ih =>
    intro rest h hs
    have := ih rest (fun b hb => h b (by simp [hb])) hs
    simp [span, h x (by simp), this]

theorem span_sound (p : Int → Bool) : ∀ (s : List UInt8), s = (span p s).1 ++ (span p s).2 ∧ (∀ b ∈ (span p s).1, p (charVal b) = true) ∧
    Stops (fun b => p (charVal b)) (span p s).2 := by
  intro s
  induction s with
  | nil => simp [span, Stops]
  | cons b s ih =>
    simp only [span]
    by_cases h : p (charVal b) = true
    · simp only [h, if_true]
      refine ⟨by simp [← ih.1], ?_, ih.2.2⟩
      intro c hc; simp at hc; rcases hc with rfl | hc
      · exact h
      · exact ih.2.1 c hc
    · simp only [h]
      simp [Stops]
      simpa using h

theorem buffer_prefix : ∀ (n : Nat) (s : List UInt8), ∃ t, s = buffer n s ++ t ∧ (buffer n s).length ≤ n := by
  intro n
  induction n with
  | zero => intro s; exact ⟨s, by simp [buffer], by simp [buffer]⟩
  | succ n ih =>
    intro s
    cases s with
    | nil => exact ⟨[], by simp [buffer], by simp [buffer]⟩
    | cons b s =>
      simp only [buffer]
      split
      · exact ⟨b :: s, rfl, by simp⟩
      · obtain ⟨t, h1, h2⟩ := ih s
        exact ⟨t, by rw [List.cons_append, ← h1], by simp; omega⟩

theorem buffer_ascii : ∀ (n : Nat) (s : List UInt8), (∀ b ∈ s.take n, b.toNat < 128) → buffer n s = s.take n := by
  intro n
  induction n with
  | zero => intro s _; simp [buffer]
  | succ n ih =>
    intro s h
    cases s with
    | nil => simp [buffer]
    | cons b s =>
      have hb : charVal b ≠ -1 := by
        intro e; rw [charVal_eof] at e
        have := h b (by simp); rw [e] at this; exact absurd this (by decide)
      simp only [buffer, if_neg hb, List.take_succ_cons]
      rw [ih s (fun c hc => h c (by rw [List.take_succ_cons]; exact List.mem_cons_of_mem _ hc))]

/-! ### table lookups -/

theorem find_some {K V : Type} [DecidableEq K] (slots : List (Slot K V)) (key : K) (orig : Nat) : ∀ (fuel hash i : Nat),
    HMap.find slots key orig fuel hash = .ok (some i) → ∃ v, slots[i]? = some (.cell key v false) := by
  intro fuel
  induction fuel with
  | zero => intro hash i h; simp [HMap.find] at h
  | succ f ih =>
    intro hash i h
    simp only [HMap.find] at h
    split at h
    · simp at h
    · simp at h
    · rename_i k v d hs
      split at h
      · rename_i hc
        simp at h; subst h
        obtain ⟨rfl, rfl⟩ := hc
        exact ⟨v, hs⟩
      · split at h
        · simp at h
        · exact ih _ _ h

theorem get_some_mem {K V : Type} [DecidableEq K] {hash : K → Int} {m : HMap K V} {k : K} {v : V} (h : HMap.get hash m k = .ok (some v)) :
    Slot.cell k v false ∈ m.slots := by
  simp only [HMap.get, Out.bind_eq_ok] at h
  obtain ⟨o, _, r, h2, h3⟩ := h
  cases r with
  | none => simp at h3
  | some i =>
    obtain ⟨w, hw⟩ := find_some _ _ _ _ _ _ h2
    simp only [hw, Out.pure_eq, Out.ok.injEq, Option.some.injEq] at h3
    subst h3
    exact List.mem_of_getElem? hw

theorem tableGet_punct {s : List UInt8} {p : Pct} (h : tableGet punctuators s = .ok (some p)) : s = LSpec.pctText p := by
  unfold tableGet at h
  split at h
  · simp at h; exact (punctuators_lookup s p).1 h
  · have hm := get_some_mem h
    have key : ∀ c ∈ (build punctuators).slots, (match c with | .cell k v _ => decide (k = LSpec.pctText v) | .null => true) = true := by decide +kernel
    have := key _ hm
    simpa using this

theorem tableGet_suffix {s : List UInt8} {t : ILType} (h : tableGet suffixes s = .ok (some t)) : s ∈ LSpec.suffix t ∧ s ≠ [] := by
  unfold tableGet at h
  split at h
  · simp at h; exact (suffixes_lookup s t).1 h
  · have hm := get_some_mem h
    have key : ∀ c ∈ (build suffixes).slots, (match c with | .cell k v _ => decide (k ∈ LSpec.suffix v ∧ k ≠ []) | .null => true) = true := by decide +kernel
    have := key _ hm
    simpa using this

theorem mem_take_mono {α : Type} {l : List α} {a : α} {m n : Nat} (h : m ≤ n) (ha : a ∈ l.take m) : a ∈ l.take n := by
  rw [show m = min m n by omega, ← List.take_take] at ha
  exact List.mem_of_mem_take ha

theorem longest_sound {V : Type} (tbl : List (List UInt8 × V)) (buf : List UInt8) : ∀ (n : Nat) (r : Option (V × Nat)),
    longest tbl buf n = .ok r →
    match r with
    | none => ∀ k, 1 ≤ k → k ≤ n → tableGet tbl (buf.take k) = .ok none
    | some (v, k) => 1 ≤ k ∧ k ≤ n ∧ tableGet tbl (buf.take k) = .ok (some v) ∧ ∀ k', k < k' → k' ≤ n → tableGet tbl (buf.take k') = .ok none := by
  intro n
  induction n with
  | zero => intro r h; simp [longest] at h; subst h; intro k h1 h2; omega
  | succ n ih =>
    intro r h
    rw [longest, Out.bind_eq_ok] at h
    obtain ⟨a, h1, h2⟩ := h
    cases a with
    | some v =>
      simp at h2; subst h2
      exact ⟨by omega, by omega, h1, fun k' h3 h4 => by omega⟩
    | none =>
      simp only at h2
      have := ih r h2
      cases r with
      | none =>
        intro k h3 h4
        by_cases e : k = n + 1
        · subst e; exact h1
        · exact this k h3 (by omega)
      | some p =>
        obtain ⟨v, k⟩ := p
        obtain ⟨a, b, c, d⟩ := this
        refine ⟨a, by omega, c, ?_⟩
        intro k' h3 h4
        by_cases e : k' = n + 1
        · subst e; exact h1
        · exact d k' h3 (by omega)

theorem longest_ascii {V : Type} (tbl : List (List UInt8 × V)) (buf : List UInt8) (ha : ∀ b ∈ buf, b.toNat < 128) :
    ∀ n, ∃ r, longest tbl buf n = .ok r := by
  intro n
  induction n with
  | zero => exact ⟨_, rfl⟩
  | succ n ih =>
    have : tableGet tbl (buf.take (n + 1)) = .ok (tbl.lookup (buf.take (n + 1))) :=
      tableGet_ascii _ (fun b hb => ha b (List.mem_of_mem_take hb))
    rw [longest, this, Out.ok_bind]
    split
    · exact ⟨_, rfl⟩
    · exact ih

/-! ### words -/

theorem word_ascii {b : UInt8} (h : isWord b = true) : b.toNat < 128 ∧ b ≠ 0 := by
  have : ∀ b, isWord b = true → b.toNat < 128 ∧ b ≠ 0 := by apply forallByte; decide +kernel
  exact this b h

theorem letter_word {b : UInt8} (h : isLetter b = true) : isWord b = true := by simp [isWord, h]

theorem space_props {b : UInt8} (h : LSpec.isSpace b = true) : isWord b = false ∧ isHex b = false ∧ b ≠ 0 ∧ b.toNat < 128 ∧ b ≠ 0x78 ∧ b ≠ 0x58 := by
  have : ∀ b, LSpec.isSpace b = true → isWord b = false ∧ isHex b = false ∧ b ≠ 0 ∧ b.toNat < 128 ∧ b ≠ 0x78 ∧ b ≠ 0x58 := by
    apply forallByte; decide +kernel
  exact this b h

theorem digit_props {b : UInt8} (h : isDigit b = true) : isHex b = true ∧ isWord b = true ∧ isLetter b = false := by
  have : ∀ b, isDigit b = true → isHex b = true ∧ isWord b = true ∧ isLetter b = false := by
    apply forallByte; decide +kernel
  exact this b h

theorem readWord_eq (c : UInt8) (r rest : List UInt8) (hc : isLetter c = true) (hr : r.all isWord = true) (hs : Stops (fun b => isWord b || b == 0) rest) :
    readWord (c :: r ++ rest) = .ok ((match keywords.lookup (c :: r) with | some k => Tok.kw k | none => .ident (c :: r)), rest) := by
  have hsp : span isWordChar (r ++ rest) = (r, rest) := by
    apply span_append
    · intro b hb
      rw [List.all_eq_true] at hr
      rw [isWordChar_charVal, hr b hb]; rfl
    · cases rest with
      | nil => trivial
      | cons b t =>
        have : (isWord b || b == 0) = false := hs
        simp only [Stops, isWordChar_charVal]; exact this
  have hg : tableGet keywords (c :: r) = .ok (keywords.lookup (c :: r)) := by
    apply tableGet_ascii
    intro b hb
    rw [List.all_eq_true] at hr
    simp at hb
    rcases hb with rfl | hb
    · exact (word_ascii (letter_word hc)).1
    · exact (word_ascii (hr b hb)).1
  rw [List.cons_append, readWord, hsp]
  dsimp only
  rw [hg, Out.ok_bind]
  cases keywords.lookup (c :: r) <;> rfl

theorem readWord_sound {s s' : List UInt8} {t : Tok} (hs : isNondigit (top s) = true) (hn : (0 : UInt8) ∉ s) (h : readWord s = .ok (t, s')) :
    ∃ l : Lexeme, s = l.text ++ s' ∧ l.WF ∧ t = l.tok ∧ ((∃ k, l = .kw k) ∨ ∃ n, l = .ident n) ∧ Stops isWord s' := by
  cases s with
  | nil => simp [readWord] at h
  | cons b s =>
    have hb : isLetter b = true := by
      have : isNondigit (charVal b) = true := hs
      rw [isNondigit_charVal] at this
      simp at this
      rcases this with h | rfl
      · exact h
      · simp at hn
    obtain ⟨h1, h2, h3⟩ := span_sound isWordChar s
    have hw : (span isWordChar s).1.all isWord = true := by
      rw [List.all_eq_true]
      intro c hc
      have := h2 c hc
      rw [isWordChar_charVal] at this
      simp at this
      rcases this with h | rfl
      · exact h
      · exact absurd (by rw [h1]; simp [hc]) (fun h => hn (List.mem_cons_of_mem b h))
    have h3' : Stops (fun b => isWord b || b == 0) (span isWordChar s).2 := by
      revert h3
      cases (span isWordChar s).2 with
      | nil => intro _; trivial
      | cons x xs => intro h; simp only [Stops, isWordChar_charVal] at h; exact h
    have := readWord_eq b (span isWordChar s).1 (span isWordChar s).2 hb hw h3'
    rw [List.cons_append, ← h1, h] at this
    simp at this
    obtain ⟨e1, e2⟩ := this
    have hst : Stops isWord s' := by
      rw [e2]
      revert h3'
      cases (span isWordChar s).2 with
      | nil => intro _; trivial
      | cons x xs => intro h; simp [Stops] at h ⊢; exact h.1
    cases hk : keywords.lookup (b :: (span isWordChar s).1) with
    | some k =>
      rw [hk] at e1
      have := (keywords_lookup _ k).1 hk
      refine ⟨.kw k, ?_, trivial, e1, Or.inl ⟨k, rfl⟩, hst⟩
      show b :: s = LSpec.kwText k ++ s'
      rw [← this, e2, List.cons_append, ← h1]
    | none =>
      rw [hk] at e1
      refine ⟨.ident (b :: (span isWordChar s).1), ?_, ⟨⟨b, _, rfl, hb, hw⟩, ?_⟩, e1, Or.inr ⟨_, rfl⟩, hst⟩
      · show b :: s = (b :: (span isWordChar s).1) ++ s'
        rw [e2, List.cons_append, ← h1]
      · intro k e
        rw [(keywords_lookup _ k).2 e] at hk
        simp at hk

/-! ### integers -/

theorem digitsVal_eq (base : Nat) (dig : Int → Option Int) (cls : UInt8 → Bool) (hdig : ∀ b, dig (charVal b) = if cls b then some (LSpec.digit b : Int) else none) :
    ∀ (ds : List UInt8) (v : Nat), ds.all cls = true →
      ds.foldl (fun v b => v * (base : Int) + (dig (charVal b)).getD 0) (v : Int) = (numberFrom base v ds : Nat) := by
  intro ds
  induction ds with
  | nil => intro v _; rfl
  | cons b bs ih =>
    intro v h
    simp only [List.all_cons, Bool.and_eq_true] at h
    have := ih (v * base + LSpec.digit b) h.2
    simp only [List.foldl_cons, hdig, h.1, if_true, Option.getD_some]
    simp only [hdig] at this
    have e : ((v : Int) * (base : Int) + (LSpec.digit b : Int)) = ((v * base + LSpec.digit b : Nat) : Int) := by simp
    rw [e, this]
    rfl

theorem createILit_fits {v : Nat} {t : ILType} (h : v ≤ LSpec.largest t) : createILit v t = ⟨t, v⟩ := by
  unfold createILit
  cases t <;> simp [ILType.isUnsigned, LSpec.largest] at h ⊢ <;> omega

/-- rest of the text after the digits: a suffix, then something that continues neither -/
theorem readSuffix_complete {t : ILType} {sfx rest : List UInt8} (hs : sfx ∈ LSpec.suffix t) (ha : ∀ b ∈ rest.take 3, b.toNat < 128)
    (hst : Stops isLetter rest) : readSuffix (sfx ++ rest) = .ok (t, rest) := by
  have hl := suffix_len t sfx hs
  have hasc : ∀ b ∈ (sfx ++ rest).take 3, b.toNat < 128 := by
    intro b hb; rw [List.take_append, List.mem_append] at hb
    rcases hb with h | h
    · exact (hl.2 b (List.mem_of_mem_take h)).1
    · exact ha b (mem_take_mono (by omega) h)
  unfold readSuffix
  dsimp only
  rw [buffer_ascii 3 _ hasc]
  obtain ⟨r, hr⟩ := longest_ascii suffixes ((sfx ++ rest).take 3) hasc ((sfx ++ rest).take 3).length
  rw [hr, Out.ok_bind]
  have hsound := longest_sound _ _ _ _ hr
  -- no table entry reaches beyond the suffix
  have hno : ∀ k t', sfx.length < k → k ≤ ((sfx ++ rest).take 3).length → tableGet suffixes (((sfx ++ rest).take 3).take k) ≠ .ok (some t') := by
    intro k t' hk hk2 hcon
    have hm := (tableGet_suffix hcon).1
    have h2 := (suffix_len t' _ hm).2
    simp at hk2
    have hk3 : k ≤ 3 := by omega
    rw [List.take_take, Nat.min_eq_left hk3] at h2
    cases rest with
    | nil => simp at hk2; omega
    | cons b r =>
      have hb : b ∈ (sfx ++ b :: r).take k := by
        rw [List.take_append]
        apply List.mem_append_right
        have : k - sfx.length = (k - sfx.length - 1) + 1 := by omega
        rw [this, List.take_succ_cons]; simp
      have hlet := (h2 b hb).2.1
      have : isLetter b = false := hst
      rw [this] at hlet; simp at hlet
  cases r with
  | none =>
    by_cases hz : sfx = []
    · subst hz
      have : t = .int := by
        cases t <;> first | rfl | (exfalso; revert hs; decide)
      subst this; rfl
    · exfalso
      have h1 : 1 ≤ sfx.length := List.length_pos_iff.2 hz
      have := hsound sfx.length h1 (by simp; omega)
      rw [List.take_take, Nat.min_eq_left hl.1, List.take_left', tableGet_ascii _ (fun b hb => (hl.2 b hb).1)] at this
      · rw [(suffixes_lookup sfx t).2 ⟨hs, hz⟩] at this; simp at this
      · rfl
  | some p =>
    obtain ⟨t', k⟩ := p
    obtain ⟨h1, h2, h3, h4⟩ := hsound
    have hk : k ≤ sfx.length := by
      apply Classical.byContradiction; intro hc
      exact hno k t' (by omega) h2 h3
    have hz : sfx ≠ [] := by rintro rfl; simp at hk; omega
    have hkk : k = sfx.length := by
      apply Classical.byContradiction; intro hc
      have := h4 sfx.length (by omega) (by simp; omega)
      rw [List.take_take, Nat.min_eq_left hl.1, List.take_left' rfl, tableGet_ascii _ (fun b hb => (hl.2 b hb).1)] at this
      rw [(suffixes_lookup sfx t).2 ⟨hs, hz⟩] at this; simp at this
    subst hkk
    rw [List.take_take, Nat.min_eq_left hl.1, List.take_left' rfl, tableGet_ascii _ (fun b hb => (hl.2 b hb).1)] at h3
    rw [(suffixes_lookup sfx t).2 ⟨hs, hz⟩] at h3
    simp at h3; subst h3
    simp

theorem readSuffix_sound {s s' : List UInt8} {t : ILType} (h : readSuffix s = .ok (t, s')) : ∃ sfx, sfx ∈ LSpec.suffix t ∧ s = sfx ++ s' := by
  unfold readSuffix at h
  simp only [Out.bind_eq_ok] at h
  obtain ⟨r, h1, h2⟩ := h
  have hs := longest_sound _ _ _ _ h1
  cases r with
  | none => simp at h2; exact ⟨[], by rw [← h2.1]; decide, by simp [h2.2]⟩
  | some p =>
    obtain ⟨t', k⟩ := p
    obtain ⟨a, b, c, d⟩ := hs
    simp at h2
    obtain ⟨rfl, rfl⟩ := h2
    refine ⟨_, (tableGet_suffix c).1, ?_⟩
    obtain ⟨u, hu, hl⟩ := buffer_prefix 3 s
    have : s.take k = (buffer 3 s).take k := by
      conv => lhs; rw [hu]
      rw [List.take_append_of_le_length b]
    rw [← this, List.take_append_drop]

theorem intConstant_complete (base : LSpec.Base) (dig : Int → Option Int) (cls : UInt8 → Bool)
    (hdig : ∀ b, dig (charVal b) = if cls b then some (LSpec.digit b : Int) else none)
    {ds sfx rest : List UInt8} {t : ILType} (hne : ds ≠ []) (hall : ds.all cls = true) (hs : sfx ∈ LSpec.suffix t)
    (ha : ∀ b ∈ rest.take 3, b.toNat < 128) (hst : Stops isLetter rest) (hcls : Stops cls (sfx ++ rest))
    (hfit : LSpec.number base.num ds ≤ LSpec.largest t) :
    intConstant base.num dig (ds ++ (sfx ++ rest)) = .ok (.int ⟨t, LSpec.number base.num ds⟩, rest) := by
  have hd : readDigits dig (ds ++ (sfx ++ rest)) = .ok (ds, sfx ++ rest) := by
    unfold readDigits
    cases ds with
    | nil => simp at hne
    | cons d ds' =>
      have hd : cls d = true := by simp at hall; exact hall.1
      rw [if_pos (by rw [List.cons_append, top_isSome_cons, hdig, hd]; rfl)]
      congr 1
      apply span_append
      · intro b hb
        rw [List.all_eq_true] at hall
        simp [hdig, hall b hb]
      · revert hcls
        cases sfx ++ rest with
        | nil => intro _; trivial
        | cons x xs => intro h; simp only [Stops] at h; simp [Stops, hdig, h]
  unfold intConstant
  rw [hd, Out.ok_bind]
  dsimp only
  rw [readSuffix_complete hs ha hst, Out.ok_bind]
  dsimp only
  have : digitsVal base.num dig ds = (LSpec.number base.num ds : Nat) := by
    unfold digitsVal
    have := digitsVal_eq base.num dig cls hdig ds 0 hall
    exact this
  rw [this, createILit_fits hfit]

theorem intConstant_sound (base : LSpec.Base) (dig : Int → Option Int) (cls : UInt8 → Bool)
    (hdig : ∀ b, dig (charVal b) = if cls b then some (LSpec.digit b : Int) else none)
    (htop : (dig (-1)).isSome = false)
    {s s' : List UInt8} {tk : Tok} (h : intConstant base.num dig s = .ok (tk, s')) :
    ∃ ds t sfx, s = ds ++ (sfx ++ s') ∧ ds ≠ [] ∧ ds.all cls = true ∧ sfx ∈ LSpec.suffix t ∧ Stops cls (sfx ++ s') ∧
      (∃ v, tk = .int ⟨t, v⟩ ∧ (LSpec.number base.num ds ≤ LSpec.largest t → v = LSpec.number base.num ds)) := by
  unfold intConstant at h
  rw [Out.bind_eq_ok] at h
  obtain ⟨⟨ds, r⟩, h1, h2⟩ := h
  dsimp only at h2
  rw [Out.bind_eq_ok] at h2
  obtain ⟨⟨t, r2⟩, h3, h4⟩ := h2
  simp at h4
  obtain ⟨rfl, rfl⟩ := h4
  unfold readDigits at h1
  split at h1
  · rename_i htop'
    simp at h1
    obtain ⟨e1, e2, e3⟩ := span_sound (fun c => (dig c).isSome) s
    rw [h1] at e1 e2 e3
    dsimp only at e1 e2 e3
    obtain ⟨sfx, f1, f2⟩ := readSuffix_sound h3
    have hall : ds.all cls = true := by
      rw [List.all_eq_true]
      intro b hb
      have := e2 b hb
      rw [hdig] at this
      cases hc : cls b with
      | true => rfl
      | false => rw [hc] at this; simp at this
    have hst : Stops cls r := by
      revert e3
      cases r with
      | nil => intro _; trivial
      | cons x xs =>
        intro h
        simp only [Stops, hdig] at h ⊢
        cases hc : cls x with
        | true => rw [hc] at h; simp at h
        | false => rfl
    refine ⟨ds, t, sfx, by rw [e1, f2], ?_, hall, f1, by rw [← f2]; exact hst, (createILit (digitsVal base.num dig ds) t).value, ?_, ?_⟩
    · rintro rfl
      simp at e1
      cases s with
      | nil => rw [show top [] = -1 from rfl, htop] at htop'; simp at htop'
      | cons b s2 =>
        rw [top_isSome_cons, hdig] at htop'
        rw [← e1] at hst
        have : cls b = false := hst
        rw [this] at htop'; simp at htop'
    · unfold createILit; split <;> (try split) <;> rfl
    · intro hfit
      have : digitsVal base.num dig ds = (LSpec.number base.num ds : Nat) := by
        unfold digitsVal
        exact digitsVal_eq base.num dig cls hdig ds 0 hall
      rw [this]
      rw [createILit_fits hfit]
  · simp at h1

theorem oct_digit {b : UInt8} (h : isOct b = true) : isDigit b = true := by
  have : ∀ b, isOct b = true → isDigit b = true := by apply forallByte; decide +kernel
  exact this b h

theorem hexPrefix_digits {ds : List UInt8} (h : ds.all isDigit = true) {rest : List UInt8}
    (hst : ∀ b r, rest = b :: r → b ≠ 0x78 ∧ b ≠ 0x58) (hne : ds ≠ []) : hexPrefix (ds ++ rest) = false := by
  cases ds with
  | nil => simp at hne
  | cons a as =>
    cases as with
    | nil =>
      cases rest with
      | nil => rfl
      | cons b r =>
        have := hst b r rfl
        simp [hexPrefix, this]
    | cons b bs =>
      simp at h
      have hb := h.2.1
      have : ∀ b, isDigit b = true → b ≠ 0x78 ∧ b ≠ 0x58 := by apply forallByte; decide +kernel
      have := this b hb
      simp [hexPrefix, this]

theorem stops_of_letter {cls : UInt8 → Bool} {s : List UInt8} (hs : Stops isWord s) (hc : ∀ b, cls b = true → isWord b = true) : Stops cls s := by
  cases s with
  | nil => trivial
  | cons b r =>
    have : isWord b = false := hs
    show cls b = false
    cases h : cls b with
    | false => rfl
    | true => rw [hc b h] at this; simp at this

theorem suffix_stops {cls : UInt8 → Bool} {t : ILType} {sfx rest : List UInt8} (hs : sfx ∈ LSpec.suffix t) (hr : Stops isWord rest)
    (hc : ∀ b, cls b = true → isHex b = true) : Stops cls (sfx ++ rest) := by
  cases sfx with
  | nil => exact stops_of_letter hr (fun b h => by
      have : ∀ b, isHex b = true → isWord b = true := by apply forallByte; decide +kernel
      exact this b (hc b h))
  | cons b r =>
    have := ((suffix_len t _ hs).2 b (by simp)).2.2.1
    show cls b = false
    cases h : cls b with
    | false => rfl
    | true => rw [hc b h] at this; simp at this

theorem readInteger_complete {base : LSpec.Base} {ds sfx rest : List UInt8} {t : ILType} (hd : base.Digits ds) (hs : sfx ∈ LSpec.suffix t)
    (ha : ∀ b ∈ rest.take 3, b.toNat < 128) (hst : Stops isWord rest) (hfit : LSpec.number base.num ds ≤ LSpec.largest t) :
    readInteger (base.lead ++ (ds ++ (sfx ++ rest))) = .ok (.int ⟨t, LSpec.number base.num ds⟩, rest) := by
  have hst' : Stops isLetter rest := stops_of_letter hst (fun b h => letter_word h)
  have hx : ∀ b r, sfx ++ rest = b :: r → b ≠ 0x78 ∧ b ≠ 0x58 := by
    intro b r e
    cases sfx with
    | nil =>
      simp at e
      rw [e] at hst
      have : isWord b = false := hst
      constructor
      · rintro rfl; exact absurd this (by decide)
      · rintro rfl; exact absurd this (by decide)
    | cons c cs =>
      simp at e
      rw [← e.1]
      exact ((suffix_len t _ hs).2 c (by simp)).2.2.2.2
  cases base with
  | dec =>
    obtain ⟨⟨d, r, rfl, hd0⟩, hall⟩ := hd
    simp only [LSpec.Base.lead, List.nil_append]
    unfold readInteger
    rw [if_neg (by rw [hexPrefix_digits hall hx (by simp)]; simp)]
    have hne : top (d :: r ++ (sfx ++ rest)) ≠ 0x30 := fun e => hd0 ((charVal_zero d).1 e)
    rw [if_neg hne]
    exact intConstant_complete .dec digVal isDigit digVal_charVal (by simp) hall hs ha hst'
      (suffix_stops hs hst (fun b h => (digit_props h).1)) hfit
  | oct =>
    obtain ⟨⟨r, rfl⟩, hall⟩ := hd
    simp only [LSpec.Base.lead, List.nil_append]
    have hall' : (0x30 :: r : List UInt8).all isDigit = true := by
      rw [List.all_eq_true] at hall ⊢
      exact fun b hb => oct_digit (hall b hb)
    unfold readInteger
    rw [if_neg (by rw [hexPrefix_digits hall' hx (by simp)]; simp)]
    rw [if_pos (by rfl)]
    exact intConstant_complete .oct octVal isOct octVal_charVal (by simp) hall hs ha hst'
      (suffix_stops hs hst (fun b h => (isOct_props h).1)) hfit
  | hex x =>
    obtain ⟨hx2, hne, hall⟩ := hd
    simp only [LSpec.Base.lead, List.cons_append, List.nil_append]
    unfold readInteger
    rw [if_pos (by rcases hx2 with rfl | rfl <;> rfl)]
    simp only [List.drop_succ_cons, List.drop_zero]
    exact intConstant_complete (.hex x) hexVal isHex hexVal_charVal hne hall hs ha hst'
      (suffix_stops hs hst (fun b h => h)) hfit

theorem readInteger_sound {s s' : List UInt8} {tk : Tok} (hdg : (digVal (top s)).isSome = true) (h : readInteger s = .ok (tk, s')) :
    ∃ l : Lexeme, s = l.text ++ s' ∧ l.WF ∧ (l.Fits → tk = l.tok) ∧ (∃ base ds t sfx, l = .int base ds t sfx) ∧ (∃ i, tk = .int i) := by
  unfold readInteger at h
  split at h
  · rename_i hx
    match s, hx with
    | a :: b :: r, hx =>
      simp [hexPrefix] at hx
      obtain ⟨rfl, hx⟩ := hx
      simp only [List.drop_succ_cons, List.drop_zero] at h
      obtain ⟨ds, t, sfx, h1, h2, h3, h4, _, v, h5, h6⟩ := intConstant_sound (.hex b) hexVal isHex hexVal_charVal (by decide) h
      refine ⟨.int (.hex b) ds t sfx, by simp [Lexeme.text, LSpec.Base.lead, h1], ⟨⟨hx, h2, h3⟩, h4⟩, ?_, ⟨_, _, _, _, rfl⟩, _, h5⟩
      intro hf; rw [h5, h6 hf]; rfl
  · split at h
    · rename_i hz
      have := cons_of_top (q := 0x30) (by decide) hz
      obtain ⟨ds, t, sfx, h1, h2, h3, h4, _, v, h5, h6⟩ := intConstant_sound .oct octVal isOct octVal_charVal (by decide) h
      refine ⟨.int .oct ds t sfx, by simp [Lexeme.text, LSpec.Base.lead, h1], ⟨⟨?_, h3⟩, h4⟩, ?_, ⟨_, _, _, _, rfl⟩, _, h5⟩
      · cases ds with
        | nil => simp at h2
        | cons d ds => rw [this] at h1; simp at h1; exact ⟨ds, by rw [← h1.1]⟩
      · intro hf; rw [h5, h6 hf]; rfl
    · rename_i hz
      obtain ⟨ds, t, sfx, h1, h2, h3, h4, _, v, h5, h6⟩ := intConstant_sound .dec digVal isDigit digVal_charVal (by decide) h
      refine ⟨.int .dec ds t sfx, by simp [Lexeme.text, LSpec.Base.lead, h1], ⟨⟨?_, h3⟩, h4⟩, ?_, ⟨_, _, _, _, rfl⟩, _, h5⟩
      · cases ds with
        | nil => simp at h2
        | cons d ds =>
          refine ⟨d, ds, rfl, ?_⟩
          rintro rfl
          rw [h1] at hz; exact hz rfl
      · intro hf; rw [h5, h6 hf]; rfl

/-! ### punctuators -/

theorem readPunct_sound {s s' : List UInt8} {tk : Tok} (h : readPunct s = .ok (tk, s')) :
    (tk = .eof ∧ top s = -1) ∨ ∃ p, tk = .punct p ∧ s = LSpec.pctText p ++ s' := by
  unfold readPunct at h
  split at h
  · rename_i ht; simp at h; exact Or.inl ⟨h.1.symm, ht⟩
  · right
    rw [Out.bind_eq_ok] at h
    obtain ⟨r, h1, h2⟩ := h
    have hs := longest_sound _ _ _ _ h1
    cases r with
    | none => simp at h2
    | some p =>
      obtain ⟨t', k⟩ := p
      obtain ⟨a, b, c, d⟩ := hs
      simp at h2
      obtain ⟨rfl, rfl⟩ := h2
      refine ⟨t', rfl, ?_⟩
      rw [← tableGet_punct c]
      obtain ⟨u, hu, hl⟩ := buffer_prefix 3 s
      have : s.take k = (buffer 3 s).take k := by
        conv => lhs; rw [hu]
        rw [List.take_append_of_le_length b]
      rw [← this, List.take_append_drop]

/-- maximal munch over ASCII text -/
theorem readPunct_ascii {s : List UInt8} (ha : ∀ b ∈ s.take 3, b.toNat < 128) (hne : s ≠ []) :
    (readPunct s = .err ∧ ∀ p, ¬ LSpec.pctText p <+: s) ∨
    ∃ p, readPunct s = .ok (.punct p, s.drop (LSpec.pctText p).length) ∧ LSpec.pctText p <+: s ∧
      ∀ q, LSpec.pctText q <+: s → (LSpec.pctText q).length ≤ (LSpec.pctText p).length := by
  have htop : top s ≠ -1 := by
    cases s with
    | nil => simp at hne
    | cons b r =>
      intro e
      have e : charVal b = -1 := e
      rw [charVal_eof] at e
      have := ha b (by simp)
      rw [e] at this
      exact absurd this (by decide)
  unfold readPunct
  rw [if_neg htop]
  dsimp only
  rw [buffer_ascii 3 s ha]
  obtain ⟨r, hr⟩ := longest_ascii punctuators (s.take 3) ha (s.take 3).length
  rw [hr, Out.ok_bind]
  have hsound := longest_sound _ _ _ _ hr
  -- prefixes found by the table
  have hpre : ∀ q, LSpec.pctText q <+: s → (LSpec.pctText q).length ≤ (s.take 3).length ∧
      tableGet punctuators ((s.take 3).take (LSpec.pctText q).length) = .ok (some q) := by
    intro q hq
    have hl := pctText_len q
    have hle := hq.length_le
    refine ⟨by simp; omega, ?_⟩
    rw [List.take_take, Nat.min_eq_left hl.2, ← List.prefix_iff_eq_take.1 hq,
      tableGet_ascii _ (fun b hb => (pctText_chars q b hb).1), (punctuators_lookup _ q).2 rfl]
  cases r with
  | none =>
    left
    refine ⟨rfl, ?_⟩
    intro p hp
    obtain ⟨h1, h2⟩ := hpre p hp
    have := hsound _ (pctText_len p).1 h1
    rw [h2] at this; simp at this
  | some pk =>
    obtain ⟨p, k⟩ := pk
    obtain ⟨h1, h2, h3, h4⟩ := hsound
    right
    have hp := tableGet_punct h3
    have hk3 : k ≤ 3 := by simp at h2; omega
    have hks : k ≤ s.length := by simp at h2; omega
    rw [List.take_take, Nat.min_eq_left hk3] at hp
    have hlen : (LSpec.pctText p).length = k := by rw [← hp]; simp; omega
    refine ⟨p, by simp [hlen], ?_, ?_⟩
    · rw [← hp]; exact List.take_prefix _ _
    · intro q hq
      obtain ⟨h5, h6⟩ := hpre q hq
      rw [hlen]
      apply Classical.byContradiction
      intro hc
      have := h4 _ (by omega) h5
      rw [h6] at this; simp at this

/-! ### one token -/

theorem readChar_complete {is : List Item} {rest : List UInt8} (hne : is ≠ []) (hw : ∀ i ∈ is, i.WF 0x27) (hm : Munch is)
    (hv : ∀ i ∈ is, i.value ≤ 2147483647) :
    readChar (itemsText is ++ 0x27 :: rest) = .ok (.char ⟨.int, (is.head?.map Item.value).getD 0⟩, rest) := by
  cases is with
  | nil => simp at hne
  | cons i is =>
    have e : itemsText (i :: is) ++ 0x27 :: rest = i.text ++ (itemsText is ++ 0x27 :: rest) := by simp [itemsText]
    rw [e]
    unfold readChar
    have hne : top (i.text ++ (itemsText is ++ 0x27 :: rest)) ≠ 0x27 := top_items_ne (hw i (by simp)) (by decide) _
    rw [if_neg hne, literalItem_complete (hw i (by simp)) (by rw [glued_items (by decide)]; exact hm.1) (hv i (by simp)), Out.ok_bind]
    dsimp only
    rw [charRest_complete is _ rest (by have := itemsText_length is; simp; omega) (fun j hj => hw j (by simp [hj])) hm.2 (fun j hj => hv j (by simp [hj]))]
    rfl

theorem readChar_sound {s s' : List UInt8} {tk : Tok} (h : readChar s = .ok (tk, s')) :
    ∃ is : List Item, s = itemsText is ++ 0x27 :: s' ∧ (Lexeme.char is).WF ∧ tk = (Lexeme.char is).tok := by
  unfold readChar at h
  split at h
  · simp at h
  · rename_i ht
    rw [Out.bind_eq_ok] at h
    obtain ⟨⟨c, s1⟩, h1, h2⟩ := h
    dsimp only at h2
    rw [Out.bind_eq_ok] at h2
    obtain ⟨s2, h3, h4⟩ := h2
    simp at h4
    obtain ⟨rfl, rfl⟩ := h4
    obtain ⟨it, a1, a2, a3, a4⟩ := literalItem_sound (q := 0x27) h1 (head_ne_of_top ht)
    obtain ⟨is, b1, b2, b3⟩ := charRest_sound _ _ _ h3
    refine ⟨it :: is, by rw [a1, b1]; simp [itemsText], ⟨by simp, ?_, ⟨?_, b3⟩⟩, by rw [a4]; rfl⟩
    · intro j hj; simp at hj; rcases hj with rfl | hj
      · exact a2
      · exact b2 j hj
    · rw [b1, glued_items (by decide)] at a3; exact a3

/-- the text ends or goes on with white space -/
def Ended (rest : List UInt8) : Prop := rest = [] ∨ ∃ b r, rest = b :: r ∧ LSpec.isSpace b = true

theorem Ended.stops {rest : List UInt8} (h : Ended rest) : Stops (fun b => isWord b || b == 0) rest ∧ Stops isWord rest := by
  rcases h with rfl | ⟨b, r, rfl, hb⟩
  · exact ⟨trivial, trivial⟩
  · have := space_props hb
    exact ⟨by simp [Stops, this], this.1⟩

theorem readTok_letter {c : UInt8} (s : List UInt8) (hc : isLetter c = true) : readTok (c :: s) = readWord (c :: s) := by
  unfold readTok
  rw [if_pos (by show isNondigit (charVal c) = true; rw [isNondigit_charVal, hc]; rfl)]

theorem readTok_digit {c : UInt8} (s : List UInt8) (hc : isDigit c = true) : readTok (c :: s) = readInteger (c :: s) := by
  unfold readTok
  have h0 : (c == 0) = false := by
    have : ∀ c, isDigit c = true → (c == 0) = false := by apply forallByte; decide +kernel
    exact this c hc
  rw [if_neg (by show ¬ isNondigit (charVal c) = true; rw [isNondigit_charVal, (digit_props hc).2.2, h0]; simp)]
  rw [if_pos (by rw [top_isSome_cons, digVal_charVal, hc]; rfl)]

theorem readTok_punct {c : UInt8} (s : List UInt8) (h : isWord c = false) (h0 : c ≠ 0) (h1 : c ≠ 0x27) (h2 : c ≠ 0x22) :
    readTok (c :: s) = readPunct (c :: s) := by
  have hl : isLetter c = false := by simp [isWord] at h; exact h.1
  have hd : isDigit c = false := by simp [isWord] at h; exact h.2
  unfold readTok
  rw [if_neg (by show ¬ isNondigit (charVal c) = true; rw [isNondigit_charVal, hl]; simpa using h0)]
  rw [if_neg (by rw [top_isSome_cons, digVal_charVal, hd]; simp)]
  have e1 : top (c :: s) ≠ 0x27 := fun e => h1 ((charVal_sq c).1 e)
  have e2 : top (c :: s) ≠ 0x22 := fun e => h2 ((charVal_dq c).1 e)
  rw [if_neg e1, if_neg e2]

theorem readTok_complete {l : Lexeme} {rest : List UInt8} (hw : l.WF) (hf : l.Fits) (he : Ended rest)
    (ha : ∀ b ∈ rest.take 3, b.toNat < 128) : readTok (l.text ++ rest) = .ok (l.tok, rest) := by
  cases l with
  | kw k =>
    obtain ⟨c, r, h1, h2, h3⟩ := kwText_word k
    simp only [Lexeme.text, Lexeme.tok]
    have hk := (keywords_lookup _ k).2 rfl
    rw [h1] at hk ⊢
    rw [List.cons_append, readTok_letter _ h2, ← List.cons_append, readWord_eq c r rest h2 h3 he.stops.1, hk]
  | ident s =>
    obtain ⟨⟨c, r, rfl, h2, h3⟩, h4⟩ := hw
    simp only [Lexeme.text, Lexeme.tok]
    have hk : keywords.lookup (c :: r) = none := by
      cases hk : keywords.lookup (c :: r) with
      | none => rfl
      | some k => exact absurd ((keywords_lookup _ k).1 hk) (h4 k)
    rw [List.cons_append, readTok_letter _ h2, ← List.cons_append, readWord_eq c r rest h2 h3 he.stops.1, hk]
  | int base ds t sfx =>
    obtain ⟨h1, h2⟩ := hw
    simp only [Lexeme.text, Lexeme.tok]
    have := readInteger_complete h1 h2 ha he.stops.2 hf
    have hfirst : ∃ c r, base.lead ++ (ds ++ (sfx ++ rest)) = c :: r ∧ isDigit c = true := by
      cases base with
      | dec =>
        obtain ⟨⟨d, r, rfl, _⟩, hall⟩ := h1
        simp at hall
        exact ⟨d, _, rfl, hall.1⟩
      | oct => obtain ⟨⟨r, rfl⟩, _⟩ := h1; exact ⟨0x30, _, rfl, by decide⟩
      | hex x => exact ⟨0x30, _, rfl, by decide⟩
    obtain ⟨c, r, e, hc⟩ := hfirst
    rw [List.append_assoc, List.append_assoc, e, readTok_digit r hc, ← e]
    exact this
  | char is =>
    obtain ⟨h1, h2, h3⟩ := hw
    have e : (Lexeme.char is).text ++ rest = 0x27 :: (itemsText is ++ 0x27 :: rest) := by simp [Lexeme.text]
    rw [e]
    show readChar _ = _
    exact readChar_complete h1 h2 h3 hf
  | str is =>
    obtain ⟨h2, h3⟩ := hw
    have e : (Lexeme.str is).text ++ rest = 0x22 :: (itemsText is ++ 0x22 :: rest) := by simp [Lexeme.text]
    rw [e]
    show readString (itemsText is ++ 0x22 :: rest) = _
    unfold readString
    rw [strLoop_complete is _ rest (by have := itemsText_length is; simp; omega) h2 h3 hf]
    rfl
  | punct p =>
    have hch := pctText_chars p
    have hl := pctText_len p
    have hasc : ∀ b ∈ (LSpec.pctText p ++ rest).take 3, b.toNat < 128 := by
      intro b hb; rw [List.take_append, List.mem_append] at hb
      rcases hb with h | h
      · exact (hch b (List.mem_of_mem_take h)).1
      · exact ha b (mem_take_mono (by omega) h)
    have htok : readTok (LSpec.pctText p ++ rest) = readPunct (LSpec.pctText p ++ rest) := by
      cases hp : LSpec.pctText p with
      | nil => rw [hp] at hl; simp at hl
      | cons c r =>
        have := hch c (by simp [hp])
        rw [List.cons_append]
        exact readTok_punct _ this.2.2.1 this.2.2.2.2.2 this.2.2.2.1 this.2.2.2.2.1
    simp only [Lexeme.text, Lexeme.tok]
    rw [htok]
    rcases readPunct_ascii hasc (by intro e; simp at e; rw [e.1] at hl; simp at hl) with ⟨_, h⟩ | ⟨q, h1, h2, h3⟩
    · exact absurd (List.prefix_append _ _) (h p)
    · -- a longer punctuator would contain white space
      have hle := h3 p (List.prefix_append _ _)
      have hq : LSpec.pctText q = LSpec.pctText p := by
        rcases Nat.lt_or_ge (LSpec.pctText p).length (LSpec.pctText q).length with hlt | hge
        · exfalso
          rcases he with rfl | ⟨b, r, rfl, hb⟩
          · have := h2.length_le; simp at this; omega
          · have heq := List.prefix_iff_eq_take.1 h2
            have : b ∈ LSpec.pctText q := by
              rw [heq, List.take_append]
              apply List.mem_append_right
              have : (LSpec.pctText q).length - (LSpec.pctText p).length = ((LSpec.pctText q).length - (LSpec.pctText p).length - 1) + 1 := by omega
              rw [this, List.take_succ_cons]; simp
            have := (pctText_chars q b this).2.1
            rw [hb] at this; simp at this
        · have heq := List.prefix_iff_eq_take.1 h2
          have hlen : (LSpec.pctText q).length = (LSpec.pctText p).length := by omega
          rw [heq, hlen, List.take_left' rfl]
      rw [h1, pctText_inj hq]
      simp

theorem isNondigit_ne_nil {s : List UInt8} (h : isNondigit (top s) = true) : s ≠ [] := by
  rintro rfl; exact absurd h (by decide)

theorem readTok_sound {s s' : List UInt8} {tk : Tok} (hn : (0 : UInt8) ∉ s) (h : readTok s = .ok (tk, s')) :
    (tk = .eof ∧ (s = [] ∨ ∃ r, s = 0xFF :: r)) ∨
    ∃ l : Lexeme, s = l.text ++ s' ∧ l.WF ∧ (l.Fits → tk = l.tok) ∧ tk ≠ .eof := by
  unfold readTok at h
  split at h
  · rename_i hs
    obtain ⟨l, h1, h2, h3, h4, _⟩ := readWord_sound hs hn h
    refine Or.inr ⟨l, h1, h2, fun _ => h3, ?_⟩
    rcases h4 with ⟨k, rfl⟩ | ⟨m, rfl⟩ <;> simp [h3, Lexeme.tok]
  · split at h
    · rename_i hs
      obtain ⟨l, h1, h2, h3, _, ⟨i, h5⟩⟩ := readInteger_sound hs h
      exact Or.inr ⟨l, h1, h2, h3, by simp [h5]⟩
    · split at h
      · rename_i hs
        have hc := cons_of_top (q := 0x27) (by decide) hs
        obtain ⟨is, h1, h2, h3⟩ := readChar_sound h
        exact Or.inr ⟨.char is, by rw [hc, h1]; simp [Lexeme.text], h2, fun _ => h3, by simp [h3, Lexeme.tok]⟩
      · split at h
        · rename_i hs
          have hc := cons_of_top (q := 0x22) (by decide) hs
          unfold readString at h
          rw [Out.bind_eq_ok] at h
          obtain ⟨⟨cs, s1⟩, h1, h2⟩ := h
          simp at h2
          obtain ⟨rfl, rfl⟩ := h2
          obtain ⟨is, a1, a2, a3, a4⟩ := strLoop_sound _ _ _ _ h1
          exact Or.inr ⟨.str is, by rw [hc, a1]; simp [Lexeme.text], ⟨a2, a3⟩, fun _ => by rw [a4]; rfl, by simp⟩
        · rcases readPunct_sound h with ⟨h1, h2⟩ | ⟨p, h1, h2⟩
          · left
            refine ⟨h1, ?_⟩
            cases s with
            | nil => exact Or.inl rfl
            | cons b r => exact Or.inr ⟨r, by rw [(charVal_eof b).1 h2]⟩
          · exact Or.inr ⟨.punct p, h2, trivial, fun _ => h1, by simp [h1]⟩

end Lexer
end Umlcc
