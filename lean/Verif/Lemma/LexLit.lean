import Verif.Lemma.LexChar
/-! Reading characters and string literals (helper lemmas). -/
namespace Umlcc
namespace Lexer
open LSpec (isLetter isDigit isOct isHex isWord Item Munch itemsText)

/-- the text does not begin with a character of the class -/
def Stops (p : UInt8 → Bool) : List UInt8 → Prop
  | [] => True
  | b :: _ => p b = false

/-- digit strings with an initial value -/
def numberFrom (base : Nat) (v : Nat) (ds : List UInt8) : Nat := ds.foldl (fun v b => v * base + LSpec.digit b) v

theorem numberFrom_zero (base : Nat) (ds : List UInt8) : numberFrom base 0 ds = LSpec.number base ds := rfl

theorem numberFrom_mono {base : Nat} (hb : 1 ≤ base) : ∀ (ds : List UInt8) (v : Nat), v ≤ numberFrom base v ds := by
  intro ds
  induction ds with
  | nil => intro v; exact Nat.le_refl _
  | cons b bs ih =>
    intro v
    have := ih (v * base + LSpec.digit b)
    have h2 : v ≤ v * base := Nat.le_mul_of_pos_right v hb
    simp only [numberFrom, List.foldl_cons] at this ⊢
    omega

/-! ### hexadecimal escapes -/

theorem hexLoop_complete : ∀ (ds rest : List UInt8) (v : Nat), ds.all isHex = true → Stops isHex rest →
    numberFrom 16 v ds ≤ 2147483647 → hexLoop v (ds ++ rest) = .ok ((numberFrom 16 v ds : Nat), rest) := by
  intro ds
  induction ds with
  | nil =>
    intro rest v _ hs _
    cases rest with
    | nil => rfl
    | cons b r =>
      have : isHex b = false := hs
      simp [hexLoop, hexVal_charVal, this, numberFrom]
  | cons b bs ih =>
    intro rest v hall hs hle
    simp only [List.all_cons, Bool.and_eq_true] at hall
    have hle' : numberFrom 16 (v * 16 + LSpec.digit b) bs ≤ 2147483647 := hle
    have hm := numberFrom_mono (base := 16) (by omega) bs (v * 16 + LSpec.digit b)
    have := ih rest (v * 16 + LSpec.digit b) hall.2 hs hle'
    simp only [List.cons_append, hexLoop, hexVal_charVal, hall.1, if_true]
    rw [if_neg (by omega)]
    have e : ((v : Int) * 16 + (LSpec.digit b : Int)) = ((v * 16 + LSpec.digit b : Nat) : Int) := by omega
    rw [e, this]
    rfl

theorem hexLoop_sound : ∀ (s : List UInt8) (v : Nat) (w : Int) (s' : List UInt8), hexLoop v s = .ok (w, s') →
    ∃ ds, s = ds ++ s' ∧ ds.all isHex = true ∧ Stops isHex s' ∧ w = (numberFrom 16 v ds : Nat) := by
  intro s
  induction s with
  | nil => intro v w s' h; simp [hexLoop] at h; exact ⟨[], by simp [h.2], rfl, by simp [h.2, Stops], by simp [numberFrom, h.1]⟩
  | cons b bs ih =>
    intro v w s' h
    simp only [hexLoop, hexVal_charVal] at h
    by_cases hb : isHex b = true
    · simp only [hb, if_true] at h
      split at h
      · simp at h
      · have e : ((v : Int) * 16 + (LSpec.digit b : Int)) = ((v * 16 + LSpec.digit b : Nat) : Int) := by omega
        rw [e] at h
        obtain ⟨ds, h1, h2, h3, h4⟩ := ih _ _ _ h
        exact ⟨b :: ds, by simp [h1], by simp [hb, h2], h3, h4⟩
    · simp only [hb] at h
      simp at h
      exact ⟨[], by simp [h.2], rfl, by rw [← h.2]; simpa [Stops] using hb, by simp [numberFrom, h.1]⟩

theorem hexLoop_outcome : ∀ (s : List UInt8) (v : Int), (∃ r, hexLoop v s = .ok r) ∨ hexLoop v s = .ub := by
  intro s
  induction s with
  | nil => intro v; exact Or.inl ⟨_, rfl⟩
  | cons b bs ih =>
    intro v
    simp only [hexLoop]
    split
    · exact Or.inl ⟨_, rfl⟩
    · split
      · exact Or.inr rfl
      · exact ih _

theorem digit_lt_16 {b : UInt8} (h : isHex b = true) : LSpec.digit b < 16 := by
  have : ∀ b, isHex b = true → LSpec.digit b < 16 := by
    apply forallByte; decide +kernel
  exact this b h

/-- overflow needs eight digits -/
theorem hexLoop_ub : ∀ (s : List UInt8) (v k : Nat), v < 16 ^ k → k ≤ 7 → hexLoop v s = .ub →
    ∃ ds post, s = ds ++ post ∧ ds.all isHex = true ∧ 8 ≤ ds.length + k := by
  intro s
  induction s with
  | nil => intro v k _ _ h; simp [hexLoop] at h
  | cons b bs ih =>
    intro v k hv hk h
    simp only [hexLoop, hexVal_charVal] at h
    by_cases hb : isHex b = true
    · simp only [hb, if_true] at h
      have hd := digit_lt_16 hb
      have hlt : v * 16 + LSpec.digit b < 16 ^ (k + 1) := by rw [Nat.pow_succ]; omega
      by_cases hk7 : k = 7
      · subst hk7
        exact ⟨[b], bs, rfl, by simp [hb], by simp⟩
      · have h8 : (16 : Nat) ^ (k + 1) ≤ 16 ^ 7 := Nat.pow_le_pow_right (by omega) (by omega)
        rw [if_neg (by omega)] at h
        have e : ((v : Int) * 16 + (LSpec.digit b : Int)) = ((v * 16 + LSpec.digit b : Nat) : Int) := by omega
        rw [e] at h
        obtain ⟨ds, post, h1, h2, h3⟩ := ih _ (k + 1) hlt (by omega) h
        exact ⟨b :: ds, post, by simp [h1], by simp [hb, h2], by simp; omega⟩
    · simp only [hb] at h
      simp at h

/-! ### octal escapes -/

theorem octLoop_complete : ∀ (ds rest : List UInt8) (v n : Nat), ds.all isOct = true → ds.length ≤ n →
    (ds.length = n ∨ Stops isOct rest) → octLoop v n (ds ++ rest) = (((numberFrom 8 v ds : Nat) : Int), rest) := by
  intro ds
  induction ds with
  | nil =>
    intro rest v n _ _ hs
    cases n with
    | zero => simp [octLoop, numberFrom]
    | succ n =>
      cases rest with
      | nil => simp [octLoop, numberFrom]
      | cons b r =>
        rcases hs with hs | hs
        · simp at hs
        · have : isOct b = false := hs
          simp [octLoop, octVal_charVal, this, numberFrom]
  | cons b bs ih =>
    intro rest v n hall hle hs
    simp only [List.all_cons, Bool.and_eq_true] at hall
    cases n with
    | zero => simp at hle
    | succ n =>
      simp only [List.cons_append, octLoop, octVal_charVal, hall.1, if_true]
      have e : ((v : Int) * 8 + (LSpec.digit b : Int)) = ((v * 8 + LSpec.digit b : Nat) : Int) := by omega
      rw [e, ih rest _ n hall.2 (by simpa using hle) (by simpa using hs)]
      rfl

theorem octLoop_sound : ∀ (n : Nat) (s : List UInt8) (v : Nat) (w : Int) (s' : List UInt8), octLoop v n s = (w, s') →
    ∃ ds, s = ds ++ s' ∧ ds.all isOct = true ∧ ds.length ≤ n ∧ (ds.length = n ∨ Stops isOct s') ∧ w = (numberFrom 8 v ds : Nat) := by
  intro n
  induction n with
  | zero => intro s v w s' h; simp [octLoop] at h; exact ⟨[], by simp [h.2], rfl, by simp, by simp, by simp [numberFrom, h.1]⟩
  | succ n ih =>
    intro s v w s' h
    cases s with
    | nil => simp [octLoop] at h; exact ⟨[], by simp [h.2], rfl, by simp, by simp [h.2, Stops], by simp [numberFrom, h.1]⟩
    | cons b bs =>
      simp only [octLoop, octVal_charVal] at h
      by_cases hb : isOct b = true
      · simp only [hb, if_true] at h
        have e : ((v : Int) * 8 + (LSpec.digit b : Int)) = ((v * 8 + LSpec.digit b : Nat) : Int) := by omega
        rw [e] at h
        obtain ⟨ds, h1, h2, h3, h4, h5⟩ := ih _ _ _ _ h
        exact ⟨b :: ds, by simp [h1], by simp [hb, h2], by simp; omega, by rcases h4 with h4 | h4 <;> simp [h4], h5⟩
      · simp only [hb] at h
        simp at h
        exact ⟨[], by simp [h.2], rfl, by simp, Or.inr (by rw [← h.2]; simpa [Stops] using hb), by simp [numberFrom, h.1]⟩

/-! ### one item -/

theorem simpleEscape_eq (b : UInt8) (s : List UInt8) :
    simpleEscape (b :: s) = match LSpec.escape b with | some v => .ok ((v : Int), s) | none => .err := by
  simp only [simpleEscape, LSpec.escape]
  split <;> first | rfl | (split <;> simp_all)

theorem escape_not_oct {b : UInt8} (h : (LSpec.escape b).isSome = true) : isOct b = false ∧ b ≠ 0x78 ∧ b ≠ 0x0A ∧ b.toNat < 128 := by
  have : ∀ b, (LSpec.escape b).isSome = true → isOct b = false ∧ b ≠ 0x78 ∧ b ≠ 0x0A ∧ b.toNat < 128 := by
    apply forallByte; decide +kernel
  exact this b h

theorem isOct_props {b : UInt8} (h : isOct b = true) : isHex b = true ∧ b ≠ 0x78 ∧ b ≠ 0x0A ∧ b.toNat < 128 ∧ (LSpec.escape b).isSome = false := by
  have : ∀ b, isOct b = true → isHex b = true ∧ b ≠ 0x78 ∧ b ≠ 0x0A ∧ b.toNat < 128 ∧ (LSpec.escape b).isSome = false := by
    apply forallByte; decide +kernel
  exact this b h

theorem isHex_props {b : UInt8} (h : isHex b = true) : b ≠ 0x0A ∧ b ≠ 0x27 ∧ b ≠ 0x22 ∧ b ≠ 0x5C := by
  have : ∀ b, isHex b = true → b ≠ 0x0A ∧ b ≠ 0x27 ∧ b ≠ 0x22 ∧ b ≠ 0x5C := by
    apply forallByte; decide +kernel
  exact this b h

theorem glued_false_oct {ds rest : List UInt8} (h : (Item.oct ds).glued rest = false) : ds.length ≥ 3 ∨ Stops isOct rest := by
  cases rest with
  | nil => exact Or.inr trivial
  | cons b r =>
    simp only [Item.glued, Bool.and_eq_false_iff, decide_eq_false_iff_not] at h
    rcases h with h | h
    · left; omega
    · exact Or.inr h

theorem glued_false_hex {ds rest : List UInt8} (h : (Item.hex ds).glued rest = false) : Stops isHex rest := by
  cases rest with
  | nil => trivial
  | cons b r => exact h

theorem top_isSome_cons (f : Int → Option Int) (b : UInt8) (s : List UInt8) : (f (top (b :: s))).isSome = (f (charVal b)).isSome := rfl

theorem literalItem_complete {q : UInt8} {it : Item} {rest : List UInt8} (hw : it.WF q) (hg : it.glued rest = false)
    (hv : it.value ≤ 2147483647) : literalItem (it.text ++ rest) = .ok (it.value, rest) := by
  cases it with
  | plain b =>
    obtain ⟨_, h2, h3⟩ := hw
    simp only [Item.text, List.cons_append, List.nil_append, literalItem]
    rw [if_neg h2, if_neg h3]; rfl
  | simple b =>
    have hb := escape_not_oct hw
    simp only [Item.text, List.cons_append, List.nil_append, literalItem, if_true]
    unfold readEscape
    have h1 : ¬ (top (b :: rest) = 0x78 ∧ (hexVal (top (b :: rest).tail)).isSome) := by
      rintro ⟨h, _⟩; exact hb.2.1 ((charVal_x b).1 h)
    rw [if_neg h1]
    have h2 : ¬ (octVal (top (b :: rest))).isSome = true := by
      rw [top_isSome_cons, octVal_charVal, hb.1]; simp
    rw [if_neg h2, simpleEscape_eq]
    have hw' : (LSpec.escape b).isSome = true := hw
    cases he : LSpec.escape b with
    | none => rw [he] at hw'; simp at hw'
    | some v => simp [Item.value, he]
  | oct ds =>
    obtain ⟨h1, h2, h3⟩ := hw
    simp only [Item.text, List.cons_append, literalItem, if_true]
    cases ds with
    | nil => simp at h1
    | cons d ds =>
      have hd : isOct d = true := by simp at h3; exact h3.1
      have hp := isOct_props hd
      unfold readEscape
      have e1 : ¬ (top (d :: ds ++ rest) = 0x78 ∧ (hexVal (top (d :: ds ++ rest).tail)).isSome) := by
        rintro ⟨h, _⟩; exact hp.2.1 ((charVal_x d).1 h)
      rw [if_neg e1]
      have e2 : (octVal (top (d :: ds ++ rest))).isSome = true := by
        rw [List.cons_append, top_isSome_cons, octVal_charVal, hd]; simp
      rw [if_pos e2]
      have := octLoop_complete (d :: ds) rest 0 3 h3 h2 (by
        rcases glued_false_oct hg with h | h
        · left; omega
        · exact Or.inr h)
      rw [show ((0 : Int)) = ((0 : Nat) : Int) from rfl, this]
      rfl
  | hex ds =>
    obtain ⟨h1, h3⟩ := hw
    simp only [Item.text, List.cons_append, literalItem, if_true]
    cases ds with
    | nil => simp at h1
    | cons d ds =>
      have hd : isHex d = true := by simp at h3; exact h3.1
      unfold readEscape
      have e1 : (top (0x78 :: (d :: ds ++ rest)) = 0x78 ∧ (hexVal (top (0x78 :: (d :: ds ++ rest)).tail)).isSome) := by
        refine ⟨rfl, ?_⟩
        rw [List.tail_cons, List.cons_append, top_isSome_cons, hexVal_charVal, hd]; simp
      rw [if_pos e1]
      have := hexLoop_complete (d :: ds) rest 0 h3 (glued_false_hex hg) (by
        have : (Item.hex (d :: ds)).value = ((LSpec.number 16 (d :: ds) : Nat) : Int) := rfl
        rw [this] at hv
        rw [numberFrom_zero]; omega)
      exact this

theorem stops_glued_hex {ds rest : List UInt8} (h : Stops isHex rest) : (Item.hex ds).glued rest = false := by
  cases rest with
  | nil => rfl
  | cons b r => exact h

theorem stops_glued_oct {ds rest : List UInt8} (h : ds.length = 3 ∨ Stops isOct rest) : (Item.oct ds).glued rest = false := by
  cases rest with
  | nil => rfl
  | cons b r =>
    simp only [Item.glued, Bool.and_eq_false_iff, decide_eq_false_iff_not]
    rcases h with h | h
    · left; omega
    · exact Or.inr h

theorem readEscape_sound {s s' : List UInt8} {c : Int} {q : UInt8} (h : readEscape s = .ok (c, s')) :
    ∃ it : Item, (0x5C :: s) = it.text ++ s' ∧ it.WF q ∧ it.glued s' = false ∧ c = it.value := by
  unfold readEscape at h
  split at h
  · rename_i hx
    cases s with
    | nil => exact absurd hx.1 (by decide)
    | cons b t =>
      have hb : b = 0x78 := (charVal_x b).1 hx.1
      subst hb
      simp only [List.tail_cons] at h hx
      obtain ⟨ds, h1, h2, h3, h4⟩ := hexLoop_sound t 0 c s' h
      refine ⟨.hex ds, by simp [Item.text, h1], ⟨?_, h2⟩, stops_glued_hex h3, h4⟩
      rintro rfl
      simp at h1; subst h1
      cases t with
      | nil => exact absurd hx.2 (by decide)
      | cons d t =>
        have h5 := hx.2
        rw [top_isSome_cons, hexVal_charVal] at h5
        have : isHex d = false := h3
        rw [this] at h5; simp at h5
  · split at h
    · rename_i ho
      simp only [Out.ok.injEq] at h
      obtain ⟨ds, h1, h2, h3, h4, h5⟩ := octLoop_sound 3 s 0 c s' h
      refine ⟨.oct ds, by simp [Item.text, h1], ⟨?_, h3, h2⟩, stops_glued_oct h4, h5⟩
      rintro rfl
      simp at h1; subst h1
      cases s with
      | nil => exact absurd ho (by decide)
      | cons d t =>
        rw [top_isSome_cons, octVal_charVal] at ho
        rcases h4 with h4 | h4
        · simp at h4
        · have : isOct d = false := h4
          rw [this] at ho; simp at ho
    · cases s with
      | nil => simp [simpleEscape] at h
      | cons b t =>
        rw [simpleEscape_eq] at h
        cases he : LSpec.escape b with
        | none => rw [he] at h; simp at h
        | some v =>
          rw [he] at h; simp at h
          refine ⟨.simple b, by simp [Item.text, h.2], by simp [Item.WF, he], rfl, by simp [Item.value, he, h.1]⟩

theorem literalItem_sound {s s' : List UInt8} {c : Int} {q : UInt8} (h : literalItem s = .ok (c, s')) (hq : ∀ b r, s = b :: r → b ≠ q) :
    ∃ it : Item, s = it.text ++ s' ∧ it.WF q ∧ it.glued s' = false ∧ c = it.value := by
  cases s with
  | nil => simp [literalItem] at h
  | cons b t =>
    simp only [literalItem] at h
    split at h
    · rename_i hb; subst hb; exact readEscape_sound h
    · rename_i hb
      split at h
      · simp at h
      · rename_i hn
        simp at h
        exact ⟨.plain b, by simp [Item.text, h.2], ⟨hq b t rfl, hb, hn⟩, rfl, by rw [← h.1]; rfl⟩

theorem Item.text_ne_nil (it : Item) : it.text ≠ [] := by cases it <;> simp [Item.text]

theorem Item.text_no_newline {it : Item} {q : UInt8} (h : it.WF q) : (0x0A : UInt8) ∉ it.text := by
  cases it with
  | plain b => intro hm; simp [LSpec.Item.text] at hm; exact h.2.2 hm.symm
  | simple b => intro hm; simp [LSpec.Item.text] at hm; exact (escape_not_oct h).2.2.1 hm.symm
  | oct ds =>
    intro hm; simp [LSpec.Item.text] at hm
    have := h.2.2
    rw [List.all_eq_true] at this
    exact (isOct_props (this _ hm)).2.2.1 rfl
  | hex ds =>
    intro hm; simp [LSpec.Item.text] at hm
    have := h.2
    rw [List.all_eq_true] at this
    exact (isHex_props (this _ hm)).1 rfl

theorem Item.text_head {it : Item} {q : UInt8} (h : it.WF q) (hq : q ≠ 0x5C) : ∀ b r, it.text = b :: r → b ≠ q := by
  cases it with
  | plain b => intro c r e; simp [LSpec.Item.text] at e; rw [← e.1]; exact h.1
  | simple b => intro c r e; simp [LSpec.Item.text] at e; rw [← e.1]; exact fun e => hq e.symm
  | oct ds => intro c r e; simp [LSpec.Item.text] at e; rw [← e.1]; exact fun e => hq e.symm
  | hex ds => intro c r e; simp [LSpec.Item.text] at e; rw [← e.1]; exact fun e => hq e.symm

/-- where undefined behaviour comes from: eight hexadecimal digits in an escape -/
def LongHex (s : List UInt8) : Prop :=
  ∃ pre ds post, s = pre ++ ([0x5C, 0x78] ++ ds ++ post) ∧ ds.all isHex = true ∧ 8 ≤ ds.length

theorem LongHex.append_left {s : List UInt8} (h : LongHex s) (t : List UInt8) : LongHex (t ++ s) := by
  obtain ⟨pre, ds, post, h1, h2, h3⟩ := h
  exact ⟨t ++ pre, ds, post, by rw [h1]; simp, h2, h3⟩

theorem literalItem_outcome (s : List UInt8) : (∃ r, literalItem s = .ok r) ∨ literalItem s = .err ∨ (literalItem s = .ub ∧ LongHex s) ∨
    (literalItem s = .hang ∧ s = []) := by
  cases s with
  | nil => exact Or.inr (Or.inr (Or.inr ⟨rfl, rfl⟩))
  | cons b t =>
    simp only [literalItem]
    split
    · rename_i hb
      subst hb
      unfold readEscape
      split
      · rename_i hx
        rcases hexLoop_outcome t.tail 0 with h | h
        · exact Or.inl h
        · right; right; left
          refine ⟨h, ?_⟩
          obtain ⟨ds, post, h1, h2, h3⟩ := hexLoop_ub t.tail 0 0 (by simp) (by omega) h
          cases t with
          | nil => exact absurd hx.1 (by decide)
          | cons b t =>
            have hb : b = 0x78 := (charVal_x b).1 hx.1
            subst hb
            simp at h1
            exact ⟨[], ds, post, by simp [h1], h2, by omega⟩
      · split
        · exact Or.inl ⟨_, rfl⟩
        · cases t with
          | nil => exact Or.inr (Or.inl rfl)
          | cons b t =>
            rw [simpleEscape_eq]
            split
            · exact Or.inl ⟨_, rfl⟩
            · exact Or.inr (Or.inl rfl)
    · split
      · exact Or.inr (Or.inl rfl)
      · exact Or.inl ⟨_, rfl⟩

/-! ### sequences of items -/

theorem glued_append {it : Item} {a b : List UInt8} (h : a ≠ []) : it.glued (a ++ b) = it.glued a := by
  cases a with
  | nil => simp at h
  | cons x xs => cases it <;> rfl

theorem itemsText_ne {i : Item} {is : List Item} : itemsText (i :: is) ≠ [] := by
  simp [itemsText, Item.text_ne_nil]

theorem quote_not_glued {q : UInt8} (hq : isHex q = false) (it : Item) (rest : List UInt8) : it.glued (q :: rest) = false := by
  have ho : isOct q = false := by
    cases h : isOct q with
    | false => rfl
    | true => rw [(isOct_props h).1] at hq; simp at hq
  cases it <;> simp [Item.glued, ho, hq]

theorem glued_items {q : UInt8} (hq : isHex q = false) (it : Item) (is : List Item) (rest : List UInt8) :
    it.glued (itemsText is ++ q :: rest) = it.glued (itemsText is) := by
  cases is with
  | nil => rw [show itemsText [] = [] from rfl, List.nil_append, quote_not_glued hq]; cases it <;> rfl
  | cons j js => exact glued_append itemsText_ne

theorem top_items_ne {q : UInt8} {it : Item} (hw : it.WF q) (hq : q ≠ 0x5C) (rest : List UInt8) : top (it.text ++ rest) ≠ charVal q := by
  cases h : it.text with
  | nil => exact absurd h (Item.text_ne_nil it)
  | cons b r =>
    rw [List.cons_append]
    intro e
    exact Item.text_head hw hq b r h (charVal_inj e)

theorem strLoop_complete : ∀ (is : List Item) (fuel : Nat) (rest : List UInt8), is.length < fuel → (∀ i ∈ is, i.WF 0x22) → Munch is →
    (∀ i ∈ is, i.value ≤ 2147483647) →
    strLoop fuel (itemsText is ++ 0x22 :: rest) = .ok (is.map (fun i => LSpec.toByte i.value), rest) := by
  intro is
  induction is with
  | nil =>
    intro fuel rest hf _ _ _
    cases fuel with
    | zero => simp at hf
    | succ f => rfl
  | cons i is ih =>
    intro fuel rest hf hw hm hv
    cases fuel with
    | zero => simp at hf
    | succ f =>
      have e : itemsText (i :: is) ++ 0x22 :: rest = i.text ++ (itemsText is ++ 0x22 :: rest) := by simp [itemsText]
      rw [e, strLoop]
      have hne : top (i.text ++ (itemsText is ++ 0x22 :: rest)) ≠ 0x22 := top_items_ne (hw i (by simp)) (by decide) _
      rw [if_neg hne]
      rw [literalItem_complete (hw i (by simp)) (by rw [glued_items (by decide)]; exact hm.1) (hv i (by simp))]
      rw [Out.ok_bind]
      dsimp only
      rw [ih f rest (by simpa using hf) (fun j hj => hw j (by simp [hj])) hm.2 (fun j hj => hv j (by simp [hj]))]
      rw [Out.ok_bind, ofInt_toByte]
      rfl

theorem charRest_complete : ∀ (is : List Item) (fuel : Nat) (rest : List UInt8), is.length < fuel → (∀ i ∈ is, i.WF 0x27) → Munch is →
    (∀ i ∈ is, i.value ≤ 2147483647) → charRest fuel (itemsText is ++ 0x27 :: rest) = .ok rest := by
  intro is
  induction is with
  | nil =>
    intro fuel rest hf _ _ _
    cases fuel with
    | zero => simp at hf
    | succ f => rfl
  | cons i is ih =>
    intro fuel rest hf hw hm hv
    cases fuel with
    | zero => simp at hf
    | succ f =>
      have e : itemsText (i :: is) ++ 0x27 :: rest = i.text ++ (itemsText is ++ 0x27 :: rest) := by simp [itemsText]
      rw [e, charRest]
      have hne : top (i.text ++ (itemsText is ++ 0x27 :: rest)) ≠ 0x27 := top_items_ne (hw i (by simp)) (by decide) _
      rw [if_neg hne]
      rw [literalItem_complete (hw i (by simp)) (by rw [glued_items (by decide)]; exact hm.1) (hv i (by simp))]
      rw [Out.ok_bind]
      exact ih f rest (by simpa using hf) (fun j hj => hw j (by simp [hj])) hm.2 (fun j hj => hv j (by simp [hj]))

theorem head_ne_of_top {s : List UInt8} {q : UInt8} (h : top s ≠ charVal q) : ∀ b r, s = b :: r → b ≠ q := by
  rintro b r rfl e; subst e; exact h rfl

theorem cons_of_top {s : List UInt8} {q : UInt8} (hq : q.toNat < 128) (h : top s = charVal q) : s = q :: s.tail := by
  cases s with
  | nil =>
    exfalso
    simp only [top, charVal, hq, if_true] at h
    omega
  | cons b r => rw [charVal_inj h]; rfl

theorem itemsText_length (is : List Item) : is.length ≤ (itemsText is).length := by
  induction is with
  | nil => simp
  | cons i is ih =>
    have : i.text.length ≠ 0 := by simpa using Item.text_ne_nil i
    simp [itemsText] at ih ⊢; omega

theorem strLoop_sound : ∀ (fuel : Nat) (s : List UInt8) (cs s' : List UInt8), strLoop fuel s = .ok (cs, s') →
    ∃ is : List Item, s = itemsText is ++ 0x22 :: s' ∧ (∀ i ∈ is, i.WF 0x22) ∧ Munch is ∧ cs = is.map (fun i => LSpec.toByte i.value) := by
  intro fuel
  induction fuel with
  | zero => intro s cs s' h; simp [strLoop] at h
  | succ f ih =>
    intro s cs s' h
    rw [strLoop] at h
    split at h
    · rename_i ht
      simp at h
      have := cons_of_top (q := 0x22) (by decide) ht
      exact ⟨[], by rw [this, h.2]; rfl, by simp, trivial, by simp [h.1]⟩
    · rename_i ht
      rw [Out.bind_eq_ok] at h
      obtain ⟨⟨c, s1⟩, h1, h2⟩ := h
      dsimp only at h2
      rw [Out.bind_eq_ok] at h2
      obtain ⟨⟨cs1, s2⟩, h3, h4⟩ := h2
      simp at h4
      obtain ⟨rfl, rfl⟩ := h4
      obtain ⟨it, a1, a2, a3, a4⟩ := literalItem_sound (q := 0x22) h1 (head_ne_of_top ht)
      obtain ⟨is, b1, b2, b3, b4⟩ := ih _ _ _ h3
      refine ⟨it :: is, by rw [a1, b1]; simp [itemsText], ?_, ⟨?_, b3⟩, by rw [b4, a4, ofInt_toByte]; rfl⟩
      · intro j hj; simp at hj; rcases hj with rfl | hj
        · exact a2
        · exact b2 j hj
      · rw [b1, glued_items (by decide)] at a3; exact a3

theorem charRest_sound : ∀ (fuel : Nat) (s s' : List UInt8), charRest fuel s = .ok s' →
    ∃ is : List Item, s = itemsText is ++ 0x27 :: s' ∧ (∀ i ∈ is, i.WF 0x27) ∧ Munch is := by
  intro fuel
  induction fuel with
  | zero => intro s s' h; simp [charRest] at h
  | succ f ih =>
    intro s s' h
    rw [charRest] at h
    split at h
    · rename_i ht
      simp at h
      have := cons_of_top (q := 0x27) (by decide) ht
      exact ⟨[], by rw [this, h]; rfl, by simp, trivial⟩
    · rename_i ht
      rw [Out.bind_eq_ok] at h
      obtain ⟨⟨c, s1⟩, h1, h2⟩ := h
      obtain ⟨it, a1, a2, a3, a4⟩ := literalItem_sound (q := 0x27) h1 (head_ne_of_top ht)
      obtain ⟨is, b1, b2, b3⟩ := ih _ _ h2
      refine ⟨it :: is, by rw [a1, b1]; simp [itemsText], ?_, ⟨?_, b3⟩⟩
      · intro j hj; simp at hj; rcases hj with rfl | hj
        · exact a2
        · exact b2 j hj
      · rw [b1, glued_items (by decide)] at a3; exact a3

/-- outcomes of the loops with enough fuel: running forever means there is no newline ahead -/
theorem strLoop_outcome : ∀ (fuel : Nat) (s : List UInt8), s.length < fuel →
    (∃ r, strLoop fuel s = .ok r) ∨ strLoop fuel s = .err ∨ (strLoop fuel s = .ub ∧ LongHex s) ∨ (strLoop fuel s = .hang ∧ (0x0A : UInt8) ∉ s) := by
  intro fuel
  induction fuel with
  | zero => intro s h; simp at h
  | succ f ih =>
    intro s hf
    rw [strLoop]
    split
    · exact Or.inl ⟨_, rfl⟩
    · rename_i ht
      rcases literalItem_outcome s with ⟨⟨c, s1⟩, h⟩ | h | ⟨h, hl⟩ | ⟨h, rfl⟩
      · obtain ⟨it, a1, a2, _, _⟩ := literalItem_sound (q := 0x22) h (head_ne_of_top ht)
        have hlen : s1.length < f := by
          have : it.text.length ≠ 0 := by simpa using Item.text_ne_nil it
          rw [a1] at hf; simp at hf; omega
        rw [h, Out.ok_bind]
        dsimp only
        rcases ih s1 hlen with ⟨⟨cs, s2⟩, h'⟩ | h' | ⟨h', hl⟩ | ⟨h', hn⟩
        · rw [h']; exact Or.inl ⟨_, rfl⟩
        · rw [h']; exact Or.inr (Or.inl rfl)
        · rw [h']; exact Or.inr (Or.inr (Or.inl ⟨rfl, by rw [a1]; exact hl.append_left _⟩))
        · rw [h']; refine Or.inr (Or.inr (Or.inr ⟨rfl, ?_⟩))
          rw [a1]; simp [Item.text_no_newline a2, hn]
      · rw [h]; exact Or.inr (Or.inl rfl)
      · rw [h]; exact Or.inr (Or.inr (Or.inl ⟨rfl, hl⟩))
      · rw [h]; exact Or.inr (Or.inr (Or.inr ⟨rfl, by simp⟩))

theorem charRest_outcome : ∀ (fuel : Nat) (s : List UInt8), s.length < fuel →
    (∃ r, charRest fuel s = .ok r) ∨ charRest fuel s = .err ∨ (charRest fuel s = .ub ∧ LongHex s) ∨ (charRest fuel s = .hang ∧ (0x0A : UInt8) ∉ s) := by
  intro fuel
  induction fuel with
  | zero => intro s h; simp at h
  | succ f ih =>
    intro s hf
    rw [charRest]
    split
    · exact Or.inl ⟨_, rfl⟩
    · rename_i ht
      rcases literalItem_outcome s with ⟨⟨c, s1⟩, h⟩ | h | ⟨h, hl⟩ | ⟨h, rfl⟩
      · obtain ⟨it, a1, a2, _, _⟩ := literalItem_sound (q := 0x27) h (head_ne_of_top ht)
        have hlen : s1.length < f := by
          have : it.text.length ≠ 0 := by simpa using Item.text_ne_nil it
          rw [a1] at hf; simp at hf; omega
        rw [h, Out.ok_bind]
        dsimp only
        rcases ih s1 hlen with ⟨s2, h'⟩ | h' | ⟨h', hl⟩ | ⟨h', hn⟩
        · rw [h']; exact Or.inl ⟨_, rfl⟩
        · rw [h']; exact Or.inr (Or.inl rfl)
        · rw [h']; exact Or.inr (Or.inr (Or.inl ⟨rfl, by rw [a1]; exact hl.append_left _⟩))
        · rw [h']; refine Or.inr (Or.inr (Or.inr ⟨rfl, ?_⟩))
          rw [a1]; simp [Item.text_no_newline a2, hn]
      · rw [h]; exact Or.inr (Or.inl rfl)
      · rw [h]; exact Or.inr (Or.inr (Or.inl ⟨rfl, hl⟩))
      · rw [h]; exact Or.inr (Or.inr (Or.inr ⟨rfl, by simp⟩))

end Lexer
end Umlcc
