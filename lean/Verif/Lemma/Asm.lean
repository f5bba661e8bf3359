import Verif.Spec.Asm
import Verif.Model.Main
import Verif.Lemma.Literal
/-!
Reading printed assembly items.
-/
namespace Umlcc
namespace Asm
open X64 (Line OpTxt Item XInst XOpe)

theorem cut_append {c : UInt8} : ∀ {a : List UInt8} (r : List UInt8), c ∉ a → cut c (a ++ c :: r) = some (a, r)
  | [], r, _ => by simp [cut]
  | b :: a, r, h => by
    have h1 : b ≠ c := fun e => h (by simp [e])
    have h2 : c ∉ a := fun e => h (by simp [e])
    simp only [List.cons_append, cut, h1, if_false, cut_append r h2, Option.map_some]

theorem cut_none {c : UInt8} : ∀ {a : List UInt8}, c ∉ a → cut c a = none
  | [], _ => rfl
  | b :: a, h => by
    have h1 : b ≠ c := fun e => h (by simp [e])
    have h2 : c ∉ a := fun e => h (by simp [e])
    simp only [cut, h1, if_false, cut_none h2, Option.map_none]

/-- the text is read as these entries -/
def Reads (s : List UInt8) (es : List Entry) : Prop := ∀ n, s.length ≤ n → entries n s = some es

theorem reads_nil : Reads [] [] := fun n _ => by cases n <;> rfl

theorem reads_line {l : List UInt8} {e : Entry} (h : line l = some e) (hl : (0x0A : UInt8) ∉ l) {r : List UInt8} {es : List Entry} (hr : Reads r es) :
    Reads (l ++ 0x0A :: r) (e :: es) := by
  intro n hn
  cases n with
  | zero => simp at hn
  | succ n =>
    have hr := hr n (by simp at hn; omega)
    cases l with
    | nil =>
      have := cut_append (c := 0x0A) (a := []) r hl
      simp only [List.nil_append] at this ⊢
      rw [entries, this]
      simp only [h, hr]
      simp
    | cons b l =>
      have := cut_append r hl
      rw [List.cons_append] at this ⊢
      rw [entries, this]
      simp only [h, hr]
      simp

/-! ### numbers -/

theorem digitChar_byte : ∀ d, d < 10 → digit (UInt8.ofNat (Nat.digitChar d).toNat) = true ∧ (UInt8.ofNat (Nat.digitChar d).toNat).toNat - 0x30 = d ∧
    (UInt8.ofNat (Nat.digitChar d).toNat = 0x30 ↔ d = 0) := by decide

/-- digits of a number -/
def digits (n : Nat) : List UInt8 := (Nat.toDigits 10 n).map fun c => UInt8.ofNat c.toNat

theorem digits_step {n : Nat} (h : 10 ≤ n) : digits n = digits (n / 10) ++ [UInt8.ofNat (Nat.digitChar (n % 10)).toNat] := by
  simp only [digits, Nat.toDigits_of_base_le (by decide : 1 < 10) h, List.map_append, List.map_cons, List.map_nil]

theorem digits_small {n : Nat} (h : n < 10) : digits n = [UInt8.ofNat (Nat.digitChar n).toNat] := by
  simp only [digits, Nat.toDigits_of_lt_base h, List.map_cons, List.map_nil]

theorem digits_spec (n : Nat) : (digits n).all digit = true ∧ (digits n).foldl (fun v b => 10 * v + (b.toNat - 0x30)) 0 = n ∧
    ∃ b t, digits n = b :: t ∧ (b = 0x30 → n = 0 ∧ t = []) := by
  induction n using Nat.strongRecOn with
  | ind n ih =>
    by_cases h : n < 10
    · obtain ⟨h1, h2, h3⟩ := digitChar_byte n h
      rw [digits_small h]
      refine ⟨by simp [h1], by simp only [List.foldl_cons, List.foldl_nil, h2, Nat.mul_zero, Nat.zero_add], _, _, rfl, fun e => ⟨h3.1 e, rfl⟩⟩
    · obtain ⟨h1, h2, -⟩ := digitChar_byte (n % 10) (Nat.mod_lt _ (by decide))
      obtain ⟨k1, k2, b, t, k3, k4⟩ := ih (n / 10) (by omega)
      rw [digits_step (by omega)]
      refine ⟨by simp only [List.all_append, k1, List.all_cons, h1, List.all_nil, Bool.and_self], ?_, b, t ++ [_], by rw [k3]; rfl, fun e => ?_⟩
      · rw [List.foldl_append, k2]
        simp only [List.foldl_cons, List.foldl_nil, h2]
        omega
      · have := (k4 e).1
        omega

theorem natural_digits (n : Nat) : natural (digits n) = some n := by
  obtain ⟨h1, h2, b, t, h3, h4⟩ := digits_spec n
  rw [h3] at h1 h2 ⊢
  have h5 : (b != 0x30 || t.isEmpty) = true := by
    by_cases e : b = 0x30
    · rw [(h4 e).2]; simp
    · simp [e]
  simp only [natural, h1, h5, Bool.and_self, if_true, h2]

theorem digits_all {n : Nat} {b : UInt8} (h : b ∈ digits n) : digit b = true := List.all_eq_true.1 (digits_spec n).1 b h

theorem decimal_eq (v : Int) : X64.decimal v = (if v < 0 then [0x2D] else []) ++ digits v.natAbs := rfl

theorem integer_decimal (v : Int) : integer (X64.decimal v) = some v := by
  rw [decimal_eq]
  by_cases h : v < 0
  · rw [if_pos h]
    rw [List.singleton_append, integer, natural_digits]
    simp
    omega
  · rw [if_neg h, List.nil_append]
    obtain ⟨h1, -, b, t, h3, -⟩ := digits_spec v.natAbs
    have hb : b ≠ 0x2D := by
      rintro rfl
      have := digits_all (n := v.natAbs) (b := 0x2D) (by rw [h3]; simp)
      revert this
      decide
    have : integer (digits v.natAbs) = (natural (digits v.natAbs)).map fun n => (n : Int) := by
      rw [h3]
      unfold integer
      split
      · rename_i e
        cases e
        exact absurd rfl hb
      · rfl
    rw [this, natural_digits]
    simp
    omega

/-- characters of numbers -/
def numChar (b : UInt8) : Bool := digit b || b == 0x2D

theorem decimal_all {v : Int} {b : UInt8} (h : b ∈ X64.decimal v) : numChar b = true := by
  rw [decimal_eq, List.mem_append] at h
  rcases h with h | h
  · split at h
    · simp at h; subst h; decide
    · cases h
  · simp [numChar, digits_all h]

theorem decimal_ne_nil (v : Int) : X64.decimal v ≠ [] := by
  obtain ⟨-, -, b, t, h3, -⟩ := digits_spec v.natAbs
  rw [decimal_eq, h3]
  simp

/-! ### symbols -/

theorem symbol_name {n : Name} (h : isSymbol n.1 = true) : symbol n.1 = some n := by
  simp only [symbol, h, dite_true]

theorem isSymbol_all {s : List UInt8} (h : isSymbol s = true) {b : UInt8} (hb : b ∈ s) : symChar b = true := by
  cases s with
  | nil => cases hb
  | cons c s =>
    simp only [isSymbol, Bool.and_eq_true, List.all_eq_true] at h
    rcases List.mem_cons.1 hb with rfl | hb
    · exact h.1.1
    · exact h.2 b hb

theorem isSymbol_ne {s : List UInt8} (h : isSymbol s = true) : s ≠ [] := by rintro rfl; cases h

theorem not_symChar {b c : UInt8} (h : symChar b = true) (hc : symChar c = false) : b ≠ c := by rintro rfl; rw [h] at hc; cases hc

theorem not_numChar {b c : UInt8} (h : numChar b = true) (hc : numChar c = false) : b ≠ c := by rintro rfl; rw [h] at hc; cases hc

theorem not_mem_symbol {s : List UInt8} (h : isSymbol s = true) {c : UInt8} (hc : symChar c = false) : c ∉ s :=
  fun hm => not_symChar (isSymbol_all h hm) hc rfl

theorem not_mem_decimal {v : Int} {c : UInt8} (hc : numChar c = false) : c ∉ X64.decimal v :=
  fun hm => not_numChar (decimal_all hm) hc rfl

/-! ### operands -/

/-- characters of operands other than commas and blanks -/
def opChar (b : UInt8) : Bool := symChar b || numChar b || b == 0x25 || b == 0x24 || b == 0x2A || b == 0x28 || b == 0x29

theorem regName_read (r : Reg) (s : Sfx) (n : String) (h : X64.regName r s = some n) :
    ∃ t, X64.bytes n = 0x25 :: t ∧ t ≠ [] ∧ t.all symChar = true ∧ word (0x25 :: t) = n ∧ n ≠ "%rip" := by
  have key : (match X64.regName r s with
    | some n => match X64.bytes n with
      | 0x25 :: t => t != [] && t.all symChar && (word (0x25 :: t) == n) && n != "%rip"
      | _ => false
    | none => true) = true := by
    cases r <;> cases s <;> decide +kernel
  rw [h] at key
  dsimp only at key
  split at key
  · rename_i t e
    simp only [Bool.and_eq_true, bne_iff_ne, beq_iff_eq] at key
    obtain ⟨⟨⟨h1, h2⟩, h3⟩, h4⟩ := key
    exact ⟨t, e, h1, h2, h3, h4⟩
  · cases key

theorem register_read {t : List UInt8} {n : String} (h1 : t ≠ []) (h2 : t.all symChar = true) (h3 : word (0x25 :: t) = n) : register (0x25 :: t) = some n := by
  simp only [register, h2, Bool.and_true, bne_iff_ne, ne_eq, h1, not_false_eq_true, if_true, h3]

theorem operand_other {b : UInt8} {s : List UInt8} (h1 : b ≠ 0x25) (h2 : b ≠ 0x2A) (h3 : b ≠ 0x24) : operand (b :: s) = (match cut 0x28 (b :: s) with
    | none => (symbol (b :: s)).map .sym
    | some (a, r) => match cut 0x29 r with
      | some (r, []) => match register r with
        | none => none
        | some r => if a = [] then some (.ind r)
          else if r = "%rip" then (symbol a).map .rip
          else (integer a).map fun v => .disp v r
      | _ => none) := by
  unfold operand
  split
  · rename_i e; cases e; exact absurd rfl h1
  · rename_i e; cases e; exact absurd rfl h2
  · rename_i e; cases e; exact absurd rfl h3
  · rfl

theorem operand_mem {a t : List UInt8} {n : String} (ha : ∀ b ∈ a, symChar b = true ∨ numChar b = true) (h1 : t ≠ []) (h2 : t.all symChar = true) (h3 : word (0x25 :: t) = n) :
    operand (a ++ 0x28 :: (0x25 :: t ++ [0x29])) = if a = [] then some (.ind n) else if n = "%rip" then (symbol a).map .rip else (integer a).map fun v => .disp v n := by
  have hc : cut 0x28 (a ++ 0x28 :: (0x25 :: t ++ [0x29])) = some (a, 0x25 :: t ++ [0x29]) :=
    cut_append _ fun hm => by rcases ha _ hm with h | h <;> revert h <;> decide
  have hd : cut 0x29 (0x25 :: t ++ [0x29]) = some (0x25 :: t, []) := cut_append _ fun hm => by
    rcases List.mem_cons.1 hm with h | h
    · revert h; decide
    · have := List.all_eq_true.1 h2 _ h
      revert this; decide
  have hr := register_read h1 h2 h3
  cases a with
  | nil =>
    rw [List.nil_append] at hc ⊢
    rw [operand_other (by decide) (by decide) (by decide), hc]
    dsimp only
    rw [hd]
    dsimp only
    rw [hr]
  | cons b a =>
    have hb : ∀ c, symChar c = false → numChar c = false → b ≠ c := by
      rintro c h1 h2 rfl
      rcases ha b (by simp) with h | h
      · rw [h] at h1; cases h1
      · rw [h] at h2; cases h2
    rw [List.cons_append] at hc ⊢
    rw [operand_other (hb _ (by decide) (by decide)) (hb _ (by decide) (by decide)) (hb _ (by decide) (by decide)), hc]
    dsimp only
    rw [hd]
    dsimp only
    rw [hr]

theorem bytes_paren : X64.bytes "(" = [0x28] ∧ X64.bytes ")" = [0x29] ∧ X64.bytes "*" = [0x2A] ∧ X64.bytes "$" = [0x24] ∧ X64.bytes "(%rip)" = [0x28, 0x25, 0x72, 0x69, 0x70, 0x29] := by
  decide +kernel

theorem operand_read {o : XOpe} {t : OpTxt} (h : X64.opTxt o = .ok t) (hs : SymOpe o) : operand t.bytes = some t ∧ t.bytes.all opChar = true ∧ t.bytes ≠ [] := by
  obtain ⟨p1, p2, p3, p4, p5⟩ := bytes_paren
  have symop : ∀ {b}, symChar b = true → opChar b = true := fun h => by simp [opChar, h]
  have numop : ∀ {b}, numChar b = true → opChar b = true := fun h => by simp [opChar, h]
  have regs : ∀ {r s} {f : String → OpTxt}, X64.orUb f (X64.regName r s) = .ok t → ∃ n t', t = f n ∧ X64.bytes n = 0x25 :: t' ∧ t' ≠ [] ∧ t'.all symChar = true ∧ word (0x25 :: t') = n ∧ n ≠ "%rip" := by
    intro r s f h
    cases hr : X64.regName r s with
    | none => rw [hr] at h; cases h
    | some n =>
      rw [hr] at h
      cases h
      obtain ⟨t', h1, h2, h3, h4, h5⟩ := regName_read r s n hr
      exact ⟨n, t', rfl, h1, h2, h3, h4, h5⟩
  have regop : ∀ {t' : List UInt8}, t'.all symChar = true → (0x25 :: t').all opChar = true := by
    intro t' h
    rw [List.all_cons, Bool.and_eq_true, List.all_eq_true]
    exact ⟨by decide, fun b hb => symop (List.all_eq_true.1 h b hb)⟩
  cases o with
  | sfx s => cases h
  | reg s r =>
    obtain ⟨n, t', rfl, e, h1, h2, h3, h4⟩ := regs h
    simp only [OpTxt.bytes, e]
    refine ⟨?_, regop h2, by simp⟩
    simp only [operand, register_read h1 h2 h3, Option.map_some]
  | ptr r =>
    obtain ⟨n, t', rfl, e, h1, h2, h3, h4⟩ := regs h
    simp only [OpTxt.bytes, e, p1, p2]
    refine ⟨?_, ?_, by simp⟩
    · have := operand_mem (a := []) (by simp) h1 h2 h3
      rw [if_pos rfl] at this
      exact this
    · rw [List.all_append, List.all_append, regop h2]; decide
  | jptr r =>
    obtain ⟨n, t', rfl, e, h1, h2, h3, h4⟩ := regs h
    simp only [OpTxt.bytes, e, p3]
    refine ⟨?_, ?_, by simp⟩
    · show operand (0x2A :: 0x25 :: t') = _
      simp only [operand, register_read h1 h2 h3, Option.map_some]
    · rw [List.all_append, regop h2]; decide
  | mem off =>
    obtain ⟨n, t', rfl, e, h1, h2, h3, h4⟩ := regs (r := .bp) (s := .quad) (f := .disp (-off)) h
    simp only [OpTxt.bytes, e, p1, p2]
    refine ⟨?_, ?_, by simp⟩
    · have := operand_mem (a := X64.decimal (-off)) (fun b hb => .inr (decimal_all hb)) h1 h2 h3
      rw [if_neg (decimal_ne_nil _), if_neg h4, integer_decimal] at this
      simpa using this
    · rw [List.all_append, List.all_append, List.all_append, regop h2, Bool.and_eq_true, Bool.and_eq_true, Bool.and_eq_true, List.all_eq_true]
      exact ⟨⟨⟨fun b hb => numop (decimal_all hb), by decide⟩, rfl⟩, by decide⟩
  | label n =>
    cases h
    simp only [SymOpe] at hs
    simp only [OpTxt.bytes, p5]
    refine ⟨?_, ?_, by simp⟩
    · have := operand_mem (a := n.1) (t := [0x72, 0x69, 0x70]) (n := "%rip") (fun b hb => .inl (isSymbol_all hs hb)) (by simp) (by decide) (by decide +kernel)
      rw [if_neg (isSymbol_ne hs), if_pos rfl, symbol_name hs] at this
      exact this
    · rw [List.all_append, Bool.and_eq_true, List.all_eq_true]
      exact ⟨fun b hb => symop (isSymbol_all hs hb), by decide⟩
  | jlabel n =>
    cases h
    simp only [SymOpe] at hs
    simp only [OpTxt.bytes]
    refine ⟨?_, List.all_eq_true.2 fun b hb => symop (isSymbol_all hs hb), isSymbol_ne hs⟩
    have hc : cut 0x28 n.1 = none := cut_none (not_mem_symbol hs (by decide))
    have hsy := symbol_name hs
    cases hn : n.1 with
    | nil => exact absurd hn (isSymbol_ne hs)
    | cons b s =>
      have hb : ∀ c, symChar c = false → b ≠ c := fun c hc => not_symChar (isSymbol_all hs (by rw [hn]; simp)) hc
      rw [operand_other (hb _ (by decide)) (hb _ (by decide)) (hb _ (by decide)), ← hn, hc]
      dsimp only
      rw [hsy]
      rfl
  | int s l =>
    cases h
    simp only [OpTxt.bytes, p4]
    refine ⟨?_, ?_, by simp⟩
    · show operand (0x24 :: X64.decimal l.value) = _
      simp only [operand, integer_decimal, Option.map_some]
    · rw [List.all_append, Bool.and_eq_true, List.all_eq_true]
      exact ⟨by decide, List.all_eq_true.2 fun b hb => numop (decimal_all hb)⟩

/-! ### instructions -/

theorem not_opChar {s : List UInt8} (h : s.all opChar = true) {c : UInt8} (hc : opChar c = false) : c ∉ s := fun hm => by
  have := List.all_eq_true.1 h _ hm
  rw [this] at hc
  cases hc

theorem skip_op {s : List UInt8} (h : s.all opChar = true) (hn : s ≠ []) (r : List UInt8) : skipBlanks (s ++ r) = s ++ r := by
  cases s with
  | nil => exact absurd rfl hn
  | cons b s =>
    have h1 : b ≠ 0x20 := fun e => not_opChar h (c := 0x20) (by decide) (by simp [e])
    have h2 : b ≠ 0x09 := fun e => not_opChar h (c := 0x09) (by decide) (by simp [e])
    simp [skipBlanks, h1, h2]

/-- the text after the mnemonic: nothing, or a tab and the operands -/
theorem operands_read : ∀ (os : List XOpe) (ts : List OpTxt) (s : List UInt8), X64.opTxts os = .ok ts → (∀ o ∈ os, SymOpe o) → X64.opeStrings (X64.bytes ", ") os = .ok s → ts ≠ [] →
    ∃ r, s = 0x2C :: 0x20 :: r ∧ r ≠ [] ∧ (0x0A : UInt8) ∉ r ∧ (∀ n, r.length ≤ n → operands n r = some ts) ∧ ∀ n, r.length ≤ n → operands n (0x20 :: r) = some ts
  | [], ts, s, h1, _, _, h4 => by cases h1; exact absurd rfl h4
  | o :: os, ts, s, h1, h2, h3, h4 => by
    simp only [X64.opTxts, Out.bind_eq_ok] at h1
    obtain ⟨t, ht, ts', hts, h1⟩ := h1
    cases h1
    simp only [X64.opeStrings, X64.opeString, Out.bind_eq_ok] at h3
    obtain ⟨a, ⟨t2, ht2, ha⟩, b, hb, h3⟩ := h3
    rw [ht] at ht2
    cases ht2
    simp only [X64.inBuffer] at ha
    split at ha <;> cases ha
    cases h3
    obtain ⟨k1, k2, k3⟩ := operand_read ht (h2 o (by simp))
    have hsep : X64.bytes ", " = [0x2C, 0x20] := by decide +kernel
    have hcomma : (0x2C : UInt8) ∉ t.bytes := not_opChar k2 (by decide)
    have hnl : (0x0A : UInt8) ∉ t.bytes := not_opChar k2 (by decide)
    have blank : ∀ r, skipBlanks (0x20 :: r) = skipBlanks r := fun r => by simp [skipBlanks]
    refine ⟨t.bytes ++ b, by rw [hsep]; rfl, by simp [k3], ?_⟩
    cases hts' : ts' with
    | nil =>
      have hb0 : b = [] := by
        subst hts'
        cases os with
        | nil => cases hb; rfl
        | cons o os =>
          simp only [X64.opTxts, Out.bind_eq_ok] at hts
          obtain ⟨_, _, _, _, h⟩ := hts
          cases h
      subst hb0
      have key : ∀ n, 0 < n → ∀ x, skipBlanks x = t.bytes → operands n x = some [t] := by
        intro n hn x hx
        cases n with
        | zero => exact absurd hn (Nat.lt_irrefl 0)
        | succ n => simp only [operands, hx, cut_none hcomma, k1, Option.map_some]
      have hpos : 0 < t.bytes.length := List.length_pos_iff.2 k3
      have hsk := skip_op k2 k3 []
      rw [List.append_nil] at hsk ⊢
      exact ⟨hnl, fun n hn => key n (by omega) _ hsk, fun n hn => key n (by omega) _ (by rw [blank, hsk])⟩
    | cons t1 ts1 =>
      obtain ⟨r, rfl, r1, r2, -, r3⟩ := operands_read os ts' b hts (fun o ho => h2 o (by simp [ho])) hb (by simp [hts'])
      have key : ∀ n, (t.bytes ++ 0x2C :: 0x20 :: r).length ≤ n → ∀ x, skipBlanks x = t.bytes ++ 0x2C :: 0x20 :: r → operands n x = some (t :: ts') := by
        intro n hn x hx
        cases n with
        | zero => simp at hn
        | succ n =>
          have := r3 n (by simp at hn; omega)
          simp only [operands, hx, cut_append _ hcomma, k1, this]
      rw [← hts']
      have hsk := skip_op k2 k3 (0x2C :: 0x20 :: r)
      refine ⟨?_, fun n hn => key n hn _ hsk, fun n hn => key n hn _ (by rw [blank, hsk])⟩
      simp [hnl, r2]

/-- words of lower-case letters -/
def isWord (s : String) : Bool := (X64.bytes s).all (fun b => 0x61 ≤ b && b ≤ 0x7A) && X64.bytes s != [] && word (X64.bytes s) == s

theorem fmt_words : (∀ p ∈ ["mov", "movabs", "lea", "push", "pop", "add", "sub", "imul", "div", "idiv", "neg", "and", "not", "or", "xor", "sal", "sar", "cmp"],
      ∀ s ∈ [Sfx.none, .byte, .word, .long, .quad], isWord (X64.fmt1 p s "") = true) ∧
    (∀ s ∈ [Sfx.none, .byte, .word, .long, .quad], isWord (X64.fmt1 "c" s "td") = true) ∧
    (∀ s ∈ [Sfx.none, .byte, .word, .long, .quad], ∀ t ∈ [Sfx.none, .byte, .word, .long, .quad],
      isWord (X64.fmt2 "movs" s "" t) = true ∧ isWord (X64.fmt2 "movz" s "" t) = true ∧ isWord (X64.fmt2 "c" s "t" t) = true) ∧
    (∀ c ∈ [X64.Cond.e, .ne, .a, .ae, .b, .be, .g, .ge, .l, .le], isWord ("set" ++ c.str) = true ∧ isWord ("j" ++ c.str) = true) ∧
    isWord "cqto" = true ∧ isWord "jmp" = true ∧ isWord "call" = true ∧ isWord "ret" = true := by
  decide +kernel

theorem mnemonic_word {i : XInst} {mn : String} (h : X64.mnemonic i = .ok mn) : isWord mn = true := by
  obtain ⟨w1, w2, w3, w4, w5, w6, w7, w8⟩ := fmt_words
  have sf : ∀ s : Sfx, s ∈ [Sfx.none, .byte, .word, .long, .quad] := fun s => by cases s <;> decide
  have cf : ∀ c : X64.Cond, c ∈ [X64.Cond.e, .ne, .a, .ae, .b, .be, .g, .ge, .l, .le] := fun c => by cases c <;> decide
  unfold X64.mnemonic at h
  dsimp only at h
  split at h
  · split at h
    · cases h
      exact (w3 _ (sf _) _ (sf _)).1
    · cases h
  · split at h
    · cases h
      exact (w3 _ (sf _) _ (sf _)).2.1
    · cases h
  · split at h
    · cases h
      exact (w3 _ (sf _) _ (sf _)).2.2
    · cases h
  · cases h
    exact w1 "mov" (by decide) _ (sf _)
  · cases h
    exact w1 "movabs" (by decide) _ (sf _)
  · cases h
    exact w1 "lea" (by decide) _ (sf _)
  · cases h
    exact w2 _ (sf _)
  · cases h
    exact w1 "push" (by decide) _ (sf _)
  · cases h
    exact w1 "pop" (by decide) _ (sf _)
  · cases h
    exact w1 "add" (by decide) _ (sf _)
  · cases h
    exact w1 "sub" (by decide) _ (sf _)
  · cases h
    exact w1 "imul" (by decide) _ (sf _)
  · cases h
    exact w1 "div" (by decide) _ (sf _)
  · cases h
    exact w1 "idiv" (by decide) _ (sf _)
  · cases h
    exact w1 "neg" (by decide) _ (sf _)
  · cases h
    exact w1 "and" (by decide) _ (sf _)
  · cases h
    exact w1 "not" (by decide) _ (sf _)
  · cases h
    exact w1 "or" (by decide) _ (sf _)
  · cases h
    exact w1 "xor" (by decide) _ (sf _)
  · cases h
    exact w1 "sal" (by decide) _ (sf _)
  · cases h
    exact w1 "sar" (by decide) _ (sf _)
  · cases h
    exact w1 "cmp" (by decide) _ (sf _)
  · cases h
    exact w5
  · cases h
    exact (w4 _ (cf _)).1
  · cases h
    exact w6
  · cases h
    exact (w4 _ (cf _)).2
  · cases h
    exact w7
  · cases h
    exact w8

theorem split_word : ∀ {w : List UInt8} (r : List UInt8), w.all (fun b => 0x61 ≤ b && b ≤ 0x7A) = true → split (w ++ 0x09 :: r) = (w, r) ∧ split w = (w, [])
  | [], r, _ => by simp [split]
  | b :: w, r, h => by
    rw [List.all_cons, Bool.and_eq_true] at h
    have hb : ¬ (b = 0x20 ∨ b = 0x09) := by
      rintro (rfl | rfl) <;> exact absurd h.1 (by decide)
    obtain ⟨h1, h2⟩ := split_word r h.2
    simp only [List.cons_append, split, hb, if_false, h1, h2, and_self]

theorem letters_bytes (s : String) : letters s = X64.bytes s := rfl

/-- a printed instruction is read as one line -/
theorem inst_read {i : XInst} {s : List UInt8} (h : X64.instString i = .ok s) (hs : ∀ o ∈ X64.printedOps i, SymOpe o) :
    ∃ l x, X64.line i = .ok l ∧ s = x ++ [0x0A] ∧ (0x0A : UInt8) ∉ x ∧ line x = some (.stmt (.inst l)) := by
  simp only [X64.instString, Out.bind_eq_ok] at h
  obtain ⟨mn, hm, ops, ho, h⟩ := h
  simp only [X64.inBuffer] at h
  split at h <;> cases h
  have hw := mnemonic_word hm
  simp only [isWord, Bool.and_eq_true, bne_iff_ne, beq_iff_eq] at hw
  obtain ⟨⟨w1, w2⟩, w3⟩ := hw
  have hh : (X64.bytes mn).head? ≠ some 0x2E := by
    cases hb : X64.bytes mn with
    | nil => simp
    | cons b t =>
      rw [hb, List.all_cons, Bool.and_eq_true] at w1
      rintro h
      cases h
      exact absurd w1.1 (by decide)
  have hnl : (0x0A : UInt8) ∉ X64.bytes mn := fun hm => by
    have := List.all_eq_true.1 w1 _ hm
    revert this; decide
  have htab : X64.bytes "\t" = [0x09] ∧ X64.bytes "\n" = [0x0A] := by decide +kernel
  -- the operands
  have hops : ∃ ts, X64.opTxts (X64.printedOps i) = .ok ts ∧ (ts = [] ∧ ops = [] ∨ ∃ r, ops = 0x09 :: r ∧ r ≠ [] ∧ (0x0A : UInt8) ∉ r ∧ operands (r.length + 1) r = some ts) := by
    cases hp : X64.printedOps i with
    | nil =>
      rw [hp] at ho
      cases ho
      exact ⟨[], rfl, .inl ⟨rfl, rfl⟩⟩
    | cons o os =>
      rw [hp] at ho hs
      have ho' : ∃ t, X64.opeStrings (X64.bytes ", ") (o :: os) = .ok (X64.bytes ", " ++ t) ∧ ops = X64.bytes "\t" ++ t := by
        simp only [X64.opeStrings, Out.bind_eq_ok] at ho ⊢
        obtain ⟨a, ha, b, hb, ho⟩ := ho
        cases ho
        exact ⟨a ++ b, ⟨a, ha, b, hb, by rw [← List.append_assoc]; rfl⟩, by rw [List.append_assoc]⟩
      obtain ⟨t, ho1, rfl⟩ := ho'
      have hts : ∀ (os : List XOpe) sep s, X64.opeStrings sep os = .ok s → ∃ ts, X64.opTxts os = .ok ts ∧ ts.length = os.length := by
        intro os
        induction os with
        | nil => exact fun _ _ _ => ⟨[], rfl, rfl⟩
        | cons o os ih =>
          intro sep s h
          simp only [X64.opeStrings, X64.opeString, Out.bind_eq_ok] at h
          obtain ⟨a, ⟨t, ht, -⟩, b, hb, -⟩ := h
          obtain ⟨ts, h1, h2⟩ := ih _ _ hb
          refine ⟨t :: ts, ?_, by simp [h2]⟩
          simp only [X64.opTxts, ht, h1]
          rfl
      obtain ⟨ts, hts, hlen⟩ := hts _ _ _ ho1
      have hne : ts ≠ [] := by rintro rfl; cases hlen
      obtain ⟨r, h1, h2, h3, h4, -⟩ := operands_read _ ts _ hts hs ho1 hne
      have hsep : X64.bytes ", " = [0x2C, 0x20] := by decide +kernel
      rw [hsep] at h1
      have : t = r := by simpa using h1
      subst this
      exact ⟨ts, hts, .inr ⟨t, by rw [htab.1]; rfl, h2, h3, h4 _ (Nat.le_succ _)⟩⟩
  obtain ⟨ts, hts, hops⟩ := hops
  refine ⟨⟨mn, ts⟩, 0x09 :: (X64.bytes mn ++ ops), ?_, ?_, ?_, ?_⟩
  · simp only [X64.line, hm, hts]
    rfl
  · rw [htab.1, htab.2]; simp
  · rcases hops with ⟨-, rfl⟩ | ⟨r, rfl, -, h3, -⟩
    · simp [hnl]
    · simp [hnl, h3]
  · rcases hops with ⟨rfl, rfl⟩ | ⟨r, rfl, h2, h3, h4⟩
    · obtain ⟨-, k⟩ := split_word [] w1
      simp only [List.append_nil, line, k, command, hh, if_false, w2, if_true, w3]
    · obtain ⟨k, -⟩ := split_word r w1
      simp only [line, k, command, hh, if_false, w2, h2, w3, h4, Option.map_some]

/-! ### data and labels -/

def secLine : LblType → List Entry
  | .function => [.sec .text]
  | .variable => [.sec .data]
  | .normal => []

def visLine (n : Name) : Vis → List Entry
  | .global => [.globl n]
  | _ => []

/-- the lines before it -/
def before : Item → List Entry
  | .label t v n => secLine t ++ visLine n v
  | _ => []

theorem pieces_line {bs : List UInt8} (h : ∀ b ∈ bs, b.toNat < 128) : (0x0A : UInt8) ∉ Literal.pieces bs := by
  have key : ∀ b : UInt8, b.toNat < 128 → (0x0A : UInt8) ∉ (Literal.piece b).1 := by
    have : ∀ k : Fin 128, (0x0A : UInt8) ∉ (Literal.piece (UInt8.ofNat k.1)).1 := by decide +kernel
    intro b hb
    have h := this ⟨b.toNat, hb⟩
    simpa using h
  induction bs with
  | nil => simp [Literal.pieces]
  | cons b bs ih =>
    have := ih fun c hc => h c (by simp [hc])
    simp only [Literal.pieces, List.map_cons, List.flatten_cons, List.mem_append, not_or] at this ⊢
    exact ⟨key b (h b (by simp)), this⟩

theorem split_tab : ∀ {w : List UInt8} (c : UInt8) (r : List UInt8), (c = 0x20 ∨ c = 0x09) → (∀ b ∈ w, b ≠ 0x20 ∧ b ≠ 0x09) → split (w ++ c :: r) = (w, r) ∧ split w = (w, [])
  | [], c, r, hc, _ => by simp [split, hc]
  | b :: w, c, r, hc, h => by
    have hb : ¬ (b = 0x20 ∨ b = 0x09) := by
      have := h b (by simp)
      rintro (e | e)
      · exact this.1 e
      · exact this.2 e
    obtain ⟨h1, h2⟩ := split_tab (w := w) c r hc fun b hb => h b (by simp [hb])
    simp only [List.cons_append, split, hb, if_false, h1, h2, and_self]

theorem directive_line {w r : List UInt8} (c : UInt8) (hc : c = 0x20 ∨ c = 0x09) (hw : ∀ b ∈ w, b ≠ 0x20 ∧ b ≠ 0x09) : line (0x09 :: (w ++ c :: r)) = command w r := by
  rw [line, (split_tab c r hc hw).1]

theorem directive_line0 {w : List UInt8} (hw : ∀ b ∈ w, b ≠ 0x20 ∧ b ≠ 0x09) : line (0x09 :: w) = command w [] := by
  rw [line, (split_tab 0x20 [] (.inl rfl) hw).2]

theorem number_line {w : List UInt8} {k : Nat} (hw : ∀ b ∈ w, b ≠ 0x20 ∧ b ≠ 0x09) (hl : (0x0A : UInt8) ∉ w) (hc : ∀ r, command w r = number k r) (v : Int) (s : List UInt8)
    (hs : s = 0x09 :: w ++ [0x09] ++ X64.decimal v ++ [0x0A]) :
    ∃ x, s = x ++ [0x0A] ∧ (0x0A : UInt8) ∉ x ∧ line x = some (.stmt (.bytes (Lay.leBytes k v))) := by
  refine ⟨0x09 :: (w ++ 0x09 :: X64.decimal v), by rw [hs]; simp, ?_, ?_⟩
  · have := not_mem_decimal (v := v) (c := 0x0A) (by decide)
    simp [hl, this]
  · rw [directive_line 0x09 (.inr rfl) hw, hc, number, integer_decimal]
    rfl

theorem bytes_directives : X64.bytes "\t.byte\t" = 0x09 :: letters ".byte" ++ [0x09] ∧ X64.bytes "\t.word\t" = 0x09 :: letters ".word" ++ [0x09] ∧
    X64.bytes "\t.long\t" = 0x09 :: letters ".long" ++ [0x09] ∧ X64.bytes "\t.quad\t" = 0x09 :: letters ".quad" ++ [0x09] ∧
    X64.bytes "\t.zero\t" = 0x09 :: letters ".zero" ++ [0x09] ∧ X64.bytes "\t.ascii\t" = 0x09 :: letters ".ascii" ++ [0x09] ∧
    X64.bytes "\t.text\n" = 0x09 :: letters ".text" ++ [0x0A] ∧ X64.bytes "\t.data\n" = 0x09 :: letters ".data" ++ [0x0A] ∧
    X64.bytes "\t.globl " = 0x09 :: letters ".globl" ++ [0x20] ∧ X64.bytes ":\n" = [0x3A, 0x0A] ∧ X64.bytes "\n" = [0x0A] := by
  decide +kernel

/-- words of directives -/
def words : List (List UInt8) := [".byte", ".word", ".long", ".quad", ".zero", ".ascii", ".text", ".data", ".globl"].map letters

theorem words_clean : ∀ w ∈ words, (∀ b ∈ w, b ≠ 0x20 ∧ b ≠ 0x09) ∧ (0x0A : UInt8) ∉ w := by decide +kernel

theorem commands : (letters ".text").head? = some 0x2E ∧ (letters ".data").head? = some 0x2E ∧ (letters ".globl").head? = some 0x2E ∧ (letters ".byte").head? = some 0x2E ∧
    (letters ".word").head? = some 0x2E ∧ (letters ".long").head? = some 0x2E ∧ (letters ".quad").head? = some 0x2E ∧ (letters ".zero").head? = some 0x2E ∧
    (letters ".ascii").head? = some 0x2E ∧ words.Nodup := by decide +kernel

theorem command_eq (rest : List UInt8) : command (letters ".text") rest = (if rest = [] then some (.sec .text) else none) ∧
    command (letters ".data") rest = (if rest = [] then some (.sec .data) else none) ∧ command (letters ".globl") rest = (symbol rest).map .globl ∧
    command (letters ".byte") rest = number 1 rest ∧ command (letters ".word") rest = number 2 rest ∧ command (letters ".long") rest = number 4 rest ∧
    command (letters ".quad") rest = number 8 rest ∧ command (letters ".zero") rest = (natural rest).map (fun n => .stmt (.bytes (List.replicate n 0))) ∧
    command (letters ".ascii") rest = (Gas.decode rest).map fun b => .stmt (.bytes b) := by
  have e : letters ".text" = [46, 116, 101, 120, 116] ∧ letters ".data" = [46, 100, 97, 116, 97] ∧ letters ".globl" = [46, 103, 108, 111, 98, 108] ∧
    letters ".byte" = [46, 98, 121, 116, 101] ∧ letters ".word" = [46, 119, 111, 114, 100] ∧ letters ".long" = [46, 108, 111, 110, 103] ∧
    letters ".quad" = [46, 113, 117, 97, 100] ∧ letters ".zero" = [46, 122, 101, 114, 111] ∧ letters ".ascii" = [46, 97, 115, 99, 105, 105] := by decide +kernel
  obtain ⟨e1, e2, e3, e4, e5, e6, e7, e8, e9⟩ := e
  refine ⟨?_, ?_, ?_, ?_, ?_, ?_, ?_, ?_, ?_⟩ <;> simp only [command, e1, e2, e3, e4, e5, e6, e7, e8, e9] <;> rfl

/-- the text of an item is read as its lines -/
def Prints (s : List UInt8) (es : List Entry) : Prop := ∀ r fs, Reads r fs → Reads (s ++ r) (es ++ fs)

theorem prints_line {l : List UInt8} {e : Entry} (h : line l = some e) (hl : (0x0A : UInt8) ∉ l) : Prints (l ++ [0x0A]) [e] := fun r fs hr => by
  have := reads_line h hl hr
  simpa using this

theorem Prints.append {s t : List UInt8} {es fs : List Entry} (h1 : Prints s es) (h2 : Prints t fs) : Prints (s ++ t) (es ++ fs) := fun r gs hr => by
  rw [List.append_assoc, List.append_assoc]
  exact h1 _ _ (h2 _ _ hr)

theorem prints_nil : Prints [] [] := fun _ _ hr => hr

theorem data_read {d : IData} {s : List UInt8} (h : X64.dataString d = .ok s) (hd : Legible (.data d)) :
    ∃ x, s = x ++ [0x0A] ∧ (0x0A : UInt8) ∉ x ∧ line x = some (.stmt (.bytes (Lay.directive d))) := by
  obtain ⟨b1, b2, b3, b4, b5, b6, -, -, -, -, b11⟩ := bytes_directives
  have cl : ∀ w ∈ words, (∀ b ∈ w, b ≠ 0x20 ∧ b ≠ 0x09) ∧ (0x0A : UInt8) ∉ w := words_clean
  have num : ∀ {w : List UInt8} {k : Nat} {v : Int}, w ∈ words → (∀ r, command w r = number k r) → X64.inBuffer 200 (0x09 :: w ++ [0x09] ++ X64.decimal v ++ [0x0A]) = .ok s →
      ∃ x, s = x ++ [0x0A] ∧ (0x0A : UInt8) ∉ x ∧ line x = some (.stmt (.bytes (Lay.leBytes k v))) := by
    intro w k v hw hc hb
    simp only [X64.inBuffer] at hb
    split at hb <;> cases hb
    exact number_line (cl w hw).1 (cl w hw).2 hc v _ rfl
  cases d with
  | byte l =>
    simp only [X64.dataString, b1, b11] at h
    exact num (by decide +kernel) (fun r => (command_eq r).2.2.2.1) h
  | word l =>
    simp only [X64.dataString, b2, b11] at h
    exact num (by decide +kernel) (fun r => (command_eq r).2.2.2.2.1) h
  | long l =>
    simp only [X64.dataString, b3, b11] at h
    exact num (by decide +kernel) (fun r => (command_eq r).2.2.2.2.2.1) h
  | quad l =>
    simp only [X64.dataString, b4, b11] at h
    exact num (by decide +kernel) (fun r => (command_eq r).2.2.2.2.2.2.1) h
  | zero l =>
    simp only [X64.dataString, b5, b11, X64.inBuffer] at h
    split at h <;> cases h
    obtain ⟨c1, c2⟩ := cl (letters ".zero") (by decide +kernel)
    have hv : 0 ≤ l.value := hd
    have hdec : X64.decimal l.value = digits l.value.toNat := by
      rw [decimal_eq, if_neg (by omega), List.nil_append]
      congr 1
      omega
    refine ⟨0x09 :: (letters ".zero" ++ 0x09 :: X64.decimal l.value), by simp, ?_, ?_⟩
    · have := not_mem_decimal (v := l.value) (c := 0x0A) (by decide)
      simp [c2, this]
    · rw [directive_line 0x09 (.inr rfl) c1, (command_eq _).2.2.2.2.2.2.2.1, hdec, natural_digits]
      rfl
  | str b =>
    have hb : ∀ c ∈ b, c.toNat < 128 ∧ c ≠ 7 ∧ c ≠ 11 := hd
    have hdis := Literal.display_ascii (fun c hc => (hb c hc).1)
    simp only [X64.dataString, hdis, b6, b11, X64.inBuffer, Out.bind_eq_ok] at h
    obtain ⟨t, ht, h⟩ := h
    cases ht
    split at h <;> cases h
    obtain ⟨c1, c2⟩ := cl (letters ".ascii") (by decide +kernel)
    refine ⟨0x09 :: (letters ".ascii" ++ 0x09 :: (0x22 :: Literal.pieces b ++ [0x22])), by simp, ?_, ?_⟩
    · have := pieces_line fun c hc => (hb c hc).1
      simp [c2, this]
    · have hok : ∀ c ∈ b, Literal.gasOk c = true := fun c hc => Literal.gas_ascii c (hb c hc)
      have hbody := Literal.body_pieces hok ((Literal.pieces b ++ [0x22]).length + 1) [] (by have := Literal.pieces_length hok; simp; omega)
      have hdec : Gas.decode (0x22 :: Literal.pieces b ++ [0x22]) = some b := by
        show (match Gas.body ((Literal.pieces b ++ [0x22]).length + 1) (Literal.pieces b ++ [0x22]) with
          | some (bs, []) => some bs | _ => none) = some b
        rw [hbody]
      rw [directive_line 0x09 (.inr rfl) c1, (command_eq _).2.2.2.2.2.2.2.2, hdec]
      rfl

theorem label_line {n : Name} (h : isSymbol n.1 = true) : line (n.1 ++ [0x3A]) = some (.stmt (.label n)) := by
  have hc : cut 0x3A (n.1 ++ [0x3A]) = some (n.1, []) := cut_append _ (not_mem_symbol h (by decide))
  have hs := symbol_name h
  cases hn : n.1 with
  | nil => exact absurd hn (isSymbol_ne h)
  | cons b s =>
    have hb : b ≠ 0x09 := not_symChar (isSymbol_all h (by rw [hn]; simp)) (by decide)
    rw [hn, List.cons_append] at hc
    rw [hn] at hs
    rw [List.cons_append]
    unfold line
    split
    · rename_i e
      cases e
      exact absurd rfl hb
    · rw [hc]
      dsimp only
      rw [hs]
      rfl

theorem label_read {t : LblType} {v : Vis} {n : Name} {s : List UInt8} (h : X64.labelString t v n = .ok s) (hv : v ≠ .local_) (hn : isSymbol n.1 = true) :
    Prints s (before (.label t v n) ++ [.stmt (.label n)]) := by
  obtain ⟨-, -, -, -, -, -, b7, b8, b9, b10, b11⟩ := bytes_directives
  have cl : ∀ w ∈ words, (∀ b ∈ w, b ≠ 0x20 ∧ b ≠ 0x09) ∧ (0x0A : UInt8) ∉ w := words_clean
  have hnl : (0x0A : UInt8) ∉ n.1 := not_mem_symbol hn (by decide)
  simp only [X64.labelString, X64.inBuffer] at h
  split at h <;> cases h
  have h1 : Prints (X64.section_ t) (secLine t) := by
    cases t with
    | function =>
      obtain ⟨c1, c2⟩ := cl (letters ".text") (by decide +kernel)
      simp only [X64.section_, b7]
      refine prints_line ?_ (by simp [c2])
      rw [directive_line0 c1, (command_eq []).1, if_pos rfl]
    | «variable» =>
      obtain ⟨c1, c2⟩ := cl (letters ".data") (by decide +kernel)
      simp only [X64.section_, b8]
      refine prints_line ?_ (by simp [c2])
      rw [directive_line0 c1, (command_eq []).2.1, if_pos rfl]
    | normal => exact prints_nil
  have h2 : Prints (X64.visibility n v) (visLine n v) := by
    cases v with
    | global =>
      obtain ⟨c1, c2⟩ := cl (letters ".globl") (by decide +kernel)
      simp only [X64.visibility, b9, b11]
      refine prints_line (l := 0x09 :: letters ".globl" ++ [0x20] ++ n.1) ?_ (by simp [c2, hnl])
      have := directive_line (r := n.1) 0x20 (.inl rfl) c1
      rw [(command_eq _).2.2.1, symbol_name hn] at this
      simpa using this
    | none => exact prints_nil
    | local_ => exact absurd rfl hv
  have h3 : Prints (n.1 ++ X64.bytes ":\n") [.stmt (.label n)] := by
    rw [b10, show ([0x3A, 0x0A] : List UInt8) = [0x3A] ++ [0x0A] from rfl, ← List.append_assoc]
    exact prints_line (label_line hn) (by simp [hnl])
  have := (h1.append h2).append h3
  rw [← List.append_assoc] at this
  exact this

theorem item_read {x : Item} {s : List UInt8} (h : X64.itemString x = .ok s) (hx : Legible x) : ∃ y, stmtOf x = .ok y ∧ Prints s (before x ++ [.stmt y]) := by
  cases x with
  | inst i =>
    obtain ⟨l, t, h1, rfl, h3, h4⟩ := inst_read h hx
    refine ⟨.inst l, ?_, prints_line h4 h3⟩
    simp only [stmtOf, h1]
    rfl
  | data d =>
    obtain ⟨t, rfl, h3, h4⟩ := data_read h hx
    exact ⟨_, rfl, prints_line h4 h3⟩
  | label t v n => exact ⟨_, rfl, label_read h hx.1 hx.2⟩

theorem printAll_read : ∀ {xs : List Item} {s : List UInt8}, Main.printAll xs = .ok s → (∀ x ∈ xs, Legible x) → ∃ es, Reads s es ∧ globals es = globalsOf xs ∧
    ∀ c, stmtsOf c xs = .ok (sections c es)
  | [], s, h, _ => by
    cases h
    exact ⟨[], reads_nil, rfl, fun c => rfl⟩
  | x :: xs, s, h, hx => by
    simp only [Main.printAll, Out.bind_eq_ok] at h
    obtain ⟨t, ht, ts, hts, h⟩ := h
    cases h
    obtain ⟨es, h1, h2, h3⟩ := printAll_read hts fun x h => hx x (by simp [h])
    obtain ⟨y, hy, hp⟩ := item_read ht (hx x (by simp))
    refine ⟨before x ++ [.stmt y] ++ es, hp _ _ h1, ?_, ?_⟩
    · have hl := hx x (by simp)
      cases x with
      | inst i => simpa [globals, globalsOf, before] using h2
      | data d => simpa [globals, globalsOf, before] using h2
      | label t v n =>
        simp only [globals, globalsOf] at h2 ⊢
        cases t <;> cases v <;> simp [before, secLine, visLine, h2]
    · intro c
      simp only [stmtsOf, hy, h3, Out.ok_bind]
      cases x with
      | inst i => simp [before, sections, secAfter, pure]
      | data d => simp [before, sections, secAfter, pure]
      | label t v n => cases t <;> cases v <;> simp [before, secLine, visLine, sections, secAfter, pure]

end Asm
end Umlcc
