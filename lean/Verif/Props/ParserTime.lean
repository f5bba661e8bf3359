import Verif.Lemma.ParserLin
import Verif.Lemma.ParserUnit
/-!
C16: parsing time. C59: typedef names and inner declarations.
-/
namespace Umlcc
namespace Parser
open M

/-- the counter only counts: the same trees, the same remaining tokens -/
theorem C16_counter_is_parser (f : Nat) (nt : NT) (s : PS) : REq (count f nt s) (parse f nt s) := count_sim f nt s s ⟨rfl, rfl, rfl⟩

/-- C16 as stated: some polynomial bounds the number of calls for every text that is an expression (before `;` and the end of file) -/
def PolynomialTime : Prop :=
  ∃ c k, ∀ (ts : List Tok) (f : Nat) (a : Ast) (s : PS), count f .assign (start (ts ++ [.punct .semicolon, .eof])) = .ok a s →
    s.toks = [.punct .semicolon, .eof] → s.steps ≤ c * (ts.length + 2) ^ k

/-- exactly: `x` in `d` pairs of parentheses takes `68 * 2 ^ d - 35` calls -/
theorem C16_nested_parentheses_cost (d : Nat) : ∃ n, ∀ f, n ≤ f →
    count f .assign (start (nest d ++ [.punct .semicolon, .eof])) = .ok (.name .identExpr [120]) ⟨[.punct .semicolon, .eof], [], false, 68 * 2 ^ d - 35⟩ := by
  obtain ⟨n, h⟩ := co_nest (c := ⟨[], false, 0⟩) (by simp) d (.punct .semicolon) (.inr rfl) [.eof]
  refine ⟨n, fun f hf => ?_⟩
  have := h 0 f hf
  have e : 0 + nestCost d = 68 * 2 ^ d - 35 := by have := nestCost_eq d; omega
  rw [e] at this
  exact this

theorem C16_polynomial_time_violated : ¬ PolynomialTime := by
  intro ⟨c, k, h⟩
  obtain ⟨d, hd⟩ := exp_beats c k
  obtain ⟨n, hn⟩ := C16_nested_parentheses_cost d
  have h1 := h (nest d) n _ _ (hn n (Nat.le_refl n)) rfl
  rw [nest_length] at h1
  simp only at h1
  have : 1 ≤ 2 ^ d := Nat.one_le_two_pow
  rw [show 2 * d + 1 + 2 = 2 * d + 3 by omega] at h1
  omega

example : nest 2 = [.punct .lparen, .punct .lparen, .ident [120], .punct .rparen, .punct .rparen] := rfl

/-- C16 for texts without `(` and `[`: quadratic, whatever the text is and whether it parses or not.
Missing: texts with brackets, where the time is exponential in the nesting depth. -/
theorem C16_flat_quadratic_partial (f : Nat) (ts : List Tok) (hf : Flat ts) (s : PS)
    (h : (∃ a, count f .assign (start ts) = .ok a s) ∨ count f .assign (start ts) = .err s) :
    s.steps ≤ (30 * ts.length + 40) * (5 * ts.length + 3) := by
  have k := cheap_count ts.length f .assign (start ts) trivial hf (Nat.le_refl _)
  unfold wlp at k
  have e : (30 * ts.length + 40) * (5 * ts.length + 3) = 5 * (30 * ts.length + 40) * ts.length + 3 * (30 * ts.length + 40) := by
    rw [Nat.mul_add, ← Nat.mul_assoc, Nat.mul_comm _ 5, Nat.mul_comm _ 3]
  rw [e]
  rcases h with ⟨a, h⟩ | h
  · rw [h] at k
    have := k.2.2
    simp only [rate, extra, start] at this
    omega
  · rw [h] at k
    simp only [rate, extra, start] at k
    omega

/-- `- x -> y ? sizeof b : c = d ;` -/
example : Flat [.punct .minus, .ident [120], .punct .arrow, .ident [121], .punct .question, .kw .ksizeof, .ident [98], .punct .colon, .ident [99],
    .punct .equal, .ident [100], .punct .semicolon, .eof] := by unfold Flat; decide

/-! ### C59 -/

/-- C59 as stated, for a block: a text in which an outer typedef name is declared again as a variable in a block is accepted if it is accepted after renaming the variable -/
def HidesTypedef : Prop :=
  ∀ T x : List UInt8, T ≠ x →
    let text (v : List UInt8) : List Tok := [.kw .ktypedef, .kw .kint, .ident T, .punct .semicolon, .kw .kint, .ident [102], .punct .lparen, .kw .kvoid, .punct .rparen,
      .punct .lbrace, .kw .kint, .ident v, .punct .semicolon, .ident v, .punct .equal, .int ⟨.int, 1⟩, .punct .semicolon, .punct .rbrace, .eof]
    (∃ a s, run (text x) = .ok a s) → ∃ a s, run (text T) = .ok a s

/-- did the parser return a tree -/
def isOk : PR Ast → Bool
  | .ok _ _ => true
  | _ => false

theorem isOk_iff (x : PR Ast) : isOk x = true ↔ ∃ a s, x = .ok a s := by
  cases x <;> simp [isOk]

theorem C59_inner_declaration_violated : ¬ HidesTypedef := by
  intro h
  have := h [84] [120] (by decide)
  simp only [← isOk_iff] at this
  exact absurd (this (by decide +kernel)) (by decide +kernel)

/-- a struct member with the name of a typedef is refused as well: `typedef int T; struct S { int T; };` -/
theorem C59_member_violated : ¬ ∃ a s, run [.kw .ktypedef, .kw .kint, .ident [84], .punct .semicolon, .kw .kstruct, .ident [83], .punct .lbrace, .kw .kint, .ident [84],
    .punct .semicolon, .punct .rbrace, .punct .semicolon, .eof] = .ok a s := by
  rw [← isOk_iff]; decide +kernel

/-- what holds: a block's typedef names end with the block, whatever is in it. Missing: an inner declaration of another kind. -/
theorem C59_block_scope_partial (f : Nat) (s s' : PS) (a : Ast) (h : parse f .compound s = .ok a s') : s'.tds = s.tds := by
  cases f with
  | zero => simp [parse] at h
  | succ f =>
    change pCompound (parse f) s = _ at h
    unfold pCompound at h
    rw [run_bind] at h
    have hc : ∀ s1 : PS, ∀ u, consume (.punct .lbrace) s = .ok u s1 → s1.tds = s.tds := by
      intro s1 u hs
      unfold consume at hs
      rw [run_bind] at hs
      cases hp : s.toks with
      | nil => simp [peek, hp, PR.bind] at hs
      | cons t ts =>
        simp only [peek, hp, PR.bind, run_ite] at hs
        split at hs
        · simp [adv] at hs; rw [← hs]
        · simp [run_fail] at hs
    cases h1 : consume (.punct .lbrace) s <;> simp only [h1, PR.bind] at h <;> try contradiction
    rename_i u s1
    have e1 := hc _ _ h1
    simp only [run_bind, getTds, PR.bind, run_try] at h
    cases h2 : parse f (.items []) s1 <;> simp only [h2, PR.tr, run_bind, setTds, PR.bind] at h <;> try contradiction
    simp only [run_orFail_some, PR.ok.injEq] at h
    rw [← h.2]
    exact e1

/-- `{ typedef int U; }` -/
example : isOk (parse 300 .compound (start [.punct .lbrace, .kw .ktypedef, .kw .kint, .ident [85], .punct .semicolon, .punct .rbrace, .eof])) = true := by decide +kernel

end Parser
end Umlcc
