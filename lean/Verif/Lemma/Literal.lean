import Verif.Lemma.LexAll
import Verif.Model.Literal
import Verif.Spec.Gas
/-! The printed form of string literals (helper lemmas). -/
namespace Umlcc
namespace Literal
open Lexer (forallByte)
open LSpec (Item itemsText Munch)

/-- the escape chosen for an ASCII character -/
def itemOf (b : UInt8) : Item :=
  match (piece b).1 with
  | [x] => .plain x
  | [_, x] => .simple x
  | _ :: ds => .oct ds
  | [] => .plain b

/-- an item that cannot swallow what follows -/
def closed : Item → Bool
  | .oct ds => ds.length == 3
  | .hex _ => false
  | _ => true

def octOk (b : UInt8) : Bool := match itemOf b with | .oct ds => ds.all LSpec.isOct && ds.length == 3 | _ => true
def plainOk (b : UInt8) : Bool := match itemOf b with | .plain c => c != 0x22 && c != 0x5C && c != 0x0A | .simple c => (LSpec.escape c).isSome | .oct _ => true | .hex _ => false

theorem piece_ascii : ∀ b : UInt8, b.toNat < 128 → (piece b).1.length = (piece b).2 ∧ (piece b).2 ≤ 4 ∧ (0 : UInt8) ∉ (piece b).1 ∧
    (itemOf b).text = (piece b).1 ∧ LSpec.toByte (itemOf b).value = b ∧ closed (itemOf b) = true ∧ octOk b = true ∧ plainOk b = true ∧
    (itemOf b).value ≤ 2147483647 := by
  apply forallByte; decide +kernel

theorem itemOf_wf {b : UInt8} (h : b.toNat < 128) : (itemOf b).WF 0x22 := by
  obtain ⟨_, _, _, _, _, h1, h2, h3, _⟩ := piece_ascii b h
  unfold octOk at h2
  unfold plainOk at h3
  revert h1 h2 h3
  cases itemOf b with
  | plain c => intro _ _ h; simp at h; exact ⟨h.1.1, h.1.2, h.2⟩
  | simple c => intro _ _ h; exact h
  | oct ds =>
    intro h1 h2 _
    simp [closed] at h1 h2
    exact ⟨by rintro rfl; simp at h1, by omega, by simpa using h2.1⟩
  | hex ds => intro h; simp [closed] at h

theorem closed_not_glued {it : Item} (h : closed it = true) (s : List UInt8) : it.glued s = false := by
  cases it with
  | plain _ => rfl
  | simple _ => rfl
  | oct ds => simp [closed] at h; cases s <;> simp [Item.glued, h]
  | hex _ => simp [closed] at h

/-- the printed text without quotes -/
def pieces (bs : List UInt8) : List UInt8 := (bs.map fun b => (piece b).1).flatten

theorem pieces_items {bs : List UInt8} (h : ∀ b ∈ bs, b.toNat < 128) : pieces bs = itemsText (bs.map itemOf) := by
  induction bs with
  | nil => rfl
  | cons b bs ih =>
    have := ih (fun c hc => h c (by simp [hc]))
    simp only [pieces, itemsText, List.map_cons, List.flatten_cons] at this ⊢
    rw [this, (piece_ascii b (h b (by simp))).2.2.2.1]

theorem pieces_munch {bs : List UInt8} (h : ∀ b ∈ bs, b.toNat < 128) : Munch (bs.map itemOf) := by
  induction bs with
  | nil => trivial
  | cons b bs ih =>
    exact ⟨closed_not_glued (piece_ascii b (h b (by simp))).2.2.2.2.2.1 _, ih (fun c hc => h c (by simp [hc]))⟩

theorem displayLoop_ascii : ∀ (bs txt : List UInt8) (k : Nat), (∀ b ∈ bs, b.toNat < 128) → 4 * bs.length + 2 ≤ k →
    ∃ k', displayLoop bs (txt ++ List.replicate k 0) txt.length = .ok (txt ++ pieces bs ++ List.replicate k' 0) ∧ 2 ≤ k' := by
  intro bs
  induction bs with
  | nil => intro txt k _ hk; exact ⟨k, by simp [displayLoop, pieces], by simpa using hk⟩
  | cons b bs ih =>
    intro txt k h hk
    obtain ⟨h1, h2, _⟩ := piece_ascii b (h b (by simp))
    simp at hk
    have hw : write (txt ++ List.replicate k 0) txt.length ((piece b).1 ++ [0]) =
        .ok ((txt ++ (piece b).1) ++ List.replicate (k - (piece b).2) 0) := by
      unfold write
      rw [if_pos (by simp; omega)]
      congr 1
      rw [List.take_left' rfl, List.drop_append, List.drop_eq_nil_of_le (by simp)]
      simp only [List.length_append, List.length_cons, List.length_nil, h1, List.nil_append, List.drop_replicate]
      have e1 : k - (txt.length + ((piece b).2 + (0 + 1)) - txt.length) = k - (piece b).2 - 1 := by omega
      have e2 : List.replicate (k - (piece b).2) (0 : UInt8) = 0 :: List.replicate (k - (piece b).2 - 1) 0 := by
        rw [← List.replicate_succ]; congr 1; omega
      rw [e1, e2]
      simp
    obtain ⟨k', e, hk'⟩ := ih (txt ++ (piece b).1) (k - (piece b).2) (fun c hc => h c (by simp [hc])) (by omega)
    refine ⟨k', ?_, hk'⟩
    rw [displayLoop, hw, Out.ok_bind]
    rw [List.length_append, h1] at e
    rw [e]
    simp [pieces]

theorem pieces_no_nul {bs : List UInt8} (h : ∀ b ∈ bs, b.toNat < 128) : (0 : UInt8) ∉ pieces bs := by
  intro hm
  simp only [pieces, List.mem_flatten, List.mem_map] at hm
  obtain ⟨l, ⟨b, hb, rfl⟩, h0⟩ := hm
  exact (piece_ascii b (h b hb)).2.2.1 h0

theorem cstr_append {txt : List UInt8} (h : (0 : UInt8) ∉ txt) (k : Nat) (hk : 1 ≤ k) : cstr (txt ++ List.replicate k 0) = txt := by
  unfold cstr
  obtain ⟨j, rfl⟩ : ∃ j, k = j + 1 := ⟨k - 1, by omega⟩
  rw [List.takeWhile_append_of_pos (by intro a ha; simp; rintro rfl; exact h ha), List.replicate_succ, List.takeWhile_cons_of_neg (by simp)]
  simp

theorem catQuote_append {txt : List UInt8} (h : (0 : UInt8) ∉ txt) (k : Nat) (hk : 2 ≤ k) :
    catQuote (txt ++ List.replicate k 0) = .ok ((txt ++ [0x22]) ++ List.replicate (k - 1) 0) := by
  unfold catQuote
  rw [cstr_append h k (by omega)]
  unfold write
  rw [if_pos (by simp; omega)]
  congr 1
  rw [List.take_left' rfl, List.drop_append, List.drop_eq_nil_of_le (by simp)]
  simp only [List.length_cons, List.length_nil, List.nil_append, List.drop_replicate]
  have e1 : k - (txt.length + (0 + 1 + 1) - txt.length) = k - 2 := by omega
  have e2 : List.replicate (k - 1) (0 : UInt8) = 0 :: List.replicate (k - 2) 0 := by
    rw [← List.replicate_succ]; congr 1; omega
  rw [e1, e2]
  simp

theorem display_ascii {bs : List UInt8} (h : ∀ b ∈ bs, b.toNat < 128) : display bs = .ok (0x22 :: pieces bs ++ [0x22]) := by
  unfold display
  have h0 := catQuote_append (txt := []) (by simp) (4 * bs.length + 3) (by omega)
  rw [List.nil_append] at h0
  rw [h0, Out.ok_bind]
  obtain ⟨k', e, hk'⟩ := displayLoop_ascii bs ([] ++ [0x22]) (4 * bs.length + 3 - 1) h (by omega)
  have e' : displayLoop bs ([] ++ [34] ++ List.replicate (4 * bs.length + 3 - 1) 0) 1 = .ok ([] ++ [0x22] ++ pieces bs ++ List.replicate k' 0) := e
  rw [e', Out.ok_bind]
  have hn : (0 : UInt8) ∉ ([] ++ [0x22] ++ pieces bs : List UInt8) := by
    intro hm; simp at hm; exact pieces_no_nul h hm
  rw [catQuote_append hn k' hk', Out.ok_bind, cstr_append (by intro hm; rw [List.mem_append] at hm; rcases hm with hm | hm; exact hn hm; simp at hm) _ (by omega)]
  simp

/-! ### the assembler's reading -/

def gasOk (b : UInt8) : Bool :=
  match (piece b).1 with
  | [x] => x == b && b != 0x22 && b != 0x5C
  | [x, c] => x == 0x5C && Gas.octal c == none && c != 0x78 && Gas.simple c == b
  | [x, d, e, f] =>
    match Gas.octal d, Gas.octal e, Gas.octal f with
    | some d, some e, some f => x == 0x5C && UInt8.ofNat (((0 * 8 + d) * 8 + e) * 8 + f) == b
    | _, _, _ => false
  | _ => false

theorem gas_ascii : ∀ b : UInt8, b.toNat < 128 ∧ b ≠ 7 ∧ b ≠ 11 → gasOk b = true := by
  apply forallByte; decide +kernel

theorem body_piece {b : UInt8} (h : gasOk b = true) (fuel : Nat) (s : List UInt8) :
    Gas.body (fuel + 1) ((piece b).1 ++ s) = (Gas.body fuel s).map fun p => (b :: p.1, p.2) := by
  unfold gasOk at h
  split at h
  · rename_i x e
    simp at h
    obtain ⟨⟨rfl, h2⟩, h3⟩ := h
    rw [e, List.singleton_append, Gas.body.eq_def]; dsimp only; rw [if_neg h2, if_neg h3]
  · rename_i x c e
    simp at h
    obtain ⟨⟨⟨rfl, h2⟩, h3⟩, h4⟩ := h
    rw [e, List.cons_append, List.singleton_append, Gas.body, if_neg (by decide), if_pos rfl]
    simp only [h2]
    rw [if_neg h3, h4]
  · rename_i x d e f eq
    split at h
    · rename_i d' e' f' hd he hf
      simp at h
      obtain ⟨rfl, h2⟩ := h
      rw [eq]
      simp only [List.cons_append, List.nil_append]
      rw [Gas.body, if_neg (by decide), if_pos rfl]
      have hr : Gas.octRun 0 3 (d :: e :: f :: s) = (((0 * 8 + d') * 8 + e') * 8 + f', s) := by
        simp [Gas.octRun, hd, he, hf]
      simp only [hd]
      rw [hr]
      simp [h2]
    · simp at h
  · simp at h

theorem body_pieces {bs : List UInt8} (h : ∀ b ∈ bs, gasOk b = true) : ∀ (fuel : Nat) (s : List UInt8), bs.length < fuel →
    Gas.body fuel (pieces bs ++ 0x22 :: s) = some (bs, s) := by
  induction bs with
  | nil =>
    intro fuel s hf
    obtain ⟨f, rfl⟩ : ∃ f, fuel = f + 1 := ⟨fuel - 1, by simp at hf; omega⟩
    simp [pieces, Gas.body]
  | cons b bs ih =>
    intro fuel s hf
    obtain ⟨f, rfl⟩ : ∃ f, fuel = f + 1 := ⟨fuel - 1, by simp at hf; omega⟩
    have e : pieces (b :: bs) ++ 0x22 :: s = (piece b).1 ++ (pieces bs ++ 0x22 :: s) := by simp [pieces]
    rw [e, body_piece (h b (by simp)), ih (fun c hc => h c (by simp [hc])) f s (by simp at hf; omega)]
    rfl

theorem pieces_length {bs : List UInt8} (h : ∀ b ∈ bs, gasOk b = true) : bs.length ≤ (pieces bs).length := by
  induction bs with
  | nil => simp
  | cons b bs ih =>
    have h1 : 1 ≤ (piece b).1.length := by
      have := h b (by simp)
      unfold gasOk at this
      cases hp : (piece b).1 with
      | nil => rw [hp] at this; simp at this
      | cons _ _ => simp
    have := ih (fun c hc => h c (by simp [hc]))
    simp only [pieces, List.map_cons, List.flatten_cons, List.length_append, List.length_cons] at this ⊢
    omega

end Literal
end Umlcc
