import Verif.Lemma.Liveseq
import Verif.Props.Regalloc
/-! Property theorems C53: the live-register cursors consulted by the x64 generator. -/
namespace Umlcc
open Regalloc

/-- C53, the cursor: over any consecutive intervals, after any number of `liveseq_goto_next` calls the cursor is
still inside the vector and `liveseq_isalive` answers whether some interval covers the current index. -/
theorem C53_cursor_exact (ls : List Live) (N n : Nat) (hc : RSpec.Consecutive ls N) :
    ∃ s, Liveseq.nextN ⟨ls, 0, -1⟩ n = .ok s ∧
      s.isAlive = .ok (decide (∃ l ∈ ls, l.first ≤ n ∧ n < l.last)) := by
  obtain ⟨s, h1, h2, h3⟩ := nextN_cur hc n
  obtain ⟨b, h4, h5⟩ := isAlive_cur (by rw [h2]; exact hc) h3
  refine ⟨s, h1, ?_⟩
  rw [h4, h2] at *
  congr 1
  by_cases hb : ∃ l ∈ ls, l.first ≤ n ∧ n < l.last
  · simp [h5.2 hb, hb]
  · have : b = false := by
      cases b with
      | true => exact absurd (h5.1 rfl) hb
      | false => rfl
    simp [this, hb]

example : RSpec.Consecutive [⟨1, 3⟩, ⟨3, 3⟩, ⟨5, 9⟩] 9 := by
  refine ⟨by decide, ?_⟩
  intro i j a b hij ha hb
  match i, j, hij, ha, hb with
  | 0, 1, _, ha, hb | 0, 2, _, ha, hb | 1, 2, _, ha, hb => simp at ha hb; subst ha hb; decide
  | 0, j+3, _, _, hb | 1, j+3, _, _, hb | 2, j+3, _, _, hb => simp at hb
  | i+3, j, _, ha, _ => simp at ha

/-- C53, the intervals: allocating a function at offset `o` appends to every sequence, keeps all sequences
consecutive, and each register live after line `i` is covered at index `o + i` by an interval in the sequence of its
physical register; hence (with the cursor theorem) it is reported alive there.
Missing for the full claim: the converse (an interval covers every line between first write and last read, live or
not), the hypotheses of C38, and functions containing a result register reserved early and never read
(violated, below). -/
theorem C53_live_registers_reported_partial (code out : List Immc) (o nregs fuel : Nat) (qs qs' : List Liveseq)
    (h : allocFunction code o nregs qs fuel = .ok (out, qs'))
    (hhead : ∀ x, code[0]? = some x → x.isLabel = true)
    (hlast : ∀ x, code.getLast? = some x → x.isLabel = false)
    (hu : RSpec.UniqueLabels code) (hr : RSpec.KnownBranches code ∨ RSpec.BackDead code) (hdef : RSpec.DefBefore code)
    (hfr : RSpec.FirstOrRead code)
    (hqs : ∀ q ∈ qs, q.index = 0 ∧ q.cur = -1 ∧ RSpec.Consecutive q.lives o) :
    qs'.length = qs.length ∧ (∀ q ∈ qs', q.index = 0 ∧ q.cur = -1 ∧ RSpec.Consecutive q.lives (o + code.length)) ∧
    (∀ (r : Nat) q, qs[r]? = some q → ∃ q', qs'[r]? = some q' ∧ ∃ more, q'.lives = q.lives ++ more) ∧
    ∃ ρ : Int → Int, out = code.map (RSpec.rename ρ) ∧
      ∀ i u, RSpec.LiveOut code u i → 0 ≤ ρ u ∧ ∃ q', qs'[(ρ u).toNat]? = some q' ∧
        ∃ s, q'.nextN (o + i) = .ok s ∧ s.isAlive = .ok true := by
  obtain ⟨g, lv, al, h1, h2, h3, h4, h5⟩ := allocFunction_parts h
  have hf := controlFlow_flow hlast h1
  obtain ⟨hj, _⟩ := intervals hf h2
  obtain ⟨st, ha⟩ := allocate_spec hj.mono h3
  obtain ⟨u1, u2⟩ := updateLiveseqs_lives _ _ _ h5
  have hlen := ha.allen
  have cons := assigned_consecutive hj ha hdef hfr hhead lv.length (by omega)
  rw [List.take_of_length_le (by omega), List.take_of_length_le (by omega)] at cons
  have good : ∀ q ∈ qs', q.index = 0 ∧ q.cur = -1 ∧ RSpec.Consecutive q.lives (o + code.length) := by
    intro q' hq'
    obtain ⟨r, hr'⟩ := List.mem_iff_getElem?.1 hq'
    have hlt := (List.getElem?_eq_some_iff.1 hr').1
    have hq : qs[r]? = some qs[r] := by simp
    obtain ⟨g1, g2, g3, g4⟩ := hqs _ (List.mem_of_getElem? hq)
    have := u2 r _ hq
    rw [this] at hr'; simp at hr'; subst hr'
    refine ⟨g1, g2, ?_, ?_⟩
    · intro l hl
      rw [List.mem_append] at hl
      rcases hl with hl | hl
      · have := g3 l hl; omega
      · have := (cons r).1 l hl; omega
    · intro i j a b hij hi hjb
      simp only [List.getElem?_append] at hi hjb
      split at hi
      · split at hjb
        · exact g4 i j a b hij hi hjb
        · have e1 := g3 a (List.mem_of_getElem? hi)
          have e2 := (cons r).1 b (List.mem_of_getElem? hjb)
          omega
      · split at hjb
        · omega
        · exact (cons r).2 _ _ a b (by omega) hi hjb
  refine ⟨u1, good, ?_, phys al, genAllocated_rename h4, ?_⟩
  · intro r q hq; exact ⟨_, u2 r q hq, _, rfl⟩
  · rintro i u ⟨j, hs, hl⟩
    obtain ⟨h0, l, hl1, hl2⟩ := liveOut_reaches hf h2 hu hr hs hl
    obtain ⟨r, hr'⟩ := all_allocated ha.allen h5 u.toNat (List.getElem?_eq_some_iff.1 hl1).1
    have hp : phys al u = r := by simp [phys, hr']
    have hrq : r < qs.length := by
      have hul := (List.getElem?_eq_some_iff.1 hl1).1
      have hz : (lv[u.toNat], al[u.toNat]) ∈ lv.zip al :=
        List.mem_iff_getElem.2 ⟨u.toNat, by simp; omega, by simp⟩
      obtain ⟨r', e1, e2⟩ := updateLiveseqs_all _ _ _ h5 _ hz
      rw [List.getElem?_eq_getElem (by omega)] at hr'
      simp at hr' e1
      rw [hr'] at e1; simp at e1; omega
    have hfst : l.first ≤ o + i := by
      obtain ⟨x, hx, hcase⟩ := hs
      by_cases hw : RSpec.writes x = some u
      · obtain ⟨l', e1, e2⟩ := hj.defd i x u hx hw h0
        rw [hl1] at e1; simp at e1; subst e1; exact e2
      · obtain ⟨k, y, hk, hy, hwy⟩ := hdef i u (.thru hx hw ⟨x, hx, hcase⟩ hl)
        obtain ⟨l', e1, e2⟩ := hj.defd k y u hy hwy h0
        rw [hl1] at e1; simp at e1; subst e1; omega
    rw [hp]
    have hq := u2 r qs[r] (by simp [hrq])
    refine ⟨by omega, _, by simpa using hq, ?_⟩
    obtain ⟨g1, g2, g3⟩ := good _ (List.mem_of_getElem? hq)
    obtain ⟨s, s1, s2⟩ := C53_cursor_exact _ _ (o + i) g3
    simp only at g1 g2
    refine ⟨s, by rw [← g1, ← g2] at s1; exact s1, ?_⟩
    rw [s2]
    congr 1
    rw [decide_eq_true_eq]
    refine ⟨l, ?_, hfst, by omega⟩
    rw [List.mem_append]
    right
    unfold assigned
    rw [List.mem_filterMap]
    have hul := (List.getElem?_eq_some_iff.1 hl1).1
    refine ⟨(lv[u.toNat], al[u.toNat]), List.mem_iff_getElem.2 ⟨u.toNat, by simp; omega, by simp⟩, ?_⟩
    rw [List.getElem?_eq_getElem (by omega)] at hr' hl1
    simp at hr' hl1
    simp [hr', hl1]

/-- the loop of the previous file meets the hypotheses; register 3 is live across line 8 -/
example : (∃ res, allocFunction exLoop 0 8 (List.replicate 8 Liveseq.new) 9 = .ok res) ∧ RSpec.FirstOrRead exLoop ∧
    (∀ q ∈ List.replicate 8 Liveseq.new, q.index = 0 ∧ q.cur = -1 ∧ RSpec.Consecutive q.lives 0) ∧ RSpec.LiveOut exLoop 3 8 := by
  refine ⟨⟨_, rfl⟩, ?_, ?_, 9, ⟨_, rfl, Or.inl ⟨rfl, by rintro _ _ _ ⟨⟩⟩⟩, .read rfl (by decide)⟩
  · have hall : ∀ x ∈ exLoop, ∀ w, RSpec.writes x = some w → w ≤ 4 := by decide
    intro u hu
    by_cases hb : u ≤ 4
    · left
      have : u = 0 ∨ u = 1 ∨ u = 2 ∨ u = 3 ∨ u = 4 := by omega
      rcases this with rfl | rfl | rfl | rfl | rfl
      · exact ⟨3, _, rfl, by decide⟩
      · exact ⟨6, _, rfl, by decide⟩
      · exact ⟨8, _, rfl, by decide⟩
      · exact ⟨9, _, rfl, by decide⟩
      · exact ⟨13, _, rfl, by decide⟩
    · right
      intro k x w hk hw hlt
      have := hall x (List.mem_of_getElem? hk) w hw
      omega
  · intro q hq
    rw [List.mem_replicate] at hq
    rw [hq.2]
    exact ⟨rfl, rfl, by simp [Liveseq.new], by simp [Liveseq.new]⟩

private def r (n : Int) : Ope := .reg .long n false
private def n (k : Int) : Ope := .int .long ⟨.int, k⟩
private def ins (op : IOp) (d f s : Option Ope) : Immc := .inst ⟨op, d, f, s⟩

/-- the statement `x ? 1 : 2;`: the result register 0, reserved before the condition, is never read -/
def exDead : List Immc := [
  .label .function .global exF,
  ins .load (some (r 1)) (some (.mem 4)) none,
  ins .jeq (some (.label exL1)) (some (r 1)) (some (n 0)),
  ins .load (some (r 0)) (some (n 1)) none,
  ins .jmp (some (.label exL2)) none none,
  .label .normal .none exL1,
  ins .load (some (r 0)) (some (n 2)) none,
  .label .normal .none exL2,
  ins .leave none none none]

/-- C53 violated: in `x ? 1 : 2;` register 1 is live after line 1 and gets physical register 0, but the sequence of
physical register 0 starts with the empty interval of register 0, the cursor stops there and reports it free. -/
theorem C53_early_dead_result_violated :
    RSpec.LiveOut exDead 1 1 ∧
    ∃ out qs, allocFunction exDead 0 8 (List.replicate 8 Liveseq.new) 9 = .ok (out, qs) ∧
      out[1]? = some (ins .load (some (r 0)) (some (.mem 4)) none) ∧
      ∃ q s, qs[0]? = some q ∧ q.lives = [⟨1, 1⟩, ⟨1, 2⟩] ∧ q.nextN 1 = .ok s ∧ s.isAlive = .ok false := by
  refine ⟨⟨2, ⟨_, rfl, Or.inl ⟨rfl, by rintro _ _ _ ⟨⟩⟩⟩, .read rfl (by decide)⟩, _, _, rfl, by decide, _, _, rfl, by decide, rfl, by decide⟩

end Umlcc
