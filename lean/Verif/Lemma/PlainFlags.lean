import Verif.Lemma.PlainSuits
import Verif.Lemma.ChunkLives
import Verif.Lemma.TidyFunc
/-!
Functions of the part of `Spec/Plain.lean`: at a call the intervals report no register but the destination to be in use.
-/
namespace Umlcc
namespace Plain
open RSpec (reads writes rename renameOpe)
open Gen
open X86 hiding load
open Flow (freeBrks freeConts)
open CStm (soundAll)

/-- a register reported in use is inside of an interval -/
theorem flag_inside {qx : List Liveseq} {i r : Nat} (h : (flagsAt qx i)[r]? = some true) : ∃ q l, qx[r]? = some q ∧ l ∈ q.lives ∧ l.first ≤ q.index + i ∧ q.index + i < l.last := by
  rw [flagsAt, List.getElem?_map] at h
  obtain ⟨q, hq, h⟩ := Option.map_eq_some_iff.1 h
  split at h
  · rename_i q' hn
    split at h
    · rename_i b hb
      cases h
      obtain ⟨l, h1, h2, h3⟩ := alive_inside hb
      obtain ⟨e1, e2⟩ := nextN_keeps hn
      rw [e1] at h1
      rw [e2] at h2 h3
      exact ⟨q, l, hq, h1, h2, h3⟩
    · cases h
  · cases h

theorem flags_plain {N : Option Nat} {f : Str} {ps : Params} {rt : DType} {b : SItems} {s s' : GState} {code out : List Immc} {off fuel k : Nat} {qs qx : List Liveseq}
    (h : funcCode f (.func ps rt) b s = .ok ((), code, s')) (hown : Own code out off 8 fuel qs) (hp : plainBody N ps b = true) (ht : Tidy.tidyAll k b = true)
    (hs : soundAll b = true) (hc : freeConts b = false) (hb : freeBrks b = false) (hn : f.head? ≠ some 46) (hl : -1 ≤ s.lab)
    (hg : ∀ sc ∈ s.syms, ∀ p ∈ sc, p.2.loc = .label) (htg : smallTags s.tags = true) (h0 : ∀ q ∈ qs, q.index = 0) (hqx : nextAllN qs off = .ok qx) (hlen : qx.length = qs.length)
    {i : Nat} {x : Inst} (hx : out[i]? = some (.inst x)) (hcall : x.op = .call) {r : Nat} (hr : (flagsAt qx i)[r]? = some true) : ∃ t d, x.dst = some (.reg t r d) := by
  obtain ⟨n, u⟩ := func_use h hp hg htg hn
  obtain ⟨g, lv, al, h1, h2, h3, h4, hown⟩ := hown
  have hlast := funcCode_last h
  obtain ⟨j, -⟩ := Regalloc.intervals (Regalloc.controlFlow_flow hlast h1) h2
  have why := Tidy.funcCode_why h hs hc hb hn hl ht h1 h2
  have hout := Regalloc.genAllocated_rename h4
  subst hout
  obtain ⟨y, hy, e⟩ := line_rename hx
  have hlt := (List.getElem?_eq_some_iff.1 hy).1
  obtain ⟨z, rfl⟩ : ∃ z, y = .inst z := by
    cases y <;> cases e
    exact ⟨_, rfl⟩
  cases e
  -- the call is in the body
  have hi : CStm.paramCount ps + 2 ≤ i := by
    refine Nat.le_of_not_lt fun hi => ?_
    rcases i with _ | _ | i
    · obtain ⟨v, f, h, -⟩ := u.first
      rw [h] at hy; cases hy
    · rw [u.second] at hy; cases hy
      cases hcall
    · obtain ⟨k, q, h, -⟩ := u.args i (by omega)
      rw [h] at hy; cases hy
      cases hcall
  have hi2 : i + 1 < code.length := by
    refine Nat.lt_of_not_le fun hle => ?_
    rw [show i = code.length - 1 by omega, u.last] at hy
    cases hy
    cases hcall
  obtain ⟨lo, hi', sp⟩ := u.spot _ _ _ (split_line hy) (by rw [List.length_take]; omega) (by
    intro e
    have := congrArg List.length e
    rw [List.length_drop, List.length_nil] at this
    omega)
  obtain ⟨m, -, -, m1, m3, m4⟩ := sp.cut z rfl (by rw [hcall]; rfl)
  -- the interval
  obtain ⟨q', l, a1, a2, a3, a4⟩ := flag_inside hr
  have hrl : r < qs.length := by rw [← hlen]; exact (List.getElem?_eq_some_iff.1 a1).1
  obtain ⟨q'', a5, a6⟩ := (nextAllN_at hqx).2 r qs[r] (by simp [hrl])
  rw [a1] at a6
  cases a6
  obtain ⟨a7, a8⟩ := nextN_keeps a5
  rw [h0 _ (List.getElem_mem hrl), Nat.zero_add] at a8
  rw [a7] at a2
  rw [a8] at a3 a4
  obtain ⟨w, b1, b2⟩ := hown r i qs[r] l (by simp [hrl]) a2 hlt a3 a4
  -- it is read after the call
  have hwm : m < (w : Int) := by
    rcases why w l b1 with c | ⟨p, y, c1, c2, c3⟩
    · have := (j.bd w l b1).1
      omega
    · refine m4 y ?_ w c2
      refine List.mem_of_getElem? (i := p - (i + 1)) ?_
      rw [List.getElem?_drop, show i + 1 + (p - (i + 1)) = p by omega]
      exact c1
  -- so the call defines it
  obtain ⟨p, y, v, d1, d2, d3, d4, -⟩ := j.orig w l b1
  have hp' : p = i := by
    refine Nat.le_antisymm (by omega) (Nat.le_of_not_lt fun hpi => ?_)
    rcases m1 y (List.mem_of_getElem? (i := p) (by rw [List.getElem?_take_of_lt hpi]; exact d1)) v (.inr d2) with h | h
    · omega
    · exact h.1 hcall
  subst hp'
  rw [hy] at d1
  cases d1
  have hv := m3 v d2
  have hvw : v = w := by omega
  subst hvw
  obtain ⟨op, dst, f, g⟩ := z
  cases dst with
  | none => cases d2
  | some o =>
    cases o <;> cases d2
    rename_i t t'
    refine ⟨t, t', ?_⟩
    simp [renameOpe, Regalloc.phys, b2]

end Plain
end Umlcc
