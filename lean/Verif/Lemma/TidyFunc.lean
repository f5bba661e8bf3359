import Verif.Lemma.TidyFlow
import Verif.Props.GenLive
import Verif.Props.Immcgen
/-! The code of tidy functions and the intervals of their registers (helper lemmas). -/
namespace Umlcc
namespace Tidy
open Gen (GState funcCode)
open Regalloc
open CStm (soundAll)
open Flow (freeBrks freeConts)

/-- the code of a tidy function -/
theorem funcCode_orderly {n : Str} {t : DType} {b : SItems} {s s' : GState} {code : List Immc} {k : Nat} (h : funcCode n t b s = .ok ((), code, s'))
    (hs : soundAll b = true) (hc : freeConts b = false) (hb : freeBrks b = false) (hn : n.head? ≠ some 46) (hl : -1 ≤ s.lab) (ht : tidyAll k b = true) :
    RSpec.JumpsFind code ∧ RSpec.Orderly code ∧ RSpec.DefBefore code ∧ RSpec.NaturalRegs code ∧ RSpec.BackDead code ∧ Level code [] k := by
  obtain ⟨Λ, ty⟩ := Live.funcCode_live h hs hc hb hl hn
  obtain ⟨hu, hj⟩ := Gen.C32_labels n t b s s' code h hc hb hn hl
  have hback := Live.Typ.backDead ty hu
  have hdef := Live.Typ.defBefore ty
  obtain ⟨s0, s2, e0, hr⟩ := funcCode_runs (K := ⟨false, true, true, true, []⟩) h hs ht nofun
  have h0 : s0.reg = -1 := by rw [e0]; rfl
  refine ⟨?_, orderly hr h0 hback hdef, hdef, natural hr h0, hback, hr.level⟩
  intro x hx hx'
  cases hm : RSpec.target x with
  | none => exact absurd hm (hr.aim x hx hx')
  | some m =>
    obtain ⟨y, hy, e⟩ := hj x hx m hm
    exact ⟨m, y, rfl, hy, e⟩

/-- whatever the number of passes, the intervals end at reads -/
theorem funcCode_why {n : Str} {t : DType} {b : SItems} {s s' : GState} {code : List Immc} {k fuel o : Nat} {g : List Block} {lv : List Live} (h : funcCode n t b s = .ok ((), code, s'))
    (hs : soundAll b = true) (hc : freeConts b = false) (hb : freeBrks b = false) (hn : n.head? ≠ some 46) (hl : -1 ≤ s.lab) (ht : tidyAll k b = true)
    (hg : controlFlow code fuel = .ok g) (hv : liveBlocks [] o g = .ok lv) : Why o code lv := by
  obtain ⟨hjf, hord, -, -, hback, -⟩ := funcCode_orderly h hs hc hb hn hl ht
  have hlast := Gen.funcCode_last h
  obtain ⟨h5, h6⟩ := createBlocks_spec code [] CurOk.nil hlast
  simp only [List.nil_append] at h5
  obtain ⟨g0, hg0⟩ := connect_ok h5 h6 hjf
  obtain ⟨N, g', h1, h2, _, h4⟩ := controlFlow_ends hlast hg0 hord
  have e := h1 (max N fuel) (Nat.le_max_left ..)
  rw [controlFlow_more hg (Nat.le_max_right ..)] at e
  cases e
  exact table_why h2 hback h4 hv

end Tidy
end Umlcc
