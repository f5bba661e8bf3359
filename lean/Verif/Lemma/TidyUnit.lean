import Verif.Lemma.TidyFunc
import Verif.Lemma.Chunks
import Verif.Lemma.UnitProgram
/-! Register allocation of tidy functions, one by one and in a whole translation unit (helper lemmas). -/
namespace Umlcc
namespace Tidy
open Gen (GState funcCode Chunks IsExt FuncChunk VarChunk)
open Regalloc
open CStm (soundAll)
open Flow (freeBrks freeConts)

/-- how the registers of a function were allocated -/
structure How (code : List Immc) (o nregs : Nat) (qs : List Liveseq) (out : List Immc) (qs' : List Liveseq) (lv : List Live) (al : List (Option Nat)) : Prop where
  out : out = code.map (RSpec.rename (phys al))
  j : J o code lv
  why : Why o code lv
  seqs : updateLiveseqs qs (lv.zip al) = .ok qs'
  len : al.length = lv.length
  all : ∀ r ∈ al, ∃ q, r = some q ∧ q < nregs
  regs : ∀ x ∈ code, ∀ v, v ∈ RSpec.reads x ∨ RSpec.writes x = some v → 0 ≤ v ∧ v.toNat < al.length

theorem allocFunction_how {n : Str} {t : DType} {b : SItems} {s s' : GState} {code : List Immc} {k nregs : Nat} (h : funcCode n t b s = .ok ((), code, s'))
    (hs : soundAll b = true) (hc : freeConts b = false) (hb : freeBrks b = false) (hn : n.head? ≠ some 46) (hl : -1 ≤ s.lab) (ht : tidyAll k b = true) (hk : k < nregs) :
    ∃ N, ∀ fuel, N ≤ fuel → ∀ o qs, qs.length = nregs → ∃ out qs' lv al, allocFunction code o nregs qs fuel = .ok (out, qs') ∧ How code o nregs qs out qs' lv al := by
  obtain ⟨hjf, hord, hdef, hnat, hback, hlev⟩ := funcCode_orderly h hs hc hb hn hl ht
  have hlast := Gen.funcCode_last h
  obtain ⟨h5, h6⟩ := createBlocks_spec code [] CurOk.nil hlast
  simp only [List.nil_append] at h5
  obtain ⟨g0, hg0⟩ := connect_ok h5 h6 hjf
  obtain ⟨N, g, h1, h2, _, h4⟩ := controlFlow_ends hlast hg0 hord
  refine ⟨N, fun fuel hf o qs hq => ?_⟩
  obtain ⟨lv, h7⟩ := table_ok o h2 hdef hnat h4
  obtain ⟨j, -⟩ := intervals h2 h7
  have hw := table_why h2 hback h4 h7
  obtain ⟨al, e1, e2, e3⟩ := C39_enough_registers_partial lv nregs j.mono
  have hall := e3.2 fun v hv => Nat.lt_of_le_of_lt (pressure_le j hw hlev hv) hk
  have hin : ∀ x ∈ code, ∀ v, v ∈ RSpec.reads x ∨ RSpec.writes x = some v → 0 ≤ v ∧ v.toNat < al.length := by
    intro x hx v hv
    obtain ⟨i, hi⟩ := List.mem_iff_getElem?.1 hx
    rcases hv with hv | hv
    · obtain ⟨g1, l, g2, _⟩ := j.used i x v hi hv
      exact ⟨g1, by rw [e2]; exact (List.getElem?_eq_some_iff.1 g2).1⟩
    · have g1 := hnat x hx v hv
      obtain ⟨l, g2, _⟩ := j.defd i x v hi hv g1
      exact ⟨g1, by rw [e2]; exact (List.getElem?_eq_some_iff.1 g2).1⟩
  obtain ⟨out, h8⟩ := genAllocated_ok hin
  obtain ⟨qs', h9⟩ := updateLiveseqs_some (lv.zip al) qs fun p hp => by
    rw [hq]; exact hall p.2 (List.of_mem_zip hp).2
  exact ⟨out, qs', lv, al, by simp only [allocFunction, h1 fuel hf, h7, e1, h8, h9, Out.ok_bind]; rfl, genAllocated_rename h8, j, hw, h9, e2, hall, hin⟩

theorem allocFunction_ok {n : Str} {t : DType} {b : SItems} {s s' : GState} {code : List Immc} {k nregs : Nat} (h : funcCode n t b s = .ok ((), code, s'))
    (hs : soundAll b = true) (hc : freeConts b = false) (hb : freeBrks b = false) (hn : n.head? ≠ some 46) (hl : -1 ≤ s.lab) (ht : tidyAll k b = true) (hk : k < nregs) :
    ∃ N, ∀ fuel, N ≤ fuel → ∀ o qs, qs.length = nregs → ∃ out qs', allocFunction code o nregs qs fuel = .ok (out, qs') := by
  obtain ⟨N, hN⟩ := allocFunction_how h hs hc hb hn hl ht hk
  refine ⟨N, fun fuel hf o qs hq => ?_⟩
  obtain ⟨out, qs', _, _, e, _⟩ := hN fuel hf o qs hq
  exact ⟨out, qs', e⟩

/-! ### translation units -/

/-- what a translation unit is made of, functions getting registers -/
def Gets (nregs : Nat) (c : List Immc) : Prop :=
  VarChunk c ∨ (∃ n, FuncChunk n c) ∧ ∃ N, ∀ fuel, N ≤ fuel → ∀ o qs, qs.length = nregs → ∃ out qs', allocFunction c o nregs qs fuel = .ok (out, qs')

/-- the code consists of chunks with a property -/
def Made (P : List Immc → Prop) (c : List Immc) : Prop := ∃ cs : List (List Immc), (∀ x ∈ cs, P x) ∧ c = cs.flatten

theorem Made.append {P : List Immc → Prop} {a b : List Immc} (h : Made P a) (g : Made P b) : Made P (a ++ b) := by
  obtain ⟨x, hx, rfl⟩ := h
  obtain ⟨y, hy, rfl⟩ := g
  exact ⟨x ++ y, fun z hz => (List.mem_append.1 hz).elim (hx z) (hy z), by simp⟩

theorem declareLabel_lab (s : GState) (n : Str) (t : DType) : (s.declareLabel n t).lab = s.lab := by
  unfold Gen.GState.declareLabel
  split <;> rfl

open Gen in
theorem globalDecl_get {d : SDecl} {s s' : GState} {c : List Immc} {P : List Immc → Prop} (hP : ∀ c, VarChunk c → P c) (h : globalDecl d s = .ok ((), c, s')) : Made P c ∧ s'.lab = s.lab := by
  simp only [globalDecl, bind_ok] at h
  obtain ⟨n, c0, s0, _, h0, ⟨_, c1, s1, _, h1, ⟨s2, c2, s3, c3, h2, h, rfl⟩, rfl⟩, rfl⟩ := h
  have h0' : c0 = [] ∧ s0 = s := by
    cases hw : d.who with
    | str i => rw [hw] at h0; cases h0; exact ⟨rfl, rfl⟩
    | ident m =>
      rw [hw] at h0
      exact ⟨(nameOf_ok h0).2.1, (nameOf_ok h0).2.2⟩
  obtain ⟨rfl, rfl⟩ := h0'
  simp only [defineLabel, modify_ok] at h1
  obtain ⟨rfl, hs⟩ := h1
  obtain ⟨rfl, rfl, rfl⟩ := get_ok.1 h2
  have e : s3 = s0.declareLabel n.1 d.dt := hs
  subst e
  simp only [List.nil_append]
  suffices hh : Made P c3 ∧ s' = s0.declareLabel n.1 d.dt from ⟨hh.1, by rw [hh.2]; exact declareLabel_lab _ _ _⟩
  cases hy : lookup n.1 (s0.declareLabel n.1 d.dt).syms with
  | none => simp [hy, ub_ok] at h
  | some y =>
    simp only [hy] at h
    cases ho : y.dt.isObject
    · simp only [ho, Bool.not_false, if_true] at h
      obtain ⟨_, rfl, rfl⟩ := pure_ok.1 h
      exact ⟨⟨[], by simp, rfl⟩, rfl⟩
    · simp only [ho, Bool.not_true, Bool.false_eq_true, if_false] at h
      cases hi : d.init with
      | none =>
        simp only [hi] at h
        gm at h
        obtain ⟨rfl, rfl⟩ := h
        refine ⟨⟨[_], ?_, by simp; rfl⟩, rfl⟩
        intro x hx
        simp only [List.mem_singleton] at hx
        subst hx
        exact hP _ ⟨_, _, _, rfl, by intro y hy; simp only [List.mem_singleton] at hy; subst hy; trivial⟩
      | some i =>
        simp only [hi] at h
        gm at h
        obtain ⟨c4, h4, rfl⟩ := h
        obtain ⟨e1, -, e2⟩ := globalInit_em _ _ _ _ _ _ h4
        refine ⟨⟨[_], ?_, by simp; rfl⟩, e2.symm⟩
        intro x hx
        simp only [List.mem_singleton] at hx
        subst hx
        exact hP _ ⟨_, _, _, rfl, e1⟩

theorem globalDecls_get {P : List Immc → Prop} (hP : ∀ c, VarChunk c → P c) : ∀ {ds : List SDecl} {s s' : GState} {c : List Immc}, Gen.globalDecls ds s = .ok ((), c, s') → Made P c ∧ s'.lab = s.lab
  | [], s, s', c, h => by
    obtain ⟨_, rfl, rfl⟩ := Gen.pure_ok.1 h
    exact ⟨⟨[], by simp, rfl⟩, rfl⟩
  | d :: ds, s, s', c, h => by
    simp only [Gen.globalDecls, Gen.bind_ok] at h
    obtain ⟨_, c1, s1, c2, h1, h2, rfl⟩ := h
    obtain ⟨g1, e1⟩ := globalDecl_get hP h1
    obtain ⟨g2, e2⟩ := globalDecls_get hP h2
    exact ⟨g1.append g2, e2.trans e1⟩

/-- the chunks of a translation unit -/
theorem unit_made {P : List Immc → Prop} {Q : SExt → Prop} (hP : ∀ c, VarChunk c → P c)
    (hQ : ∀ {f t b s s' c}, Q (.func f t b) → -1 ≤ s.lab → CStm.Global s → funcCode f t b s = .ok ((), c, s') → P c) : ∀ {u : List SExt} {s s' : GState} {c : List Immc},
    (∀ x ∈ u, Q x) → -1 ≤ s.lab → CStm.Global s → Gen.unit u s = .ok ((), c, s') → Made P c
  | [], s, s', c, _, _, _, h => by
    obtain ⟨_, rfl, rfl⟩ := Gen.pure_ok.1 h
    exact ⟨[], by simp, rfl⟩
  | x :: u, s, s', c, hu, hl, hg, h => by
    simp only [Gen.unit, Gen.bind_ok] at h
    obtain ⟨_, c1, s1, c2, h1, h2, rfl⟩ := h
    have hx := hu x (by simp)
    have hg1 := CStm.global_ext h1 hg
    have : Made P c1 ∧ s.lab ≤ s1.lab := by
      cases x with
      | func f t b =>
        obtain ⟨_, hch, -, -, -, hlab⟩ := Gen.funcCode_chunk h1
        refine ⟨⟨[c1], fun x hx => ?_, by simp⟩, hlab⟩
        rw [List.mem_singleton] at hx
        subst hx
        exact hQ (hu (.func f t b) (by simp)) hl hg h1
      | decls ds =>
        obtain ⟨g, e⟩ := globalDecls_get hP h1
        exact ⟨g, by omega⟩
      | tag n t =>
        obtain ⟨rfl, tg, rfl⟩ := Gen.tagDecl_ok h1
        exact ⟨⟨[], by simp, rfl⟩, Int.le_refl _⟩
    exact this.1.append (unit_made hP hQ (fun y hy => hu y (by simp [hy])) (by omega) hg1 h2)

theorem unit_get {k nregs : Nat} (hk : k < nregs) {u : List SExt} {s s' : GState} {c : List Immc} (hu : ∀ x ∈ u, tidyExt k x = true) (hl : -1 ≤ s.lab) (hg : CStm.Global s)
    (h : Gen.unit u s = .ok ((), c, s')) : Made (Gets nregs) c := by
  refine unit_made (Q := fun x => tidyExt k x = true) (fun _ => .inl) ?_ hu hl hg h
  intro f t b s s' c hx hl _ h1
  obtain ⟨_, hch, -, -, -, hlab⟩ := Gen.funcCode_chunk h1
  simp only [tidyExt, Bool.and_eq_true, Bool.not_eq_true', decide_eq_true_eq] at hx
  obtain ⟨⟨⟨⟨a1, a2⟩, a3⟩, a4⟩, a5⟩ := hx
  exact .inr ⟨⟨_, hch⟩, allocFunction_ok h1 a4 a3 a2 a1 hl a5 hk⟩

theorem Gets.ext {n : Nat} {c : List Immc} (h : Gets n c) : IsExt c := h.elim .inr fun h => .inl h.1

theorem allocAll_ok {nregs : Nat} : ∀ (cs : List (List Immc)), (∀ x ∈ cs, Gets nregs x) → ∃ N, ∀ fuel, N ≤ fuel → ∀ acc qs off n, cs.flatten.length ≤ n → qs.length = nregs →
    ∃ r, allocAll nregs fuel acc qs off n cs.flatten = .ok r
  | [], _ => ⟨0, fun fuel _ acc qs off n _ _ => ⟨(acc, qs), by cases n <;> rfl⟩⟩
  | c :: cs, h => by
    obtain ⟨N, ih⟩ := allocAll_ok cs fun x hx => h x (by simp [hx])
    have hc := h c (by simp)
    obtain ⟨x, xs, e, hx, hxs⟩ := Gen.ext_head hc.ext
    have hr := Gen.flatten_head (cs := cs) fun y hy => (h y (by simp [hy])).ext
    obtain ⟨e1, e2⟩ := Gen.takeWhile_inner hxs hr
    rcases hc with hv | ⟨⟨m, hf⟩, M, hM⟩
    · refine ⟨N, fun fuel hfu acc qs off n hn hq => ?_⟩
      obtain ⟨v, m, ds, e', -⟩ := hv
      rw [e] at e'
      cases e'
      subst e
      rw [List.flatten_cons, List.cons_append] at hn ⊢
      simp only [List.length_cons, List.length_append] at hn
      obtain ⟨n, rfl⟩ : ∃ m, n = m + 1 := ⟨n - 1, by omega⟩
      simp only [allocAll, e1, e2]
      exact ih fuel hfu _ qs _ n (by omega) hq
    · refine ⟨max N M, fun fuel hfu acc qs off n hn hq => ?_⟩
      obtain ⟨v, i, body, l, e', -⟩ := hf
      rw [e] at e'
      cases e'
      subst e
      obtain ⟨out, qs', ha⟩ := hM fuel (by omega) off qs hq
      have hq' : qs'.length = nregs := by
        have h2 := ha
        simp only [allocFunction, Out.bind_eq_ok, Out.pure_eq, Out.ok.injEq, Prod.mk.injEq] at h2
        obtain ⟨_, _, _, _, _, _, _, _, _, h5, _, rfl⟩ := h2
        rw [(updateLiveseqs_lives _ _ _ h5).1, hq]
      rw [List.flatten_cons, List.cons_append] at hn ⊢
      simp only [List.length_cons, List.length_append] at hn
      obtain ⟨n, rfl⟩ : ∃ m, n = m + 1 := ⟨n - 1, by omega⟩
      simp only [allocAll, e1, e2, ha, Out.ok_bind]
      exact ih fuel (by omega) _ qs' _ n (by omega) hq'

end Tidy
end Umlcc
