import Verif.Spec.X64Check
/-!
Helper lemmas: the test for `Suits` is right.
-/
namespace Umlcc
namespace X86
open RSpec (Succ LiveIn LiveOut)

theorem mem_succs {out : List Immc} {i j : Nat} (h : Succ out i j) : j ∈ succs out i := by
  obtain ⟨x, hx, h⟩ := h
  unfold succs
  rw [hx]
  simp only [List.mem_append]
  rcases h with ⟨rfl, h⟩ | ⟨n, y, ht, hy, hl⟩
  · left
    cases x with
    | inst i' =>
      obtain ⟨op, d, f, s⟩ := i'
      have : op ≠ .jmp := fun e => h d f s (by rw [e])
      simp [this]
    | _ => simp
  · right
    rw [ht]
    simp only [List.mem_filter, List.mem_range]
    refine ⟨(List.getElem?_eq_some_iff.1 hy).1, ?_⟩
    rw [hy]; exact hl

theorem litFits_of {w : Sfx} {o : Ope} (h : litFitsB w o = true) : LitFits w o := by
  cases o <;> first | trivial | exact h

theorem litLoads_of {w : Sfx} {o : Ope} (h : litLoadsB w o = true) : LitLoads w o := by
  cases o <;> first
    | trivial
    | (simp only [litLoadsB] at h; simp only [LitLoads]; split <;> simp_all)

theorem widens_of {u : Bool} {o : Ope} {w : Sfx} (h : widensB u o w = false) : ¬ Widens u o w := by
  rintro ⟨rfl, id, rfl⟩
  simp [widensB] at h

theorem inFrame_of {n s : Nat} {o : Option Ope} (h : inFrameB n s o = true) : InFrame n s o := by
  intro k hk
  subst hk
  simpa [inFrameB] using h

theorem pair_of {i : Inst} {fs : Sfx} {f : Int} {fu : Bool} {o : Ope} (h1 : i.fst = some (.reg fs f fu)) (h2 : i.snd = some o)
    (h : pairB fs f fu o (IMach.wider fs (IMach.width (some o))) = true) : Pair i fs f fu o (IMach.wider fs (IMach.width (some o))) := by
  simp only [pairB, Bool.and_eq_true, Bool.not_eq_true'] at h
  refine ⟨h1, h2, rfl, ?_, widens_of h.1.2, widens_of h.2⟩
  rintro s u rfl
  simp at h

theorem dest_of {i : Inst} {w ds : Sfx} {d : Int} {du : Bool} (h1 : i.dst = some (.reg ds d du)) (h : destB w ds du = true) : Dest i w ds d du := by
  refine ⟨h1, ?_⟩
  rintro ⟨rfl, rfl, rfl⟩
  simp [destB] at h

theorem isDst_of {i : Inst} {u : Int} (h : ∀ s d, i.dst ≠ some (.reg s u d)) : isDst i u = false := by
  unfold isDst
  split
  · rename_i s d b he
    simp only [decide_eq_false_iff_not]
    rintro rfl
    exact h _ _ he
  · rfl

theorem shape_of {live : List Int} {flags : List Bool} {ps : List Prep} {n nargs : Nat} {early : Bool} {i : Inst} (h : shapeB live flags ps n nargs early i = true) :
    Shape (· ∈ live) flags ps n nargs (early = true) i := by
  obtain ⟨op, d, f, s⟩ := i
  cases op <;> simp only [shapeB] at h <;> simp only [Shape]
  case load =>
    split at h
    · simp only [Bool.and_eq_true, Bool.not_eq_true'] at h
      exact ⟨_, _, _, _, rfl, rfl, litLoads_of h.1.1, widens_of h.1.2, inFrame_of h.2⟩
    · cases h
  case addr =>
    split at h
    · cases h
    · rename_i o ho
      exact ⟨_, rfl, fun r e => ho r (by rw [e])⟩
    · cases h
  case store =>
    split at h
    · simp only [Bool.and_eq_true] at h
      exact ⟨_, rfl, litFits_of h.1, inFrame_of h.2⟩
    · cases h
  case str =>
    split at h
    · simp only [Bool.and_eq_true, Bool.not_eq_true', Bool.or_eq_true, decide_eq_true_eq, List.all_eq_true] at h
      obtain ⟨⟨⟨⟨h1, h2⟩, h3⟩, h4⟩, h5⟩ := h
      refine ⟨_, _, rfl, rfl, h1, by omega, h3, h4, ?_⟩
      intro hm
      rw [List.contains_iff_mem.2 hm] at h5
      cases h5
    · cases h
  case ldarg =>
    rw [Bool.and_eq_true] at h
    obtain ⟨he, h⟩ := h
    refine ⟨he, ?_⟩
    split at h
    · simp only [Bool.and_eq_true, Bool.not_eq_true', Bool.or_eq_true, decide_eq_true_eq] at h
      obtain ⟨⟨⟨h1, h2⟩, h3⟩, h4⟩ := h
      refine ⟨_, _, _, _, rfl, rfl, h1, h2, h3, ?_⟩
      intro h6 hm
      rcases h4 with h4 | h4
      · omega
      · rw [List.contains_iff_mem.2 hm] at h4
        cases h4
    · cases h
  case starg =>
    split at h
    · simp only [Bool.and_eq_true, decide_eq_true_eq] at h
      obtain ⟨⟨⟨h1, h2⟩, h3⟩, h4⟩ := h
      exact ⟨_, _, _, _, _, _, rfl, h1, h2, rfl, h3, rfl, litFits_of h4⟩
    · cases h
  case stret =>
    split at h
    · exact ⟨_, rfl, rfl, litLoads_of h⟩
    · cases h
  case mul =>
    split at h
    · simp only [Bool.and_eq_true, Bool.not_eq_true', decide_eq_true_eq] at h
      obtain ⟨⟨⟨⟨h1, h2⟩, h3⟩, h4⟩, h5⟩ := h
      exact ⟨_, _, _, _, _, _, _, _, pair_of rfl rfl h1, dest_of rfl h2, litFits_of h3, h4, widens_of h5⟩
    · cases h
  case add | sub | and | or | xor =>
    split at h
    · simp only [Bool.and_eq_true, Bool.or_eq_true, Bool.not_eq_true', decide_eq_true_eq] at h
      obtain ⟨⟨⟨h1, h2⟩, h3⟩, h4⟩ := h
      refine ⟨_, _, _, _, _, _, _, _, pair_of rfl rfl h1, dest_of rfl h2, litFits_of h3, h4.imp id ?_⟩
      intro h4 hm
      rw [List.contains_iff_mem.2 hm] at h4
      cases h4
    · cases h
  case div | mod =>
    split at h
    · simp only [Bool.and_eq_true, Bool.or_eq_true, Bool.not_eq_true', decide_eq_true_eq] at h
      obtain ⟨⟨⟨⟨⟨⟨h1, h2⟩, h3⟩, h4⟩, h5⟩, h6⟩, h7⟩ := h
      refine ⟨_, _, _, _, _, _, _, _, pair_of rfl rfl h1, dest_of rfl h2, litLoads_of h3, h4, widens_of h5, ?_, ?_, ?_⟩
      · intro hm hd
        rcases h6 with (h6 | h6) | h6
        · rw [List.contains_iff_mem.2 hm] at h6
          cases h6
        · exact absurd h6 hd
        · exact h6
      · rintro s l rfl
        simp only [Bool.or_eq_true, Bool.not_eq_true', decide_eq_true_eq] at h7
        refine h7.imp id ?_
        intro h7 hm
        rw [List.contains_iff_mem.2 hm] at h7
        cases h7
      · rintro s u rfl
        simp only [Bool.or_eq_true, Bool.not_eq_true', decide_eq_true_eq] at h7
        rcases h7 with (h7 | h7) | h7
        · exact absurd rfl h7
        · exact .inl h7
        · right
          intro hm
          rw [List.contains_iff_mem.2 hm] at h7
          cases h7
    · cases h
  case sal | sar =>
    split at h
    · simp only [Bool.and_eq_true, Bool.or_eq_true, Bool.not_eq_true', decide_eq_true_eq] at h
      obtain ⟨⟨⟨⟨⟨h1, h2⟩, h3⟩, h4⟩, h5⟩, h6⟩ := h
      refine ⟨_, _, _, _, _, _, _, _, _, pair_of rfl rfl h1, dest_of rfl h2, h3, h4, ?_, h6.imp id ?_⟩
      · intro he
        rcases h5 with h5 | h5
        · first | exact absurd he h5 | exact absurd rfl h5
        · exact h5
      · intro h6 hm
        rw [List.contains_iff_mem.2 hm] at h6
        cases h6
    · cases h
  case neg | not =>
    split at h
    · simp only [Bool.and_eq_true, Bool.or_eq_true, Bool.not_eq_true', decide_eq_true_eq] at h
      refine ⟨_, _, _, _, _, _, rfl, rfl, rfl, ?_, h.2.imp id ?_⟩
      · rintro ⟨rfl, rfl, rfl⟩
        simp [destB] at h
      · intro h6 hm
        rw [List.contains_iff_mem.2 hm] at h6
        cases h6
    · cases h
  case seteq | setneq | setlt | setgt | setleq | setgeq =>
    split at h
    · simp only [Bool.and_eq_true, decide_eq_true_eq] at h
      obtain ⟨⟨h1, rfl⟩, h3⟩ := h
      exact ⟨_, _, _, _, _, _, _, pair_of rfl rfl h1, rfl, litFits_of h3⟩
    · cases h
  case jmp =>
    split at h
    · exact ⟨_, rfl⟩
    · cases h
  case jeq | jneq | jgt | jgeq | jlt | jleq =>
    split at h
    · simp only [Bool.and_eq_true] at h
      exact ⟨_, _, _, _, _, _, pair_of rfl rfl h.1, rfl, litFits_of h.2⟩
    · cases h
  case call =>
    split at h
    · simp only [Bool.and_eq_true, Bool.or_eq_true, Bool.not_eq_true', decide_eq_true_eq, List.all_eq_true, List.mem_range, decide_eq_false_iff_not] at h
      obtain ⟨⟨⟨⟨⟨⟨⟨h1, h2⟩, h3⟩, h4⟩, h5⟩, h6⟩, h7⟩, h8⟩ := h
      refine ⟨_, _, _, _, _, rfl, rfl, rfl, h1, h2, h3, h4, h5, ?_, ?_, ?_⟩
      · split at h6
        · exact .inl rfl
        · simp only [decide_eq_true_eq] at h6
          exact .inr ⟨_, _, _, rfl, h6⟩
        · cases h6
      · intro u hu hd
        rcases h7 u hu with h | h
        · rw [isDst_of hd] at h
          cases h
        · exact h
      · intro a b ha hb hda hdb
        have h1 := (List.getElem?_eq_some_iff.1 ha).1
        have h2 := (List.getElem?_eq_some_iff.1 hb).1
        rcases h8 a h1 b h2 with (((h | h) | h) | h) | h
        · exact absurd ha h
        · exact absurd hb h
        · rw [isDst_of hda] at h
          cases h
        · rw [isDst_of hdb] at h
          cases h
        · exact h
    · cases h
  case prep =>
    split at h
    · simp only [decide_eq_true_eq] at h
      exact ⟨_, _, rfl, rfl, h⟩
    · cases h
  case clean =>
    split at h
    · simp only [Bool.and_eq_true, decide_eq_true_eq] at h
      exact ⟨_, _, _, _, rfl, rfl, rfl, h.1.1, h.1.2, h.2⟩
    · cases h
  case enter => cases h
  case leave => cases h

theorem shape_mono {live live' : Int → Prop} {flags : List Bool} {ps : List Prep} {n nargs : Nat} {early : Prop} {i : Inst} (hl : ∀ u, live' u → live u)
    (h : Shape live flags ps n nargs early i) : Shape live' flags ps n nargs early i := by
  obtain ⟨op, d, f, s⟩ := i
  have hn : ∀ {u}, ¬ live u → ¬ live' u := fun h h' => h (hl _ h')
  cases op <;> simp only [Shape] at h ⊢ <;> first | exact h | skip
  case str => obtain ⟨k, bs, h1, h2, h3, h4, h5, h6, h7⟩ := h; exact ⟨k, bs, h1, h2, h3, h4, h5, h6, hn h7⟩
  case ldarg => obtain ⟨h0, k, s, j, u, h1, h2, h3, h4, h5, h6⟩ := h; exact ⟨h0, k, s, j, u, h1, h2, h3, h4, h5, fun h => hn (h6 h)⟩
  case add | sub | and | or | xor =>
    obtain ⟨fs, f, fu, o, w, ds, d, du, h1, h2, h3, h4⟩ := h
    exact ⟨fs, f, fu, o, w, ds, d, du, h1, h2, h3, h4.imp id hn⟩
  case div | mod =>
    obtain ⟨fs, f, fu, o, w, ds, d, du, h1, h2, h3, h4, h5, h6, h7, h8⟩ := h
    exact ⟨fs, f, fu, o, w, ds, d, du, h1, h2, h3, h4, h5, fun h => h6 (hl _ h), fun s l e => (h7 s l e).imp id hn, fun s u e => (h8 s u e).imp id hn⟩
  case sal | sar =>
    obtain ⟨fs, f, fu, s, l, w, ds, d, du, h1, h2, h3, h4, h5, h6⟩ := h
    exact ⟨fs, f, fu, s, l, w, ds, d, du, h1, h2, h3, h4, h5, h6.imp id hn⟩
  case neg | not =>
    obtain ⟨fs, f, fu, ds, d, du, h1, h2, h3, h4, h5⟩ := h
    exact ⟨fs, f, fu, ds, d, du, h1, h2, h3, h4, h5.imp id hn⟩
  case call =>
    obtain ⟨o, s, l, p, rest, h1, h2, h3, h4, h5, h6, h7, h8, h9, h10, h11⟩ := h
    exact ⟨o, s, l, p, rest, h1, h2, h3, h4, h5, h6, h7, h8, h9, fun u hu => h10 u (hl _ hu), h11⟩

theorem reports_of {qs : List Liveseq} {k : Nat} (h : reportsB qs k = true) : Reports qs k (flagsAt qs k) := by
  intro j q hj
  simp only [reportsB, List.all_eq_true] at h
  have := h q (List.mem_of_getElem? hj)
  simp only [flagsAt, List.getElem?_map, hj, Option.map_some]
  split at this
  · rename_i q' hq
    split at this
    · rename_i b hb
      exact ⟨q', hq, b, by simp [hq, hb], hb⟩
    · cases this
  · cases this

theorem suits_of {out : List Immc} {qs : List Liveseq} {n nargs K : Nat} {C : List Line} (h : suitsB out qs n nargs K C = true) :
    Suits out qs n nargs K (flagsAt qs) (fun i => (lineAt C i).preps) (fun i => (lineAt C i).done = true) := by
  simp only [suitsB, Bool.and_eq_true, decide_eq_true_eq] at h
  obtain ⟨⟨⟨⟨⟨⟨⟨h1, h2⟩, h3⟩, h4⟩, h5⟩, h6⟩, h7⟩, h8⟩ := h
  have line : ∀ {i : Nat} {x : Immc}, out[i]? = some x → lineB out qs n nargs K C i x = true := by
    intro i x hx
    simp only [List.all_eq_true, List.mem_range] at h8
    have := h8 i (List.getElem?_eq_some_iff.1 hx).1
    rw [hx] at this
    exact this
  simp only [lineB, Bool.and_eq_true, Bool.or_eq_true, Bool.not_eq_true', decide_eq_true_eq, List.all_eq_true] at line
  have next : ∀ {i j : Nat} {x : Immc}, out[i]? = some x → Succ out i j → _ := fun hx hj => (line hx).1.1.1.2 _ (mem_succs hj)
  have hlive : ∀ {u : Int} {i : Nat}, LiveIn out u i → u ∈ (lineAt C i).live := by
    intro u i hu
    induction hu with
    | read hx hr => exact List.contains_iff_mem.1 ((line hx).1.1.1.1.1.2 _ hr).2
    | @thru i j x hx hw hj _ ih =>
      rcases (next hx hj).1.1.1.2 _ ih with h | h
      · exact absurd h hw
      · exact List.contains_iff_mem.1 h
  refine ⟨?_, ?_, h2, h3, ?_, ?_, ?_, ?_, ?_, ?_, ?_, ?_, h6, h7, ?_, ?_, ?_, ?_⟩
  · -- head
    split at h1
    · rename_i t v f s l s' l' e0 e1 e2
      simp only [Bool.and_eq_true, decide_eq_true_eq] at h1
      exact ⟨t, v, f, s, l, e0, e1, h1.1⟩
    · cases h1
  · -- last
    split at h1
    · rename_i t v f s l s' l' e0 e1 e2
      simp only [Bool.and_eq_true, decide_eq_true_eq] at h1
      exact ⟨s', l', e2, h1.2⟩
    · cases h1
  · -- noData
    intro i d hx
    have := (line hx).1.1.1.1.1.1
    cases this
  · -- labels
    intro i j l x y hx hy hl hl'
    simp only [List.all_eq_true, List.mem_range, Bool.or_eq_true, decide_eq_true_eq] at h4
    rcases h4 i (List.getElem?_eq_some_iff.1 hx).1 j (List.getElem?_eq_some_iff.1 hy).1 with h | h
    · exact h
    · rw [hx, hy] at h
      cases x with
      | label t v a =>
        cases y with
        | label t' v' b =>
          simp only [RSpec.isLabelNamed, decide_eq_true_eq] at hl hl' h
          exact absurd (hl.trans hl'.symm) h
        | _ => cases hl'
      | _ => cases hl
  · -- regs
    intro i x u hx hu
    rcases hu with hu | hu
    · exact ((line hx).1.1.1.1.1.2 _ hu).1
    · have := (line hx).1.1.1.1.2
      rw [hu] at this
      simpa using this
  · -- fresh
    intro u hu
    have := hlive hu
    rw [h5] at this
    cases this
  · -- forward
    intro i j hj
    obtain ⟨x, hx, -⟩ := id hj
    exact (next hx hj).1.1.1.1
  · -- shape
    intro i x hi hlt hx
    rcases (line hx).2 with (h | h) | h
    · omega
    · omega
    · have := shape_of h.2
      simp only [decide_eq_true_eq] at this
      refine shape_mono ?_ this
      rintro u ⟨j, hj, hu⟩
      exact List.mem_flatMap.2 ⟨j, mem_succs hj, hlive hu⟩
  · -- flags
    intro i hi hlt
    refine ⟨by simp [flagsAt, h3], ?_⟩
    obtain ⟨x, hx⟩ : ∃ x, out[i]? = some x := ⟨_, List.getElem?_eq_getElem (by omega)⟩
    rcases (line hx).2 with (h | h) | h
    · omega
    · omega
    · exact reports_of h.1
  · -- args
    intro i x hi hlt hx
    rcases (line hx).1.2 with (h | h) | h
    · omega
    · omega
    · cases x with
      | inst y =>
        obtain ⟨op, d, f, s⟩ := y
        simp only [decide_eq_true_eq] at h
        subst h
        exact ⟨d, f, s, rfl⟩
      | _ => cases h
  · -- prep
    intro i j x hi hx hj hlt
    rcases (next hx hj).1.1.2 with (h | h) | h
    · omega
    · omega
    · exact h
  · -- ret
    intro i j d f s hx hj
    have := (next hx hj).2
    simpa using this
  · -- zone
    intro i x hz hx
    rcases (line hx).1.1.2 with h | h
    · rw [hz] at h
      cases h
    · cases x with
      | label t v f => exact .inl ⟨t, v, f, rfl⟩
      | inst y =>
        obtain ⟨op, d, f, s⟩ := y
        simp only [Bool.or_eq_true, decide_eq_true_eq] at h
        rcases h with rfl | rfl
        · exact .inr (.inl ⟨d, f, s, rfl⟩)
        · exact .inr (.inr ⟨d, f, s, rfl⟩)
      | data d => cases h
  · -- zoneNext
    intro i j hz hj
    obtain ⟨x, hx, -⟩ := id hj
    rcases (next hx hj).1.2 with h | h
    · rw [hz] at h
      cases h
    · exact h

end X86
end Umlcc
