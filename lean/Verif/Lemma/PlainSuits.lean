import Verif.Lemma.PlainFunc
/-!
The allocated code of a function of the part of `Spec/Plain.lean` meets `Suits`.
-/
namespace Umlcc
namespace Plain
open RSpec (reads writes rename renameOpe opeRegs Succ LiveIn LiveOut UniqueLabels BackDead DefBefore)
open Gen
open X86 hiding load
open Flow (freeBrks freeConts)
open CStm (soundAll)

/-! ### renaming registers -/

theorem opeRegs_rename (ρ : Int → Int) (o : Option Ope) : opeRegs (renameOpe ρ o) = (opeRegs o).map ρ := by
  unfold renameOpe
  split <;> simp [opeRegs]

theorem reads_rename (ρ : Int → Int) (x : Immc) : reads (rename ρ x) = (reads x).map ρ := by
  cases x with
  | inst i =>
    obtain ⟨op, d, f, g⟩ := i
    simp only [rename, reads, opeRegs_rename, List.map_append]
    congr 1
    cases d with
    | none => rfl
    | some o => cases o <;> rfl
  | _ => rfl

theorem writes_rename (ρ : Int → Int) (x : Immc) : writes (rename ρ x) = (writes x).map ρ := by
  cases x with
  | inst i =>
    obtain ⟨op, d, f, g⟩ := i
    cases d with
    | none => rfl
    | some o => cases o <;> rfl
  | _ => rfl

theorem target_rename (ρ : Int → Int) (x : Immc) : RSpec.target (rename ρ x) = RSpec.target x := by
  cases x with
  | inst i =>
    obtain ⟨op, d, f, g⟩ := i
    cases d with
    | none => rfl
    | some o => cases o <;> rfl
  | _ => rfl

theorem named_rename (ρ : Int → Int) (m : Name) (x : Immc) : RSpec.isLabelNamed m (rename ρ x) = RSpec.isLabelNamed m x := by
  cases x <;> rfl

theorem rename_jmp {ρ : Int → Int} {x : Immc} {d f g : Option Ope} (h : x = .inst ⟨.jmp, d, f, g⟩) : rename ρ x = .inst ⟨.jmp, renameOpe ρ d, renameOpe ρ f, renameOpe ρ g⟩ := by
  rw [h]; rfl

theorem line_rename {ρ : Int → Int} {code : List Immc} {i : Nat} {y : Immc} (h : (code.map (rename ρ))[i]? = some y) : ∃ x, code[i]? = some x ∧ y = rename ρ x := by
  rw [List.getElem?_map] at h
  obtain ⟨x, hx, rfl⟩ := Option.map_eq_some_iff.1 h
  exact ⟨x, hx, rfl⟩

theorem succ_rename {ρ : Int → Int} {code : List Immc} {i j : Nat} (h : Succ (code.map (rename ρ)) i j) : Succ code i j := by
  obtain ⟨y, hy, h⟩ := h
  obtain ⟨x, hx, rfl⟩ := line_rename hy
  refine ⟨x, hx, ?_⟩
  rcases h with ⟨h1, h2⟩ | ⟨m, z, h1, h2, h3⟩
  · exact .inl ⟨h1, fun d f g e => h2 _ _ _ (rename_jmp e)⟩
  · obtain ⟨z', hz, rfl⟩ := line_rename h2
    exact .inr ⟨m, z', by rw [← h1, target_rename], hz, by rw [← h3, named_rename]⟩

theorem live_rename {ρ : Int → Int} {code : List Immc} {u : Int} {i : Nat} (h : LiveIn (code.map (rename ρ)) u i) : ∃ v, ρ v = u ∧ LiveIn code v i := by
  induction h with
  | read hx hr =>
    obtain ⟨x, hx', rfl⟩ := line_rename hx
    rw [reads_rename] at hr
    obtain ⟨v, hv, rfl⟩ := List.mem_map.1 hr
    exact ⟨v, rfl, .read hx' hv⟩
  | thru hx hw hs _ ih =>
    obtain ⟨x, hx', rfl⟩ := line_rename hx
    obtain ⟨v, rfl, hv⟩ := ih
    refine ⟨v, rfl, .thru hx' (fun e => hw ?_) (succ_rename hs) hv⟩
    rw [writes_rename, e]
    rfl

/-- a live register is read further on -/
theorem live_later {code : List Immc} {v : Int} (hb : BackDead code) {j : Nat} (h : LiveIn code v j) : ∃ (k : Nat) (y : Immc), j ≤ k ∧ code[k]? = some y ∧ v ∈ reads y := by
  induction h with
  | read hx hr => exact ⟨_, _, Nat.le_refl _, hx, hr⟩
  | @thru i j x hx hw hs hl ih =>
    obtain ⟨k, y, h1, h2, h3⟩ := ih
    have : ¬ j ≤ i := fun hji => hb i j v hs hji hl
    exact ⟨k, y, by omega, h2, h3⟩

/-- what an instruction overwrites is not live after it -/
theorem eaten_dead {code : List Immc} {ρ : Int → Int} (hb : BackDead code) (hs : Solo code)
    (hd : ∀ i u v, LiveIn code u i → LiveIn code v i → u ≠ v → ρ u ≠ ρ v) {i : Nat} {x : Immc} (hx : code[i]? = some x) {f : Int} (he : eats x = some f) :
    (∃ d, writes x = some d ∧ ρ d = ρ f) ∨ ¬ LiveOut (code.map (rename ρ)) (ρ f) i := by
  by_cases hl : LiveOut (code.map (rename ρ)) (ρ f) i
  · obtain ⟨j, h1, h2⟩ := hl
    obtain ⟨v, e, hv⟩ := live_rename h2
    have h1 := succ_rename h1
    by_cases hw : writes x = some v
    · exact .inl ⟨v, hw, e⟩
    · have hv' : LiveIn code v i := .thru hx hw h1 hv
      have hf : LiveIn code f i := .read hx (eats_reads he)
      have hvf : v = f := Decidable.byContradiction fun hne => hd i v f hv' hf hne e
      subst hvf
      have hji : ¬ j ≤ i := fun hji => hb i j v h1 hji hv
      obtain ⟨k, y, h3, h4, h5⟩ := live_later hb hv
      obtain ⟨hk, hk'⟩ := List.getElem?_eq_some_iff.1 h4
      obtain ⟨hi, hi'⟩ := List.getElem?_eq_some_iff.1 hx
      have := List.pairwise_iff_getElem.1 hs i k hi hk (by omega) v (hi' ▸ he)
      exact absurd (hk' ▸ h5) this
  · exact .inr hl

theorem litFits_rename {ρ : Int → Int} {w : Sfx} {o o' : Ope} (h : renameOpe ρ (some o) = some o') (hl : LitFits w o) : LitFits w o' := by
  cases o <;> cases h <;> first | trivial | exact hl

theorem litLoads_rename {ρ : Int → Int} {w : Sfx} {o o' : Ope} (h : renameOpe ρ (some o) = some o') (hl : LitLoads w o) : LitLoads w o' := by
  cases o <;> cases h <;> first | trivial | exact hl

theorem widens_rename {ρ : Int → Int} {u : Bool} {w : Sfx} {o o' : Ope} (h : renameOpe ρ (some o) = some o') (hl : ¬ Widens u o w) : ¬ Widens u o' w := by
  rintro ⟨rfl, id, rfl⟩
  cases o <;> cases h
  exact hl ⟨rfl, _, rfl⟩

theorem width_rename {ρ : Int → Int} {o : Option Ope} : IMach.width (renameOpe ρ o) = IMach.width o := by
  cases o with
  | none => rfl
  | some o => cases o <;> rfl

theorem rename_some (ρ : Int → Int) (o : Ope) : ∃ o', renameOpe ρ (some o) = some o' := by
  cases o <;> exact ⟨_, rfl⟩

theorem inFrame_rename {ρ : Int → Int} {n s : Nat} {o : Option Ope} (h : InFrame n s o) : InFrame n s (renameOpe ρ o) := by
  intro k hk
  refine h k ?_
  cases o with
  | none => cases hk
  | some o => cases o <;> cases hk; rfl

theorem pair_rename {ρ : Int → Int} {i : Inst} {fs : Sfx} {f : Int} {fu : Bool} {o : Ope} {w : Sfx} (h : Pair i fs f fu o w)
    (hd : ∀ u ∈ reads (.inst i), ∀ v ∈ reads (.inst i), u ≠ v → ρ u ≠ ρ v) {o' : Ope} (ho : renameOpe ρ (some o) = some o') :
    Pair ⟨i.op, renameOpe ρ i.dst, renameOpe ρ i.fst, renameOpe ρ i.snd⟩ fs (ρ f) fu o' w := by
  obtain ⟨h1, h2, h3, h4, h5, h6⟩ := h
  refine ⟨by simp [h1, renameOpe], by simp [h2, ho], by rw [h3, ← ho, width_rename], ?_, widens_rename (ρ := ρ) rfl h5, widens_rename ho h6⟩
  rintro s u rfl
  cases o <;> try cases ho
  rename_i q g b
  have hg : g ≠ f := fun e => h4 q b (by rw [e])
  simp only [renameOpe, Option.some.injEq, Ope.reg.injEq] at ho
  refine hd g ?_ f ?_ hg ho.2.1
  · simp [reads, h2, opeRegs]
  · simp [reads, h1, opeRegs]

theorem dest_rename {ρ : Int → Int} {i : Inst} {w ds : Sfx} {d : Int} {du : Bool} (h : Dest i w ds d du) :
    Dest ⟨i.op, renameOpe ρ i.dst, renameOpe ρ i.fst, renameOpe ρ i.snd⟩ w ds (ρ d) du :=
  ⟨by simp [h.dst, renameOpe], h.wide⟩

/-- the shape of a renamed instruction -/
theorem shape_rename {ρ : Int → Int} {live : Int → Prop} {flags : List Bool} {ps : List Prep} {n nargs : Nat} {early : Prop} {i : Inst} (ha : allowed i.op = true)
    (h : Shape (· ∈ []) [] [] n 0 (false = true) i) (hd : ∀ u ∈ reads (.inst i), ∀ v ∈ reads (.inst i), u ≠ v → ρ u ≠ ρ v)
    (he : ∀ f, eats (.inst i) = some f → (∃ d, writes (.inst i) = some d ∧ ρ d = ρ f) ∨ ¬ live (ρ f)) :
    Shape live flags ps n nargs early ⟨i.op, renameOpe ρ i.dst, renameOpe ρ i.fst, renameOpe ρ i.snd⟩ := by
  obtain ⟨op, d, f, g⟩ := i
  have swallow : ∀ {fs f' fu ds d' du}, swallows op = true → f = some (.reg fs f' fu) → d = some (.reg ds d' du) → ρ f' = ρ d' ∨ ¬ live (ρ f') := by
    rintro fs f' fu ds d' du hw rfl rfl
    by_cases hfd : d' = f'
    · exact .inl (by rw [hfd])
    · have := he f' (by simp [eats, hw, isReg, hfd])
      rcases this with ⟨d, h1, h2⟩ | h1
      · cases h1
        exact .inl h2.symm
      · exact .inr h1
  cases op <;> first | exact (Bool.false_ne_true ha).elim | skip
  all_goals simp only [Shape] at h ⊢
  case load =>
    obtain ⟨ds, d', du, o, rfl, rfl, h1, h2, h3⟩ := h
    obtain ⟨o', ho⟩ := rename_some ρ o
    exact ⟨ds, ρ d', du, o', rfl, ho, litLoads_rename ho h1, widens_rename ho h2, ho ▸ inFrame_rename h3⟩
  case addr =>
    obtain ⟨o, rfl, h1⟩ := h
    obtain ⟨o', ho⟩ := rename_some ρ o
    refine ⟨o', ho, ?_⟩
    rintro r rfl
    cases o <;> cases ho
    exact h1 _ rfl
  case store =>
    obtain ⟨o, rfl, h1, h2⟩ := h
    obtain ⟨o', ho⟩ := rename_some ρ o
    refine ⟨o', ho, ?_, ?_⟩
    · rw [← ho, width_rename]
      exact litFits_rename ho h1
    · rw [← ho, width_rename]
      exact inFrame_rename h2
  case mul =>
    obtain ⟨fs, f', fu, o, w, ds, d', du, h1, h2, h3, h4, h5⟩ := h
    obtain ⟨o', ho⟩ := rename_some ρ o
    exact ⟨fs, ρ f', fu, o', w, ds, ρ d', du, pair_rename h1 hd ho, dest_rename h2, litFits_rename ho h3, h4, widens_rename ho h5⟩
  case add | sub | and | or | xor =>
    obtain ⟨fs, f', fu, o, w, ds, d', du, h1, h2, h3, h4⟩ := h
    obtain ⟨o', ho⟩ := rename_some ρ o
    exact ⟨fs, ρ f', fu, o', w, ds, ρ d', du, pair_rename h1 hd ho, dest_rename h2, litFits_rename ho h3, swallow rfl h1.fst h2.dst⟩
  case sal | sar =>
    obtain ⟨fs, f', fu, s, l, w, ds, d', du, h1, h2, h3, h4, h5, h6⟩ := h
    exact ⟨fs, ρ f', fu, s, l, w, ds, ρ d', du, pair_rename h1 hd rfl, dest_rename h2, h3, h4, h5, swallow rfl h1.fst h2.dst⟩
  case neg | not =>
    obtain ⟨fs, f', fu, ds, d', du, rfl, rfl, rfl, h1, h2⟩ := h
    exact ⟨fs, ρ f', fu, ds, ρ d', du, rfl, rfl, rfl, h1, swallow rfl rfl rfl⟩
  case jmp =>
    obtain ⟨l, rfl⟩ := h
    exact ⟨l, rfl⟩
  case jeq | jneq | jgt | jgeq | jlt | jleq =>
    obtain ⟨fs, f', fu, o, w, l, h1, rfl, h2⟩ := h
    obtain ⟨o', ho⟩ := rename_some ρ o
    exact ⟨fs, ρ f', fu, o', w, l, pair_rename h1 hd ho, rfl, litFits_rename ho h2⟩

/-! ### the flags of the registers -/

theorem next_total (q : Liveseq) : ∃ q', q.next = .ok q' := by
  unfold Liveseq.next
  dsimp only
  repeat' split
  all_goals first
    | exact ⟨_, rfl⟩
    | (rename_i h; simp only [List.getElem?_eq_none_iff] at h; omega)

theorem nextN_total (q : Liveseq) : ∀ n, ∃ q', q.nextN n = .ok q'
  | 0 => ⟨_, rfl⟩
  | n + 1 => by
    obtain ⟨q', h⟩ := nextN_total q n
    obtain ⟨q'', h2⟩ := next_total q'
    exact ⟨q'', by simp [Liveseq.nextN, h, h2]⟩

theorem isAlive_total (q : Liveseq) : ∃ b, q.isAlive = .ok b := by
  unfold Liveseq.isAlive
  dsimp only
  repeat' split
  all_goals first
    | exact ⟨_, rfl⟩
    | (rename_i h; simp only [List.getElem?_eq_none_iff] at h; omega)

theorem reports_total (qs : List Liveseq) (k : Nat) : Reports qs k (flagsAt qs k) := by
  refine reports_of ?_
  simp only [reportsB, List.all_eq_true]
  intro q _
  obtain ⟨q', h⟩ := nextN_total q k
  obtain ⟨b, h2⟩ := isAlive_total q'
  rw [h]
  dsimp only
  rw [h2]

/-! ### allocation -/

/-- as C38, and the destinations have physical registers too -/
theorem alloc_facts {code out : List Immc} {o nregs fuel : Nat} {qs qs' : List Liveseq} (h : Regalloc.allocFunction code o nregs qs fuel = .ok (out, qs'))
    (hlast : ∀ x, code.getLast? = some x → x.isLabel = false) (hu : UniqueLabels code) (hr : BackDead code) (hdef : DefBefore code) :
    ∃ ρ : Int → Int, out = code.map (rename ρ) ∧ (∀ i u, LiveIn code u i → 0 ≤ ρ u ∧ ρ u < nregs ∧ ∀ v, LiveIn code v i → u ≠ v → ρ u ≠ ρ v) ∧
      ∀ (i : Nat) x v, code[i]? = some x → writes x = some v → 0 ≤ v → 0 ≤ ρ v ∧ ρ v < nregs := by
  obtain ⟨g, lv, al, h1, h2, h3, h4, h5⟩ := Regalloc.allocFunction_parts h
  have hf := Regalloc.controlFlow_flow hlast h1
  obtain ⟨hj, _⟩ := Regalloc.intervals hf h2
  obtain ⟨st, ha⟩ := Regalloc.allocate_spec hj.mono h3
  have cover : ∀ i u, LiveIn code u i → 0 ≤ u ∧ ∃ l r, lv[u.toNat]? = some l ∧ al[u.toNat]? = some (some r) ∧ r < nregs ∧ l.first < o + i ∧ o + i ≤ l.last := by
    intro i u hl
    have hreach : Regalloc.Reaches lv u (o + i) := by
      cases hl with
      | read hx hrd => exact hj.used i _ u hx hrd
      | thru hx hw hs hl' =>
        obtain ⟨a, l, b, c⟩ := Regalloc.liveOut_reaches hf h2 hu (.inr hr) hs hl'
        exact ⟨a, l, b, by omega⟩
    obtain ⟨h0, l, hl1, hl2⟩ := hreach
    obtain ⟨k, x, hk, hx, hw⟩ := hdef i u hl
    obtain ⟨l', hl3, hl4⟩ := hj.defd k x u hx hw h0
    rw [hl1] at hl3; simp at hl3; subst hl3
    obtain ⟨r, hr'⟩ := Regalloc.all_allocated ha.allen h5 u.toNat (List.getElem?_eq_some_iff.1 hl1).1
    exact ⟨h0, l, r, hl1, hr', ha.bound _ _ hr', by omega, by omega⟩
  refine ⟨Regalloc.phys al, Regalloc.genAllocated_rename h4, ?_, ?_⟩
  · intro i u hl
    obtain ⟨hu0, l, r, a1, a2, a3, a4, a5⟩ := cover i u hl
    have hp : Regalloc.phys al u = r := by simp [Regalloc.phys, a2]
    refine ⟨by omega, by omega, ?_⟩
    intro v hlv huv
    obtain ⟨hv0, l', s, b1, b2, b3, b4, b5⟩ := cover i v hlv
    have hq : Regalloc.phys al v = s := by simp [Regalloc.phys, b2]
    have hne : u.toNat ≠ v.toNat := by intro e; apply huv; omega
    rw [hp, hq]
    intro e
    have e' : r = s := by omega
    rcases Nat.lt_or_gt_of_ne hne with hlt | hgt
    · exact Regalloc.overlap_ne ha a2 b2 a1 b1 hlt (by omega) e'
    · exact Regalloc.overlap_ne ha b2 a2 b1 a1 hgt (by omega) e'.symm
  · intro i x v hx hw h0
    obtain ⟨l, hl, -⟩ := hj.defd i x v hx hw h0
    obtain ⟨r, hr'⟩ := Regalloc.all_allocated ha.allen h5 v.toNat (List.getElem?_eq_some_iff.1 hl).1
    have := ha.bound _ _ hr'
    have hp : Regalloc.phys al v = r := by simp [Regalloc.phys, hr']
    omega

/-- the return value has been set -/
def Done (code : List Immc) (i : Nat) : Prop := (∃ (j : Nat) (d f g : Option Ope), i = j + 1 ∧ code[j]? = some (.inst ⟨.stret, d, f, g⟩)) ∨ code.length ≤ i + 2

theorem prepAfter_rename (ρ : Int → Int) (x : Immc) (ps : List Prep) : prepAfter (rename ρ x) ps = prepAfter x ps := by
  cases x with
  | inst y =>
    obtain ⟨op, d, f, g⟩ := y
    cases f with
    | none => cases op <;> cases ps <;> rfl
    | some o => cases o <;> cases op <;> cases ps <;> rfl
  | _ => rfl

/-- a renamed instruction of a call -/
theorem part_rename {ρ : Int → Int} {live : Int → Prop} {flags : List Bool} {ps : List Prep} {n nargs : Nat} {early : Prop} {i : Inst} (h : Part n ps (.inst i))
    (hd : ∀ u ∈ reads (.inst i), ∀ v ∈ reads (.inst i), u ≠ v → ρ u ≠ ρ v) (hl : cuts i.op = true → ∀ u, live u → ∃ v, writes (.inst i) = some v ∧ ρ v = u)
    (hf : i.op = .call → ∀ r : Nat, flags[r]? = some true → ∃ s d, renameOpe ρ i.dst = some (.reg s r d)) :
    Shape live flags ps n nargs early ⟨i.op, renameOpe ρ i.dst, renameOpe ρ i.fst, renameOpe ρ i.snd⟩ := by
  obtain ⟨op, d, f, g⟩ := i
  obtain ⟨i', e, hc, h⟩ := h
  cases e
  cases op <;> first | exact (Bool.false_ne_true hc).elim | skip
  all_goals simp only [Shape] at h ⊢
  case starg =>
    obtain ⟨p, rest, j, s, u, o, h1, h2, h3, rfl, h5, rfl, h7⟩ := h
    obtain ⟨o', ho⟩ := rename_some ρ o
    exact ⟨p, rest, j, s, u, o', h1, h2, h3, rfl, h5, ho, litFits_rename ho h7⟩
  case prep =>
    obtain ⟨s, l, rfl, rfl, h⟩ := h
    exact ⟨s, l, rfl, rfl, h⟩
  case clean =>
    obtain ⟨s, l, p, rest, rfl, rfl, h⟩ := h
    exact ⟨s, l, p, rest, rfl, rfl, h⟩
  case div | mod =>
    obtain ⟨fs, f', fu, o, w, ds, d', du, h1, h2, h3, h4, h5, -⟩ := h
    obtain ⟨o', ho⟩ := rename_some ρ o
    have only : ∀ u, live u → u = ρ d' := by
      intro u hu
      obtain ⟨v, hw, rfl⟩ := hl rfl u hu
      have := h2.dst
      dsimp only at this
      subst this
      cases hw; rfl
    refine ⟨fs, ρ f', fu, o', w, ds, ρ d', du, pair_rename h1 hd ho, dest_rename h2, litLoads_rename ho h3, h4, widens_rename ho h5, ?_, ?_, ?_⟩
    · intro h1 h2
      exact absurd (only 1 h1).symm h2
    · intro _ _ _
      by_cases h6 : live 6
      · exact .inl (only 6 h6).symm
      · exact .inr h6
    · intro _ _ _
      by_cases hf : live (ρ f')
      · exact .inl (only _ hf)
      · exact .inr hf
  case str =>
    obtain ⟨k, bs, rfl, rfl, h1, h2, h3, h4, -⟩ := h
    refine ⟨k, bs, rfl, rfl, h1, h2, h3, h4, fun h6 => ?_⟩
    obtain ⟨v, hw, -⟩ := hl rfl 6 h6
    cases hw
  case call =>
    obtain ⟨o, s, l, p, rest, rfl, rfl, h1, h2, h3, h4, h5, h6, h7, -, -⟩ := h
    obtain ⟨o', ho⟩ := rename_some ρ o
    refine ⟨o', s, l, p, rest, ho, rfl, h1, h2, h3, h4, h5, h6, ?_, ?_, ?_⟩
    · rcases h7 with rfl | ⟨ds, d', du, rfl, h7⟩
      · exact .inl rfl
      · exact .inr ⟨ds, ρ d', du, rfl, h7⟩
    · intro u hu hn
      obtain ⟨v, hw, rfl⟩ := hl rfl u hu
      cases d with
      | none => cases hw
      | some q =>
        cases q <;> cases hw
        exact absurd rfl (hn _ _)
    · intro a b ha hb hna _
      obtain ⟨s, d', e⟩ := hf rfl a ha
      exact absurd e (hna s d')

theorem split_line {α : Type} {l : List α} {i : Nat} {x : α} (h : l[i]? = some x) : l = l.take i ++ x :: l.drop (i + 1) := by
  obtain ⟨hi, rfl⟩ := List.getElem?_eq_some_iff.1 h
  rw [List.getElem_cons_drop, List.take_append_drop]

theorem take_line {α : Type} {l : List α} {i : Nat} {x : α} (h : l[i]? = some x) : l.take (i + 1) = l.take i ++ [x] := by
  rw [List.take_add_one, h]; rfl

theorem suits_plain {N : Option Nat} {f : Str} {ps : Params} {rt : DType} {b : SItems} {s s' : GState} {code out : List Immc} {off fuel : Nat} {qs qs' qx : List Liveseq}
    (h : funcCode f (.func ps rt) b s = .ok ((), code, s')) (hal : Regalloc.allocFunction code off 8 qs fuel = .ok (out, qs')) (hp : plainBody N ps b = true)
    (hs : soundAll b = true) (hc : freeConts b = false) (hb : freeBrks b = false) (hn : f.head? ≠ some 46) (hl : -1 ≤ s.lab)
    (hg : ∀ sc ∈ s.syms, ∀ p ∈ sc, p.2.loc = .label) (htg : smallTags s.tags = true) (hq : qx.length = 8)
    (hcalls : N = none ∨ ∀ (i : Nat) x, out[i]? = some (.inst x) → x.op = .call → ∀ r : Nat, (flagsAt qx i)[r]? = some true → ∃ s d, x.dst = some (.reg s r d)) :
    Suits out qx (frameOf out) (CStm.paramCount ps) (CStm.paramCount ps) (flagsAt qx) (fun i => scan [] (code.take i)) (Done code) ∧ ∀ i, heldAll (scan [] (code.take i)) ≤ bound N := by
  obtain ⟨Λ, ty⟩ := Live.funcCode_live h hs hc hb hl hn
  have hu := (C32_labels f _ b s s' code h hc hb hn hl).1
  have hbd := Live.Typ.backDead ty hu
  have hdb := Live.Typ.defBefore ty
  obtain ⟨nm, is, -, -, -, -, huse, -⟩ := funcCode_labels h hc hb
  obtain ⟨n, u⟩ := func_use h hp hg htg hn
  obtain ⟨ρ, rfl, hreg, hdst⟩ := alloc_facts hal (funcCode_last h) hu hbd hdb
  have hlen : (code.map (rename ρ)).length = code.length := List.length_map ..
  have hlong := u.long
  -- lines
  have line0 : ∃ v f, (code.map (rename ρ))[0]? = some (.label .function v f) := by
    obtain ⟨v, f, h, -⟩ := u.first
    exact ⟨v, f, by rw [List.getElem?_map, h]; rfl⟩
  have line1 : (code.map (rename ρ))[1]? = some (.inst ⟨.enter, none, some (.int .quad ⟨.int, n⟩), none⟩) := by
    rw [List.getElem?_map, u.second]; rfl
  have hframe : frameOf (code.map (rename ρ)) = n := by
    obtain ⟨v, f, h0⟩ := line0
    generalize code.map (rename ρ) = out at h0 line1
    match out, h0, line1 with
    | _ :: _ :: _, h0, h1 =>
      cases h0; cases h1
      simp [frameOf]
  rw [hframe]
  have quiet : ∀ (i : Nat) x, i < CStm.paramCount ps + 2 → code[i]? = some x → ∀ v, ¬ Touch x v := by
    intro i x hi hx v
    rcases i with _ | _ | i
    · obtain ⟨v', f, h, -⟩ := u.first
      rw [h] at hx; cases hx
      rintro (h | h) <;> cases h
    · rw [u.second] at hx; cases hx
      exact touch_frame
    · obtain ⟨k, q, h, -⟩ := u.args i (by omega)
      rw [h] at hx; cases hx
      exact touch_ldarg
  have fresh : ∀ {w : Int} {i : Nat}, i ≤ CStm.paramCount ps + 2 → ¬ LiveIn (code.map (rename ρ)) w i := by
    intro w i hi hw
    obtain ⟨v, -, hv⟩ := live_rename hw
    obtain ⟨k, x, h1, h2, h3⟩ := hdb i v hv
    exact quiet k x (by omega) h2 v (.inr h3)
  have spotAt : ∀ (i : Nat) x, CStm.paramCount ps + 2 ≤ i → i + 1 < code.length → code[i]? = some x → ∃ lo hi, Spot N n lo hi (code.take i) x (code.drop (i + 1)) := by
    intro i x h1 h2 hx
    refine u.spot _ _ _ (split_line hx) ?_ ?_
    · rw [List.length_take]; omega
    · intro e
      have := congrArg List.length e
      rw [List.length_drop, List.length_nil] at this
      omega
  have after : ∀ (i : Nat) x, code[i]? = some x → scan [] (code.take (i + 1)) = prepAfter x (scan [] (code.take i)) := by
    intro i x hx
    rw [take_line hx, scan_append]; rfl
  -- no call is in preparation at labels
  have atLabel : ∀ (j : Nat) x, code[j]? = some x → x.isLabel = true → scan [] (code.take j) = [] := by
    intro j x hx hlx
    rcases Nat.lt_or_ge j (CStm.paramCount ps + 2) with hj | hj
    · exact u.pre j (by omega)
    · have hlt := (List.getElem?_eq_some_iff.1 hx).1
      rcases Nat.lt_or_ge (j + 1) code.length with hl | hl
      · obtain ⟨_, _, sp⟩ := spotAt j x hj hl hx
        exact sp.plain (.inr hlx)
      · rw [show j = code.length - 1 by omega, u.last] at hx
        cases hx; cases hlx
  have ends : scan [] (code.take (code.length - 1)) = [] := by
    have := after _ _ u.fin
    rw [atLabel _ _ u.fin rfl, show code.length - 2 + 1 = code.length - 1 by omega] at this
    exact this
  have whole : scan [] code = [] := by
    have := after _ _ u.last
    rw [ends, show code.length - 1 + 1 = code.length by omega, List.take_length] at this
    exact this
  have held : ∀ i, heldAll (scan [] (code.take i)) ≤ bound N := by
    intro i
    rcases Nat.lt_or_ge i (CStm.paramCount ps + 2) with hi | hi
    · rw [u.pre i (by omega)]; exact Nat.zero_le _
    · rcases Nat.lt_or_ge (i + 1) code.length with hl | hl
      · obtain ⟨_, _, sp⟩ := spotAt i code[i] hi hl (List.getElem?_eq_some_iff.2 ⟨by omega, rfl⟩)
        exact sp.held
      · rcases Nat.lt_or_ge i code.length with hl' | hl'
        · rw [show i = code.length - 1 by omega, ends]; exact Nat.zero_le _
        · rw [List.take_of_length_le hl', whole]; exact Nat.zero_le _
  refine ⟨⟨?_, ?_, by omega, hq, ?_, ?_, ?_, fun w => fresh (by omega), ?_, ?_, ?_, ?_, u.pre 2 (by omega), by rw [hlen]; exact ends, ?_, ?_, ?_, ?_⟩, held⟩
  · -- head
    obtain ⟨v, f, h0⟩ := line0
    exact ⟨_, v, f, _, _, h0, line1, rfl⟩
  · -- last
    refine ⟨.quad, ⟨.int, n⟩, ?_, rfl⟩
    rw [hlen, List.getElem?_map, u.last]; rfl
  · -- noData
    intro i d hx
    obtain ⟨x, hx, e⟩ := line_rename hx
    have hx' : x = .data d := by cases x <;> cases e; rfl
    subst hx'
    rcases Nat.lt_or_ge i (CStm.paramCount ps + 2) with hi | hi
    · rcases i with _ | _ | i
      · obtain ⟨v', f, h, -⟩ := u.first
        rw [h] at hx; cases hx
      · rw [u.second] at hx; cases hx
      · obtain ⟨k, q, h, -⟩ := u.args i (by omega)
        rw [h] at hx; cases hx
    · rcases Nat.lt_or_ge (i + 1) code.length with hl | hl
      · obtain ⟨_, _, sp⟩ := spotAt i _ hi hl hx
        rcases sp.shape with h | ⟨-, _, h, -⟩ <;> cases h
      · have hlt := (List.getElem?_eq_some_iff.1 hx).1
        rw [show i = code.length - 1 by omega, u.last] at hx
        cases hx
  · -- labels
    intro i j m x y hx hy h1 h2
    obtain ⟨x', hcx, rfl⟩ := line_rename hx
    replace hx := hcx
    obtain ⟨y', hcy, rfl⟩ := line_rename hy
    replace hy := hcy
    rw [named_rename] at h1 h2
    exact hu i j m x' y' hx hy h1 h2
  · -- regs
    intro i x w hx hw
    obtain ⟨x, hcx, rfl⟩ := line_rename hx
    replace hx := hcx
    rw [reads_rename, writes_rename] at hw
    rcases hw with hw | hw
    · obtain ⟨v, hv, rfl⟩ := List.mem_map.1 hw
      have := hreg i v (.read hx hv)
      exact ⟨this.1, this.2.1⟩
    · obtain ⟨v, hv, rfl⟩ := Option.map_eq_some_iff.1 hw
      exact hdst i x v hx hv (u.regs x (List.mem_of_getElem? hx) v (.inr hv))
  · -- forward
    intro i j hij
    obtain ⟨x, hx, hij⟩ := succ_rename hij
    rcases hij with ⟨h1, -⟩ | ⟨m, y, h1, h2, h3⟩
    · exact .inl h1
    · right
      obtain ⟨k, -, rfl⟩ := huse m (List.mem_filterMap.2 ⟨x, List.mem_of_getElem? hx, h1⟩)
      rcases j with _ | _ | j
      · obtain ⟨v, f, h, hf⟩ := u.first
        rw [h] at h2; cases h2
        simp only [RSpec.isLabelNamed, decide_eq_true_eq] at h3
        subst h3
        exact absurd rfl hf
      · rw [u.second] at h2; cases h2
        cases h3
      · omega
  · -- shape
    intro i x hi hl hx
    rw [hlen] at hl
    obtain ⟨x', hcx, e⟩ := line_rename hx
    replace hx := hcx
    clear hcx
    rcases Nat.lt_or_ge i (CStm.paramCount ps + 2) with hk | hk
    · obtain ⟨j, rfl⟩ : ∃ j, i = j + 2 := ⟨i - 2, by omega⟩
      obtain ⟨k, q, h, h1, h2⟩ := u.args j (by omega)
      rw [h] at hx; cases hx
      cases e
      refine ⟨hk, k, q, j, false, rfl, rfl, h1, h2, by omega, fun _ hw => ?_⟩
      obtain ⟨j', hs, hw⟩ := hw
      have hs := succ_rename hs
      obtain ⟨y, hy, hs⟩ := hs
      rw [h] at hy; cases hy
      rcases hs with ⟨rfl, -⟩ | ⟨m, y, h1, -⟩
      · exact fresh (by omega) hw
      · cases h1
    · obtain ⟨lo, hi', sp⟩ := spotAt i x' hk hl hx
      cases x' with
      | label => cases e
      | data => cases e
      | inst y =>
        cases e
        have live : ∀ w ∈ reads (.inst y), LiveIn code w i := fun w hw => .read hx hw
        rcases sp.shape with ok | ⟨hN, ok⟩
        rotate_left
        · refine part_rename ok (fun w hw v hv => (hreg i w (live w hw)).2.2 v (live v hv)) ?_ ?_
          · intro hcall w hw
            obtain ⟨m, -, -, m1, m3, m4⟩ := sp.cut y rfl hcall
            obtain ⟨j, hs, hw⟩ := hw
            obtain ⟨v, rfl, hv⟩ := live_rename hw
            obtain ⟨z, hz, hs⟩ := succ_rename hs
            rw [hx] at hz; cases hz
            have hj : j = i + 1 := by
              rcases hs with ⟨h, -⟩ | ⟨m, y', h1, -⟩
              · exact h
              · obtain ⟨op, d, f, g⟩ := y
                obtain ⟨_, e, -, hsh⟩ := ok
                cases e
                cases op <;> first | exact (Bool.false_ne_true hcall).elim | skip
                case call =>
                  obtain ⟨_, _, _, _, _, -, -, -, -, -, -, -, -, h7, -⟩ := hsh
                  rcases h7 with rfl | ⟨_, _, _, rfl, -⟩ <;> cases h1
                case str =>
                  obtain ⟨_, _, h7, -⟩ := hsh
                  cases h7
                  cases h1
                all_goals
                  obtain ⟨_, _, _, _, _, _, _, _, -, h7, -⟩ := hsh
                  have h7 := h7.dst
                  dsimp only at h7
                  subst h7
                  cases h1
            subst hj
            obtain ⟨k, y', k1, k2, k3⟩ := live_later hbd hv
            have hgt : m < v := by
              refine m4 y' ?_ v k3
              refine List.mem_of_getElem? (i := k - (i + 1)) ?_
              rw [List.getElem?_drop, show i + 1 + (k - (i + 1)) = k by omega]
              exact k2
            obtain ⟨k, y', k1, k2, k3⟩ := hdb _ v hv
            refine ⟨v, ?_, rfl⟩
            rcases Nat.lt_or_ge k i with hki | hki
            · rcases m1 y' (List.mem_of_getElem? (i := k) (by rw [List.getElem?_take_of_lt hki]; exact k2)) v (.inr k3) with h | h
              · omega
              · exact h.2
            · rw [show k = i by omega, hx] at k2
              cases k2
              exact k3
          · intro hcall r hr
            rcases hcalls with h | h
            · exact absurd h hN
            · exact h i ⟨y.op, renameOpe ρ y.dst, renameOpe ρ y.fst, renameOpe ρ y.snd⟩ (by rw [List.getElem?_map, hx]; rfl) hcall r hr
        simp only [okS, Bool.or_eq_true] at ok
        rcases ok with ok | ok
        · simp only [okX, Bool.and_eq_true] at ok
          exact shape_rename ok.1 (shape_of ok.2) (fun w hw v hv => (hreg i w (live w hw)).2.2 v (live v hv))
            fun g hg => eaten_dead hbd u.solo (fun i w v hw hv => (hreg i w hw).2.2 v hv) hx hg
        · unfold sets at ok
          split at ok
          · rename_i o e
            cases e
            obtain ⟨o', ho⟩ := rename_some ρ o
            refine ⟨o', rfl, ho, ?_⟩
            rw [← ho, width_rename]
            exact litLoads_rename ho (litLoads_of ok)
          · cases ok
  · -- flags
    intro i _ _
    exact ⟨by simp [flagsAt, hq], reports_total qx i⟩
  · -- args
    intro i x hi hk hx
    obtain ⟨x, hcx, rfl⟩ := line_rename hx
    replace hx := hcx
    obtain ⟨j, rfl⟩ : ∃ j, i = j + 2 := ⟨i - 2, by omega⟩
    obtain ⟨k, q, h, -⟩ := u.args j (by omega)
    rw [h] at hx; cases hx
    exact ⟨_, _, _, rfl⟩
  · -- prep
    intro i j x hi hx hs hj
    obtain ⟨x, hcx, rfl⟩ := line_rename hx
    replace hx := hcx
    rw [hlen] at hj
    show scan [] (code.take j) = prepAfter (rename ρ x) (scan [] (code.take i))
    rw [prepAfter_rename]
    obtain ⟨z, hz, hs⟩ := succ_rename hs
    rw [hx] at hz; cases hz
    rcases hs with ⟨rfl, -⟩ | ⟨m, y, h1, h2, h3⟩
    · exact after i x hx
    · rw [atLabel j y h2 (by cases y <;> first | rfl | cases h3)]
      rcases Nat.lt_or_ge i (CStm.paramCount ps + 2) with hk | hk
      · obtain ⟨k, rfl⟩ : ∃ k, i = k + 2 := ⟨i - 2, by omega⟩
        obtain ⟨k', q, h, -⟩ := u.args k (by omega)
        rw [h] at hx; cases hx
        cases h1
      · have hlt := (List.getElem?_eq_some_iff.1 hx).1
        rcases Nat.lt_or_ge (i + 1) code.length with hl | hl
        · obtain ⟨_, _, sp⟩ := spotAt i x hk hl hx
          have e := sp.plain (.inl (by rw [h1]; simp))
          rw [e]
          rcases sp.shape with ok | ⟨-, ⟨op, d, f, g⟩, rfl, hc, sh⟩
          · exact (prepAfter_okS ok []).symm
          · cases op <;> first | exact (Bool.false_ne_true hc).elim | skip
            case prep =>
              obtain ⟨_, _, hd, -⟩ := sh
              cases hd
              cases h1
            all_goals rfl
        · rw [show i = code.length - 1 by omega, u.last] at hx
          cases hx
          cases h1
  · -- ret
    intro i j d f g hx hs
    obtain ⟨x, hx, e⟩ := line_rename hx
    obtain ⟨d', f', g', rfl⟩ : ∃ d f g, x = .inst ⟨.stret, d, f, g⟩ := by
      cases x with
      | inst y =>
        obtain ⟨op, d, f, g⟩ := y
        cases e
        exact ⟨_, _, _, rfl⟩
      | _ => cases e
    obtain ⟨x, hx', hs⟩ := succ_rename hs
    rw [hx] at hx'; cases hx'
    rcases hs with ⟨rfl, -⟩ | ⟨m, y, h1, -⟩
    · exact .inl ⟨i, _, _, _, rfl, hx⟩
    · cases d' with
      | none => cases h1
      | some o => cases o <;> cases h1
  · -- zone
    intro i x hz hx
    obtain ⟨x, hcx, rfl⟩ := line_rename hx
    replace hx := hcx
    rcases hz with ⟨j, d, f, g, rfl, hj⟩ | hz
    · rw [u.rets j d f g hj] at hx; cases hx
      exact .inr (.inl ⟨_, _, _, rfl⟩)
    · have hlt := (List.getElem?_eq_some_iff.1 hx).1
      obtain hi | hi : i = code.length - 2 ∨ i = code.length - 1 := by omega
      · rw [hi, u.fin] at hx; cases hx
        exact .inl ⟨_, _, _, rfl⟩
      · rw [hi, u.last] at hx; cases hx
        exact .inr (.inr ⟨_, _, _, rfl⟩)
  · -- zoneNext
    intro i j hz hs
    have hs := succ_rename hs
    obtain ⟨x, hx, hs⟩ := hs
    rcases hz with ⟨k, d, f, g, rfl, hj⟩ | hz
    · rw [u.rets k d f g hj] at hx; cases hx
      rcases hs with ⟨-, h⟩ | ⟨m, y, h1, h2, h3⟩
      · exact absurd rfl (h _ _ _)
      · cases h1
        have := hu j (code.length - 2) _ y _ h2 u.fin h3 (by simp [Gen.labelAt, RSpec.isLabelNamed])
        right
        omega
    · have hlt := (List.getElem?_eq_some_iff.1 hx).1
      right
      rcases hs with ⟨rfl, -⟩ | ⟨m, y, h1, h2, h3⟩
      · omega
      · obtain hi | hi : i = code.length - 2 ∨ i = code.length - 1 := by omega
        · rw [hi, u.fin] at hx; cases hx
          cases h1
        · rw [hi, u.last] at hx; cases hx
          cases h1

end Plain
end Umlcc
