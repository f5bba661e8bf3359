import Verif.Lemma.Intervals
/-! Register renaming by the allocator simulates the original code (helper lemmas). -/
namespace Umlcc
namespace Regalloc
open HMap

/-- the physical register of a virtual one -/
def phys (al : List (Option Nat)) (u : Int) : Int :=
  match al[u.toNat]? with
  | some (some r) => r
  | _ => -1

theorem mapId_ok {al : List (Option Nat)} {u w : Int} (h : mapId al u = .ok w) :
    0 ≤ u ∧ u.toNat < al.length ∧ w = phys al u := by
  unfold mapId at h
  split at h
  · simp at h
  · rename_i hc
    split at hc
    · simp at h; subst h
      exact ⟨by assumption, (List.getElem?_eq_some_iff.1 hc).1, by simp [phys, hc]⟩
    · simp at hc
  · rename_i r hc
    split at hc
    · simp at h; subst h
      exact ⟨by assumption, (List.getElem?_eq_some_iff.1 hc).1, by simp [phys, hc]⟩
    · simp at hc

theorem mapOpe_ok {al : List (Option Nat)} {o o' : Option Ope} (h : mapOpe al o = .ok o') :
    RSpec.opeRegs o' = (RSpec.opeRegs o).map (phys al) ∧ RSpec.eraseOpe o' = RSpec.eraseOpe o ∧
    (∀ s id u, o = some (.reg s id u) → o' = some (.reg s (phys al id) u) ∧ 0 ≤ id ∧ id.toNat < al.length) ∧
    (∀ id, o = some (.ptr id) → o' = some (.ptr (phys al id)) ∧ 0 ≤ id ∧ id.toNat < al.length) ∧
    ((∀ s id u, o ≠ some (.reg s id u)) → (∀ id, o ≠ some (.ptr id)) → o' = o) := by
  unfold mapOpe at h
  split at h
  · rename_i s id u
    rw [Out.bind_eq_ok] at h
    obtain ⟨w, h1, h2⟩ := h
    simp at h2; subst h2
    obtain ⟨h3, h4, rfl⟩ := mapId_ok h1
    refine ⟨by simp [RSpec.opeRegs], by simp [RSpec.eraseOpe], ?_, by simp, ?_⟩
    · intro s' id' u' e; simp at e; obtain ⟨rfl, rfl, rfl⟩ := e; exact ⟨rfl, h3, h4⟩
    · intro h; exact absurd rfl (h s id u)
  · rename_i id
    rw [Out.bind_eq_ok] at h
    obtain ⟨w, h1, h2⟩ := h
    simp at h2; subst h2
    obtain ⟨h3, h4, rfl⟩ := mapId_ok h1
    refine ⟨by simp [RSpec.opeRegs], by simp [RSpec.eraseOpe], by simp, ?_, ?_⟩
    · intro id' e; simp at e; subst e; exact ⟨rfl, h3, h4⟩
    · intro _ h; exact absurd rfl (h id)
  · rename_i n1 n2
    simp at h; subst h
    refine ⟨?_, rfl, fun s id u e => absurd e (n1 s id u), fun id e => absurd e (n2 id), fun _ _ => rfl⟩
    have : RSpec.opeRegs o = [] := by
      unfold RSpec.opeRegs
      split
      · exact absurd rfl (n1 _ _ _)
      · exact absurd rfl (n2 _)
      · rfl
    simp [this]

theorem mapImmc_ok {al : List (Option Nat)} {x x' : Immc} (h : mapImmc al x = .ok x') :
    RSpec.reads x' = (RSpec.reads x).map (phys al) ∧ RSpec.writes x' = (RSpec.writes x).map (phys al) ∧
    RSpec.target x' = RSpec.target x ∧ (∀ n, RSpec.isLabelNamed n x' = RSpec.isLabelNamed n x) ∧
    (∀ i, x = .inst i → ∃ i', x' = .inst i' ∧ i'.op = i.op ∧ RSpec.eraseInst i' = RSpec.eraseInst i) ∧
    ((∀ i, x ≠ .inst i) → x' = x) ∧
    (∀ v, RSpec.writes x = some v → 0 ≤ v ∧ v.toNat < al.length) := by
  cases x with
  | data d =>
    simp [mapImmc] at h; subst h
    simp [RSpec.reads, RSpec.writes]
  | label a b c =>
    simp [mapImmc] at h; subst h
    simp [RSpec.reads, RSpec.writes]
  | inst i =>
    obtain ⟨op, d, f, s⟩ := i
    simp only [mapImmc, Out.bind_eq_ok] at h
    obtain ⟨f', hf, s', hs, d', hd, h4⟩ := h
    simp at h4; subst h4
    obtain ⟨f1, f2, _⟩ := mapOpe_ok hf
    obtain ⟨s1, s2, _⟩ := mapOpe_ok hs
    obtain ⟨d1, d2, d3, d4, d5⟩ := mapOpe_ok hd
    have hdcase : (∃ sf id u, d = some (.reg sf id u)) ∨ (∃ id, d = some (.ptr id)) ∨
        ((∀ s id u, d ≠ some (.reg s id u)) ∧ (∀ id, d ≠ some (.ptr id))) := by
      match d with
      | some (.reg a b c) => exact Or.inl ⟨a, b, c, rfl⟩
      | some (.ptr a) => exact Or.inr (Or.inl ⟨a, rfl⟩)
      | some (.arg _ _ _) | some (.mem _) | some (.label _) | some (.int _ _) | some (.str _) | none =>
        exact Or.inr (Or.inr ⟨by simp, by simp⟩)
    refine ⟨?_, ?_, ?_, by simp [RSpec.isLabelNamed], ?_, by simp, ?_⟩
    · simp only [RSpec.reads, List.map_append, f1, s1]
      congr 1
      rcases hdcase with ⟨a, b, c, rfl⟩ | ⟨a, rfl⟩ | ⟨n1, n2⟩
      · rw [(d3 a b c rfl).1]; rfl
      · rw [(d4 a rfl).1]; rfl
      · rw [d5 n1 n2]
        split
        · exact absurd rfl (n2 _)
        · rfl
    · rcases hdcase with ⟨a, b, c, rfl⟩ | ⟨a, rfl⟩ | ⟨n1, n2⟩
      · rw [(d3 a b c rfl).1]; rfl
      · rw [(d4 a rfl).1]; rfl
      · rw [d5 n1 n2]
        have : ∀ f s, RSpec.writes (.inst ⟨op, d, f, s⟩) = none := by
          intro f s
          unfold RSpec.writes
          split
          · rename_i e; injection e with e; injection e with _ e _ _; exact absurd e (n1 _ _ _)
          · rfl
        rw [this, this]; rfl
    · rcases hdcase with ⟨a, b, c, rfl⟩ | ⟨a, rfl⟩ | ⟨n1, n2⟩
      · rw [(d3 a b c rfl).1]; rfl
      · rw [(d4 a rfl).1]; rfl
      · rw [d5 n1 n2]
        unfold RSpec.target
        cases d with
        | none => rfl
        | some y => cases y <;> rfl
    · intro i e; simp at e; subst e
      exact ⟨_, rfl, rfl, by simp [RSpec.eraseInst, f2, s2, d2]⟩
    · intro v hv
      unfold RSpec.writes at hv
      split at hv
      · rename_i e
        simp at hv; subst hv
        injection e with e; injection e with _ e _ _
        exact (d3 _ _ _ e).2
      · simp at hv

theorem genAllocated_get : ∀ (code code' : List Immc) (al : List (Option Nat)), genAllocated al code = .ok code' →
    code'.length = code.length ∧ ∀ (i : Nat) x, code[i]? = some x → ∃ x', code'[i]? = some x' ∧ mapImmc al x = .ok x' := by
  intro code
  induction code with
  | nil => intro code' al h; simp [genAllocated] at h; subst h; simp
  | cons y ys ih =>
    intro code' al h
    simp only [genAllocated, Out.bind_eq_ok] at h
    obtain ⟨y', h1, ys', h2, h3⟩ := h
    simp at h3; subst h3
    obtain ⟨h4, h5⟩ := ih ys' al h2
    refine ⟨by simp [h4], ?_⟩
    intro i x hx
    cases i with
    | zero => simp at hx; subst hx; exact ⟨y', by simp, h1⟩
    | succ i => simpa using h5 i x (by simpa using hx)

theorem labelPos_map {code code' : List Immc} {al : List (Option Nat)} (h : genAllocated al code = .ok code') (n : Name) :
    RSpec.labelPos code' n = RSpec.labelPos code n := by
  unfold RSpec.labelPos
  induction code generalizing code' with
  | nil => simp [genAllocated] at h; subst h; rfl
  | cons y ys ih =>
    simp only [genAllocated, Out.bind_eq_ok] at h
    obtain ⟨y', h1, ys', h2, h3⟩ := h
    simp at h3; subst h3
    have := (mapImmc_ok h1).2.2.2.1 n
    rw [List.findIdx?_cons, List.findIdx?_cons, this, ih h2]

theorem labelPos_spec {code : List Immc} {n : Name} {p : Nat} (h : RSpec.labelPos code n = some p) :
    ∃ y, code[p]? = some y ∧ RSpec.isLabelNamed n y = true := by
  unfold RSpec.labelPos at h
  rw [List.findIdx?_eq_some_iff_getElem] at h
  obtain ⟨h1, h2, _⟩ := h
  exact ⟨code[p], by simp [h1], h2⟩

/-- what the simulation needs from the allocation: a write does not destroy another live register -/
def Safe (code : List Immc) (al : List (Option Nat)) : Prop :=
  ∀ (i j : Nat) x v u, code[i]? = some x → RSpec.writes x = some v → RSpec.Succ code i j → RSpec.LiveIn code u j → u ≠ v →
    phys al u ≠ phys al v

/-- same visible state, same values in the live registers -/
structure Sim {Val St : Type} (code : List Immc) (al : List (Option Nat)) (m m' : RSpec.Mach Val St) : Prop where
  pc : m'.pc = m.pc
  st : m'.st = m.st
  regs : ∀ u, RSpec.LiveIn code u m.pc → m'.regs (phys al u) = m.regs u

theorem step_sim {Val St : Type} (sem : RSpec.Sem Val St) {code code' : List Immc} {al : List (Option Nat)}
    (hg : genAllocated al code = .ok code') (hsafe : Safe code al) {m m' : RSpec.Mach Val St} (h : Sim code al m m') :
    (RSpec.step sem code m = none ∧ RSpec.step sem code' m' = none) ∨
    ∃ m1 m1', RSpec.step sem code m = some m1 ∧ RSpec.step sem code' m' = some m1' ∧ Sim code al m1 m1' := by
  obtain ⟨hlen, hget⟩ := genAllocated_get code code' al hg
  unfold RSpec.step
  rw [h.pc]
  cases hx : code[m.pc]? with
  | none =>
    left
    have : code'[m.pc]? = none := by
      rw [List.getElem?_eq_none_iff, hlen, ← List.getElem?_eq_none_iff]; exact hx
    simp [this]
  | some x =>
    obtain ⟨x', hx', hm⟩ := hget m.pc x hx
    obtain ⟨hr, hw, ht, hlab, hinst, hnot, _⟩ := mapImmc_ok hm
    rw [hx']
    -- registers that are live afterwards and not written are live before
    have keep : ∀ (j : Nat) (u : Int), RSpec.Succ code m.pc j → RSpec.LiveIn code u j → RSpec.writes x ≠ some u →
        m'.regs (phys al u) = m.regs u := by
      intro j u hs hl hne
      exact h.regs u (.thru hx hne hs hl)
    by_cases hi : ∃ i, x = .inst i
    · obtain ⟨i, rfl⟩ := hi
      obtain ⟨i', rfl, hop, her⟩ := hinst i rfl
      dsimp only
      have hreads : (RSpec.reads (.inst i')).map m'.regs = (RSpec.reads (.inst i)).map m.regs := by
        rw [hr, List.map_map]
        apply List.map_congr_left
        intro u hu
        exact h.regs u (.read hx hu)
      rw [her, hreads, h.st]
      cases hsem : sem (RSpec.eraseInst i) ((RSpec.reads (.inst i)).map m.regs) m.st with
      | none => left; exact ⟨rfl, rfl⟩
      | some res =>
        obtain ⟨st1, val, taken⟩ := res
        dsimp only
        rw [ht, hw, hop]
        -- the new register files agree on what is live at a successor
        have agree : ∀ (j : Nat), RSpec.Succ code m.pc j → ∀ u, RSpec.LiveIn code u j →
            (match (RSpec.writes (.inst i)).map (phys al) with
              | some r => fun q => if q = r then val else m'.regs q
              | none => m'.regs) (phys al u) =
            (match RSpec.writes (.inst i) with
              | some r => fun q => if q = r then val else m.regs q
              | none => m.regs) u := by
          intro j hs u hl
          cases hwr : RSpec.writes (.inst i) with
          | none => exact keep j u hs hl (by rw [hwr]; simp)
          | some v =>
            simp only [Option.map_some]
            by_cases huv : u = v
            · subst huv; simp
            · rw [if_neg (hsafe m.pc j _ v u hx hwr hs hl huv), if_neg huv]
              exact keep j u hs hl (by rw [hwr]; simp; exact fun e => huv e.symm)
        cases htg : RSpec.target (.inst i) with
        | none =>
          dsimp only
          by_cases hj : i.op = .jmp
          · left; simp [hj]
          · right
            rw [if_neg hj, if_neg hj]
            refine ⟨_, _, rfl, rfl, rfl, rfl, ?_⟩
            apply agree
            exact ⟨_, hx, Or.inl ⟨rfl, by rintro d f s e; injection e with e; subst e; exact hj rfl⟩⟩
        | some n =>
          dsimp only
          by_cases hc : i.op = .jmp ∨ taken = true
          · rw [if_pos hc, if_pos hc, labelPos_map hg n]
            cases hp : RSpec.labelPos code n with
            | none => left; simp
            | some p =>
              right
              refine ⟨_, _, rfl, rfl, rfl, rfl, ?_⟩
              apply agree
              obtain ⟨y, hy1, hy2⟩ := labelPos_spec hp
              exact ⟨_, hx, Or.inr ⟨n, y, htg, hy1, hy2⟩⟩
          · right
            rw [if_neg hc, if_neg hc]
            refine ⟨_, _, rfl, rfl, rfl, rfl, ?_⟩
            apply agree
            exact ⟨_, hx, Or.inl ⟨rfl, by rintro d f s e; injection e with e; subst e; exact hc (Or.inl rfl)⟩⟩
    · have hni : ∀ i, x ≠ .inst i := fun i e => hi ⟨i, e⟩
      have := hnot hni
      subst this
      right
      have hwn : RSpec.writes x' = none := by
        cases x' with
        | inst i => exact absurd rfl (hni i)
        | data d => rfl
        | label a b c => rfl
      have fin : Sim code al ⟨m.pc + 1, m.regs, m.st⟩ ⟨m.pc + 1, m'.regs, m'.st⟩ := by
        refine ⟨rfl, h.st, ?_⟩
        intro u hl
        refine keep (m.pc + 1) u ?_ hl (by rw [hwn]; simp)
        exact ⟨x', hx, Or.inl ⟨rfl, fun d f s => hni _⟩⟩
      cases x' with
      | inst i => exact absurd rfl (hni i)
      | data d => exact ⟨_, _, rfl, rfl, fin⟩
      | label a b c => exact ⟨_, _, rfl, rfl, fin⟩

theorem run_sim {Val St : Type} (sem : RSpec.Sem Val St) {code code' : List Immc} {al : List (Option Nat)}
    (hg : genAllocated al code = .ok code') (hsafe : Safe code al) {m m' : RSpec.Mach Val St} (h : Sim code al m m') (n : Nat) :
    (RSpec.run sem code m n = none ∧ RSpec.run sem code' m' n = none) ∨
    ∃ m1 m1', RSpec.run sem code m n = some m1 ∧ RSpec.run sem code' m' n = some m1' ∧ Sim code al m1 m1' := by
  induction n with
  | zero => exact Or.inr ⟨m, m', rfl, rfl, h⟩
  | succ n ih =>
    rcases ih with ⟨h1, h2⟩ | ⟨m1, m1', h1, h2, h3⟩
    · left; simp [RSpec.run, h1, h2]
    · rcases step_sim sem hg hsafe h3 with ⟨h4, h5⟩ | ⟨m2, m2', h4, h5, h6⟩
      · left; simp [RSpec.run, h1, h2, h4, h5]
      · right; exact ⟨m2, m2', by simp [RSpec.run, h1, h4], by simp [RSpec.run, h2, h5], h6⟩

theorem updateLiveseqs_all : ∀ (ps : List (Live × Option Nat)) (qs qs' : List Liveseq),
    updateLiveseqs qs ps = .ok qs' → ∀ p ∈ ps, ∃ r, p.2 = some r ∧ r < qs.length := by
  intro ps
  induction ps with
  | nil => intro qs qs' _ p hp; simp at hp
  | cons a as ih =>
    intro qs qs' h p hp
    obtain ⟨l, r⟩ := a
    cases r with
    | none => simp [updateLiveseqs] at h
    | some r =>
      simp only [updateLiveseqs] at h
      split at h
      · simp at h
      · rename_i q hq
        have hr := (List.getElem?_eq_some_iff.1 hq).1
        simp at hp
        rcases hp with rfl | hp
        · exact ⟨r, rfl, hr⟩
        · obtain ⟨r', h1, h2⟩ := ih _ _ h p hp
          exact ⟨r', h1, by simpa using h2⟩

theorem mapOpe_rename {al : List (Option Nat)} {o o' : Option Ope} (h : mapOpe al o = .ok o') : o' = RSpec.renameOpe (phys al) o := by
  obtain ⟨_, _, h3, h4, h5⟩ := mapOpe_ok h
  unfold RSpec.renameOpe
  split
  · exact (h3 _ _ _ rfl).1
  · exact (h4 _ rfl).1
  · rename_i n1 n2; exact h5 n1 n2

theorem mapImmc_rename {al : List (Option Nat)} {x x' : Immc} (h : mapImmc al x = .ok x') : x' = RSpec.rename (phys al) x := by
  cases x with
  | data d => simp [mapImmc] at h; subst h; rfl
  | label a b c => simp [mapImmc] at h; subst h; rfl
  | inst i =>
    simp only [mapImmc, Out.bind_eq_ok] at h
    obtain ⟨f', hf, s', hs, d', hd, h4⟩ := h
    simp at h4; subst h4
    simp [RSpec.rename, mapOpe_rename hf, mapOpe_rename hs, mapOpe_rename hd]

theorem genAllocated_rename {code out : List Immc} {al : List (Option Nat)} (h : genAllocated al code = .ok out) :
    out = code.map (RSpec.rename (phys al)) := by
  induction code generalizing out with
  | nil => simp [genAllocated] at h; subst h; rfl
  | cons y ys ih =>
    simp only [genAllocated, Out.bind_eq_ok] at h
    obtain ⟨y', h1, ys', h2, h3⟩ := h
    simp at h3; subst h3
    simp [mapImmc_rename h1, ih h2]

/-- the pieces of a successful allocation of one function -/
theorem allocFunction_parts {code out : List Immc} {o n fuel : Nat} {qs qs' : List Liveseq}
    (h : allocFunction code o n qs fuel = .ok (out, qs')) :
    ∃ g lv al, controlFlow code fuel = .ok g ∧ liveBlocks [] o g = .ok lv ∧ allocate lv n = .ok al ∧
      genAllocated al code = .ok out ∧ updateLiveseqs qs (lv.zip al) = .ok qs' := by
  simp only [allocFunction, Out.bind_eq_ok] at h
  obtain ⟨g, h1, lv, h2, al, h3, out', h4, qs1, h5, h6⟩ := h
  simp at h6
  obtain ⟨rfl, rfl⟩ := h6
  exact ⟨g, lv, al, h1, h2, h3, h4, h5⟩

theorem allocate_spec {lv : List Live} {n : Nat} {al : List (Option Nat)} (hm : Mono lv) (h : allocate lv n = .ok al) :
    ∃ st, AInv lv n lv.length st al := by
  obtain ⟨st, al', h1, h2⟩ := allocLoop_spec (n := n) hm lv.length 0 _ _ (by simp) (ainv_init lv n)
  unfold allocate at h
  rw [h1] at h; simp at h; subst h
  exact ⟨st, h2⟩

theorem all_allocated {lv : List Live} {al : List (Option Nat)} {qs qs' : List Liveseq} (hl : al.length = lv.length)
    (h : updateLiveseqs qs (lv.zip al) = .ok qs') (u : Nat) (hu : u < lv.length) : ∃ r, al[u]? = some (some r) := by
  have hz : (lv[u], al[u]) ∈ lv.zip al := by
    apply List.mem_iff_getElem.2
    exact ⟨u, by simp; omega, by simp⟩
  obtain ⟨r, h1, _⟩ := updateLiveseqs_all _ _ _ h _ hz
  have hul : u < al.length := by omega
  exact ⟨r, by simp at h1; rw [List.getElem?_eq_getElem hul, h1]⟩

/-- two intervals that overlap get different registers -/
theorem overlap_ne {lv : List Live} {n : Nat} {st al : List (Option Nat)} (ha : AInv lv n lv.length st al) {u w : Nat} {lu lw : Live}
    {r s : Nat} (hu : al[u]? = some (some r)) (hw : al[w]? = some (some s)) (hlu : lv[u]? = some lu) (hlw : lv[w]? = some lw)
    (hlt : u < w) (ho : lw.first < lu.last) : r ≠ s := by
  rintro rfl
  have := ha.disj u w r lu lw hlt hu hw hlu hlw
  omega

theorem safe_of_alloc {code : List Immc} {g : List Block} {o n : Nat} {lv : List Live} {al : List (Option Nat)} {qs qs' : List Liveseq}
    {out : List Immc}
    (hf : Flow code g) (hlb : liveBlocks [] o g = .ok lv) (ha : allocate lv n = .ok al) (hq : updateLiveseqs qs (lv.zip al) = .ok qs')
    (hgen : genAllocated al code = .ok out)
    (hu : RSpec.UniqueLabels code) (hr : RSpec.KnownBranches code ∨ RSpec.BackDead code)
    (hdef : RSpec.DefBefore code) (hwm : RSpec.WritesMatter code) : Safe code al := by
  intro i j x v u hx hw hs hl huv
  obtain ⟨hj, _⟩ := intervals hf hlb
  obtain ⟨st, hai⟩ := allocate_spec hj.mono ha
  obtain ⟨hlen, hget⟩ := genAllocated_get code out al hgen
  obtain ⟨x', _, hmx⟩ := hget i x hx
  obtain ⟨hv0, hvl⟩ := (mapImmc_ok hmx).2.2.2.2.2.2 v hw
  obtain ⟨hu0, lu, hlu, hlast⟩ := liveOut_reaches hf hlb hu hr hs hl
  obtain ⟨lvv, hlv, hfirst⟩ := hj.defd i x v hx hw hv0
  have hul := (List.getElem?_eq_some_iff.1 hlu).1
  have hvl' := (List.getElem?_eq_some_iff.1 hlv).1
  obtain ⟨r, hru⟩ := all_allocated hai.allen hq u.toNat hul
  obtain ⟨s, hsv⟩ := all_allocated hai.allen hq v.toNat hvl'
  have hne : u.toNat ≠ v.toNat := by intro e; apply huv; omega
  have hrs : r ≠ s := by
    -- `u` is written before `i`
    have hlive : RSpec.LiveIn code u i := .thru hx (by rw [hw]; simp; exact fun e => huv e.symm) hs hl
    obtain ⟨k, y, hki, hky, hwy⟩ := hdef i u hlive
    obtain ⟨lu', hlu', hfu⟩ := hj.defd k y u hky hwy hu0
    rw [hlu] at hlu'; simp at hlu'; subst hlu'
    rcases Nat.lt_or_gt_of_ne hne with hlt | hgt
    · exact overlap_ne hai hru hsv hlu hlv hlt (by omega)
    · intro e
      refine overlap_ne hai hsv hru hlv hlu hgt ?_ e.symm
      rcases hwm i x v hx hw with h1 | ⟨k', y', h1, h2, h3⟩ | h1
      · have := h1 k y u hki hky hwy; omega
      · obtain ⟨_, l', h4, h5⟩ := hj.used k' y' v h2 h3
        rw [hlv] at h4; simp at h4; subst h4
        omega
      · exact absurd ⟨j, hs, hl⟩ (h1 u huv)
  simp only [phys, hru, hsv]
  intro e; apply hrs; omega

end Regalloc
end Umlcc
