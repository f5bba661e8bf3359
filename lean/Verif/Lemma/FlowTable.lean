import Verif.Lemma.FlowStart
/-! The interval table of regalloc.c is built without asking for missing entries (helper lemmas). -/
namespace Umlcc
namespace Regalloc

def Written (done : List Immc) (v : Int) : Prop := 0 ≤ v ∧ ∃ (i : Nat) (x : Immc), done[i]? = some x ∧ RSpec.writes x = some v

theorem Written.append {done : List Immc} {v : Int} (h : Written done v) (more : List Immc) : Written (done ++ more) v := by
  obtain ⟨h0, i, x, h1, h2⟩ := h
  exact ⟨h0, i, x, by rw [List.getElem?_append_left (List.getElem?_eq_some_iff.1 h1).1]; exact h1, h2⟩

theorem setLast_ok {o : Nat} {done : List Immc} {lv : List Live} (h : J o done lv) {v : Int} (hw : Written done v) (n : Nat) :
    ∃ lv', setLast lv v n = .ok lv' := by
  obtain ⟨h0, i, x, h1, h2⟩ := hw
  obtain ⟨l, h3, _⟩ := h.defd i x v h1 h2 h0
  unfold setLast
  rw [if_pos h0, h3]
  exact ⟨_, rfl⟩

theorem useOpe_ok {o : Nat} {done : List Immc} {lv : List Live} (h : J o done lv) {op : Option Ope}
    (hw : ∀ v ∈ RSpec.opeRegs op, Written done v) (n : Nat) : ∃ lv', useOpe lv n op = .ok lv' := by
  unfold useOpe
  split
  · exact setLast_ok h (hw _ (by simp [RSpec.opeRegs])) n
  · exact setLast_ok h (hw _ (by simp [RSpec.opeRegs])) n
  · exact ⟨lv, rfl⟩

theorem liveInst_ok {o : Nat} {done : List Immc} {lv : List Live} {x : Immc} (h : J o done lv)
    (hw : ∀ v ∈ RSpec.reads x, Written done v) : ∃ lv', liveInst lv (o + done.length) x = .ok lv' := by
  cases x with
  | data d => exact ⟨lv, rfl⟩
  | label a b c => exact ⟨lv, rfl⟩
  | inst i =>
    obtain ⟨op, d, f, s⟩ := i
    simp only [RSpec.reads, List.mem_append] at hw
    obtain ⟨lv1, h1⟩ := useOpe_ok h (op := f) (fun v hv => hw v (Or.inl (Or.inl hv))) (o + done.length)
    obtain ⟨u1, _⟩ := useOpe_spec h.bd h1
    obtain ⟨lv2, h2⟩ := useOpe_ok (h.upd u1) (op := s) (fun v hv => hw v (Or.inl (Or.inr hv))) (o + done.length)
    obtain ⟨u2, _⟩ := useOpe_spec u1.bd h2
    simp only [liveInst, h1, h2, Out.ok_bind]
    unfold defOpe
    split
    · exact ⟨_, rfl⟩
    · exact setLast_ok ((h.upd u1).upd u2) (hw _ (Or.inr (by simp))) _
    · exact ⟨lv2, rfl⟩

theorem liveLoop_ok : ∀ (is done : List Immc) (o : Nat) (lv : List Live), J o done lv →
    (∀ a x b, is = a ++ x :: b → ∀ v ∈ RSpec.reads x, Written (done ++ a) v) →
    ∃ lv', liveLoop lv (o + done.length) is = .ok lv' := by
  intro is
  induction is with
  | nil => intro done o lv _ _; exact ⟨lv, rfl⟩
  | cons x xs ih =>
    intro done o lv h hw
    obtain ⟨lv1, h1⟩ := liveInst_ok h (x := x) (by simpa using hw [] x xs rfl)
    obtain ⟨j, _⟩ := liveInst_spec h h1
    obtain ⟨lv', h2⟩ := ih (done ++ [x]) o lv1 j (by
      intro a y b e v hv
      simpa using hw (x :: a) y b (by rw [e]; rfl) v hv)
    refine ⟨lv', ?_⟩
    simp only [liveLoop, h1, Out.ok_bind]
    simpa [Nat.add_assoc] using h2

theorem liveOutput_ok : ∀ (ids : List Int) (done : List Immc) (o : Nat) (lv : List Live), J o done lv →
    (∀ v ∈ ids, Written done v) → ∃ lv', liveOutput lv (o + done.length) ids = .ok lv' := by
  intro ids
  induction ids with
  | nil => intro done o lv _ _; exact ⟨lv, rfl⟩
  | cons v vs ih =>
    intro done o lv h hw
    obtain ⟨lv1, h1⟩ := setLast_ok h (hw v (by simp)) (o + done.length)
    obtain ⟨u1, _⟩ := setLast_spec h.bd h1
    obtain ⟨lv', h2⟩ := ih done o lv1 (h.upd u1) (fun w hw' => hw w (by simp [hw']))
    exact ⟨lv', by simp only [liveOutput, h1, Out.ok_bind, h2]⟩

theorem liveBlocks_ok : ∀ (bs : List Block) (done : List Immc) (o : Nat) (lv : List Live), J o done lv →
    (∀ a c b, bs = a ++ c :: b →
      (∀ a' x b', c.immcs = a' ++ x :: b' → ∀ v ∈ RSpec.reads x, Written (done ++ (a.map (·.immcs)).flatten ++ a') v) ∧
      ∀ v ∈ HSet.elems c.output, Written (done ++ (a.map (·.immcs)).flatten ++ c.immcs) v) →
    ∃ lv', liveBlocks lv (o + done.length) bs = .ok lv' := by
  intro bs
  induction bs with
  | nil => intro done o lv _ _; exact ⟨lv, rfl⟩
  | cons c bs ih =>
    intro done o lv h hw
    obtain ⟨w1, w2⟩ := hw [] c bs rfl
    obtain ⟨lv1, h1⟩ := liveLoop_ok c.immcs done o lv h (by simpa using w1)
    obtain ⟨j1, _⟩ := liveLoop_spec _ _ _ _ _ h h1
    have hlen : o + done.length + c.immcs.length = o + (done ++ c.immcs).length := by simp [Nat.add_assoc]
    obtain ⟨lv2, h2⟩ := liveOutput_ok (HSet.elems c.output) (done ++ c.immcs) o lv1 j1 (by simpa using w2)
    obtain ⟨u2, _⟩ := liveOutput_spec _ _ _ _ j1.bd h2
    obtain ⟨lv3, h3⟩ := ih (done ++ c.immcs) o lv2 (j1.upd u2) (by
      intro a d b e
      have := hw (c :: a) d b (by rw [e]; rfl)
      simpa using this)
    refine ⟨lv3, ?_⟩
    simp only [liveBlocks, h1, Out.ok_bind]
    rw [hlen, h2, Out.ok_bind, h3]

/-- the whole table of a function -/
theorem table_ok {code : List Immc} {g : List Block} (o : Nat) (hf : Flow code g) (hd : RSpec.DefBefore code) (hn : RSpec.NaturalRegs code)
    (hout : ∀ (p : Nat) b, g[p]? = some b → ∀ v ∈ HSet.elems b.output, RSpec.LiveOut code v (off (g.map (·.immcs)) p + (b.immcs.length - 1))) :
    ∃ lv, liveBlocks [] o g = .ok lv := by
  have hwr : ∀ (n : Nat) v, (∃ (k : Nat) (x : Immc), k < n ∧ code[k]? = some x ∧ RSpec.writes x = some v) → Written (code.take n) v := by
    rintro n v ⟨k, x, hk, hx, hw⟩
    exact ⟨hn x (List.mem_of_getElem? hx) v hw, k, x, by rw [List.getElem?_take_of_lt hk]; exact hx, hw⟩
  have := liveBlocks_ok g [] o [] (J.nil o) (by
    intro a c b e
    have hoff : ((a.map (·.immcs)).flatten).length = off (g.map (·.immcs)) a.length := by
      unfold off
      rw [e, List.map_append, List.take_append_of_le_length (by simp), List.take_of_length_le (by simp)]
    have hcode : code = (a.map (·.immcs)).flatten ++ (c.immcs ++ (b.map (·.immcs)).flatten) := by
      rw [← hf.code, e]; simp
    have hp : g[a.length]? = some c := by rw [e]; simp
    have hne := (hf.blk c (List.mem_of_getElem? hp)).ne
    constructor
    · intro a' x b' ec v hv
      have hx : code[((a.map (·.immcs)).flatten ++ a').length]? = some x := by
        rw [hcode, ec]; simp
      have hl : RSpec.LiveIn code v ((a.map (·.immcs)).flatten ++ a').length := .read hx hv
      have := hwr _ v (hd _ v hl)
      rw [show code.take ((a.map (·.immcs)).flatten ++ a').length = (a.map (·.immcs)).flatten ++ a' by
        rw [hcode, ec, List.append_assoc, ← List.append_assoc]; exact List.take_left' rfl] at this
      simpa using this
    · intro v hv
      have hlo := hout _ c hp v hv
      rw [← hoff] at hlo
      have hpos : 0 < c.immcs.length := List.length_pos_iff.2 hne
      have hgoal : Written (code.take ((a.map (·.immcs)).flatten.length + c.immcs.length)) v := by
        apply hwr
        obtain ⟨j, hs, hl⟩ := hlo
        obtain ⟨y, hy, hys⟩ := id hs
        by_cases hwy : RSpec.writes y = some v
        · exact ⟨_, y, by omega, hy, hwy⟩
        · obtain ⟨k, x, hk, h1, h2⟩ := hd _ v (.thru hy hwy hs hl)
          exact ⟨k, x, by omega, h1, h2⟩
      rw [show code.take ((a.map (·.immcs)).flatten.length + c.immcs.length) = (a.map (·.immcs)).flatten ++ c.immcs by
        rw [hcode, ← List.append_assoc]; exact List.take_left' (by simp)] at hgoal
      simpa using hgoal)
  simpa using this

end Regalloc
end Umlcc
