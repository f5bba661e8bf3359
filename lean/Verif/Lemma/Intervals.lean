import Verif.Lemma.Cfg
import Verif.Lemma.Alloc
/-! Live intervals computed by regalloc.c (helper lemmas). -/
namespace Umlcc
namespace Regalloc
open HMap

/-- every interval is well formed and ends at `n` at the latest -/
def Bd (n : Nat) (lv : List Live) : Prop := ∀ (w : Nat) l, lv[w]? = some l → l.first ≤ l.last ∧ l.last ≤ n

/-- intervals only grow to the right -/
def Ext (lv lv' : List Live) : Prop :=
  ∀ (w : Nat) l, lv[w]? = some l → ∃ l', lv'[w]? = some l' ∧ l'.first = l.first ∧ l.last ≤ l'.last

theorem Ext.refl (lv : List Live) : Ext lv lv := fun _ l h => ⟨l, h, rfl, Nat.le_refl _⟩

theorem Ext.trans {a b c : List Live} (h1 : Ext a b) (h2 : Ext b c) : Ext a c := by
  intro w l h
  obtain ⟨l1, h3, h4, h5⟩ := h1 w l h
  obtain ⟨l2, h6, h7, h8⟩ := h2 w l1 h3
  exact ⟨l2, h6, by omega, by omega⟩

/-- interval of register `u` reaches at least `n` -/
def Reaches (lv : List Live) (u : Int) (n : Nat) : Prop := 0 ≤ u ∧ ∃ l, lv[u.toNat]? = some l ∧ n ≤ l.last

theorem Reaches.ext {lv lv' : List Live} {u : Int} {n : Nat} (h : Reaches lv u n) (he : Ext lv lv') : Reaches lv' u n := by
  obtain ⟨h1, l, h2, h3⟩ := h
  obtain ⟨l', h4, h5, h6⟩ := he _ l h2
  exact ⟨h1, l', h4, by omega⟩

/-- same registers, same starts, ends moved to the right but not beyond `n` -/
structure Upd (n : Nat) (lv lv' : List Live) : Prop where
  len : lv'.length = lv.length
  ext : Ext lv lv'
  bd : Bd n lv'

theorem Upd.first {n : Nat} {lv lv' : List Live} (h : Upd n lv lv') {w : Nat} {l' : Live} (hw : lv'[w]? = some l') :
    ∃ l, lv[w]? = some l ∧ l.first = l'.first := by
  have hl : w < lv.length := by rw [← h.len]; exact (List.getElem?_eq_some_iff.1 hw).1
  obtain ⟨l1, h1, h2, _⟩ := h.ext w lv[w] (by simp [hl])
  rw [hw] at h1; simp at h1; subst h1
  exact ⟨lv[w], by simp [hl], h2.symm⟩

theorem setLast_spec {lv lv' : List Live} {id : Int} {n : Nat} (hb : Bd n lv) (h : setLast lv id n = .ok lv') :
    Upd n lv lv' ∧ Reaches lv' id n := by
  unfold setLast at h
  split at h
  · simp at h
  · rename_i l hl
    split at hl
    · rename_i hid
      simp at h; subst h
      have hlt := (List.getElem?_eq_some_iff.1 hl).1
      refine ⟨⟨by simp, ?_, ?_⟩, hid, { l with last := n }, by simp [hlt], Nat.le_refl _⟩
      · intro w lw hw
        rw [List.getElem?_set]
        split
        · rename_i e; subst e
          rw [hl] at hw; simp at hw; subst hw
          exact ⟨{ l with last := n }, by simp, rfl, (hb _ _ hl).2⟩
        · exact ⟨lw, hw, rfl, Nat.le_refl _⟩
      · intro w lw hw
        rw [List.getElem?_set] at hw
        split at hw
        · rename_i e; subst e
          simp at hw; subst hw
          have := hb _ _ hl
          exact ⟨by simp; omega, Nat.le_refl _⟩
        · exact hb w lw hw
    · simp at hl

theorem Upd.refl {n : Nat} {lv : List Live} (h : Bd n lv) : Upd n lv lv := ⟨rfl, Ext.refl _, h⟩

theorem Upd.trans {n : Nat} {a b c : List Live} (h1 : Upd n a b) (h2 : Upd n b c) : Upd n a c :=
  ⟨by rw [h2.len, h1.len], h1.ext.trans h2.ext, h2.bd⟩

theorem useOpe_spec {lv lv' : List Live} {o : Option Ope} {n : Nat} (hb : Bd n lv) (h : useOpe lv n o = .ok lv') :
    Upd n lv lv' ∧ ∀ u ∈ RSpec.opeRegs o, Reaches lv' u n := by
  unfold useOpe at h
  split at h
  · obtain ⟨h1, h2⟩ := setLast_spec hb h
    exact ⟨h1, by simpa [RSpec.opeRegs] using h2⟩
  · obtain ⟨h1, h2⟩ := setLast_spec hb h
    exact ⟨h1, by simpa [RSpec.opeRegs] using h2⟩
  · rename_i n1 n2
    simp at h; subst h
    refine ⟨Upd.refl hb, ?_⟩
    intro u hu
    unfold RSpec.opeRegs at hu
    split at hu
    · rename_i a id b; exact absurd rfl (n1 a id b)
    · rename_i id; exact absurd rfl (n2 id)
    · simp at hu

/-- what is known after the items `done` (first one at absolute index `o`) -/
structure J (o : Nat) (done : List Immc) (lv : List Live) : Prop where
  bd : Bd (o + done.length) lv
  used : ∀ (i : Nat) x u, done[i]? = some x → u ∈ RSpec.reads x → Reaches lv u (o + i)
  defd : ∀ (i : Nat) x v, done[i]? = some x → RSpec.writes x = some v → 0 ≤ v → ∃ l, lv[v.toNat]? = some l ∧ l.first ≤ o + i
  orig : ∀ (w : Nat) l, lv[w]? = some l → ∃ i x v, done[i]? = some x ∧ RSpec.writes x = some v ∧ (w : Int) ≤ v ∧ l.first = o + i ∧
    ∀ (i' : Nat) x' v', i' < i → done[i']? = some x' → RSpec.writes x' = some v' → v' < (w : Int)
  mono : Mono lv

theorem J.upd {o : Nat} {done : List Immc} {lv lv' : List Live} (h : J o done lv) (hu : Upd (o + done.length) lv lv') :
    J o done lv' := by
  refine ⟨hu.bd, fun i x u hi hr => (h.used i x u hi hr).ext hu.ext, ?_, ?_, ?_⟩
  · intro i x v hi hw hv
    obtain ⟨l, h1, h2⟩ := h.defd i x v hi hw hv
    obtain ⟨l', h3, h4, _⟩ := hu.ext _ l h1
    exact ⟨l', h3, by omega⟩
  · intro w l' hl'
    obtain ⟨l, h1, h2⟩ := hu.first hl'
    rw [← h2]; exact h.orig w l h1
  · intro u v lu lw huv h1 h2
    obtain ⟨l1, h3, h4⟩ := hu.first h1
    obtain ⟨l2, h5, h6⟩ := hu.first h2
    have := h.mono u v l1 l2 huv h3 h5
    omega

theorem J.nil (o : Nat) : J o [] [] := by
  refine ⟨?_, ?_, ?_, ?_, ?_⟩
  · intro w l h; simp at h
  · intro i x u h; simp at h
  · intro i x v h; simp at h
  · intro w l h; simp at h
  · intro u v lu lw _ h; simp at h

theorem getElem?_snoc_cases {α : Type} {l : List α} {a x : α} {k : Nat} (h : (l ++ [a])[k]? = some x) :
    (k < l.length ∧ l[k]? = some x) ∨ (k = l.length ∧ x = a) := by
  rw [getElem?_snoc] at h
  split at h
  · exact Or.inl ⟨by assumption, h⟩
  · split at h
    · simp at h; exact Or.inr ⟨by assumption, h.symm⟩
    · simp at h

/-- adding one item, given the intervals before and after its destination operand -/
theorem J.snoc {o : Nat} {done : List Immc} {lv lv' : List Live} {x : Immc} (h : J o done lv)
    (hr : ∀ u ∈ RSpec.reads x, Reaches lv' u (o + done.length))
    (hext : Ext lv lv') (hbd : Bd (o + done.length) lv')
    (hlen : ∀ w : Nat, w < lv'.length → w < lv.length ∨ ∃ v, RSpec.writes x = some v ∧ (w : Int) ≤ v)
    (hnew : ∀ (w : Nat) l, lv.length ≤ w → lv'[w]? = some l → l.first = o + done.length)
    (hdef : ∀ v, RSpec.writes x = some v → 0 ≤ v → v.toNat < lv'.length) : J o (done ++ [x]) lv' := by
  have hback : ∀ (w : Nat) l', w < lv.length → lv'[w]? = some l' → ∃ l, lv[w]? = some l ∧ l.first = l'.first := by
    intro w l' hw hl'
    obtain ⟨l1, h1, h2, _⟩ := hext w lv[w] (by simp [hw])
    rw [hl'] at h1; simp at h1; subst h1
    exact ⟨lv[w], by simp [hw], h2.symm⟩
  refine ⟨?_, ?_, ?_, ?_, ?_⟩
  · intro w l hl
    have := hbd w l hl
    simp; omega
  · intro i y u hi hu
    rcases getElem?_snoc_cases hi with ⟨_, hi⟩ | ⟨rfl, rfl⟩
    · exact (h.used i y u hi hu).ext hext
    · exact hr u hu
  · intro i y v hi hw hv
    rcases getElem?_snoc_cases hi with ⟨_, hi⟩ | ⟨rfl, rfl⟩
    · obtain ⟨l, h1, h2⟩ := h.defd i y v hi hw hv
      obtain ⟨l', h3, h4, _⟩ := hext _ l h1
      exact ⟨l', h3, by omega⟩
    · have hlt := hdef v hw hv
      refine ⟨lv'[v.toNat], by simp [hlt], ?_⟩
      have := hbd v.toNat lv'[v.toNat] (by simp [hlt])
      omega
  · intro w l hl
    by_cases hw : w < lv.length
    · obtain ⟨l0, h1, h2⟩ := hback w l hw hl
      obtain ⟨i, y, v, h3, h4, h5, h6, h7⟩ := h.orig w l0 h1
      have hi := (List.getElem?_eq_some_iff.1 h3).1
      refine ⟨i, y, v, by rw [List.getElem?_append_left hi]; exact h3, h4, h5, by omega, ?_⟩
      intro i' x' v' hlt hx' hw'
      rw [List.getElem?_append_left (by omega)] at hx'
      exact h7 i' x' v' hlt hx' hw'
    · have hwl := (List.getElem?_eq_some_iff.1 hl).1
      rcases hlen w hwl with h1 | ⟨v, h1, h2⟩
      · omega
      · refine ⟨done.length, x, v, by simp, h1, h2, hnew w l (by omega) hl, ?_⟩
        intro i' x' v' hlt hx' hw'
        rw [List.getElem?_append_left (by omega)] at hx'
        by_cases hv' : 0 ≤ v'
        · obtain ⟨l', h3, _⟩ := h.defd i' x' v' hx' hw' hv'
          have := (List.getElem?_eq_some_iff.1 h3).1
          omega
        · omega
  · intro u v lu lw huv h1 h2
    by_cases hv : v < lv.length
    · obtain ⟨l1, h3, h4⟩ := hback u lu (by omega) h1
      obtain ⟨l2, h5, h6⟩ := hback v lw hv h2
      have := h.mono u v l1 l2 huv h3 h5
      omega
    · have := hnew v lw (by omega) h2
      have := hbd u lu h1
      omega

theorem defOpe_spec {o : Nat} {done : List Immc} {lv lv' : List Live} {op : IOp} {d f s : Option Ope} (h : J o done lv)
    (hf : ∀ u ∈ RSpec.opeRegs f, Reaches lv u (o + done.length)) (hs : ∀ u ∈ RSpec.opeRegs s, Reaches lv u (o + done.length))
    (he : defOpe lv (o + done.length) d = .ok lv') :
    J o (done ++ [.inst ⟨op, d, f, s⟩]) lv' ∧ Ext lv lv' := by
  have key : ∀ (hw : RSpec.writes (.inst ⟨op, d, f, s⟩) = none) (hu : Upd (o + done.length) lv lv')
      (hp : ∀ id, d = some (.ptr id) → Reaches lv' id (o + done.length)), J o (done ++ [.inst ⟨op, d, f, s⟩]) lv' ∧ Ext lv lv' := by
    intro hw hu hp
    refine ⟨?_, hu.ext⟩
    apply J.snoc h
    · intro u hr
      simp only [RSpec.reads, List.mem_append] at hr
      rcases hr with (hr | hr) | hr
      · exact (hf u hr).ext hu.ext
      · exact (hs u hr).ext hu.ext
      · split at hr
        · rename_i id
          simp at hr; subst hr; exact hp _ rfl
        · simp at hr
    · exact hu.ext
    · exact hu.bd
    · intro w hw'; left; rw [← hu.len]; exact hw'
    · intro w l hle hl
      have := (List.getElem?_eq_some_iff.1 hl).1
      rw [hu.len] at this; omega
    · intro v hv; rw [hw] at hv; simp at hv
  unfold defOpe at he
  split at he
  · rename_i sf id un
    simp at he; subst he
    have hext : Ext lv (lv ++ List.replicate ((id + 1).toNat - lv.length) ⟨o + done.length, o + done.length⟩) := by
      intro w l hl
      have := (List.getElem?_eq_some_iff.1 hl).1
      exact ⟨l, by rw [List.getElem?_append_left this]; exact hl, rfl, Nat.le_refl _⟩
    have hnew : ∀ (w : Nat) l, lv.length ≤ w → (lv ++ List.replicate ((id + 1).toNat - lv.length) (⟨o + done.length, o + done.length⟩ : Live))[w]? = some l →
        l = ⟨o + done.length, o + done.length⟩ := by
      intro w l hle hl
      rw [List.getElem?_append_right hle, List.getElem?_replicate] at hl
      split at hl <;> simp at hl
      exact hl.symm
    refine ⟨?_, hext⟩
    apply J.snoc h
    · intro u hr
      simp only [RSpec.reads, List.mem_append, List.not_mem_nil, or_false] at hr
      rcases hr with hr | hr
      · exact (hf u hr).ext hext
      · exact (hs u hr).ext hext
    · exact hext
    · intro w l hl
      by_cases hw : w < lv.length
      · rw [List.getElem?_append_left hw] at hl; exact h.bd w l hl
      · have := hnew w l (by omega) hl; subst this; simp
    · intro w hw
      simp at hw
      by_cases hlt : w < lv.length
      · exact Or.inl hlt
      · exact Or.inr ⟨id, rfl, by omega⟩
    · intro w l hle hl; rw [hnew w l hle hl]
    · intro v hv h0
      simp [RSpec.writes] at hv; subst hv
      simp; omega
  · rename_i id
    obtain ⟨h1, h2⟩ := setLast_spec h.bd he
    exact key rfl h1 (by intro id' e; simp at e; subst e; exact h2)
  · rename_i n1 n2
    simp at he; subst he
    refine key ?_ (Upd.refl h.bd) ?_
    · unfold RSpec.writes
      split
      · rename_i e; injection e with e; injection e with _ e _ _; subst e; exact absurd rfl (n1 _ _ _)
      · rfl
    · intro id e; exact absurd e (n2 id)

theorem liveInst_spec {o : Nat} {done : List Immc} {lv lv' : List Live} {x : Immc} (h : J o done lv)
    (he : liveInst lv (o + done.length) x = .ok lv') : J o (done ++ [x]) lv' ∧ Ext lv lv' := by
  cases x with
  | inst i =>
    obtain ⟨op, d, f, s⟩ := i
    simp only [liveInst, Out.bind_eq_ok] at he
    obtain ⟨lv1, h1, lv2, h2, h3⟩ := he
    obtain ⟨u1, r1⟩ := useOpe_spec h.bd h1
    obtain ⟨u2, r2⟩ := useOpe_spec u1.bd h2
    obtain ⟨j, e⟩ := defOpe_spec (op := op) (f := f) (s := s) ((h.upd u1).upd u2) (fun u hu => (r1 u hu).ext u2.ext) r2 h3
    exact ⟨j, (u1.trans u2).ext.trans e⟩
  | data d =>
    simp [liveInst] at he; subst he
    refine ⟨?_, Ext.refl _⟩
    refine J.snoc h (by simp [RSpec.reads]) (Ext.refl _) h.bd (fun w hw => Or.inl hw) ?_ (by simp [RSpec.writes])
    intro w l hle hl; have := (List.getElem?_eq_some_iff.1 hl).1; omega
  | label a b c =>
    simp [liveInst] at he; subst he
    refine ⟨?_, Ext.refl _⟩
    refine J.snoc h (by simp [RSpec.reads]) (Ext.refl _) h.bd (fun w hw => Or.inl hw) ?_ (by simp [RSpec.writes])
    intro w l hle hl; have := (List.getElem?_eq_some_iff.1 hl).1; omega

theorem liveLoop_spec : ∀ (is done : List Immc) (o : Nat) (lv lv' : List Live), J o done lv →
    liveLoop lv (o + done.length) is = .ok lv' → J o (done ++ is) lv' ∧ Ext lv lv' := by
  intro is
  induction is with
  | nil => intro done o lv lv' h he; simp [liveLoop] at he; subst he; exact ⟨by simpa using h, Ext.refl _⟩
  | cons x xs ih =>
    intro done o lv lv' h he
    simp only [liveLoop, Out.bind_eq_ok] at he
    obtain ⟨lv1, h1, h2⟩ := he
    obtain ⟨j, e⟩ := liveInst_spec h h1
    obtain ⟨j', e'⟩ := ih (done ++ [x]) o lv1 lv' j (by simpa [Nat.add_assoc] using h2)
    exact ⟨by simpa using j', e.trans e'⟩

theorem liveOutput_spec : ∀ (ids : List Int) (n : Nat) (lv lv' : List Live), Bd n lv →
    liveOutput lv n ids = .ok lv' → Upd n lv lv' ∧ ∀ u ∈ ids, Reaches lv' u n := by
  intro ids
  induction ids with
  | nil => intro n lv lv' h he; simp [liveOutput] at he; subst he; exact ⟨Upd.refl h, by simp⟩
  | cons x xs ih =>
    intro n lv lv' h he
    simp only [liveOutput, Out.bind_eq_ok] at he
    obtain ⟨lv1, h1, h2⟩ := he
    obtain ⟨u1, r1⟩ := setLast_spec h h1
    obtain ⟨u2, r2⟩ := ih n lv1 lv' u1.bd h2
    refine ⟨u1.trans u2, ?_⟩
    intro u hu
    simp at hu
    rcases hu with rfl | hu
    · exact r1.ext u2.ext
    · exact r2 u hu

theorem liveBlocks_spec : ∀ (bs : List Block) (done : List Immc) (o : Nat) (lv lv' : List Live), J o done lv →
    liveBlocks lv (o + done.length) bs = .ok lv' →
    J o (done ++ (bs.map (·.immcs)).flatten) lv' ∧ Ext lv lv' ∧
      ∀ (p : Nat) b, bs[p]? = some b → ∀ u ∈ HSet.elems b.output,
        Reaches lv' u (o + done.length + off (bs.map (·.immcs)) p + b.immcs.length) := by
  intro bs
  induction bs with
  | nil => intro done o lv lv' h he; simp [liveBlocks] at he; subst he; exact ⟨by simpa using h, Ext.refl _, by simp⟩
  | cons b bs ih =>
    intro done o lv lv' h he
    simp only [liveBlocks, Out.bind_eq_ok] at he
    obtain ⟨lv1, h1, lv2, h2, h3⟩ := he
    obtain ⟨j1, e1⟩ := liveLoop_spec _ _ _ _ _ h h1
    have hlen : o + done.length + b.immcs.length = o + (done ++ b.immcs).length := by simp [Nat.add_assoc]
    rw [hlen] at h2 h3
    obtain ⟨u2, r2⟩ := liveOutput_spec _ _ _ _ j1.bd h2
    obtain ⟨j3, e3, r3⟩ := ih (done ++ b.immcs) o lv2 lv' (j1.upd u2) h3
    refine ⟨by simpa using j3, (e1.trans u2.ext).trans e3, ?_⟩
    intro p c hp u hu
    cases p with
    | zero =>
      simp at hp; subst hp
      have := (r2 u hu).ext e3
      simp [off]; rw [← hlen] at this; exact this
    | succ p =>
      simp at hp
      have := r3 p c hp u hu
      have e : off ((b :: bs).map (·.immcs)) (p + 1) = b.immcs.length + off (bs.map (·.immcs)) p := by simp [off]
      rw [e]
      rw [← hlen] at this
      have e2 : o + done.length + (b.immcs.length + off (bs.map (·.immcs)) p) + c.immcs.length =
        o + done.length + b.immcs.length + off (bs.map (·.immcs)) p + c.immcs.length := by omega
      rw [e2]; exact this

/-- intervals of a function whose graph is `g` -/
theorem intervals {code : List Immc} {g : List Block} {o : Nat} {lv : List Live} (hf : Flow code g)
    (h : liveBlocks [] o g = .ok lv) : J o code lv ∧
      ∀ (p : Nat) b, g[p]? = some b → ∀ u ∈ HSet.elems b.output, Reaches lv u (o + off (g.map (·.immcs)) p + b.immcs.length) := by
  obtain ⟨h1, _, h2⟩ := liveBlocks_spec g [] o [] lv (J.nil o) (by simpa using h)
  rw [hf.code] at h1
  exact ⟨by simpa using h1, by simpa using h2⟩

theorem live_read_later {code : List Immc} (hb : RSpec.BackDead code) {u : Int} {i : Nat} (h : RSpec.LiveIn code u i) :
    ∃ (k : Nat) (x : Immc), i ≤ k ∧ code[k]? = some x ∧ u ∈ RSpec.reads x := by
  induction h with
  | @read i x hi hx => exact ⟨i, x, Nat.le_refl _, hi, hx⟩
  | @thru i j x hi hw hs hl ih =>
    obtain ⟨k, y, h1, h2, h3⟩ := ih
    by_cases hji : j ≤ i
    · exact absurd hl (hb i j u hs hji)
    · exact ⟨k, y, by omega, h2, h3⟩

/-- a register live after item `i` has an interval ending after `i` -/
theorem liveOut_reaches {code : List Immc} {g : List Block} {o : Nat} {lv : List Live} (hf : Flow code g)
    (h : liveBlocks [] o g = .ok lv) (hu : RSpec.UniqueLabels code)
    (hr : (∀ x ∈ code, RSpec.target x ≠ none → x.isJump = true) ∨ RSpec.BackDead code)
    {u : Int} {i j : Nat} (hs : RSpec.Succ code i j) (hl : RSpec.LiveIn code u j) : Reaches lv u (o + i + 1) := by
  obtain ⟨hj, hout⟩ := intervals hf h
  rcases hr with hr | hb
  · -- follow the data-flow sets
    have hi : i < code.length := by
      obtain ⟨x, hx, _⟩ := hs
      exact (List.getElem?_eq_some_iff.1 hx).1
    rw [← hf.code] at hi
    obtain ⟨p, k, b, hp, hk, hik⟩ := flatten_pos hi
    have hgp : ∃ c, g[p]? = some c ∧ c.immcs = b := by
      rw [List.getElem?_map] at hp
      cases hg : g[p]? with
      | none => rw [hg] at hp; simp at hp
      | some c => rw [hg] at hp; simp at hp; exact ⟨c, rfl, hp⟩
    obtain ⟨c, hc, rfl⟩ := hgp
    have hbl : ∀ (p : Nat) b, g[p]? = some b → (g.map (·.immcs))[p]? = some b.immcs := by
      intro p b h; simp [h]
    obtain ⟨x, hx, hcase⟩ := hs
    have hxk : c.immcs[k]? = some x := by
      rw [← flatten_get hp hk, ← hik, hf.code]; exact hx
    -- live at the end of the block
    have atEnd : u ∈ HSet.elems c.output → Reaches lv u (o + i + 1) := by
      intro hm
      obtain ⟨h1, l, h2, h3⟩ := hout p c hc u hm
      exact ⟨h1, l, h2, by omega⟩
    have inSet : ∀ k', k < k' → ∀ s, flowLoop c.output (c.immcs.drop k').reverse = .ok s → u ∈ HSet.elems s → Reaches lv u (o + i + 1) := by
      intro k' hk' s hs hm
      obtain ⟨s', h1, _, h2⟩ := flowLoop_ok (c.immcs.drop k').reverse c.output (hf.graph.sets c (List.mem_of_getElem? hc)).out
      rw [hs] at h1; simp at h1; subst h1
      rcases h2 u hm with h3 | ⟨y, hy, hry⟩
      · exact atEnd h3
      · rw [List.mem_reverse] at hy
        obtain ⟨q, hq⟩ := List.mem_iff_getElem?.1 hy
        rw [List.getElem?_drop] at hq
        have hql := (List.getElem?_eq_some_iff.1 hq).1
        have hcq : code[off (g.map (·.immcs)) p + (k' + q)]? = some y := by
          rw [← hf.code, flatten_get hp hql]; exact hq
        obtain ⟨h4, l, h5, h6⟩ := hj.used _ y u hcq hry
        exact ⟨h4, l, h5, by omega⟩
    -- where is `j`?
    have hjlt : j < (g.map (·.immcs)).flatten.length := by
      rw [hf.code]
      cases hl with
      | read h _ => exact (List.getElem?_eq_some_iff.1 h).1
      | thru h _ _ _ => exact (List.getElem?_eq_some_iff.1 h).1
    have hplt := (List.getElem?_eq_some_iff.1 hc).1
    have enter : ∀ (q : Nat) d, g[q]? = some d → j = off (g.map (·.immcs)) q → (q : Int) ∈ HSet.elems c.succ → Reaches lv u (o + i + 1) := by
      intro q d hq hjq hmem
      have hd0 : 0 < d.immcs.length := List.length_pos_iff.2 (hf.blk d (List.mem_of_getElem? hq)).ne
      obtain ⟨sq, h8, _, h10⟩ := flow_sound hf hu hr hl q 0 d hq hd0 (by omega)
      have hqlt := (List.getElem?_eq_some_iff.1 hq).1
      have heq := (hf.eqn q hqlt d hq).1
      simp only [List.drop_zero] at h8
      rw [heq] at h8; simp at h8; subst h8
      obtain ⟨c', _, h11, h12⟩ := (hf.eqn p hplt c hc).2 _ hmem
      simp at h11
      rw [hq] at h11; simp at h11; subst h11
      exact atEnd (h12 u h10)
    rcases hcase with ⟨rfl, hnj⟩ | ⟨n, y, htg, hy, hyl⟩
    · by_cases hk1 : k + 1 < c.immcs.length
      · obtain ⟨s, h1, _, h2⟩ := flow_sound hf hu hr hl p (k + 1) c hc hk1 (by omega)
        exact inSet (k + 1) (by omega) s h1 h2
      · have hk2 : k + 1 = c.immcs.length := by omega
        have hoff := off_succ (hbl p c hc)
        have hp1 : p + 1 < g.length := by
          apply Classical.byContradiction
          intro hcon
          have : off (g.map (·.immcs)) (p + 1) = (g.map (·.immcs)).flatten.length := by
            unfold off; rw [List.take_of_length_le (by simp; omega)]
          omega
        refine enter (p + 1) g[p+1] (by simp [hp1]) (by omega) ?_
        have := hf.graph.fall p c x hc (by rw [getLast?_get hk2]; exact hxk) (by
          cases x with
          | inst i0 =>
            obtain ⟨op, d, f, sn⟩ := i0
            simp only [Immc.isJmp, decide_eq_false_iff_not]
            rintro rfl; exact hnj d f sn rfl
          | data _ => rfl
          | label _ _ _ => rfl) hp1
        simpa using this
    · have hjx : x.isJump = true := hr x (List.mem_of_getElem? hx) (by simp [htg])
      have hk2 : k + 1 = c.immcs.length := by
        apply Classical.byContradiction
        intro hcon
        have := (hf.blk c (List.mem_of_getElem? hc)).jmp k x (by omega) hxk
        rw [this] at hjx; simp at hjx
      obtain ⟨q, d, y', h8, h9, h10, h11⟩ := hf.graph.jump p c x n hc (by rw [getLast?_get hk2]; exact hxk) hjx htg
      refine enter q d h8 ?_ h11
      have hd0 : 0 < d.immcs.length := (List.getElem?_eq_some_iff.1 h9).1
      have h12 := flatten_get (hbl q d h8) hd0
      rw [h9, hf.code] at h12
      exact hu j _ n y y' hy h12 hyl h10
  · by_cases hji : j ≤ i
    · exact absurd hl (hb i j u hs hji)
    · obtain ⟨k, x, h1, h2, h3⟩ := live_read_later hb hl
      obtain ⟨h4, l, h5, h6⟩ := hj.used k x u h2 h3
      exact ⟨h4, l, h5, by omega⟩

end Regalloc
end Umlcc
