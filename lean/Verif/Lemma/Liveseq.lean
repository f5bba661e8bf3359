import Verif.Lemma.Pressure
/-! The cursors of liveseq.c (helper lemmas). -/
namespace Umlcc
open Regalloc

/-- where the cursor stands after `n` steps -/
structure Cur (s : Liveseq) (n : Nat) : Prop where
  idx : s.index = n
  lo : s.cur < 0 → s.cur = -1 ∧ ∀ l, s.lives[0]? = some l → n < l.first
  mid : 0 ≤ s.cur → s.cur < s.lives.length → ∃ l, s.lives[s.cur.toNat]? = some l ∧ l.first ≤ n ∧
    ∀ l', s.lives[s.cur.toNat + 1]? = some l' → n < l'.first
  hi : (s.lives.length : Int) ≤ s.cur → ∀ l ∈ s.lives, l.last ≤ n

theorem next_cur {s : Liveseq} {n N : Nat} (hc : RSpec.Consecutive s.lives N) (h : Cur s n) :
    ∃ s', s.next = .ok s' ∧ s'.lives = s.lives ∧ Cur s' (n + 1) := by
  have hpos : ∀ l ∈ s.lives, 0 < l.first ∧ l.first ≤ l.last ∧ l.last ≤ N := hc.1
  unfold Liveseq.next
  rw [h.idx]
  by_cases h0 : ((s.lives.length : Int) = 0 ∨ s.cur ≥ (s.lives.length : Int))
  · dsimp only; rw [if_pos h0]
    refine ⟨_, rfl, rfl, ⟨rfl, ?_, ?_, ?_⟩⟩
    · intro hlt
      refine ⟨(h.lo hlt).1, ?_⟩
      intro l hl
      rcases h0 with h0 | h0
      · have : s.lives = [] := List.length_eq_zero_iff.1 (by omega)
        rw [this] at hl; simp at hl
      · exact absurd hlt (by show ¬ s.cur < 0; omega)
    · intro ha hb
      rcases h0 with h0 | h0
      · have : s.cur < (s.lives.length : Int) := hb
        have : 0 ≤ s.cur := ha
        omega
      · have hb : s.cur < (s.lives.length : Int) := hb
        omega
    · intro ha l hl
      have := h.hi ha l hl
      omega
  · dsimp only; rw [if_neg h0]
    have hlen : 0 < s.lives.length := by
      apply Nat.pos_of_ne_zero; intro e; exact h0 (Or.inl (by omega))
    have hcl : s.cur < s.lives.length := by
      apply Classical.byContradiction; intro e; exact h0 (Or.inr (by omega))
    by_cases hneg : s.cur < 0
    · rw [if_pos hneg]
      have hg : s.lives[0]? = some s.lives[0] := by simp [hlen]
      rw [hg]
      dsimp only
      obtain ⟨e1, e2⟩ := h.lo hneg
      have hn := e2 _ hg
      by_cases hge : n + 1 ≥ s.lives[0].first
      · rw [if_pos hge]
        refine ⟨_, rfl, rfl, ⟨rfl, by intro h; exact absurd h (by simp), ?_, ?_⟩⟩
        · intro _ _
          refine ⟨s.lives[0], hg, by omega, ?_⟩
          intro l' hl'
          have := (hc.2 0 1 _ _ (by omega) hg hl').1
          omega
        · intro ha; have ha : (s.lives.length : Int) ≤ 0 := ha; omega
      · rw [if_neg hge]
        refine ⟨_, rfl, rfl, ⟨rfl, ?_, ?_, ?_⟩⟩
        · intro _; refine ⟨e1, ?_⟩
          intro l hl; rw [hg] at hl; simp at hl; subst hl; omega
        · intro ha; have ha : 0 ≤ s.cur := ha; omega
        · intro ha; have ha : (s.lives.length : Int) ≤ s.cur := ha; omega
    · rw [if_neg hneg]
      obtain ⟨l, hl, hf, hn⟩ := h.mid (by omega) hcl
      rw [hl]
      dsimp only
      by_cases hlast : s.cur = (s.lives.length : Int) - 1
      · rw [if_pos hlast]
        by_cases hge : n + 1 ≥ l.last
        · rw [if_pos hge]
          refine ⟨_, rfl, rfl, ⟨rfl, ?_, ?_, ?_⟩⟩
          · intro ha; have ha : (s.lives.length : Int) < 0 := ha; omega
          · intro _ hb; have hb : (s.lives.length : Int) < s.lives.length := hb; omega
          · intro _ l' hl'
            obtain ⟨k, hk⟩ := List.mem_iff_getElem?.1 hl'
            have hkl : k < s.lives.length := (List.getElem?_eq_some_iff.1 hk).1
            by_cases e : k = s.cur.toNat
            · subst e; rw [hl] at hk; simp at hk; subst hk; exact hge
            · have := (hc.2 k s.cur.toNat l' l (by omega) hk hl).2
              omega
        · rw [if_neg hge]
          refine ⟨_, rfl, rfl, ⟨rfl, ?_, ?_, ?_⟩⟩
          · intro ha; exact absurd ha hneg
          · intro _ _
            refine ⟨l, hl, by omega, ?_⟩
            intro l' hl'
            have hl'' := (List.getElem?_eq_some_iff.1 hl').1
            have : s.cur.toNat + 1 < s.lives.length := hl''
            omega
          · intro ha; have ha : (s.lives.length : Int) ≤ s.cur := ha; omega
      · rw [if_neg hlast]
        have hk : (s.cur + 1).toNat < s.lives.length := by omega
        have ek : (s.cur + 1).toNat = s.cur.toNat + 1 := by omega
        have hg : s.lives[(s.cur + 1).toNat]? = some s.lives[(s.cur + 1).toNat] := by simp [hk]
        rw [hg]
        dsimp only
        have hnn := hn _ (by rw [← ek]; exact hg)
        by_cases hge : n + 1 ≥ (s.lives[(s.cur + 1).toNat]).first
        · rw [if_pos hge]
          refine ⟨_, rfl, rfl, ⟨rfl, ?_, ?_, ?_⟩⟩
          · intro ha; have ha : s.cur + 1 < 0 := ha; omega
          · intro _ _
            refine ⟨_, hg, by omega, ?_⟩
            intro l' hl'
            have := (hc.2 (s.cur + 1).toNat ((s.cur + 1).toNat + 1) _ _ (by omega) hg hl').1
            omega
          · intro ha; have ha : (s.lives.length : Int) ≤ s.cur + 1 := ha; omega
        · rw [if_neg hge]
          refine ⟨_, rfl, rfl, ⟨rfl, ?_, ?_, ?_⟩⟩
          · intro ha; exact absurd ha hneg
          · intro _ _
            refine ⟨l, hl, by omega, ?_⟩
            intro l' hl'
            have hl' : s.lives[s.cur.toNat + 1]? = some l' := hl'
            rw [← ek, hg] at hl'; simp at hl'; subst hl'; omega
          · intro ha; have ha : (s.lives.length : Int) ≤ s.cur := ha; omega

theorem nextN_cur {ls : List Live} {N : Nat} (hc : RSpec.Consecutive ls N) (n : Nat) :
    ∃ s, Liveseq.nextN ⟨ls, 0, -1⟩ n = .ok s ∧ s.lives = ls ∧ Cur s n := by
  induction n with
  | zero =>
    refine ⟨_, rfl, rfl, ⟨rfl, ?_, ?_, ?_⟩⟩
    · intro _; refine ⟨rfl, ?_⟩
      intro l hl; exact (hc.1 l (List.mem_of_getElem? hl)).1
    · intro ha; have ha : (0 : Int) ≤ -1 := ha; omega
    · intro ha
      have ha : (ls.length : Int) ≤ -1 := ha
      omega
  | succ n ih =>
    obtain ⟨s, h1, h2, h3⟩ := ih
    obtain ⟨s', h4, h5, h6⟩ := next_cur (by rw [h2]; exact hc) h3
    exact ⟨s', by simp [Liveseq.nextN, h1, h4], by rw [h5, h2], h6⟩

theorem isAlive_cur {s : Liveseq} {n N : Nat} (hc : RSpec.Consecutive s.lives N) (h : Cur s n) :
    ∃ b, s.isAlive = .ok b ∧ (b = true ↔ ∃ l ∈ s.lives, l.first ≤ n ∧ n < l.last) := by
  unfold Liveseq.isAlive
  by_cases h0 : s.lives.length = 0 ∨ s.cur ≥ (s.lives.length : Int)
  · rw [if_pos h0]
    refine ⟨false, rfl, ?_⟩
    constructor
    · intro h; simp at h
    · rintro ⟨l, hl, h1, h2⟩
      rcases h0 with h0 | h0
      · have := List.length_eq_zero_iff.1 h0
        rw [this] at hl; simp at hl
      · have := h.hi (by omega) l hl
        omega
  · rw [if_neg h0]
    have hlen : 0 < s.lives.length := by
      apply Nat.pos_of_ne_zero; intro e; exact h0 (Or.inl (by omega))
    have hcl : s.cur < s.lives.length := by
      apply Classical.byContradiction; intro e; exact h0 (Or.inr (by omega))
    dsimp only
    by_cases hneg : s.cur < 0
    · rw [if_pos hneg]
      have hg : s.lives[(0 : Int).toNat]? = some s.lives[0] := by simp [hlen]
      rw [hg]
      refine ⟨_, rfl, ?_⟩
      rw [h.idx]
      have hn := (h.lo hneg).2 _ hg
      simp only [decide_eq_true_eq]
      constructor
      · rintro ⟨h1, _⟩; omega
      · rintro ⟨l, hl, h1, h2⟩
        obtain ⟨k, hk⟩ := List.mem_iff_getElem?.1 hl
        by_cases e : k = 0
        · subst e
          have hg' : s.lives[0]? = some s.lives[0] := by simp [hlen]
          rw [hg'] at hk; simp at hk; subst hk; omega
        · have := (hc.2 0 k _ _ (by omega) hg hk).1
          omega
    · rw [if_neg hneg]
      obtain ⟨l, hl, hf, hn⟩ := h.mid (by omega) hcl
      rw [hl]
      refine ⟨_, rfl, ?_⟩
      rw [h.idx]
      simp only [decide_eq_true_eq]
      constructor
      · rintro ⟨h1, h2⟩; exact ⟨l, List.mem_of_getElem? hl, h1, h2⟩
      · rintro ⟨l', hl', h1, h2⟩
        obtain ⟨k, hk⟩ := List.mem_iff_getElem?.1 hl'
        rcases Nat.lt_trichotomy k s.cur.toNat with hlt | e | hgt
        · have := (hc.2 k _ _ _ hlt hk hl).2
          omega
        · subst e; rw [hl] at hk; simp at hk; subst hk; exact ⟨h1, h2⟩
        · -- a later interval has not started
          have hk1 : s.cur.toNat + 1 < s.lives.length := by
            have := (List.getElem?_eq_some_iff.1 hk).1; omega
          have hg : s.lives[s.cur.toNat + 1]? = some s.lives[s.cur.toNat + 1] := by simp [hk1]
          have hn' := hn _ hg
          by_cases e : k = s.cur.toNat + 1
          · subst e; rw [hg] at hk; simp at hk; subst hk; omega
          · have := (hc.2 _ k _ _ (by omega) hg hk).1
            omega

/-! ### the sequences built by `update_liveseqs` -/

/-- intervals of the virtual registers assigned to `r` -/
def assigned (ps : List (Live × Option Nat)) (r : Nat) : List Live :=
  ps.filterMap fun p => if p.2 = some r then some p.1 else none

theorem updateLiveseqs_lives : ∀ (ps : List (Live × Option Nat)) (qs qs' : List Liveseq),
    updateLiveseqs qs ps = .ok qs' → qs'.length = qs.length ∧
      ∀ (r : Nat) q, qs[r]? = some q → qs'[r]? = some { q with lives := q.lives ++ assigned ps r } := by
  intro ps
  induction ps with
  | nil => intro qs qs' h; simp [updateLiveseqs] at h; subst h; simp [assigned]
  | cons a as ih =>
    intro qs qs' h
    obtain ⟨l, x⟩ := a
    cases x with
    | none => simp [updateLiveseqs] at h
    | some s =>
      simp only [updateLiveseqs] at h
      split at h
      · simp at h
      · rename_i q0 hq0
        obtain ⟨h1, h2⟩ := ih _ _ h
        refine ⟨by simpa using h1, ?_⟩
        intro r q hq
        have hlt := (List.getElem?_eq_some_iff.1 hq0).1
        by_cases e : s = r
        · subst e
          rw [hq0] at hq; simp at hq; subst hq
          have := h2 s { q0 with lives := q0.lives ++ [l] } (by simp [hlt])
          rw [this]
          simp [assigned]
        · have := h2 r q (by rw [List.getElem?_set, if_neg e]; exact hq)
          rw [this]
          have : assigned ((l, some s) :: as) r = assigned as r := by
            simp [assigned, e]
          rw [this]

/-- the intervals of one physical register follow each other -/
theorem assigned_consecutive {code : List Immc} {o n : Nat} {lv : List Live} {al st : List (Option Nat)} (hj : J o code lv)
    (ha : AInv lv n lv.length st al) (hdef : RSpec.DefBefore code) (hfr : RSpec.FirstOrRead code)
    (hlab : ∀ x, code[0]? = some x → x.isLabel = true) :
    ∀ (m : Nat), m ≤ lv.length → ∀ (r : Nat),
      (∀ l ∈ assigned ((lv.take m).zip (al.take m)) r, o < l.first ∧ l.first ≤ l.last ∧ l.last ≤ o + code.length ∧
        ∃ u, u < m ∧ lv[u]? = some l ∧ al[u]? = some (some r)) ∧
      ∀ (i j : Nat) a b, i < j → (assigned ((lv.take m).zip (al.take m)) r)[i]? = some a → (assigned ((lv.take m).zip (al.take m)) r)[j]? = some b →
        a.first < b.first ∧ a.last ≤ b.first := by
  intro m
  induction m with
  | zero => intro _ r; simp [assigned]
  | succ m ih =>
    intro hm r
    obtain ⟨i1, i2⟩ := ih (by omega) r
    have hml : m < lv.length := by omega
    have hma : m < al.length := by rw [ha.allen]; exact hml
    have hz : (lv.take (m+1)).zip (al.take (m+1)) = (lv.take m).zip (al.take m) ++ [(lv[m], al[m])] := by
      rw [List.take_add_one, List.take_add_one, List.getElem?_eq_getElem hml, List.getElem?_eq_getElem hma]
      rw [List.zip_append (by simp; omega)]
      simp
    have happ : assigned ((lv.take (m+1)).zip (al.take (m+1))) r =
        assigned ((lv.take m).zip (al.take m)) r ++ (if al[m] = some r then [lv[m]] else []) := by
      rw [hz]
      simp only [assigned, List.filterMap_append, List.filterMap_cons, List.filterMap_nil]
      split <;> simp_all
    rw [happ]
    by_cases hr : al[m] = some r
    · rw [if_pos hr]
      have hlm : lv[m]? = some lv[m] := by simp [hml]
      have ham : al[m]? = some (some r) := by rw [List.getElem?_eq_getElem hma, hr]
      have hnew : o < lv[m].first ∧ lv[m].first ≤ lv[m].last ∧ lv[m].last ≤ o + code.length ∧
          ∃ u, u < m + 1 ∧ lv[u]? = some lv[m] ∧ al[u]? = some (some r) := by
        have hb := hj.bd m _ hlm
        obtain ⟨i, x, v, h1, h2, _, h4, _⟩ := hj.orig m _ hlm
        have hi0 : i ≠ 0 := by
          rintro rfl
          have := hlab x h1
          cases x with
          | inst _ => simp [Immc.isLabel] at this
          | data _ => simp [Immc.isLabel] at this
          | label _ _ _ => simp [RSpec.writes] at h2
        exact ⟨by omega, hb.1, hb.2, m, by omega, hlm, ham⟩
      refine ⟨?_, ?_⟩
      · intro l hl
        rw [List.mem_append] at hl
        rcases hl with hl | hl
        · obtain ⟨a, b, c, u, d, e⟩ := i1 l hl
          exact ⟨a, b, c, u, by omega, e⟩
        · simp at hl; subst hl; exact hnew
      · intro i j a b hij hia hjb
        rcases getElem?_snoc_cases hjb with ⟨hlt, hjb⟩ | ⟨rfl, rfl⟩
        · rw [List.getElem?_append_left (by omega)] at hia
          exact i2 i j a b hij hia hjb
        · rw [List.getElem?_append_left hij] at hia
          obtain ⟨_, hab, _, u, hum, hlu, hau⟩ := i1 a (List.mem_of_getElem? hia)
          have hd := ha.disj u m r a lv[m] hum hau ham hlu hlm
          have hmono := hj.mono u m a lv[m] (by omega) hlu hlm
          refine ⟨?_, hd⟩
          -- equal starts would make `a` empty: then register `u` is never read and was written first
          apply Classical.byContradiction
          intro hcon
          have hae : a.first = a.last := by omega
          have hfe : a.first = lv[m].first := by omega
          rcases hfr u (by omega) with ⟨k, x, hk, hrx⟩ | hno
          · obtain ⟨k', y, hk', hy, hwy⟩ := hdef k u (.read hk hrx)
            obtain ⟨l1, h5, h6⟩ := hj.defd k' y u hy hwy (by omega)
            obtain ⟨_, l2, h7, h8⟩ := hj.used k x u hk hrx
            simp at h5 h7
            rw [hlu] at h5 h7; simp at h5 h7; subst h5; subst h7
            omega
          · obtain ⟨i, x, v, h1, h2, h3, h4, h5⟩ := hj.orig m _ hlm
            obtain ⟨k', y, hk', hy, hwy⟩ := hno i x v h1 h2 (by omega)
            obtain ⟨l1, h6, h7⟩ := hj.defd k' y u hy hwy (by omega)
            simp at h6
            rw [hlu] at h6; simp at h6; subst h6
            omega
    · rw [if_neg hr, List.append_nil]
      refine ⟨?_, i2⟩
      intro l hl
      obtain ⟨a, b, c, u, d, e⟩ := i1 l hl
      exact ⟨a, b, c, u, by omega, e⟩

end Umlcc
