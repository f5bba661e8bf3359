import Verif.Model.Regalloc
/-! Invariant of the linear scan of regalloc.c (helper lemmas). -/
namespace Umlcc
namespace Regalloc

/-- firsts never decrease with the register number -/
def Mono (lv : List Live) : Prop :=
  ∀ (u v : Nat) lu lw, u ≤ v → lv[u]? = some lu → lv[v]? = some lw → lu.first ≤ lw.first

theorem freeUnused_spec (lv : List Live) (cur : Live) : ∀ (st : List (Option Nat)),
    (∀ (r u : Nat), st[r]? = some (some u) → u < lv.length) →
    ∃ st', freeUnused lv cur st = .ok st' ∧ st'.length = st.length ∧
      (∀ (r u : Nat), st'[r]? = some (some u) ↔
        st[r]? = some (some u) ∧ ∃ l, lv[u]? = some l ∧ cur.first < l.last) := by
  intro st
  induction st with
  | nil => intro _; exact ⟨[], rfl, rfl, by simp⟩
  | cons s ss ih =>
    intro h
    obtain ⟨ss', h1, h2, h3⟩ := ih (fun r u hr => h (r + 1) u (by simpa using hr))
    cases s with
    | none =>
      refine ⟨none :: ss', by simp [freeUnused, h1], by simp [h2], ?_⟩
      intro r u
      cases r with
      | zero => simp
      | succ r => simpa using h3 r u
    | some w =>
      have hw := h 0 w (by simp)
      have hg : lv[w]? = some lv[w] := by simp [hw]
      refine ⟨(if lv[w].last ≤ cur.first then none else some w) :: ss', by simp [freeUnused, h1, hg], by simp [h2], ?_⟩
      intro r u
      cases r with
      | zero =>
        by_cases hl : lv[w].last ≤ cur.first
        · simp only [hl, if_true, List.getElem?_cons_zero]
          constructor
          · simp
          · rintro ⟨h4, l, h5, h6⟩
            simp at h4; subst h4
            rw [hg] at h5; simp at h5; subst h5; omega
        · simp only [hl, if_false, List.getElem?_cons_zero]
          constructor
          · intro h4; refine ⟨h4, ?_⟩
            simp at h4; subst h4
            exact ⟨_, hg, by omega⟩
          · intro h4; exact h4.1
      | succ r => simpa using h3 r u

theorem firstFree_some {st : List (Option Nat)} {r : Nat} (h : firstFree st = some r) : st[r]? = some none := by
  induction st generalizing r with
  | nil => simp [firstFree] at h
  | cons s ss ih =>
    cases s with
    | none => simp [firstFree] at h; subst h; simp
    | some u =>
      simp only [firstFree, Option.map_eq_some_iff] at h
      obtain ⟨r', h1, rfl⟩ := h
      simpa using ih h1

theorem firstFree_none {st : List (Option Nat)} (h : firstFree st = none) (r : Nat) (hr : r < st.length) :
    ∃ u, st[r]? = some (some u) := by
  induction st generalizing r with
  | nil => simp at hr
  | cons s ss ih =>
    cases s with
    | none => simp [firstFree] at h
    | some u =>
      simp only [firstFree, Option.map_eq_none_iff] at h
      cases r with
      | zero => exact ⟨u, by simp⟩
      | succ r => simpa using ih h r (by simpa using hr)

theorem spillScan_spec (lv : List Live) : ∀ (st : List (Option Nat)) (best : Int × Option (Nat × Nat)) (r0 : Nat),
    (∀ (r : Nat), r < st.length → ∃ u, st[r]? = some (some u) ∧ u < lv.length) →
    ∃ b, spillScan lv best r0 st = .ok b ∧
      (b.2 = best.2 ∨ ∃ r u, b.2 = some (r0 + r, u) ∧ st[r]? = some (some u)) := by
  intro st
  induction st with
  | nil => intro best r0 _; exact ⟨best, rfl, Or.inl rfl⟩
  | cons s ss ih =>
    intro best r0 h
    obtain ⟨u, h1, h2⟩ := h 0 (by simp)
    simp at h1; subst h1
    have hg : lv[u]? = some lv[u] := by simp [h2]
    obtain ⟨b, h3, h4⟩ := ih (if best.1 ≥ ((lv[u].last : Int) - lv[u].first) then best else
      (((lv[u].last : Int) - lv[u].first), some (r0, u))) (r0 + 1)
      (fun r hr => by obtain ⟨w, hw⟩ := h (r + 1) (by simpa using hr); exact ⟨w, by simpa using hw⟩)
    refine ⟨b, by simp only [spillScan, hg]; exact h3, ?_⟩
    rcases h4 with h4 | ⟨r, w, h4, h5⟩
    · by_cases hb : best.1 ≥ ((lv[u].last : Int) - lv[u].first)
      · left; rw [if_pos hb] at h4; exact h4
      · right; rw [if_neg hb] at h4; exact ⟨0, u, by simpa using h4, by simp⟩
    · right; exact ⟨r + 1, w, by rw [h4]; congr 2; omega, by simpa using h5⟩

/-- state of the scan before virtual register `v` is handled -/
structure AInv (lv : List Live) (n v : Nat) (st al : List (Option Nat)) : Prop where
  stlen : st.length = n
  allen : al.length = lv.length
  stat : ∀ (r u : Nat), st[r]? = some (some u) → u < v ∧ u < lv.length ∧ al[u]? = some (some r)
  fresh : ∀ u : Nat, v ≤ u → u < lv.length → al[u]? = some none
  bound : ∀ (u r : Nat), al[u]? = some (some r) → r < n
  old : ∀ (u r : Nat), al[u]? = some (some r) → st[r]? = some (some u) ∨
    ∃ w lu lw, w < v ∧ lv[u]? = some lu ∧ lv[w]? = some lw ∧ lu.last ≤ lw.first
  disj : ∀ (u w r : Nat) lu lw, u < w → al[u]? = some (some r) → al[w]? = some (some r) →
    lv[u]? = some lu → lv[w]? = some lw → lu.last ≤ lw.first

theorem ainv_init (lv : List Live) (n : Nat) : AInv lv n 0 (List.replicate n none) (List.replicate lv.length none) := by
  refine ⟨by simp, by simp, ?_, ?_, ?_, ?_, ?_⟩
  · intro r u h; simp [List.getElem?_replicate] at h
  · intro u _ h; simp [List.getElem?_replicate, h]
  · intro u r h; simp [List.getElem?_replicate] at h
  · intro u r h; simp [List.getElem?_replicate] at h
  · intro u w r _ _ _ h; simp [List.getElem?_replicate] at h

/-- giving register `r` to `v` when nothing still in use occupies it -/
theorem ainv_give {lv : List Live} {n v r : Nat} {l : Live} {st al : List (Option Nat)} (hm : Mono lv)
    (hv : lv[v]? = some l) (hr : r < n) (stlen : st.length = n) (allen : al.length = lv.length)
    (stat' : ∀ (q u : Nat), q ≠ r → st[q]? = some (some u) → u < v ∧ u < lv.length ∧ al[u]? = some (some q))
    (fresh : ∀ u : Nat, v ≤ u → u < lv.length → al[u]? = some none)
    (bound : ∀ (u r : Nat), al[u]? = some (some r) → r < n)
    (old : ∀ (u q : Nat), al[u]? = some (some q) → (q ≠ r ∧ st[q]? = some (some u)) ∨
      ∃ w lu lw, w < v + 1 ∧ lv[u]? = some lu ∧ lv[w]? = some lw ∧ lu.last ≤ lw.first)
    (disj : ∀ (u w r : Nat) lu lw, u < w → al[u]? = some (some r) → al[w]? = some (some r) →
      lv[u]? = some lu → lv[w]? = some lw → lu.last ≤ lw.first) :
    AInv lv n (v + 1) (st.set r (some v)) (al.set v (some r)) := by
  have hvl : v < lv.length := by rw [List.getElem?_eq_some_iff] at hv; exact hv.1
  have hval : al[v]? = some none := fresh v (Nat.le_refl _) hvl
  have hset : ∀ u : Nat, (al.set v (some r))[u]? = if v = u then some (some r) else al[u]? := by
    intro u; rw [List.getElem?_set]
    by_cases h : v = u
    · subst h; simp [allen, hvl]
    · simp [h]
  refine ⟨by simp [stlen], by simp [allen], ?_, ?_, ?_, ?_, ?_⟩
  · intro q u h
    rw [List.getElem?_set] at h
    by_cases hq : r = q
    · subst hq
      simp [stlen, hr] at h
      subst h
      exact ⟨by omega, hvl, by rw [hset]; simp⟩
    · simp only [if_neg hq] at h
      obtain ⟨h1, h2, h3⟩ := stat' q u (fun e => hq e.symm) h
      exact ⟨by omega, h2, by rw [hset, if_neg (by omega)]; exact h3⟩
  · intro u h1 h2
    rw [hset, if_neg (by omega)]; exact fresh u (by omega) h2
  · intro u q h
    rw [hset] at h
    split at h
    · simp at h; omega
    · exact bound u q h
  · intro u q h
    rw [hset] at h
    split at h
    · rename_i e; subst e
      simp at h; subst h
      left; simp [List.getElem?_set, stlen, hr]
    · rcases old u q h with ⟨h1, h2⟩ | ⟨w, lu, lw, h1, h2⟩
      · left; rw [List.getElem?_set, if_neg (fun e => h1 e.symm)]; exact h2
      · right; exact ⟨w, lu, lw, h1, h2⟩
  · intro u w q lu lw huw h1 h2 h3 h4
    rw [hset] at h1 h2
    by_cases hu : v = u
    · -- `u = v < w`: w is still fresh
      subst hu
      rw [if_neg (by omega)] at h2
      have : w < lv.length := by rw [List.getElem?_eq_some_iff] at h4; exact h4.1
      rw [fresh w (by omega) this] at h2; simp at h2
    · rw [if_neg hu] at h1
      by_cases hw : v = w
      · subst hw
        simp at h2; subst h2
        rcases old u r h1 with ⟨h5, _⟩ | ⟨w', lu', lw', h5, h6, h7, h8⟩
        · exact absurd rfl h5
        · rw [h3] at h6; simp at h6; subst h6
          have := hm w' v lw' lw (by omega) h7 h4
          omega
      · rw [if_neg hw] at h2
        exact disj u w q lu lw huw h1 h2 h3 h4

theorem allocStep_spec {lv : List Live} {n v : Nat} {l : Live} {st al : List (Option Nat)} (hm : Mono lv)
    (hv : lv[v]? = some l) (h : AInv lv n v st al) :
    ∃ st' al', allocStep lv st al v = .ok (st', al') ∧ AInv lv n (v + 1) st' al' ∧
      (((∃ st1, freeUnused lv l st = .ok st1 ∧ firstFree st1 ≠ none) ∧ ∃ r, al' = al.set v (some r)) ∨
        ((∃ st1, freeUnused lv l st = .ok st1 ∧ firstFree st1 = none) ∧ ∃ u, u ≤ v ∧ al'[u]? = some none)) := by
  obtain ⟨st1, h1, h2, h3⟩ := freeUnused_spec lv l st (fun r u hr => (h.stat r u hr).2.1)
  have hvl : v < lv.length := by rw [List.getElem?_eq_some_iff] at hv; exact hv.1
  have old1 : ∀ (u q : Nat), al[u]? = some (some q) → st1[q]? = some (some u) ∨
      ∃ w lu lw, w < v + 1 ∧ lv[u]? = some lu ∧ lv[w]? = some lw ∧ lu.last ≤ lw.first := by
    intro u q hu
    rcases h.old u q hu with h4 | ⟨w, lu, lw, h4, h5⟩
    · obtain ⟨_, h5, _⟩ := h.stat q u h4
      have hg : lv[u]? = some lv[u] := by simp [h5]
      by_cases hlt : l.first < lv[u].last
      · left; rw [h3]; exact ⟨h4, _, hg, hlt⟩
      · right; exact ⟨v, _, _, by omega, hg, hv, by omega⟩
    · right; exact ⟨w, lu, lw, by omega, h5⟩
  have stat1 : ∀ (q u : Nat), st1[q]? = some (some u) → u < v ∧ u < lv.length ∧ al[u]? = some (some q) :=
    fun q u hq => h.stat q u ((h3 q u).1 hq).1
  cases hff : firstFree st1 with
  | some r =>
    have hfr := firstFree_some hff
    have hrn : r < n := by
      rw [List.getElem?_eq_some_iff] at hfr; have := hfr.1; rw [h2, h.stlen] at this; exact this
    refine ⟨st1.set r (some v), al.set v (some r), by simp [allocStep, hv, h1, hff], ?_, Or.inl ⟨⟨st1, h1, by simp [hff]⟩, r, rfl⟩⟩
    apply ainv_give hm hv hrn (by rw [h2, h.stlen]) h.allen (fun q u _ => stat1 q u) h.fresh
      h.bound _ h.disj
    intro u q hu
    rcases old1 u q hu with h4 | h4
    · left; refine ⟨?_, h4⟩; rintro rfl; rw [hfr] at h4; simp at h4
    · right; exact h4
  | none =>
    obtain ⟨b, h4, h5⟩ := spillScan_spec lv st1 ((l.last : Int) - l.first, none) 0 (fun r hr => by
      obtain ⟨u, hu⟩ := firstFree_none hff r hr
      exact ⟨u, hu, (stat1 r u hu).2.1⟩)
    have hval : al[v]? = some none := h.fresh v (Nat.le_refl _) hvl
    rcases h5 with h5 | ⟨r, u, h5, h6⟩
    · have halv : al.set v none = al := by
        apply List.ext_getElem?; intro i
        rw [List.getElem?_set]
        by_cases e : v = i
        · subst e; rw [if_pos rfl, if_pos (by rw [h.allen]; exact hvl), hval]
        · simp [e]
      refine ⟨st1, al.set v none, ?_, ?_, Or.inr ⟨⟨st1, h1, hff⟩, v, Nat.le_refl _, by rw [halv]; exact hval⟩⟩
      · obtain ⟨b1, b2⟩ := b
        simp at h5; subst h5
        simp [allocStep, hv, h1, hff, h4]
      · rw [halv]
        refine ⟨by rw [h2, h.stlen], h.allen, fun q w hq => ?_, fun w hw => h.fresh w (by omega), h.bound, old1, h.disj⟩
        obtain ⟨ha, hb, hc⟩ := stat1 q w hq; exact ⟨by omega, hb, hc⟩
    · simp only [Nat.zero_add] at h5
      obtain ⟨hu1, hu2, hu3⟩ := stat1 r u h6
      have hrn : r < n := h.bound u r hu3
      have hset : ∀ w : Nat, (al.set u none)[w]? = if u = w then some none else al[w]? := by
        intro w; rw [List.getElem?_set]
        by_cases e : u = w
        · subst e; simp [h.allen, hu2]
        · simp [e]
      refine ⟨st1.set r (some v), (al.set u none).set v (some r), ?_, ?_,
        Or.inr ⟨⟨st1, h1, hff⟩, u, by omega, ?_⟩⟩
      · obtain ⟨b1, b2⟩ := b
        simp at h5; subst h5
        simp [allocStep, hv, h1, hff, h4]
      · apply ainv_give hm hv hrn (by rw [h2, h.stlen]) (by simp [h.allen])
        · intro q w hq hw
          obtain ⟨ha, hb, hc⟩ := stat1 q w hw
          refine ⟨ha, hb, ?_⟩
          rw [hset, if_neg]
          · exact hc
          · rintro rfl
            rw [hu3] at hc; simp at hc; exact hq hc.symm
        · intro w hw1 hw2
          rw [hset]; split
          · rfl
          · exact h.fresh w hw1 hw2
        · intro w q hw
          rw [hset] at hw; split at hw
          · simp at hw
          · exact h.bound w q hw
        · intro w q hw
          rw [hset] at hw; split at hw
          · simp at hw
          · rename_i hne
            rcases old1 w q hw with h7 | h7
            · left; refine ⟨?_, h7⟩
              rintro rfl; rw [h6] at h7; simp at h7; exact hne h7
            · right; exact h7
        · intro a b q la lb hab ha hb
          rw [hset] at ha hb
          split at ha
          · simp at ha
          split at hb
          · simp at hb
          exact h.disj a b q la lb hab ha hb
      · rw [List.getElem?_set, if_neg (by omega), hset, if_pos rfl]

theorem allocLoop_spec {lv : List Live} {n : Nat} (hm : Mono lv) : ∀ (k v : Nat) (st al : List (Option Nat)),
    v + k = lv.length → AInv lv n v st al →
    ∃ st' al', allocLoop lv st al v k = .ok al' ∧ AInv lv n lv.length st' al' := by
  intro k
  induction k with
  | zero => intro v st al hk h; simp at hk; subst hk; exact ⟨st, al, rfl, h⟩
  | succ k ih =>
    intro v st al hk h
    have hv : lv[v]? = some (lv[v]'(by omega)) := by simp
    obtain ⟨st1, al1, h1, h2, _⟩ := allocStep_spec hm hv h
    obtain ⟨st2, al2, h3, h4⟩ := ih (v + 1) st1 al1 (by omega) h2
    exact ⟨st2, al2, by simp [allocLoop, h1, h3], h4⟩

/-- once a register is spilled (-1) and passed, it stays spilled -/
theorem allocLoop_keeps_none {lv : List Live} {n : Nat} (hm : Mono lv) : ∀ (k v : Nat) (st al : List (Option Nat)),
    v + k = lv.length → AInv lv n v st al → ∀ u, u < v → al[u]? = some none →
    ∀ al', allocLoop lv st al v k = .ok al' → al'[u]? = some none := by
  intro k
  induction k with
  | zero => intro v st al hk _ u _ hn al' h; simp [allocLoop] at h; subst h; exact hn
  | succ k ih =>
    intro v st al hk h u hu hn al' hal
    have hv : lv[v]? = some (lv[v]'(by omega)) := by simp
    obtain ⟨st1, al1, h1, h2, _⟩ := allocStep_spec hm hv h
    simp only [allocLoop, h1, Out.ok_bind] at hal
    refine ih (v + 1) st1 al1 (by omega) h2 u (by omega) ?_ al' hal
    -- `al1` differs from `al` at `v` and at a spilled register only
    unfold allocStep at h1
    simp only [hv] at h1
    simp only [Out.bind_eq_ok] at h1
    obtain ⟨s1, _, h1⟩ := h1
    have hone : ∀ x : Option Nat, (al.set v x)[u]? = some none := by
      intro x; rw [List.getElem?_set, if_neg (by omega)]; exact hn
    split at h1
    · simp at h1; rw [← h1.2]; exact hone _
    · simp only [Out.bind_eq_ok] at h1
      obtain ⟨⟨b, sp⟩, _, h1⟩ := h1
      dsimp only at h1
      split at h1
      · simp at h1; rw [← h1.2]; exact hone _
      · rename_i w _
        simp at h1; rw [← h1.2]
        rw [List.getElem?_set, if_neg (by omega), List.getElem?_set]
        split
        · split
          · rfl
          · rename_i _ w2 _ e hlt
            have := (List.getElem?_eq_some_iff.1 hn).1
            omega
        · exact hn

end Regalloc
end Umlcc
