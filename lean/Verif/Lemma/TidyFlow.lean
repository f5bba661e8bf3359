import Verif.Lemma.TidyStmts
import Verif.Lemma.FlowTable
import Verif.Lemma.Pressure
/-!
Code whose items read registers for the last time gets registers: the liveness analysis treats it exactly, and the intervals it makes are no longer than necessary.
-/
namespace Umlcc
namespace Tidy
open RSpec (reads writes opeRegs)
open Regalloc
open Gen (GState)

theorem split_at {α : Type} {l : List α} {i : Nat} {x : α} (h : l[i]? = some x) : ∃ a b, l = a ++ x :: b ∧ a.length = i := by
  have hi := (List.getElem?_eq_some_iff.1 h).1
  refine ⟨l.take i, l.drop (i + 1), ?_, by simp; omega⟩
  have := List.getElem_cons_drop (as := l) (i := i) hi
  rw [(List.getElem?_eq_some_iff.1 h).2] at this
  rw [this, List.take_append_drop]

theorem mem_after {α : Type} {a b : List α} {x y : α} {k : Nat} (h : (a ++ x :: b)[k]? = some y) (hk : a.length < k) : y ∈ b := by
  rw [List.getElem?_append_right (by omega), show k - a.length = (k - a.length - 1) + 1 by omega, List.getElem?_cons_succ] at h
  exact List.mem_of_getElem? h

/-- code of statements is orderly -/
theorem orderly {K : Kind} {s s' : GState} {code : List Immc} {k : Nat} (h : SRuns K s code s' k) (hs : s.reg = -1) (hb : RSpec.BackDead code) (hd : RSpec.DefBefore code) :
    RSpec.Orderly code := by
  have later : ∀ (i : Nat) v, RSpec.LiveOut code v i → ∃ (q : Nat) (y : Immc), i < q ∧ code[q]? = some y ∧ v ∈ reads y := by
    rintro i v ⟨j, h1, h2⟩
    obtain ⟨q, y, h3, h4, h5⟩ := live_read_later hb h2
    refine ⟨q, y, ?_, h4, h5⟩
    rcases Nat.lt_or_ge i j with hij | hij
    · omega
    · exact absurd h2 (hb i j v h1 hij)
  intro i x hx
  obtain ⟨a, b, e, rfl⟩ := split_at hx
  rcases h.ord a x b e with hi | ⟨h1, h2⟩ | ⟨b1, b2, w, rfl, h1, h2, h3, h4⟩
  · exact .inr (.inr hi)
  · refine .inl ⟨h1, fun v hv hw hl => ?_⟩
    obtain ⟨q, y, hq, h4, h5⟩ := later _ v hl
    exact h2 v hv hw y (mem_after (e ▸ h4) hq) h5
  · have hin : ∀ (q : Nat) y, a.length ≤ q → q ≤ a.length + b1.length → code[q]? = some y → y ∈ x :: b1 := by
      intro q y g1 g2 g3
      rw [e, List.getElem?_append_right g1, ← List.cons_append, List.getElem?_append_left (by simp; omega)] at g3
      exact List.mem_of_getElem? g3
    refine .inr (.inl ⟨a.length + b1.length, w, by omega, by rw [e]; simp; omega, by omega, ?_, ?_, ?_⟩)
    · rintro v ⟨j, g1, g2⟩
      have g3 : j = a.length + b1.length + 1 := by
        obtain ⟨y, g4, ⟨g5, _⟩ | ⟨n, z, g5, _⟩⟩ := g1
        · exact g5
        · rw [(h2 y (hin _ y (by omega) (by omega) g4)).2.2] at g5; cases g5
      obtain ⟨q, y, g4, g5, g6⟩ := live_read_later hb g2
      obtain ⟨p, z, g7, g8, g9⟩ := hd _ v g2
      have e2 : code = (a ++ x :: b1) ++ b2 := by rw [e]; simp
      refine h4 z ?_ y ?_ v g9 g6
      · rw [e2, List.getElem?_append_left (by simp; omega)] at g8
        exact List.mem_of_getElem? g8
      · rw [e2, List.getElem?_append_right (by simp; omega)] at g5
        exact List.mem_of_getElem? g5
    · intro q y z g1 g2 g3 g4
      exact ⟨(h2 y (hin q y g1 (by omega) g3)).1, (h2 z (hin (q + 1) z (by omega) (by omega) g4)).2.1⟩
    · intro q y v g1 g2 g3 g4
      exact h3 y (hin q y g1 g2 g3) v g4

theorem natural {K : Kind} {s s' : GState} {code : List Immc} {k : Nat} (h : SRuns K s code s' k) (hs : s.reg = -1) : RSpec.NaturalRegs code := fun x hx v hw => by
  have := h.wr x hx v hw; omega

/-! ### intervals end at reads -/

/-- every interval that does not end where it begins ends at a read of its register, or before one -/
def Why (o : Nat) (code : List Immc) (lv : List Live) : Prop :=
  ∀ (u : Nat) l, lv[u]? = some l → l.last = l.first ∨ ∃ (j : Nat) (y : Immc), code[j]? = some y ∧ (u : Int) ∈ reads y ∧ l.last ≤ o + j

theorem setLast_why {o n : Nat} {code : List Immc} {lv lv' : List Live} {id : Int} (h : Why o code lv) (he : setLast lv id n = .ok lv')
    (hr : ∃ (j : Nat) (y : Immc), code[j]? = some y ∧ id ∈ reads y ∧ n ≤ o + j) : Why o code lv' := by
  unfold setLast at he
  split at he
  · simp at he
  · rename_i l hl
    split at hl
    · rename_i hid
      simp at he; subst he
      intro u l' hu
      rw [List.getElem?_set] at hu
      split at hu
      · rename_i e; subst e
        split at hu
        · simp at hu; subst hu
          obtain ⟨j, y, h1, h2, h3⟩ := hr
          exact .inr ⟨j, y, h1, by rw [Int.toNat_of_nonneg hid]; exact h2, h3⟩
        · cases hu
      · exact h u l' hu
    · simp at hl

theorem useOpe_why {o n : Nat} {code : List Immc} {lv lv' : List Live} {p : Option Ope} (h : Why o code lv) (he : useOpe lv n p = .ok lv')
    (hr : ∀ v ∈ opeRegs p, ∃ (j : Nat) (y : Immc), code[j]? = some y ∧ v ∈ reads y ∧ n ≤ o + j) : Why o code lv' := by
  unfold useOpe at he
  split at he
  · exact setLast_why h he (hr _ (by simp [opeRegs]))
  · exact setLast_why h he (hr _ (by simp [opeRegs]))
  · simp at he; subst he; exact h

theorem liveInst_why {o i : Nat} {code : List Immc} {lv lv' : List Live} {x : Immc} (h : Why o code lv) (hx : code[i]? = some x)
    (he : liveInst lv (o + i) x = .ok lv') : Why o code lv' := by
  cases x with
  | inst q =>
    obtain ⟨op, d, f, s⟩ := q
    simp only [liveInst, Out.bind_eq_ok] at he
    obtain ⟨lv1, h1, lv2, h2, h3⟩ := he
    have k1 := useOpe_why h h1 fun v hv => ⟨i, _, hx, by simp [reads, hv], Nat.le_refl _⟩
    have k2 := useOpe_why k1 h2 fun v hv => ⟨i, _, hx, by simp [reads, hv], Nat.le_refl _⟩
    unfold defOpe at h3
    split at h3
    · simp at h3; subst h3
      intro u l hu
      rcases Nat.lt_or_ge u lv2.length with hl | hl
      · rw [List.getElem?_append_left hl] at hu; exact k2 u l hu
      · rw [List.getElem?_append_right hl] at hu
        have := List.eq_of_mem_replicate (List.mem_of_getElem? hu)
        subst this; exact .inl rfl
    · exact setLast_why k2 h3 ⟨i, _, hx, by simp [reads], Nat.le_refl _⟩
    · simp at h3; subst h3; exact k2
  | _ => simp [liveInst] at he; subst he; exact h

theorem liveLoop_why {o : Nat} {code : List Immc} : ∀ (is done rest : List Immc) (lv lv' : List Live), code = done ++ is ++ rest → Why o code lv →
    liveLoop lv (o + done.length) is = .ok lv' → Why o code lv'
  | [], _, _, lv, lv', _, h, he => by simp [liveLoop] at he; subst he; exact h
  | x :: xs, done, rest, lv, lv', e, h, he => by
    simp only [liveLoop, Out.bind_eq_ok] at he
    obtain ⟨lv1, h1, h2⟩ := he
    have k1 := liveInst_why h (i := done.length) (by rw [e]; simp) h1
    exact liveLoop_why xs (done ++ [x]) rest lv1 lv' (by rw [e]; simp) k1 (by simpa [Nat.add_assoc] using h2)

theorem liveOutput_why {o n : Nat} {code : List Immc} : ∀ (ids : List Int) (lv lv' : List Live), Why o code lv →
    (∀ v ∈ ids, ∃ (j : Nat) (y : Immc), code[j]? = some y ∧ v ∈ reads y ∧ n ≤ o + j) → liveOutput lv n ids = .ok lv' → Why o code lv'
  | [], lv, lv', h, _, he => by simp [liveOutput] at he; subst he; exact h
  | v :: vs, lv, lv', h, hr, he => by
    simp only [liveOutput, Out.bind_eq_ok] at he
    obtain ⟨lv1, h1, h2⟩ := he
    exact liveOutput_why vs lv1 lv' (setLast_why h h1 (hr v (by simp))) (fun w hw => hr w (by simp [hw])) h2

theorem liveBlocks_why {o : Nat} {code : List Immc} : ∀ (bs : List Block) (done : List Immc) (lv lv' : List Live), code = done ++ (bs.map (·.immcs)).flatten →
    (∀ (p : Nat) b, bs[p]? = some b → ∀ v ∈ HSet.elems b.output,
      ∃ (j : Nat) (y : Immc), code[j]? = some y ∧ v ∈ reads y ∧ done.length + off (bs.map (·.immcs)) p + b.immcs.length ≤ j) →
    Why o code lv → liveBlocks lv (o + done.length) bs = .ok lv' → Why o code lv'
  | [], _, lv, lv', _, _, h, he => by simp [liveBlocks] at he; subst he; exact h
  | b :: bs, done, lv, lv', e, hr, h, he => by
    simp only [liveBlocks, Out.bind_eq_ok] at he
    obtain ⟨lv1, h1, lv2, h2, h3⟩ := he
    have k1 := liveLoop_why b.immcs done (bs.map (·.immcs)).flatten lv lv1 (by rw [e]; simp) h h1
    have k2 := liveOutput_why _ lv1 lv2 k1 (fun v hv => by
      obtain ⟨j, y, g1, g2, g3⟩ := hr 0 b rfl v hv
      exact ⟨j, y, g1, g2, by simp [off] at g3; omega⟩) h2
    refine liveBlocks_why bs (done ++ b.immcs) lv2 lv' (by rw [e]; simp) ?_ k2 (by simpa [Nat.add_assoc] using h3)
    intro p c hp v hv
    obtain ⟨j, y, g1, g2, g3⟩ := hr (p + 1) c (by simpa using hp) v hv
    refine ⟨j, y, g1, g2, ?_⟩
    have e : off ((b :: bs).map (·.immcs)) (p + 1) = b.immcs.length + off (bs.map (·.immcs)) p := by simp [off]
    rw [e] at g3
    simp
    omega

theorem table_why {code : List Immc} {g : List Block} {o : Nat} {lv : List Live} (hf : Flow code g) (hb : RSpec.BackDead code)
    (hout : ∀ (p : Nat) b, g[p]? = some b → ∀ v ∈ HSet.elems b.output, RSpec.LiveOut code v (off (g.map (·.immcs)) p + (b.immcs.length - 1)))
    (h : liveBlocks [] o g = .ok lv) : Why o code lv := by
  refine liveBlocks_why g [] [] lv (by simpa using hf.code.symm) ?_ (by intro u l hu; simp at hu) (by simpa using h)
  intro p b hp v hv
  obtain ⟨j, h1, h2⟩ := hout p b hp v hv
  have hne := List.length_pos_iff.2 (hf.blk b (List.mem_of_getElem? hp)).ne
  obtain ⟨q, y, h3, h4, h5⟩ := live_read_later hb h2
  refine ⟨q, y, h4, h5, ?_⟩
  rcases Nat.lt_or_ge (off (g.map (·.immcs)) p + (b.immcs.length - 1)) j with hij | hij
  · simp; omega
  · exact absurd h2 (hb _ j v h1 hij)

/-- no more intervals run than there are registers to be read -/
theorem pressure_le {code : List Immc} {o k : Nat} {lv : List Live} (hj : J o code lv) (hw : Why o code lv) (hl : Level code [] k) {v : Nat} (hv : v < lv.length) :
    RSpec.pressure lv v ≤ k := by
  obtain ⟨i, x, w, h1, h2, h3, h4, _⟩ := hj.orig v lv[v] (by simp [hv])
  obtain ⟨a, b, e, rfl⟩ := split_at h1
  unfold RSpec.pressure
  rw [List.countP_eq_length_filter, ← List.length_map (f := fun n : Nat => (n : Int))]
  refine hl a x b e w h2 _ ?_ ?_
  · have : ((List.range v).filter fun u => match lv[u]?, lv[v]? with | some lu, some l => decide (l.first < lu.last) | _, _ => false).Nodup :=
      List.nodup_range.filter _
    exact List.Pairwise.map _ (fun p q hpq he => hpq (Int.ofNat_inj.1 he)) this
  · intro u hu
    obtain ⟨n, hn, rfl⟩ := List.mem_map.1 hu
    obtain ⟨h5, h6⟩ := List.mem_filter.1 hn
    have h5 := List.mem_range.1 h5
    refine ⟨by omega, .inl ?_⟩
    have hnl : n < lv.length := by omega
    simp only [List.getElem?_eq_getElem hnl, List.getElem?_eq_getElem hv, decide_eq_true_eq] at h6
    have hm := hj.mono n v lv[n] lv[v] (by omega) (by simp [hnl]) (by simp [hv])
    rcases hw n lv[n] (by simp [hnl]) with h7 | ⟨j, y, h7, h8, h9⟩
    · omega
    · exact ⟨y, mem_after (e ▸ h7) (by omega), h8⟩

/-! ### renaming -/

theorem mapOpe_ok {al : List (Option Nat)} {p : Option Ope} (h : ∀ v ∈ opeRegs p, 0 ≤ v ∧ v.toNat < al.length) : ∃ q, mapOpe al p = .ok q := by
  have key : ∀ v : Int, 0 ≤ v ∧ v.toNat < al.length → ∃ n, mapId al v = .ok n := by
    rintro v ⟨h1, h2⟩
    unfold mapId
    rw [if_pos h1, List.getElem?_eq_getElem h2]
    cases al[v.toNat] <;> exact ⟨_, rfl⟩
  unfold mapOpe
  split
  · rename_i id _
    obtain ⟨n, hn⟩ := key id (h id (by simp [opeRegs]))
    rw [hn]; exact ⟨_, rfl⟩
  · rename_i id
    obtain ⟨n, hn⟩ := key id (h id (by simp [opeRegs]))
    rw [hn]; exact ⟨_, rfl⟩
  · exact ⟨_, rfl⟩

theorem genAllocated_ok {al : List (Option Nat)} : ∀ {code : List Immc}, (∀ x ∈ code, ∀ v, v ∈ reads x ∨ writes x = some v → 0 ≤ v ∧ v.toNat < al.length) →
    ∃ out, genAllocated al code = .ok out
  | [], _ => ⟨_, rfl⟩
  | x :: xs, h => by
    obtain ⟨out, h2⟩ := genAllocated_ok (code := xs) fun y hy => h y (by simp [hy])
    have h1 : ∃ y, mapImmc al x = .ok y := by
      cases x with
      | inst i =>
        obtain ⟨op, d, f, s⟩ := i
        have hh := h (.inst ⟨op, d, f, s⟩) (by simp)
        obtain ⟨q1, e1⟩ := mapOpe_ok (al := al) (p := f) fun v hv => hh v (.inl (by simp [reads, hv]))
        obtain ⟨q2, e2⟩ := mapOpe_ok (al := al) (p := s) fun v hv => hh v (.inl (by simp [reads, hv]))
        obtain ⟨q3, e3⟩ := mapOpe_ok (al := al) (p := d) fun v hv => by
          cases d with
          | none => cases hv
          | some p =>
            cases p <;> first | cases hv; done | skip
            · simp [opeRegs] at hv; subst hv; exact hh _ (.inr rfl)
            · simp [opeRegs] at hv; subst hv; exact hh _ (.inl (by simp [reads]))
        exact ⟨_, by simp only [mapImmc, e1, e2, e3, Out.ok_bind]; rfl⟩
      | _ => exact ⟨_, rfl⟩
    obtain ⟨y, h1⟩ := h1
    exact ⟨_, by simp only [genAllocated, h1, h2, Out.ok_bind]; rfl⟩

end Tidy
end Umlcc
