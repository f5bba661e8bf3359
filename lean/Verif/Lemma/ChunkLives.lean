import Verif.Lemma.Chunks
import Verif.Lemma.Liveseq
/-! Which intervals are running inside the code of one function of a translation unit (helper lemmas). -/
namespace Umlcc

/-! ### sequences of intervals -/

theorem next_keeps {q q' : Liveseq} (h : q.next = .ok q') : q'.lives = q.lives ∧ q'.index = q.index + 1 := by
  unfold Liveseq.next at h
  dsimp only at h
  repeat' split at h
  all_goals cases h
  all_goals exact ⟨rfl, rfl⟩

theorem nextN_keeps {q : Liveseq} : ∀ {n : Nat} {q' : Liveseq}, q.nextN n = .ok q' → q'.lives = q.lives ∧ q'.index = q.index + n
  | 0, q', h => by cases h; exact ⟨rfl, rfl⟩
  | n + 1, q', h => by
    simp only [Liveseq.nextN, Out.bind_eq_ok] at h
    obtain ⟨q1, h1, h2⟩ := h
    obtain ⟨e1, e2⟩ := nextN_keeps h1
    obtain ⟨e3, e4⟩ := next_keeps h2
    exact ⟨by rw [e3, e1], by omega⟩

theorem alive_inside {q : Liveseq} (h : q.isAlive = .ok true) : ∃ l ∈ q.lives, l.first ≤ q.index ∧ q.index < l.last := by
  unfold Liveseq.isAlive at h
  split at h
  · cases h
  · dsimp only at h
    split at h
    · cases h
    · rename_i l hl
      simp only [Out.ok.injEq, decide_eq_true_eq] at h
      exact ⟨l, List.mem_of_getElem? hl, h⟩

namespace Regalloc

theorem assigned_mem {lv : List Live} {al : List (Option Nat)} {r : Nat} {l : Live} (h : l ∈ assigned (lv.zip al) r) : ∃ u : Nat, lv[u]? = some l ∧ al[u]? = some (some r) := by
  simp only [assigned, List.mem_filterMap] at h
  obtain ⟨⟨l', x⟩, h1, h2⟩ := h
  split at h2
  · rename_i e
    cases h2
    cases e
    obtain ⟨u, hu⟩ := List.mem_iff_getElem?.1 h1
    rw [List.getElem?_zip_eq_some] at hu
    exact ⟨u, hu⟩
  · cases h2

end Regalloc

namespace Gen
open Regalloc

theorem chunk_last {n : Name} {c : List Immc} (h : FuncChunk n c) : ∀ x, c.getLast? = some x → x.isLabel = false := by
  obtain ⟨v, i, body, l, rfl, -⟩ := h
  intro x hx
  have : (Immc.label .function v n :: .inst i :: (body ++ [Immc.inst l])).getLast? = some (.inst l) := by
    rw [← List.cons_append, ← List.cons_append, List.getLast?_append]; rfl
  rw [this] at hx
  cases hx
  rfl

/-- every sequence got intervals with a property -/
def Gained (P : Live → Prop) (qs qs' : List Liveseq) : Prop :=
  ∀ (r : Nat) q', qs'[r]? = some q' → ∃ q extra, qs[r]? = some q ∧ q' = { q with lives := q.lives ++ extra } ∧ ∀ l ∈ extra, P l

theorem Gained.refl {P : Live → Prop} (qs : List Liveseq) : Gained P qs qs := fun r q h => ⟨q, [], h, by simp, by simp⟩

theorem Gained.trans {P : Live → Prop} {a b c : List Liveseq} (h : Gained P a b) (g : Gained P b c) : Gained P a c := by
  intro r q hq
  obtain ⟨q1, e1, h1, rfl, h3⟩ := g r q hq
  obtain ⟨q2, e2, h4, rfl, h6⟩ := h r q1 h1
  refine ⟨q2, e2 ++ e1, h4, by simp, ?_⟩
  intro l hl
  rcases List.mem_append.1 hl with hl | hl
  · exact h6 l hl
  · exact h3 l hl

theorem Gained.mono {P Q : Live → Prop} {a b : List Liveseq} (h : Gained P a b) (hpq : ∀ l, P l → Q l) : Gained Q a b := by
  intro r q hq
  obtain ⟨q1, e1, h1, h2, h3⟩ := h r q hq
  exact ⟨q1, e1, h1, h2, fun l hl => hpq l (h3 l hl)⟩

theorem updateLiveseqs_gained {qs qs' : List Liveseq} {lv : List Live} {al : List (Option Nat)} (h : updateLiveseqs qs (lv.zip al) = .ok qs') (r : Nat) (q' : Liveseq)
    (hq : qs'[r]? = some q') : ∃ q, qs[r]? = some q ∧ q' = { q with lives := q.lives ++ assigned (lv.zip al) r } := by
  obtain ⟨h1, h2⟩ := updateLiveseqs_lives _ _ _ h
  have hr := (List.getElem?_eq_some_iff.1 hq).1
  have := h2 r qs[r] (by simp)
  rw [this] at hq
  cases hq
  exact ⟨qs[r], by simp, rfl⟩

/-- the intervals of a function lie between its first and its last line -/
theorem allocFunction_gained {f : Name} {c o : List Immc} (hc : FuncChunk f c) {off nregs fuel : Nat} {qs qs' : List Liveseq} (h : allocFunction c off nregs qs fuel = .ok (o, qs')) :
    Gained (fun l => off ≤ l.first ∧ l.last ≤ off + c.length) qs qs' := by
  obtain ⟨g, lv, al, h1, h2, -, -, h5⟩ := allocFunction_parts h
  obtain ⟨j, -⟩ := intervals (controlFlow_flow (chunk_last hc) h1) h2
  intro r q' hq
  obtain ⟨q, e1, e2⟩ := updateLiveseqs_gained h5 r q' hq
  refine ⟨q, _, e1, e2, ?_⟩
  intro l hl
  obtain ⟨u, hu, -⟩ := assigned_mem hl
  obtain ⟨i, _, _, _, _, _, hf, _⟩ := j.orig u l hu
  exact ⟨by omega, (j.bd u l hu).2⟩

theorem allocAll_gained {nregs fuel : Nat} {out : List Immc} {qs' : List Liveseq} : ∀ (cs : List (List Immc)) (_ : ∀ x ∈ cs, IsExt x) {acc : List Immc} {qs : List Liveseq} {off n : Nat},
    allocAll nregs fuel acc qs off n cs.flatten = .ok (out, qs') → Gained (fun l => off ≤ l.first) qs qs'
  | [], _, acc, qs, off, n, h => by
    cases n <;> cases h <;> exact .refl _
  | d :: cs, hcs, acc, qs, off, n, h => by
    have hcs' : ∀ x ∈ cs, IsExt x := fun x hx => hcs x (by simp [hx])
    rw [List.flatten_cons] at h
    obtain ⟨m, rfl, ⟨g, o, q, hg, h3, h4⟩ | ⟨hv, h4⟩⟩ := alloc_step (hcs d (by simp)) (flatten_head hcs') h
    · exact ((allocFunction_gained hg h3).mono fun l hl => hl.1).trans ((allocAll_gained cs hcs' h4).mono fun l hl => by omega)
    · exact (allocAll_gained cs hcs' h4).mono fun l hl => by omega

/-- all intervals end before `off` -/
def Before (off : Nat) (qs : List Liveseq) : Prop := ∀ q ∈ qs, ∀ l ∈ q.lives, l.last ≤ off

/-- An interval running inside the code of a function, which begins at `off` and got registers, is one of the function's own. -/
def Own (c o : List Immc) (off nregs fuel : Nat) (qs : List Liveseq) : Prop :=
  ∃ g lv al, controlFlow c fuel = .ok g ∧ liveBlocks [] off g = .ok lv ∧ allocate lv nregs = .ok al ∧ genAllocated al c = .ok o ∧
    ∀ (r i : Nat) q l, qs[r]? = some q → l ∈ q.lives → i < c.length → l.first ≤ off + i → off + i < l.last → ∃ u : Nat, lv[u]? = some l ∧ al[u]? = some (some r)

/-- as `alloc_split`, with the intervals -/
theorem alloc_own {nregs fuel : Nat} {f : Name} {c : List Immc} (hc : FuncChunk f c) {cs2 : List (List Immc)} (h2 : ∀ x ∈ cs2, IsExt x) {out : List Immc} {qs' : List Liveseq} :
    ∀ (cs1 : List (List Immc)) (_ : ∀ x ∈ cs1, IsExt x) {acc : List Immc} {qs : List Liveseq} {off n : Nat}, Before off qs →
      allocAll nregs fuel acc qs off n (cs1.flatten ++ (c ++ cs2.flatten)) = .ok (out, qs') →
      ∃ os1 o o2 q1 q2, out = acc ++ (List.flatten os1 ++ (o ++ o2)) ∧ (List.flatten os1).length = cs1.flatten.length ∧ (∀ x ∈ os1, IsExt x) ∧ FuncChunk f o ∧
        allocFunction c (off + cs1.flatten.length) nregs q1 fuel = .ok (o, q2) ∧ Own c o (off + cs1.flatten.length) nregs fuel qs' := by
  intro cs1
  induction cs1 with
  | nil =>
    intro _ acc qs off n hb h
    simp only [List.flatten_nil, List.nil_append] at h
    obtain ⟨m, rfl, ⟨g, o, q, hg, h3, h4⟩ | ⟨hv, -⟩⟩ := alloc_step (.inl ⟨f, hc⟩) (flatten_head h2) h
    · have later := allocAll_gained cs2 h2 h4
      obtain ⟨o2, rfl⟩ := alloc_acc h4
      refine ⟨[], o, o2, qs, q, by simp, rfl, by simp, (allocFunction_chunk hc h3).1, by simpa using h3, ?_⟩
      obtain ⟨g, lv, al, p1, p2, p3, p4, p5⟩ := allocFunction_parts h3
      refine ⟨g, lv, al, p1, by simpa using p2, p3, p4, ?_⟩
      intro r i q' l e1 e2 e3 e4 e5
      simp only [List.flatten_nil, List.length_nil, Nat.add_zero] at e4 e5
      obtain ⟨q3, extra, e6, rfl, e8⟩ := later r q' e1
      rcases List.mem_append.1 e2 with e2 | e2
      · obtain ⟨q4, e9, rfl⟩ := updateLiveseqs_gained p5 r q3 e6
        rcases List.mem_append.1 e2 with e2 | e2
        · have := hb q4 (List.mem_of_getElem? e9) l e2
          omega
        · exact assigned_mem e2
      · have := e8 l e2
        omega
    · obtain ⟨v, i, ds, rfl, -⟩ := hv
      obtain ⟨v', i', b, l, e, -⟩ := hc
      cases e
  | cons d cs1 ih =>
    intro h1 acc qs off n hb h
    have hd := h1 d (by simp)
    have h1' : ∀ x ∈ cs1, IsExt x := fun x hx => h1 x (by simp [hx])
    have hr : cs1.flatten ++ (c ++ cs2.flatten) = [] ∨ ∃ y zs, cs1.flatten ++ (c ++ cs2.flatten) = y :: zs ∧ startsExternal y = true := by
      have := flatten_head (cs := cs1 ++ c :: cs2) (by
        intro x hx
        simp only [List.mem_append, List.mem_cons] at hx
        rcases hx with hx | rfl | hx
        · exact h1' x hx
        · exact .inl ⟨f, hc⟩
        · exact h2 x hx)
      simpa using this
    rw [List.flatten_cons, List.append_assoc] at h
    obtain ⟨m, rfl, ⟨g, o, q, hg, h3, h4⟩ | ⟨hv, h4⟩⟩ := alloc_step hd hr h
    · have hb' : Before (off + d.length) q := by
        intro q' hq' l hl
        obtain ⟨r, hr⟩ := List.mem_iff_getElem?.1 hq'
        obtain ⟨q0, extra, e1, rfl, e3⟩ := allocFunction_gained hg h3 r q' hr
        rcases List.mem_append.1 hl with hl | hl
        · have := hb q0 (List.mem_of_getElem? e1) l hl
          omega
        · exact (e3 l hl).2
      obtain ⟨os1, o', o2, q1, q2, rfl, e1, e2, e3, e4, e7⟩ := ih h1' hb' h4
      obtain ⟨e5, e6⟩ := allocFunction_chunk hg h3
      refine ⟨o :: os1, o', o2, q1, q2, by simp, by simp [e1, e6], ?_, e3, ?_, ?_⟩
      · intro x hx
        rcases List.mem_cons.1 hx with rfl | hx
        · exact .inl ⟨g, e5⟩
        · exact e2 x hx
      · rw [List.flatten_cons, List.length_append, ← Nat.add_assoc]; exact e4
      · rw [List.flatten_cons, List.length_append, ← Nat.add_assoc]; exact e7
    · have hb' : Before (off + d.length) qs := fun q' hq' l hl => by
        have := hb q' hq' l hl
        omega
      obtain ⟨os1, o', o2, q1, q2, rfl, e1, e2, e3, e4, e7⟩ := ih h1' hb' h4
      refine ⟨d :: os1, o', o2, q1, q2, by simp, by simp [e1], ?_, e3, ?_, ?_⟩
      · intro x hx
        rcases List.mem_cons.1 hx with rfl | hx
        · exact hd
        · exact e2 x hx
      · rw [List.flatten_cons, List.length_append, ← Nat.add_assoc]; exact e4
      · rw [List.flatten_cons, List.length_append, ← Nat.add_assoc]; exact e7

end Gen
end Umlcc
