import Verif.Lemma.MapSpec
import Verif.Spec.SymTab
import Verif.Props.Map
namespace Umlcc
open HMap

theorem HMap.Exact.get {K V : Type} [DecidableEq K] {hash : K → Int} (hn : ∀ k, 0 ≤ hash k) {os : List (MOp K V)}
    {m : HMap K V} (h : Exact hash os m) (k : K) : HMap.get hash m k = .ok (MSpec.lookup os k) := by
  obtain ⟨r, h3, h4, h5⟩ := HMap.get_spec hn h.inv k
  rw [h3]
  cases r with
  | some v => rw [(h.live k v).1 (h4 v rfl)]
  | none =>
    cases hl : MSpec.lookup os k with
    | none => rfl
    | some v => exact absurd ((h.live k v).2 hl) (h5 rfl v)

theorem hashName_nonneg (n : Name) : 0 ≤ hashName n := (C06_hash_string_index_partial n.1 n.2).1

namespace SymTab
open ScopeSpec

/-- a scope represents a frame -/
def Rel (s : Scope) (f : Frame) : Prop :=
  ∃ os, Exact hashName os s.map ∧ ∀ n, (MSpec.lookup os n).map declOf = inFrame f n

inductive RelS : SymTab → Stack → Prop
  | nil : RelS [] []
  | cons {s f ss fs} : Rel s f → RelS ss fs → RelS (s :: ss) (f :: fs)

theorem rel_get {s : Scope} {f : Frame} (h : Rel s f) (n : Name) :
    ∃ r, s.map.get hashName n = .ok r ∧ r.map declOf = inFrame f n := by
  obtain ⟨os, h1, h2⟩ := h
  exact ⟨_, h1.get hashName_nonneg n, h2 n⟩

theorem rel_new (m : Nat) : Rel ⟨HMap.new, m⟩ [] :=
  ⟨[], exact_new, fun n => by simp [MSpec.lookup, MSpec.after, inFrame]⟩

theorem rel_mem {s : Scope} {f : Frame} (h : Rel s f) (m : Nat) : Rel ⟨s.map, m⟩ f := h

theorem rel_add {s : Scope} {f : Frame} (h : Rel s f) (n : Name) (sym : Symbol) (hf : inFrame f n = none) :
    ∃ m, s.map.add hashName n sym = .ok m ∧ Rel ⟨m, s.mem⟩ ((n, declOf sym) :: f) := by
  obtain ⟨os, h1, h2⟩ := h
  have hn : MSpec.lookup os n = none := by
    have := h2 n; rw [hf] at this; simpa using this
  obtain ⟨m, h3, h4⟩ := exact_add hashName_nonneg h1 n sym (Or.inl hn)
  refine ⟨m, h3, _, h4, fun k => ?_⟩
  rw [lookup_add]
  by_cases hk : n = k
  · subst hk; simp [inFrame]
  · have : (n == k) = false := beq_false_of_ne hk
    rw [if_neg hk, h2]; simp [inFrame, List.find?, this]

theorem search_rel {t : SymTab} {st : Stack} (h : RelS t st) (n : Name) :
    ∃ r, search t n = .ok r ∧ r.map declOf = visible st n := by
  induction h with
  | nil => exact ⟨none, rfl, rfl⟩
  | cons h1 _ ih =>
    obtain ⟨r, h3, h4⟩ := rel_get h1 n
    obtain ⟨r2, h5, h6⟩ := ih
    cases r with
    | some sym =>
      refine ⟨some sym, by simp [search, h3], ?_⟩
      simp only [visible, List.findSome?_cons, ← h4]; rfl
    | none =>
      refine ⟨r2, by simp [search, h3, h5], ?_⟩
      simp only [visible, List.findSome?_cons, ← h4]; exact h6

theorem canDefine_rel {s : Scope} {f : Frame} {ss : SymTab} (h : Rel s f) (n : Name) :
    canDefine (s :: ss) n = .ok (inFrame f n).isNone := by
  obtain ⟨r, h3, h4⟩ := rel_get h n
  simp [canDefine, h3, ← h4]

theorem addSym_rel {s : Scope} {f : Frame} {ss : SymTab} {fs : Stack} (h : Rel s f) (hs : RelS ss fs) (n : Name) (sym : Symbol)
    (hf : inFrame f n = none) :
    ∃ m, addSym (s :: ss) n sym = .ok (⟨m, s.mem⟩ :: ss) ∧ RelS (⟨m, s.mem⟩ :: ss) (((n, declOf sym) :: f) :: fs) := by
  obtain ⟨m, h1, h2⟩ := rel_add h n sym hf
  exact ⟨m, by simp [addSym, h1], .cons h2 hs⟩

theorem defineKind_rel {t : SymTab} {st : Stack} (h : RelS t st) (hne : st ≠ []) (k : SymKind) (n : Name) (ty : DType) :
    ∃ t' r, defineKind k t n ty = .ok (t', r) ∧ t'.map (·.mem) = t.map (·.mem) ∧
      match declare st n (declOf ⟨k, ty⟩) with
      | some st' => RelS t' st' ∧ r = some ⟨k, ty⟩
      | none => RelS t' st ∧ r = none := by
  cases h with
  | nil => exact absurd rfl hne
  | @cons s f ss fs h1 h2 =>
    by_cases hf : inFrame f n = none
    · obtain ⟨m, h3, h4⟩ := addSym_rel h1 h2 n ⟨k, ty⟩ hf
      exact ⟨⟨m, s.mem⟩ :: ss, some ⟨k, ty⟩, by simp [defineKind, canDefine_rel h1, hf, h3], by simp, by simpa [declare, hf] using h4⟩
    · have : (inFrame f n).isSome = true := by cases h : inFrame f n <;> simp_all
      refine ⟨s :: ss, none, by simp [defineKind, canDefine_rel h1, hf], rfl, ?_⟩
      simp only [declare, this, if_true]
      exact ⟨.cons h1 h2, trivial⟩

theorem defineMem_rel {t : SymTab} {st : Stack} (h : RelS t st) (hne : st ≠ []) (n : Name) (ty : DType) :
    ∃ t' r, defineMem t n ty = .ok (t', r) ∧
      match declare st n (.mem ty) with
      | some st' => RelS t' st' ∧ ∃ s ss m, t = s :: ss ∧ t' = ⟨m, up4 (s.mem + ty.nbytes)⟩ :: ss ∧
          r = some ⟨.mem (up4 (s.mem + ty.nbytes)), ty⟩
      | none => t' = t ∧ r = none := by
  cases h with
  | nil => exact absurd rfl hne
  | @cons s f ss fs h1 h2 =>
    by_cases hf : inFrame f n = none
    · obtain ⟨m, h3, h4⟩ := addSym_rel (rel_mem h1 (up4 (s.mem + ty.nbytes))) h2 n ⟨.mem (up4 (s.mem + ty.nbytes)), ty⟩ hf
      refine ⟨⟨m, up4 (s.mem + ty.nbytes)⟩ :: ss, some ⟨.mem (up4 (s.mem + ty.nbytes)), ty⟩, by simp [defineMem, canDefine_rel h1, hf, h3], ?_⟩
      simp only [declare, hf, Option.isSome_none, Bool.false_eq_true, if_false]
      exact ⟨h4, s, ss, m, rfl, rfl, rfl⟩
    · have : (inFrame f n).isSome = true := by cases h : inFrame f n <;> simp_all
      refine ⟨s :: ss, none, by simp [defineMem, canDefine_rel h1, hf], ?_⟩
      simp only [declare, this, if_true]
      exact ⟨trivial, trivial⟩

/-- depth bookkeeping: the table always has more scopes than the bracket depth -/
theorem step_rel {t : SymTab} {st : Stack} (h : RelS t st) (hne : st ≠ []) (o : SOp) (hexit : o = .exit → 2 ≤ st.length) :
    ∃ t' r, step t o = .ok (t', r) ∧ RelS t' (ScopeSpec.step st o).1 ∧ r.isSome = (ScopeSpec.step st o).2 := by
  cases o with
  | enter =>
    refine ⟨_, _, rfl, ?_, rfl⟩
    cases h with
    | nil => exact absurd rfl hne
    | cons h1 h2 => exact .cons (rel_new _) (.cons h1 h2)
  | exit =>
    have := hexit rfl
    cases h with
    | nil => simp at this
    | cons h1 h2 =>
      cases h2 with
      | nil => simp at this
      | cons h3 h4 => exact ⟨_, _, rfl, .cons (rel_mem h3 _) h4, rfl⟩
  | label n ty =>
    obtain ⟨t', r, h1, _, h2⟩ := defineKind_rel h hne .label n ty
    refine ⟨t', r, h1, ?_⟩
    simp only [ScopeSpec.step, declOf] at h2 ⊢
    cases hd : declare st n (.label ty) <;> rw [hd] at h2 <;> simp_all
  | int n ty v =>
    obtain ⟨t', r, h1, _, h2⟩ := defineKind_rel h hne (.int v) n ty
    refine ⟨t', r, h1, ?_⟩
    simp only [ScopeSpec.step, declOf] at h2 ⊢
    cases hd : declare st n (.int ty v) <;> rw [hd] at h2 <;> simp_all
  | mem n ty =>
    obtain ⟨t', r, h1, h2⟩ := defineMem_rel h hne n ty
    refine ⟨t', r, h1, ?_⟩
    simp only [ScopeSpec.step] at h2 ⊢
    cases hd : declare st n (.mem ty) <;> rw [hd] at h2
    · obtain ⟨rfl, rfl⟩ := h2; exact ⟨h, rfl⟩
    · obtain ⟨h3, _, _, _, _, _, rfl⟩ := h2; exact ⟨h3, rfl⟩

theorem declare_length {st st' : Stack} {n : Name} {d : Decl} (h : declare st n d = some st') :
    st'.length = st.length ∧ st'.tail = st.tail := by
  cases st with
  | nil => simp [declare] at h
  | cons f fs =>
    simp only [declare] at h
    split at h
    · simp at h
    · simp at h; subst h; simp

theorem spec_step_other {st : Stack} {o : SOp} (h1 : o ≠ .enter) (h2 : o ≠ .exit) :
    (ScopeSpec.step st o).1.length = st.length ∧ (ScopeSpec.step st o).1.tail = st.tail := by
  cases o with
  | enter => simp at h1
  | exit => simp at h2
  | label n ty =>
    simp only [ScopeSpec.step]
    cases hd : declare st n (.label ty) with
    | none => simp
    | some s => simpa using declare_length hd
  | int n ty v =>
    simp only [ScopeSpec.step]
    cases hd : declare st n (.int ty v) with
    | none => simp
    | some s => simpa using declare_length hd
  | mem n ty =>
    simp only [ScopeSpec.step]
    cases hd : declare st n (.mem ty) with
    | none => simp
    | some s => simpa using declare_length hd

theorem wb_cons {d : Nat} {o : SOp} {os : List SOp} (h : wellBracketed d (o :: os) = true) :
    (o = .enter ∧ wellBracketed (d + 1) os = true) ∨ (o = .exit ∧ ∃ e, d = e + 1 ∧ wellBracketed e os = true) ∨
    (o ≠ .enter ∧ o ≠ .exit ∧ wellBracketed d os = true) := by
  cases o with
  | enter => left; exact ⟨rfl, by simpa [wellBracketed] using h⟩
  | exit =>
    right; left
    cases d with
    | zero => simp [wellBracketed] at h
    | succ e => exact ⟨rfl, e, rfl, by simpa [wellBracketed] using h⟩
  | label n ty => right; right; exact ⟨by simp, by simp, by simpa [wellBracketed] using h⟩
  | int n ty v => right; right; exact ⟨by simp, by simp, by simpa [wellBracketed] using h⟩
  | mem n ty => right; right; exact ⟨by simp, by simp, by simpa [wellBracketed] using h⟩

theorem bal_cons {d : Nat} {o : SOp} {os : List SOp} (h : balanced d (o :: os) = true) :
    (o = .enter ∧ balanced (d + 1) os = true) ∨ (o = .exit ∧ ∃ e, d = e + 1 ∧ balanced e os = true) ∨
    (o ≠ .enter ∧ o ≠ .exit ∧ balanced d os = true) := by
  cases o with
  | enter => left; exact ⟨rfl, by simpa [balanced] using h⟩
  | exit =>
    right; left
    cases d with
    | zero => simp [balanced] at h
    | succ e => exact ⟨rfl, e, rfl, by simpa [balanced] using h⟩
  | label n ty => right; right; exact ⟨by simp, by simp, by simpa [balanced] using h⟩
  | int n ty v => right; right; exact ⟨by simp, by simp, by simpa [balanced] using h⟩
  | mem n ty => right; right; exact ⟨by simp, by simp, by simpa [balanced] using h⟩

theorem run_rel (os : List SOp) : ∀ (t : SymTab) (st : Stack) (d : Nat), RelS t st → d + 1 ≤ st.length → wellBracketed d os = true →
    ∃ t' rs, run t os = .ok (t', rs) ∧ RelS t' (ScopeSpec.run st os).1 ∧ rs.map (·.isSome) = (ScopeSpec.run st os).2 := by
  induction os with
  | nil => intro t st d h _ _; exact ⟨t, [], rfl, h, rfl⟩
  | cons o os ih =>
    intro t st d h hd hw
    have hne : st ≠ [] := by rintro rfl; simp at hd
    have hex : o = .exit → 2 ≤ st.length := by
      rintro rfl
      rcases wb_cons hw with ⟨h, _⟩ | ⟨_, e, rfl, _⟩ | ⟨_, h, _⟩
      · simp at h
      · omega
      · exact absurd rfl h
    obtain ⟨t1, r, h1, h2, h3⟩ := step_rel h hne o hex
    have hnext : ∃ d', d' + 1 ≤ (ScopeSpec.step st o).1.length ∧ wellBracketed d' os = true := by
      rcases wb_cons hw with ⟨rfl, hw⟩ | ⟨rfl, e, rfl, hw⟩ | ⟨ho1, ho2, hw⟩
      · exact ⟨d + 1, by simp [ScopeSpec.step]; omega, hw⟩
      · exact ⟨e, by simp [ScopeSpec.step]; omega, hw⟩
      · exact ⟨d, by rw [(spec_step_other ho1 ho2).1]; exact hd, hw⟩
    obtain ⟨d', hd', hw'⟩ := hnext
    obtain ⟨t2, rs, h4, h5, h6⟩ := ih t1 _ d' h2 hd' hw'
    refine ⟨t2, r :: rs, by simp [run, h1, h4], h5, ?_⟩
    simp [ScopeSpec.run, h3, h6]

theorem spec_run_append (a b : List SOp) (st : Stack) :
    (ScopeSpec.run st (a ++ b)).1 = (ScopeSpec.run (ScopeSpec.run st a).1 b).1 := by
  induction a generalizing st with
  | nil => rfl
  | cons o os ih => simp [ScopeSpec.run, ih]

/-- a balanced history keeps everything below the current frame -/
theorem spec_balanced (os : List SOp) : ∀ (st : Stack) (d : Nat), d + 1 ≤ st.length → balanced d os = true →
    (ScopeSpec.run st os).1.tail = (st.drop d).tail ∧ (ScopeSpec.run st os).1.length + d = st.length := by
  induction os with
  | nil => intro st d h hb; simp [balanced] at hb; subst hb; simp [ScopeSpec.run]
  | cons o os ih =>
    intro st d h hb
    simp only [ScopeSpec.run]
    rcases bal_cons hb with ⟨rfl, hw⟩ | ⟨rfl, e, rfl, hw⟩ | ⟨ho1, ho2, hw⟩
    · have := ih ([] :: st) (d + 1) (by simp; omega) hw
      simp only [ScopeSpec.step]
      simp only [List.drop_succ_cons, List.length_cons] at this
      exact ⟨this.1, by omega⟩
    · have := ih st.tail e (by simp; omega) hw
      simp only [ScopeSpec.step]
      refine ⟨by rw [this.1]; congr 1; simp, ?_⟩
      have h2 := this.2
      simp only [List.length_tail] at h2; omega
    · obtain ⟨h3, h4⟩ := spec_step_other (st := st) ho1 ho2
      have := ih (ScopeSpec.step st o).1 d (by omega) hw
      rw [h3] at this
      refine ⟨?_, this.2⟩
      rw [this.1]
      cases d with
      | zero => simpa using h4
      | succ d =>
        have : ∀ (l : Stack), (l.drop (d+1)).tail = (l.tail.drop d).tail := by intro l; simp
        rw [this, this, h4]

/-! memory of locals -/

theorem up4_spec (n : Nat) : n ≤ up4 n ∧ 4 ∣ up4 n := by
  unfold up4
  refine ⟨?_, Nat.dvd_mul_left _ _⟩
  omega

/-- memory symbols defined, as (offset, size) -/
def memDefs (rs : List (Option Symbol)) : List (Nat × Nat) :=
  rs.filterMap fun r => match r with
    | some ⟨.mem o, ty⟩ => some (o, ty.nbytes)
    | _ => none

/-- the running memory counter of the innermost scope -/
def top (t : SymTab) : Nat := match t with | [] => 0 | s :: _ => s.mem

theorem defineKind_top {t : SymTab} {n : Name} {ty : DType} {k : SymKind} {t' : SymTab} {r : Option Symbol} (h : defineKind k t n ty = .ok (t', r)) (hk : ∀ o, k ≠ .mem o) :
    top t' = top t ∧ t'.length = t.length ∧ memDefs [r] = [] := by
  simp only [defineKind, Out.bind_eq_ok] at h
  obtain ⟨b, hb, h⟩ := h
  cases b with
  | false => simp at h; obtain ⟨rfl, rfl⟩ := h; simp [memDefs]
  | true =>
    simp only [if_true, Out.bind_eq_ok] at h
    obtain ⟨t1, h1, h⟩ := h
    simp at h; obtain ⟨rfl, rfl⟩ := h
    cases t with
    | nil => simp [addSym] at h1
    | cons s ss =>
      simp only [addSym, Out.bind_eq_ok] at h1
      obtain ⟨m, _, h1⟩ := h1
      simp at h1; subst h1
      refine ⟨rfl, rfl, ?_⟩
      cases k with
      | mem o => exact absurd rfl (hk o)
      | _ => simp [memDefs]

/-- every step moves the counter up, and a memory definition takes the bytes just above the old counter -/
theorem step_top {t : SymTab} {o : SOp} {t' : SymTab} {r : Option Symbol} (h : step t o = .ok (t', r)) (hne : t' ≠ []) :
    top t ≤ top t' ∧ (memDefs [r] = [] ∨ ∃ sz, memDefs [r] = [(top t', sz)] ∧ top t + sz ≤ top t' ∧ 4 ∣ top t') := by
  cases o with
  | enter =>
    simp [step] at h; obtain ⟨rfl, rfl⟩ := h
    cases t <;> simp [enter, top, memDefs]
  | exit =>
    simp only [step, Out.bind_eq_ok] at h
    obtain ⟨t1, h1, h⟩ := h
    simp at h; obtain ⟨rfl, rfl⟩ := h
    match t, h1 with
    | [s], h1 => simp [exit] at h1; exact absurd h1 (fun e => hne e)
    | s :: o :: ss, h1 => simp [exit] at h1; subst h1; simp [top, memDefs]
  | label n ty =>
    obtain ⟨h1, _, h2⟩ := defineKind_top (k := .label) h (by simp)
    exact ⟨by omega, Or.inl h2⟩
  | int n ty v =>
    obtain ⟨h1, _, h2⟩ := defineKind_top (k := .int v) h (by simp)
    exact ⟨by omega, Or.inl h2⟩
  | mem n ty =>
    simp only [step, defineMem, Out.bind_eq_ok] at h
    obtain ⟨b, hb, h⟩ := h
    cases b with
    | false => simp at h; obtain ⟨rfl, rfl⟩ := h; simp [memDefs]
    | true =>
      match t, h with
      | [], h => simp at h
      | s :: ss, h =>
        simp only [if_true, Out.bind_eq_ok] at h
        obtain ⟨t1, h1, h⟩ := h
        simp at h; obtain ⟨rfl, rfl⟩ := h
        simp only [addSym, Out.bind_eq_ok] at h1
        obtain ⟨m, _, h1⟩ := h1
        simp at h1; subst h1
        have := up4_spec (s.mem + ty.nbytes)
        refine ⟨by simp only [top]; omega, Or.inr ⟨ty.nbytes, by simp [memDefs, top], by simp only [top]; omega, this.2⟩⟩

theorem step_length {t : SymTab} {o : SOp} {t' : SymTab} {r : Option Symbol} (h : step t o = .ok (t', r)) :
    t'.length = match o with | .enter => t.length + 1 | .exit => t.length - 1 | _ => t.length := by
  cases o with
  | enter => simp [step] at h; obtain ⟨rfl, rfl⟩ := h; cases t <;> simp [enter]
  | exit =>
    simp only [step, Out.bind_eq_ok] at h
    obtain ⟨t1, h1, h⟩ := h
    simp at h; obtain ⟨rfl, rfl⟩ := h
    match t, h1 with
    | [s], h1 => simp [exit] at h1; subst h1; rfl
    | s :: o :: ss, h1 => simp [exit] at h1; subst h1; simp
  | label n ty => exact (defineKind_top (k := .label) h (by simp)).2.1
  | int n ty v => exact (defineKind_top (k := .int v) h (by simp)).2.1
  | mem n ty =>
    simp only [step, defineMem, Out.bind_eq_ok] at h
    obtain ⟨b, hb, h⟩ := h
    cases b with
    | false => simp at h; obtain ⟨rfl, rfl⟩ := h; rfl
    | true =>
      match t, h with
      | [], h => simp at h
      | s :: ss, h =>
        simp only [if_true, Out.bind_eq_ok] at h
        obtain ⟨t1, h1, h⟩ := h
        simp at h; obtain ⟨rfl, rfl⟩ := h
        simp only [addSym, Out.bind_eq_ok] at h1
        obtain ⟨m, _, h1⟩ := h1
        simp at h1; subst h1; simp

theorem memDefs_cons (r : Option Symbol) (rs : List (Option Symbol)) : memDefs (r :: rs) = memDefs [r] ++ memDefs rs := by
  unfold memDefs
  rw [← List.filterMap_append]; rfl

theorem run_mem (os : List SOp) : ∀ (t t' : SymTab) (rs : List (Option Symbol)) (d : Nat), d + 1 ≤ t.length →
    wellBracketed d os = true → run t os = .ok (t', rs) →
    top t ≤ top t' ∧ (∀ p ∈ memDefs rs, top t + p.2 ≤ p.1 ∧ p.1 ≤ top t' ∧ 4 ∣ p.1) ∧
    (memDefs rs).Pairwise (fun p q => p.1 + q.2 ≤ q.1) := by
  induction os with
  | nil => intro t t' rs d _ _ h; simp [run] at h; obtain ⟨rfl, rfl⟩ := h; simp [memDefs]
  | cons o os ih =>
    intro t t' rs d hd hw h
    simp only [run, Out.bind_eq_ok] at h
    obtain ⟨⟨t1, r⟩, h1, ⟨t2, rs2⟩, h2, h⟩ := h
    simp at h; obtain ⟨rfl, rfl⟩ := h
    have hl := step_length h1
    have hnext : ∃ d', d' + 1 ≤ t1.length ∧ wellBracketed d' os = true := by
      rcases wb_cons hw with ⟨rfl, hw⟩ | ⟨rfl, e, rfl, hw⟩ | ⟨ho1, ho2, hw⟩
      · exact ⟨d + 1, by simp at hl; omega, hw⟩
      · exact ⟨e, by simp at hl; omega, hw⟩
      · exact ⟨d, by cases o <;> simp_all, hw⟩
    obtain ⟨d', hd', hw'⟩ := hnext
    obtain ⟨h3, h4, h5⟩ := ih t1 t2 rs2 d' hd' hw' h2
    obtain ⟨h6, h7⟩ := step_top h1 (by rintro rfl; simp at hd')
    refine ⟨by omega, ?_, ?_⟩
    · intro p hp
      rw [memDefs_cons, List.mem_append] at hp
      rcases hp with hp | hp
      · rcases h7 with h7 | ⟨sz, h7, h8, h9⟩
        · rw [h7] at hp; simp at hp
        · rw [h7] at hp; simp at hp; subst hp; exact ⟨h8, h3, h9⟩
      · obtain ⟨h10, h11, h12⟩ := h4 p hp
        exact ⟨by omega, h11, h12⟩
    · rw [memDefs_cons]
      rcases h7 with h7 | ⟨sz, h7, h8, h9⟩
      · rw [h7]; exact h5
      · rw [h7, List.singleton_append, List.pairwise_cons]
        exact ⟨fun q hq => by have := (h4 q hq).1; simpa using this, h5⟩

end SymTab
end Umlcc
