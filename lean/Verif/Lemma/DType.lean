import Verif.Model.DType
import Verif.Spec.Types
namespace Umlcc

/-- the vector of members as a list -/
def Members.toList : Members → List (Str × DType × Nat)
  | .nil => []
  | .cons n t o ms => (n, t, o) :: ms.toList

namespace DType
open TSpec

theorem up_spec {n b : Nat} (hb : 0 < b) :
    ∃ u, minMultipleOf n b = .ok u ∧ b ∣ u ∧ n ≤ u ∧ ∀ m, n ≤ m → b ∣ m → u ≤ m := by
  have hb' : b ≠ 0 := by omega
  refine ⟨(n + b - 1) / b * b, by simp [minMultipleOf, hb'], Nat.dvd_mul_left _ _, ?_, ?_⟩
  · have := Nat.div_add_mod (n + b - 1) b
    have h2 := Nat.mod_lt (n + b - 1) hb
    rw [Nat.mul_comm] at this; omega
  · rintro m hm ⟨c, rfl⟩
    rw [Nat.mul_comm b c]
    apply Nat.mul_le_mul_right
    have : (n + b - 1) / b < c + 1 := by
      rw [Nat.div_lt_iff_lt_mul hb, Nat.add_mul, Nat.mul_comm c b]; omega
    omega

/-- name, type -/
def sig (l : List (Str × DType × Nat)) : List (Str × DType) := l.map fun m => (m.1, m.2.1)
def dims (l : List (Str × DType × Nat)) : List (Nat × Nat) := l.map fun m => (nbytes m.2.1, alignment m.2.1)
def offsets (l : List (Str × DType × Nat)) : List Nat := l.map fun m => m.2.2

structure LoopSpec (ms : List (Str × DType × Nat)) (start al : Nat) (ms' : List (Str × DType × Nat)) (nb al' : Nat) : Prop where
  sig : sig ms' = sig ms
  lower : ∀ (j : Nat) o, (offsets ms')[j]? = some o → start ≤ o
  mono : start ≤ nb
  valid : ValidLayout (dims ms) (offsets ms') nb
  amax : al ≤ al' ∧ ∀ d ∈ dims ms, d.2 ≤ al'
  aone : al' = al ∨ ∃ d ∈ dims ms, d.2 = al'
  minimal : ∀ offs' total', ValidLayout (dims ms) offs' total' → (∀ (j : Nat) o, offs'[j]? = some o → start ≤ o) → start ≤ total' →
    nb ≤ total' ∧ ∀ (i : Nat) o o', (offsets ms')[i]? = some o → offs'[i]? = some o' → o ≤ o'

theorem layoutLoop_spec (ms : Members) : ∀ (start al : Nat), (∀ d ∈ dims ms.toList, 0 < d.2) →
    ∃ ms' nb al', layoutLoop ms start al = .ok (ms', nb, al') ∧ LoopSpec ms.toList start al ms'.toList nb al' := by
  match ms with
  | .nil =>
    intro start al _
    refine ⟨.nil, start, al, rfl, ⟨rfl, ?_, Nat.le_refl _, ⟨rfl, ?_, ?_, ?_⟩, ?_, Or.inl rfl, ?_⟩⟩ <;>
      simp [Members.toList, offsets, dims]
  | .cons n t o rest =>
    intro start al hpos
    have ht : 0 < alignment t := hpos (nbytes t, alignment t) (by simp [Members.toList, dims])
    obtain ⟨u, hu, hdvd, hge, hmin⟩ := up_spec (n := start) ht
    obtain ⟨ms', nb, al', h1, h2⟩ := layoutLoop_spec rest (u + nbytes t) (if alignment t > al then alignment t else al)
      (fun d hd => hpos d (by simp only [Members.toList, dims, List.map_cons, List.mem_cons] at hd ⊢; exact Or.inr hd))
    refine ⟨.cons n t u ms', nb, al', by simp [layoutLoop, hu, h1], ?_⟩
    have hd : dims (Members.cons n t o rest).toList = (nbytes t, alignment t) :: dims rest.toList := rfl
    have ho : offsets (Members.cons n t u ms').toList = u :: offsets ms'.toList := rfl
    refine ⟨?_, ?_, ?_, ⟨?_, ?_, ?_, ?_⟩, ?_, ?_, ?_⟩
    · have := h2.sig; simp only [DType.sig] at this; simp [DType.sig, Members.toList, this]
    · intro j o' hj
      rw [ho] at hj
      cases j with
      | zero => simp at hj; omega
      | succ j => have := h2.lower j o' (by simpa using hj); omega
    · have := h2.mono; omega
    · rw [ho, hd]; simp [h2.valid.len]
    · rw [ho, hd]
      intro i sz a o' hi hj
      cases i with
      | zero => simp at hi hj; obtain ⟨_, rfl⟩ := hi; subst hj; exact hdvd
      | succ i => exact h2.valid.aligned i sz a o' (by simpa using hi) (by simpa using hj)
    · rw [ho, hd]
      intro i j sz a o1 o2 hij hi h3 h4
      cases i with
      | zero =>
        cases j with
        | zero => omega
        | succ j =>
          simp at hi h3 h4; obtain ⟨rfl, _⟩ := hi; subst h3
          exact h2.lower j o2 h4
      | succ i =>
        cases j with
        | zero => omega
        | succ j => exact h2.valid.disjoint i j sz a o1 o2 (by omega) (by simpa using hi) (by simpa using h3) (by simpa using h4)
    · rw [ho, hd]
      intro i sz a o' hi hj
      cases i with
      | zero => simp at hi hj; obtain ⟨rfl, _⟩ := hi; subst hj; exact h2.mono
      | succ i => exact h2.valid.inside i sz a o' (by simpa using hi) (by simpa using hj)
    · rw [hd]
      have := h2.amax.1
      refine ⟨by split at this <;> omega, ?_⟩
      intro d hd'
      simp only [List.mem_cons] at hd'
      rcases hd' with rfl | hd'
      · simp only; split at this <;> omega
      · exact h2.amax.2 d hd'
    · rw [hd]
      rcases h2.aone with h | ⟨d, hdm, h⟩
      · split at h
        · exact Or.inr ⟨_, List.mem_cons_self, h.symm⟩
        · exact Or.inl h
      · exact Or.inr ⟨d, List.mem_cons_of_mem _ hdm, h⟩
    · rw [hd]
      intro offs' total' hv hlow htot
      match offs', hv.len with
      | o0 :: offs', hl =>
        have h0 : start ≤ o0 := hlow 0 o0 (by simp)
        have h0d : alignment t ∣ o0 := hv.aligned 0 (nbytes t) (alignment t) o0 (by simp) (by simp)
        have hu0 := hmin o0 h0 h0d
        have hin := hv.inside 0 (nbytes t) (alignment t) o0 (by simp) (by simp)
        have hv' : ValidLayout (dims rest.toList) offs' total' := by
          refine ⟨by simpa using hl, ?_, ?_, ?_⟩
          · intro i sz a o' hi hj; exact hv.aligned (i+1) sz a o' (by simpa using hi) (by simpa using hj)
          · intro i j sz a o1 o2 hij hi h3 h4
            exact hv.disjoint (i+1) (j+1) sz a o1 o2 (by omega) (by simpa using hi) (by simpa using h3) (by simpa using h4)
          · intro i sz a o' hi hj; exact hv.inside (i+1) sz a o' (by simpa using hi) (by simpa using hj)
        obtain ⟨h5, h6⟩ := h2.minimal offs' total' hv' (by
          intro j o' hj
          have := hv.disjoint 0 (j+1) (nbytes t) (alignment t) o0 o' (by omega) (by simp) (by simp) (by simpa using hj)
          omega) (by omega)
        refine ⟨h5, ?_⟩
        rw [ho]
        intro i o1 o2 hi hj
        cases i with
        | zero => simp at hi hj; omega
        | succ i => exact h6 i o1 o2 (by simpa using hi) (by simpa using hj)

/-! equality of types is equality of shapes -/

mutual
theorem equals_iff : ∀ (a b : DType), equals a b = true ↔ shape a = shape b := by
  intro a b
  match a with
  | .void | .char | .int | .uint | .long | .ulong | .llong | .ullong => cases b <;> simp [equals, shape]
  | .ptr a => cases b <;> simp [equals, shape, equals_iff a]
  | .arr a n => cases b <;> simp [equals, shape, equals_iff a, and_comm]
  | .nstruct s _ _ => cases b <;> simp [equals, shape]
  | .ustruct ms _ _ => cases b <;> simp [equals, shape, membersEquals_iff ms]
  | .nenum s => cases b <;> simp [equals, shape]
  | .uenum ms => cases b <;> simp [equals, shape]
  | .func ps r => cases b <;> simp [equals, shape, equals_iff r, paramsEquals_iff ps, and_comm]
  | .tdef a => cases b <;> simp [equals, shape, equals_iff a]
theorem membersEquals_iff : ∀ (a b : Members), membersEquals a b = true ↔ mshape a = mshape b := by
  intro a b
  match a with
  | .nil => cases b <;> simp [membersEquals, mshape]
  | .cons n t o ms => cases b <;> simp [membersEquals, mshape, equals_iff t, membersEquals_iff ms, and_assoc]
theorem paramsEquals_iff : ∀ (a b : Params), paramsEquals a b = true ↔ pshape a = pshape b := by
  intro a b
  match a with
  | .nil => cases b <;> simp [paramsEquals, pshape]
  | .cons n t ps => cases b <;> simp [paramsEquals, pshape, equals_iff t, paramsEquals_iff ps]
end

mutual
theorem copy_eq : ∀ (a : DType), copy a = a := by
  intro a
  match a with
  | .void | .char | .int | .uint | .long | .ulong | .llong | .ullong | .nstruct _ _ _ | .nenum _ | .uenum _ => simp [copy]
  | .ptr a => simp [copy, copy_eq a]
  | .arr a n => simp [copy, copy_eq a]
  | .ustruct ms _ _ => simp [copy, membersCopy_eq ms]
  | .func ps r => simp [copy, copy_eq r, paramsCopy_eq ps]
  | .tdef a => simp [copy, copy_eq a]
theorem membersCopy_eq : ∀ (a : Members), membersCopy a = a := by
  intro a
  match a with
  | .nil => simp [membersCopy]
  | .cons n t o ms => simp [membersCopy, copy_eq t, membersCopy_eq ms]
theorem paramsCopy_eq : ∀ (a : Params), paramsCopy a = a := by
  intro a
  match a with
  | .nil => simp [paramsCopy]
  | .cons n t ps => simp [paramsCopy, copy_eq t, paramsCopy_eq ps]
end

/-! sizes of equal types -/

mutual
/-- The layout numbers stored in a type are the ones of its struct: a named struct has the size and alignment its
tag has in `ρ`, an unnamed struct those computed from its members. -/
def Laid (ρ : Str → Nat × Nat) : DType → Prop
  | .nstruct s b a => ρ s = (b, a)
  | .ustruct ms b a => (∃ ms', newUnnamedStruct ms = .ok (.ustruct ms' b a)) ∧ MLaid ρ ms
  | .arr t _ => Laid ρ t
  | _ => True
def MLaid (ρ : Str → Nat × Nat) : Members → Prop
  | .nil => True
  | .cons _ t _ ms => Laid ρ t ∧ MLaid ρ ms
end

theorem layoutLoop_dims : ∀ (a b : Members) (nb al : Nat), dims a.toList = dims b.toList →
    ∀ ra rb, layoutLoop a nb al = .ok ra → layoutLoop b nb al = .ok rb → ra.2 = rb.2 := by
  intro a
  match a with
  | .nil =>
    intro b nb al h ra rb h1 h2
    match b, h with
    | .nil, _ => simp [layoutLoop] at h1 h2; rw [← h1, ← h2]
  | .cons n t o ms =>
    intro b nb al h ra rb h1 h2
    match b, h with
    | .cons n' t' o' ms', h =>
      simp only [dims, Members.toList, List.map_cons, List.cons.injEq, Prod.mk.injEq] at h
      obtain ⟨⟨hn, ha⟩, hr⟩ := h
      simp only [layoutLoop, Out.bind_eq_ok] at h1 h2
      obtain ⟨u, hu, r1, hr1, h1⟩ := h1
      obtain ⟨u', hu', r2, hr2, h2⟩ := h2
      rw [← ha] at hu'
      rw [hu] at hu'; simp at hu'; subst hu'
      rw [← hn, ← ha] at hr2
      have := layoutLoop_dims ms ms' _ _ hr r1 r2 hr1 hr2
      simp at h1 h2
      rw [← h1, ← h2]; simp [this]

mutual
theorem equals_size (ρ : Str → Nat × Nat) : ∀ (a b : DType), Laid ρ a → Laid ρ b → equals a b = true →
    nbytes a = nbytes b ∧ alignment a = alignment b := by
  intro a b
  match a with
  | .void | .char | .int | .uint | .long | .ulong | .llong | .ullong => cases b <;> simp [equals, nbytes, alignment]
  | .ptr a => cases b <;> simp [equals, nbytes, alignment]
  | .arr a n =>
    cases b <;> simp [equals, nbytes, alignment, Laid]
    rename_i b m
    intro h1 h2 h3 h4
    obtain ⟨h5, h6⟩ := equals_size ρ a b h1 h2 h4
    rw [h3, h5, h6]; exact ⟨rfl, rfl⟩
  | .nstruct s _ _ =>
    cases b <;> simp [equals, nbytes, alignment, Laid]
    intro h1 h2 h3
    rw [h3, h2] at h1; simp at h1; exact ⟨h1.1.symm, h1.2.symm⟩
  | .ustruct ms x y =>
    cases b <;> simp only [equals, nbytes, alignment, Laid, Bool.false_eq_true, false_implies, implies_true]
    rename_i ms2 x2 y2
    rintro ⟨⟨m1, h1⟩, hl1⟩ ⟨⟨m2, h2⟩, hl2⟩ he
    have hd := membersEquals_dims ρ ms ms2 hl1 hl2 he
    simp only [newUnnamedStruct, Out.bind_eq_ok] at h1 h2
    obtain ⟨r1, h3, n1, h4, h1⟩ := h1
    obtain ⟨r2, h5, n2, h6, h2⟩ := h2
    have := layoutLoop_dims ms ms2 0 0 hd r1 r2 h3 h5
    obtain ⟨r11, r12, r13⟩ := r1
    obtain ⟨r21, r22, r23⟩ := r2
    simp only [Prod.mk.injEq] at this h4 h6
    obtain ⟨t1, t2⟩ := this
    simp only [Out.pure_eq, Out.ok.injEq, DType.ustruct.injEq] at h1 h2
    rw [t1, t2, h6] at h4
    simp at h4
    obtain ⟨_, rfl, rfl⟩ := h1
    obtain ⟨_, rfl, rfl⟩ := h2
    exact ⟨h4.symm, t2⟩
  | .nenum s => cases b <;> simp [equals, nbytes, alignment]
  | .uenum ms => cases b <;> simp [equals, nbytes, alignment]
  | .func ps r => cases b <;> simp [equals, nbytes, alignment]
  | .tdef a => cases b <;> simp [equals, nbytes, alignment]
theorem membersEquals_dims (ρ : Str → Nat × Nat) : ∀ (a b : Members), MLaid ρ a → MLaid ρ b → membersEquals a b = true →
    dims a.toList = dims b.toList := by
  intro a b
  match a with
  | .nil => cases b <;> simp [membersEquals]
  | .cons n t o ms =>
    cases b <;> simp [membersEquals, MLaid, Members.toList, dims]
    rename_i n' t' o' ms'
    intro h1 h2 h3 h4 h5 h6 h7
    obtain ⟨h8, h9⟩ := equals_size ρ t t' h1 h3 h6
    have := membersEquals_dims ρ ms ms' h2 h4 h7
    simp only [dims] at this
    exact ⟨⟨h8, h9⟩, this⟩
end

/-- Object types as the resolver builds them. -/
inductive Obj : DType → Prop
  | char : Obj .char | int : Obj .int | uint : Obj .uint | long : Obj .long | ulong : Obj .ulong
  | llong : Obj .llong | ullong : Obj .ullong
  | ptr (t) : Obj (.ptr t)
  | arr (t n) : Obj t → 0 < n → Obj (.arr t n)
  | ustruct (ms ms' b a) : ms ≠ .nil → (∀ m ∈ ms.toList, Obj m.2.1) → newUnnamedStruct ms = .ok (.ustruct ms' b a) →
      Obj (.ustruct ms' b a)
  | nstruct (s ms b a) : Obj (.ustruct ms b a) → Obj (.nstruct s b a)
  | nenum (s) : Obj (.nenum s)
  | uenum (ms) : Obj (.uenum ms)

theorem newUnnamedStruct_spec (ms : Members) (hne : ms ≠ .nil) (hpos : ∀ d ∈ dims ms.toList, 0 < d.2) :
    ∃ ms' nb0 nb al, newUnnamedStruct ms = .ok (.ustruct ms' nb al) ∧ LoopSpec ms.toList 0 0 ms'.toList nb0 al ∧
      al ∣ nb ∧ nb0 ≤ nb ∧ (∀ m, nb0 ≤ m → al ∣ m → nb ≤ m) ∧ 0 < al ∧ ∃ d ∈ dims ms.toList, d.2 = al := by
  obtain ⟨ms', nb0, al, h1, h2⟩ := layoutLoop_spec ms 0 0 hpos
  have hex : ∃ d, d ∈ dims ms.toList := by
    cases ms with
    | nil => exact absurd rfl hne
    | cons n t o r => exact ⟨_, List.mem_cons_self⟩
  obtain ⟨d, hd⟩ := hex
  have hal : 0 < al := by have := hpos d hd; have := h2.amax.2 d hd; omega
  obtain ⟨nb, h3, h4, h5, h6⟩ := up_spec (n := nb0) hal
  refine ⟨ms', nb0, nb, al, by simp [newUnnamedStruct, h1, h3], h2, h4, h5, h6, hal, ?_⟩
  rcases h2.aone with h | h
  · omega
  · exact h

theorem Obj.align {t : DType} (h : Obj t) :
    (alignment t = 1 ∨ alignment t = 4 ∨ alignment t = 8) ∧ alignment t ∣ nbytes t ∧ 0 < nbytes t := by
  induction h with
  | char | int | uint | long | ulong | llong | ullong => simp [alignment, nbytes]
  | ptr t => simp [alignment, nbytes]
  | nenum | uenum => simp [alignment, nbytes]
  | arr t n _ hn ih =>
    obtain ⟨h1, h2, h3⟩ := ih
    exact ⟨h1, by simp only [alignment, nbytes]; exact Nat.dvd_mul_left_of_dvd h2 _, by simp only [nbytes]; exact Nat.mul_pos hn h3⟩
  | nstruct s ms b a _ ih => simpa [alignment, nbytes] using ih
  | ustruct ms ms' b a hne hobj hnew ih =>
    have hpos : ∀ d ∈ dims ms.toList, 0 < d.2 := by
      intro d hd
      simp only [dims, List.mem_map] at hd
      obtain ⟨m, hm, rfl⟩ := hd
      have := (ih m hm).1
      simp only; omega
    obtain ⟨ms2, nb0, nb, al, h1, h2, h3, h4, h5, h6, ⟨d, hd, hda⟩⟩ := newUnnamedStruct_spec ms hne hpos
    rw [hnew] at h1
    simp at h1
    obtain ⟨rfl, rfl, rfl⟩ := h1
    simp only [dims, List.mem_map] at hd
    obtain ⟨m, hm, rfl⟩ := hd
    have hm' := ih m hm
    simp only at hda
    refine ⟨by simp only [alignment]; rw [← hda]; exact hm'.1, by simpa [alignment, nbytes] using h3, ?_⟩
    simp only [nbytes]
    -- the first member has positive size
    match ms, hne, hobj, ih, h2 with
    | .cons n t o r, _, hobj, ih, h2 =>
      have hsz := (ih (n, t, o) (by simp [Members.toList])).2.2
      simp only at hsz
      have hl := h2.valid.len
      match hoff : offsets ms'.toList with
      | [] => rw [hoff] at hl; simp [dims, Members.toList] at hl
      | o0 :: _ =>
        have := h2.valid.inside 0 (nbytes t) (alignment t) o0 (by simp [dims, Members.toList]) (by rw [hoff]; simp)
        omega

end DType
end Umlcc
