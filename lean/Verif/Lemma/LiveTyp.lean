import Verif.Lemma.GenLabel
import Verif.Spec.Regalloc
/-!
A way to bound the registers that are live at each line: sets of registers written beside the code. `Typ Λ K D c A B` says that sets can be put beside the lines of `c`
beginning with `A` and ending with `B`, such that control flow inside of the code and to labels (with sets `Λ`) is respected.
-/
namespace Umlcc
namespace Live
open RSpec (reads writes target isLabelNamed Succ LiveIn LiveOut UniqueLabels BackDead DefBefore WritesMatter branches)
open Gen (defs mem_defs)

abbrev RS := Int → Prop

def isJmp : Immc → Bool
  | .inst ⟨.jmp, _, _, _⟩ => true
  | _ => false

def isLab : Immc → Bool
  | .label _ _ _ => true
  | _ => false

/-- registers written by a code -/
def wset (c : List Immc) : RS := fun v => ∃ x ∈ c, writes x = some v
/-- registers read by a code -/
def rset (c : List Immc) : RS := fun v => ∃ x ∈ c, v ∈ reads x

theorem wset_append {a b : List Immc} {v : Int} : wset (a ++ b) v ↔ wset a v ∨ wset b v := by
  simp only [wset, List.mem_append]; grind
theorem rset_append {a b : List Immc} {v : Int} : rset (a ++ b) v ↔ rset a v ∨ rset b v := by
  simp only [rset, List.mem_append]; grind
theorem wset_cons {x : Immc} {b : List Immc} {v : Int} : wset (x :: b) v ↔ writes x = some v ∨ wset b v := by
  simp only [wset, List.mem_cons]; grind
theorem rset_cons {x : Immc} {b : List Immc} {v : Int} : rset (x :: b) v ↔ v ∈ reads x ∨ rset b v := by
  simp only [rset, List.mem_cons]; grind
theorem wset_nil {v : Int} : ¬ wset [] v := by simp [wset]
theorem rset_nil {v : Int} : ¬ rset [] v := by simp [rset]

/-- one line `x` with the rest `c` of the code after it, the registers `D` written on lines before, those `K` read on lines after the code,
and the sets before and after the line -/
structure Step (Λ : Name → RS) (K D : RS) (x : Immc) (c : List Immc) (A A' : RS) : Prop where
  defd : ∀ v, A v → D v
  reads : ∀ v ∈ reads x, A v
  fall : isJmp x = false → ∀ v, A' v → writes x ≠ some v → A v
  jump : ∀ n, target x = some n → ∀ v, Λ n v → A v
  fwd : ∀ n, target x = some n → (∀ v, ¬ Λ n v) ∨ n ∈ defs c
  lab : ∀ n, isLabelNamed n x = true → ∀ v, (A v ↔ Λ n v) ∧ (A' v ↔ Λ n v)
  matter : ∀ v, writes x = some v → (∀ w, D w → w < v) ∨ rset (x :: c) v ∨ K v ∨ ∀ u, A' u → u = v

def Typ (Λ : Name → RS) (K : RS) : RS → List Immc → RS → RS → Prop
  | D, [], A, B => (∀ v, A v ↔ B v) ∧ ∀ v, A v → D v
  | D, x :: c, A, B => ∃ A', Step Λ K D x c A A' ∧ Typ Λ K (fun v => D v ∨ writes x = some v) c A' B

theorem Step.mono {Λ : Name → RS} {K K' D D' A A' : RS} {x : Immc} {c c' : List Immc} (h : Step Λ K D x c A A') (hd : ∀ v, D v ↔ D' v)
    (hk : ∀ v, K v ∨ rset c v → K' v ∨ rset c' v) (hc : ∀ n, n ∈ defs c → n ∈ defs c') : Step Λ K' D' x c' A A' where
  defd v hv := (hd v).1 (h.defd v hv)
  reads := h.reads
  fall := h.fall
  jump := h.jump
  fwd n hn := (h.fwd n hn).imp id (hc n)
  lab := h.lab
  matter v hv := by
    rcases h.matter v hv with m | m | m | m
    · exact .inl fun w hw => m w ((hd w).2 hw)
    · rcases rset_cons.1 m with m | m
      · exact .inr (.inl (rset_cons.2 (.inl m)))
      · rcases hk v (.inr m) with m | m
        · exact .inr (.inr (.inl m))
        · exact .inr (.inl (rset_cons.2 (.inr m)))
    · rcases hk v (.inl m) with m | m
      · exact .inr (.inr (.inl m))
      · exact .inr (.inl (rset_cons.2 (.inr m)))
    · exact .inr (.inr (.inr m))

theorem Typ.mono {Λ : Name → RS} {K K' : RS} (hk : ∀ v, K v → K' v) : ∀ {c : List Immc} {D D' A B : RS}, Typ Λ K D c A B → (∀ v, D v ↔ D' v) → Typ Λ K' D' c A B
  | [], _, _, _, _, h, hd => ⟨h.1, fun v hv => (hd v).1 (h.2 v hv)⟩
  | x :: c, D, D', A, B, h, hd => by
    obtain ⟨A', h1, h2⟩ := h
    exact ⟨A', h1.mono hd (fun v hv => hv.imp (hk v) id) (fun _ => id), h2.mono hk fun v => by simp [hd v]⟩

theorem Typ.append {Λ : Name → RS} {K : RS} {c2 : List Immc} : ∀ {c1 : List Immc} {D A B C : RS}, Typ Λ (fun v => K v ∨ rset c2 v) D c1 A B →
    Typ Λ K (fun v => D v ∨ wset c1 v) c2 B C → Typ Λ K D (c1 ++ c2) A C
  | [], D, A, B, C, h1, h2 => by
    have e : A = B := funext fun v => propext (h1.1 v)
    subst e
    exact h2.mono (fun _ => id) (fun v => by simp [wset_nil])
  | x :: c1, D, A, B, C, h1, h2 => by
    obtain ⟨A', h1, h3⟩ := h1
    refine ⟨A', h1.mono (fun _ => Iff.rfl) ?_ ?_, h3.append (h2.mono (fun _ => id) fun v => by rw [wset_cons, or_assoc])⟩
    · intro v hv
      show K v ∨ rset (c1 ++ c2) v
      rw [rset_append]
      grind
    · intro n hn
      show n ∈ defs (c1 ++ c2)
      rw [Gen.defs_append]
      exact List.mem_append_left _ hn

theorem Typ.cast {Λ : Name → RS} {K D A A' B B' : RS} {c : List Immc} (h : Typ Λ K D c A B) (ha : ∀ v, A v ↔ A' v) (hb : ∀ v, B v ↔ B' v) : Typ Λ K D c A' B' := by
  rw [← show A = A' from funext fun v => propext (ha v), ← show B = B' from funext fun v => propext (hb v)]
  exact h

/-- an instruction that does not branch -/
theorem Typ.inst {Λ : Name → RS} {K D A A' B : RS} {op : IOp} {d f g : Option Ope} {c : List Immc} (hb : branches op = false) (hd : ∀ v, A v → D v)
    (hr : ∀ v ∈ reads (.inst ⟨op, d, f, g⟩), A v) (hf : ∀ v, A' v → writes (.inst ⟨op, d, f, g⟩) ≠ some v → A v)
    (hm : ∀ v, writes (.inst ⟨op, d, f, g⟩) = some v → (∀ w, D w → w < v) ∨ rset (.inst ⟨op, d, f, g⟩ :: c) v ∨ K v ∨ ∀ u, A' u → u = v)
    (h : Typ Λ K (fun v => D v ∨ writes (.inst ⟨op, d, f, g⟩) = some v) c A' B) : Typ Λ K D (.inst ⟨op, d, f, g⟩ :: c) A B := by
  have ht : target (.inst ⟨op, d, f, g⟩) = none := by
    unfold target
    split
    · rename_i h; cases h; simp [hb]
    · rfl
  refine ⟨A', ⟨hd, hr, fun _ => hf, ?_, ?_, ?_, hm⟩, h⟩
  · rw [ht]; nofun
  · rw [ht]; nofun
  · nofun

/-- a conditional branch to a later label, or a label where nothing is live -/
theorem Typ.branch {Λ : Name → RS} {K D A A' B : RS} {op : IOp} {n : Name} {f g : Option Ope} {c : List Immc} (hb : branches op = true) (hd : ∀ v, A v → D v)
    (hr : ∀ v ∈ reads (.inst ⟨op, some (.label n), f, g⟩), A v) (hf : ∀ v, A' v → A v) (hj : ∀ v, Λ n v → A v)
    (hw : (∀ v, ¬ Λ n v) ∨ n ∈ defs c) (h : Typ Λ K D c A' B) : Typ Λ K D (.inst ⟨op, some (.label n), f, g⟩ :: c) A B := by
  have ht : target (.inst ⟨op, some (.label n), f, g⟩) = some n := by simp [target, hb]
  refine ⟨A', ⟨hd, hr, fun _ v hv _ => hf v hv, ?_, ?_, nofun, nofun⟩, h.mono (fun _ => id) fun v => by simp [writes]⟩
  · intro m hm; rw [ht] at hm; cases hm; exact hj
  · intro m hm; rw [ht] at hm; cases hm; exact hw

theorem Typ.jmp {Λ : Name → RS} {K D A A' B : RS} {n : Name} {c : List Immc} (hd : ∀ v, A v → D v) (hj : ∀ v, Λ n v → A v)
    (hw : (∀ v, ¬ Λ n v) ∨ n ∈ defs c) (h : Typ Λ K D c A' B) : Typ Λ K D (.inst ⟨.jmp, some (.label n), none, none⟩ :: c) A B := by
  refine ⟨A', ⟨hd, ?_, nofun, ?_, ?_, nofun, nofun⟩, h.mono (fun _ => id) fun v => by simp [writes]⟩
  · intro v hv; simp [RSpec.reads, RSpec.opeRegs] at hv
  · intro m hm; cases hm; exact hj
  · intro m hm; cases hm; exact hw

theorem Typ.label {Λ : Name → RS} {K D A B : RS} {t : LblType} {vis : Vis} {n : Name} {c : List Immc} (hd : ∀ v, A v → D v) (hl : ∀ v, A v ↔ Λ n v)
    (h : Typ Λ K D c A B) : Typ Λ K D (.label t vis n :: c) A B := by
  refine ⟨A, ⟨hd, nofun, fun _ v hv _ => hv, nofun, nofun, ?_, nofun⟩, h.mono (fun _ => id) fun v => by simp [writes]⟩
  intro m hm v
  have e : n = m := by simpa [isLabelNamed] using hm
  subst e
  exact ⟨hl v, hl v⟩

/-- the sets beside the lines -/
theorem Typ.table {Λ : Name → RS} {K : RS} : ∀ {c : List Immc} {D A B : RS}, Typ Λ K D c A B → ∃ T : Nat → RS, T 0 = A ∧
    ∀ i x, c[i]? = some x → Step Λ K (fun v => D v ∨ wset (c.take i) v) x (c.drop (i + 1)) (T i) (T (i + 1))
  | [], D, A, B, h => ⟨fun _ => A, rfl, by simp⟩
  | x :: c, D, A, B, ⟨A', h1, h2⟩ => by
    obtain ⟨T, t0, ht⟩ := h2.table
    refine ⟨fun i => match i with | 0 => A | i + 1 => T i, rfl, ?_⟩
    intro i y hi
    cases i with
    | zero =>
      cases hi
      show Step _ _ _ _ _ A (T 0)
      rw [t0]
      exact h1.mono (fun v => by simp [wset_nil]) (fun _ => by simp) (fun _ => by simp)
    | succ i => exact (ht i y hi).mono (fun v => by simp [wset_cons, or_assoc]) (fun _ => by simp) (fun _ => by simp)

theorem Typ.end {Λ : Name → RS} {K : RS} : ∀ {c : List Immc} {D A B : RS}, Typ Λ K D c A B → ∀ v, B v → D v ∨ wset c v
  | [], D, A, B, h, v, hv => .inl (h.2 v ((h.1 v).2 hv))
  | x :: c, D, A, B, ⟨A', _, h⟩, v, hv => by
    rcases h.end v hv with (h | h) | h
    · exact .inl h
    · exact .inr (wset_cons.2 (.inl h))
    · exact .inr (wset_cons.2 (.inr h))

theorem Typ.endLabel {Λ : Name → RS} {K : RS} : ∀ {c : List Immc} {D A B : RS}, Typ Λ K D c A B → ∀ {n}, Gen.endLabel c = some n → ∀ v, Λ n v ↔ B v
  | [], _, _, _, _, n, hn, v => by simp [Gen.endLabel] at hn
  | [x], D, A, B, ⟨A', h1, h2⟩, n, hn, v => by
    simp only [Gen.endLabel, List.getLast?_singleton] at hn
    split at hn
    · rename_i heq; cases heq; cases hn
      exact (h1.lab _ (by simp [isLabelNamed]) v).2.symm.trans (h2.1 v)
    · cases hn
  | x :: y :: c, D, A, B, ⟨A', h1, h2⟩, n, hn, v => by
    refine Typ.endLabel h2 (n := n) ?_ v
    simpa [Gen.endLabel, List.getLast?_cons_cons] using hn

/-! ### what follows for a code without live registers at its beginning -/

/-- what is live is in the sets -/
theorem live_sub {Λ : Name → RS} {K D : RS} {c : List Immc} {T : Nat → RS}
    (ht : ∀ i x, c[i]? = some x → Step Λ K (fun v => D v ∨ wset (c.take i) v) x (c.drop (i + 1)) (T i) (T (i + 1))) {v : Int} {i : Nat} (h : LiveIn c v i) : T i v := by
  induction h with
  | @read i x hx hv => exact (ht i x hx).reads v hv
  | @thru i j x hx hw hs hl ih =>
    have st := ht i x hx
    obtain ⟨y, hy, hs⟩ := hs
    rw [hx] at hy
    cases hy
    rcases hs with ⟨rfl, hj⟩ | ⟨n, y, hn, hy, hl'⟩
    · refine st.fall ?_ v ih hw
      cases x with
      | inst k =>
        obtain ⟨op, d, f, g⟩ := k
        cases op <;> first | rfl | exact absurd rfl (hj d f g)
      | _ => rfl
    · exact st.jump n hn v (((ht j y hy).lab n hl' v).1.1 ih)

variable {Λ : Name → RS} {c : List Immc} {B : RS}

theorem Typ.start (h : Typ Λ (fun _ => False) (fun _ => False) c (fun _ => False) B) (v : Int) : ¬ LiveIn c v 0 := by
  obtain ⟨T, t0, ht⟩ := h.table
  intro hl
  have := live_sub ht hl
  rw [t0] at this
  exact this

theorem Typ.defBefore (h : Typ Λ (fun _ => False) (fun _ => False) c (fun _ => False) B) : DefBefore c := by
  obtain ⟨T, t0, ht⟩ := h.table
  intro i u hl
  have hi : ∃ x, c[i]? = some x := by cases hl with | read h _ => exact ⟨_, h⟩ | thru h _ _ _ => exact ⟨_, h⟩
  obtain ⟨x, hx⟩ := hi
  rcases (ht i x hx).defd u (live_sub ht hl) with h | ⟨y, hy, hw⟩
  · exact h.elim
  · obtain ⟨k, hk⟩ := List.getElem?_of_mem hy
    rw [List.getElem?_take] at hk
    split at hk
    · exact ⟨k, y, by omega, hk, hw⟩
    · cases hk

theorem Typ.writesMatter (h : Typ Λ (fun _ => False) (fun _ => False) c (fun _ => False) B) : WritesMatter c := by
  obtain ⟨T, t0, ht⟩ := h.table
  intro i x v hx hw
  rcases (ht i x hx).matter v hw with m | m | m | m
  · refine .inl fun k y w hk hy hw' => m w (.inr ⟨y, ?_, hw'⟩)
    exact List.mem_of_getElem? (i := k) (by rw [List.getElem?_take, if_pos hk]; exact hy)
  · obtain ⟨y, hy, hr⟩ := m
    rcases List.mem_cons.1 hy with rfl | hy
    · exact .inr (.inl ⟨i, _, by omega, hx, hr⟩)
    · obtain ⟨k, hk⟩ := List.getElem?_of_mem hy
      rw [List.getElem?_drop] at hk
      exact .inr (.inl ⟨_, y, by omega, hk, hr⟩)
  · exact m.elim
  · refine .inr (.inr ?_)
    intro u hu hl
    obtain ⟨j, ⟨y, hy, hs⟩, hl⟩ := hl
    rw [hx] at hy
    cases hy
    rcases hs with ⟨rfl, _⟩ | ⟨n, y, hn, -, -⟩
    · exact hu (m u (live_sub ht hl))
    · cases x with
      | inst k =>
        obtain ⟨op, d, f, g⟩ := k
        simp only [writes] at hw
        split at hw
        · rename_i he; cases he; simp [target] at hn
        · cases hw
      | _ => cases hw

theorem Typ.backDead (h : Typ Λ (fun _ => False) (fun _ => False) c (fun _ => False) B) (hu : UniqueLabels c) : BackDead c := by
  obtain ⟨T, t0, ht⟩ := h.table
  intro i j u hs hji hl
  obtain ⟨x, hx, hs⟩ := hs
  rcases hs with ⟨rfl, _⟩ | ⟨n, y, hn, hy, hl'⟩
  · omega
  · rcases (ht i x hx).fwd n hn with hd | hd
    · exact hd u (((ht j y hy).lab n hl' u).1.1 (live_sub ht hl))
    · obtain ⟨z, hz, hzn⟩ := mem_defs.1 hd
      obtain ⟨k, hk⟩ := List.getElem?_of_mem hz
      rw [List.getElem?_drop] at hk
      have := hu _ _ n z y hk hy hzn hl'
      omega

end Live
end Umlcc
