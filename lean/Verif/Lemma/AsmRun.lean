import Verif.Lemma.Asm
import Verif.Lemma.UnitProgram
/-!
Running through the statements of an object file is running through the items it was made of.
-/
namespace Umlcc
namespace Asm
open X64 (Line Item XInst)
open X86 (Mach Host Conf Image)

variable {W : Type}

theorem stmts_at : ∀ {items : List Item} {c : Sec} {ss : List (Sec × Stmt)}, stmtsOf c items = .ok ss → arranged c items = true →
    ss.length = items.length ∧ ∀ (p : Nat) (x : Item), items[p]? = some x → ∃ (s : Sec) (y : Stmt), stmtOf x = .ok y ∧ ss[p]? = some (s, y) ∧ (∀ i, x = .inst i → s = .text) ∧ ∀ v n, x = .label .function v n → s = .text ∧ v = .global
  | [], c, ss, h, _ => by
    cases h
    exact ⟨rfl, fun p x h => by simp at h⟩
  | a :: items, c, ss, h, ha => by
    simp only [stmtsOf, Out.bind_eq_ok] at h
    obtain ⟨y, hy, ys, hys, h⟩ := h
    cases h
    simp only [arranged, Bool.and_eq_true] at ha
    obtain ⟨h1, h2⟩ := stmts_at hys ha.2
    refine ⟨by simp [h1], ?_⟩
    intro p x hp
    cases p with
    | zero =>
      simp only [List.getElem?_cons_zero, Option.some.injEq] at hp
      subst hp
      refine ⟨_, y, hy, rfl, ?_, ?_⟩
      · rintro i rfl
        simpa [secAfter] using ha.1
      · rintro v n rfl
        exact ⟨rfl, by simpa using ha.1⟩
    | succ p => exact h2 p x (by simpa using hp)

theorem stmts_find {n : Name} : ∀ {items : List Item} {c : Sec} {ss : List (Sec × Stmt)}, stmtsOf c items = .ok ss → ss.findIdx? (isLabel n) = items.findIdx? (X86.isItemLabel n)
  | [], c, ss, h => by cases h; rfl
  | a :: items, c, ss, h => by
    simp only [stmtsOf, Out.bind_eq_ok] at h
    obtain ⟨y, hy, ys, hys, h⟩ := h
    cases h
    have ih := stmts_find (n := n) hys
    have : isLabel n (secAfter c a, y) = X86.isItemLabel n a := by
      cases a with
      | inst i =>
        simp only [stmtOf, Out.bind_eq_ok] at hy
        obtain ⟨l, -, hy⟩ := hy
        cases hy
        simp [isLabel, X86.isItemLabel]
      | data d => cases hy; simp [isLabel, X86.isItemLabel]
      | label t v l => cases hy; simp [isLabel, X86.isItemLabel]
    rw [List.findIdx?_cons, List.findIdx?_cons, this, ih]

theorem stmts_labels : ∀ {items : List Item} {c : Sec} {ss : List (Sec × Stmt)}, stmtsOf c items = .ok ss → labels ss = X86.labelNames items
  | [], c, ss, h => by cases h; rfl
  | a :: items, c, ss, h => by
    simp only [stmtsOf, Out.bind_eq_ok] at h
    obtain ⟨y, hy, ys, hys, h⟩ := h
    cases h
    have ih := stmts_labels hys
    simp only [labels, X86.labelNames] at ih ⊢
    cases a with
    | inst i =>
      simp only [stmtOf, Out.bind_eq_ok] at hy
      obtain ⟨l, -, hy⟩ := hy
      cases hy
      simpa [pure] using ih
    | data d => cases hy; simpa [pure] using ih
    | label t v l => cases hy; simpa [pure] using ih

theorem hop_eq {I : Image W} {items : List Item} {ss : List (Sec × Stmt)} (h : stmtsOf .text items = .ok ss) (ha : arranged .text items = true) (c : Conf W) :
    hop I ss c = X86.hop I items c := by
  obtain ⟨hlen, hat⟩ := stmts_at h ha
  cases c with
  | done a m w => rfl
  | «at» pc m w =>
    cases hx : items[pc]? with
    | none =>
      have : ss[pc]? = none := by
        rw [List.getElem?_eq_none_iff] at hx ⊢
        omega
      simp only [hop, X86.hop, X86.tick, hx, this]
    | some x =>
      obtain ⟨s, y, hy, hs, hi, -⟩ := hat pc x hx
      cases x with
      | label t v n =>
        cases hy
        simp only [hop, X86.hop, X86.tick, hx, hs]
      | data d =>
        cases hy
        simp only [hop, X86.hop, X86.tick, hx, hs]
      | inst i =>
        have hst := hi i rfl
        subst hst
        simp only [stmtOf, Out.bind_eq_ok] at hy
        obtain ⟨l, hl, hy⟩ := hy
        cases hy
        have hc : X86.callee I.host m i = callee I.host m l := by simp only [X86.callee, hl]; rfl
        have hw : X86.worldAfter I.host pc m w i = worldAfter I.host pc m w l := by simp only [X86.worldAfter, hc]; rfl
        simp only [hop, X86.hop, hx, hs, hc, X86.tick, X86.stepI, hl, hw]
        cases (callee I.host m l).bind I.locate with
        | some p => rfl
        | none =>
          cases X86.exec (I.host.env pc w) m l with
          | jump n m' =>
            dsimp only
            rw [stmts_find h]
            cases List.findIdx? (X86.isItemLabel n) items <;> rfl
          | _ => rfl

theorem hops_eq {I : Image W} {items : List Item} {ss : List (Sec × Stmt)} (h : stmtsOf .text items = .ok ss) (ha : arranged .text items = true) :
    hops I ss = X86.hops I items := by
  funext c n
  induction n with
  | zero => rfl
  | succ n ih =>
    rw [hops, X86.hops, ih]
    congr 1
    funext c
    exact hop_eq h ha c

theorem linked_of {I : Image W} {items : List Item} {ss : List (Sec × Stmt)} (h : stmtsOf .text items = .ok ss) (ha : arranged .text items = true)
    (hl : Linked I ⟨ss, globalsOf items⟩) : X86.Linked I items := by
  obtain ⟨hlen, hat⟩ := stmts_at h ha
  constructor
  · intro p v n hp
    obtain ⟨s, y, hy, hs, -, hf⟩ := hat p _ hp
    cases hy
    obtain ⟨rfl, rfl⟩ := hf v n rfl
    refine hl.func p n hs ?_
    simp only [globalsOf, List.mem_filterMap]
    exact ⟨_, List.mem_of_getElem? hp, rfl⟩
  · intro p i hp hi
    obtain ⟨s, y, hy, hs, -, -⟩ := hat p _ hp
    simp only [stmtOf, Out.bind_eq_ok] at hy
    obtain ⟨l, h1, hy⟩ := hy
    cases hy
    refine hl.back p s l hs ?_
    simp only [X64.line, Out.bind_eq_ok] at h1
    obtain ⟨mn, hm, ops, -, h1⟩ := h1
    cases h1
    simp only [X64.mnemonic, hi] at hm
    cases hm
    show X86.mnOf "call" = _
    decide +kernel

end Asm
end Umlcc
