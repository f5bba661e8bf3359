import Verif.Lemma.Fit
import Verif.Lemma.X64Call
import Verif.Lemma.X64Div
import Verif.Lemma.PlainSuits
/-!
Machine code is generated for instructions with operands that fit and registers that exist (helper lemmas for C74).
-/
namespace Umlcc
namespace Tidy
open X64
open RSpec (opeRegs)

/-- register numbers that exist -/
def Small (o : Option Ope) : Prop := ∀ v ∈ opeRegs o, 0 ≤ v ∧ v < 8

theorem any_reg {o : Option Ope} (h : o.any isReg = true) : ∃ s id u, o = some (.reg s id u) := by
  cases o with
  | none => cases h
  | some o => cases o <;> first | exact ⟨_, _, _, rfl⟩ | cases h

theorem any_int {o : Option Ope} (h : o.any isInt = true) : ∃ s l, o = some (.int s l) := by
  cases o with
  | none => cases h
  | some o => cases o <;> first | exact ⟨_, _, rfl⟩ | cases h

theorem any_val {o : Option Ope} (h : o.any isVal = true) : (∃ s id u, o = some (.reg s id u)) ∨ ∃ s l, o = some (.int s l) := by
  cases o with
  | none => cases h
  | some o => cases o <;> first | exact .inl ⟨_, _, _, rfl⟩ | exact .inr ⟨_, _, rfl⟩ | cases h

theorem any_label {o : Option Ope} (h : o.any isLabel = true) : ∃ n, o = some (.label n) := by
  cases o with
  | none => cases h
  | some o => cases o <;> first | exact ⟨_, rfl⟩ | cases h

theorem any_str {o : Option Ope} (h : o.any isStr = true) : ∃ n, o = some (.str n) := by
  cases o with
  | none => cases h
  | some o => cases o <;> first | exact ⟨_, rfl⟩ | cases h

theorem any_place {o : Option Ope} (h : o.any isPlace = true) : (∃ n, o = some (.ptr n)) ∨ (∃ n, o = some (.label n)) ∨ ∃ n, o = some (.mem n) := by
  cases o with
  | none => cases h
  | some o => cases o <;> first | exact .inl ⟨_, rfl⟩ | exact .inr (.inl ⟨_, rfl⟩) | exact .inr (.inr ⟨_, rfl⟩) | cases h

theorem callerAt_ok {v : Int} (h : 0 ≤ v ∧ v < 8) : ∃ r, callerAt v = .ok r := by
  have : v = 0 ∨ v = 1 ∨ v = 2 ∨ v = 3 ∨ v = 4 ∨ v = 5 ∨ v = 6 ∨ v = 7 := by omega
  rcases this with rfl | rfl | rfl | rfl | rfl | rfl | rfl | rfl <;> exact ⟨_, rfl⟩

theorem small_reg {s : Sfx} {id : Int} {u : Bool} (h : Small (some (.reg s id u))) : ∃ r, physReg (.reg s id u) = .ok (r, u) := by
  obtain ⟨r, hr⟩ := callerAt_ok (h id (by simp [opeRegs]))
  exact ⟨r, by simp [physReg, regField, hr]⟩

theorem small_ptr {id : Int} (h : Small (some (.ptr id))) : ∃ r, physReg (.ptr id) = .ok (r, false) := by
  obtain ⟨r, hr⟩ := callerAt_ok (h id (by simp [opeRegs]))
  exact ⟨r, by simp [physReg, regField, hr]⟩

theorem keep_ok {ev : Nat} {o : Out (List XInst)} (h : ∃ c, o = .ok c) : ∃ r, keep ev o = .ok r := by
  obtain ⟨c, rfl⟩ := h
  exact ⟨_, rfl⟩

section
variable {op : IOp} {d f g : Option Ope} (hd : Small d) (hf : Small f) (hg : Small g)
include hd hf

theorem genLoad_ok (h1 : d.any isReg = true) (h2 : (f.any fun o => isVal o || isPlace o) = true) : ∃ c, genLoad ⟨op, d, f, g⟩ = .ok c := by
  obtain ⟨s, id, u, rfl⟩ := any_reg h1
  obtain ⟨r, hr⟩ := small_reg hd
  cases f with
  | none => cases h2
  | some o =>
    cases o <;> first | cases h2; done | skip
    case reg => obtain ⟨r', hr'⟩ := small_reg hf; exact ⟨_, by simp [genLoad, deref, hr, hr']; rfl⟩
    case ptr => obtain ⟨r', hr'⟩ := small_ptr hf; exact ⟨_, by simp [genLoad, deref, hr, hr']; rfl⟩
    all_goals exact ⟨_, by simp [genLoad, deref, hr]; rfl⟩

theorem genAddr_ok (h1 : d.any isReg = true) (h2 : (f.any fun o => isLabel o || isMem o) = true) : ∃ c, genAddr ⟨op, d, f, g⟩ = .ok c := by
  obtain ⟨s, id, u, rfl⟩ := any_reg h1
  obtain ⟨r, hr⟩ := small_reg hd
  cases f with
  | none => cases h2
  | some o =>
    cases o <;> first | cases h2; done | skip
    all_goals exact ⟨_, by simp [genAddr, deref, hr]; rfl⟩

omit hd hf in
theorem genStr_ok (h1 : d.isSome = true) (h2 : f.any isStr = true) : ∃ c, genStr ⟨op, d, f, g⟩ = .ok c := by
  obtain ⟨n, rfl⟩ := any_str h2
  cases d with
  | none => cases h1
  | some d => exact ⟨_, by simp [genStr, deref]; rfl⟩

theorem genStore_ok (h1 : d.any isPlace = true) (h2 : f.any isVal = true) : ∃ c, genStore ⟨op, d, f, g⟩ = .ok c := by
  rcases any_val h2 with ⟨s, id, u, rfl⟩ | ⟨s, l, rfl⟩
  · obtain ⟨r, hr⟩ := small_reg hf
    rcases any_place h1 with ⟨n, rfl⟩ | ⟨n, rfl⟩ | ⟨n, rfl⟩
    · obtain ⟨r', hr'⟩ := small_ptr hd; exact ⟨_, by simp [genStore, deref, hr, hr']; rfl⟩
    · exact ⟨_, by simp [genStore, deref, hr]; rfl⟩
    · exact ⟨_, by simp [genStore, deref, hr]; rfl⟩
  · rcases any_place h1 with ⟨n, rfl⟩ | ⟨n, rfl⟩ | ⟨n, rfl⟩
    · obtain ⟨r', hr'⟩ := small_ptr hd; exact ⟨_, by simp [genStore, deref, hr']; rfl⟩
    · exact ⟨_, rfl⟩
    · exact ⟨_, rfl⟩

omit hd hf in
theorem genLdarg_ok (h1 : d.isSome = true) (h2 : f.any isArg = true) : ∃ c, genLdarg ⟨op, d, f, g⟩ = .ok c := by
  cases d with
  | none => cases h1
  | some d =>
    cases f with
    | none => cases h2
    | some o =>
      cases o <;> first | cases h2; done | skip
      rename_i s id u
      simp only [Option.any_some, isArg, decide_eq_true_eq] at h2
      simp only [genLdarg, deref, Out.ok_bind, regField]
      by_cases h6 : id < 6
      · rw [if_pos h6, if_pos h2, List.getElem?_eq_getElem (by simp [argRegs]; omega)]
        exact ⟨_, rfl⟩
      · rw [if_neg h6]; exact ⟨_, rfl⟩

omit hd in
theorem genStarg_ok (h2 : f.any isVal = true) : ∃ c, genStarg ⟨op, d, f, g⟩ = .ok c := by
  rcases any_val h2 with ⟨s, id, u, rfl⟩ | ⟨s, l, rfl⟩
  · obtain ⟨r, hr⟩ := small_reg hf; exact ⟨_, by simp [genStarg, deref, hr]; rfl⟩
  · exact ⟨_, rfl⟩

omit hd in
theorem genStret_ok (h2 : f.any isVal = true) : ∃ c, genStret ⟨op, d, f, g⟩ = .ok c := by
  rcases any_val h2 with ⟨s, id, u, rfl⟩ | ⟨s, l, rfl⟩
  · obtain ⟨r, hr⟩ := small_reg hf; exact ⟨_, by simp [genStret, deref, hr]; rfl⟩
  · exact ⟨_, rfl⟩

theorem genUnary_ok (x : XOp) (h1 : d.any isReg = true) (h2 : f.any isVal = true) : ∃ c, genUnary x ⟨op, d, f, g⟩ = .ok c := by
  obtain ⟨s, id, u, rfl⟩ := any_reg h1
  obtain ⟨r, hr⟩ := small_reg hd
  rcases any_val h2 with ⟨s, id, u, rfl⟩ | ⟨s, l, rfl⟩
  · obtain ⟨r', hr'⟩ := small_reg hf; exact ⟨_, by simp [genUnary, deref, hr, hr']; rfl⟩
  · exact ⟨_, by simp [genUnary, deref, hr]; rfl⟩

theorem genShift_ok (x : XOp) (h1 : d.any isReg = true) (h2 : f.any isReg = true) (h3 : g.any isInt = true) : ∃ c, genShift x ⟨op, d, f, g⟩ = .ok c := by
  obtain ⟨s, id, u, rfl⟩ := any_reg h1
  obtain ⟨s, id, u, rfl⟩ := any_reg h2
  obtain ⟨s, l, rfl⟩ := any_int h3
  obtain ⟨r, hr⟩ := small_reg hd
  obtain ⟨r', hr'⟩ := small_reg hf
  exact ⟨_, by simp [genShift, deref, hr, hr']; rfl⟩

include hg

omit hd hf in
theorem binInPlace_ok (x : XOp) (a b : Sfx) (r : Reg) (u : Bool) {o : Ope} (e : g = some o) (h : g.any isVal = true) : ∃ c, binInPlace x a b r u o = .ok c := by
  rcases any_val h with ⟨s, id, u, rfl⟩ | ⟨s, l, rfl⟩ <;> cases e
  · obtain ⟨r', hr'⟩ := small_reg hg; exact ⟨_, by simp [binInPlace, hr']; rfl⟩
  · exact ⟨_, rfl⟩

theorem genBin_ok (x : XOp) (h1 : d.any isReg = true) (h2 : f.any isReg = true) (h3 : g.any isVal = true) : ∃ c, genBin x ⟨op, d, f, g⟩ = .ok c := by
  obtain ⟨s, id, u, rfl⟩ := any_reg h1
  obtain ⟨s', id', u', rfl⟩ := any_reg h2
  obtain ⟨r, hr⟩ := small_reg hd
  obtain ⟨r', hr'⟩ := small_reg hf
  cases g with
  | none => cases h3
  | some o =>
    obtain ⟨c, hc⟩ := binInPlace_ok hg x (Sfx.greater (sfxOf (.reg s' id' u')) (sfxOf o)) (sfxOf (.reg s' id' u')) r' u' rfl h3
    exact ⟨_, by simp only [genBin, deref, hr, hr', Out.ok_bind, hc]; rfl⟩

theorem genSet_ok (x : Cond) (h1 : d.any isReg = true) (h2 : f.any isReg = true) (h3 : g.any isVal = true) : ∃ c, genSet x ⟨op, d, f, g⟩ = .ok c := by
  obtain ⟨s, id, u, rfl⟩ := any_reg h1
  obtain ⟨s', id', u', rfl⟩ := any_reg h2
  obtain ⟨r, hr⟩ := small_reg hd
  obtain ⟨r', hr'⟩ := small_reg hf
  cases g with
  | none => cases h3
  | some o =>
    obtain ⟨c, hc⟩ := binInPlace_ok hg .cmp (Sfx.greater (sfxOf (.reg s' id' u')) (sfxOf o)) (sfxOf (.reg s' id' u')) r' u' rfl h3
    exact ⟨_, by simp only [genSet, deref, hr, hr', Out.ok_bind, hc]; rfl⟩

omit hd in
theorem genJcc_ok (x : Cond) (h1 : d.any isLabel = true) (h2 : f.any isReg = true) (h3 : g.any isVal = true) : ∃ c, genJcc x ⟨op, d, f, g⟩ = .ok c := by
  obtain ⟨n, rfl⟩ := any_label h1
  obtain ⟨s', id', u', rfl⟩ := any_reg h2
  obtain ⟨r', hr'⟩ := small_reg hf
  cases g with
  | none => cases h3
  | some o =>
    obtain ⟨c, hc⟩ := binInPlace_ok hg .cmp (Sfx.greater (sfxOf (.reg s' id' u')) (sfxOf o)) (sfxOf (.reg s' id' u')) r' u' rfl h3
    exact ⟨_, by simp only [genJcc, deref, hr', Out.ok_bind, hc, labelOf]; rfl⟩

theorem genMul_ok (h1 : d.any isReg = true) (h2 : f.any isReg = true) (h3 : g.any isVal = true) : ∃ c, genMul ⟨op, d, f, g⟩ = .ok c := by
  obtain ⟨s, id, u, rfl⟩ := any_reg h1
  obtain ⟨s', id', u', rfl⟩ := any_reg h2
  obtain ⟨r, hr⟩ := small_reg hd
  obtain ⟨r', hr'⟩ := small_reg hf
  rcases any_val h3 with ⟨s, id, u, rfl⟩ | ⟨s, l, rfl⟩
  · obtain ⟨r2, hr2⟩ := small_reg hg; exact ⟨_, by simp [genMul, deref, hr, hr', hr2]; rfl⟩
  · exact ⟨_, by simp [genMul, deref, hr, hr']; rfl⟩

theorem genDiv_ok (x : Reg) {qs : List Liveseq} (hq : qs.length = 8) (ev : Nat) (h1 : d.any isReg = true) (h2 : f.any isReg = true) (h3 : g.any isVal = true) :
    ∃ c, genDiv x qs ev ⟨op, d, f, g⟩ = .ok c := by
  obtain ⟨s, id, u, rfl⟩ := any_reg h1
  obtain ⟨s', id', u', rfl⟩ := any_reg h2
  obtain ⟨r, hr⟩ := small_reg hd
  obtain ⟨r', hr'⟩ := small_reg hf
  have hal : ∃ b, (aliveRegs HMap.new 0 qs >>= fun t => HSet.contains hashInteger t (Reg.dx.toIdx : Int)) = .ok b := by
    have : ∃ bs : List Bool, qs.map Liveseq.isAlive = bs.map Out.ok ∧ bs.length = qs.length := by
      clear hq
      induction qs with
      | nil => exact ⟨[], rfl, rfl⟩
      | cons q qs ih =>
        obtain ⟨bs, e, e'⟩ := ih
        obtain ⟨b, hb⟩ := Plain.isAlive_total q
        exact ⟨b :: bs, by simp [hb, e], by simp [e']⟩
    obtain ⟨bs, e1, e2⟩ := this
    rw [X86.aliveRegs_bools _ _ _ _ e1]
    obtain ⟨b0, b1, b2, b3, b4, b5, b6, b7, rfl⟩ := X86.len8 (e2.trans hq)
    exact ⟨_, X86.isOk_eq (X86.alive_dx b0 b1 b2 b3 b4 b5 b6 b7)⟩
  obtain ⟨b, hb⟩ := hal
  cases g with
  | none => cases h3
  | some o =>
    have hp : ∃ c q, divPrep (Sfx.greater (sfxOf (.reg s' id' u')) (sfxOf o)) (sfxOf (.reg s' id' u')) r' u' o = .ok (c, q) := by
      rcases any_val h3 with ⟨s, id, u, e⟩ | ⟨s, l, e⟩ <;> cases e
      · obtain ⟨r2, hr2⟩ := small_reg hg
        by_cases hx : r2 = .dx
        · exact ⟨_, _, by simp only [divPrep, hr2, Out.ok_bind, hx, ne_eq, not_true, not_false_eq_true, if_true, if_false]; rfl⟩
        · exact ⟨_, _, by simp only [divPrep, hr2, Out.ok_bind, hx, ne_eq, not_true, not_false_eq_true, if_true, if_false]; rfl⟩
      · exact ⟨_, _, rfl⟩
    obtain ⟨c, q, hp⟩ := hp
    simp only [genDiv, deref, hr, hr', Out.ok_bind, hp, hb]
    split <;> exact ⟨_, rfl⟩
end

theorem genCall_ok {K : Kind} (hm : K.m = false) {qs : List Liveseq} (ev : Nat) {i : Inst} (hd : Small i.dst) (hf : Small i.fst) (h : fitInst K i = true) (ho : i.op = .call)
    (hc : ∃ s ps, aliveSet HMap.new 0 qs = .ok s ∧ evacPairs i.dst 0 (HSet.elems s) = .ok ps) : ∃ r, genCall qs ev i = .ok r := by
  obtain ⟨s, ps, e1, e2⟩ := hc
  obtain ⟨op, d, f, g⟩ := i
  dsimp only at ho hd hf
  subst ho
  simp only [fitInst, Bool.and_eq_true, hm, Bool.false_and, Bool.or_false] at h
  obtain ⟨⟨⟨⟨-, h1⟩, -⟩, h2⟩, h3⟩ := h
  obtain ⟨sg, l, rfl⟩ := any_int h3
  cases f with
  | none => cases h2
  | some o =>
    have ht : ∃ a b, callTarget o l.value = .ok (a, b) := by
      cases o <;> first | cases h2; done | skip
      · obtain ⟨r, hr⟩ := small_ptr hf
        by_cases hx : r ∈ argRegs.take l.value.toNat
        · exact ⟨_, _, by simp only [callTarget, hr, Out.ok_bind, hx, if_true, if_false]; rfl⟩
        · exact ⟨_, _, by simp only [callTarget, hr, Out.ok_bind, hx, if_true, if_false]; rfl⟩
      · exact ⟨_, _, rfl⟩
    obtain ⟨a, b, ht⟩ := ht
    dsimp only at e2
    simp only [genCall, deref, Out.ok_bind, e1, e2, countOf, ht]
    cases d with
    | none => exact ⟨_, rfl⟩
    | some d =>
      cases d <;> first | cases h1; done | skip
      obtain ⟨r, hr⟩ := small_reg hd
      simp only [hr, Out.ok_bind]
      exact ⟨_, rfl⟩

theorem genInst_ok {K : Kind} (hm : K.m = false) {qs : List Liveseq} (hq : qs.length = 8) (ev : Nat) {i : Inst} (hd : Small i.dst) (hf : Small i.fst) (hg : Small i.snd) (h : fitInst K i = true)
    (hc : i.op = .call → ∃ s ps, aliveSet HMap.new 0 qs = .ok s ∧ evacPairs i.dst 0 (HSet.elems s) = .ok ps) : ∃ r, genInst qs ev i = .ok r := by
  by_cases ho : i.op = .call
  · obtain ⟨r, hr⟩ := genCall_ok hm ev hd hf h ho (hc ho)
    exact ⟨r, by simp only [genInst, ho]; exact hr⟩
  clear hc
  have key : ∀ j : Inst, j = i → ∃ r, genInst qs ev j = .ok r := by
    rintro j rfl
    obtain ⟨op, d, f, g⟩ := j
    dsimp only at hd hf hg ho
    cases op <;> first | exact absurd rfl ho | skip
    all_goals simp only [fitInst, Bool.and_eq_true] at h
    case load => exact keep_ok (genLoad_ok hd hf h.1 h.2)
    case addr => exact keep_ok (genAddr_ok hd hf h.1 h.2)
    case str => exact keep_ok (genStr_ok h.1 h.2)
    case store => exact keep_ok (genStore_ok hd hf h.1 h.2)
    case ldarg => exact keep_ok (genLdarg_ok h.1 h.2)
    case starg => exact keep_ok (genStarg_ok hf h)
    case stret => exact keep_ok (genStret_ok hf h)
    case add => exact keep_ok (genBin_ok hd hf hg _ h.1.1 h.1.2 h.2)
    case sub => exact keep_ok (genBin_ok hd hf hg _ h.1.1 h.1.2 h.2)
    case and => exact keep_ok (genBin_ok hd hf hg _ h.1.1 h.1.2 h.2)
    case or => exact keep_ok (genBin_ok hd hf hg _ h.1.1 h.1.2 h.2)
    case xor => exact keep_ok (genBin_ok hd hf hg _ h.1.1 h.1.2 h.2)
    case mul => exact keep_ok (genMul_ok hd hf hg h.1.1 h.1.2 h.2)
    case div => exact genDiv_ok hd hf hg _ hq ev h.1.1 h.1.2 h.2
    case mod => exact genDiv_ok hd hf hg _ hq ev h.1.1 h.1.2 h.2
    case neg => exact keep_ok (genUnary_ok hd hf _ h.1 h.2)
    case not => exact keep_ok (genUnary_ok hd hf _ h.1 h.2)
    case sal => exact keep_ok (genShift_ok hd hf _ h.1.1 h.1.2 h.2)
    case sar => exact keep_ok (genShift_ok hd hf _ h.1.1 h.1.2 h.2)
    case seteq => exact keep_ok (genSet_ok hd hf hg _ h.1.1 h.1.2 h.2)
    case setneq => exact keep_ok (genSet_ok hd hf hg _ h.1.1 h.1.2 h.2)
    case jmp =>
      obtain ⟨n, rfl⟩ := any_label h
      exact keep_ok ⟨_, rfl⟩
    case jeq => exact keep_ok (genJcc_ok hf hg _ h.1.1 h.1.2 h.2)
    case jneq => exact keep_ok (genJcc_ok hf hg _ h.1.1 h.1.2 h.2)
    case enter => obtain ⟨s, l, rfl⟩ := any_int h; exact keep_ok ⟨_, rfl⟩
    case leave => obtain ⟨s, l, rfl⟩ := any_int h; exact keep_ok ⟨_, rfl⟩
    case prep => obtain ⟨s, l, rfl⟩ := any_int h; exact keep_ok ⟨_, rfl⟩
    case clean => obtain ⟨s, l, rfl⟩ := any_int h; exact keep_ok ⟨_, rfl⟩
    all_goals
      obtain ⟨s', id', u', rfl⟩ := any_reg h.1.2
      simp only [genInst, fstUnsigned, deref, regField, Out.ok_bind, Out.pure_eq, condOf]
      first
        | exact keep_ok (genSet_ok hd hf hg _ h.1.1 h.1.2 h.2)
        | exact keep_ok (genJcc_ok hf hg _ h.1.1 h.1.2 h.2)
  exact key i rfl

/-! ### renaming -/

theorem any_rename (ρ : Int → Int) (p : Ope → Bool) (hp : ∀ s a b u, p (.reg s a u) = p (.reg s b u)) (hp' : ∀ a b, p (.ptr a) = p (.ptr b)) (o : Option Ope) :
    (RSpec.renameOpe ρ o).any p = o.any p := by
  cases o with
  | none => rfl
  | some o =>
    cases o <;> first | rfl | skip
    · exact hp _ _ _ _
    · exact hp' _ _

theorem fit_rename {K : Kind} (ρ : Int → Int) (x : Immc) : Fit K (RSpec.rename ρ x) ↔ Fit K x := by
  cases x with
  | inst i =>
    obtain ⟨op, d, f, g⟩ := i
    have hs : ∀ o : Option Ope, (RSpec.renameOpe ρ o).isSome = o.isSome := by
      intro o; cases o with
      | none => rfl
      | some o => cases o <;> rfl
    have ha : (RSpec.renameOpe ρ d).all isReg = d.all isReg := by
      cases d with
      | none => rfl
      | some o => cases o <;> rfl
    have h1 : ∀ o, (RSpec.renameOpe ρ o).any isReg = o.any isReg := any_rename ρ _ (fun _ _ _ _ => rfl) (fun _ _ => rfl)
    have h2 : ∀ o, (RSpec.renameOpe ρ o).any isInt = o.any isInt := any_rename ρ _ (fun _ _ _ _ => rfl) (fun _ _ => rfl)
    have h3 : ∀ o, (RSpec.renameOpe ρ o).any isVal = o.any isVal := any_rename ρ _ (fun _ _ _ _ => rfl) (fun _ _ => rfl)
    have h4 : ∀ o, (RSpec.renameOpe ρ o).any isLabel = o.any isLabel := any_rename ρ _ (fun _ _ _ _ => rfl) (fun _ _ => rfl)
    have h5 : ∀ o, (RSpec.renameOpe ρ o).any isPlace = o.any isPlace := any_rename ρ _ (fun _ _ _ _ => rfl) (fun _ _ => rfl)
    have h6 : ∀ o, (RSpec.renameOpe ρ o).any isStr = o.any isStr := any_rename ρ _ (fun _ _ _ _ => rfl) (fun _ _ => rfl)
    have h7 : ∀ o, (RSpec.renameOpe ρ o).any isArg = o.any isArg := any_rename ρ _ (fun _ _ _ _ => rfl) (fun _ _ => rfl)
    have h8 : ∀ o, (RSpec.renameOpe ρ o).any (fun o => isVal o || isPlace o) = o.any (fun o => isVal o || isPlace o) := any_rename ρ _ (fun _ _ _ _ => rfl) (fun _ _ => rfl)
    have h9 : ∀ o, (RSpec.renameOpe ρ o).any (fun o => isLabel o || isMem o) = o.any (fun o => isLabel o || isMem o) := any_rename ρ _ (fun _ _ _ _ => rfl) (fun _ _ => rfl)
    have h10 : ∀ o, (RSpec.renameOpe ρ o).any (fun o => isPtr o || isLabel o || K.m && isMem o) = o.any (fun o => isPtr o || isLabel o || K.m && isMem o) := any_rename ρ _ (fun _ _ _ _ => rfl) (fun _ _ => rfl)
    cases op <;> simp only [RSpec.rename, Fit, fitInst, hs, ha, h1, h2, h3, h4, h5, h6, h7, h8, h9, h10]
  | _ => exact Iff.rfl

end Tidy
end Umlcc
