import Verif.Lemma.PlainStmt
import Verif.Lemma.X64Check
import Verif.Spec.UnitProgram
import Verif.Props.GenLive
/-!
The allocated code of a function of the part of `Spec/Plain.lean` meets `Suits`.
-/
namespace Umlcc
namespace Plain
open RSpec (reads writes rename renameOpe opeRegs Succ LiveIn LiveOut)
open Gen
open X86 hiding load
open Flow (freeBrks freeConts)

/-! ### the code of a function -/

theorem nbytes_get (n : Nat) : (Sfx.get n).nbytes ≤ n := by
  unfold Sfx.get
  split <;> simp [Sfx.nbytes]

theorem params_use : ∀ (ps : Params) {i : Nat} {Γ : Types} {s s' : GState} {c : List Immc} (_ : Γ ≠ []) (_ : Rel Γ s) (_ : paramsCode i ps s = .ok ((), c, s')),
    Rel (declareParams Γ ps) s' ∧ declareParams Γ ps ≠ [] ∧ s.mem ≤ s'.mem ∧ s'.reg = s.reg ∧ c.length = CStm.paramCount ps ∧
      ∀ (j : Nat) x, c[j]? = some x → ∃ (k : Int) (q : Sfx), x = inst .ldarg (some (.mem k)) (some (.arg q ((i + j : Nat) : Int) false)) none ∧ (q.nbytes : Int) ≤ k ∧ k ≤ s'.mem
  | .nil, i, Γ, s, s', c, hΓ, hs, h => by
    simp only [paramsCode] at h
    gm at h
    obtain ⟨rfl, rfl⟩ := h
    exact ⟨hs, hΓ, Nat.le_refl _, rfl, rfl, by simp⟩
  | .cons n t ps, i, Γ, s, s', c, hΓ, hs, h => by
    obtain ⟨m, c1, rfl, hc, h1, rfl⟩ := paramsCode_cons h
    have hr : Rel (CStm.add m t Γ) { s with syms := define m ⟨.mem ((s.mem + t.nbytes + 3) / 4 * 4), t⟩ s.syms, mem := (s.mem + t.nbytes + 3) / 4 * 4 } := by
      obtain ⟨htg, ls, os, e, rfl, h3, h4⟩ := hs
      cases ls with
      | nil => simp [types] at hΓ
      | cons l ls =>
        refine ⟨htg, ((m, ⟨.mem ((s.mem + t.nbytes + 3) / 4 * 4), t⟩) :: l) :: ls, os, by simp [e, define], by simp [types, CStm.add], h3, ?_⟩
        intro sc hs p hp
        rcases List.mem_cons.1 hs with rfl | hs
        · rcases List.mem_cons.1 hp with rfl | hp
          · simp only [Within]
            omega
          · exact (h4 _ (by simp) p hp).mono (by dsimp only; omega)
        · exact (h4 sc (by simp [hs]) p hp).mono (by dsimp only; omega)
    have hne : CStm.add m t Γ ≠ [] := by
      cases Γ <;> simp [CStm.add]
    obtain ⟨k1, k2, k3, k4, k5, k6⟩ := params_use ps hne hr h1
    dsimp only at k3
    refine ⟨k1, k2, by omega, k4, by simp [k5, CStm.paramCount], ?_⟩
    intro j x hx
    cases j with
    | zero =>
      simp only [List.getElem?_cons_zero, Option.some.injEq] at hx
      subst hx
      have := nbytes_get t.nbytes
      exact ⟨_, _, rfl, by omega, by omega⟩
    | succ j =>
      rw [List.getElem?_cons_succ] at hx
      obtain ⟨k, q, e, h2, h3⟩ := k6 j x hx
      refine ⟨k, q, ?_, h2, h3⟩
      rw [e, show i + 1 + j = i + (j + 1) by omega]

/-- Code of a function: `n` bytes of local objects, `K` parameters, `e` the label at the end. -/
structure FU (N : Option Nat) (n K : Nat) (e : Int) (code : List Immc) : Prop where
  first : ∃ v f, code[0]? = some (.label .function v f) ∧ f.val.head? ≠ some 46
  second : code[1]? = some (inst .enter none (some (intOpe .quad n)) none)
  args : ∀ j, j < K → ∃ (k : Int) (q : Sfx), code[j + 2]? = some (inst .ldarg (some (.mem k)) (some (.arg q (j : Int) false)) none) ∧ (q.nbytes : Int) ≤ k ∧ k ≤ n
  long : K + 4 ≤ code.length
  pre : ∀ i, i ≤ K + 2 → scan [] (code.take i) = []
  spot : ∀ a x b, code = a ++ x :: b → K + 2 ≤ a.length → b ≠ [] → ∃ lo hi, Spot N n lo hi a x b
  fin : code[code.length - 2]? = some (labelAt e)
  last : code[code.length - 1]? = some (inst .leave none (some (intOpe .quad n)) none)
  regs : ∀ x ∈ code, ∀ v, Touch x v → 0 ≤ v
  solo : Solo code
  rets : ∀ (i : Nat) d f g, code[i]? = some (.inst ⟨.stret, d, f, g⟩) → code[i + 1]? = some (jump e)

theorem touch_ldarg {k j : Int} {q : Sfx} {b : Bool} {v : Int} : ¬ Touch (inst .ldarg (some (.mem k)) (some (.arg q j b)) none) v := by
  rintro (h | h)
  · simp [inst, reads, opeRegs] at h
  · cases h

theorem touch_frame {op : IOp} {n : Int} {v : Int} : ¬ Touch (inst op none (some (intOpe .quad n)) none) v := by
  rintro (h | h)
  · simp [inst, reads, opeRegs, intOpe] at h
  · cases h

theorem func_use {N : Option Nat} {f : Str} {ps : Params} {rt : DType} {b : SItems} {s s' : GState} {code : List Immc} (h : funcCode f (.func ps rt) b s = .ok ((), code, s'))
    (hp : plainBody N ps b = true) (hg : ∀ sc ∈ s.syms, ∀ p ∈ sc, p.2.loc = .label) (htg : smallTags s.tags = true) (hn : f.head? ≠ some 46) :
    ∃ n, FU N n (CStm.paramCount ps) (s.lab + 1) code := by
  obtain ⟨name, ps', rt', pc, s1, bc, s2, h0, e, h1, h2, rfl, rfl⟩ := funcCode_ok h
  cases e
  obtain ⟨hnm, -, -⟩ := nameOf_ok h0
  have hr0 : Rel [[]] (s.inFunc f (.func ps rt)) := by
    refine ⟨?_, [[]], (s.declareLabel f (.func ps rt)).syms, rfl, rfl, ?_, by simp⟩
    · have : (s.inFunc f (.func ps rt)).tags = [] :: s.tags := by
        simp only [GState.inFunc, GState.declareLabel]
      rw [this]
      simpa [smallTags] using htg
    unfold GState.declareLabel
    split
    · intro sc hsc p hp
      cases hs : s.syms with
      | nil =>
        simp only [hs, define, List.mem_singleton] at hsc
        subst hsc
        simp only [List.mem_singleton] at hp
        subst hp; rfl
      | cons l ls =>
        simp only [hs, define, List.mem_cons] at hsc
        rcases hsc with rfl | hsc
        · rcases List.mem_cons.1 hp with rfl | hp
          · rfl
          · exact hg l (by simp [hs]) p hp
        · exact hg sc (by simp [hs, hsc]) p hp
    · exact hg
  obtain ⟨k1, k2, k3, k4, k5, k6⟩ := params_use ps (by simp) hr0 h1
  have ku := items_use b k2 hp k1 h2
  have u := ku.use s2.mem (Nat.le_refl _)
  have hreg : s1.reg = -1 := k4
  have hret : s1.ret = s.lab + 1 := (paramsCode_good h1).2.ret
  have hmem := ku.mem
  refine ⟨s2.mem, ⟨⟨_, _, rfl, by rw [hnm]; exact hn⟩, rfl, ?_, ?_, ?_, ?_, ?_, ?_, ?_, ?_, ?_⟩⟩
  · intro j hj
    obtain ⟨k, q, e, h3, h4⟩ := k6 j _ (List.getElem?_eq_getElem (by omega))
    refine ⟨k, q, ?_, h3, by omega⟩
    simp only [List.getElem?_cons_succ]
    rw [List.getElem?_append_left (by omega), List.getElem?_eq_getElem (by omega), e, Nat.zero_add]
  · simp only [List.length_cons, List.length_append, List.length_nil]
    omega
  · intro i hi
    have hpc : ∀ (l : List Immc), (∀ x ∈ l, x ∈ pc) → scan [] l = [] := by
      intro l hl
      induction l with
      | nil => rfl
      | cons x l ih =>
        obtain ⟨j, hj⟩ := List.getElem?_of_mem (hl x (by simp))
        obtain ⟨k, q, rfl, -⟩ := k6 j x hj
        exact ih fun y hy => hl y (by simp [hy])
    rcases i with _ | _ | i
    · rfl
    · rfl
    · rw [List.take_succ_cons, List.take_succ_cons, List.take_append_of_le_length (by omega)]
      exact hpc (pc.take i) fun x hx => List.mem_of_mem_take hx
  · intro a x b e hi hb
    refine ⟨s1.reg, s2.reg, ?_⟩
    rcases a with _ | ⟨y1, _ | ⟨y2, a⟩⟩
    · simp at hi
    · simp at hi
    · simp only [List.cons_append, List.cons.injEq] at e
      obtain ⟨rfl, rfl, e⟩ := e
      simp only [List.length_cons] at hi
      have hq : ∀ x ∈ pc, (∀ v, ¬ Touch x v) ∧ ∀ ps, prepAfter x ps = ps := by
        intro x hx
        obtain ⟨j, hj⟩ := List.getElem?_of_mem hx
        obtain ⟨k, q, rfl, -⟩ := k6 j x hj
        exact ⟨fun v => touch_ldarg, fun ps => rfl⟩
      have hsc : ∀ ps, scan ps pc = ps := by
        intro ps
        have : ∀ l : List Immc, (∀ x ∈ l, ∀ ps, prepAfter x ps = ps) → scan ps l = ps := by
          intro l hl
          induction l with
          | nil => rfl
          | cons x l ih =>
            rw [scan_cons, hl x (by simp)]
            exact ih fun y hy => hl y (by simp [hy])
        exact this pc fun x hx => (hq x hx).2
      rcases split_app e with ⟨b', e1, -⟩ | ⟨a', e1, rfl⟩
      · have := congrArg List.length e1
        simp only [List.length_append, List.length_cons] at this
        omega
      · have e2 : ∀ z1 z2 : Immc, (∀ ps, prepAfter z1 ps = ps) → (∀ ps, prepAfter z2 ps = ps) → scan [] (z1 :: z2 :: (pc ++ a')) = scan [] a' := by
          intro z1 z2 h1 h2
          rw [scan_cons, h1, scan_cons, h2, scan_append, hsc]
        have e2 := e2 (.label .function .global name) (inst .enter none (some (intOpe .quad s2.mem)) none) (fun _ => rfl) (fun _ => rfl)
        rcases split_app e1 with ⟨b', e3, rfl⟩ | ⟨a'', e3, rfl⟩
        · obtain ⟨p1, p2, p3, p4⟩ := u.spot a' x b' e3
          refine ⟨by rw [e2]; exact p1, by rw [e2]; exact p2, by rw [e2]; exact p3, fun i hi hc => ?_⟩
          obtain ⟨m, m1, m2, m3, m5, m6⟩ := p4 i hi hc
          refine ⟨m, m1, m2, fun y hy v hv => ?_, m5, fun y hy v hv => ?_⟩
          · simp only [List.mem_cons, List.mem_append] at hy
            rcases hy with rfl | rfl | hy | hy
            · rcases hv with hv | hv <;> cases hv
            · exact absurd hv touch_frame
            · exact absurd hv ((hq y hy).1 v)
            · exact m3 y hy v hv
          · simp only [List.mem_cons, List.mem_append, List.not_mem_nil, or_false] at hy
            rcases hy with hy | rfl | rfl
            · exact m6 y hy v hv
            · exact absurd (.inl hv) (touch_label v)
            · exact absurd (.inl hv) touch_frame
        · rcases a'' with _ | ⟨z, _ | ⟨z', a''⟩⟩
          · simp only [List.nil_append, List.cons.injEq] at e3
            obtain ⟨rfl, -⟩ := e3
            exact .quiet rfl (by rw [e2, List.append_nil, u.zero])
          · simp only [List.cons_append, List.nil_append, List.cons.injEq] at e3
            obtain ⟨-, -, rfl⟩ := e3
            exact absurd rfl hb
          · simp at e3
  · simp only [List.length_cons, List.length_append, List.length_nil]
    rw [show pc.length + (bc.length + (0 + 1 + 1)) + 1 + 1 - 2 = pc.length + bc.length + 1 + 1 by omega]
    simp only [List.getElem?_cons_succ]
    rw [List.getElem?_append_right (by omega), List.getElem?_append_right (by omega), show pc.length + bc.length - pc.length - bc.length = 0 by omega]
    rfl
  · simp only [List.length_cons, List.length_append, List.length_nil]
    rw [show pc.length + (bc.length + (0 + 1 + 1)) + 1 + 1 - 1 = pc.length + bc.length + 1 + 1 + 1 by omega]
    simp only [List.getElem?_cons_succ]
    rw [List.getElem?_append_right (by omega), List.getElem?_append_right (by omega), show pc.length + bc.length + 1 - pc.length - bc.length = 1 by omega]
    rfl
  · intro x hx v hv
    simp only [List.mem_cons, List.mem_append, List.not_mem_nil, or_false] at hx
    rcases hx with rfl | rfl | hx | hx | rfl | rfl
    · rcases hv with hv | hv <;> cases hv
    · exact absurd hv touch_frame
    · obtain ⟨j, hj⟩ := List.getElem?_of_mem hx
      obtain ⟨k, q, rfl, -⟩ := k6 j x hj
      exact absurd hv touch_ldarg
    · have := u.rng x hx v hv
      omega
    · exact absurd hv (touch_label v)
    · exact absurd hv touch_frame
  · have quiet : ∀ x ∈ pc, ∀ v, eats x ≠ some v := by
      intro x hx v he
      obtain ⟨j, hj⟩ := List.getElem?_of_mem hx
      obtain ⟨k, q, rfl, -⟩ := k6 j x hj
      exact touch_ldarg (.inl (eats_reads he))
    refine List.pairwise_cons.2 ⟨fun y _ v he => absurd he (by simp [eats]), ?_⟩
    refine List.pairwise_cons.2 ⟨fun y _ v he => absurd (.inl (eats_reads he)) touch_frame, ?_⟩
    refine List.pairwise_append.2 ⟨?_, ?_, fun x hx y _ v he => absurd he (quiet x hx v)⟩
    · exact List.pairwise_of_forall_mem_list fun x hx y _ v he => absurd he (quiet x hx v)
    · refine List.pairwise_append.2 ⟨u.solo, ?_, ?_⟩
      · simp [labelAt, eats]
      · intro x _ y hy v _ hv
        simp only [List.mem_cons, List.not_mem_nil, or_false] at hy
        rcases hy with rfl | rfl
        · exact touch_label v (.inl hv)
        · exact touch_frame (.inl hv)
  · intro i d f g hx
    rcases i with _ | _ | i
    · cases hx
    · cases hx
    · simp only [List.getElem?_cons_succ] at hx ⊢
      by_cases h1 : i < pc.length
      · rw [List.getElem?_append_left h1] at hx
        obtain ⟨k, q, e, -⟩ := k6 i _ hx
        cases e
      · rw [List.getElem?_append_right (by omega)] at hx ⊢
        by_cases h3 : i - pc.length < bc.length
        · rw [List.getElem?_append_left h3] at hx
          have := u.rets _ d f g hx
          rw [show i + 1 - pc.length = i - pc.length + 1 by omega, List.getElem?_append_left (List.getElem?_eq_some_iff.1 this).1, this, hret]
        · rw [List.getElem?_append_right (by omega)] at hx
          have hlt := (List.getElem?_eq_some_iff.1 hx).1
          obtain h4 | h4 : i - pc.length - bc.length = 0 ∨ i - pc.length - bc.length = 1 := by
            simp only [List.length_cons, List.length_nil] at hlt
            omega
          · rw [h4] at hx; cases hx
          · rw [h4] at hx; cases hx

end Plain
end Umlcc
