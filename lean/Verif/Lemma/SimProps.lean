import Verif.Lemma.SimExprs
/-!
Preparations for the properties of generated expressions: the context that tables describe, and what a run can end in.
-/
namespace Umlcc
namespace Sim
open IMach (Val St Env Mem)
open RSpec (Mach step run)
open CSem (Ctx Describes ctxOf addrOf)
open Gen

variable {W : Type}

theorem ctxOf_describes (E : Env W) (s : GState) (lim : Bool) : Describes (ctxOf E s lim) E s where
  call := rfl
  ok := rfl
  str _ := rfl
  addr n y h := by
    refine ⟨addrOf E n y.loc, by simp [ctxOf, h], ?_, ?_⟩
    · rintro hy ⟨m, hm⟩ rfl
      rw [hy, addrOf, dif_pos hm]
    · rintro k hy
      rw [hy, addrOf]
  tag n ms b a h := by simp [ctxOf, h, CSem.membersOf]

theorem describes_lim {C : Ctx W} {E : Env W} {s : GState} (h : Describes C E s) (lim : Bool) : Describes { C with lim := lim } E s :=
  ⟨h.call, h.ok, h.str, h.addr, h.tag⟩

/-- nothing happens after the end of the program -/
theorem run_stop {code : List Immc} {E : Env W} {m a : Mach Val (St W)} {i : Nat} (ha : run (IMach.sem E) code m i = some a) (ea : code[a.pc]? = none) (k : Nat) :
    run (IMach.sem E) code m (i + k + 1) = none := by
  induction k with
  | zero => simp only [run, ha, Option.bind_some, step, ea]
  | succ k ih => rw [← Nat.add_assoc, run, ih]; rfl

/-- two runs that end outside the program end in the same state -/
theorem run_end {code : List Immc} {E : Env W} {m a b : Mach Val (St W)} {i j : Nat} (ha : run (IMach.sem E) code m i = some a)
    (hb : run (IMach.sem E) code m j = some b) (ea : code[a.pc]? = none) (eb : code[b.pc]? = none) : a = b := by
  rcases Nat.lt_trichotomy i j with h | h | h
  · have := run_stop ha ea (j - i - 1)
    rw [show i + (j - i - 1) + 1 = j by omega, hb] at this
    cases this
  · subst h
    rw [ha] at hb
    exact Option.some.inj hb
  · have := run_stop hb eb (i - j - 1)
    rw [show j + (i - j - 1) + 1 = i by omega, ha] at this
    cases this

/-- a state that is not met before the end of the program is not met -/
theorem not_met {code : List Immc} {E : Env W} {m a : Mach Val (St W)} {N : Nat} {P : Mach Val (St W) → Prop}
    (hN : (run (IMach.sem E) code m N).map (·.pc) = some code.length) (hP : ∀ i ≤ N, ∀ a, run (IMach.sem E) code m i = some a → ¬ P a) {i : Nat}
    (ha : run (IMach.sem E) code m i = some a) : ¬ P a := by
  by_cases hi : i ≤ N
  · exact hP i hi a ha
  · obtain ⟨b, hb, hp⟩ := Option.map_eq_some_iff.1 hN
    have := run_stop hb (by rw [hp]; simp) (i - N - 1)
    rw [show N + (i - N - 1) + 1 = i by omega, ha] at this
    cases this

end Sim
end Umlcc
