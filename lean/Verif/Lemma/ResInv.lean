import Verif.Lemma.Resolver
/-!
What a successful run of resolver functions consists of.
-/
namespace Umlcc
namespace Res

variable {α β : Type}

theorem ok_bind {m : RM α} {f : α → RM β} {s s' : RState} {b : β} :
    (m >>= f) s = .ok (some b, s') ↔ ∃ a s1, m s = .ok (some a, s1) ∧ f a s1 = .ok (some b, s') := by
  rw [bind_run]
  cases h : m s with
  | ok x =>
    obtain ⟨r, s1⟩ := x
    cases r with
    | none => simp
    | some a =>
      simp only [Out.ok.injEq, Prod.mk.injEq, Option.some.injEq]
      constructor
      · intro h; exact ⟨a, s1, ⟨rfl, rfl⟩, h⟩
      · rintro ⟨a, s1, ⟨rfl, rfl⟩, h⟩; exact h
  | _ => simp

theorem ok_pure {a b : α} {s s' : RState} : (pure a : RM α) s = .ok (some b, s') ↔ a = b ∧ s = s' := by
  show Out.ok (some a, s) = _ ↔ _
  simp

theorem ok_fail {b : α} {s s' : RState} : (fail : RM α) s = .ok (some b, s') ↔ False := by simp [fail]
theorem ok_fatal {b : Option α} {s s' : RState} : (fatal : RM α) s = .ok (b, s') ↔ False := by simp [fatal]
theorem ok_ub {b : Option α} {s s' : RState} : (ub : RM α) s = .ok (b, s') ↔ False := by simp [ub]
theorem ok_get {r s s' : RState} : get s = .ok (some r, s') ↔ r = s ∧ s' = s := by
  simp only [get, Out.ok.injEq, Prod.mk.injEq, Option.some.injEq]
  exact ⟨fun h => ⟨h.1.symm, h.2.symm⟩, fun h => ⟨h.1.symm, h.2.symm⟩⟩
theorem ok_modify {f : RState → RState} {u : Unit} {s s' : RState} : modify f s = .ok (some u, s') ↔ s' = f s := by
  simp only [modify, Out.ok.injEq, Prod.mk.injEq, true_and]
  exact eq_comm
theorem ok_require {b : Bool} {u : Unit} {s s' : RState} : require b s = .ok (some u, s') ↔ b = true ∧ s' = s := by
  unfold require
  cases b
  · simp [fail]
  · rw [if_pos rfl, ok_pure]
    simp [eq_comm]
theorem ok_ofOpt {r : Option α} {a : α} {s s' : RState} : ofOpt r s = .ok (some a, s') ↔ r = some a ∧ s' = s := by
  simp only [ofOpt, Out.ok.injEq, Prod.mk.injEq]
  exact ⟨fun h => ⟨h.1, h.2.symm⟩, fun h => ⟨h.1, h.2.symm⟩⟩
theorem ok_attempt {m : RM α} {r : Option α} {s s' : RState} : attempt m s = .ok (some r, s') ↔ m s = .ok (r, s') := by
  unfold attempt
  cases h : m s <;> simp [Prod.ext_iff]
theorem ok_kid {a c : Ast} {i : Nat} {s s' : RState} : kid a i s = .ok (some c, s') ↔ a.children[i]? = some c ∧ s' = s := by
  unfold kid
  cases h : a.children[i]? with
  | some x =>
    rw [ok_pure]
    simp [eq_comm]
  | none => simp [ub]
theorem ok_ite {c : Prop} [Decidable c] {m m' : RM α} {r : Option α} {s s' : RState} :
    (if c then m else m') s = .ok (r, s') ↔ (c ∧ m s = .ok (r, s')) ∨ (¬ c ∧ m' s = .ok (r, s')) := by
  split <;> simp_all

/-- unfold a run of the resolver -/
macro "rm" "at" h:ident : tactic => `(tactic| simp only [ok_bind, ok_pure, ok_fail, ok_fatal, ok_ub, ok_get, ok_modify, ok_require, ok_ofOpt, ok_attempt, ok_kid,
  exists_eq_left, exists_eq_left', exists_eq_right, exists_eq_right', exists_false, and_false, false_and, true_and, and_true, and_assoc, exists_and_left, exists_and_right] at $h:ident)

theorem operands_ok {R : Rec} {a : Ast} {l r : SExpr} {s s' : RState} (h : operands R a s = .ok (some (l, r), s')) :
    ∃ x y L R' s1, a.children[0]? = some x ∧ a.children[1]? = some y ∧ R.expr x s = .ok (some L, s1) ∧ R.expr y s1 = .ok (some R', s') ∧ l = decay L ∧ r = decay R' := by
  simp only [operands] at h
  rm at h
  obtain ⟨x, hx, L, s1, h1, y, hy, r', s2, h2, he, rfl⟩ := h
  simp only [Prod.mk.injEq] at he
  exact ⟨x, y, L, r', s1, hx, hy, h1, h2, he.1.symm, he.2.symm⟩

theorem assignment_ok {R : Rec} {a : Ast} {e : SExpr} {s s' : RState} (h : assignment R a s = .ok (some e, s')) :
    ∃ x y L r s1, a.children[0]? = some x ∧ a.children[1]? = some y ∧ R.expr x s = .ok (some L, s1) ∧ R.expr y s1 = .ok (some r, s') ∧ L.isModifiable = true ∧
      DType.isAssignable L.dt (decay r).dt = true ∧
      e = .bin .assign L.dt (toPtr L) (if DType.equals (decay r).dt L.dt then decay r else .un .cast L.dt (decay r)) := by
  simp only [assignment] at h
  rm at h
  obtain ⟨x, hx, L, s1, h1, y, hy, r, s2, h2, hm, ha, he, _, _, rfl⟩ := h
  exact ⟨x, y, L, r, s1, hx, hy, h1, h2, hm, ha, he.symm⟩

end Res
end Umlcc
