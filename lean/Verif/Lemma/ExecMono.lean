import Verif.Spec.Program
/-!
Helper lemmas: with a larger bound, executions that end do the same.
-/
namespace Umlcc
namespace CStm
open IMach (Val Mem)

variable {W : Type}

/-- if the first ends, the second ends in the same way -/
def Upto (a b : Option (Res × Mem × W)) : Prop := ∀ r σ, a = some (r, σ) → r ≠ .more → b = some (r, σ)

theorem Upto.refl (a : Option (Res × Mem × W)) : Upto a a := fun _ _ h _ => h
theorem Upto.more (σ : Mem × W) (b : Option (Res × Mem × W)) : Upto (some (.more, σ)) b := by
  intro r σ' h hr
  cases h
  exact absurd rfl hr
theorem Upto.bind {α : Type} {x : Option α} {f g : α → Option (Res × Mem × W)} (h : ∀ a, Upto (f a) (g a)) : Upto (x >>= f) (x >>= g) := by
  cases x with
  | none => exact .refl _
  | some a => exact h a
theorem Upto.ite {c : Prop} [Decidable c] {a b a' b' : Option (Res × Mem × W)} (h : Upto a a') (k : Upto b b') : Upto (if c then a else b) (if c then a' else b') := by
  split <;> assumption
theorem Upto.andThen {a b : Option (Res × Mem × W)} {k k' : Mem × W → Option (Res × Mem × W)} (h : Upto a b) (hk : ∀ σ, Upto (k σ) (k' σ)) :
    Upto (a >>= fun y => y.1.andThen y.2 k) (b >>= fun y => y.1.andThen y.2 k') := by
  cases a with
  | none => intro r σ e; cases e
  | some y =>
    obtain ⟨r, σ⟩ := y
    cases r with
    | more => exact .more _ _
    | norm => rw [h _ _ rfl (by simp)]; exact hk σ
    | _ => rw [h _ _ rfl (by simp)]; exact .refl _
theorem Upto.afterBody {a b : Option (Res × Mem × W)} {k k' : Mem × W → Option (Res × Mem × W)} (h : Upto a b) (hk : ∀ σ, Upto (k σ) (k' σ)) :
    Upto (a >>= fun y => y.1.afterBody y.2 k) (b >>= fun y => y.1.afterBody y.2 k') := by
  cases a with
  | none => intro r σ e; cases e
  | some y =>
    obtain ⟨r, σ⟩ := y
    cases r with
    | more => exact .more _ _
    | norm => rw [h _ _ rfl (by simp)]; exact hk σ
    | cont => rw [h _ _ rfl (by simp)]; exact hk σ
    | _ => rw [h _ _ rfl (by simp)]; exact .refl _
theorem Upto.afterSwitch {a b : Option (Res × Mem × W)} (h : Upto a b) : Upto (a >>= fun y => some (y.1.afterSwitch, y.2)) (b >>= fun y => some (y.1.afterSwitch, y.2)) := by
  cases a with
  | none => intro r σ e; cases e
  | some y =>
    obtain ⟨r, σ⟩ := y
    cases r with
    | more => exact .more _ _
    | _ => rw [h _ _ rfl (by simp)]; exact .refl _

theorem exec_upto (I : Impl W) : ∀ n, (∀ V m b σ, Upto (exec I n V m b σ) (exec I (n + 1) V m b σ)) ∧
    (∀ V V' c s b σ, Upto (execLoop I n V V' c s b σ) (execLoop I (n + 1) V V' c s b σ)) ∧
    (∀ V V' c s b σ, Upto (execNext I n V V' c s b σ) (execNext I (n + 1) V V' c s b σ)) ∧
    (∀ V m b σ, Upto (execItem I n V m b σ) (execItem I (n + 1) V m b σ)) ∧
    (∀ V m b σ, Upto (execs I n V m b σ) (execs I (n + 1) V m b σ))
  | 0 => by
    refine ⟨?_, ?_, ?_, ?_, ?_⟩
    · intro V m b σ; rw [exec]; exact .more _ _
    · intro V V' c s b σ; rw [execLoop]; exact .more _ _
    · intro V V' c s b σ; rw [execNext]; exact .more _ _
    · intro V m b σ; rw [execItem]; exact .more _ _
    · intro V m b σ; rw [execs]; exact .more _ _
  | n + 1 => by
    obtain ⟨h1, h2, h3, h4, h5⟩ := exec_upto I n
    refine ⟨?_, ?_, ?_, ?_, ?_⟩
    · intro V m b σ
      cases b with
      | cmpd is => simp only [exec]; exact h5 _ _ _ _
      | case e s => cases m <;> simp only [exec] <;> exact h1 _ _ _ _
      | dflt s => cases m <;> simp only [exec] <;> exact h1 _ _ _ _
      | cont => cases m <;> simp only [exec] <;> exact .refl _
      | brk => cases m <;> simp only [exec] <;> exact .refl _
      | ret e => cases m <;> cases e <;> simp only [exec] <;> exact .refl _
      | expr e => cases m <;> simp only [exec] <;> exact .refl _
      | null => cases m <;> simp only [exec] <;> exact .refl _
      | ite c t =>
        cases m <;> simp only [exec]
        · exact .bind fun _ => .ite (h1 _ _ _ _) (.refl _)
        · exact h1 _ _ _ _
      | itee c t e =>
        cases m <;> simp only [exec]
        · exact .bind fun _ => .bind fun _ => .ite (h1 _ _ _ _) (h1 _ _ _ _)
        · exact .bind fun _ => .ite (h1 _ _ _ _) (h1 _ _ _ _)
      | switch c b =>
        cases m <;> simp only [exec]
        · refine .bind fun _ => .bind fun _ => .bind fun _ => ?_
          split
          · exact .afterSwitch (h1 _ _ _ _)
          · exact .refl _
        · exact .refl _
      | «while» c b =>
        cases m <;> simp only [exec]
        · exact .bind fun _ => .ite (.afterBody (h1 _ _ _ _) fun _ => h1 _ _ _ _) (.refl _)
        · exact .afterBody (h1 _ _ _ _) fun _ => h1 _ _ _ _
      | «for» i c s b =>
        cases m <;> simp only [exec]
        · exact .bind fun _ => .bind fun _ => .andThen (h4 _ _ _ _) fun _ => h2 _ _ _ _ _ _
        · exact .bind fun _ => .bind fun _ => .afterBody (h1 _ _ _ _) fun _ => h3 _ _ _ _ _ _
    · intro V V' c s b σ
      simp only [execLoop]
      exact .bind fun _ => .ite (.afterBody (h1 _ _ _ _) fun _ => h3 _ _ _ _ _ _) (.refl _)
    · intro V V' c s b σ
      simp only [execNext]
      exact .andThen (h1 _ _ _ _) fun _ => h2 _ _ _ _ _ _
    · intro V m b σ
      cases b with
      | stmt s => simp only [execItem]; exact h1 _ _ _ _
      | decls ds => cases m <;> simp only [execItem] <;> exact .refl _
      | tag n t => cases m <;> simp only [execItem] <;> exact .refl _
    · intro V m b σ
      cases b with
      | nil => cases m <;> simp only [execs] <;> exact .refl _
      | cons i is =>
        cases m <;> simp only [execs]
        · exact .bind fun _ => .andThen (h4 _ _ _ _) fun _ => h5 _ _ _ _
        · exact .bind fun _ => .ite (.andThen (h4 _ _ _ _) fun _ => h5 _ _ _ _) (h5 _ _ _ _)

theorem execs_mono {I : Impl W} {V : Vars} {m : Mode} {b : SItems} {σ : Mem × W} {r : Res × Mem × W} {n : Nat} (hr : r.1 ≠ .more) (h : execs I n V m b σ = some r) : ∀ d, execs I (n + d) V m b σ = some r
  | 0 => h
  | d + 1 => (exec_upto I (n + d)).2.2.2.2 V m b σ r.1 r.2 (execs_mono hr h d) hr

/-- the bound does not matter for executions that end -/
theorem execFunc_unique {I : Impl W} {V : Vars} {f : Str} {ps : Params} {rt : DType} {b : SItems} {vs : List Val} {σ : Mem × W} {r r' : Res × Mem × W} {n n' : Nat}
    (hr : r.1 ≠ .more) (hr' : r'.1 ≠ .more) (h : execFunc I n V f ps rt b vs σ = some r) (h' : execFunc I n' V f ps rt b vs σ = some r') : r = r' := by
  simp only [execFunc, Option.bind_eq_bind, Option.bind_eq_some_iff] at h h'
  obtain ⟨V1, e1, x, e2, h⟩ := h
  obtain ⟨V2, e3, y, e4, h'⟩ := h'
  rw [e1] at e3; cases e3
  rw [e2] at e4; cases e4
  have a := execs_mono hr h n'
  have b := execs_mono hr' h' n
  rw [Nat.add_comm] at b
  rw [a] at b
  exact Option.some.inj b

theorem valueOf_more {s : Sfx} {r : Res} {v : BitVec 64} (h : valueOf s r = some v) : r ≠ .more := by
  rintro rfl
  simp [valueOf] at h

/-- what a call does is determined -/
theorem does_unique {P : Prog W} {c : CallFun W} {room : Nat} {g : Fn} {ok : BitVec 64 → Bool} {vs : List Val} {s : Sfx} {M : Mem} {w : W} {y y' : Mem × W × BitVec 64}
    (h : P.Does c room g ok vs s M w y) (h' : P.Does c room g ok vs s M w y') : y = y' := by
  obtain ⟨⟨sp, hsp⟩, a1, a2⟩ := h
  obtain ⟨-, b1, b2⟩ := h'
  obtain ⟨k, r, M1, c1, c2, c3, -⟩ := a2 sp M hsp fun _ _ => rfl
  obtain ⟨k', r', M1', d1, d2, d3, -⟩ := b2 sp M hsp fun _ _ => rfl
  have e := execFunc_unique (valueOf_more c2) (valueOf_more d2) c1 d1
  simp only [Prod.mk.injEq] at e
  obtain ⟨rfl, rfl, e⟩ := e
  rw [c2] at d2
  refine Prod.ext (funext fun a => ?_) (Prod.ext e (Option.some.inj d2))
  cases ha : ok a with
  | true => rw [← c3 a ha, ← d3 a ha]
  | false => rw [a1 a ha, b1 a ha]

theorem call_of {P : Prog W} {n : Nat} {ok : BitVec 64 → Bool} {t : BitVec 64} {vs : List Val} {s : Sfx} {M : Mem} {w : W} {y : Mem × W × BitVec 64} {g : Fn} (hg : P.fn t = some g)
    (h : P.Does (P.call n) (P.stack (n + 1)) g ok vs s M w y) : P.call (n + 1) ok t vs s M w = some y := by
  have hex : ∃ y, P.Does (P.call n) (P.stack (n + 1)) g ok vs s M w y := ⟨y, h⟩
  simp only [Prog.call, hg, dif_pos hex]
  exact congrArg some (does_unique hex.choose_spec h)

theorem does_of_call {P : Prog W} {n : Nat} {ok : BitVec 64 → Bool} {t : BitVec 64} {vs : List Val} {s : Sfx} {M : Mem} {w : W} {y : Mem × W × BitVec 64} {g : Fn} (hg : P.fn t = some g)
    (h : P.call n ok t vs s M w = some y) : ∃ k, n = k + 1 ∧ P.Does (P.call k) (P.stack (k + 1)) g ok vs s M w y := by
  cases n with
  | zero => simp [Prog.call, hg] at h
  | succ n =>
    simp only [Prog.call, hg] at h
    split at h
    · rename_i hex
      cases h
      exact ⟨n, rfl, hex.choose_spec⟩
    · cases h

end CStm
end Umlcc
