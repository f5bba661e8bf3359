import Verif.Lemma.LiveExprs
import Verif.Spec.Plain
import Verif.Spec.X64Check
/-!
Code generated for the part of C of `Spec/Plain.lean`: every instruction has a shape that is translated correctly, and a register is not read again after an instruction whose
machine code overwrites it.
-/
namespace Umlcc
namespace Plain
open RSpec (reads writes)
open Gen X86

/-- instructions whose machine code may overwrite the first operand -/
def swallows : IOp → Bool
  | .add | .sub | .and | .or | .xor | .sal | .sar | .neg | .not => true
  | _ => false

def isReg (f : Int) : Option Ope → Bool
  | some (.reg _ d _) => decide (d = f)
  | _ => false

/-- the register an item overwrites although it is not its destination -/
def eats : Immc → Option Int
  | .inst ⟨op, d, some (.reg _ f _), _⟩ => if swallows op && !isReg f d then some f else none
  | _ => none

theorem eats_reads {x : Immc} {v : Int} (h : eats x = some v) : v ∈ reads x := by
  unfold eats at h
  split at h
  · split at h
    · cases h
      simp [reads, RSpec.opeRegs]
    · cases h
  · cases h

/-- instructions of expressions -/
def allowed : IOp → Bool
  | .load | .addr | .store | .add | .sub | .and | .or | .xor | .mul | .sal | .sar | .neg | .not
  | .jmp | .jeq | .jneq | .jgt | .jgeq | .jlt | .jleq => true
  | _ => false

/-- the item may be in the code of an expression and has a shape that is translated correctly, as far as this does not depend on other instructions; `n` is the bytes of local objects -/
def okX (n : Nat) : Immc → Bool
  | .inst i => allowed i.op && shapeB [] [] [] n 0 false i
  | .label _ _ _ => true
  | .data _ => false

def Touch (x : Immc) (v : Int) : Prop := v ∈ reads x ∨ writes x = some v

/-- no register is read after it has been overwritten -/
def Solo (c : List Immc) : Prop := c.Pairwise fun x y => ∀ v, eats x = some v → v ∉ reads y

/-- Code generated between two states: it touches new registers only, all instructions are of the part, registers are not read after they have been overwritten, and those in `R`
are not overwritten. -/
structure Use (n : Nat) (s : GState) (c : List Immc) (s' : GState) (R : Int → Prop) : Prop where
  reg : s.reg ≤ s'.reg
  rng : ∀ x ∈ c, ∀ v, Touch x v → s.reg < v ∧ v ≤ s'.reg
  ok : ∀ x ∈ c, okX n x = true
  solo : Solo c
  res : ∀ v, R v → (s.reg < v ∧ v ≤ s'.reg) ∧ ∀ x ∈ c, eats x ≠ some v

theorem Use.nil {n : Nat} {s s' : GState} (h : s'.reg = s.reg) : Use n s [] s' fun _ => False :=
  ⟨by omega, by simp, by simp, .nil, fun _ h => h.elim⟩

/-- more registers are reserved, fewer are kept -/
theorem Use.bump {n : Nat} {s s1 s' : GState} {c : List Immc} {R R' : Int → Prop} (h : Use n s c s1 R) (hr : s1.reg ≤ s'.reg)
    (hR : ∀ v, R' v → R v ∨ (s1.reg < v ∧ v ≤ s'.reg)) : Use n s c s' R' := by
  have r := h.reg
  refine ⟨by omega, ?_, h.ok, h.solo, ?_⟩
  · intro x hx v hv
    have := h.rng x hx v hv
    omega
  · intro v hv
    rcases hR v hv with hv | hv
    · obtain ⟨h1, h2⟩ := h.res v hv
      exact ⟨by omega, h2⟩
    · refine ⟨by omega, fun x hx he => ?_⟩
      have := h.rng x hx v (.inl (eats_reads he))
      omega

theorem Use.to {n : Nat} {s s' s0 s2 : GState} {c : List Immc} {R R' : Int → Prop} (h : Use n s c s' R) (h0 : s0.reg = s.reg) (h2 : s2.reg = s'.reg)
    (hR : ∀ v, R' v → R v) : Use n s0 c s2 R' := by
  have := h.bump (s' := s2) (by omega) (fun v hv => .inl (hR v hv))
  obtain ⟨a, b, c, d, e⟩ := this
  rw [← h0] at a b e
  exact ⟨a, b, c, d, e⟩

theorem Use.seq {n : Nat} {s s1 s2 : GState} {a b : List Immc} {R1 R2 : Int → Prop} (h : Use n s a s1 R1) (k : Use n s1 b s2 R2) :
    Use n s (a ++ b) s2 fun v => R1 v ∨ R2 v := by
  have r1 := h.reg
  have r2 := k.reg
  refine ⟨by omega, ?_, ?_, ?_, ?_⟩
  · intro x hx v hv
    rcases List.mem_append.1 hx with hx | hx
    · have := h.rng x hx v hv; omega
    · have := k.rng x hx v hv; omega
  · intro x hx
    rcases List.mem_append.1 hx with hx | hx
    · exact h.ok x hx
    · exact k.ok x hx
  · refine List.pairwise_append.2 ⟨h.solo, k.solo, ?_⟩
    intro x hx y hy v he hr
    have := h.rng x hx v (.inl (eats_reads he))
    have := k.rng y hy v (.inl hr)
    omega
  · rintro v (hv | hv)
    · obtain ⟨h1, h2⟩ := h.res v hv
      refine ⟨by omega, fun x hx he => ?_⟩
      rcases List.mem_append.1 hx with hx | hx
      · exact h2 x hx he
      · have := k.rng x hx v (.inl (eats_reads he)); omega
    · obtain ⟨h1, h2⟩ := k.res v hv
      refine ⟨by omega, fun x hx he => ?_⟩
      rcases List.mem_append.1 hx with hx | hx
      · have := h.rng x hx v (.inl (eats_reads he)); omega
      · exact h2 x hx he

/-- one more item, which touches registers kept so far or new ones -/
theorem Use.add {n : Nat} {s s1 s' : GState} {c : List Immc} {R R' : Int → Prop} {x : Immc} (h : Use n s c s1 R) (hr : s1.reg ≤ s'.reg)
    (hx : ∀ v, Touch x v → R v ∨ (s1.reg < v ∧ v ≤ s'.reg)) (hok : okX n x = true)
    (hR : ∀ v, R' v → (R v ∨ (s1.reg < v ∧ v ≤ s'.reg)) ∧ eats x ≠ some v) : Use n s (c ++ [x]) s' R' := by
  have k := h.bump (R' := fun v => R v ∨ (s1.reg < v ∧ v ≤ s'.reg)) hr fun v hv => hv
  refine ⟨k.reg, ?_, ?_, ?_, ?_⟩
  · intro y hy v hv
    rcases List.mem_append.1 hy with hy | hy
    · exact k.rng y hy v hv
    · cases List.mem_singleton.1 hy
      exact (k.res v (hx v hv)).1
  · intro y hy
    rcases List.mem_append.1 hy with hy | hy
    · exact k.ok y hy
    · cases List.mem_singleton.1 hy
      exact hok
  · refine List.pairwise_append.2 ⟨k.solo, List.pairwise_singleton .., ?_⟩
    intro y hy z hz v he hv
    cases List.mem_singleton.1 hz
    exact (k.res v (hx v (.inl hv))).2 y hy he
  · intro v hv
    obtain ⟨h1, h2⟩ := hR v hv
    refine ⟨(k.res v h1).1, fun y hy he => ?_⟩
    rcases List.mem_append.1 hy with hy | hy
    · exact (k.res v h1).2 y hy he
    · cases List.mem_singleton.1 hy
      exact h2 he

/-- an item without registers -/
theorem Use.skip {n : Nat} {s s1 : GState} {c : List Immc} {R : Int → Prop} {x : Immc} (h : Use n s c s1 R) (hx : ∀ v, ¬ Touch x v) (hok : okX n x = true) :
    Use n s (c ++ [x]) s1 R :=
  h.add (by omega) (fun v hv => absurd hv (hx v)) hok fun v hv => ⟨.inl hv, fun he => hx v (.inl (eats_reads he))⟩

/-! ### scopes -/

/-- where a name of a local scope is -/
def Within (m : Nat) (y : GSym) : Prop :=
  match y.loc with
  | .mem k => y.dt.nbytes ≤ k ∧ k ≤ m
  | .label => y.dt.isObject = false

def types (l : List (List (Str × GSym))) : Types := l.map (·.map fun p => (p.1, p.2.dt))

/-- `Γ` describes the scopes of the function -/
def Rel (Γ : Types) (s : GState) : Prop :=
  smallTags s.tags = true ∧ ∃ ls os, s.syms = ls ++ os ∧ Γ = types ls ∧ (∀ sc ∈ os, ∀ p ∈ sc, p.2.loc = .label) ∧ ∀ sc ∈ ls, ∀ p ∈ sc, Within s.mem p.2

theorem lookup_mem {α : Type} {n : Str} : ∀ {l : List (Str × α)} {y : α}, l.lookup n = some y → (n, y) ∈ l
  | [], _, h => by cases h
  | (m, z) :: l, y, h => by
    rw [List.lookup_cons] at h
    split at h
    · rename_i e
      cases h
      rw [eq_of_beq e]
      exact List.mem_cons_self ..
    · exact List.mem_cons_of_mem _ (lookup_mem h)

theorem lookup_types (n : Str) : ∀ sc : List (Str × GSym), (sc.map fun p => (p.1, p.2.dt)).lookup n = (sc.lookup n).map (·.dt)
  | [] => rfl
  | (m, z) :: l => by
    simp only [List.map_cons, List.lookup_cons, lookup_types n l]
    split <;> rfl

theorem Rel.look {Γ : Types} {s : GState} (h : Rel Γ s) {n : Str} {y : GSym} {k : Nat} (hl : lookup n s.syms = some y) (hk : y.loc = .mem k) :
    CStm.find n Γ = some y.dt ∧ y.dt.nbytes ≤ k ∧ k ≤ s.mem := by
  obtain ⟨-, ls, os, h1, rfl, h2, h3⟩ := h
  rw [h1] at hl
  clear h1
  induction ls with
  | nil =>
    exfalso
    simp only [List.nil_append] at hl
    induction os with
    | nil => cases hl
    | cons sc os ih =>
      simp only [lookup] at hl
      cases he : sc.lookup n with
      | none => rw [he] at hl; exact ih (fun sc h => h2 sc (by simp [h])) hl
      | some z =>
        rw [he] at hl
        cases hl
        have := h2 sc (by simp) _ (lookup_mem he)
        rw [hk] at this
        cases this
  | cons sc ls ih =>
    simp only [List.cons_append, lookup] at hl
    simp only [types, List.map_cons, CStm.find, lookup_types]
    cases he : sc.lookup n with
    | none =>
      rw [he] at hl
      exact ih hl (fun sc h => h3 sc (by simp [h]))
    | some z =>
      rw [he] at hl
      cases hl
      have := h3 sc (by simp) _ (lookup_mem he)
      simp only [Within, hk] at this
      exact ⟨rfl, this⟩

theorem Rel.same {Γ : Types} {s s' : GState} (h : Rel Γ s) (h1 : s'.syms = s.syms) (h2 : s.mem ≤ s'.mem) (h5 : s'.tags = s.tags := by rfl) : Rel Γ s' := by
  obtain ⟨ht, ls, os, e, e2, h3, h4⟩ := h
  refine ⟨by rw [h5]; exact ht, ls, os, h1.trans e, e2, h3, fun sc hs p hp => ?_⟩
  have := h4 sc hs p hp
  unfold Within at this ⊢
  split <;> simp_all
  omega

/-- a local object has the bytes of an access to it -/
theorem Rel.holds {Γ : Types} {s : GState} (h : Rel Γ s) {n : Nat} (hm : s.mem ≤ n) {m : Str} {z : Sfx} (hh : holds Γ m z = true) {y : GSym} {k : Nat}
    (hl : lookup m s.syms = some y) (hk : y.loc = .mem k) : inFrameB n z.nbytes (some (.mem k)) = true := by
  obtain ⟨h1, h2, h3⟩ := h.look hl hk
  simp only [Plain.holds, h1, decide_eq_true_eq] at hh
  simp only [inFrameB, Bool.and_eq_true, decide_eq_true_eq]
  omega

end Plain
end Umlcc
