import Verif.Lemma.PlainFlat
import Verif.Lemma.X64Check
/-!
Code of calls of the part of `Spec/Plain.lean`, and of statements in general.
-/
namespace Umlcc
namespace Plain
open RSpec (reads writes)
open Gen
open X86 hiding load

/-- the item sets the return value -/
def sets : Immc → Bool
  | .inst ⟨.stret, none, some o, none⟩ => litLoadsB (IMach.width (some o)) o
  | _ => false

def okS (n : Nat) (x : Immc) : Bool := okX n x || sets x

theorem okX_sets {n : Nat} {x : Immc} (h : okX n x = true) : sets x = false := by
  unfold sets
  split
  · simp [okX, allowed] at h
  · rfl

theorem ret_sets {n : Nat} {d f g : Option Ope} (h : okX n (.inst ⟨.stret, d, f, g⟩) = true) : False := by
  simp [okX, allowed] at h

/-- instructions that prepare, make or clean up after calls, divisions and copies of strings -/
def calling : IOp → Bool
  | .prep | .starg | .call | .clean | .div | .mod | .str => true
  | _ => false

/-- instructions that overwrite registers: calls, divisions and copies of strings -/
def cuts : IOp → Bool
  | .call | .div | .mod | .str => true
  | _ => false

theorem cuts_calling {op : IOp} (h : cuts op = true) : calling op = true := by
  cases op <;> first | rfl | cases h

theorem okS_calling {n : Nat} {i : Inst} (h : okS n (.inst i) = true) : calling i.op = false := by
  obtain ⟨op, d, f, g⟩ := i
  cases op <;> first | rfl | simp [okS, okX, allowed, sets] at h

theorem prepAfter_quiet {i : Inst} (h : calling i.op = false) (ps : List Prep) : prepAfter (.inst i) ps = ps := by
  obtain ⟨op, d, f, g⟩ := i
  cases op <;> first | rfl | cases h

theorem prepAfter_okS {n : Nat} {x : Immc} (h : okS n x = true) (ps : List Prep) : prepAfter x ps = ps := by
  cases x with
  | inst i => exact prepAfter_quiet (okS_calling h) ps
  | _ => rfl

/-- the calls in preparation after code -/
def scan (ps : List Prep) (c : List Immc) : List Prep := c.foldl (fun ps x => prepAfter x ps) ps

theorem scan_append (ps : List Prep) (a b : List Immc) : scan ps (a ++ b) = scan (scan ps a) b := List.foldl_append ..
theorem scan_cons (ps : List Prep) (x : Immc) (b : List Immc) : scan ps (x :: b) = scan (prepAfter x ps) b := rfl
theorem scan_nil (ps : List Prep) : scan ps [] = ps := rfl
theorem scan_ok {n : Nat} (ps : List Prep) : ∀ {c : List Immc}, (∀ x ∈ c, okS n x = true) → scan ps c = ps
  | [], _ => rfl
  | x :: c, h => by
    rw [scan_cons, prepAfter_okS (h x (by simp))]
    exact scan_ok ps fun y hy => h y (by simp [hy])

theorem okS_of {n : Nat} {x : Immc} (h : okX n x = true) : okS n x = true := by simp [okS, h]

/-- an instruction of a call with a shape that is translated correctly, as far as this does not depend on the registers -/
def Part (n : Nat) (ps : List Prep) (x : Immc) : Prop :=
  ∃ i, x = .inst i ∧ calling i.op = true ∧ Shape (fun _ => False) [] ps n 0 False i

/-- bytes on the stack for calls with at most `N` arguments -/
def bound : Option Nat → Nat
  | none => 0
  | some m => 8 * m + 8

/-- Item `x` after `a` and before `b`; the code is generated with registers above `lo`, up to `hi`. No register written before a call or a division is read after it. -/
structure Spot (N : Option Nat) (n : Nat) (lo hi : Int) (a : List Immc) (x : Immc) (b : List Immc) : Prop where
  shape : okS n x = true ∨ (N ≠ none ∧ Part n (scan [] a) x)
  plain : (RSpec.target x ≠ none ∨ x.isLabel = true) → scan [] a = []
  held : heldAll (scan [] a) ≤ bound N
  cut : ∀ i, x = .inst i → cuts i.op = true → ∃ m, lo ≤ m ∧ m ≤ hi ∧ (∀ y ∈ a, ∀ v, Touch y v → v ≤ m ∨ (i.op ≠ .call ∧ writes x = some v)) ∧ (∀ v, writes x = some v → v = m + 1) ∧
    ∀ y ∈ b, ∀ v ∈ reads y, m < v

theorem split_app {α : Type} {A B a b : List α} {x : α} (h : A ++ B = a ++ x :: b) :
    (∃ b', A = a ++ x :: b' ∧ b = b' ++ B) ∨ ∃ a', B = a' ++ x :: b ∧ a = A ++ a' := by
  rcases List.append_eq_append_iff.1 h with ⟨a', h1, h2⟩ | ⟨c, h1, h2⟩
  · exact .inr ⟨a', h2, h1⟩
  · cases c with
    | nil => exact .inr ⟨[], by simpa using h2.symm, by simpa using h1.symm⟩
    | cons y c =>
      simp only [List.cons_append, List.cons.injEq] at h2
      obtain ⟨rfl, rfl⟩ := h2
      exact .inl ⟨c, h1, rfl⟩

/-- the return value is set right before the jump to the end -/
def Rets (k : Int) (c : List Immc) : Prop :=
  ∀ (i : Nat) d f g, c[i]? = some (.inst ⟨.stret, d, f, g⟩) → c[i + 1]? = some (jump k)

theorem Rets.append {k : Int} {a b : List Immc} (ha : Rets k a) (hb : Rets k b) : Rets k (a ++ b) := by
  intro i d f g h
  by_cases hi : i < a.length
  · rw [List.getElem?_append_left hi] at h
    have h2 := ha i d f g h
    rw [List.getElem?_append_left (List.getElem?_eq_some_iff.1 h2).1]
    exact h2
  · rw [List.getElem?_append_right (by omega)] at h
    rw [List.getElem?_append_right (by omega), show i + 1 - a.length = i - a.length + 1 by omega]
    exact hb _ d f g h

/-- code that touches new registers only, and reads none after it has been overwritten -/
structure Rng (s : GState) (c : List Immc) (s' : GState) : Prop where
  reg : s.reg ≤ s'.reg
  rng : ∀ x ∈ c, ∀ v, Touch x v → s.reg < v ∧ v ≤ s'.reg
  solo : Solo c

theorem Rng.of {n : Nat} {s s' : GState} {c : List Immc} {R : Int → Prop} (h : Use n s c s' R) : Rng s c s' := ⟨h.reg, h.rng, h.solo⟩

theorem Rng.seq {s s1 s2 : GState} {a b : List Immc} (h : Rng s a s1) (g : Rng s1 b s2) : Rng s (a ++ b) s2 := by
  have r1 := h.reg
  have r2 := g.reg
  refine ⟨by omega, ?_, ?_⟩
  · intro x hx v hv
    rcases List.mem_append.1 hx with hx | hx
    · have := h.rng x hx v hv; omega
    · have := g.rng x hx v hv; omega
  · refine List.pairwise_append.2 ⟨h.solo, g.solo, ?_⟩
    intro x hx y hy v he hr
    have := h.rng x hx v (.inl (eats_reads he))
    have := g.rng y hy v (.inl hr)
    omega

/-- one more item -/
theorem Rng.snoc {n : Nat} {s s1 s' : GState} {c : List Immc} {R : Int → Prop} {x : Immc} (h : Use n s c s1 R) (hr : s1.reg ≤ s'.reg)
    (hx : ∀ v, Touch x v → R v ∨ (s1.reg < v ∧ v ≤ s'.reg)) : Rng s (c ++ [x]) s' := by
  have k := h.bump (R' := fun v => R v ∨ (s1.reg < v ∧ v ≤ s'.reg)) hr fun v hv => hv
  refine ⟨k.reg, ?_, ?_⟩
  · intro y hy v hv
    rcases List.mem_append.1 hy with hy | hy
    · exact k.rng y hy v hv
    · cases List.mem_singleton.1 hy
      exact (k.res v (hx v hv)).1
  · refine List.pairwise_append.2 ⟨k.solo, List.pairwise_singleton .., ?_⟩
    intro y hy z hz v he hv
    cases List.mem_singleton.1 hz
    exact (k.res v (hx v (.inl hv))).2 y hy he

theorem Rng.skip {s : GState} {x : Immc} (hx : ∀ v, ¬ Touch x v) : Rng s [x] s :=
  ⟨Int.le_refl _, by intro y hy v hv; cases List.mem_singleton.1 hy; exact absurd hv (hx v), List.pairwise_singleton ..⟩

/-- Code of a statement generated between two states: it touches new registers only, all instructions are of the part, registers are not read after they have been overwritten, and
the return value is set right before the jump to label `k`. -/
structure SU (N : Option Nat) (n : Nat) (k : Int) (s : GState) (c : List Immc) (s' : GState) : Prop where
  reg : s.reg ≤ s'.reg
  rng : ∀ x ∈ c, ∀ v, Touch x v → s.reg < v ∧ v ≤ s'.reg
  solo : Solo c
  rets : Rets k c
  zero : scan [] c = []
  spot : ∀ a x b, c = a ++ x :: b → Spot N n s.reg s'.reg a x b

theorem Spot.quiet {N : Option Nat} {n : Nat} {lo hi : Int} {a b : List Immc} {x : Immc} (h : okS n x = true) (h0 : scan [] a = []) : Spot N n lo hi a x b := by
  refine ⟨.inl h, fun _ => h0, by rw [h0]; exact Nat.zero_le _, ?_⟩
  rintro i rfl hc
  have := okS_calling h
  rw [cuts_calling hc] at this
  cases this

theorem SU.quiet {N : Option Nat} {n : Nat} {k : Int} {s s' : GState} {c : List Immc} (h : Rng s c s') (hk : ∀ x ∈ c, okS n x = true) (hr : Rets k c) : SU N n k s c s' := by
  refine ⟨h.reg, h.rng, h.solo, hr, scan_ok [] hk, ?_⟩
  rintro a x b rfl
  exact .quiet (hk x (by simp)) (scan_ok [] fun y hy => hk y (by simp [hy]))

/-! ### arguments -/

theorem push_ope {Γ : Types} {e : SExpr} (hp : plain Γ false none e = true) (hl : pushes e = true) {s s' : GState} {a : Ope} {c : List Immc} (h : (expr e).int none s = .ok (a, c, s')) :
    LitFits .quad a := by
  cases hv : litVal e with
  | none =>
    obtain ⟨sf, r, u, rfl⟩ := nolit_int e hv h
    trivial
  | some v =>
    obtain ⟨l, rfl, hl'⟩ := lit_int e hp hv h
    simp only [pushes, hv, Bool.and_eq_true, decide_eq_true_eq] at hl
    simp only [LitFits, immFits, hl']
    have : Sfx.bits .quad = 64 := rfl
    simp
    omega

theorem heldAll_append (a b : List Prep) : heldAll (a ++ b) = heldAll a + heldAll b := by
  induction a with
  | nil => simp [heldAll]
  | cons p a ih => simp only [List.cons_append, heldAll, ih]; omega

theorem Part.after {n : Nat} {ps : List Prep} {x : Immc} (h : Part n ps x) (base : List Prep) : prepAfter x (ps ++ base) = prepAfter x ps ++ base := by
  obtain ⟨⟨op, d, f, g⟩, rfl, h1, h2⟩ := h
  cases op <;> first | cases h1 | skip
  case prep =>
    obtain ⟨s, l, -, h, -⟩ := h2
    cases h
    rfl
  case starg =>
    obtain ⟨p, rest, j, s, u, o, rfl, -⟩ := h2
    rfl
  case call =>
    obtain ⟨o, s, l, p, rest, -, -, rfl, -⟩ := h2
    rfl
  case clean =>
    obtain ⟨s, l, p, rest, -, -, rfl, -⟩ := h2
    rfl
  case div | mod | str => rfl

/-- calls within arguments -/
theorem Part.base {n : Nat} {ps base : List Prep} {x : Immc} (h : Part n ps x) (hb : heldAll base = 0) : Part n (ps ++ base) x := by
  obtain ⟨⟨op, d, f, g⟩, rfl, h1, h2⟩ := h
  refine ⟨_, rfl, h1, ?_⟩
  cases op <;> first | cases h1 | skip
  case prep => exact h2
  case starg =>
    obtain ⟨p, rest, j, s, u, o, rfl, h⟩ := h2
    exact ⟨p, rest ++ base, j, s, u, o, rfl, h⟩
  case call =>
    obtain ⟨o, s, l, p, rest, e1, e2, rfl, e3, e4, e5, e6, e7, h⟩ := h2
    exact ⟨o, s, l, p, rest ++ base, e1, e2, rfl, e3, e4, e5, e6, by rw [heldAll_append, hb]; exact e7, h⟩
  case clean =>
    obtain ⟨s, l, p, rest, e1, e2, rfl, h⟩ := h2
    exact ⟨s, l, p, rest ++ base, e1, e2, rfl, h⟩
  case div | mod | str => exact h2

theorem scan_base {n : Nat} (base : List Prep) : ∀ (ps : List Prep) (c : List Immc), (∀ a x b, c = a ++ x :: b → okS n x = true ∨ Part n (scan ps a) x) → scan (ps ++ base) c = scan ps c ++ base := by
  intro ps c
  induction c generalizing ps with
  | nil => intro _; rfl
  | cons x c ih =>
    intro h
    have h0 : prepAfter x (ps ++ base) = prepAfter x ps ++ base := by
      rcases h [] x c rfl with h | h
      · rw [prepAfter_okS h, prepAfter_okS h]
      · exact h.after base
    rw [scan_cons, scan_cons, h0]
    exact ih _ fun a y b e => h (x :: a) y b (by rw [e]; rfl)

/-- Item `x` of the arguments of a call, after `a` and before `b`, `ps` the calls in preparation; the code of the arguments is generated with registers above `lo`, up to `hi`. -/
structure Inner (N : Option Nat) (n : Nat) (lo hi : Int) (ps : List Prep) (a : List Immc) (x : Immc) (b : List Immc) : Prop where
  item : okX n x = true ∨ (N ≠ none ∧ Part n ps x)
  straight : Straight x
  held : heldAll ps ≤ bound N
  cut : ∀ i, x = .inst i → cuts i.op = true → ∃ m, lo ≤ m ∧ m ≤ hi ∧ (∀ y ∈ a, ∀ v, Touch y v → v ≤ m ∨ (i.op ≠ .call ∧ writes x = some v)) ∧ (∀ v, writes x = some v → v = m + 1) ∧
    ∀ y ∈ b, ∀ v ∈ reads y, m < v

/-- code of the last `K` of the `T` arguments of a call -/
structure ArgsOk (N : Option Nat) (n T K : Nat) (s : GState) (c : List Immc) (s' : GState) : Prop where
  rng : Rng s c s'
  all : scan [⟨T, 0, false⟩] c = [⟨T, K, false⟩]
  inner : ∀ a x b, c = a ++ x :: b → Inner N n s.reg s'.reg (scan [⟨T, 0, false⟩] a) a x b

theorem held_mid {T k M : Nat} (h1 : k ≤ T) (h2 : T ≤ M) : heldAll [⟨T, k, false⟩] ≤ bound (some M) := by
  simp only [heldAll, Prep.held, bound]
  split <;> split <;> omega

/-- an item that is not a call -/
theorem Inner.quiet {N : Option Nat} {M T n k : Nat} {lo hi : Int} {ps : List Prep} {a b : List Immc} {x : Immc} (h : okX n x = true ∨ ∃ i, x = .inst i ∧ i.op = .starg ∧ Part n ps x)
    (hstr : Straight x) (hN : N = some M) (hk : k ≤ T) (hM : T ≤ M) (ha : ps = [⟨T, k, false⟩]) : Inner N n lo hi ps a x b := by
  subst hN
  refine ⟨h.imp_right fun ⟨_, _, _, h⟩ => ⟨nofun, h⟩, hstr, by rw [ha]; exact held_mid hk hM, ?_⟩
  rintro i rfl hc
  rcases h with h | ⟨j, e, h, -⟩
  · have := okS_calling (okS_of h)
    rw [cuts_calling hc] at this
    cases this
  · cases e
    rw [h] at hc
    cases hc

theorem starg_part {T k n i : Nat} {o : Ope} (hk : k < T) (hi : (i : Int) = ((T - 1 - k : Nat) : Int)) (ho : LitFits .quad o) {s : Sfx} {u : Bool} :
    Part n [⟨T, k, false⟩] (inst .starg (some (.arg s i u)) (some o) none) :=
  ⟨_, rfl, rfl, _, _, _, _, _, _, rfl, rfl, hk, rfl, hi, rfl, ho⟩

theorem ArgsOk.plain {N : Option Nat} {M n T K i : Nat} {s s1 s' : GState} {c1 c2 : List Immc} {o : Ope} {R : Int → Prop} {sf : Sfx} {u : Bool} (h : ArgsOk N n T K s c1 s1) (hN : N = some M)
    (hM : T ≤ M) (hi : i + 1 + K = T) (k1 : Use n s1 c2 s' R) (hstr : ∀ x ∈ c2, Straight x) (ho : ∀ v ∈ RSpec.opeRegs (some o), R v) (hl : LitFits .quad o) :
    ArgsOk N n T (K + 1) s (c1 ++ (c2 ++ [inst .starg (some (.arg sf i u)) (some o) none])) s' := by
  obtain ⟨a1, a4, a5⟩ := h
  have hc2 : ∀ ps : List Prep, scan ps c2 = ps := fun ps => scan_ok ps fun x hx => okS_of (k1.ok x hx)
  have hr := k1.reg
  refine ⟨a1.seq (Rng.snoc (s' := s') k1 (Int.le_refl _) ?_), ?_, ?_⟩
  · rintro v (hv | hv)
    · simp only [inst, reads, RSpec.opeRegs, List.append_nil] at hv
      exact .inl (ho v hv)
    · cases hv
  · rw [scan_append, a4, scan_append, hc2]
    rfl
  · intro a x b hx
    rcases split_app hx with ⟨b', e1, rfl⟩ | ⟨a', e1, rfl⟩
    · obtain ⟨i1, i2, i3, i4⟩ := a5 a x b' e1
      refine ⟨i1, i2, i3, fun j e hc => ?_⟩
      obtain ⟨m, m1, m2, m3, m5, m6⟩ := i4 j e hc
      refine ⟨m, m1, by omega, m3, m5, ?_⟩
      intro y hy v hv
      simp only [List.mem_append, List.mem_singleton] at hy
      rcases hy with hy | hy | rfl
      · exact m6 y hy v hv
      · have := k1.rng y hy v (.inl hv); omega
      · simp only [inst, reads, RSpec.opeRegs, List.append_nil] at hv
        have := k1.res v (ho v hv); omega
    · rcases split_app e1 with ⟨b', e3, e4⟩ | ⟨a'', e3, rfl⟩
      · have hx : x ∈ c2 := by rw [e3]; simp
        refine .quiet (T := T) (k := K) (.inl (k1.ok x hx)) (hstr x hx) hN (by omega) hM ?_
        rw [scan_append, a4]
        exact scan_ok _ fun y hy => okS_of (k1.ok y (by rw [e3]; simp [hy]))
      · cases a'' with
        | cons z a'' => simp at e3
        | nil =>
          simp only [List.nil_append, List.cons.injEq] at e3
          obtain ⟨rfl, -⟩ := e3
          have e : scan [⟨T, 0, false⟩] (c1 ++ (c2 ++ [])) = [⟨T, K, false⟩] := by rw [scan_append, a4, List.append_nil, hc2]
          refine .quiet (T := T) (k := K) (.inr ⟨_, rfl, rfl, ?_⟩) ⟨rfl, rfl⟩ hN (by omega) hM e
          rw [e]
          exact starg_part (by omega) (by omega) hl

/-! ### calls -/

theorem held_end {T M : Nat} (h2 : T ≤ M) : heldAll [⟨T, T, true⟩] ≤ bound (some M) := by
  simp only [heldAll, Prep.held, bound]
  split <;> split <;> omega

theorem touch_plain {op : IOp} {n : Int} {v : Int} : ¬ Touch (inst op none (some (intOpe .none n)) none) v := by
  rintro (h | h)
  · simp [inst, reads, RSpec.opeRegs, intOpe] at h
  · cases h

theorem args_length : ∀ as : SArgs, (args as).length = argCount as
  | .nil => rfl
  | .cons e as => by simp [args, argCount, args_length as]

/-- the rest of a statement after a call -/
theorem SU.after {N : Option Nat} {n : Nat} {k : Int} {s s' s2 s3 : GState} {c b : List Immc} (hK : Rng s c s') (hr : ∀ x ∈ c, ∀ d f g, x ≠ .inst ⟨.stret, d, f, g⟩)
    (h0 : scan [] c = []) (h2 : s.reg ≤ s2.reg) (hlow : ∀ x ∈ c, ∀ v, eats x = some v → v ≤ s2.reg)
    (hspot : ∀ a x b', c = a ++ x :: b' → (∀ y ∈ b, ∀ v ∈ reads y, s2.reg < v) → s2.reg ≤ s3.reg → Spot N n s.reg s3.reg a x (b' ++ b))
    (h3 : s'.reg ≤ s3.reg) (hb : SU none n k s2 b s3) : SU N n k s (c ++ b) s3 := by
  have hlo : ∀ y ∈ b, ∀ v ∈ reads y, s2.reg < v := fun y hy v hv => (hb.rng y hy v (.inl hv)).1
  refine ⟨by have := hK.reg; omega, ?_, ?_, ?_, ?_, ?_⟩
  · intro x hx v hv
    rcases List.mem_append.1 hx with hx | hx
    · have := hK.rng x hx v hv; omega
    · have := hb.rng x hx v hv; omega
  · refine List.pairwise_append.2 ⟨hK.solo, hb.solo, ?_⟩
    intro x hx y hy v he hv
    have := hlow x hx v he
    have := hlo y hy v hv
    omega
  · refine Rets.append ?_ hb.rets
    intro i d f g hi
    exact absurd rfl (hr _ (List.mem_of_getElem? hi) d f g)
  · rw [scan_append, h0]
    exact hb.zero
  · intro a x b' e
    rcases split_app e with ⟨b1, e1, rfl⟩ | ⟨a1, e1, rfl⟩
    · exact hspot a x b1 e1 hlo hb.reg
    · have hx := hb.spot a1 x b' e1
      have hk : ∀ y ∈ b, okS n y = true := by
        intro y hy
        obtain ⟨u, w, rfl⟩ := List.append_of_mem hy
        rcases (hb.spot u y w rfl).shape with h | h
        · exact h
        · exact absurd rfl h.1
      refine .quiet (hk x (by rw [e1]; simp)) ?_
      rw [scan_append, h0]
      exact scan_ok [] fun y hy => hk y (by rw [e1]; simp [hy])

/-- The code of a call can be followed by other code; `s2` is the state before the result gets its register. -/
theorem call_use {n M : Nat} {Γ : Types} {t : DType} {f : SExpr} {as : SArgs} (hp : callee (some M) Γ f (argCount as) = true)
    (hargs : ∀ {s s' : GState} {c : List Immc}, Rel Γ s → s.mem ≤ n → argsCode 0 (args as) s = .ok ((), c, s') → ArgsOk (some M) n (argCount as) (argCount as) s c s' ∧ Rel Γ s' ∧ s'.mem ≤ n) (ht : t.isVoid = true ∨ len t ≠ .none) {s s' : GState} {c : List Immc}
    (hs : Rel Γ s) (hm : s.mem ≤ n) (h : callCode t (expr f) (args as) s = .ok ((), c, s')) :
    ∃ s2 : GState, s2.reg ≤ s'.reg ∧ (t.isVoid = false → s'.exprReg = some (len t, s2.reg + 1, t.isUnsigned) ∧ s'.reg = s2.reg + 1) ∧
      ∀ {k : Int} {b : List Immc} {s3 : GState}, s'.reg ≤ s3.reg → SU none n k s2 b s3 → SU (some M) n k s (c ++ b) s3 := by
  have hgood := callCode_ok h
  obtain ⟨c1, s1, p, c2, s2, d, c3, s4, h1, h2, h3, rfl, hh⟩ := hgood
  simp only [callee, few, Bool.and_eq_true, decide_eq_true_eq] at hp
  obtain ⟨⟨⟨⟨q1, q2⟩, q3⟩, q4⟩, q5⟩ := hp
  obtain ⟨⟨a1, a4, a5⟩, a2, a3⟩ := hargs hs hm h1
  obtain ⟨R, k1, k2⟩ := (expr_use n f q3).ptr rfl rfl q4 a2 a3 h2
  have hstr := ((expr_flat f q5).ptr _ _ _ _ h2).1
  rw [args_length]
  generalize hT : argCount as = T at *
  have hreg : s2.reg ≤ s'.reg := by
    rcases hh with ⟨-, -, rfl⟩ | ⟨-, -, rfl⟩
    · exact Int.le_refl _
    · dsimp only; omega
  have hd : d = none ∨ (d = some (.reg (len t) (s2.reg + 1) t.isUnsigned) ∧ len t ≠ .none ∧ s2.reg + 1 ≤ s'.reg) := by
    rcases hh with ⟨-, hd, rfl⟩ | ⟨hv, hd, rfl⟩
    · exact .inl hd
    · exact .inr ⟨hd, ht.resolve_left (by rw [hv]; nofun), Int.le_refl _⟩
  have hrd : ∀ v ∈ reads (inst .call d (some p) (some (intOpe .none T))), R v := by
    intro v hv
    refine k2.regs ?_
    rcases hd with rfl | ⟨rfl, -⟩ <;> simpa [inst, reads, RSpec.opeRegs, intOpe] using hv
  have hwr : ∀ v, writes (inst .call d (some p) (some (intOpe .none T))) = some v → v = s2.reg + 1 ∧ s2.reg + 1 ≤ s'.reg := by
    intro v hv
    rcases hd with rfl | ⟨rfl, -, hle⟩
    · cases hv
    · cases hv
      exact ⟨rfl, hle⟩
  have hc2 : ∀ ps : List Prep, scan ps c2 = ps := fun ps => scan_ok ps fun x hx => okS_of (k1.ok x hx)
  have e0 : prepAfter (inst .prep none (some (intOpe .none T)) none) [] = [⟨T, 0, false⟩] := by
    simp [prepAfter, inst, intOpe]
  have hmid : ∀ a, scan [] (inst .prep none (some (intOpe .none T)) none :: (c1 ++ a)) = scan [⟨T, T, false⟩] a := by
    intro a
    rw [scan_cons, e0, scan_append, a4]
  have r1 := a1.reg
  have r2 := k1.reg
  have hK : Rng s (inst .prep none (some (intOpe .none T)) none :: (c1 ++ (c2 ++ callEnd d p T))) s' := by
    have := (Rng.skip (s := s) (x := inst .prep none (some (intOpe .none T)) none) fun v => touch_plain).seq (a1.seq ((Rng.snoc (s' := s') k1 hreg
      (x := inst .call d (some p) (some (intOpe .none T))) (fun v hv => by
        rcases hv with hv | hv
        · exact .inl (hrd v hv)
        · have := hwr v hv; right; omega)).seq (Rng.skip (x := inst .clean none (some (intOpe .none T)) none) fun v => touch_plain)))
    simpa [callEnd] using this
  have hlow : ∀ x ∈ inst .prep none (some (intOpe .none T)) none :: (c1 ++ (c2 ++ callEnd d p T)), ∀ v ∈ reads x, v ≤ s2.reg := by
    intro x hx v hv
    simp only [callEnd, List.mem_cons, List.mem_append, List.not_mem_nil, or_false] at hx
    rcases hx with rfl | hx | hx | rfl | rfl
    · exact absurd (.inl hv) touch_plain
    · have := a1.rng x hx v (.inl hv); omega
    · exact (k1.rng x hx v (.inl hv)).2
    · exact (k1.res v (hrd v hv)).1.2
    · exact absurd (.inl hv) touch_plain
  refine ⟨s2, hreg, ?_, fun {k b s3} h3 hb => SU.after hK ?_ ?_ (by omega) (fun x hx v he => hlow x hx v (eats_reads he)) ?_ h3 hb⟩
  · intro hv
    rcases hh with ⟨hv', -, rfl⟩ | ⟨-, -, rfl⟩
    · rw [hv] at hv'; cases hv'
    · exact ⟨rfl, rfl⟩
  · intro x hx d' f' g' e
    subst e
    simp only [callEnd, List.mem_cons, List.mem_append, List.not_mem_nil, or_false] at hx
    rcases hx with hx | hx | hx | hx | hx
    · cases hx
    · obtain ⟨u, w, e⟩ := List.append_of_mem hx
      rcases (a5 _ _ _ e).item with h | ⟨-, i, e, h, -⟩
      · exact ret_sets h
      · cases e; cases h
    · exact ret_sets (k1.ok _ hx)
    · cases hx
    · cases hx
  · rw [hmid, scan_append, hc2]
    rfl
  · intro a x b' e hb3 hle
    rcases a with _ | ⟨y, a⟩
    · simp only [List.nil_append, List.cons.injEq] at e
      obtain ⟨rfl, -⟩ := e
      refine ⟨.inr ⟨nofun, _, rfl, rfl, ?_⟩, fun _ => rfl, Nat.zero_le _, ?_⟩
      · exact ⟨_, _, rfl, rfl, by simp⟩
      · intro i e hc; cases e; cases hc
    · simp only [List.cons_append, List.cons.injEq] at e
      obtain ⟨rfl, e⟩ := e
      rcases split_app e with ⟨b1, e1, rfl⟩ | ⟨a', e1, rfl⟩
      · obtain ⟨i1, i2, i3, i4⟩ := a5 a x b1 e1
        refine ⟨?_, ?_, ?_, fun j e hc => ?_⟩
        · rw [scan_cons, e0]
          exact i1.imp_left okS_of
        · rintro (h' | h')
          · exact absurd i2.1 h'
          · rw [i2.2] at h'; cases h'
        · rw [scan_cons, e0]
          exact i3
        · obtain ⟨m, m1, m2, m3, m5, m6⟩ := i4 j e hc
          refine ⟨m, m1, by omega, ?_, m5, ?_⟩
          · intro y hy v hv
            rcases List.mem_cons.1 hy with rfl | hy
            · exact absurd hv touch_plain
            · exact m3 y hy v hv
          · intro y hy v hv
            simp only [callEnd, List.mem_cons, List.mem_append, List.not_mem_nil, or_false] at hy
            rcases hy with (hy | hy | rfl | rfl) | hy
            · exact m6 y hy v hv
            · have := k1.rng y hy v (.inl hv); omega
            · have := k1.res v (hrd v hv); omega
            · exact absurd (.inl hv) touch_plain
            · have := hb3 y hy v hv; omega
      · rcases split_app e1 with ⟨b1, e2, -⟩ | ⟨a'', e2, rfl⟩
        · have hx : x ∈ c2 := by rw [e2]; simp
          have e3 : scan [] (inst .prep none (some (intOpe .none T)) none :: (c1 ++ a')) = [⟨T, T, false⟩] := by
            rw [hmid]
            exact scan_ok _ fun y hy => okS_of (k1.ok y (by rw [e2]; simp [hy]))
          refine ⟨.inl (okS_of (k1.ok x hx)), ?_, by rw [e3]; exact held_mid (Nat.le_refl _) q1, ?_⟩
          · rintro (h' | h')
            · exact absurd (hstr x hx).1 h'
            · rw [(hstr x hx).2] at h'; cases h'
          · rintro i rfl hc
            have := okS_calling (okS_of (k1.ok _ hx))
            rw [cuts_calling hc] at this
            cases this
        · rcases a'' with _ | ⟨z, _ | ⟨z', a''⟩⟩
          · simp only [callEnd, List.nil_append, List.cons.injEq] at e2
            obtain ⟨rfl, rfl⟩ := e2
            have hsc : scan [] (inst .prep none (some (intOpe .none T)) none :: (c1 ++ (c2 ++ []))) = [⟨T, T, false⟩] := by rw [hmid, List.append_nil, hc2]
            refine ⟨.inr ⟨nofun, _, rfl, rfl, ?_⟩, ?_, by rw [hsc]; exact held_mid (Nat.le_refl _) q1, ?_⟩
            · rw [hsc]
              refine ⟨_, _, _, _, _, rfl, rfl, rfl, rfl, rfl, rfl, q2, rfl, ?_, nofun, ?_⟩
              · rcases hd with rfl | ⟨rfl, hd, -⟩
                · exact .inl rfl
                · exact .inr ⟨_, _, _, rfl, hd⟩
              · intro a b ha; simp at ha
            · rintro (h' | h')
              · exact absurd (straight_inst rfl).1 h'
              · cases h'
            · intro i _ _
              refine ⟨s2.reg, by omega, hle, ?_, fun v hv => (hwr v hv).1, ?_⟩
              · intro y hy v hv
                simp only [List.mem_cons, List.mem_append, List.not_mem_nil, or_false] at hy
                rcases hy with rfl | hy | hy
                · exact absurd hv touch_plain
                · have := a1.rng y hy v hv; exact .inl (by omega)
                · exact .inl (k1.rng y hy v hv).2
              · intro y hy v hv
                simp only [List.mem_cons, List.mem_append, List.not_mem_nil, or_false] at hy
                rcases hy with rfl | hy
                · exact absurd (.inl hv) touch_plain
                · exact hb3 y hy v hv
          · simp only [callEnd, List.cons_append, List.nil_append, List.cons.injEq] at e2
            obtain ⟨rfl, rfl, rfl⟩ := e2
            have hsc : scan [] (inst .prep none (some (intOpe .none T)) none :: (c1 ++ (c2 ++ [inst .call d (some p) (some (intOpe .none T))]))) = [⟨T, T, true⟩] := by
              rw [hmid, scan_append, hc2]; rfl
            refine ⟨.inr ⟨nofun, _, rfl, rfl, ?_⟩, ?_, by rw [hsc]; exact held_end q1, ?_⟩
            · rw [hsc]
              exact ⟨_, _, _, _, rfl, rfl, rfl, rfl, rfl, q2⟩
            · rintro (h' | h')
              · exact absurd (straight_inst rfl).1 h'
              · cases h'
            · intro i e hc; cases e; cases hc
          · simp [callEnd] at e2

theorem callee_few {M n : Nat} {Γ : Types} {f : SExpr} (h : callee (some M) Γ f n = true) : ∃ M', some M = some M' ∧ n ≤ M' := by
  simp only [callee, few, Bool.and_eq_true, decide_eq_true_eq] at h
  exact ⟨M, rfl, h.1.1.1.1⟩

/-- Code that begins with a call, `c0`, is in order if the rest of it is, which begins in state `s2` and reserves the registers up to those of `s'`. -/
def Front (N : Option Nat) (n : Nat) (s : GState) (c0 : List Immc) (s2 s' : GState) : Prop :=
  ∀ {k : Int} {b : List Immc} {s3 : GState}, s'.reg ≤ s3.reg → SU none n k s2 b s3 → SU N n k s (c0 ++ b) s3

theorem Front.mono {N : Option Nat} {n : Nat} {s s2 s1 s' : GState} {c0 : List Immc} (h : Front N n s c0 s2 s1) (hr : s1.reg ≤ s'.reg) : Front N n s c0 s2 s' :=
  fun h3 hb => h (by omega) hb

/-- code that begins with a call, and whose value `p`, of type `t`, is in a register -/
def Begun (N : Option Nat) (n : Nat) (s : GState) (c : List Immc) (s' : GState) (p : Ope) (t : DType) : Prop :=
  ∃ (c0 b : List Immc) (s2 : GState) (r : Int), c = c0 ++ b ∧ Use n s2 b s' (· = r) ∧ p = .reg (len t) r t.isUnsigned ∧ Front N n s c0 s2 s'

/-- the conversion at the end -/
theorem Begun.conv {N : Option Nat} {n : Nat} {s s1 s' : GState} {c1 c2 : List Immc} {t : DType} {o : Option DType} {q p : Ope} (h : Begun N n s c1 s1 q t)
    (he : ∀ sf r u, q = .reg sf r u → s1.exprReg = some (sf, r, u)) (hc : conv o t = true) (hb : castReg o s1 = .ok (p, c2, s')) : Begun N n s (c1 ++ c2) s' p (o.getD t) := by
  obtain ⟨c0, b, s2, r, rfl, k1, rfl, k2⟩ := h
  have he := he _ _ _ rfl
  obtain ⟨sf', r', u', he', ⟨rfl, ho, rfl, rfl⟩ | ⟨t', rfl, rfl, rfl, rfl⟩⟩ := castReg_ok hb
  · rw [he] at he'
    cases he'
    exact ⟨c0, b, s2, r, by simp, k1, ho, k2⟩
  · rw [he] at he'
    cases he'
    simp only [Plain.conv, Bool.not_eq_true'] at hc
    exact ⟨c0, _, s2, _, List.append_assoc .., k1.load (t := t') (o := .reg (len t) r t.isUnsigned) (s' := { s1 with reg := s1.reg + 1 }) rfl (by simp [RSpec.opeRegs]) (okX_conv hc), rfl,
      k2.mono (by dsimp only; omega)⟩

/-- a value in a register is not moved -/
theorem Begun.reg {N : Option Nat} {n : Nat} {g : G} {s s' : GState} {p : Ope} {c : List Immc} {t : DType} (hg : ∀ {p c s'}, g.int none s = .ok (p, c, s') → Begun N n s c s' p t)
    (h : g.reg s = .ok (p, c, s')) : Begun N n s c s' p t := by
  obtain ⟨sf, r, u, rfl, h1 | ⟨l, c0, s0, h1, -⟩⟩ := reg_ok h
  · exact hg h1
  · obtain ⟨_, _, _, _, -, -, h2, -⟩ := hg h1
    cases h2

/-- `-` and `~` -/
theorem un_begun {N : Option Nat} {n : Nat} {i : IOp} (hi : i = .neg ∨ i = .not) {t : DType} {e : SExpr} {s s' : GState} {c : List Immc}
    (hg : ∀ {p c s'}, (expr e).int none s = .ok (p, c, s') → Begun N n s c s' p e.dt) (ht : len t = len e.dt) (h : unCode i t (expr e) s = .ok ((), c, s')) :
    Begun N n s c s' (.reg (len t) s'.reg t.isUnsigned) t ∧ s'.exprReg = some (len t, s'.reg, t.isUnsigned) := by
  obtain ⟨a, c1, s1, h1, rfl, rfl⟩ := unCode_ok h
  obtain ⟨c0, b, s2, r, rfl, k1, rfl, k2⟩ := hg h1
  exact ⟨⟨c0, _, s2, _, List.append_assoc .., k1.op1 hi rfl ht rfl, rfl, k2.mono (by dsimp only; omega)⟩, rfl⟩

theorem SU.of {N : Option Nat} {n : Nat} {k : Int} {s s' : GState} {c : List Immc} {R : Int → Prop} (h : Use n s c s' R) : SU N n k s c s' := by
  refine .quiet (.of h) (fun x hx => okS_of (h.ok x hx)) ?_
  intro i d f g hi
  exact (ret_sets (h.ok _ (List.mem_of_getElem? hi))).elim

theorem SU.weaken {N : Option Nat} {n : Nat} {k : Int} {s s' : GState} {c : List Immc} (h : SU none n k s c s') : SU N n k s c s' := by
  obtain ⟨h1, h2, h3, h4, h5, h6⟩ := h
  refine ⟨h1, h2, h3, h4, h5, fun a x b e => ?_⟩
  obtain ⟨p1, p2, p3, p4⟩ := h6 a x b e
  refine ⟨.inl (p1.resolve_right fun h => h.1 rfl), p2, ?_, p4⟩
  simp only [bound] at p3
  omega

/-- a value without calls -/
theorem Begun.of {N : Option Nat} {n : Nat} {s s' : GState} {c : List Immc} {r : Int} {t : DType} (h : Use n s c s' (· = r)) :
    Begun N n s c s' (.reg (len t) r t.isUnsigned) t := ⟨[], c, s, r, rfl, h, rfl, fun _ hb => hb.weaken⟩

theorem part_quot {n : Nat} {ps : List Prep} {i : IOp} (hi : i = .div ∨ i = .mod) {d f o : Option Ope} (h : okX n (inst .mul d f o) = true) : Part n ps (inst i d f o) := by
  simp only [okX, inst, Bool.and_eq_true] at h
  have h := shape_of h.2
  obtain ⟨fs, f', fu, o', w, ds, d', du, h1, h2, h3, h4, h5⟩ := h
  have h6 : LitLoads w o' := by
    cases o' <;> first | trivial | skip
    simp only [LitFits] at h3
    have := fits_loads h3
    simp only [LitLoads]
    split <;> simp_all
  rcases hi with rfl | rfl <;>
    exact ⟨_, rfl, rfl, fs, f', fu, o', w, ds, d', du, ⟨h1.fst, h1.snd, h1.common, h1.other, h1.wide, h1.wide2⟩, ⟨h2.dst, h2.wide⟩, h6, h4, h5, nofun, fun _ _ _ => .inr nofun, fun _ _ _ => .inr nofun⟩

/-- A division in the place of a multiplication: other code can follow. -/
theorem div_front {N : Option Nat} (hN : N ≠ none) {n : Nat} {i : IOp} (hi : i = .div ∨ i = .mod) {s s3 : GState} {C : List Immc} {z w : Sfx} {du u : Bool} {f : Int} {o : Ope} (h3 : s.reg ≤ s3.reg)
    (hok : okX n (inst .mul (some (.reg z (s3.reg + 1) du)) (some (.reg w f u)) (some o)) = true)
    (S : ∀ k, SU N n k s (C ++ [inst .mul (some (.reg z (s3.reg + 1) du)) (some (.reg w f u)) (some o)]) { s3 with reg := s3.reg + 1 })
    (heats : ∀ x ∈ C, ∀ v, eats x = some v → v ≤ s3.reg) {k : Int} {b : List Immc} {s4 : GState} (h4 : s3.reg + 1 ≤ s4.reg) (hb : SU none n k s3 b s4) :
    SU N n k s ((C ++ [inst i (some (.reg z (s3.reg + 1) du)) (some (.reg w f u)) (some o)]) ++ b) s4 := by
  have hfr : f ∈ reads (inst .mul (some (.reg z (s3.reg + 1) du)) (some (.reg w f u)) (some o)) := by simp [inst, reads, RSpec.opeRegs]
  have hmax : f ≤ s3.reg + 1 := ((S 0).rng _ (by simp) f (.inl hfr)).2
  have hzC : scan [] C = [] := by
    have := (S 0).zero
    rw [scan_append] at this
    exact this
  have hrd : ∀ v ∈ reads (inst i (some (.reg z (s3.reg + 1) du)) (some (.reg w f u)) (some o)),
      v ∈ reads (inst .mul (some (.reg z (s3.reg + 1) du)) (some (.reg w f u)) (some o)) := fun v hv => hv
  have heat : ∀ v, eats (inst i (some (.reg z (s3.reg + 1) du)) (some (.reg w f u)) (some o)) ≠ some v := by
    rcases hi with rfl | rfl <;> simp [eats, inst, swallows]
  have hpart : ∀ ps, Part n ps (inst i (some (.reg z (s3.reg + 1) du)) (some (.reg w f u)) (some o)) := fun ps => part_quot hi hok
  have hafter : ∀ ps, prepAfter (inst i (some (.reg z (s3.reg + 1) du)) (some (.reg w f u)) (some o)) ps = ps := by
    rcases hi with rfl | rfl <;> exact fun _ => rfl
  have hstret : ∀ d' f' g', inst i (some (.reg z (s3.reg + 1) du)) (some (.reg w f u)) (some o) ≠ .inst ⟨.stret, d', f', g'⟩ := by
    rcases hi with rfl | rfl <;> simp [inst]
  have hwr : ∀ v, writes (inst i (some (.reg z (s3.reg + 1) du)) (some (.reg w f u)) (some o)) = some v ↔ v = s3.reg + 1 := by
    intro v
    simp [writes, inst, eq_comm]
  have hcall : ∀ j, inst i (some (.reg z (s3.reg + 1) du)) (some (.reg w f u)) (some o) = .inst j → j.op ≠ .call := by
    rintro j ⟨⟩
    rcases hi with rfl | rfl <;> exact nofun
  generalize inst i (some (.reg z (s3.reg + 1) du)) (some (.reg w f u)) (some o) = D at *
  generalize inst .mul (some (.reg z (s3.reg + 1) du)) (some (.reg w f u)) (some o) = M at *
  have hC : ∀ x ∈ C, ∀ v, Touch x v → s.reg < v ∧ v ≤ s3.reg + 1 := fun x hx v hv => (S 0).rng x (by simp [hx]) v hv
  refine SU.after (s' := { s3 with reg := s3.reg + 1 }) ⟨(S k).reg, ?_, ?_⟩ ?_ ?_ h3 ?_ ?_ h4 hb
  · intro x hx v hv
    rcases List.mem_append.1 hx with hx | hx
    · exact hC x hx v hv
    · cases List.mem_singleton.1 hx
      rcases hv with hv | hv
      · exact (S k).rng _ (by simp) v (.inl (hrd v hv))
      · have := (hwr v).1 hv; dsimp only; omega
  · refine List.pairwise_append.2 ⟨(List.pairwise_append.1 (S k).solo).1, List.pairwise_singleton .., ?_⟩
    intro x hx y hy v he hv
    cases List.mem_singleton.1 hy
    exact (List.pairwise_append.1 (S k).solo).2.2 x hx _ (List.mem_singleton.2 rfl) v he (hrd v hv)
  · rintro x hx d' f' g' rfl
    rcases List.mem_append.1 hx with hx | hx
    · obtain ⟨j, hj⟩ := List.getElem?_of_mem (List.mem_append_left [M] hx)
      have e1 := (S 0).rets j _ _ _ hj
      have e2 := (S 1).rets j _ _ _ hj
      rw [e1] at e2
      exact absurd e2 (by decide)
    · exact hstret _ _ _ (List.mem_singleton.1 hx).symm
  · rw [scan_append, hzC]
    exact hafter []
  · intro x hx v hv
    rcases List.mem_append.1 hx with hx | hx
    · exact heats x hx v hv
    · cases List.mem_singleton.1 hx
      exact absurd hv (heat v)
  · intro a x b' e hb3 hle
    rcases split_app e with ⟨b1, e1, rfl⟩ | ⟨a1, e1, rfl⟩
    · obtain ⟨q1, q2, q3, q4⟩ := (S k).spot a x (b1 ++ [M]) (by rw [e1]; simp)
      refine ⟨q1, q2, q3, fun j ej hc => ?_⟩
      obtain ⟨m, m1, m2, m3, m5, m6⟩ := q4 j ej hc
      have hmf := m6 _ (by simp) f hfr
      refine ⟨m, m1, by omega, m3, m5, ?_⟩
      intro y hy v hv
      simp only [List.mem_append, List.mem_singleton] at hy
      rcases hy with (hy | rfl) | hy
      · exact m6 y (by simp [hy]) v hv
      · exact m6 _ (by simp) v (hrd v hv)
      · have := hb3 y hy v hv; omega
    · cases a1 with
      | cons z a1 => simp at e1
      | nil =>
        simp only [List.nil_append, List.cons.injEq] at e1
        obtain ⟨rfl, rfl⟩ := e1
        have hz : scan [] (C ++ []) = [] := by rw [List.append_nil]; exact hzC
        refine ⟨.inr ⟨hN, hpart _⟩, fun _ => hz, by rw [hz]; exact Nat.zero_le _, fun j ej hc => ?_⟩
        refine ⟨s3.reg, h3, hle, ?_, fun v hv => (hwr v).1 hv, ?_⟩
        · intro y hy v hv
          rw [List.append_nil] at hy
          have := (hC y hy v hv).2
          rcases Int.lt_or_le s3.reg v with h | h
          · exact .inr ⟨hcall j ej, (hwr v).2 (by omega)⟩
          · exact .inl h
        · intro y hy v hv
          exact hb3 y (by simpa using hy) v hv

/-- a division after the code of its left operand -/
theorem quot_begun {N : Option Nat} (hN : N ≠ none) {n : Nat} {Γ : Types} {i : IOp} (hi : i = .div ∨ i = .mod) {t : DType} {l r : SExpr} (hr : GUse n Γ false none r (expr r))
    (e1 : len l.dt = len r.dt) (e2 : len t = len l.dt) (e3 : len l.dt ≠ .byte) {s s' : GState} {c : List Immc} (hs : Rel Γ s) (hm : s.mem ≤ n)
    (hl : ∀ {p c s'}, (expr l).reg s = .ok (p, c, s') → Begun N n s c s' p l.dt) (h : arithCode i t (expr l) (expr r) s = .ok ((), c, s')) :
    Begun N n s c s' (.reg (len t) s'.reg t.isUnsigned) t ∧ s'.exprReg = some (len t, s'.reg, t.isUnsigned) := by
  obtain ⟨a, c1, s1, o, c2, s3, h1, h2, rfl, rfl⟩ := arithCode_ok h
  refine ⟨?_, rfl⟩
  have g1 := (expr_inv l).reg h1
  obtain ⟨R, k2, k3, -⟩ := hr.int rfl (hs.frame g1) (mem_frame hm g1) h2
  obtain ⟨c0, b, s2, f, rfl, k1, rfl, k4⟩ := hl h1
  have r2 := k2.reg
  have hne : ∀ s r u, o = .reg s r u → r ≠ f := by
    rintro z r u rfl
    have := (k1.res f rfl).1
    have := (k2.res r (k3.regs (by simp [RSpec.opeRegs]))).1
    omega
  have hok := okX_mul (n := n) (t := t) (tl := l.dt) (d := s3.reg + 1) (f := f) (u := l.dt.isUnsigned) k3 e1 e2 e3 hne
  have k5 := k1.op2 (op := .mul) (t := t) (z := len l.dt) (u := l.dt.isUnsigned) (s' := { s3 with reg := s3.reg + 1 }) k2 k3 rfl fun _ => hok
  have S : ∀ k, SU N n k s ((c0 ++ (b ++ c2)) ++ [inst .mul (some (.reg (len t) (s3.reg + 1) t.isUnsigned)) (some (.reg (len l.dt) f l.dt.isUnsigned)) (some o)])
      { s3 with reg := s3.reg + 1 } := by
    intro k
    have := k4 (k := k) (by dsimp only; omega) (SU.of k5)
    simpa using this
  have S0 : SU N n 0 s (c0 ++ (b ++ c2)) s3 := k4 r2 (SU.of (k1.seq k2))
  have k0 : Use n s3 [] { s3 with reg := s3.reg + 1, exprReg := some (len t, s3.reg + 1, t.isUnsigned) } (· = s3.reg + 1) :=
    (Use.nil (n := n) (s := s3) (s' := s3) rfl).bump (by dsimp only; omega) (by rintro v rfl; right; dsimp only; omega)
  refine ⟨(c0 ++ (b ++ c2)) ++ [inst i (some (.reg (len t) (s3.reg + 1) t.isUnsigned)) (some (.reg (len l.dt) f l.dt.isUnsigned)) (some o)], [], s3, s3.reg + 1,
    by simp [len], k0, rfl, ?_⟩
  intro k b3 s4 h4 hb
  exact div_front hN hi S0.reg hok S (fun x hx v hv => (S0.rng x hx v (.inl (eats_reads hv))).2) h4 hb

/-- the difference of two pointers -/
theorem gap_begun {N : Option Nat} (hN : N ≠ none) {n : Nat} {Γ : Types} {t : DType} {l r : SExpr} (hr : GUse n Γ false none r (expr r))
    (e1 : len l.dt = .quad) (e2 : len r.dt = .quad) (e3 : len t = .quad) (e4 : immFits .quad (stride l.dt) = true) {s s' : GState} {c : List Immc} (hs : Rel Γ s) (hm : s.mem ≤ n)
    (hl : ∀ {p c s'}, (expr l).reg s = .ok (p, c, s') → Begun N n s c s' p l.dt) (h : ptrDiffCode t l.dt (expr l) (expr r) s = .ok ((), c, s')) :
    Begun N n s c s' (.reg (len t) s'.reg t.isUnsigned) t ∧ s'.exprReg = some (len t, s'.reg, t.isUnsigned) := by
  obtain ⟨a, c1, s1, o, c2, s3, t', h1, h2, jt, rfl, rfl⟩ := ptrDiffCode_ok h
  refine ⟨?_, rfl⟩
  have g1 := (expr_inv l).reg h1
  obtain ⟨g, rfl, k2, -⟩ := hr.regOf (hs.frame g1) (mem_frame hm g1) h2
  obtain ⟨c0, b, s2, f, rfl, k1, rfl, k4⟩ := hl h1
  have r2 := k2.reg
  have b1 := (k1.res f rfl).1
  have b2 := (k2.res g rfl).1
  have hst : stride l.dt = t'.nbytes := by rw [jt]; rfl
  rw [hst] at e4
  have ne : g ≠ f := by omega
  have m1 : okX n (inst .sub (some (.reg (len t) (s3.reg + 1) t.isUnsigned)) (some (.reg (len l.dt) f l.dt.isUnsigned)) (some (.reg (len r.dt) g r.dt.isUnsigned))) = true := by
    simp [okX, inst, allowed, shapeB, IMach.width, e1, e2, e3, wider_self, pairB, widens_self, destB_self, litFitsB, ne]
  have m2 : okX n (inst .mul (some (.reg (len t) (s3.reg + 1) t.isUnsigned)) (some (.reg (len t) (s3.reg + 1) t.isUnsigned)) (some (intOpe (len t) t'.nbytes))) = true := by
    simp [okX, inst, allowed, shapeB, IMach.width, intOpe, wider_self, pairB, widens_self, widens_int, destB_self, litFitsB, e4, e3]
  have k5 := (k1.seq k2).add (s' := { s3 with reg := s3.reg + 1 }) (R' := (· = s3.reg + 1)) (by dsimp only; omega)
    (x := inst .sub (some (.reg (len t) (s3.reg + 1) t.isUnsigned)) (some (.reg (len l.dt) f l.dt.isUnsigned)) (some (.reg (len r.dt) g r.dt.isUnsigned))) (by
    intro v hv
    rcases hv with hv | hv
    · simp [inst, reads, RSpec.opeRegs] at hv
      exact .inl hv
    · cases hv; right; dsimp only; omega) m1 (by
    rintro v rfl
    refine ⟨.inr (by dsimp only; omega), fun he => ?_⟩
    have := eats_or he
    omega)
  have k6 := k5.add (s' := { s3 with reg := s3.reg + 1 }) (R' := (· = s3.reg + 1)) (by dsimp only; omega)
    (x := inst .mul (some (.reg (len t) (s3.reg + 1) t.isUnsigned)) (some (.reg (len t) (s3.reg + 1) t.isUnsigned)) (some (intOpe (len t) t'.nbytes))) (by
    intro v hv
    rcases hv with hv | hv
    · simp [inst, reads, RSpec.opeRegs, intOpe] at hv
      exact .inl hv
    · cases hv; exact .inl rfl) m2 (fun v hv => ⟨.inl hv, by simp [inst, eats, swallows]⟩)
  have S : ∀ k, SU N n k s ((c0 ++ (b ++ (c2 ++ [inst .sub (some (.reg (len t) (s3.reg + 1) t.isUnsigned)) (some (.reg (len l.dt) f l.dt.isUnsigned)) (some (.reg (len r.dt) g r.dt.isUnsigned))]))) ++
      [inst .mul (some (.reg (len t) (s3.reg + 1) t.isUnsigned)) (some (.reg (len t) (s3.reg + 1) t.isUnsigned)) (some (intOpe (len t) t'.nbytes))]) { s3 with reg := s3.reg + 1 } := by
    intro k
    have := k4 (k := k) (by dsimp only; omega) (SU.of k6)
    simpa using this
  have S0 : SU N n 0 s (c0 ++ (b ++ c2)) s3 := k4 r2 (SU.of (k1.seq k2))
  have k0 : Use n s3 [] { s3 with reg := s3.reg + 1, exprReg := some (len t, s3.reg + 1, t.isUnsigned) } (· = s3.reg + 1) :=
    (Use.nil (n := n) (s := s3) (s' := s3) rfl).bump (by dsimp only; omega) (by rintro v rfl; right; dsimp only; omega)
  refine ⟨(c0 ++ (b ++ (c2 ++ [inst .sub (some (.reg (len t) (s3.reg + 1) t.isUnsigned)) (some (.reg (len l.dt) f l.dt.isUnsigned)) (some (.reg (len r.dt) g r.dt.isUnsigned))]))) ++
    [inst .div (some (.reg (len t) (s3.reg + 1) t.isUnsigned)) (some (.reg (len t) (s3.reg + 1) t.isUnsigned)) (some (intOpe (len t) t'.nbytes))], [], s3, s3.reg + 1,
    by simp [len], k0, rfl, ?_⟩
  intro k b3 s4 h4 hb
  refine div_front hN (.inl rfl) S0.reg m2 S ?_ h4 hb
  intro x hx v hv
  have hx : x ∈ c0 ++ (b ++ c2) ∨ x = inst .sub (some (.reg (len t) (s3.reg + 1) t.isUnsigned)) (some (.reg (len l.dt) f l.dt.isUnsigned)) (some (.reg (len r.dt) g r.dt.isUnsigned)) := by
    simpa [or_assoc] using hx
  rcases hx with hx | rfl
  · exact (S0.rng x hx v (.inl (eats_reads hv))).2
  · have := eats_or hv
    omega

theorem gap_ops {op : SBin} {t : DType} {l r : SExpr} (h : gap op t l r = true) :
    (∀ x y, binCode op t l.dt x y = ptrDiffCode t l.dt x y) ∧ (∀ d, cjmp op d = none) ∧ len l.dt = .quad ∧ len r.dt = .quad ∧ len t = .quad ∧ immFits .quad (stride l.dt) = true := by
  simp only [gap, Bool.and_eq_true, decide_eq_true_eq] at h
  obtain ⟨⟨⟨⟨rfl, h1⟩, h2⟩, h3⟩, h4⟩ := h
  exact ⟨fun _ _ => rfl, fun _ => rfl, h1, h2, h3, h4⟩

theorem quotient_ops {op : SBin} {t : DType} {l r : SExpr} (h : quotient op t l r = true) :
    (binOp op = .div ∨ binOp op = .mod) ∧ (∀ x y, binCode op t l.dt x y = arithCode (binOp op) t x y) ∧ (∀ d, cjmp op d = none) ∧ len l.dt = len r.dt ∧ len t = len l.dt ∧ len l.dt ≠ .byte := by
  simp only [quotient, Bool.and_eq_true, Bool.or_eq_true, decide_eq_true_eq] at h
  obtain ⟨⟨⟨h1, h2⟩, h3⟩, h4⟩ := h
  rcases h1 with rfl | rfl <;> exact ⟨by simp [binOp], fun _ _ => rfl, fun _ => rfl, h2, h3, h4⟩

/-- the last argument begins with a call -/
theorem Begun.arg {N : Option Nat} {M n T i : Nat} {s s' : GState} {c : List Immc} {p : Ope} {t : DType} {sf : Sfx} {u : Bool} (h : Begun N n s c s' p t) (hN : N = some M) (hM : T ≤ M)
    (hi : i + 1 = T) (hstr : ∀ x ∈ c, Straight x) (he : even T = true) : ArgsOk N n T 1 s (c ++ [inst .starg (some (.arg sf i u)) (some p) none]) s' := by
  obtain ⟨c0, b, s2, r, rfl, k1, rfl, k2⟩ := h
  have hz : zext t t = false := by
    unfold zext
    cases len t <;> simp
  have k3 := k1.load (t := t) (o := .reg (len t) r t.isUnsigned) (s' := { s' with reg := s'.reg + 1 }) rfl (by simp [RSpec.opeRegs]) (okX_conv hz)
  have S : SU N n 0 s ((c0 ++ b) ++ [Gen.load (.reg (len t) (s'.reg + 1) t.isUnsigned) (.reg (len t) r t.isUnsigned)]) { s' with reg := s'.reg + 1 } := by
    rw [List.append_assoc]
    exact k2 (by dsimp only; omega) (SU.of k3)
  have S' : SU N n 0 s (c0 ++ b) s' := k2 (Int.le_refl _) (SU.of k1)
  have hrr : r ∈ reads (Gen.load (.reg (len t) (s'.reg + 1) t.isUnsigned) (.reg (len t) r t.isUnsigned)) := by simp [Gen.load, inst, reads, RSpec.opeRegs]
  have hr1 : s.reg < r := (S.rng _ (by simp) r (.inl hrr)).1
  have hr2 : r ≤ s'.reg := (k1.res r rfl).1.2
  generalize hC : c0 ++ b = C at *
  have hnot : ∀ x ∈ C, eats x ≠ some r := by
    intro x hx e
    exact (List.pairwise_append.1 S.solo).2.2 x hx _ (List.mem_singleton.2 rfl) r e hrr
  have hret : ∀ x ∈ C, okS n x = true → okX n x = true := by
    intro x hx h
    cases hok : okX n x with
    | true => rfl
    | false =>
      simp only [okS, hok, Bool.false_or] at h
      unfold sets at h
      split at h
      · obtain ⟨j, hj⟩ := List.getElem?_of_mem hx
        have := S'.rets j _ _ _ hj
        exact absurd (hstr _ (List.mem_of_getElem? this)).1 nofun
      · cases h
  have hheld : heldAll [⟨T, 0, false⟩] = 0 := by
    simp only [even, Bool.or_eq_true, decide_eq_true_eq] at he
    simp only [heldAll, Prep.held]
    simp
    omega
  have hsc : ∀ a b, C = a ++ b → scan [⟨T, 0, false⟩] a = scan [] a ++ [⟨T, 0, false⟩] := by
    intro a b e
    have := scan_base (n := n) [⟨T, 0, false⟩] [] a fun a1 x b1 e1 => (S'.spot a1 x (b1 ++ b) (by rw [e, e1]; simp)).shape.imp_right (·.2)
    exact this
  have hall : scan [⟨T, 0, false⟩] C = [⟨T, 0, false⟩] := by
    rw [hsc C [] (by simp), S'.zero]; rfl
  have htouch : ∀ v, Touch (inst .starg (some (.arg sf i u)) (some (.reg (len t) r t.isUnsigned)) none) v → v = r := by
    rintro v (hv | hv)
    · simpa [inst, reads, RSpec.opeRegs] using hv
    · cases hv
  refine ⟨⟨S'.reg, ?_, ?_⟩, ?_, ?_⟩
  · intro x hx v hv
    rcases List.mem_append.1 hx with hx | hx
    · exact S'.rng x hx v hv
    · cases List.mem_singleton.1 hx
      cases htouch v hv
      exact ⟨hr1, hr2⟩
  · refine List.pairwise_append.2 ⟨S'.solo, List.pairwise_singleton .., ?_⟩
    intro x hx y hy v he hv
    cases List.mem_singleton.1 hy
    cases htouch v (.inl hv)
    exact hnot x hx he
  · rw [scan_append, hall]; rfl
  · intro a x b' e
    rcases split_app e with ⟨b1, e1, rfl⟩ | ⟨a1, e1, rfl⟩
    · have hx : x ∈ C := by rw [e1]; simp
      have q := S.spot a x (b1 ++ [Gen.load (.reg (len t) (s'.reg + 1) t.isUnsigned) (.reg (len t) r t.isUnsigned)]) (by rw [e1]; simp)
      rw [hsc a _ e1]
      refine ⟨?_, hstr x hx, ?_, fun j ej hc => ?_⟩
      · exact q.shape.imp (hret x hx) fun h => ⟨h.1, h.2.base hheld⟩
      · rw [heldAll_append, hheld]; exact q.held
      · obtain ⟨m, m1, m2, m3, m5, m6⟩ := q.cut j ej hc
        have hm : m < r := m6 _ (by simp) r hrr
        refine ⟨m, m1, by omega, m3, m5, ?_⟩
        intro y hy v hv
        rcases List.mem_append.1 hy with hy | hy
        · exact m6 y (by simp [hy]) v hv
        · cases List.mem_singleton.1 hy
          cases htouch v (.inl hv)
          exact hm
    · cases a1 with
      | cons z a1 => simp at e1
      | nil =>
        simp only [List.nil_append, List.cons.injEq] at e1
        obtain ⟨rfl, -⟩ := e1
        rw [List.append_nil, hall]
        exact .quiet (T := T) (k := 0) (.inr ⟨_, rfl, rfl, starg_part (o := .reg (len t) r t.isUnsigned) (by omega) (by omega) trivial⟩) ⟨rfl, rfl⟩ hN (by omega) hM rfl

mutual
/-- a value that begins with a call is in a register, and other code can follow -/
theorem callVal_use {n : Nat} {N : Option Nat} : ∀ (e : SExpr) {Γ : Types} {o : Option DType}, callVal N Γ o e = true → ∀ {s p c s'}, Rel Γ s → s.mem ≤ n → (expr e).int o s = .ok (p, c, s') →
    Begun N n s c s' p (o.getD e.dt)
  | .call t f as, Γ, o, hp, s, p, c, s', hs, hm, h => by
    simp only [callVal, Bool.and_eq_true, Bool.not_eq_true', decide_eq_true_eq] at hp
    obtain ⟨⟨⟨⟨hp, hq⟩, hv⟩, hl⟩, hc⟩ := hp
    rw [expr] at h
    simp only [G.plain, G.of, bind_ok] at h
    obtain ⟨_, c1, s1, c2, ha, hb, rfl⟩ := h
    cases N with
    | none => simp [callee, few] at hp
    | some M =>
      obtain ⟨s2, h1, h2, h3⟩ := call_use hp (fun hs hm h => args_use as hq (callee_few hp) (by omega) hs hm h) (.inr hl) hs hm ha
      obtain ⟨h2, h4⟩ := h2 hv
      have k0 : Use n s2 [] s1 (· = s2.reg + 1) := (Use.nil (n := n) (s := s2) (s' := s2) rfl).bump (by omega) (by rintro v rfl; right; omega)
      have k1 : Begun (some M) n s c1 s1 (.reg (len t) (s2.reg + 1) t.isUnsigned) t := ⟨c1, [], s2, _, by simp, k0, rfl, fun h5 h6 => h3 h5 h6⟩
      exact k1.conv (by rintro _ _ _ ⟨⟩; exact h2) hc hb
  | .bin op t l r, Γ, o, hp, s, p, c, s', hs, hm, h => by
    simp only [callVal, Bool.and_eq_true, Bool.or_eq_true, decide_eq_true_eq] at hp
    obtain ⟨⟨⟨⟨p1, p2⟩, p4⟩, p6⟩, p3⟩ := hp
    rw [expr] at h
    simp only [G.bin, G.plain, G.of, bind_ok] at h
    obtain ⟨_, c1, s1, c2, ha, hb, rfl⟩ := h
    rcases p3 with ⟨p3, p5⟩ | ⟨⟨p3, p5⟩, p7⟩
    rotate_left
    · have hl : ∀ {p c s'}, (expr l).reg s = .ok (p, c, s') → Begun N n s c s' p l.dt := by
        intro p c s' h
        rcases p7 with p7 | p7
        · exact Begun.reg (fun h => callVal_use l p7 hs hm h) h
        · obtain ⟨f, rfl, k1, -⟩ := (expr_use n l p7).regOf hs hm h
          exact .of k1
      have hN : N ≠ none := by rintro rfl; cases p3
      rcases p5 with p5 | p5
      · obtain ⟨q1, q2, -, q3, q4, q5⟩ := quotient_ops p5
        rw [q2] at ha
        obtain ⟨k1, k2⟩ := quot_begun hN q1 (expr_use n r p4) q3 q4 q5 hs hm hl ha
        exact k1.conv (by rintro _ _ _ ⟨⟩; exact k2) p6 hb
      · obtain ⟨q1, -, q2, q3, q4, q5⟩ := gap_ops p5
        rw [q1] at ha
        obtain ⟨k1, k2⟩ := gap_begun hN (expr_use n r p4) q2 q3 q4 q5 hs hm hl ha
        exact k1.conv (by rintro _ _ _ ⟨⟩; exact k2) p6 hb
    obtain ⟨a, d1, t1, d', h1, rfl, h2, h3⟩ := (bin_later ⟨p1, p2⟩ (expr_use n r p4) p4 p5).1 hs hm ha
    obtain ⟨c0, b, s2, f, rfl, k1, rfl, k2⟩ := Begun.reg (fun h => callVal_use l p3 hs hm h) h1
    obtain ⟨h4, h5⟩ := h3 rfl k1
    have k3 : Begun N n s ((c0 ++ b) ++ d') s1 (.reg (len t) s1.reg t.isUnsigned) t := ⟨c0, _, s2, _, List.append_assoc .., h5, rfl, k2.mono h2⟩
    exact k3.conv (by rintro _ _ _ ⟨⟩; exact h4) p6 hb
  | .un .neg t e, Γ, o, hp, s, p, c, s', hs, hm, h => by
    simp only [callVal, Bool.and_eq_true, decide_eq_true_eq] at hp
    rw [expr] at h
    simp only [G.plain, G.of, bind_ok] at h
    obtain ⟨_, c1, s1, c2, ha, hb, rfl⟩ := h
    obtain ⟨k1, k2⟩ := un_begun (.inl rfl) (fun h => callVal_use e hp.1.1 hs hm h) hp.1.2 ha
    exact k1.conv (by rintro _ _ _ ⟨⟩; exact k2) hp.2 hb
  | .un .not t e, Γ, o, hp, s, p, c, s', hs, hm, h => by
    simp only [callVal, Bool.and_eq_true, decide_eq_true_eq] at hp
    rw [expr] at h
    simp only [G.plain, G.of, bind_ok] at h
    obtain ⟨_, c1, s1, c2, ha, hb, rfl⟩ := h
    obtain ⟨k1, k2⟩ := un_begun (.inr rfl) (fun h => callVal_use e hp.1.1 hs hm h) hp.1.2 ha
    exact k1.conv (by rintro _ _ _ ⟨⟩; exact k2) hp.2 hb
  | .un .cast t e, Γ, o, hp, s, p, c, s', hs, hm, h => by
    rw [expr] at h
    rw [callVal] at hp
    exact callVal_use e (o := some (o.getD t)) hp hs hm h
  | .ident .., _, _, hp, _, _, _, _, _, _, _ | .str .., _, _, hp, _, _, _, _, _, _, _
  | .cond .., _, _, hp, _, _, _, _, _, _, _ | .ilit .., _, _, hp, _, _, _, _, _, _, _ | .tomember .., _, _, hp, _, _, _, _, _, _, _
  | .un .addr .., _, _, hp, _, _, _, _, _, _, _ | .un .preinc .., _, _, hp, _, _, _, _, _, _, _ | .un .predec .., _, _, hp, _, _, _, _, _, _, _
  | .un .postinc .., _, _, hp, _, _, _, _, _, _, _ | .un .postdec .., _, _, hp, _, _, _, _, _, _, _ | .un .indir .., _, _, hp, _, _, _, _, _, _, _
  | .un .pos .., _, _, hp, _, _, _, _, _, _, _
  | .un .lnot .., _, _, hp, _, _, _, _, _, _, _ => by simp [callVal] at hp
/-- the last arguments of a call -/
theorem args_use {n : Nat} {N : Option Nat} : ∀ (as : SArgs) {T i : Nat} {Γ : Types} {s s' : GState} {c : List Immc}, callArgs N Γ T as = true → (∃ M, N = some M ∧ T ≤ M) →
    i + argCount as = T → Rel Γ s → s.mem ≤ n → argsCode i (args as) s = .ok ((), c, s') → ArgsOk N n T (argCount as) s c s' ∧ Rel Γ s' ∧ s'.mem ≤ n
  | .nil, T, i, Γ, s, s', c, hp, hM, hT, hs, hm, h => by
    simp only [args, argsCode] at h
    obtain ⟨-, rfl, rfl⟩ := pure_ok.1 h
    exact ⟨⟨⟨Int.le_refl _, by simp, .nil⟩, rfl, by simp⟩, hs, hm⟩
  | .cons e as, T, i, Γ, s, s', c, hp, hM, hT, hs, hm, h => by
    simp only [args] at h
    obtain ⟨c1, s1, o, c2, h1, h2, rfl⟩ := argsCode_ok h
    simp only [callArgs, Bool.and_eq_true, Bool.or_eq_true] at hp
    simp only [argCount] at hT ⊢
    obtain ⟨a1, a2, a3⟩ := args_use as (i := i + 1) (T := T) hp.2 hM (by omega) hs hm h1
    have g := (expr_inv e).int h2
    obtain ⟨M, hN, hM⟩ := hM
    refine ⟨?_, a2.frame g, mem_frame a3 g⟩
    rcases hp.1 with ⟨⟨p1, p2⟩, p3⟩ | ⟨⟨⟨p1, p2⟩, p3⟩, p4⟩
    · obtain ⟨R, k1, k2, -⟩ := (expr_use n e p1).int rfl a2 a3 h2
      exact a1.plain hN hM (by omega) k1 ((expr_flat e p2).int none _ _ _ _ h2).1 (fun v hv => k2.regs hv) (push_ope p1 p3 h2)
    · cases as with
      | cons _ _ => cases p1
      | nil =>
        simp only [args, argsCode] at h1
        obtain ⟨-, rfl, rfl⟩ := pure_ok.1 h1
        simp only [argCount, List.nil_append] at hT ⊢
        exact (callVal_use e p3 hs hm h2).arg hN hM (by omega) ((expr_flat e p4).int none _ _ _ _ h2).1 p2
end

/-- a value that begins with a call jumps on its register -/
theorem callVal_jmp {n : Nat} {N : Option Nat} : ∀ (e : SExpr) {Γ : Types} {o : Option DType}, callVal N Γ o e = true → ∀ d, (expr e).jmp d = jmpZero (expr e).reg d
  | .call t f as, Γ, o, hp, d => by rw [expr]; rfl
  | .bin op t l r, Γ, o, hp, d => by
    simp only [callVal, Bool.and_eq_true, Bool.or_eq_true, decide_eq_true_eq] at hp
    obtain ⟨⟨⟨⟨p1, p2⟩, p4⟩, p6⟩, p3⟩ := hp
    have : cjmp op d = none := by
      rcases p3 with ⟨p3, p5⟩ | ⟨⟨p3, p5⟩, p7⟩
      · exact (bin_later (n := n) ⟨p1, p2⟩ (expr_use n r p4) p4 p5).2 d
      · rcases p5 with p5 | p5
        · exact (quotient_ops p5).2.2.1 d
        · exact (gap_ops p5).2.1 d
    rw [expr]
    simp only [G.bin, this]
    rfl
  | .un .cast t e, Γ, o, hp, d => by rw [expr]; rfl
  | .un .neg t e, Γ, o, hp, d => by rw [expr]; rfl
  | .un .not t e, Γ, o, hp, d => by rw [expr]; rfl
  | .ident .., _, _, hp, _ | .str .., _, _, hp, _ | .cond .., _, _, hp, _ | .ilit .., _, _, hp, _ | .tomember .., _, _, hp, _
  | .un .addr .., _, _, hp, _ | .un .preinc .., _, _, hp, _ | .un .predec .., _, _, hp, _ | .un .postinc .., _, _, hp, _ | .un .postdec .., _, _, hp, _ | .un .indir .., _, _, hp, _
  | .un .pos .., _, _, hp, _ | .un .lnot .., _, _, hp, _ => by simp [callVal] at hp

theorem callVal_reg {n : Nat} {N : Option Nat} {e : SExpr} {Γ : Types} (hp : callVal N Γ none e = true) {s s' : GState} {p : Ope} {c : List Immc} (hs : Rel Γ s) (hm : s.mem ≤ n)
    (h : (expr e).reg s = .ok (p, c, s')) : Begun N n s c s' p e.dt := Begun.reg (fun h => callVal_use e hp hs hm h) h

end Plain
end Umlcc
