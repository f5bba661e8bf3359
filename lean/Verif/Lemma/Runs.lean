import Verif.Lemma.Immcgen
import Verif.Spec.Translatable
/-!
Exactly when the generating functions for expressions succeed.
-/
namespace Umlcc
namespace Gen
open Tr (Names Sym fits fitsArgs isCast hasMember membersIn namesOf declared)

/-- `m` succeeds in `s` exactly if `b`, and then with `P` -/
def Runs (m : GM α) (s : GState) (b : Bool) (P : α → GState → Prop) : Prop :=
  (b = true → ∃ a c s', m s = .ok (a, c, s') ∧ P a s') ∧ (b = false → ∀ x, m s ≠ .ok x)

namespace Runs

theorem bind {m : GM α} {f : α → GM β} {s : GState} {b1 b2 : Bool} {P : α → GState → Prop} {Q : β → GState → Prop}
    (h : Runs m s b1 P) (k : ∀ a s', P a s' → Runs (f a) s' b2 Q) : Runs (m >>= f) s (b1 && b2) Q := by
  constructor
  · intro hb
    simp only [Bool.and_eq_true] at hb
    obtain ⟨a, c, s', h1, hp⟩ := h.1 hb.1
    obtain ⟨b, c', s'', h2, hq⟩ := (k a s' hp).1 hb.2
    exact ⟨b, c ++ c', s'', bind_ok.2 ⟨_, _, _, _, h1, h2, rfl⟩, hq⟩
  · intro hb x hx
    obtain ⟨y, c, s'⟩ := x
    obtain ⟨a, c1, s1, c2, h1, h2, -⟩ := bind_ok.1 hx
    cases b1 with
    | false => exact h.2 rfl _ h1
    | true =>
      obtain ⟨a', c', s2, h3, hp⟩ := h.1 rfl
      rw [h1] at h3
      cases h3
      exact (k a s1 hp).2 (by simpa using hb) _ h2

theorem pure {a : α} {s : GState} {P : α → GState → Prop} (h : P a s) : Runs (pure a : GM α) s true P :=
  ⟨fun _ => ⟨a, [], s, rfl, h⟩, nofun⟩

theorem get {s : GState} {P : GState → GState → Prop} (h : P s s) : Runs get s true P := ⟨fun _ => ⟨s, [], s, rfl, h⟩, nofun⟩

theorem modify {f : GState → GState} {s : GState} {P : Unit → GState → Prop} (h : P () (f s)) : Runs (Gen.modify f) s true P :=
  ⟨fun _ => ⟨(), [], f s, rfl, h⟩, nofun⟩

theorem emit {x : Immc} {s : GState} {P : Unit → GState → Prop} (h : P () s) : Runs (Gen.emit x) s true P := ⟨fun _ => ⟨(), [x], s, rfl, h⟩, nofun⟩

theorem emits {x : List Immc} {s : GState} {P : Unit → GState → Prop} (h : P () s) : Runs (Gen.emits x) s true P := ⟨fun _ => ⟨(), x, s, rfl, h⟩, nofun⟩

theorem ub {s : GState} {P : α → GState → Prop} : Runs (Gen.ub : GM α) s false P := ⟨nofun, fun _ _ h => nomatch h⟩
theorem fatal {s : GState} {P : α → GState → Prop} : Runs (Gen.fatal : GM α) s false P := ⟨nofun, fun _ _ h => nomatch h⟩

theorem mono {m : GM α} {s : GState} {b : Bool} {P Q : α → GState → Prop} (h : Runs m s b P) (k : ∀ a s', P a s' → Q a s') : Runs m s b Q :=
  ⟨fun hb => let ⟨a, c, s', h1, hp⟩ := h.1 hb; ⟨a, c, s', h1, k _ _ hp⟩, h.2⟩

theorem cast {m : GM α} {s : GState} {b b' : Bool} {P : α → GState → Prop} (h : Runs m s b P) (e : b = b') : Runs m s b' P := e ▸ h

/-- a first part that always succeeds -/
theorem seq {m : GM α} {f : α → GM β} {s : GState} {b : Bool} {P : α → GState → Prop} {Q : β → GState → Prop}
    (h : Runs m s true P) (k : ∀ a s', P a s' → Runs (f a) s' b Q) : Runs (m >>= f) s b Q := (h.bind k).cast (by simp)

/-- a last part that always succeeds -/
theorem last {m : GM α} {f : α → GM β} {s : GState} {b : Bool} {P : α → GState → Prop} {Q : β → GState → Prop}
    (h : Runs m s b P) (k : ∀ a s', P a s' → Runs (f a) s' true Q) : Runs (m >>= f) s b Q := (h.bind k).cast (by simp)

theorem capture {m : GM α} {s : GState} {b : Bool} {P : α → GState → Prop} (h : Runs m s b P) : Runs (Gen.capture m) s b (fun x => P x.1) := by
  constructor
  · intro hb
    obtain ⟨a, c, s', h1, hp⟩ := h.1 hb
    exact ⟨(a, c), [], s', by simp [Gen.capture, h1], hp⟩
  · intro hb x hx
    have := h.2 hb
    unfold Gen.capture at hx
    split at hx <;> try cases hx
    exact this _ (by assumption)

end Runs

/-- nothing changes that the success of later parts depends on -/
structure Keeps (s s' : GState) : Prop where
  syms : s'.syms = s.syms
  tags : s'.tags = s.tags
  cases : s'.cases = s.cases

theorem Keeps.refl {s : GState} : Keeps s s := ⟨rfl, rfl, rfl⟩
theorem Keeps.trans {s s1 s2 : GState} (h : Keeps s s1) (k : Keeps s1 s2) : Keeps s s2 :=
  ⟨k.syms.trans h.syms, k.tags.trans h.tags, k.cases.trans h.cases⟩

def symOf (y : GSym) : Sym := ⟨match y.loc with | .label => true | .mem _ => false, y.dt⟩
def namesIn : DType → List (Str × DType)
  | .ustruct ms _ _ => namesOf ms
  | _ => []

/-- the tables of the generator are what is visible -/
structure Sees (Γ : Names) (s : GState) : Prop where
  syms : s.syms.map (·.map fun p => (p.1, symOf p.2)) = Γ.syms
  tags : s.tags.map (·.map fun p => (p.1, namesIn p.2)) = Γ.tags
  known : ∀ sc ∈ s.tags, ∀ p ∈ sc, ∃ ms b a, p.2 = .ustruct ms b a

theorem Sees.keep {Γ : Names} {s s' : GState} (h : Sees Γ s) (k : Keeps s s') : Sees Γ s' := by
  obtain ⟨k1, k2, -⟩ := k
  exact ⟨by rw [k1]; exact h.syms, by rw [k2]; exact h.tags, by rw [k2]; exact h.known⟩

theorem lookup_map {f : α → β} (n : Str) : ∀ l : List (Str × α), (l.map fun p => (p.1, f p.2)).lookup n = (l.lookup n).map f
  | [] => rfl
  | (m, x) :: l => by
    simp only [List.map_cons, List.lookup_cons, lookup_map n l]
    cases n == m <;> rfl

theorem find_map {f : α → β} (n : Str) : ∀ l : List (List (Str × α)), Tr.find n (l.map (·.map fun p => (p.1, f p.2))) = (lookup n l).map f
  | [] => rfl
  | sc :: l => by
    simp only [List.map_cons, Tr.find, lookup, lookup_map, find_map n l]
    cases sc.lookup n <;> rfl

theorem lookup_mem {n : Str} {x : α} : ∀ {l : List (List (Str × α))}, lookup n l = some x → ∃ sc ∈ l, (n, x) ∈ sc
  | [], h => by simp [lookup] at h
  | sc :: l, h => by
    simp only [lookup] at h
    cases hs : sc.lookup n with
    | some y =>
      rw [hs] at h
      cases h
      exact ⟨sc, by simp, by
        clear l
        induction sc with
        | nil => simp at hs
        | cons p sc ih =>
          obtain ⟨m, z⟩ := p
          rw [List.lookup_cons] at hs
          cases e : n == m with
          | true => rw [e] at hs; cases hs; rw [eq_of_beq e]; simp
          | false => rw [e] at hs; exact List.mem_cons_of_mem _ (ih hs)⟩
    | none =>
      rw [hs] at h
      obtain ⟨sc', h1, h2⟩ := lookup_mem h
      exact ⟨sc', List.mem_cons_of_mem _ h1, h2⟩

theorem newReg_runs {s : GState} : Runs newReg s true fun _ s' => s' = { s with reg := s.reg + 1 } :=
  ⟨fun _ => ⟨s.reg + 1, [], _, rfl, rfl⟩, nofun⟩

theorem newLabel_runs {s : GState} : Runs newLabel s true fun i s' => s' = { s with lab := s.lab + 1 } ∧ i = s.lab + 1 :=
  ⟨fun _ => ⟨s.lab + 1, [], _, rfl, rfl, rfl⟩, nofun⟩

/-- an operand that is a register -/
def IsReg : Ope → Prop
  | .reg _ _ _ => True
  | _ => False

def IsVal : Ope → Prop
  | .reg _ _ _ | .int _ _ => True
  | _ => False

theorem destReg_runs {t : DType} {s : GState} : Runs (destReg t) s true fun o s' => IsReg o ∧ Keeps s s' :=
  newReg_runs.seq fun _ _ h => .pure ⟨trivial, by subst h; exact ⟨rfl, rfl, rfl⟩⟩

theorem setExpr_runs {o : Ope} {s : GState} (h : IsReg o) : Runs (setExpr o) s true fun _ s' => Keeps s s' ∧ s'.exprReg.isSome = true := by
  cases o <;> simp only [IsReg] at h
  exact Runs.modify ⟨⟨rfl, rfl, rfl⟩, rfl⟩

theorem setVoid_runs {s : GState} : Runs setVoid s true fun _ s' => Keeps s s' ∧ s'.exprReg.isSome = false := Runs.modify ⟨⟨rfl, rfl, rfl⟩, rfl⟩

theorem exprOpe_runs {s : GState} : Runs exprOpe s s.exprReg.isSome fun o s' => IsReg o ∧ s' = s := by
  refine Runs.seq (P := fun x s' => x = s ∧ s' = s) (.get ⟨rfl, rfl⟩) ?_
  rintro a s' ⟨rfl, rfl⟩
  cases h : s'.exprReg with
  | none => exact .ub
  | some x => exact .pure ⟨trivial, rfl⟩

/-- A child expression in the ways its parents use it: `b1` tells whether its code can be generated, `b2` whether its value can be used, `v` whether the code leaves one. -/
structure GT (g : G) (Γ : Names) (b1 b2 v : Bool) : Prop where
  code : ∀ s, Sees Γ s → Runs g.code s b1 fun _ s' => Keeps s s' ∧ s'.exprReg.isSome = v
  int : ∀ c s, Sees Γ s → Runs (g.int c) s b2 fun o s' => IsVal o ∧ Keeps s s'
  ptr : ∀ s, Sees Γ s → Runs g.ptr s b1 fun _ s' => Keeps s s'
  jmp : ∀ b s, Sees Γ s → Runs (g.jmp b) s b2 fun _ s' => Keeps s s'

theorem reg_runs {g : G} {b : Bool} {s : GState} (h : Runs (g.int none) s b fun o s' => IsVal o ∧ Keeps s s') :
    Runs g.reg s b fun o s' => IsReg o ∧ Keeps s s' := by
  refine h.last ?_
  rintro o s1 ⟨ho, k⟩
  cases o <;> simp only [IsVal] at ho
  · exact .pure ⟨trivial, k⟩
  · refine newReg_runs.seq ?_
    rintro r s2 rfl
    exact Runs.seq (P := fun _ s' => Keeps s s') (.emit ⟨k.1, k.2, k.3⟩) fun _ _ h => .pure ⟨trivial, h⟩

theorem GT.reg {g : G} {Γ : Names} {b1 b2 v : Bool} (h : GT g Γ b1 b2 v) (s : GState) (hs : Sees Γ s) : Runs g.reg s b2 fun o s' => IsReg o ∧ Keeps s s' :=
  reg_runs (h.int none s hs)

theorem jmpZero_runs {reg : GM Ope} {b : Bool} {p : Bool} {s : GState} (h : Runs reg s p fun o s' => IsReg o ∧ Keeps s s') :
    Runs (jmpZero reg b) s p fun _ s' => Keeps s s' := by
  refine h.last ?_
  rintro o s1 ⟨ho, k⟩
  cases o <;> simp only [IsReg] at ho
  exact .pure k

theorem ptrOf_runs {code : GM Unit} {b : Bool} {s : GState} {P : Unit → GState → Prop} (h : Runs code s b fun a s' => Keeps s s' ∧ P a s') :
    Runs (ptrOf code) s b fun _ s' => Keeps s s' := by
  refine h.last ?_
  rintro _ s1 ⟨k, -⟩
  exact Runs.seq (P := fun _ s' => s' = s1) (.get rfl) fun _ _ h => .pure (h ▸ k)

theorem GT.of {code : GM Unit} {int : Option DType → GM Ope} {Γ : Names} {b1 b2 v : Bool}
    (hc : ∀ s, Sees Γ s → Runs code s b1 fun _ s' => Keeps s s' ∧ s'.exprReg.isSome = v)
    (hi : ∀ c s, Sees Γ s → Runs (int c) s b2 fun o s' => IsVal o ∧ Keeps s s') : GT (G.of code int) Γ b1 b2 v :=
  ⟨hc, hi, fun s hs => ptrOf_runs (hc s hs), fun _ s hs => jmpZero_runs (reg_runs (hi none s hs))⟩

theorem castReg_runs {c : Option DType} {s : GState} : Runs (castReg c) s s.exprReg.isSome fun o s' => IsVal o ∧ Keeps s s' := by
  refine exprOpe_runs.last ?_
  rintro o s' ⟨ho, rfl⟩
  cases o <;> simp only [IsReg] at ho
  cases c with
  | none => exact .pure ⟨trivial, Keeps.refl⟩
  | some t =>
    refine destReg_runs.seq ?_
    rintro d s2 ⟨hd, k⟩
    cases d <;> simp only [IsReg] at hd
    exact Runs.seq (P := fun _ s3 => s3 = s2) (.emit rfl) fun _ _ h => .pure ⟨trivial, h ▸ k⟩

theorem GT.plain {code : GM Unit} {Γ : Names} {b v : Bool}
    (hc : ∀ s, Sees Γ s → Runs code s b fun _ s' => Keeps s s' ∧ s'.exprReg.isSome = v) : GT (G.plain code) Γ b (b && v) v :=
  GT.of hc fun _ s hs => (hc s hs).bind fun _ _ ⟨k, hv⟩ => (castReg_runs.cast hv).mono fun _ _ h => ⟨h.1, k.trans h.2⟩

/-! ### the code of each kind of expression -/

theorem emit_keeps {s s1 : GState} {x : Immc} (k : Keeps s s1) : Runs (Gen.emit x) s1 true fun _ s' => Keeps s s' := .emit k

theorem nameOf_runs {n : Str} {s : GState} : Runs (nameOf n) s (Tr.ascii n) fun m s' => m.1 = n ∧ s' = s := by
  unfold nameOf Tr.ascii
  by_cases h : ∀ b ∈ n, b.toNat < 128
  · rw [show (n.all fun b => decide (b.toNat < 128)) = true by simpa using h]
    exact ⟨fun _ => ⟨⟨n, h⟩, [], s, dif_pos h, rfl, rfl⟩, nofun⟩
  · rw [show (n.all fun b => decide (b.toNat < 128)) = false by rw [← Bool.not_eq_true]; simpa using h]
    exact ⟨nofun, fun _ x hx => by simp [h] at hx⟩

theorem symOpe_runs {Γ : Names} {n : Str} {s : GState} (hs : Sees Γ s) : Runs (symOpe n) s (declared Γ n) fun _ s' => s' = s := by
  refine Runs.seq (P := fun x s' => x = s ∧ s' = s) (.get ⟨rfl, rfl⟩) ?_
  rintro a s' ⟨rfl, rfl⟩
  have e : Tr.find n Γ.syms = (lookup n s'.syms).map symOf := by rw [← hs.syms, find_map]
  unfold declared
  rw [e]
  cases h : lookup n s'.syms with
  | none => exact .ub
  | some y =>
    obtain ⟨l, t⟩ := y
    cases l with
    | label => exact ((nameOf_runs.last fun _ _ h => .pure h.2).cast (by simp [symOf]))
    | mem o => exact Runs.cast (b := true) (.pure rfl) (by simp [symOf])

section
variable {Γ : Names} {b1 b2 v p1 p2 pv c1 c2 cv : Bool} {g l r c : G} {s : GState}

theorem assign_runs (hl : GT l Γ b1 b2 v) (hr : GT r Γ p1 p2 pv) (hs : Sees Γ s) :
    Runs (assignCode l r) s (p2 && b1) fun _ s' => Keeps s s' ∧ s'.exprReg.isSome = true := by
  refine (hr.reg s hs).bind ?_
  rintro src s1 ⟨hr, k1⟩
  refine (hl.ptr s1 (hs.keep k1)).last ?_
  intro dst s2 k2
  refine (emit_keeps (k1.trans k2)).seq ?_
  intro _ s3 k3
  exact (setExpr_runs hr).mono fun _ _ h => ⟨k3.trans h.1, h.2⟩

theorem cond_runs {t : DType} (hc : GT c Γ c1 c2 cv) (hl : GT l Γ b1 b2 v) (hr : GT r Γ p1 p2 pv) (hs : Sees Γ s) :
    Runs (condCode t c l r) s (c2 && b2 && p2) fun _ s' => Keeps s s' ∧ s'.exprReg.isSome = true := by
  refine Runs.cast (b := c2 && (b2 && p2)) ?_ (by rw [Bool.and_assoc])
  refine newLabel_runs.seq ?_
  rintro n1 s1 ⟨rfl, -⟩
  refine newLabel_runs.seq ?_
  rintro n2 s2 ⟨rfl, -⟩
  have k : Keeps s { s with lab := s.lab + 1 + 1 } := ⟨rfl, rfl, rfl⟩
  refine (hc.jmp false _ (hs.keep k)).bind ?_
  intro j s3 k3
  refine (emit_keeps (k.trans k3)).seq ?_
  intro _ s4 k4
  refine destReg_runs.seq ?_
  rintro d s5 ⟨hd, k5⟩
  have k5 := k4.trans k5
  refine (hl.reg s5 (hs.keep k5)).bind ?_
  rintro src s6 ⟨-, k6⟩
  refine (emit_keeps (k5.trans k6)).seq fun _ s7 k7 => ?_
  refine (emit_keeps k7).seq fun _ s8 k8 => ?_
  refine (emit_keeps k8).seq fun _ s9 k9 => ?_
  refine (hr.reg s9 (hs.keep k9)).last ?_
  rintro src s10 ⟨-, k10⟩
  refine (emit_keeps (k9.trans k10)).seq fun _ s11 k11 => ?_
  refine (emit_keeps k11).seq fun _ s12 k12 => ?_
  exact (setExpr_runs hd).mono fun _ _ h => ⟨k12.trans h.1, h.2⟩

theorem logical_runs {b : Bool} {t : DType} (hl : GT l Γ b1 b2 v) (hr : GT r Γ p1 p2 pv) (hs : Sees Γ s) :
    Runs (logicalCode b t l r) s (b2 && p2) fun _ s' => Keeps s s' ∧ s'.exprReg.isSome = true := by
  refine newLabel_runs.seq ?_
  rintro n1 s1 ⟨rfl, -⟩
  refine newLabel_runs.seq ?_
  rintro n2 s2 ⟨rfl, -⟩
  have k : Keeps s { s with lab := s.lab + 1 + 1 } := ⟨rfl, rfl, rfl⟩
  refine (hl.jmp b _ (hs.keep k)).bind ?_
  intro j s3 k3
  refine (emit_keeps (k.trans k3)).seq fun _ s4 k4 => ?_
  refine (hr.jmp b _ (hs.keep k4)).last ?_
  intro j s5 k5
  refine (emit_keeps (k4.trans k5)).seq fun _ s6 k6 => ?_
  refine destReg_runs.seq ?_
  rintro d s7 ⟨hd, k7⟩
  refine (emit_keeps (k6.trans k7)).seq fun _ s8 k8 => ?_
  refine (emit_keeps k8).seq fun _ s9 k9 => ?_
  refine (emit_keeps k9).seq fun _ s10 k10 => ?_
  refine (emit_keeps k10).seq fun _ s11 k11 => ?_
  refine (emit_keeps k11).seq fun _ s12 k12 => ?_
  exact (setExpr_runs hd).mono fun _ _ h => ⟨k12.trans h.1, h.2⟩

theorem arith_runs {op : IOp} {t : DType} (hl : GT l Γ b1 b2 v) (hr : GT r Γ p1 p2 pv) (hs : Sees Γ s) :
    Runs (arithCode op t l r) s (b2 && p2) fun _ s' => Keeps s s' ∧ s'.exprReg.isSome = true := by
  refine (hl.reg s hs).bind ?_
  rintro f s1 ⟨-, k1⟩
  refine (hr.int none s1 (hs.keep k1)).last ?_
  rintro x s2 ⟨-, k2⟩
  refine destReg_runs.seq ?_
  rintro d s3 ⟨hd, k3⟩
  refine (emit_keeps ((k1.trans k2).trans k3)).seq fun _ s4 k4 => ?_
  exact (setExpr_runs hd).mono fun _ _ h => ⟨k4.trans h.1, h.2⟩

theorem stride_runs {t : DType} : Runs (strideOf t) s (Tr.isPtr t) fun _ s' => s' = s := by
  cases t <;> first | exact .pure rfl | exact .ub

theorem ptrAdd_runs {op : IOp} {t lt : DType} (hl : GT l Γ b1 b2 v) (hr : GT r Γ p1 p2 pv) (hs : Sees Γ s) :
    Runs (ptrAddCode op t lt l r) s (b2 && p2 && Tr.isPtr lt) fun _ s' => Keeps s s' ∧ s'.exprReg.isSome = true := by
  refine Runs.cast (b := b2 && (p2 && Tr.isPtr lt)) ?_ (by rw [Bool.and_assoc])
  refine (hl.reg s hs).bind ?_
  rintro f s1 ⟨-, k1⟩
  refine (hr.reg s1 (hs.keep k1)).bind ?_
  rintro x s2 ⟨-, k2⟩
  refine destReg_runs.seq ?_
  rintro d s3 ⟨hd, k3⟩
  refine stride_runs.last ?_
  rintro n s4 rfl
  refine (emit_keeps ((k1.trans k2).trans k3)).seq fun _ s5 k5 => ?_
  refine (emit_keeps k5).seq fun _ s6 k6 => ?_
  exact (setExpr_runs hd).mono fun _ _ h => ⟨k6.trans h.1, h.2⟩

theorem ptrDiff_runs {t lt : DType} (hl : GT l Γ b1 b2 v) (hr : GT r Γ p1 p2 pv) (hs : Sees Γ s) :
    Runs (ptrDiffCode t lt l r) s (b2 && p2 && Tr.isPtr lt) fun _ s' => Keeps s s' ∧ s'.exprReg.isSome = true := by
  refine Runs.cast (b := b2 && (p2 && Tr.isPtr lt)) ?_ (by rw [Bool.and_assoc])
  refine (hl.reg s hs).bind ?_
  rintro f s1 ⟨-, k1⟩
  refine (hr.reg s1 (hs.keep k1)).bind ?_
  rintro x s2 ⟨-, k2⟩
  refine destReg_runs.seq ?_
  rintro d s3 ⟨hd, k3⟩
  refine stride_runs.last ?_
  rintro n s4 rfl
  refine (emit_keeps ((k1.trans k2).trans k3)).seq fun _ s5 k5 => ?_
  refine (emit_keeps k5).seq fun _ s6 k6 => ?_
  exact (setExpr_runs hd).mono fun _ _ h => ⟨k6.trans h.1, h.2⟩

theorem addr_runs {t : DType} {src : GM Ope} {b : Bool} (h : Runs src s b fun _ s' => s' = s) :
    Runs (addrCode t src) s b fun _ s' => Keeps s s' ∧ s'.exprReg.isSome = true := by
  refine h.last ?_
  rintro o s1 rfl
  refine destReg_runs.seq ?_
  rintro d s3 ⟨hd, k3⟩
  refine (emit_keeps k3).seq fun _ s4 k4 => ?_
  exact (setExpr_runs hd).mono fun _ _ h => ⟨k4.trans h.1, h.2⟩

theorem primary_runs {t : DType} {src : GM Ope} {b : Bool} (h : Runs src s b fun _ s' => s' = s) :
    Runs (primaryCode t src) s b fun _ s' => Keeps s s' ∧ s'.exprReg.isSome = true := by
  refine h.last ?_
  rintro o s1 rfl
  refine destReg_runs.seq ?_
  rintro d s3 ⟨hd, k3⟩
  refine (emit_keeps k3).seq fun _ s4 k4 => ?_
  exact (setExpr_runs hd).mono fun _ _ h => ⟨k4.trans h.1, h.2⟩

theorem membersOf_runs {st : DType} (hs : Sees Γ s) :
    Runs (membersOf st) s (match st with | .ptr t => (membersIn Γ t).isSome | _ => false)
      fun ms s' => s' = s ∧ ∃ t, st = .ptr t ∧ membersIn Γ t = some (namesOf ms) := by
  cases st with
  | ptr t =>
    cases t with
    | ustruct ms b a => exact .pure ⟨rfl, _, rfl, rfl⟩
    | nstruct n b a =>
      refine Runs.seq (P := fun x s' => x = s ∧ s' = s) (.get ⟨rfl, rfl⟩) ?_
      rintro x s' ⟨rfl, rfl⟩
      have e : membersIn Γ (.nstruct n b a) = (lookup n s'.tags).map namesIn := by simp only [membersIn]; rw [← hs.tags, find_map]
      dsimp only
      rw [e]
      cases h : lookup n s'.tags with
      | none => exact .ub
      | some t =>
        obtain ⟨sc, h1, h2⟩ := lookup_mem h
        obtain ⟨ms, b', a', e'⟩ := hs.known sc h1 _ h2
        cases e'
        exact .pure ⟨rfl, _, rfl, by rw [e, h]; rfl⟩
    | _ => exact .ub
  | _ => exact .ub

theorem offsetIn_some {m : Str} : ∀ ms : Members, (offsetIn m ms).isSome = ((namesOf ms).lookup m).isSome
  | .nil => rfl
  | .cons n t o ms => by
    simp only [offsetIn, namesOf, List.lookup_cons]
    by_cases e : n = m
    · subst e; simp
    · rw [if_neg e, offsetIn_some ms]
      have : (m == n) = false := by simpa using fun h => e h.symm
      rw [this]

theorem memberAddr_runs {t st : DType} {m : Str} (hg : GT g Γ b1 b2 v) (hs : Sees Γ s) :
    Runs (memberAddrCode t st g m) s (b2 && hasMember Γ m st) fun _ s' => Keeps s s' ∧ s'.exprReg.isSome = true := by
  refine (hg.reg s hs).bind ?_
  rintro f s1 ⟨-, k1⟩
  have hb : hasMember Γ m st = ((match st with | .ptr t => (membersIn Γ t).isSome | _ => false) && hasMember Γ m st) := by
    cases st with
    | ptr t => simp only [hasMember]; cases membersIn Γ t <;> simp
    | _ => rfl
  rw [hb]
  refine (membersOf_runs (hs.keep k1)).bind ?_
  rintro ms s2 ⟨rfl, t', rfl, hm⟩
  have : hasMember Γ m (.ptr t') = (offsetIn m ms).isSome := by simp only [hasMember, hm]; rw [offsetIn_some]
  rw [this]
  cases ho : offsetIn m ms with
  | none => exact .ub
  | some o =>
    refine destReg_runs.seq ?_
    rintro d s3 ⟨hd, k3⟩
    refine (emit_keeps (k1.trans k3)).seq fun _ s4 k4 => ?_
    exact (setExpr_runs hd).mono fun _ _ h => ⟨k4.trans h.1, h.2⟩

theorem member_runs {t st : DType} {m : Str} (hg : GT g Γ b1 b2 v) (hs : Sees Γ s) :
    Runs (memberCode t st g m) s (b2 && hasMember Γ m st) fun _ s' => Keeps s s' ∧ s'.exprReg.isSome = true := by
  refine (memberAddr_runs hg hs).last ?_
  rintro _ s1 ⟨k1, h1⟩
  refine Runs.seq (P := fun x s' => x = s1 ∧ s' = s1) (.get ⟨rfl, rfl⟩) ?_
  rintro x s2 ⟨rfl, rfl⟩
  cases he : s2.exprReg with
  | none => rw [he] at h1; simp at h1
  | some y =>
    refine destReg_runs.seq ?_
    rintro d s3 ⟨hd, k3⟩
    refine (emit_keeps (k1.trans k3)).seq fun _ s4 k4 => ?_
    exact (setExpr_runs hd).mono fun _ _ h => ⟨k4.trans h.1, h.2⟩

theorem indir_runs {t : DType} (hg : GT g Γ b1 b2 v) (hs : Sees Γ s) : Runs (indirCode t g) s b1 fun _ s' => Keeps s s' ∧ s'.exprReg.isSome = true := by
  refine (hg.ptr s hs).last ?_
  intro o s1 k1
  refine destReg_runs.seq ?_
  rintro d s3 ⟨hd, k3⟩
  refine (emit_keeps (k1.trans k3)).seq fun _ s4 k4 => ?_
  exact (setExpr_runs hd).mono fun _ _ h => ⟨k4.trans h.1, h.2⟩

theorem pos_runs (hg : GT g Γ b1 b2 v) (hs : Sees Γ s) : Runs (posCode g) s b2 fun _ s' => Keeps s s' ∧ s'.exprReg.isSome = true := by
  refine (hg.reg s hs).last ?_
  rintro o s1 ⟨ho, k1⟩
  exact (setExpr_runs ho).mono fun _ _ h => ⟨k1.trans h.1, h.2⟩

theorem un_runs {op : IOp} {t : DType} (hg : GT g Γ b1 b2 v) (hs : Sees Γ s) : Runs (unCode op t g) s b2 fun _ s' => Keeps s s' ∧ s'.exprReg.isSome = true := by
  refine (hg.int none s hs).last ?_
  rintro o s1 ⟨-, k1⟩
  refine destReg_runs.seq ?_
  rintro d s3 ⟨hd, k3⟩
  refine (emit_keeps (k1.trans k3)).seq fun _ s4 k4 => ?_
  exact (setExpr_runs hd).mono fun _ _ h => ⟨k4.trans h.1, h.2⟩

theorem lnot_runs {t : DType} (hg : GT g Γ b1 b2 v) (hs : Sees Γ s) : Runs (lnotCode t g) s b2 fun _ s' => Keeps s s' ∧ s'.exprReg.isSome = true := by
  refine (hg.reg s hs).last ?_
  rintro o s1 ⟨-, k1⟩
  refine destReg_runs.seq ?_
  rintro d s3 ⟨hd, k3⟩
  refine (emit_keeps (k1.trans k3)).seq fun _ s4 k4 => ?_
  exact (setExpr_runs hd).mono fun _ _ h => ⟨k4.trans h.1, h.2⟩

theorem incOpe_runs {sf : Sfx} {t : DType} : Runs (incOpe sf t) s (t.isSigned || t.isUnsigned || Tr.isPtr t) fun _ s' => s' = s := by
  cases t <;> first | exact .pure rfl | exact .ub

theorem incdec_runs {op : IOp} {post : Bool} {t : DType} (hg : GT g Γ b1 b2 v) (hs : Sees Γ s) :
    Runs (incdecCode op post t g) s (b1 && (t.isSigned || t.isUnsigned || Tr.isPtr t)) fun _ s' => Keeps s s' ∧ s'.exprReg.isSome = true := by
  refine (hg.ptr s hs).bind ?_
  intro o s1 k1
  refine destReg_runs.seq ?_
  rintro d s2 ⟨hd, k2⟩
  refine (emit_keeps (k1.trans k2)).seq fun _ s3 k3 => ?_
  refine incOpe_runs.last ?_
  rintro one s4 rfl
  cases post with
  | true =>
    refine destReg_runs.seq ?_
    rintro d' s5 ⟨hd', k5⟩
    refine (emit_keeps (k3.trans k5)).seq fun _ s6 k6 => ?_
    refine (emit_keeps k6).seq fun _ s7 k7 => ?_
    refine (emit_keeps k7).seq fun _ s8 k8 => ?_
    exact (setExpr_runs hd').mono fun _ _ h => ⟨k8.trans h.1, h.2⟩
  | false =>
    refine (emit_keeps k3).seq fun _ s7 k7 => ?_
    refine (emit_keeps k7).seq fun _ s8 k8 => ?_
    exact (setExpr_runs hd).mono fun _ _ h => ⟨k8.trans h.1, h.2⟩

theorem callDest_runs {t : DType} : Runs (callDest t) s true fun o s' => Keeps s s' ∧ match o with | none => t.isVoid = true | some d => t.isVoid = false ∧ IsReg d := by
  unfold callDest
  by_cases h : t.isVoid = true
  · rw [if_pos h]; exact .pure ⟨Keeps.refl, h⟩
  · rw [if_neg h]
    refine destReg_runs.seq ?_
    rintro d s1 ⟨hd, k⟩
    exact .pure ⟨k, by simpa using h, hd⟩

/-- arguments: `b` for all of them -/
theorem argsCode_runs {as : SArgs} (h : ∀ s i, Sees Γ s → Runs (argsCode i (args as)) s v fun _ s' => Keeps s s') {t : DType} (hg : GT g Γ b1 b2 p1) (hs : Sees Γ s) :
    Runs (callCode t g (args as)) s (v && b1) fun _ s' => Keeps s s' ∧ s'.exprReg.isSome = !t.isVoid := by
  refine (emit_keeps Keeps.refl).seq fun _ s1 k1 => ?_
  refine (h s1 0 (hs.keep k1)).bind fun _ s2 k2 => ?_
  have k2 := k1.trans k2
  refine (hg.ptr s2 (hs.keep k2)).last fun _ s3 k3 => ?_
  refine callDest_runs.seq ?_
  rintro o s4 ⟨k4, ho⟩
  refine (emit_keeps ((k2.trans k3).trans k4)).seq fun _ s5 k5 => ?_
  refine (emit_keeps k5).seq fun _ s6 k6 => ?_
  cases o with
  | none => rw [ho]; exact setVoid_runs.mono fun _ _ h => ⟨k6.trans h.1, h.2⟩
  | some d => rw [ho.1]; exact (setExpr_runs ho.2).mono fun _ _ h => ⟨k6.trans h.1, h.2⟩

end

end Gen
end Umlcc
