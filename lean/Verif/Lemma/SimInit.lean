import Verif.Lemma.Layout
import Verif.Lemma.GenLabelStmt
/-!
C37: the code for initialisers of local objects.
-/
namespace Umlcc
namespace Sim
open IMach (Val St Env Mem)
open RSpec (Mach UniqueLabels)
open CSem (InRange rep Ctx eval safe)
open Lay (Leaf leaves elems members initialise tagsOf structOf snug snugElems snugLast packed packedElems packedMembers)
open Gen

variable {W : Type} {C : Ctx W} {E : Env W} {P : List Immc}

/-- what an initialiser changes in the generator's state besides the offset -/
structure IFrame (s s' : GState) : Prop where
  syms : s'.syms = s.syms
  tags : s'.tags = s.tags
  mem : s'.mem = s.mem
  reg : s.reg ≤ s'.reg

theorem IFrame.refl (s : GState) : IFrame s s := ⟨rfl, rfl, rfl, by omega⟩
theorem IFrame.trans {a b c : GState} (h : IFrame a b) (k : IFrame b c) : IFrame a c :=
  ⟨k.syms.trans h.syms, k.tags.trans h.tags, k.mem.trans h.mem, by have := h.reg; have := k.reg; omega⟩

theorem Rel.iframe {s s' : GState} (h : Rel C E s) (f : IFrame s s') : Rel C E s' := h.of f.syms f.tags

/-- the expressions of the parts belong to the fragment -/
def safeLeaf : Nat × Leaf → Bool
  | (_, .val _ e) => safe none e
  | (_, .bytes _) => true

theorem initialise_append {a : BitVec 64} : ∀ {l₁ l₂ : List (Nat × Leaf)} {σ σ' : Mem × W}, initialise C a (l₁ ++ l₂) σ = some σ' →
    ∃ σ₁, initialise C a l₁ σ = some σ₁ ∧ initialise C a l₂ σ₁ = some σ'
  | [], l₂, σ, σ', h => ⟨σ, rfl, h⟩
  | (o, .val t e) :: l₁, l₂, σ, σ', h => by
    simp only [List.cons_append, initialise, Option.bind_eq_bind, Option.bind_eq_some_iff] at h ⊢
    obtain ⟨q, h1, u, h2, x, h3, h4⟩ := h
    obtain ⟨σ₁, k1, k2⟩ := initialise_append h4
    exact ⟨σ₁, ⟨q, h1, u, h2, x, h3, k1⟩, k2⟩
  | (o, .bytes b) :: l₁, l₂, σ, σ', h => by
    simp only [List.cons_append, initialise] at h ⊢
    exact initialise_append h

/-- the address of an offset in an object at frame offset `K` -/
theorem addr_eq (b : BitVec 64) (K : Int) (o : Nat) : b - BitVec.ofInt 64 (K - o) = b - BitVec.ofInt 64 K + BitVec.ofNat 64 o := by
  rw [ofInt_sub, BitVec.ofInt_natCast]
  generalize BitVec.ofInt 64 K = x
  generalize BitVec.ofNat 64 o = y
  simp only [BitVec.sub_eq_add_neg, BitVec.neg_add]
  rw [BitVec.neg_neg, BitVec.add_assoc]

theorem str_steps {k : Int} {b : List UInt8} {p : Nat} {R : Int → Val} {st : St W}
    (hc : P[p]? = some (inst .str (some (.mem k)) (some (.str b)) none)) :
    Steps E P ⟨p, R, st⟩ ⟨p + 1, R, { st with mem := IMach.writeBytes st.mem (E.bp - BitVec.ofInt 64 k) b }⟩ :=
  step_eff (v := IMach.noVal) (b := false) hc nofun rfl rfl

/-- the code `c`, generated between `s` and `s'`, sets the parts `ls` of the object at frame offset `K` -/
def InitSim (C : Ctx W) (E : Env W) (P : List Immc) (K : Int) (s : GState) (c : List Immc) (s' : GState) (ls : List (Nat × Leaf)) : Prop :=
  IFrame s s' ∧ (ls.all safeLeaf = true → Rel C E s → ∀ {p R st σ}, At P p c → initialise C (E.bp - BitVec.ofInt 64 K) ls (st.mem, st.w) = some σ →
    ∃ R', Steps E P ⟨p, R, st⟩ ⟨p + c.length, R', res st σ⟩ ∧ Keep s.reg R R')

theorem InitSim.append {K : Int} {s s1 s' : GState} {c1 c2 : List Immc} {l1 l2 : List (Nat × Leaf)} (h1 : InitSim C E P K s c1 s1 l1)
    (h2 : InitSim C E P K s1 c2 s' l2) : InitSim C E P K s (c1 ++ c2) s' (l1 ++ l2) := by
  refine ⟨h1.1.trans h2.1, ?_⟩
  intro hs hR p R st σ hc hi
  rw [List.all_append, Bool.and_eq_true] at hs
  obtain ⟨σ₁, i1, i2⟩ := initialise_append hi
  obtain ⟨a1, a2⟩ := at_append.1 hc
  obtain ⟨R1, k1, k2⟩ := h1.2 hs.1 hR (R := R) a1 i1
  obtain ⟨R2, m1, m2⟩ := h2.2 hs.2 (hR.iframe h1.1) (R := R1) (st := res st σ₁) a2 i2
  exact ⟨R2, (k1.trans m1).to (by len), k2.trans m2 h1.1.reg⟩

theorem InitSim.nil {K : Int} (s : GState) : InitSim C E P K s [] s [] := by
  refine ⟨.refl s, ?_⟩
  intro _ _ p R st σ _ hi
  cases hi
  exact ⟨R, .refl _, .refl _ _⟩

theorem InitSim.left {K off : Int} {s s' : GState} {c : List Immc} {ls : List (Nat × Leaf)} (h : InitSim C E P K { s with initOff := off } c s' ls) :
    InitSim C E P K s c s' ls :=
  ⟨⟨h.1.syms, h.1.tags, h.1.mem, h.1.reg⟩, fun hs hR _ _ _ _ hc hi => h.2 hs (hR.of rfl rfl) hc hi⟩

theorem InitSim.to {K : Int} {s s' : GState} {off : Int} {c : List Immc} {ls : List (Nat × Leaf)} (h : InitSim C E P K s c s' ls) :
    InitSim C E P K s c { s' with initOff := off } ls :=
  ⟨⟨h.1.syms, h.1.tags, h.1.mem, h.1.reg⟩, h.2⟩

mutual
theorem localInit_sim (hu : UniqueLabels P) {K : Int} : ∀ (i : SInit) {t : DType} {o : Nat} {s s' : GState} {c : List Immc} {ls : List (Nat × Leaf)},
    localInit i t s = .ok ((), c, s') → leaves (tagsOf s.tags) i t o = some ls → s.initOff = K - o → packed (tagsOf s.tags) i t = true →
    InitSim C E P K s c s' ls ∧ (snug (tagsOf s.tags) i t = true → s'.initOff = K - (o + t.nbytes : Nat))
  | .expr e, t, o, s, s', c, ls, h, hl, ho, hp => by
    simp only [localInit] at h
    simp only [leaves] at hl
    split at hl <;> cases hl
    split at h
    case isFalse => simp [ub_ok] at h
    obtain ⟨q, c1, s1, h1, rfl, rfl⟩ := localScalar_ok h
    have g := ((expr_inv e).int h1).1
    refine ⟨⟨⟨g.syms, g.tags, g.mem, g.reg⟩, ?_⟩, ?_⟩
    · intro hs hR p R st σ hc hi
      simp only [List.all_cons, List.all_nil, Bool.and_true, safeLeaf] at hs
      simp only [initialise, Option.bind_eq_bind, Option.bind_eq_some_iff] at hi
      obtain ⟨w, hw, _, hn, x, hx, hi⟩ := hi
      cases hi
      have hn := CSem.need_some.1 hn
      obtain ⟨a1, a2⟩ := at_append.1 hc
      obtain ⟨R1, k1, k2, k3, -⟩ := (exprSim hu e).int (R := R) h1 hR hs a1 hx (by rw [hn]; rfl) (show rep e.dt = some w from hn)
      refine ⟨R1, (k1.trans (store_steps (st := res st x.2) (rep_get hw).2.2.1 (.inr (.inl ⟨_, rfl, ?_⟩)) k3 rfl a2.1)).to (by len), k2⟩
      rw [ofInt_toInt, ho, addr_eq]
    · intro _
      simp only [g.initOff, ho]
      omega
  | .str u b, t, o, s, s', c, ls, h, hl, ho, hp => by
    simp only [localInit] at h
    simp only [leaves] at hl
    split at hl
    case h_2 => cases hl
    split at hl <;> cases hl
    dsimp only at h
    rw [localString_run, Out.ok.injEq, Prod.mk.injEq, Prod.mk.injEq] at h
    obtain ⟨_, rfl, rfl⟩ := h
    refine ⟨⟨⟨rfl, rfl, rfl, by simp⟩, ?_⟩, ?_⟩
    · intro hs hR p R st σ hc hi
      simp only [initialise, Option.some.injEq] at hi
      subst hi
      have := str_steps (E := E) (R := R) (st := st) hc.1
      rw [ho, addr_eq] at this
      exact ⟨R, this, .refl _ _⟩
    · intro _
      simp only [ho]
      omega
  | .list is, t, o, s, s', c, ls, h, hl, ho, hp => by
    have key : ∀ {ms b}, structOf (tagsOf s.tags) t = some (ms, b) → members (tagsOf s.tags) is ms o = some ls → packedMembers (tagsOf s.tags) is ms = true →
        localStruct t (localInits is) s = .ok ((), c, s') →
        InitSim C E P K s c s' ls ∧ (snugLast (tagsOf s.tags) is ms b = true → s'.initOff = K - (o + t.nbytes : Nat)) := by
      intro ms b h1 h2 h3 h4
      obtain ⟨rfl, -, -, al, h5⟩ := Lay.structOf_ok h1 (s := s) rfl
      obtain ⟨ms', b', a', h6, h7⟩ := localStruct_ok h4
      rw [h5] at h6
      cases h6
      rw [ho] at h7
      exact localMembers_sim hu is h7 h2 h3
    cases t with
    | arr u n =>
      simp only [localInit] at h
      simp only [leaves] at hl
      simp only [packed, Bool.and_eq_true] at hp
      obtain ⟨k1, k2⟩ := arrayInit_sim hu is h hl ho hp.1 hp.2
      refine ⟨k1, fun _ => ?_⟩
      rw [k2, DType.nbytes, Nat.mul_comm]
    | nstruct n b a =>
      simp only [localInit] at h
      simp only [leaves] at hl
      simp only [packed] at hp
      simp only [snug]
      split at hl
      · rename_i h1
        simp only [h1] at hp
        exact key h1 hl hp h
      · cases hl
    | ustruct ms b a =>
      simp only [localInit] at h
      simp only [leaves] at hl
      simp only [packed] at hp
      simp only [snug]
      split at hl
      · rename_i h1
        simp only [h1] at hp
        exact key h1 hl hp h
      · cases hl
    | _ => simp [localInit, ub_ok] at h
theorem arrayInit_sim (hu : UniqueLabels P) {K : Int} : ∀ (is : SInits) {t : DType} {n o : Nat} {s s' : GState} {c : List Immc} {ls : List (Nat × Leaf)},
    arrayInit t n (localInits is) s = .ok ((), c, s') → elems (tagsOf s.tags) is t n o = some ls → s.initOff = K - o →
    snugElems (tagsOf s.tags) is t = true → packedElems (tagsOf s.tags) is t = true →
    InitSim C E P K s c s' ls ∧ s'.initOff = K - (o + n * t.nbytes : Nat)
  | .nil, t, n, o, s, s', c, ls, h, hl, ho, hs, hp => by
    cases n <;> simp only [elems] at hl <;> cases hl
    cases h
    exact ⟨.nil s, by rw [ho]; simp⟩
  | .cons i is, t, n, o, s, s', c, ls, h, hl, ho, hs, hp => by
    cases n with
    | zero => simp [elems] at hl
    | succ n =>
      simp only [localInits] at h
      obtain ⟨c1, s1, c2, h1, h2, rfl⟩ := arrayInit_cons h
      simp only [elems] at hl
      split at hl <;> cases hl
      rename_i a b ha hb
      simp only [snugElems, packedElems, Bool.and_eq_true] at hs hp
      obtain ⟨k1, k2⟩ := localInit_sim hu i h1 ha ho hp.1
      have et := k1.1.tags
      obtain ⟨m1, m2⟩ := arrayInit_sim hu is h2 (by rw [et]; exact hb) (k2 hs.1) (by rw [et]; exact hs.2) (by rw [et]; exact hp.2)
      refine ⟨k1.append m1, ?_⟩
      rw [m2, Nat.succ_mul]
      omega
theorem localMembers_sim (hu : UniqueLabels P) {K : Int} : ∀ (is : SInits) {ms : Members} {o b : Nat} {s s' : GState} {c : List Immc} {ls : List (Nat × Leaf)},
    localMembers (K - o) (memberList ms) (localInits is) s = .ok ((), c, s') → members (tagsOf s.tags) is ms o = some ls →
    packedMembers (tagsOf s.tags) is ms = true →
    InitSim C E P K s c s' ls ∧ (snugLast (tagsOf s.tags) is ms b = true → s'.initOff = K - (o + b : Nat))
  | .nil, ms, o, b, s, s', c, ls, h, hl, hp => by
    cases ms <;> simp only [members] at hl <;> cases hl
    cases h
    exact ⟨.nil s, by simp [snugLast]⟩
  | .cons i is, ms, o, b, s, s', c, ls, h, hl, hp => by
    cases ms with
    | nil => simp [members] at hl
    | cons n t k ms =>
      simp only [localInits, memberList] at h
      obtain ⟨c1, s1, c2, h1, h2, rfl⟩ := localMembers_cons h
      simp only [members] at hl
      split at hl <;> cases hl
      rename_i x y hx hy
      simp only [packedMembers, Bool.and_eq_true] at hp
      obtain ⟨k1, k2⟩ := localInit_sim hu (K := K) i (o := o + k) h1 hx (by simp only; omega) hp.1
      have et := k1.1.tags
      simp only at et
      obtain ⟨m1, m2⟩ := localMembers_sim hu (b := b) is h2 (by rw [et]; exact hy) (by rw [et]; exact hp.2)
      refine ⟨k1.left.append m1, ?_⟩
      intro hs
      rw [et] at m2
      cases is with
      | nil =>
        cases ms with
        | nil =>
          simp only [snugLast, Bool.and_eq_true, beq_iff_eq] at hs
          cases h2
          rw [k2 hs.2]
          omega
        | cons => simp [members] at hy
      | cons i' is' =>
        cases ms with
        | nil => simp [members] at hy
        | cons =>
          exact m2 (by simpa only [snugLast] using hs)
end

end Sim
end Umlcc
