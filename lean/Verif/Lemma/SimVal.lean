import Verif.Spec.CSem
import Verif.Model.Immcgen
/-!
Numbers in the range of a type and their bit patterns.
-/
namespace Umlcc
namespace Sim
open CSem (rep InRange wrap fit ofBits)

theorem ofInt_eq {n : Nat} {a b : Int} : BitVec.ofInt n a = BitVec.ofInt n b ↔ a % 2 ^ n = b % 2 ^ n := by
  have h2 : ((2 ^ n : Nat) : Int) = 2 ^ n := by simp
  have hp : (0 : Int) < 2 ^ n := Int.pow_pos (by decide)
  constructor
  · intro h
    have := congrArg BitVec.toNat h
    rw [BitVec.toNat_ofInt, BitVec.toNat_ofInt, h2] at this
    have h1 := Int.emod_nonneg a (show (2 : Int) ^ n ≠ 0 by omega)
    have h3 := Int.emod_nonneg b (show (2 : Int) ^ n ≠ 0 by omega)
    omega
  · intro h
    apply BitVec.eq_of_toNat_eq
    rw [BitVec.toNat_ofInt, BitVec.toNat_ofInt, h2, h]

theorem ofInt_sub {n : Nat} (a b : Int) : BitVec.ofInt n (a - b) = BitVec.ofInt n a - BitVec.ofInt n b := by
  rw [Int.sub_eq_add_neg, BitVec.ofInt_add, BitVec.ofInt_neg, BitVec.sub_eq_add_neg]

theorem wrap_emod (q : Sfx × Bool) (v : Int) : wrap q v % 2 ^ q.1.bits = v % 2 ^ q.1.bits := by
  have h2 : ((2 ^ q.1.bits : Nat) : Int) = 2 ^ q.1.bits := by simp
  unfold wrap
  split
  · exact Int.emod_emod_of_dvd v (Int.dvd_refl _)
  · rw [← h2]; exact Int.bmod_emod

theorem ofInt_wrap (q : Sfx × Bool) (v : Int) : BitVec.ofInt q.1.bits (wrap q v) = BitVec.ofInt q.1.bits v :=
  ofInt_eq.2 (wrap_emod q v)

theorem ofInt_wrap_le {n : Nat} (q : Sfx × Bool) (h : n ≤ q.1.bits) (v : Int) : BitVec.ofInt n (wrap q v) = BitVec.ofInt n v := by
  apply ofInt_eq.2
  have hd : (2 : Int) ^ n ∣ 2 ^ q.1.bits := ⟨2 ^ (q.1.bits - n), by rw [← Int.pow_add, Nat.add_sub_cancel' h]⟩
  rw [← Int.emod_emod_of_dvd (wrap q v) hd, wrap_emod, Int.emod_emod_of_dvd _ hd]

theorem wrap_inRange (q : Sfx × Bool) (v : Int) : InRange q (wrap q v) := by
  obtain ⟨s, u⟩ := q
  unfold InRange wrap
  cases u
  · simp only [Bool.false_eq_true, if_false]
    have h1 := @Int.le_bmod v (2 ^ s.bits) (by cases s <;> decide)
    have h2 := @Int.bmod_lt v (2 ^ s.bits) (by cases s <;> decide)
    cases s <;> simp only [Sfx.bits] at h1 h2 ⊢ <;> omega
  · simp only [if_true]
    constructor
    · exact Int.emod_nonneg _ (by cases s <;> decide)
    · exact Int.emod_lt_of_pos _ (by cases s <;> decide)

theorem wrap_eq {q : Sfx × Bool} {v : Int} (h : InRange q v) (hq : q.1 ≠ .none) : wrap q v = v := by
  obtain ⟨s, u⟩ := q
  unfold InRange at h
  unfold wrap
  cases u
  · simp only [Bool.false_eq_true, if_false] at h ⊢
    apply Int.bmod_eq_of_le <;> cases s <;> simp only [Sfx.bits] at h ⊢ <;> first | omega | exact absurd rfl hq
  · simp only [if_true] at h ⊢
    exact Int.emod_eq_of_lt h.1 h.2

theorem toNat_ofInt {s : Sfx} {v : Int} (h : InRange (s, true) v) : ((BitVec.ofInt s.bits v).toNat : Int) = v := by
  simp only [InRange, if_true] at h
  have h2 : ((2 ^ s.bits : Nat) : Int) = 2 ^ s.bits := by simp
  rw [BitVec.toNat_ofInt, h2, Int.emod_eq_of_lt h.1 h.2]
  omega

theorem toInt_ofInt {s : Sfx} {v : Int} (h : InRange (s, false) v) (hs : s ≠ .none) : (BitVec.ofInt s.bits v).toInt = v := by
  rw [BitVec.toInt_ofInt]
  exact wrap_eq (q := (s, false)) h hs

theorem conv_ofInt {s : Sfx} {u : Bool} {v : Int} (h : InRange (s, u) v) (hs : s ≠ .none) (n : Nat) :
    ISem.conv u (BitVec.ofInt s.bits v) n = BitVec.ofInt n v := by
  unfold ISem.conv
  cases u
  · simp only [Bool.false_eq_true, if_false]
    rw [BitVec.signExtend, toInt_ofInt h hs]
  · simp only [if_true]
    apply BitVec.eq_of_toNat_eq
    rw [BitVec.toNat_setWidth, BitVec.toNat_ofInt (n := n)]
    have := toNat_ofInt h
    have h2 : ((2 ^ n : Nat) : Int) = 2 ^ n := by simp
    have hp : (0 : Int) < 2 ^ n := Int.pow_pos (by decide)
    have h3 := Int.emod_nonneg v (show (2 : Int) ^ n ≠ 0 by omega)
    rw [h2]
    have : (((BitVec.ofInt s.bits v).toNat % 2 ^ n : Nat) : Int) = v % 2 ^ n := by
      rw [Int.natCast_emod, this, h2]
    omega

theorem conv_self (u : Bool) {n : Nat} (b : BitVec n) : ISem.conv u b n = b := by
  unfold ISem.conv
  cases u <;> simp

theorem inj {q : Sfx × Bool} {a b : Int} (ha : InRange q a) (hb : InRange q b) (hq : q.1 ≠ .none)
    (h : BitVec.ofInt q.1.bits a = BitVec.ofInt q.1.bits b) : a = b := by
  have h1 := wrap_eq ha hq
  have h2 := wrap_eq hb hq
  have h3 := ofInt_eq.1 h
  rw [← h1, ← h2]
  unfold wrap
  split
  · exact h3
  · have e : ((2 ^ q.1.bits : Nat) : Int) = 2 ^ q.1.bits := by simp
    rw [← Int.emod_bmod (x := a), ← Int.emod_bmod (x := b), e, h3]

theorem ofInt_ofBits (u : Bool) {n : Nat} (b : BitVec n) : BitVec.ofInt n (ofBits u b) = b := by
  unfold ofBits
  cases u <;> simp

theorem ofBits_inRange {q : Sfx × Bool} (hq : q.1 ≠ .none) (b : BitVec q.1.bits) : InRange q (ofBits q.2 b) := by
  obtain ⟨s, u⟩ := q
  unfold InRange ofBits
  cases u
  · simp only [Bool.false_eq_true, if_false]
    have h1 := BitVec.two_mul_toInt_lt (x := b)
    have h2 := BitVec.le_two_mul_toInt (x := b)
    cases s <;> simp only [Sfx.bits] at h1 h2 ⊢ <;> first | omega | exact absurd rfl hq
  · simp only [if_true]
    have := b.isLt
    have h2 : ((2 ^ s.bits : Nat) : Int) = 2 ^ s.bits := by simp
    dsimp only at this ⊢
    omega

theorem fit_some {q : Sfx × Bool} {v r : Int} (h : fit q v = some r) : InRange q r ∧ BitVec.ofInt q.1.bits r = BitVec.ofInt q.1.bits v := by
  unfold fit at h
  split at h
  · rename_i hu
    cases h
    have := wrap_inRange q v
    have h2 := ofInt_wrap q v
    unfold wrap at this h2
    rw [if_pos hu] at this h2
    exact ⟨this, h2⟩
  · split at h
    · cases h; exact ⟨‹_›, rfl⟩
    · cases h

theorem rep_get {t : DType} {q : Sfx × Bool} (h : rep t = some q) :
    Sfx.get t.nbytes = q.1 ∧ t.isUnsigned = q.2 ∧ q.1 ≠ .none ∧ t.isVoid = false := by
  cases t <;> simp only [rep, Option.some.injEq, reduceCtorEq] at h <;> subst h <;> exact ⟨rfl, rfl, by decide, rfl⟩

/-! ### operations -/

theorem range_uns {s : Sfx} {v : Int} : InRange (s, true) v ↔ 0 ≤ v ∧ v < 2 ^ s.bits := by simp [InRange]
theorem range_sig {s : Sfx} {v : Int} : InRange (s, false) v ↔ -2 ^ (s.bits - 1) ≤ v ∧ v < 2 ^ (s.bits - 1) := by simp [InRange]

theorem divmod_uns {s : Sfx} {a b : Int} (ha : InRange (s, true) a) (hb : InRange (s, true) b) (h0 : b ≠ 0) :
    ISem.divmod .div true (BitVec.ofInt s.bits a) (BitVec.ofInt s.bits b) = some (BitVec.ofInt s.bits (a.tdiv b)) ∧
    ISem.divmod .mod true (BitVec.ofInt s.bits a) (BitVec.ofInt s.bits b) = some (BitVec.ofInt s.bits (a.tmod b)) := by
  have h1 := toNat_ofInt ha
  have h2 := toNat_ofInt hb
  have hn : (BitVec.ofInt s.bits b).toNat ≠ 0 := by omega
  generalize hA : (BitVec.ofInt s.bits a).toNat = n at h1
  generalize hB : (BitVec.ofInt s.bits b).toNat = m at h2 hn
  subst h1 h2
  have e1 : (n : Int).tdiv m = ((n / m : Nat) : Int) := by
    rw [Int.tdiv_eq_ediv_of_nonneg (by omega)]; rfl
  have e2 : (n : Int).tmod m = ((n % m : Nat) : Int) := by
    rw [Int.tmod_eq_emod_of_nonneg (by omega)]; rfl
  simp only [ISem.divmod, if_true, hB, hA, if_neg hn, e1, e2]
  simp only [BitVec.ofInt_natCast, and_self]

theorem divmod_sig {s : Sfx} {a b : Int} (ha : InRange (s, false) a) (hb : InRange (s, false) b) (hs : s ≠ .none) (h0 : b ≠ 0)
    (hr : InRange (s, false) (a.tdiv b)) :
    ISem.divmod .div false (BitVec.ofInt s.bits a) (BitVec.ofInt s.bits b) = some (BitVec.ofInt s.bits (a.tdiv b)) ∧
    ISem.divmod .mod false (BitVec.ofInt s.bits a) (BitVec.ofInt s.bits b) = some (BitVec.ofInt s.bits (a.tmod b)) := by
  have hn : ¬ (b = 0 ∨ a.tdiv b ≥ 2 ^ (s.bits - 1)) := by
    have := (range_sig.1 hr).2
    omega
  simp only [ISem.divmod, Bool.false_eq_true, if_false, toInt_ofInt ha hs, toInt_ofInt hb hs, if_neg hn, and_self]

theorem tmod_range {q : Sfx × Bool} {a b : Int} (ha : InRange q a) : InRange q (a.tmod b) := by
  obtain ⟨s, u⟩ := q
  have h1 : (a.tmod b).natAbs ≤ a.natAbs := by
    rw [Int.natAbs_tmod]; exact Nat.mod_le _ _
  cases u
  · rw [range_sig] at *
    by_cases h : 0 ≤ a
    · have := Int.tmod_nonneg b h
      omega
    · have : a.tmod b ≤ 0 := by
        have := Int.tmod_nonneg b (show 0 ≤ -a by omega)
        rw [Int.neg_tmod] at this
        omega
      omega
  · rw [range_uns] at *
    have := Int.tmod_nonneg b ha.1
    omega

/-- arithmetic of the machine agrees with C's -/
theorem arith_ok {op : SBin} {q : Sfx × Bool} {a b v : Int} (fu : Bool) (hq : q.1 ≠ .none) (ha : InRange q a) (hb : InRange q b)
    (h : CSem.arith op q a b = some v) :
    InRange q v ∧ IMach.arith (Gen.binOp op) q.2 fu (BitVec.ofInt q.1.bits a) (BitVec.ofInt q.1.bits b) = some (BitVec.ofInt q.1.bits v) := by
  unfold CSem.arith at h
  split at h
  · obtain ⟨h1, h2⟩ := fit_some h
    exact ⟨h1, by simp only [Gen.binOp, IMach.arith, ISem.bin, h2, BitVec.ofInt_add]⟩
  · obtain ⟨h1, h2⟩ := fit_some h
    exact ⟨h1, by simp only [Gen.binOp, IMach.arith, ISem.bin, h2, ofInt_sub]⟩
  · obtain ⟨h1, h2⟩ := fit_some h
    exact ⟨h1, by simp only [Gen.binOp, IMach.arith, ISem.bin, h2, BitVec.ofInt_mul]⟩
  · split at h
    · cases h
    · rename_i h0
      obtain ⟨h1, h2⟩ := fit_some h
      refine ⟨h1, ?_⟩
      simp only [Gen.binOp, IMach.arith, h2]
      obtain ⟨s, u⟩ := q
      cases u
      · refine (divmod_sig ha hb hq h0 ?_).1
        simp only [fit, Bool.false_eq_true, if_false] at h
        split at h
        · assumption
        · cases h
      · exact (divmod_uns ha hb h0).1
  · split at h
    · cases h
    · rename_i h0
      cases h
      simp only [not_or, Decidable.not_not] at h0
      refine ⟨tmod_range ha, ?_⟩
      simp only [Gen.binOp, IMach.arith]
      obtain ⟨s, u⟩ := q
      cases u
      · exact (divmod_sig ha hb hq h0.1 h0.2).2
      · exact (divmod_uns ha hb h0.1).2
  · cases h
    exact ⟨ofBits_inRange hq _, by simp only [Gen.binOp, IMach.arith, ISem.bin, ofInt_ofBits]⟩
  · cases h
    exact ⟨ofBits_inRange hq _, by simp only [Gen.binOp, IMach.arith, ISem.bin, ofInt_ofBits]⟩
  · cases h
    exact ⟨ofBits_inRange hq _, by simp only [Gen.binOp, IMach.arith, ISem.bin, ofInt_ofBits]⟩
  · cases h

theorem shift_range {q : Sfx × Bool} {a : Int} {n : Nat} (ha : InRange q a) : InRange q (a / 2 ^ n) := by
  have hp : (0 : Int) < 2 ^ n := Int.pow_pos (by decide)
  have h1 : 0 ≤ a → 0 ≤ a / 2 ^ n ∧ a / 2 ^ n ≤ a := fun h => ⟨Int.ediv_nonneg h (by omega), Int.ediv_le_self _ h⟩
  have h2 : a < 0 → a ≤ a / 2 ^ n ∧ a / 2 ^ n < 0 := by
    intro h
    refine ⟨?_, Int.ediv_neg_of_neg_of_pos h hp⟩
    rw [Int.le_ediv_iff_mul_le hp]
    exact Int.le_trans (Int.mul_le_mul_of_nonpos_left (show a ≤ 0 by omega) (show (1 : Int) ≤ 2 ^ n by omega)) (by omega)
  obtain ⟨s, u⟩ := q
  cases u
  · rw [range_sig] at *
    by_cases h : 0 ≤ a
    · have := h1 h; omega
    · have := h2 (by omega); omega
  · rw [range_uns] at *
    have := h1 ha.1; omega

/-- shifts of the machine agree with C's -/
theorem shift_ok {op : SBin} {q : Sfx × Bool} {a b v : Int} (du : Bool) (hq : q.1 ≠ .none) (ha : InRange q a)
    (h : CSem.shift op q a b = some v) :
    InRange q v ∧ IMach.arith (Gen.binOp op) du q.2 (BitVec.ofInt q.1.bits a) (BitVec.ofInt q.1.bits b) = some (BitVec.ofInt q.1.bits v) := by
  unfold CSem.shift at h
  split at h
  case isFalse => cases h
  rename_i hb
  have hbn : (BitVec.ofInt q.1.bits b).toNat = b.toNat := by
    have h2 : ((2 ^ q.1.bits : Nat) : Int) = 2 ^ q.1.bits := by simp
    rw [BitVec.toNat_ofInt, h2, Int.emod_eq_of_lt hb.1]
    have : q.1.bits < 2 ^ q.1.bits := Nat.lt_two_pow_self
    omega
  have hlt : b.toNat < q.1.bits := by omega
  split at h
  · have key : BitVec.ofNat q.1.bits ((BitVec.ofInt q.1.bits a).toNat * 2 ^ b.toNat) = BitVec.ofInt q.1.bits (a * 2 ^ b.toNat) := by
      rw [BitVec.ofInt_mul]
      apply BitVec.eq_of_toNat_eq
      have : (2 : Int) ^ b.toNat = ((2 ^ b.toNat : Nat) : Int) := by simp
      rw [this, BitVec.ofInt_natCast]
      simp
    simp only [Gen.binOp, IMach.arith, hbn, if_pos hlt, ISem.shift, key]
    split at h
    · rename_i hu
      cases h
      have h1 := wrap_inRange q (a * 2 ^ b.toNat)
      have h2 := ofInt_wrap q (a * 2 ^ b.toNat)
      unfold wrap at h1 h2
      rw [if_pos hu] at h1 h2
      exact ⟨h1, by rw [h2]⟩
    · split at h
      · rename_i hc
        cases h
        exact ⟨hc.2, rfl⟩
      · cases h
  · cases h
    refine ⟨shift_range ha, ?_⟩
    simp only [Gen.binOp, IMach.arith, hbn, if_pos hlt, ISem.shift]
    obtain ⟨s, u⟩ := q
    cases u
    · simp only [Bool.false_eq_true, if_false, toInt_ofInt ha hq]
    · simp only [if_true]
      have := toNat_ofInt ha
      generalize hA : (BitVec.ofInt s.bits a).toNat = n at this
      subst this
      have e : (n : Int) / 2 ^ b.toNat = ((n / 2 ^ b.toNat : Nat) : Int) := by simp
      rw [e, BitVec.ofInt_natCast]
  · cases h

/-- comparisons of the machine agree with C's -/
theorem rel_ok {op : SBin} {q : Sfx × Bool} {a b : Int} {v : Bool} (hq : q.1 ≠ .none) (ha : InRange q a) (hb : InRange q b)
    (h : CSem.compare op a b = some v) :
    ISem.rel (Gen.binOp op) q.2 (BitVec.ofInt q.1.bits a) (BitVec.ofInt q.1.bits b) = some v := by
  obtain ⟨s, u⟩ := q
  have he : (BitVec.ofInt s.bits a).toNat = (BitVec.ofInt s.bits b).toNat ↔ a = b :=
    ⟨fun h => inj ha hb hq (BitVec.eq_of_toNat_eq h), fun h => by rw [h]⟩
  unfold CSem.compare at h
  cases u
  · have h1 := toInt_ofInt ha hq
    have h2 := toInt_ofInt hb hq
    split at h <;> cases h <;> simp only [Gen.binOp, ISem.rel, he, h1, h2, Bool.false_eq_true, if_false, ne_eq, GT.gt, GE.ge]
  · have h1 := toNat_ofInt ha
    have h2 := toNat_ofInt hb
    split at h <;> cases h <;> simp only [Gen.binOp, ISem.rel, he, if_true, ne_eq, GT.gt, GE.ge, Option.some.injEq, decide_eq_decide] <;> omega

/-- the branch for a comparison is taken if the comparison has the given result -/
theorem cjmp_ok {op : SBin} {q : Sfx × Bool} {a b : Int} {v w : Bool} {j : IOp} (hq : q.1 ≠ .none) (ha : InRange q a) (hb : InRange q b)
    (h : CSem.compare op a b = some v) (hj : Gen.cjmp op w = some j) :
    ISem.rel j q.2 (BitVec.ofInt q.1.bits a) (BitVec.ofInt q.1.bits b) = some (decide (v = w)) := by
  obtain ⟨s, u⟩ := q
  have he : (BitVec.ofInt s.bits a).toNat = (BitVec.ofInt s.bits b).toNat ↔ a = b :=
    ⟨fun h => inj ha hb hq (BitVec.eq_of_toNat_eq h), fun h => by rw [h]⟩
  unfold CSem.compare at h
  cases u
  · have h1 := toInt_ofInt ha hq
    have h2 := toInt_ofInt hb hq
    split at h <;> cases h <;> cases w <;> cases hj <;>
      simp only [ISem.rel, he, h1, h2, Bool.false_eq_true, if_false, if_true, ne_eq, GT.gt, GE.ge, Option.some.injEq, decide_eq_decide,
        decide_eq_true_eq, decide_eq_false_iff_not, Decidable.not_not] <;> omega
  · have h1 := toNat_ofInt ha
    have h2 := toNat_ofInt hb
    split at h <;> cases h <;> cases w <;> cases hj <;>
      simp only [ISem.rel, he, Bool.false_eq_true, if_false, if_true, ne_eq, GT.gt, GE.ge, Option.some.injEq, decide_eq_decide,
        decide_eq_true_eq, decide_eq_false_iff_not, Decidable.not_not] <;> omega

/-! ### memory -/

theorem nbytes_bits {s : Sfx} : 2 ^ s.bits = 256 ^ s.nbytes := by cases s <;> rfl

theorem read_load (q : Sfx × Bool) (m : IMach.Mem) (a : Int) :
    IMach.read m (BitVec.ofInt 64 a) q.1 = BitVec.ofInt q.1.bits (CSem.load q m a) := by
  unfold CSem.load IMach.read
  rw [ofInt_wrap, BitVec.ofInt_natCast]

theorem load_inRange (q : Sfx × Bool) (m : IMach.Mem) (a : Int) : InRange q (CSem.load q m a) := wrap_inRange _ _

theorem write_store (q : Sfx × Bool) (m : IMach.Mem) (a v : Int) :
    IMach.write m (BitVec.ofInt 64 a) q.1 (BitVec.ofInt q.1.bits v) = CSem.store q m a v := by
  unfold CSem.store IMach.write
  have h2 : ((2 ^ q.1.bits : Nat) : Int) = 2 ^ q.1.bits := by simp
  rw [BitVec.toNat_ofInt, h2]

end Sim
end Umlcc
