import Verif.Spec.Layout
import Verif.Lemma.SimExprs
/-!
Data of static objects: bytes, parts and their places.
-/
namespace Umlcc
namespace Lay
open CSem (rep eval safe)
open Gen (GState lookup globalInit globalInits globalMembers globalStruct memberList structType padding stripCasts dtypedLit globalScalar arrayInit)

/-- what the generator's tag table says -/
def tagsOf (tags : List (List (Str × DType))) (n : Str) : Option (Members × Nat) :=
  match lookup n tags with
  | some (.ustruct ms b _) => some (ms, b)
  | _ => none

theorem leBytes_congr : ∀ (n : Nat) {v w : Int}, v % 2 ^ (8 * n) = w % 2 ^ (8 * n) → leBytes n v = leBytes n w
  | 0, _, _, _ => rfl
  | n + 1, v, w, h => by
    have h1 : (2 : Int) ^ (8 * (n + 1)) = 256 * 2 ^ (8 * n) := by
      rw [Nat.mul_add, Int.pow_add, Int.mul_comm]
      rfl
    rw [h1] at h
    have h2 : v % 256 = w % 256 := by
      rw [← Int.emod_emod_of_dvd v (Int.dvd_mul_right 256 (2 ^ (8 * n))), h, Int.emod_emod_of_dvd w (Int.dvd_mul_right 256 (2 ^ (8 * n)))]
    have h3 : v / 256 % 2 ^ (8 * n) = w / 256 % 2 ^ (8 * n) := by
      have hd := Int.emod_emod_of_dvd
      have : (256 * 2 ^ (8 * n) : Int) ∣ v - w := by
        rw [Int.dvd_iff_emod_eq_zero, Int.sub_emod, h, Int.sub_self]
        rfl
      obtain ⟨k, hk⟩ := this
      have hv : v = w + 256 * (2 ^ (8 * n) * k) := by rw [← Int.mul_assoc]; omega
      rw [hv, Int.add_mul_ediv_left _ _ (by decide), Int.add_mul_emod_self_left]
    rw [leBytes, leBytes, h2, leBytes_congr n h3]

theorem leBytes_length : ∀ (n : Nat) (v : Int), (leBytes n v).length = n
  | 0, _ => rfl
  | n + 1, v => by rw [leBytes, List.length_cons, leBytes_length n]

/-- literals with casts -/
def literal : SExpr → Bool
  | .ilit _ _ => true
  | .un .cast _ e => literal e
  | _ => false

theorem literal_strip : ∀ {e : SExpr}, literal e = true → ∃ t l, stripCasts e = .ilit t l
  | .ilit t l, _ => ⟨t, l, rfl⟩
  | .un .cast _ e, h => by
    rw [stripCasts]
    exact literal_strip (e := e) (by simpa [literal] using h)
  | .un .preinc _ _, h | .un .predec _ _, h | .un .addr _ _, h | .un .indir _ _, h | .un .pos _ _, h | .un .neg _ _, h | .un .not _ _, h | .un .lnot _ _, h
  | .un .postinc _ _, h | .un .postdec _ _, h | .ident _ _, h | .str _ _, h | .bin _ _ _ _, h | .cond _ _ _ _, h | .call _ _ _, h | .tomember _ _ _ _, h => by
    simp [literal] at h

/-- a literal with casts that may be merged has the value of the literal, in the type of the casts -/
theorem literal_value {W : Type} {C : CSem.Ctx W} : ∀ {e : SExpr} {o : Option DType} {t : DType} {l : ILit} {σ : IMach.Mem × W} {x : Int × IMach.Mem × W} {q : Sfx × Bool},
    stripCasts e = .ilit t l → safe o e = true → eval C e σ = some x → rep (o.getD e.dt) = some q → (rep e.dt).isSome = true →
    BitVec.ofInt q.1.bits l.value = BitVec.ofInt q.1.bits x.1
  | .ilit t' l', o, t, l, σ, x, q, h, hs, hx, hq, h1 => by
    rw [stripCasts] at h
    · cases h
      obtain ⟨q', -, -, rfl⟩ := CSem.eval_ilit hx
      rfl
    · nofun
  | .un .cast t' e, o, t, l, σ, x, q, h, hs, hx, hq, h1 => by
    rw [stripCasts] at h
    obtain ⟨y, h2, ⟨h3, rfl⟩ | ⟨h3, qt, h4, h5, rfl⟩⟩ := CSem.eval_cast hx
    · obtain ⟨q', hq1⟩ := Option.isSome_iff_exists.1 h1
      have := (Sim.rep_get hq1).2.2.2
      rw [SExpr.dt, h3] at this
      cases this
    · simp only [safe, Bool.and_eq_true] at hs
      have ih := literal_value h hs.2 h2 (q := q) (by simpa [SExpr.dt] using hq) h5
      rw [ih]
      obtain ⟨qe, hqe⟩ := Option.isSome_iff_exists.1 h5
      cases o with
      | none =>
        simp only [Option.getD_none, SExpr.dt] at hq
        rw [hq] at h4
        cases h4
        rw [Sim.ofInt_wrap]
      | some t3 =>
        simp only [Option.getD_some] at hq
        have hc := hs.1
        simp only [Option.all_some, CSem.collapses, hq, h4, hqe, Bool.or_eq_true, decide_eq_true_eq] at hc
        rcases hc with hc | hc
        · rw [Sim.ofInt_wrap_le qt hc]
        · have hqt := (Sim.rep_get h4).2.2.1
          rw [Sim.wrap_eq (Sim.fits_range hqt hc (CSem.eval_range e hqe h2)) hqt]
  | .un .preinc _ _, _, _, _, _, _, _, h, _, _, _, _ | .un .predec _ _, _, _, _, _, _, _, h, _, _, _, _ | .un .addr _ _, _, _, _, _, _, _, h, _, _, _, _
  | .un .indir _ _, _, _, _, _, _, _, h, _, _, _, _ | .un .pos _ _, _, _, _, _, _, _, h, _, _, _, _ | .un .neg _ _, _, _, _, _, _, _, h, _, _, _, _
  | .un .not _ _, _, _, _, _, _, _, h, _, _, _, _ | .un .lnot _ _, _, _, _, _, _, _, h, _, _, _, _
  | .un .postinc _ _, _, _, _, _, _, _, h, _, _, _, _ | .un .postdec _ _, _, _, _, _, _, _, h, _, _, _, _ | .ident _ _, _, _, _, _, _, _, h, _, _, _, _
  | .str _ _, _, _, _, _, _, _, h, _, _, _, _ | .bin _ _ _ _, _, _, _, _, _, _, h, _, _, _, _ | .cond _ _ _ _, _, _, _, _, _, _, h, _, _, _, _
  | .call _ _ _, _, _, _, _, _, _, h, _, _, _, _ | .tomember _ _ _ _, _, _, _, _, _, _, h, _, _, _, _ => by
    simp [stripCasts] at h

theorem dtypedLit_value (t : DType) (l : ILit) : (dtypedLit t l).value % 2 ^ 64 = l.value % 2 ^ 64 := by
  unfold dtypedLit Gen.toU64 Gen.toS64
  split <;> simp only <;> omega

theorem ofInt_mod {n : Nat} {v w : Int} (h : BitVec.ofInt n v = BitVec.ofInt n w) : v % 2 ^ n = w % 2 ^ n := by
  have := congrArg BitVec.toNat h
  rw [BitVec.toNat_ofInt, BitVec.toNat_ofInt] at this
  have hp : (0 : Int) < ((2 ^ n : Nat) : Int) := by have := Nat.two_pow_pos n; omega
  have a := Int.emod_nonneg v (Int.ne_of_gt hp)
  have b := Int.emod_nonneg w (Int.ne_of_gt hp)
  have : v % ((2 ^ n : Nat) : Int) = w % ((2 ^ n : Nat) : Int) := by omega
  simpa using this

/-- a constant for a scalar -/
theorem globalScalar_ok {t : DType} {e : SExpr} {b : List UInt8} (h : (Leaf.val t e).image = some b) (hl : literal e = true) (hs : safe none e = true) (s : GState) :
    ∃ d, globalScalar t e s = .ok ((), [.data d], s) ∧ directive d = b := by
  simp only [Leaf.image, Option.bind_eq_bind, Option.bind_eq_some_iff, CSem.need_some, constant, Option.map_eq_some_iff, Option.some.injEq] at h
  obtain ⟨q, hq, _, hq', v, ⟨x, hx, rfl⟩, rfl⟩ := h
  obtain ⟨t0, l, hl⟩ := literal_strip hl
  have h1 := ofInt_mod (literal_value hl hs hx (q := q) (by simpa using hq') (by rw [hq']; rfl))
  have h2 := dtypedLit_value t l
  obtain ⟨e1, e2, e3, -⟩ := Sim.rep_get hq
  have hn : (t.nbytes = 1 ∧ q.1 = .byte) ∨ (t.nbytes = 2 ∧ q.1 = .word) ∨ (t.nbytes = 4 ∧ q.1 = .long) ∨ (t.nbytes = 8 ∧ q.1 = .quad) := by
    cases t <;> simp only [rep, Option.some.injEq] at hq <;> (try cases hq) <;> simp [DType.nbytes]
  simp only [globalScalar, hl]
  rcases hn with ⟨a, b⟩ | ⟨a, b⟩ | ⟨a, b⟩ | ⟨a, b⟩ <;> rw [a] <;> refine ⟨_, rfl, ?_⟩ <;> rw [b, Sfx.bits] at h1 <;>
    exact leBytes_congr _ (by omega)

/-! ### bytes and parts -/

/-- the bytes are those of the object from offset `o` on -/
def Spells (ps : List (Nat × List UInt8)) (o : Nat) (bs : List UInt8) : Prop := ∀ k, k < bs.length → bs[k]? = some (byteAt ps (o + k))
/-- all parts lie between two offsets -/
def Within (ps : List (Nat × List UInt8)) (a b : Nat) : Prop := ∀ p ∈ ps, a ≤ p.1 ∧ p.1 + p.2.length ≤ b

theorem byteAt_right {ps qs : List (Nat × List UInt8)} {a b k : Nat} (h : Within ps a b) (hk : k < a ∨ b ≤ k) : byteAt (ps ++ qs) k = byteAt qs k := by
  induction ps with
  | nil => rfl
  | cons p ps ih =>
    obtain ⟨o, bs⟩ := p
    have := h (o, bs) (by simp)
    simp only at this
    rw [List.cons_append, byteAt, if_neg (by omega), ih fun p hp => h p (by simp [hp])]

theorem byteAt_zero {ps : List (Nat × List UInt8)} {a b k : Nat} (h : Within ps a b) (hk : k < a ∨ b ≤ k) : byteAt ps k = 0 := by
  have := byteAt_right (qs := []) h hk
  rwa [List.append_nil] at this

theorem byteAt_left {ps qs : List (Nat × List UInt8)} {a b k : Nat} (h : Within qs a b) (hk : k < a ∨ b ≤ k) : byteAt (ps ++ qs) k = byteAt ps k := by
  induction ps with
  | nil => exact byteAt_zero h hk
  | cons p ps ih =>
    obtain ⟨o, bs⟩ := p
    rw [List.cons_append, byteAt, byteAt, ih]

theorem Within.append {ps qs : List (Nat × List UInt8)} {a b c : Nat} (h : Within ps a b) (k : Within qs b c) (h1 : a ≤ b) (h2 : b ≤ c) : Within (ps ++ qs) a c := by
  intro p hp
  rcases List.mem_append.1 hp with hp | hp
  · have := h p hp; omega
  · have := k p hp; omega

theorem Within.mono {ps : List (Nat × List UInt8)} {a b a' b' : Nat} (h : Within ps a b) (h1 : a' ≤ a) (h2 : b ≤ b') : Within ps a' b' := by
  intro p hp
  have := h p hp
  omega

theorem Spells.append {ps qs : List (Nat × List UInt8)} {o c : Nat} {as bs : List UInt8} (ha : Spells ps o as) (wa : Within ps o (o + as.length))
    (hb : Spells qs (o + as.length) bs) (wb : Within qs (o + as.length) c) : Spells (ps ++ qs) o (as ++ bs) := by
  intro k hk
  rw [List.length_append] at hk
  by_cases h : k < as.length
  · rw [List.getElem?_append_left h, ha k h, byteAt_left wb (.inl (by omega))]
  · rw [List.getElem?_append_right (by omega), hb _ (by omega), byteAt_right wa (.inr (by omega))]
    rw [show o + as.length + (k - as.length) = o + k by omega]

theorem Spells.zeros {ps : List (Nat × List UInt8)} {o n : Nat} {as : List UInt8} (ha : Spells ps o as) (wa : Within ps o (o + as.length)) :
    Spells ps o (as ++ List.replicate n 0) := by
  have := ha.append wa (qs := []) (bs := List.replicate n 0) (c := o + as.length) (fun k hk => by
    rw [List.length_replicate] at hk
    simp [byteAt, List.getElem?_replicate, hk]) nofun
  rwa [List.append_nil] at this

theorem Spells.one {o : Nat} {bs : List UInt8} : Spells [(o, bs)] o bs := by
  intro k hk
  rw [byteAt, if_pos (by omega), List.getElem?_eq_getElem hk]
  simp [hk]

theorem Spells.object {ps : List (Nat × List UInt8)} {bs : List UInt8} (h : Spells ps 0 bs) : bs = object bs.length ps := by
  apply List.ext_getElem?
  intro k
  by_cases hk : k < bs.length
  · rw [h k hk]
    simp [Lay.object, hk]
  · rw [List.getElem?_eq_none (by omega), List.getElem?_eq_none (by simp [Lay.object]; omega)]

theorem images_append {as bs : List (Nat × Leaf)} {ps : List (Nat × List UInt8)} (h : images (as ++ bs) = some ps) :
    ∃ pa pb, images as = some pa ∧ images bs = some pb ∧ ps = pa ++ pb := by
  induction as generalizing ps with
  | nil => exact ⟨[], ps, rfl, h, rfl⟩
  | cons a as ih =>
    obtain ⟨o, l⟩ := a
    simp only [List.cons_append, images, Option.bind_eq_bind, Option.bind_eq_some_iff, Option.some.injEq] at h
    obtain ⟨b, h1, bs', h2, rfl⟩ := h
    obtain ⟨pa, pb, h3, h4, rfl⟩ := ih h2
    exact ⟨(o, b) :: pa, pb, by simp [images, h1, h3], h4, rfl⟩

mutual
/-- all values are literals with casts that may be merged -/
def literals : SInit → Bool
  | .expr e => literal e && safe none e
  | .str _ _ => true
  | .list is => literalsL is
def literalsL : SInits → Bool
  | .nil => true
  | .cons i is => literals i && literalsL is
end

/-- code of data, without effect on the generator's state, for bytes of parts between two offsets -/
def Emits (m : Gen.GM Unit) (s : GState) (ps : List (Nat × List UInt8)) (a b : Nat) : Prop :=
  ∃ ds, m s = .ok ((), ds.map .data, s) ∧ a + (assembled ds).length = b ∧ Spells ps a (assembled ds) ∧ Within ps a b

theorem Emits.bind {m : Gen.GM Unit} {f : Unit → Gen.GM Unit} {s : GState} {ps qs : List (Nat × List UInt8)} {a b c : Nat} (h : Emits m s ps a b) (k : Emits (f ()) s qs b c) :
    Emits (m >>= f) s (ps ++ qs) a c := by
  obtain ⟨ds, h1, rfl, h3, h4⟩ := h
  obtain ⟨es, k1, rfl, k3, k4⟩ := k
  refine ⟨ds ++ es, Gen.bind_ok.2 ⟨_, _, _, _, h1, k1, by simp⟩, ?_, ?_, h4.append k4 (by omega) (by omega)⟩
  · rw [assembled, List.flatMap_append, List.length_append]
    simp only [assembled]
    omega
  · rw [assembled, List.flatMap_append]
    exact h3.append h4 k3 k4

theorem Emits.pad {s : GState} {n : Int} {a b : Nat} (h : (a : Int) + n = b) (hn : 0 ≤ n) : Emits (padding n) s [] a b := by
  unfold padding
  split
  · refine ⟨[.zero ⟨.int, n⟩], rfl, ?_, ?_, nofun⟩
    · simp [assembled, directive]; omega
    · intro k hk
      simp [assembled, directive] at hk
      simp [assembled, directive, byteAt, List.getElem?_replicate]
      omega
  · exact ⟨[], rfl, by simp [assembled]; omega, nofun, nofun⟩

theorem structOf_ok {tags : List (List (Str × DType))} {t : DType} {ms : Members} {b : Nat} (h : structOf (tagsOf tags) t = some (ms, b)) {s : GState} (hs : s.tags = tags) :
    t.nbytes = b ∧ ordered ms 0 b = true ∧ atStart ms = true ∧ ∃ al, structType t s = .ok (.ustruct ms b al, [], s) := by
  cases t with
  | ustruct ms' b' a =>
    simp only [structOf] at h
    split at h
    · cases h
      rename_i h
      exact ⟨rfl, h.1, h.2, _, rfl⟩
    · cases h
  | nstruct n b' a =>
    simp only [structOf, tagsOf] at h
    subst hs
    cases hl : lookup n s.tags with
    | none => simp [hl] at h
    | some t =>
      cases t <;> simp only [hl] at h <;> try cases h
      split at h
      · cases h
        rename_i h
        obtain ⟨rfl, h1, h2⟩ := h
        exact ⟨rfl, h1, h2, _, Gen.bind_ok.2 ⟨_, _, _, _, rfl, by simp only [hl]; rfl, rfl⟩⟩
      · cases h
  | _ => simp [structOf] at h

/-- offset of the first of the members, or the end of the structure -/
def start : Members → Nat → Nat
  | .nil, size => size
  | .cons _ _ o _, _ => o

mutual
theorem globalInit_emits (s : GState) : ∀ (i : SInit) (t : DType) (o : Nat) (ls : List (Nat × Leaf)) (ps : List (Nat × List UInt8)),
    leaves (tagsOf s.tags) i t o = some ls → images ls = some ps → literals i = true → Emits (globalInit i t) s ps o (o + t.nbytes)
  | .expr e, t, o, ls, ps, h, hp, hl => by
    simp only [leaves] at h
    split at h <;> cases h
    rename_i hsc
    simp only [images, Option.bind_eq_bind, Option.bind_eq_some_iff, Option.some.injEq] at hp
    obtain ⟨b, h1, _, rfl, rfl⟩ := hp
    simp only [literals, Bool.and_eq_true] at hl
    obtain ⟨d, h2, h3⟩ := globalScalar_ok h1 hl.1 hl.2 s
    have hlen : b.length = t.nbytes := by
      simp only [Leaf.image, Option.bind_eq_bind, Option.bind_eq_some_iff, Option.some.injEq] at h1
      obtain ⟨_, _, _, _, _, _, rfl⟩ := h1
      exact leBytes_length _ _
    refine ⟨[d], ?_, by simp [assembled, h3, hlen], ?_, ?_⟩
    · rw [globalInit, if_pos (by cases t <;> first | rfl | cases hsc)]
      exact h2
    · simp only [assembled, List.flatMap_cons, List.flatMap_nil, List.append_nil, h3]
      exact .one
    · intro p hp
      simp at hp
      subst hp
      simp [hlen]
  | .str _ b, t, o, ls, ps, h, hp, _ => by
    cases t with
    | arr u n =>
      cases u <;> simp only [leaves] at h <;> try cases h
      split at h <;> cases h
      rename_i hb
      cases hp
      refine ⟨[.str b], rfl, by simp [assembled, directive, DType.nbytes, hb], ?_, ?_⟩
      · simp only [assembled, List.flatMap_cons, List.flatMap_nil, List.append_nil, directive]
        exact .one
      · intro p hp
        simp at hp
        subst hp
        simp [DType.nbytes, hb]
    | _ => simp [leaves] at h
  | .list is, t, o, ls, ps, h, hp, hl => by
    have hl : literalsL is = true := by simpa [literals] using hl
    have key : ∀ {ms b}, structOf (tagsOf s.tags) t = some (ms, b) → members (tagsOf s.tags) is ms o = some ls → Emits (globalStruct t (globalInits is)) s ps o (o + t.nbytes) := by
      intro ms b h1 h2
      obtain ⟨rfl, h3, h4, al, h5⟩ := structOf_ok h1 rfl
      obtain ⟨ds, k1, k2, k3, k4⟩ := globalMembers_emits s is ms o 0 t.nbytes ls ps h2 hp hl h3
      have h0 : start ms t.nbytes = 0 := by
        cases ms with
        | nil => cases h4
        | cons _ _ k _ => simpa [atStart, start] using h4
      rw [h0] at k2 k3 k4
      refine ⟨ds, ?_, k2, k3, k4⟩
      rw [globalStruct]
      exact Gen.bind_ok.2 ⟨_, _, _, _, h5, k1, rfl⟩
    cases t with
    | arr u n =>
      rw [globalInit]
      exact elems_emits s is u n o ls ps (by simpa only [leaves] using h) hp hl
    | nstruct n b a =>
      rw [globalInit]
      simp only [leaves] at h
      split at h
      · rename_i ms b' h1
        exact key h1 h
      · cases h
    | ustruct ms b a =>
      rw [globalInit]
      simp only [leaves] at h
      split at h
      · rename_i ms b' h1
        exact key h1 h
      · cases h
    | _ => simp [leaves, structOf] at h
theorem elems_emits (s : GState) : ∀ (is : SInits) (t : DType) (n o : Nat) (ls : List (Nat × Leaf)) (ps : List (Nat × List UInt8)),
    elems (tagsOf s.tags) is t n o = some ls → images ls = some ps → literalsL is = true → Emits (arrayInit t n (globalInits is)) s ps o (o + (DType.arr t n).nbytes)
  | .nil, t, n, o, ls, ps, h, hp, _ => by
    cases n with
    | zero =>
      simp only [elems, Option.some.injEq] at h
      subst h
      cases hp
      exact ⟨[], rfl, by simp [assembled, DType.nbytes], nofun, nofun⟩
    | succ n => simp [elems] at h
  | .cons i is, t, n, o, ls, ps, h, hp, hl => by
    cases n with
    | zero => simp [elems] at h
    | succ n =>
      simp only [elems] at h
      split at h
      · rename_i a b h1 h2
        cases h
        obtain ⟨pa, pb, h3, h4, rfl⟩ := images_append hp
        simp only [literalsL, Bool.and_eq_true] at hl
        have k1 := globalInit_emits s i t o a pa h1 h3 hl.1
        have k2 := elems_emits s is t n (o + t.nbytes) b pb h2 h4 hl.2
        rw [globalInits, arrayInit]
        rw [show o + t.nbytes + (DType.arr t n).nbytes = o + (DType.arr t (n + 1)).nbytes by simp only [DType.nbytes, Nat.add_mul]; omega] at k2
        exact k1.bind k2
      · cases h
theorem globalMembers_emits (s : GState) : ∀ (is : SInits) (ms : Members) (o pos size : Nat) (ls : List (Nat × Leaf)) (ps : List (Nat × List UInt8)),
    members (tagsOf s.tags) is ms o = some ls → images ls = some ps → literalsL is = true → ordered ms pos size = true →
    Emits (globalMembers size (memberList ms) (globalInits is)) s ps (o + start ms size) (o + size)
  | .nil, ms, o, pos, size, ls, ps, h, hp, _, ho => by
    cases ms with
    | nil =>
      simp only [members, Option.some.injEq] at h
      subst h
      cases hp
      exact ⟨[], rfl, by simp [assembled, start], nofun, nofun⟩
    | cons _ _ _ _ => simp [members] at h
  | .cons i is, ms, o, pos, size, ls, ps, h, hp, hl, ho => by
    cases ms with
    | nil => simp [members] at h
    | cons nm t k ms =>
      simp only [members] at h
      split at h
      · rename_i a b h1 h2
        cases h
        obtain ⟨pa, pb, h3, h4, rfl⟩ := images_append hp
        simp only [literalsL, Bool.and_eq_true] at hl
        simp only [ordered, Bool.and_eq_true, decide_eq_true_eq] at ho
        have k1 := globalInit_emits s i t (o + k) a pa h1 h3 hl.1
        have k2 := globalMembers_emits s is ms o (k + t.nbytes) size b pb h2 h4 hl.2 ho.2
        have hst : k + t.nbytes ≤ start ms size := by
          cases ms with
          | nil => simpa [ordered, start] using ho.2
          | cons _ _ _ _ =>
            have := ho.2
            simp only [ordered, Bool.and_eq_true, decide_eq_true_eq] at this
            exact this.1
        have hn : (match memberList ms with | (_, o') :: _ => (o' : Int) | [] => (size : Int)) = ((start ms size : Nat) : Int) := by
          cases ms <;> rfl
        have k3 := Emits.pad (s := s) (n := (start ms size : Int) - (k + t.nbytes)) (a := o + k + t.nbytes) (b := o + start ms size) (by omega) (by omega)
        have := k1.bind (f := fun _ => padding ((start ms size : Int) - (k + t.nbytes)) >>= fun _ => globalMembers size (memberList ms) (globalInits is)) (k3.bind k2)
        rw [← hn] at this
        exact this
      · cases h
end

end Lay
end Umlcc
