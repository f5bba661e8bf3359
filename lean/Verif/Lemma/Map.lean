import Verif.Model.Map
/-! Helper lemmas for the hash map. -/
namespace Umlcc
namespace HMap
variable {K V : Type} [DecidableEq K]

def isLive : Slot K V → Bool
  | .cell _ _ false => true
  | _ => false

def isNull : Slot K V → Bool
  | .null => true
  | _ => false

/-- `i` is reached from the start `h` of the probe sequence through non-NULL slots. -/
def Reach (slots : List (Slot K V)) (h i : Nat) : Prop :=
  ∃ d, d < slots.length ∧ i = (h + d) % slots.length ∧
    ∀ d', d' < d → ∃ k v b, slots[(h + d') % slots.length]? = some (.cell k v b)

/-- every live cell is found by its probe sequence -/
def AllReach (hash : K → Int) (slots : List (Slot K V)) : Prop :=
  ∀ (i : Nat) k v, slots[i]? = some (.cell k v false) → Reach slots ((hash k).tmod slots.length).toNat i

/-- The invariant of every history. -/
structure Inv (hash : K → Int) (m : HMap K V) : Prop where
  room : 2 * m.size + 1 ≤ m.slots.length
  live : m.slots.countP isLive ≤ m.size
  reach : AllReach hash m.slots

def Uniq (slots : List (Slot K V)) : Prop :=
  ∀ (i j : Nat) k v w, slots[i]? = some (.cell k v false) → slots[j]? = some (.cell k w false) → i = j

def NoTomb (slots : List (Slot K V)) : Prop :=
  ∀ (i : Nat) k v, slots[i]? ≠ some (.cell k v true)

def LiveAt (slots : List (Slot K V)) (k : K) (v : V) : Prop :=
  ∃ i : Nat, slots[i]? = some (.cell k v false)

theorem index_ok {h : Int} {cap : Nat} (hh : 0 ≤ h) (hc : 0 < cap) :
    index h cap = .ok (h.tmod cap).toNat ∧ (h.tmod cap).toNat < cap := by
  have h1 : 0 ≤ h.tmod cap := Int.tmod_nonneg _ hh
  have h2 : h.tmod cap < cap := Int.tmod_lt_of_pos _ (by omega)
  have : cap ≠ 0 := by omega
  refine ⟨by simp [index, this, h1], by omega⟩

theorem mod_succ (a c : Nat) : (a % c + 1) % c = (a + 1) % c := by
  simp [Nat.add_mod]

theorem mod_back {o d c : Nat} (ho : o < c) (hd : d + 1 ≤ c) :
    (o + d + 1) % c = o ↔ d + 1 = c := by
  constructor
  · intro h
    by_cases h1 : o + d + 1 < c
    · rw [Nat.mod_eq_of_lt h1] at h; omega
    · have : o + d + 1 = (o + d + 1 - c) + c := by omega
      rw [this, Nat.add_mod_right, Nat.mod_eq_of_lt (by omega)] at h; omega
  · intro h
    have : o + d + 1 = o + c := by omega
    rw [this, Nat.add_mod_right, Nat.mod_eq_of_lt ho]

/-- all slots are visited by a probe sequence -/
theorem mod_surj {o c p : Nat} (ho : o < c) (hp : p < c) : ∃ d, d < c ∧ (o + d) % c = p := by
  by_cases h : o ≤ p
  · exact ⟨p - o, by omega, by rw [show o + (p - o) = p by omega, Nat.mod_eq_of_lt hp]⟩
  · refine ⟨c - o + p, by omega, ?_⟩
    rw [show o + (c - o + p) = p + c by omega, Nat.add_mod_right, Nat.mod_eq_of_lt hp]

theorem get_lt {slots : List (Slot K V)} {i : Nat} {s : Slot K V} (h : slots[i]? = some s) : i < slots.length := by
  rw [List.getElem?_eq_some_iff] at h; exact h.1

/-- Result of the search loop started at offset `d` of the probe sequence. -/
theorem find_spec (slots : List (Slot K V)) (key : K) (orig : Nat) (ho : orig < slots.length) :
    ∀ (fuel d : Nat), d + fuel = slots.length → 0 < fuel →
    ∃ r, find slots key orig fuel ((orig + d) % slots.length) = .ok r ∧
      match r with
      | some i => ∃ v, slots[i]? = some (.cell key v false)
      | none => ∃ e, d ≤ e ∧ e ≤ slots.length ∧ (e < slots.length → slots[(orig + e) % slots.length]? = some .null) ∧
          ∀ d', d ≤ d' → d' < e → ∀ v, slots[(orig + d') % slots.length]? ≠ some (.cell key v false) := by
  intro fuel
  induction fuel with
  | zero => intro d _ h; omega
  | succ n ih =>
    intro d hd _
    have hlt : (orig + d) % slots.length < slots.length := Nat.mod_lt _ (by omega)
    unfold find
    rw [List.getElem?_eq_getElem hlt]
    cases hs : slots[(orig + d) % slots.length] with
    | null =>
      refine ⟨none, rfl, d, by omega, by omega, ?_, by omega⟩
      intro _; rw [List.getElem?_eq_getElem hlt, hs]
    | cell k v b =>
      by_cases hk : b = false ∧ k = key
      · simp only [hk, and_self, if_true]
        refine ⟨_, rfl, v, ?_⟩
        rw [List.getElem?_eq_getElem hlt, hs]; simp [hk]
      · simp only [hk, if_false]
        have hne : ∀ w, slots[(orig + d) % slots.length]? ≠ some (.cell key w false) := by
          intro w; rw [List.getElem?_eq_getElem hlt, hs]; intro h'
          simp at h'; exact hk ⟨h'.2.2, h'.1⟩
        rw [mod_succ]
        by_cases hb : d + 1 = slots.length
        · rw [if_pos ((mod_back ho (by omega)).mpr hb)]
          refine ⟨none, rfl, d + 1, by omega, by omega, by omega, ?_⟩
          intro d' h1 h2 w
          have : d' = d := by omega
          subst this; exact hne w
        · rw [if_neg (fun h => hb ((mod_back ho (by omega)).mp h))]
          obtain ⟨r, hr, hr2⟩ := ih (d + 1) (by omega) (by omega)
          refine ⟨r, hr, ?_⟩
          cases r with
          | some i => exact hr2
          | none =>
            obtain ⟨e, h1, h2, h3, h4⟩ := hr2
            refine ⟨e, by omega, h2, h3, ?_⟩
            intro d' h5 h6 w
            by_cases hdd : d' = d
            · subst hdd; exact hne w
            · exact h4 d' (by omega) h6 w

/-- The search finds a live cell of the key if there is one. -/
theorem find_correct {hash : K → Int} (hn : ∀ k, 0 ≤ hash k) {slots : List (Slot K V)} (hr : AllReach hash slots)
    (key : K) (hc : 0 < slots.length) :
    ∃ r, find slots key ((hash key).tmod slots.length).toNat slots.length ((hash key).tmod slots.length).toNat = .ok r ∧
      match r with
      | some i => ∃ v, slots[i]? = some (.cell key v false)
      | none => ∀ v, ¬ LiveAt slots key v := by
  have ⟨_, ho⟩ := index_ok (hn key) hc
  obtain ⟨r, h1, h2⟩ := find_spec slots key _ ho slots.length 0 (by omega) hc
  rw [Nat.add_zero, Nat.mod_eq_of_lt ho] at h1
  refine ⟨r, h1, ?_⟩
  cases r with
  | some i => exact h2
  | none =>
    obtain ⟨e, _, h3, h4, h5⟩ := h2
    intro v ⟨i, hi⟩
    obtain ⟨d, hd, hid, hpath⟩ := hr i key v hi
    by_cases hde : d < e
    · subst hid; exact h5 d (by omega) hde v hi
    · by_cases hee : e = d
      · have := h4 (by omega)
        rw [hee, ← hid, hi] at this; simp at this
      · obtain ⟨k', v', b', hk'⟩ := hpath e (by omega)
        rw [h4 (by omega)] at hk'; simp at hk'

theorem probe_spec (slots : List (Slot K V)) (stop : Slot K V → Bool) (orig : Nat) :
    ∀ (fuel d : Nat), (∃ e, e < fuel ∧ ∃ s, slots[(orig + d + e) % slots.length]? = some s ∧ stop s = true) →
    ∃ e s, e < fuel ∧ probe slots stop fuel ((orig + d) % slots.length) = .ok ((orig + d + e) % slots.length) ∧
      slots[(orig + d + e) % slots.length]? = some s ∧ stop s = true ∧
      ∀ e', e' < e → ∃ s, slots[(orig + d + e') % slots.length]? = some s ∧ stop s = false := by
  intro fuel
  induction fuel with
  | zero => intro d ⟨e, h, _⟩; omega
  | succ n ih =>
    intro d ⟨e, he, s, hs, hst⟩
    have hpos : 0 < slots.length := by have := get_lt hs; omega
    have hlt : (orig + d) % slots.length < slots.length := Nat.mod_lt _ hpos
    unfold probe
    rw [List.getElem?_eq_getElem hlt]
    by_cases h0 : stop slots[(orig + d) % slots.length] = true
    · refine ⟨0, _, by omega, by simp [h0], ?_, h0, by omega⟩
      simp
    · have hepos : e ≠ 0 := by
        intro h; subst h; simp only [Nat.add_zero] at hs
        rw [List.getElem?_eq_getElem hlt] at hs; simp at hs; rw [← hs] at hst; exact h0 hst
      obtain ⟨e1, s1, h1, h2, h3, h4, h5⟩ := ih (d + 1) ⟨e - 1, by omega, s, by
        rw [show orig + (d + 1) + (e - 1) = orig + d + e by omega]; exact hs, hst⟩
      refine ⟨e1 + 1, s1, by omega, ?_, ?_, h4, ?_⟩
      · simp only [h0, mod_succ]
        rw [show orig + d + 1 = orig + (d + 1) by omega, h2]
        simp; congr 1; omega
      · rw [show orig + d + (e1 + 1) = orig + (d + 1) + e1 by omega]; exact h3
      · intro e' he'
        by_cases h6 : e' = 0
        · subst h6; refine ⟨_, ?_, by simpa using h0⟩; simp
        · obtain ⟨s', hs', hs''⟩ := h5 (e' - 1) (by omega)
          refine ⟨s', ?_, hs''⟩
          rw [← hs']; congr 1
          rw [show orig + (d + 1) + (e' - 1) = orig + d + e' by omega]

/-- the probe loop from a start inside the table, given some slot that stops it -/
theorem probe_from {slots : List (Slot K V)} {stop : Slot K V → Bool} {orig : Nat} (ho : orig < slots.length)
    (h : ∃ (p : Nat) (s : Slot K V), slots[p]? = some s ∧ stop s = true) :
    ∃ e s, e < slots.length ∧ probe slots stop slots.length orig = .ok ((orig + e) % slots.length) ∧
      slots[(orig + e) % slots.length]? = some s ∧ stop s = true ∧
      ∀ e', e' < e → ∃ s, slots[(orig + e') % slots.length]? = some s ∧ stop s = false := by
  obtain ⟨p, s, hp, hs⟩ := h
  obtain ⟨d, hd, hdp⟩ := mod_surj ho (get_lt hp)
  have := probe_spec slots stop orig slots.length 0 ⟨d, hd, s, by simpa [hdp] using hp, hs⟩
  simpa [Nat.mod_eq_of_lt ho] using this

theorem exists_not_of_countP {α : Type} {p : α → Bool} {l : List α} (h : l.countP p < l.length) :
    ∃ (i : Nat) (a : α), l[i]? = some a ∧ p a = false := by
  induction l with
  | nil => simp at h
  | cons x xs ih =>
    by_cases hx : p x = true
    · simp only [List.countP_cons, hx, if_true, List.length_cons] at h
      obtain ⟨i, a, h1, h2⟩ := ih (by omega)
      exact ⟨i + 1, a, by simpa using h1, h2⟩
    · exact ⟨0, x, by simp, by simpa using hx⟩

theorem countP_set_le {α : Type} {p : α → Bool} {l : List α} {i : Nat} {a : α} :
    (l.set i a).countP p ≤ l.countP p + 1 := by
  induction l generalizing i with
  | nil => simp
  | cons x xs ih =>
    cases i with
    | zero => simp only [List.set_cons_zero, List.countP_cons]; split <;> split <;> omega
    | succ i => simp only [List.set_cons_succ, List.countP_cons]; have := @ih i; omega

theorem countP_set_lt {α : Type} {p : α → Bool} {l : List α} {i : Nat} {a b : α}
    (h : l[i]? = some b) (hb : p b = true) (ha : p a = false) :
    (l.set i a).countP p + 1 = l.countP p := by
  induction l generalizing i with
  | nil => simp at h
  | cons x xs ih =>
    cases i with
    | zero => simp at h; subst h; simp [List.countP_cons, ha, hb]
    | succ i =>
      simp only [List.getElem?_cons_succ] at h
      simp only [List.set_cons_succ, List.countP_cons]; have := @ih i h; omega

theorem countP_set_eq {α : Type} {p : α → Bool} {l : List α} {i : Nat} {a b : α}
    (h : l[i]? = some b) (hb : p b = false) (ha : p a = true) :
    (l.set i a).countP p = l.countP p + 1 := by
  induction l generalizing i with
  | nil => simp at h
  | cons x xs ih =>
    cases i with
    | zero => simp at h; subst h; simp [List.countP_cons, ha, hb]
    | succ i =>
      simp only [List.getElem?_cons_succ] at h
      simp only [List.set_cons_succ, List.countP_cons]; have := @ih i h; omega

/-- Overwriting one slot by a non-NULL cell keeps all probe paths. -/
theorem reach_set {slots : List (Slot K V)} {h i p : Nat} {k : K} {v : V} {b : Bool} (hr : Reach slots h i) :
    Reach (slots.set p (.cell k v b)) h i := by
  obtain ⟨d, hd, hi, hp⟩ := hr
  refine ⟨d, by simpa using hd, by simpa using hi, fun d' hd' => ?_⟩
  obtain ⟨k', v', b', h'⟩ := hp d' hd'
  simp only [List.length_set]
  by_cases hpp : p = (h + d') % slots.length
  · rw [List.getElem?_set]
    simp only [hpp, if_true]
    have := get_lt h'
    simp only [this, if_true]
    exact ⟨k, v, b, rfl⟩
  · rw [List.getElem?_set_ne hpp]; exact ⟨k', v', b', h'⟩

theorem getElem?_set_some {α : Type} {l : List α} {i j : Nat} {a b : α} :
    (l.set i a)[j]? = some b ↔ (i = j ∧ i < l.length ∧ a = b) ∨ (i ≠ j ∧ l[j]? = some b) := by
  rw [List.getElem?_set]
  by_cases h : i = j
  · subst h
    by_cases hl : i < l.length <;> simp [hl]
  · simp [h]

/-- Writing a live cell for `key` into slot `p` reached by the probe sequence of `key`. -/
theorem allReach_set_live {hash : K → Int} {slots : List (Slot K V)} {p : Nat} {key : K} {v : V}
    (hr : AllReach hash slots) (hp : Reach slots ((hash key).tmod slots.length).toNat p) :
    AllReach hash (slots.set p (.cell key v false)) := by
  intro i k w hi
  rw [getElem?_set_some] at hi
  rw [List.length_set]
  rcases hi with ⟨rfl, _, h⟩ | ⟨_, h⟩
  · simp at h; obtain ⟨rfl, rfl⟩ := h
    exact reach_set hp
  · exact reach_set (hr i k w h)

theorem allReach_set_dead {hash : K → Int} {slots : List (Slot K V)} {p : Nat} {key : K} {v : V}
    (hr : AllReach hash slots) : AllReach hash (slots.set p (.cell key v true)) := by
  intro i k w hi
  rw [getElem?_set_some] at hi
  rw [List.length_set]
  rcases hi with ⟨rfl, _, h⟩ | ⟨_, h⟩
  · simp at h
  · exact reach_set (hr i k w h)

/-- state of the new table while `rehash` runs -/
structure RInv (hash : K → Int) (old new : List (Slot K V)) : Prop where
  reach : AllReach hash new
  live : ∀ k v, LiveAt new k v ↔ LiveAt old k v
  count : new.countP (fun s => !isNull s) = old.countP isLive
  notomb : NoTomb new
  uniq : Uniq old → Uniq new

theorem liveAt_append {a b : List (Slot K V)} {k : K} {v : V} :
    LiveAt (a ++ b) k v ↔ LiveAt a k v ∨ LiveAt b k v := by
  unfold LiveAt
  simp only [← List.mem_iff_getElem?, List.mem_append]

theorem uniq_append_left {a b : List (Slot K V)} (h : Uniq (a ++ b)) : Uniq a := by
  intro i j k v w hi hj
  apply h i j k v w
  · rw [List.getElem?_append_left (get_lt hi)]; exact hi
  · rw [List.getElem?_append_left (get_lt hj)]; exact hj

theorem rehash_spec {hash : K → Int} (hn : ∀ k, 0 ≤ hash k) : ∀ (rest done new : List (Slot K V)),
    RInv hash done new → (done ++ rest).countP isLive < new.length →
    ∃ s, rehash hash rest new = .ok s ∧ s.length = new.length ∧ RInv hash (done ++ rest) s := by
  intro rest
  induction rest with
  | nil => intro done new h _; exact ⟨new, rfl, rfl, by simpa using h⟩
  | cons x xs ih =>
    intro done new h hc
    have skip : isLive x = false → RInv hash (done ++ [x]) new := by
      intro hx
      refine ⟨h.reach, fun k v => ?_, ?_, h.notomb, fun hu => h.uniq (uniq_append_left hu)⟩
      · rw [h.live, liveAt_append]
        constructor
        · exact Or.inl
        · rintro (h' | ⟨i, hi⟩)
          · exact h'
          · match i, hi with
            | 0, hi => simp at hi; rw [hi] at hx; simp [isLive] at hx
            | i + 1, hi => simp at hi
      · rw [h.count]; simp [hx]
    have e : done ++ x :: xs = (done ++ [x]) ++ xs := by simp
    match x, skip, hc, e with
    | .null, skip, hc, e =>
      rw [rehash, e]; exact ih _ new (skip rfl) (by rw [← e]; exact hc)
    | .cell k v true, skip, hc, e =>
      rw [rehash, e]; exact ih _ new (skip rfl) (by rw [← e]; exact hc)
    | .cell k v false, skip, hc, e =>
      have hpos : 0 < new.length := by omega
      obtain ⟨hi1, hi2⟩ := index_ok (hn k) hpos
      have hcount : new.countP (fun s => !isNull s) < new.length := by
        rw [h.count]
        rw [List.countP_append] at hc
        omega
      obtain ⟨p0, s0, hp0, hs0⟩ := exists_not_of_countP hcount
      obtain ⟨d, s, hd, hprobe, hs, hst, hpath⟩ := probe_from (stop := nullStop) hi2 ⟨p0, s0, hp0, by
        cases s0
        · rfl
        · simp [isNull] at hs0⟩
      have hsnull : s = .null := by
        cases s
        · rfl
        · simp [nullStop] at hst
      subst hsnull
      rw [rehash, hi1, Out.ok_bind, hprobe, Out.ok_bind, e]
      generalize hP : (((hash k).tmod new.length).toNat + d) % new.length = P at *
      have hPlt := get_lt hs
      have hreach : Reach new ((hash k).tmod new.length).toNat P := by
        refine ⟨d, hd, hP.symm, fun d' hd' => ?_⟩
        obtain ⟨s', h1, h2⟩ := hpath d' hd'
        cases s' with
        | null => simp [nullStop] at h2
        | cell k' v' b' => exact ⟨k', v', b', h1⟩
      have hliveS : ∀ k' v', LiveAt (new.set P (.cell k v false)) k' v' ↔ (k' = k ∧ v' = v) ∨ LiveAt new k' v' := by
        intro k' v'
        constructor
        · rintro ⟨i, hi⟩
          rw [getElem?_set_some] at hi
          rcases hi with ⟨_, _, h'⟩ | ⟨_, h'⟩
          · simp at h'; exact Or.inl ⟨h'.1.symm, h'.2.symm⟩
          · exact Or.inr ⟨i, h'⟩
        · rintro (⟨rfl, rfl⟩ | ⟨i, hi⟩)
          · exact ⟨P, by rw [getElem?_set_some]; exact Or.inl ⟨rfl, hPlt, rfl⟩⟩
          · refine ⟨i, ?_⟩
            rw [getElem?_set_some]
            refine Or.inr ⟨?_, hi⟩
            rintro rfl
            rw [hs] at hi; simp at hi
      have hI : RInv hash (done ++ [.cell k v false]) (new.set P (.cell k v false)) := by
        refine ⟨allReach_set_live h.reach hreach, fun k' v' => ?_, ?_, ?_, ?_⟩
        · rw [hliveS, liveAt_append, h.live]
          have : LiveAt [Slot.cell k v false] k' v' ↔ k' = k ∧ v' = v := by
            unfold LiveAt
            simp only [← List.mem_iff_getElem?, List.mem_singleton]
            simp
          rw [this, or_comm]
        · rw [countP_set_eq hs (by simp [isNull]) (by simp [isNull]), h.count]
          simp [isLive]
        · intro i k' v' hi
          rw [getElem?_set_some] at hi
          rcases hi with ⟨_, _, h'⟩ | ⟨_, h'⟩
          · simp at h'
          · exact h.notomb i k' v' h'
        · intro hu
          have hun := h.uniq (uniq_append_left hu)
          have hfresh : ∀ w, ¬ LiveAt new k w := by
            intro w hw
            rw [h.live] at hw
            obtain ⟨i, hi⟩ := hw
            have := hu i done.length k w v (by rw [List.getElem?_append_left (get_lt hi)]; exact hi) (by simp)
            have := get_lt hi
            omega
          intro i j k' v' w' hi hj
          rw [getElem?_set_some] at hi hj
          rcases hi with ⟨h1, _, h'⟩ | ⟨_, h'⟩ <;> rcases hj with ⟨h2, _, h''⟩ | ⟨_, h''⟩
          · omega
          · simp at h'; rw [← h'.1] at h''; exact absurd ⟨j, h''⟩ (hfresh w')
          · simp at h''; rw [← h''.1] at h'; exact absurd ⟨i, h'⟩ (hfresh v')
          · exact hun i j k' v' w' h' h''
      obtain ⟨s, h1, h2, h3⟩ := ih _ _ hI (by rw [← e]; simpa using hc)
      exact ⟨s, h1, by simpa using h2, h3⟩

theorem updateCapacity_spec {hash : K → Int} (hn : ∀ k, 0 ≤ hash k) (m : HMap K V) (n : Nat)
    (h : m.slots.countP isLive < n) :
    ∃ m', updateCapacity hash m n = .ok m' ∧ m'.size = m.size ∧ m'.slots.length = n ∧
      RInv hash m.slots m'.slots := by
  have h0 : RInv hash ([] : List (Slot K V)) (List.replicate n .null) := by
    refine ⟨?_, ?_, ?_, ?_, ?_⟩
    · intro i k v hi; simp [List.getElem?_replicate] at hi
    · intro k v; simp [LiveAt, List.getElem?_replicate]
    · simp [List.countP_replicate, isNull]
    · intro i k v hi; simp [List.getElem?_replicate] at hi
    · intro _ i j k v w hi; simp [List.getElem?_replicate] at hi
  obtain ⟨s, h1, h2, h3⟩ := rehash_spec hn m.slots [] _ h0 (by simpa using h)
  refine ⟨⟨s, m.size⟩, ?_, rfl, by simpa using h2, by simpa using h3⟩
  simp [updateCapacity, h1]

theorem RInv.countLive {hash : K → Int} {a b : List (Slot K V)} (h : RInv hash a b) :
    b.countP isLive = a.countP isLive := by
  rw [← h.count]
  have : ∀ s ∈ b, isLive s = !isNull s := by
    intro s hs
    rw [List.mem_iff_getElem?] at hs
    obtain ⟨i, hi⟩ := hs
    match s, hi with
    | .null, _ => rfl
    | .cell k v true, hi => exact absurd hi (h.notomb i k v)
    | .cell k v false, _ => rfl
  exact List.countP_congr (by intro s hs; rw [this s hs])

theorem inv_new {hash : K → Int} : Inv hash (HMap.new : HMap K V) := by
  refine ⟨by simp [new], by simp [new, isLive], ?_⟩
  intro i k v hi
  simp only [new] at hi
  match i, hi with
  | 0, hi => simp at hi

/-- What one `map_add` does to the table: one slot `P` is overwritten, then perhaps a rehash. -/
theorem add_spec {hash : K → Int} (hn : ∀ k, 0 ≤ hash k) {m : HMap K V} (h : Inv hash m) (key : K) (val : V) :
    ∃ m' P s, add hash m key val = .ok m' ∧ Inv hash m' ∧ m.slots[P]? = some s ∧ addStop key s = true ∧
      ((∀ k v, LiveAt m'.slots k v ↔ LiveAt (m.slots.set P (.cell key val false)) k v)) ∧
      (NoTomb (m.slots.set P (.cell key val false)) → NoTomb m'.slots) ∧
      (Uniq (m.slots.set P (.cell key val false)) → Uniq m'.slots) ∧
      (NoTomb m.slots → s = .null → ∀ v, ¬ LiveAt m.slots key v) ∧
      (∀ (i : Nat) v, NoTomb m.slots → m.slots[i]? = some (.cell key v false) → ∃ w, s = .cell key w false) := by
  have hpos : 0 < m.slots.length := by have := h.room; omega
  obtain ⟨hi1, hi2⟩ := index_ok (hn key) hpos
  have hcount : m.slots.countP isLive < m.slots.length := by have := h.room; have := h.live; omega
  obtain ⟨p0, s0, hp0, hs0⟩ := exists_not_of_countP hcount
  obtain ⟨d, s, hd, hprobe, hs, hst, hpath⟩ := probe_from (stop := addStop key) hi2 ⟨p0, s0, hp0, by
    match s0, hs0 with
    | .null, _ => rfl
    | .cell k v true, _ => simp [addStop]
    | .cell k v false, h => simp [isLive] at h⟩
  generalize hP : (((hash key).tmod m.slots.length).toNat + d) % m.slots.length = P at *
  have hPlt := get_lt hs
  have hreach : Reach m.slots ((hash key).tmod m.slots.length).toNat P := by
    refine ⟨d, hd, hP.symm, fun d' hd' => ?_⟩
    obtain ⟨s', h1, h2⟩ := hpath d' hd'
    cases s' with
    | null => simp [addStop] at h2
    | cell k' v' b' => exact ⟨k', v', b', h1⟩
  have hR := allReach_set_live (v := val) h.reach hreach
  have hcnt : (m.slots.set P (.cell key val false)).countP isLive ≤ m.size + 1 :=
    Nat.le_trans countP_set_le (by have := h.live; omega)
  have hex : ∀ (i : Nat) v, NoTomb m.slots → m.slots[i]? = some (.cell key v false) → ∃ w, s = .cell key w false := by
    intro i v hnt hi
    match s, hst, hs with
    | .cell k w b, hst, hs =>
      cases b with
      | true => exact absurd hs (hnt P k w)
      | false => simp [addStop] at hst; subst hst; exact ⟨w, rfl⟩
    | .null, hst, hs =>
      exfalso
      obtain ⟨d2, hd2, hid2, hpath2⟩ := h.reach i key v hi
      rcases Nat.lt_trichotomy d d2 with hlt | heq | hgt
      · obtain ⟨k', v', b', hk'⟩ := hpath2 d hlt
        rw [hP, hs] at hk'; simp at hk'
      · rw [← heq, hP] at hid2; rw [hid2, hs] at hi; simp at hi
      · obtain ⟨s', h1, h2⟩ := hpath d2 hgt
        rw [← hid2, hi] at h1; simp at h1; rw [← h1] at h2; simp [addStop] at h2
  have hfresh : NoTomb m.slots → s = .null → ∀ v, ¬ LiveAt m.slots key v := by
    intro hnt hsn v ⟨i, hi⟩
    obtain ⟨w, hw⟩ := hex i v hnt hi
    rw [hsn] at hw; simp at hw
  unfold add
  simp only [capacity]
  rw [hi1, Out.ok_bind, hprobe, Out.ok_bind]
  simp only [List.length_set]
  by_cases hcap : 2 * (m.size + 1 + 1) - 1 ≥ m.slots.length
  · rw [if_pos hcap]
    obtain ⟨m', h1, h2, h3, h4⟩ := updateCapacity_spec hn ⟨m.slots.set P (.cell key val false), m.size + 1⟩
      (2 * (m.slots.length + 1) - 1) (by simp only; have := h.room; omega)
    refine ⟨m', P, s, h1, ⟨?_, ?_, h4.reach⟩, hs, hst, h4.live, fun _ => h4.notomb, h4.uniq, hfresh, hex⟩
    · rw [h2, h3]; simp only; have := h.room; omega
    · rw [h4.countLive, h2]; exact hcnt
  · rw [if_neg hcap]
    refine ⟨_, P, s, rfl, ⟨?_, hcnt, hR⟩, hs, hst, fun _ _ => Iff.rfl, fun h => h, fun h => h, hfresh, hex⟩
    simp only [List.length_set]; omega

/-- What one `map_remove` does. -/
theorem remove_spec {hash : K → Int} (hn : ∀ k, 0 ≤ hash k) {m : HMap K V} (h : Inv hash m) (key : K) :
    ∃ m', remove hash m key = .ok m' ∧ Inv hash m' ∧
      ((m' = m ∧ ∀ v, ¬ LiveAt m.slots key v) ∨
       (∃ P w, m.slots[P]? = some (.cell key w false) ∧
         (∀ k v, LiveAt m'.slots k v ↔ LiveAt (m.slots.set P (.cell key w true)) k v) ∧
         (Uniq (m.slots.set P (.cell key w true)) → Uniq m'.slots))) := by
  have hpos : 0 < m.slots.length := by have := h.room; omega
  obtain ⟨hi1, hi2⟩ := index_ok (hn key) hpos
  obtain ⟨r, hf, hr⟩ := find_correct hn h.reach key hpos
  unfold remove
  simp only [capacity]
  rw [hi1, Out.ok_bind, hf, Out.ok_bind]
  cases r with
  | none => exact ⟨m, rfl, h, Or.inl ⟨rfl, hr⟩⟩
  | some P =>
    obtain ⟨w, hw⟩ := hr
    simp only [hw]
    have hcnt := countP_set_lt (p := isLive) (a := Slot.cell key w true) hw rfl rfl
    have hlive := h.live
    have hroom := h.room
    simp only [List.length_set]
    by_cases hcap : 2 * (2 * (m.size - 1 + 1) - 1) < m.slots.length
    · rw [if_pos hcap]
      obtain ⟨m', h1, h2, h3, h4⟩ := updateCapacity_spec hn ⟨m.slots.set P (.cell key w true), m.size - 1⟩
        (2 * (m.size - 1 + 1) - 1) (by simp only; omega)
      refine ⟨m', h1, ⟨?_, ?_, h4.reach⟩, Or.inr ⟨P, w, hw, h4.live, h4.uniq⟩⟩
      · rw [h2, h3]; simp only; omega
      · rw [h4.countLive, h2]; simp only; omega
    · rw [if_neg hcap]
      refine ⟨_, rfl, ⟨?_, ?_, allReach_set_dead h.reach⟩, Or.inr ⟨P, w, hw, fun _ _ => Iff.rfl, fun h => h⟩⟩
      · simp only [List.length_set]; omega
      · simp only; omega

theorem get_spec {hash : K → Int} (hn : ∀ k, 0 ≤ hash k) {m : HMap K V} (h : Inv hash m) (key : K) :
    ∃ r, get hash m key = .ok r ∧ (∀ v, r = some v → LiveAt m.slots key v) ∧
      (r = none → ∀ v, ¬ LiveAt m.slots key v) := by
  have hpos : 0 < m.slots.length := by have := h.room; omega
  obtain ⟨hi1, hi2⟩ := index_ok (hn key) hpos
  obtain ⟨r, hf, hr⟩ := find_correct hn h.reach key hpos
  unfold get
  simp only [capacity]
  rw [hi1, Out.ok_bind, hf, Out.ok_bind]
  cases r with
  | none => exact ⟨none, rfl, by simp, fun _ => hr⟩
  | some P =>
    obtain ⟨w, hw⟩ := hr
    simp only [hw]
    refine ⟨some w, rfl, ?_, by simp⟩
    intro v hv; simp at hv; subst hv; exact ⟨P, hw⟩

theorem liveAt_uniq {slots : List (Slot K V)} (hu : Uniq slots) {k : K} {v w : V}
    (h1 : LiveAt slots k v) (h2 : LiveAt slots k w) : v = w := by
  obtain ⟨i, hi⟩ := h1
  obtain ⟨j, hj⟩ := h2
  have := hu i j k v w hi hj
  subst this
  rw [hi] at hj; simp at hj; exact hj

theorem step_inv {hash : K → Int} (hn : ∀ k, 0 ≤ hash k) {m : HMap K V} (h : Inv hash m) (o : MOp K V) :
    ∃ m', step hash m o = .ok m' ∧ Inv hash m' := by
  cases o with
  | add k v => obtain ⟨m', _, _, h1, h2, _⟩ := add_spec hn h k v; exact ⟨m', h1, h2⟩
  | remove k => obtain ⟨m', h1, h2, _⟩ := remove_spec hn h k; exact ⟨m', h1, h2⟩

theorem run_inv {hash : K → Int} (hn : ∀ k, 0 ≤ hash k) {m : HMap K V} (h : Inv hash m) (os : List (MOp K V)) :
    ∃ m', run hash m os = .ok m' ∧ Inv hash m' := by
  induction os generalizing m with
  | nil => exact ⟨m, rfl, h⟩
  | cons o os ih =>
    obtain ⟨m1, h1, h2⟩ := step_inv hn h o
    obtain ⟨m2, h3, h4⟩ := ih h2
    exact ⟨m2, by simp [run, h1, h3], h4⟩

end HMap
end Umlcc
