import Verif.Lemma.MapSpec
/-! Property theorems C03 - C06: hash map, set, string hash. -/
namespace Umlcc
variable {K V : Type} [DecidableEq K]

/-- C03, witness of the violation. Adding a present key after a removal may write it a second time (into the
tombstone before it); removing the key then leaves the older cell behind, with its old value.
Full statement (false): `∀ os k, get (run os) k = lookup os k`. -/
theorem C03_map_last_write_violated :
    ∃ (os : List (MOp Int Nat)) (m : HMap Int Nat) (k : Int),
      HMap.run hashInteger HMap.new os = .ok m ∧ MSpec.lookup os k = none ∧
      HMap.get hashInteger m k = .ok (some 2) := by
  refine ⟨[.add 20 0, .add 21 0, .add 22 0, .add 0 1, .add 15 2, .remove 0, .add 15 3, .remove 15], _, 15, rfl, ?_, ?_⟩
  · decide
  · decide

/-- C03 for calm histories: those in which a present key is overwritten only while nothing has been removed yet.
Missing for the full claim: histories overwriting a present key after a removal (violated, see above). -/
theorem C03_map_last_write_partial (hash : K → Int) (hn : ∀ k, 0 ≤ hash k) (os : List (MOp K V)) (hc : MSpec.Calm os) :
    ∃ m, HMap.run hash HMap.new os = .ok m ∧
      (∀ k, HMap.get hash m k = .ok (MSpec.lookup os k)) ∧
      (∀ k v, (k, v) ∈ HMap.items m ↔ MSpec.lookup os k = some v) ∧
      ((HMap.items m).map (·.1)).Nodup := by
  obtain ⟨m, h1, h2⟩ := HMap.exact_run hn os [] HMap.new HMap.exact_new (by simpa using hc)
  simp only [List.nil_append] at h2
  refine ⟨m, h1, fun k => ?_, fun k v => ?_, HMap.uniq_keys h2.uniq⟩
  · obtain ⟨r, h3, h4, h5⟩ := HMap.get_spec hn h2.inv k
    rw [h3]
    cases r with
    | some v => rw [(h2.live k v).1 (h4 v rfl)]
    | none =>
      cases hl : MSpec.lookup os k with
      | none => rfl
      | some v => exact absurd ((h2.live k v).2 hl) (h5 rfl v)
  · rw [HMap.mem_items, h2.live]

example : MSpec.Calm ([.add 1 10, .add 1 11, .add 2 5, .remove 1, .add 1 7] : List (MOp Int Nat)) := by
  intro pre k v post h
  match pre, h with
  | [], h => simp [MSpec.lookup, MSpec.after]
  | [a], h => right; simp at h; simp [← h.1, MSpec.isRemove]
  | [a, b], h => right; simp at h; simp [← h.1, ← h.2.1, MSpec.isRemove]
  | [a, b, c], h => simp at h
  | [a, b, c, d], h =>
    left; simp at h
    obtain ⟨rfl, rfl, rfl, rfl, ⟨rfl, rfl⟩, _⟩ := h
    rfl
  | a :: b :: c :: d :: e :: r, h => simp at h

/-- C03 for every history: a key that is present according to the history is always found (the map never loses
an entry). Missing for the full claim: that the value is the last one and that removed keys are not found. -/
theorem C03_map_never_loses_partial (hash : K → Int) (hn : ∀ k, 0 ≤ hash k) (os : List (MOp K V)) :
    ∃ m, HMap.run hash HMap.new os = .ok m ∧
      ∀ k, MSpec.lookup os k ≠ none → HMap.contains hash m k = .ok true := by
  obtain ⟨m, h1, h2⟩ := HMap.run_inv hn (HMap.inv_new (V := V)) os
  refine ⟨m, h1, fun k hk => ?_⟩
  obtain ⟨m', h3, h4, h5⟩ := HMap.run_keeps hn (HMap.new : HMap K V) HMap.inv_new k none os (by simp)
  rw [h1] at h3; simp at h3; subst h3
  obtain ⟨b, h6, h7⟩ := HMap.contains_spec hn h2 k
  rw [h6, h7.2 (h5 hk)]

example : MSpec.lookup ([.add 20 0, .add 0 1, .add 15 2, .remove 0, .add 15 3] : List (MOp Int Nat)) 15 ≠ none := by
  decide

/-- C04: every history of calls stays inside the table and every probe loop ends (no `ub`, no `hang`), for the
history itself and for any lookup after it; and the table is never more than half full by its own count. -/
theorem C04_map_probing_safe (hash : K → Int) (hn : ∀ k, 0 ≤ hash k) (os : List (MOp K V)) :
    ∃ m, HMap.run hash HMap.new os = .ok m ∧ 2 * m.size + 1 ≤ m.slots.length ∧
      (∀ k, ∃ r, HMap.get hash m k = .ok r) ∧ (∀ k v, ∃ m', HMap.add hash m k v = .ok m') ∧
      (∀ k, ∃ m', HMap.remove hash m k = .ok m') := by
  obtain ⟨m, h1, h2⟩ := HMap.run_inv hn (HMap.inv_new (V := V)) os
  refine ⟨m, h1, h2.room, fun k => ?_, fun k v => ?_, fun k => ?_⟩
  · obtain ⟨r, h3, _⟩ := HMap.get_spec hn h2 k; exact ⟨r, h3⟩
  · obtain ⟨m', _, _, h3, _⟩ := HMap.add_spec hn h2 k v; exact ⟨m', h3⟩
  · obtain ⟨m', h3, _⟩ := HMap.remove_spec hn h2 k; exact ⟨m', h3⟩

/-- the hypothesis of C03/C04 holds for integer keys -/
theorem C04_hash_integer_nonneg (n : Int) : 0 ≤ hashInteger n := by
  unfold hashInteger; split <;> omega

example : ∃ m, HMap.run hashInteger HMap.new [.add 3 'a', .add (-3) 'b', .remove 3] = .ok m ∧
    HMap.get hashInteger m (-3) = .ok (some 'b') := ⟨_, rfl, by decide⟩

/-- C04 is about non-negative hashes only: with a negative hash the table is indexed out of bounds. -/
theorem C04_negative_hash_ub :
    ∃ m, HMap.run (fun _ : Int => (-1 : Int)) HMap.new [.add 0 'a', .add 1 'b'] = .ub ∧
      HMap.run (fun _ : Int => (-1 : Int)) HMap.new [.add 0 'a'] = .ub ∧ HMap.run hashInteger HMap.new [.add 0 'a'] = .ok m :=
  ⟨_, by decide, by decide, rfl⟩

/-- the set reached by a history of adds and removes of members -/
def reachSet (hash : K → Int) (os : List (MOp K Unit)) (s : HSet K) : Prop := HMap.run hash HMap.new os = .ok s

/-- C05 (set algebra). For sets reached by any histories, with membership meaning `set_contains`:
union, intersection, difference and equality are the mathematical ones, and every set built by adds contains
exactly what was added. `set_issubset(s, o)` answers whether `o ⊆ s`.
Missing for the full claim: `set_issubset` has its arguments the wrong way round, see the next theorem. -/
theorem C05_set_algebra_partial (hash : K → Int) (hn : ∀ k, 0 ≤ hash k) (os1 os2 : List (MOp K Unit)) :
    ∃ s o, reachSet hash os1 s ∧ reachSet hash os2 o ∧
      ∃ (inS inO : K → Bool), (∀ k, HSet.contains hash s k = .ok (inS k)) ∧ (∀ k, HSet.contains hash o k = .ok (inO k)) ∧
      ((∀ op ∈ os1, MSpec.isRemove op = false) → ∀ k, inS k = true ↔ MOp.add k () ∈ os1) ∧
      (∃ u, HSet.union hash s o = .ok u ∧ ∀ k, HSet.contains hash u k = .ok (inS k || inO k)) ∧
      (∃ i, HSet.inter hash s o = .ok i ∧ ∀ k, HSet.contains hash i k = .ok (inS k && inO k)) ∧
      (∃ d, HSet.diff hash s o = .ok d ∧ ∀ k, HSet.contains hash d k = .ok (inS k && !inO k)) ∧
      (∃ b, HSet.equals hash s o = .ok b ∧ (b = true ↔ ∀ k, inS k = inO k)) ∧
      (∃ b, HSet.isSubset hash s o = .ok b ∧ (b = true ↔ ∀ k, inO k = true → inS k = true)) := by
  obtain ⟨s, hs1, hs⟩ := HMap.run_inv hn (HMap.inv_new (K := K) (V := Unit)) os1
  obtain ⟨o, ho1, ho⟩ := HMap.run_inv hn (HMap.inv_new (K := K) (V := Unit)) os2
  have key : ∀ (x : HSet K), HMap.Inv hash x → ∀ (p : K → Bool), (∀ k, k ∈ HSet.elems x ↔ p k = true) →
      ∀ k, HSet.contains hash x k = .ok (p k) := by
    intro x hx p hp k
    obtain ⟨b, h1, h2⟩ := HSet.contains_mem hn hx k
    rw [h1]; rw [hp] at h2
    cases b <;> cases hpk : p k <;> simp_all
  have hnil : ∀ x, x ∉ HSet.elems (HMap.new : HSet K) := by
    intro x; simp [HSet.elems, HMap.items, HMap.new]
  refine ⟨s, o, hs1, ho1, fun k => decide (k ∈ HSet.elems s), fun k => decide (k ∈ HSet.elems o),
    key s hs _ (by simp), key o ho _ (by simp), ?_, ?_, ?_, ?_, ?_, ?_⟩
  · intro hadd k
    simp only [decide_eq_true_eq]
    have hlk : ∀ (l : List (MOp K Unit)) (cur : Option Unit), (∀ op ∈ l, MSpec.isRemove op = false) →
        (MSpec.after k cur l = some () ↔ cur = some () ∨ MOp.add k () ∈ l) := by
      intro l
      induction l with
      | nil => intro cur _; simp [MSpec.after]
      | cons op l ih =>
        intro cur hl
        cases op with
        | remove k' => have := hl (.remove k') (by simp); simp [MSpec.isRemove] at this
        | add k' v =>
          rw [MSpec.after, ih _ (fun op hop => hl op (by simp [hop]))]
          by_cases hk : k' = k
          · subst hk; simp
          · have : ¬ k = k' := fun e => hk (Eq.symm e)
            simp [hk, this]
    obtain ⟨m, h1, h2⟩ := HMap.exact_run hn os1 [] HMap.new HMap.exact_new (by
      intro pre k v post h
      right
      simp only [List.nil_append] at h
      intro op hop
      exact hadd op (by rw [h]; simp [hop]))
    rw [hs1] at h1; simp at h1; subst h1
    simp only [List.nil_append] at h2
    rw [HSet.mem_elems]
    constructor
    · rintro ⟨_, h⟩
      have := (h2.live k ()).1 h
      have := (hlk os1 none hadd).1 this
      simpa using this
    · intro h; exact ⟨(), (h2.live k ()).2 ((hlk os1 none hadd).2 (Or.inr h))⟩
  · obtain ⟨u1, h1, h2, h3⟩ := HSet.addAll_mem hn (fun _ => .ok true) (fun _ => True) (fun k => ⟨true, rfl, by simp⟩)
      (HSet.elems s) HMap.inv_new
    obtain ⟨u2, h4, h5, h6⟩ := HSet.addAll_mem hn (fun _ => .ok true) (fun _ => True) (fun k => ⟨true, rfl, by simp⟩)
      (HSet.elems o) h2
    refine ⟨u2, by simp [HSet.union, h1, h4], key u2 h5 _ fun k => ?_⟩
    rw [h6, h3]; simp [hnil]
  · obtain ⟨u1, h1, h2, h3⟩ := HSet.addAll_mem hn (fun k => HSet.contains hash o k) (fun k => k ∈ HSet.elems o)
      (fun k => HSet.contains_mem hn ho k) (HSet.elems s) HMap.inv_new
    refine ⟨u1, h1, key u1 h2 _ fun k => ?_⟩
    rw [h3]; simp [hnil]
  · obtain ⟨u1, h1, h2, h3⟩ := HSet.addAll_mem hn (fun k => do let b ← HSet.contains hash o k; pure (!b))
      (fun k => k ∉ HSet.elems o)
      (fun k => by
        obtain ⟨b, h1, h2⟩ := HSet.contains_mem hn ho k
        refine ⟨!b, by simp [h1], ?_⟩
        rw [← h2]; cases b <;> simp) (HSet.elems s) HMap.inv_new
    refine ⟨u1, h1, key u1 h2 _ fun k => ?_⟩
    rw [h3]; simp [hnil]
  · obtain ⟨b1, h1, h2⟩ := HSet.allIn_spec hn hs (HSet.elems o)
    obtain ⟨b2, h3, h4⟩ := HSet.allIn_spec hn ho (HSet.elems s)
    refine ⟨b1 && b2, ?_, ?_⟩
    · cases b1 <;> simp [HSet.equals, HSet.isSubset, h1, h3]
    · rw [Bool.and_eq_true, h2, h4]
      constructor
      · rintro ⟨h5, h6⟩ k
        have := h5 k; have := h6 k
        simp only [decide_eq_decide]; constructor <;> assumption
      · intro h
        refine ⟨fun k hk => ?_, fun k hk => ?_⟩ <;> have := h k <;> simp_all
  · obtain ⟨b1, h1, h2⟩ := HSet.allIn_spec hn hs (HSet.elems o)
    exact ⟨b1, h1, by rw [h2]; simp⟩

example : ∃ s, reachSet hashInteger [.add 1 (), .add 2 (), .remove 1, .add 7 ()] s ∧
    HSet.contains hashInteger s 7 = .ok true ∧ HSet.contains hashInteger s 1 = .ok false :=
  ⟨_, rfl, by decide, by decide⟩

/-- C05, witness of the violation: {1,2} is reported to be a subset of {1}, and {1} not a subset of {1,2}. -/
theorem C05_issubset_violated :
    ∃ s o, reachSet hashInteger [.add 1 (), .add 2 ()] s ∧ reachSet hashInteger [.add 1 ()] o ∧
      HSet.isSubset hashInteger s o = .ok true ∧ HSet.contains hashInteger s 2 = .ok true ∧
      HSet.contains hashInteger o 2 = .ok false ∧ HSet.isSubset hashInteger o s = .ok false :=
  ⟨_, _, rfl, rfl, by decide, by decide, by decide, by decide⟩

/-- C06 for ASCII strings. Missing for the full claim: bytes from 0x80 (violated, next theorem). -/
theorem C06_hash_string_index_partial (s : List UInt8) (hs : ∀ b ∈ s, b.toNat < 128) :
    0 ≤ hashString s ∧ hashString s < 587 := by
  have gen : ∀ (l : List UInt8) (h : Int), (∀ b ∈ l, b.toNat < 128) → 0 ≤ h → h < 587 →
      0 ≤ l.foldl (fun hash c => (charVal c * 151 + hash).tmod 587) h ∧
      l.foldl (fun hash c => (charVal c * 151 + hash).tmod 587) h < 587 := by
    intro l
    induction l with
    | nil => intro h _ h1 h2; exact ⟨h1, h2⟩
    | cons b bs ih =>
      intro h hb h1 h2
      have hc : 0 ≤ charVal b := by unfold charVal; rw [if_pos (hb b (by simp))]; omega
      apply ih _ (fun b h => hb b (by simp [h]))
      · exact Int.tmod_nonneg _ (by omega)
      · exact Int.tmod_lt_of_pos _ (by omega)
  exact gen s 0 hs (by omega) (by omega)

example : (∀ b ∈ ([0x77, 0x68, 0x69, 0x6c, 0x65] : List UInt8), b.toNat < 128) ∧
    hashString [0x77, 0x68, 0x69, 0x6c, 0x65] ≠ 0 := by decide

/-- C06, witness of the violation: a one-byte string with a byte from 0x80 hashes to a negative number and
looking it up in a two-entry map reads outside the table. -/
theorem C06_hash_string_violated :
    hashString [0x80] < 0 ∧ ∃ m, HMap.run hashString HMap.new [.add [0x2b] 1, .add [0x2d] 2] = .ok m ∧
      HMap.get hashString m [0x80] = .ub := ⟨by decide, _, rfl, by decide⟩

end Umlcc
