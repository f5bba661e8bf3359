import Verif.Lemma.RunsExpr
/-!
Exactly the declarations, statements and translation units that fit are translated.
-/
namespace Umlcc
namespace Gen
open Tr (Names Sym fits fitsArgs isCast hasMember membersIn namesOf declared add find inside fitsInit fitsInits each)

section
variable {Γ : Names} {s : GState}

theorem get_runs {f : GState → GM α} {b : Bool} {Q : α → GState → Prop} (k : Runs (f s) s b Q) : Runs (get >>= f) s b Q := by
  refine Runs.seq (P := fun x s' => x = s ∧ s' = s) (.get ⟨rfl, rfl⟩) fun x s' h => ?_
  rw [h.1, h.2]
  exact k

/-! ### initialisers -/

/-- generators of initialisers and their conditions -/
inductive Agrees (Γ : Names) : List (DType → GM Unit) → List (DType → Bool) → Prop
  | nil : Agrees Γ [] []
  | cons {g f gs fs} : (∀ t s, Sees Γ s → Runs (g t) s (f t) fun _ s' => Keeps s s') → Agrees Γ gs fs → Agrees Γ (g :: gs) (f :: fs)

theorem arrayInit_runs {u : DType} : ∀ {n gs fs s}, Agrees Γ gs fs → Sees Γ s → Runs (arrayInit u n gs) s (each (List.replicate n u) fs) fun _ s' => Keeps s s'
  | 0, gs, fs, s, _, _ => by
    simp only [arrayInit, List.replicate_zero, each]
    exact .pure Keeps.refl
  | n + 1, _, _, s, .nil, _ => by
    simp only [arrayInit, List.replicate_succ, each]
    exact .ub
  | n + 1, _, _, s, .cons h hs, hΓ => by
    simp only [arrayInit, List.replicate_succ, each]
    exact (h u s hΓ).bind fun _ s1 k1 => (arrayInit_runs hs (hΓ.keep k1)).mono fun _ _ k => k1.trans k

theorem localMembers_runs {off : Int} : ∀ {ms gs fs s}, Agrees Γ gs fs → Sees Γ s →
    Runs (localMembers off ms gs) s (each (ms.map (·.1)) fs) fun _ s' => Keeps s s'
  | [], gs, fs, s, _, _ => by
    simp only [localMembers, List.map_nil, each]
    exact .pure Keeps.refl
  | _ :: _, _, _, s, .nil, _ => by
    simp only [localMembers, List.map_cons, each]
    exact .ub
  | (t, o) :: ms, _, _, s, .cons h hs, hΓ => by
    simp only [localMembers, List.map_cons, each]
    refine Runs.seq (P := fun _ s' => Keeps s s') (.modify ⟨rfl, rfl, rfl⟩) fun _ s1 k1 => ?_
    exact (h t s1 (hΓ.keep k1)).bind fun _ s2 k2 => (localMembers_runs hs (hΓ.keep (k1.trans k2))).mono fun _ _ k => (k1.trans k2).trans k

theorem padding_runs {n : Int} : Runs (padding n) s true fun _ s' => Keeps s s' := by
  unfold padding
  split
  · exact emit_keeps Keeps.refl
  · exact .pure Keeps.refl

theorem globalMembers_runs {n : Nat} : ∀ {ms gs fs s}, Agrees Γ gs fs → Sees Γ s →
    Runs (globalMembers n ms gs) s (each (ms.map (·.1)) fs) fun _ s' => Keeps s s'
  | [], gs, fs, s, _, _ => by
    simp only [globalMembers, List.map_nil, each]
    exact .pure Keeps.refl
  | _ :: _, _, _, s, .nil, _ => by
    simp only [globalMembers, List.map_cons, each]
    exact .ub
  | (t, o) :: ms, _, _, s, .cons h hs, hΓ => by
    simp only [globalMembers, List.map_cons, each]
    refine (h t s hΓ).bind fun _ s1 k1 => ?_
    refine padding_runs.seq fun _ s2 k2 => ?_
    have k2 := k1.trans k2
    exact (globalMembers_runs hs (hΓ.keep k2)).mono fun _ _ k => k2.trans k

theorem memberList_types : ∀ ms : Members, (memberList ms).map (·.1) = (namesOf ms).map (·.2)
  | .nil => rfl
  | .cons n t o ms => by simp only [memberList, namesOf, List.map_cons, memberList_types ms]

theorem structType_runs {t : DType} (hs : Sees Γ s) (ht : (∃ n b a, t = .nstruct n b a) ∨ ∃ ms b a, t = .ustruct ms b a) :
    Runs (structType t) s (membersIn Γ t).isSome fun u s' => s' = s ∧ ∃ ms b a, u = .ustruct ms b a ∧ membersIn Γ t = some (namesOf ms) := by
  rcases ht with ⟨n, b, a, rfl⟩ | ⟨ms, b, a, rfl⟩
  · refine Runs.seq (P := fun x s' => x = s ∧ s' = s) (.get ⟨rfl, rfl⟩) ?_
    rintro x s' ⟨rfl, rfl⟩
    have e : membersIn Γ (.nstruct n b a) = (lookup n s'.tags).map namesIn := by simp only [membersIn]; rw [← hs.tags, find_map]
    rw [e]
    cases h : lookup n s'.tags with
    | none => exact .ub
    | some t =>
      obtain ⟨sc, h1, h2⟩ := lookup_mem h
      obtain ⟨ms, b', a', e'⟩ := hs.known sc h1 _ h2
      cases e'
      exact .pure ⟨rfl, _, _, _, rfl, rfl⟩
  · exact .pure ⟨rfl, _, _, _, rfl, rfl⟩

theorem struct_runs {t : DType} {f : DType → GM Unit} {fs : List (DType → Bool)} (hs : Sees Γ s)
    (ht : (∃ n b a, t = .nstruct n b a) ∨ ∃ ms b a, t = .ustruct ms b a)
    (hf : ∀ ms b a, Runs (f (.ustruct ms b a)) s (each ((namesOf ms).map (·.2)) fs) fun _ s' => Keeps s s') :
    Runs (structType t >>= f) s (match membersIn Γ t with | some ms => each (ms.map (·.2)) fs | none => false) fun _ s' => Keeps s s' := by
  have e : (match membersIn Γ t with | some ms => each (ms.map (·.2)) fs | none => false) =
      ((membersIn Γ t).isSome && match membersIn Γ t with | some ms => each (ms.map (·.2)) fs | none => false) := by
    cases membersIn Γ t <;> simp
  rw [e]
  refine (structType_runs hs ht).bind ?_
  rintro u s' ⟨rfl, ms, b, a, rfl, h⟩
  rw [h]
  exact hf ms b a

theorem localStruct_runs {t : DType} {gs : List (DType → GM Unit)} {fs : List (DType → Bool)} (h : Agrees Γ gs fs) (hs : Sees Γ s)
    (ht : (∃ n b a, t = .nstruct n b a) ∨ ∃ ms b a, t = .ustruct ms b a) :
    Runs (localStruct t gs) s (match membersIn Γ t with | some ms => each (ms.map (·.2)) fs | none => false) fun _ s' => Keeps s s' := by
  refine struct_runs hs ht fun ms b a => ?_
  refine Runs.seq (P := fun _ s' => s' = s) (.get rfl) ?_
  rintro x _ rfl
  rw [← memberList_types]
  exact localMembers_runs h hs

theorem globalStruct_runs {t : DType} {gs : List (DType → GM Unit)} {fs : List (DType → Bool)} (h : Agrees Γ gs fs) (hs : Sees Γ s)
    (ht : (∃ n b a, t = .nstruct n b a) ∨ ∃ ms b a, t = .ustruct ms b a) :
    Runs (globalStruct t gs) s (match membersIn Γ t with | some ms => each (ms.map (·.2)) fs | none => false) fun _ s' => Keeps s s' := by
  refine struct_runs hs ht fun ms b a => ?_
  rw [← memberList_types]
  exact globalMembers_runs h hs

theorem isScalarInit_eq (t : DType) : isScalarInit t = Tr.isSimple t := by cases t <;> rfl

mutual
theorem localInit_runs : ∀ (i : SInit) (t : DType) (s : GState), Sees Γ s → Runs (localInit i t) s (fitsInit Γ (fun _ => fits Γ true) i t) fun _ s' => Keeps s s'
  | .expr e, t, s, hs => by
    obtain ⟨_, h, -⟩ := expr_et (Γ := Γ) e
    simp only [localInit, fitsInit, isScalarInit_eq]
    cases Tr.isSimple t with
    | false => exact .ub
    | true =>
      simp only [if_pos, Bool.true_and, localScalar]
      refine Runs.seq (P := fun _ s' => s' = s) (.get rfl) ?_
      rintro x _ rfl
      refine (h.int none _ hs).last ?_
      rintro o s2 ⟨-, k2⟩
      refine (emit_keeps k2).seq fun _ s3 k3 => ?_
      exact .modify ⟨k3.1, k3.2, k3.3⟩
  | .str _ b, t, s, hs => by
    cases t <;> simp only [localInit, fitsInit] <;> try exact .ub
    refine Runs.seq (P := fun _ s' => s' = s) (.get rfl) ?_
    rintro x _ rfl
    refine (emit_keeps Keeps.refl).seq fun _ s3 k3 => ?_
    exact .modify ⟨k3.1, k3.2, k3.3⟩
  | .list is, t, s, hs => by
    have h := localInits_agrees is
    cases t with
    | arr u n => simp only [localInit, fitsInit]; exact arrayInit_runs h hs
    | nstruct n b a => simp only [localInit, fitsInit]; exact localStruct_runs h hs (.inl ⟨_, _, _, rfl⟩)
    | ustruct ms b a => simp only [localInit, fitsInit]; exact localStruct_runs h hs (.inr ⟨_, _, _, rfl⟩)
    | _ => simp only [localInit, fitsInit, membersIn]; exact .ub
theorem localInits_agrees : ∀ is : SInits, Agrees Γ (localInits is) (fitsInits Γ (fun _ => fits Γ true) is)
  | .nil => by simp only [localInits, fitsInits]; exact .nil
  | .cons i is => by
    have h1 := localInit_runs i
    have h2 := localInits_agrees is
    simp only [localInits, fitsInits]
    exact .cons h1 h2
end

theorem uncast_eq : ∀ e : SExpr, stripCasts e = Tr.uncast e
  | .un .cast _ e => by simp only [stripCasts, Tr.uncast, uncast_eq e]
  | .ident _ _ | .str _ _ | .ilit _ _ | .bin _ _ _ _ | .cond _ _ _ _ | .call _ _ _ | .tomember _ _ _ _
  | .un .preinc _ _ | .un .predec _ _ | .un .addr _ _ | .un .indir _ _ | .un .pos _ _ | .un .neg _ _ | .un .not _ _ | .un .lnot _ _ | .un .postinc _ _ | .un .postdec _ _ => rfl

theorem globalScalar_runs {t : DType} {e : SExpr} : Runs (globalScalar t e) s (Tr.staticLeaf t e) fun _ s' => Keeps s s' := by
  unfold globalScalar Tr.staticLeaf
  rw [uncast_eq]
  cases Tr.uncast e with
  | ilit u l =>
    simp only [Tr.isLit, Bool.true_and]
    split
    · next h => rw [h]; exact emit_keeps Keeps.refl
    · next h => rw [h]; exact emit_keeps Keeps.refl
    · next h => rw [h]; exact emit_keeps Keeps.refl
    · next h => rw [h]; exact emit_keeps Keeps.refl
    · next h1 h2 h3 h4 =>
      refine Runs.cast .fatal ?_
      symm
      simp only [Bool.or_eq_false_iff, beq_eq_false_iff_ne]
      exact ⟨⟨⟨h1, h2⟩, h3⟩, h4⟩
  | _ => exact .ub

mutual
theorem globalInit_runs : ∀ (i : SInit) (t : DType) (s : GState), Sees Γ s → Runs (globalInit i t) s (fitsInit Γ Tr.staticLeaf i t) fun _ s' => Keeps s s'
  | .expr e, t, s, hs => by
    simp only [globalInit, fitsInit, isScalarInit_eq]
    cases Tr.isSimple t with
    | false => exact .ub
    | true => simp only [if_pos, Bool.true_and]; exact globalScalar_runs
  | .str _ b, t, s, hs => by
    cases t <;> simp only [globalInit, fitsInit] <;> try exact .ub
    exact emit_keeps Keeps.refl
  | .list is, t, s, hs => by
    have h := globalInits_agrees is
    cases t with
    | arr u n => simp only [globalInit, fitsInit]; exact arrayInit_runs h hs
    | nstruct n b a => simp only [globalInit, fitsInit]; exact globalStruct_runs h hs (.inl ⟨_, _, _, rfl⟩)
    | ustruct ms b a => simp only [globalInit, fitsInit]; exact globalStruct_runs h hs (.inr ⟨_, _, _, rfl⟩)
    | _ => simp only [globalInit, fitsInit, membersIn]; exact .ub
theorem globalInits_agrees : ∀ is : SInits, Agrees Γ (globalInits is) (fitsInits Γ Tr.staticLeaf is)
  | .nil => by simp only [globalInits, fitsInits]; exact .nil
  | .cons i is => by
    have h1 := globalInit_runs i
    have h2 := globalInits_agrees is
    simp only [globalInits, fitsInits]
    exact .cons h1 h2
end

/-! ### declarations -/

theorem add_map {f : α → β} (n : Str) (y : α) : ∀ l : List (List (Str × α)),
    add n (f y) (l.map (·.map fun p => (p.1, f p.2))) = (if canDefine n l then define n y l else l).map (·.map fun p => (p.1, f p.2))
  | [] => rfl
  | sc :: l => by
    simp only [List.map_cons, add, lookup_map, canDefine]
    rcases Option.eq_none_or_eq_some (sc.lookup n) with h | ⟨x, h⟩
    · simp [h, define]
    · simp [h]

/-- how a statement leaves the tables -/
structure Fine (Γ : Names) (sw : Bool) (s : GState) : Prop where
  sees : Sees Γ s
  cases : s.cases.isSome = sw

variable {sw : Bool}

theorem Fine.keep {s s' : GState} (h : Fine Γ sw s) (k : Keeps s s') : Fine Γ sw s' := ⟨h.sees.keep k, k.cases ▸ h.cases⟩

theorem defineLabel_runs {n : Str} {t : DType} (h : Fine Γ sw s) :
    Runs (defineLabel n t) s true fun _ s' => Fine { Γ with syms := add n ⟨true, t⟩ Γ.syms } sw s' := by
  refine .modify ?_
  have e := add_map (f := symOf) n ⟨.label, t⟩ s.syms
  rw [h.sees.syms] at e
  by_cases hc : canDefine n s.syms = true
  · rw [if_pos hc] at e ⊢
    exact ⟨⟨e.symm, h.sees.tags, h.sees.known⟩, h.cases⟩
  · rw [if_neg hc] at e ⊢
    exact ⟨⟨e.symm, h.sees.tags, h.sees.known⟩, h.cases⟩

theorem defineMem_runs {n : Str} {t : DType} (h : Fine Γ sw s) :
    Runs (defineMem n t) s true fun _ s' => Fine { Γ with syms := add n ⟨false, t⟩ Γ.syms } sw s' := by
  refine .modify ?_
  have e := add_map (f := symOf) n ⟨.mem ((s.mem + t.nbytes + 3) / 4 * 4), t⟩ s.syms
  rw [h.sees.syms] at e
  by_cases hc : canDefine n s.syms = true
  · rw [if_pos hc] at e ⊢
    exact ⟨⟨e.symm, h.sees.tags, h.sees.known⟩, h.cases⟩
  · rw [if_neg hc] at e ⊢
    exact ⟨⟨e.symm, h.sees.tags, h.sees.known⟩, h.cases⟩

theorem find_sees {n : Str} (hs : Sees Γ s) : find n Γ.syms = (lookup n s.syms).map symOf := by rw [← hs.syms, find_map]

theorem localDecl_runs {d : SDecl} (h : Fine Γ sw s) : Runs (localDecl d) s (Tr.fitsDecl Γ d) fun _ s' => Fine (Tr.declare Γ d) sw s' := by
  obtain ⟨who, t, init⟩ := d
  cases who with
  | str _ => exact .ub
  | ident n =>
    have hd : Runs (localIdent n t) s true fun _ s' => Fine (Tr.declare Γ ⟨.ident n, t, init⟩) sw s' := by
      unfold localIdent Tr.declare
      cases t.isObject with
      | true => exact defineMem_runs h
      | false => exact defineLabel_runs h
    refine hd.seq fun _ s1 h1 => ?_
    cases init with
    | none => exact .pure h1
    | some i =>
      refine get_runs ?_
      simp only [Tr.fitsDecl]
      rw [find_sees h1.sees]
      cases hl : lookup n s1.syms with
      | none => exact .ub
      | some y =>
        dsimp only [Option.map_some]
        refine Runs.seq (P := fun _ s' => Keeps s1 s') (.modify ⟨rfl, rfl, rfl⟩) fun _ s2 k2 => ?_
        refine (localInit_runs i y.dt s2 (h1.sees.keep k2)).last fun _ s3 k3 => ?_
        exact .modify (h1.keep ((k2.trans k3).trans ⟨rfl, rfl, rfl⟩))

theorem localDecls_runs : ∀ {ds : List SDecl} {Γ : Names} {s : GState}, Fine Γ sw s →
    Runs (localDecls ds) s (Tr.fitsDecls Γ ds) fun _ s' => Fine (ds.foldl Tr.declare Γ) sw s'
  | [], _, _, h => .pure h
  | _ :: _, _, _, h => (localDecl_runs h).bind fun _ _ h1 => localDecls_runs h1

/-! ### tags -/

theorem layoutLoop_runs : ∀ (ms : Members) (nb al : Nat),
    ((namesOf ms).all (fun m => decide (0 < m.2.alignment)) = true → ∃ ms' nb' al', DType.layoutLoop ms nb al = .ok (ms', nb', al') ∧ namesOf ms' = namesOf ms ∧
      al ≤ al' ∧ ((namesOf ms).isEmpty = false → 0 < al') ∧ ((namesOf ms).isEmpty = true → al' = al)) ∧
    ((namesOf ms).all (fun m => decide (0 < m.2.alignment)) = false → ∀ x, DType.layoutLoop ms nb al ≠ .ok x)
  | .nil, nb, al => ⟨fun _ => ⟨.nil, nb, al, rfl, rfl, Nat.le_refl _, nofun, fun _ => rfl⟩, nofun⟩
  | .cons n t o ms, nb, al => by
    simp only [namesOf, List.all_cons, DType.layoutLoop, DType.minMultipleOf, List.isEmpty_cons, Bool.and_eq_true, decide_eq_true_eq]
    by_cases ha : t.alignment = 0
    · rw [if_pos ha]
      exact ⟨fun h => by omega, fun _ x h => by simp at h⟩
    · rw [if_neg ha]
      obtain ⟨h1, h2⟩ := layoutLoop_runs ms ((nb + t.alignment - 1) / t.alignment * t.alignment + t.nbytes) (if t.alignment > al then t.alignment else al)
      constructor
      · rintro ⟨-, h⟩
        obtain ⟨ms', nb', al', e, hn, hle, -, -⟩ := h1 h
        refine ⟨.cons n t ((nb + t.alignment - 1) / t.alignment * t.alignment) ms', nb', al', ?_, ?_, ?_, ?_, nofun⟩
        · simp only [Out.ok_bind, e]; rfl
        · simp only [namesOf, hn]
        · split at hle <;> omega
        · intro; split at hle <;> omega
      · intro h x hx
        have h : (namesOf ms).all (fun m => decide (0 < m.2.alignment)) = false := by
          simpa [Nat.pos_of_ne_zero ha] using h
        simp only [Out.ok_bind, Out.bind_eq_ok] at hx
        obtain ⟨y, hy, -⟩ := hx
        exact h2 h _ hy

theorem newUnnamedStruct_runs (ms : Members) :
    ((!(namesOf ms).isEmpty && (namesOf ms).all fun m => decide (0 < m.2.alignment)) = true → ∃ ms' b a, DType.newUnnamedStruct ms = .ok (.ustruct ms' b a) ∧ namesOf ms' = namesOf ms) ∧
    ((!(namesOf ms).isEmpty && (namesOf ms).all fun m => decide (0 < m.2.alignment)) = false → ∀ x, DType.newUnnamedStruct ms ≠ .ok x) := by
  obtain ⟨h1, h2⟩ := layoutLoop_runs ms 0 0
  constructor
  · intro h
    simp only [Bool.and_eq_true, Bool.not_eq_true'] at h
    obtain ⟨ms', nb', al', e, hn, -, hp, -⟩ := h1 h.2
    have hp := hp h.1
    refine ⟨ms', (nb' + al' - 1) / al' * al', al', ?_, hn⟩
    simp only [DType.newUnnamedStruct, DType.minMultipleOf, e, Out.ok_bind, if_neg (Nat.pos_iff_ne_zero.1 hp)]
    rfl
  · intro h x hx
    simp only [DType.newUnnamedStruct, Out.bind_eq_ok, DType.minMultipleOf] at hx
    obtain ⟨⟨ms', nb', al'⟩, hy, z, hz, -⟩ := hx
    cases ha : (namesOf ms).all fun m => decide (0 < m.2.alignment) with
    | false => exact h2 ha _ hy
    | true =>
      obtain ⟨_, _, _, e, -, -, -, h0⟩ := h1 ha
      rw [hy] at e
      cases e
      simp only [ha, Bool.and_true, Bool.not_eq_false'] at h
      cases h0 h
      simp at hz

theorem tagDecl_runs {n : Str} {t : DType} (h : Fine Γ sw s) : Runs (tagDecl n t) s (Tr.fitsTag Γ n t) fun _ s' => Fine (Tr.declareTag Γ n t) sw s' := by
  cases t with
  | ustruct ms b a =>
    refine get_runs ?_
    have e : (Γ.tags.head?.bind (List.lookup n)).isSome = !canDefine n s.tags := by
      rw [← h.sees.tags]
      cases s.tags with
      | nil => rfl
      | cons sc _ =>
        simp only [List.map_cons, List.head?_cons, Option.bind_some, lookup_map, canDefine]
        cases sc.lookup n <;> rfl
    simp only [Tr.fitsTag, Tr.declareTag, e]
    obtain ⟨h1, h2⟩ := newUnnamedStruct_runs ms
    by_cases hc : canDefine n s.tags = true
    · rw [if_pos hc, hc]
      simp only [Bool.not_true, Bool.false_or]
      generalize (!(namesOf ms).isEmpty && (namesOf ms).all fun m => decide (0 < m.2.alignment)) = b at h1 h2
      cases b with
      | false =>
        refine ⟨nofun, fun _ x hx => ?_⟩
        obtain ⟨a, c, s1, c1, e1, -⟩ := bind_ok.1 (show _ = Out.ok (x.1, x.2.1, x.2.2) from hx)
        unfold lift at e1
        split at e1 <;> try cases e1
        exact h2 rfl _ (by assumption)
      | true =>
        obtain ⟨ms', b, a, e1, hn⟩ := h1 rfl
        refine Runs.seq (P := fun x s' => x = .ustruct ms' b a ∧ s' = s) ⟨fun _ => ⟨_, [], s, by simp only [lift, e1], rfl, rfl⟩, nofun⟩ fun x s1 hx => ?_
        rw [hx.1, hx.2]
        refine .modify ⟨⟨h.sees.syms, ?_, ?_⟩, h.cases⟩
        · have e := add_map (f := namesIn) n (.ustruct ms' b a) s.tags
          rw [h.sees.tags, if_pos hc] at e
          rw [← hn]
          exact e.symm
        · have hk := h.sees.known
          intro sc hsc p hp
          revert hsc hk
          cases s.tags with
          | nil =>
            intro _ hsc
            simp only [define, List.mem_singleton] at hsc
            subst hsc
            simp only [List.mem_singleton] at hp
            exact ⟨_, _, _, by rw [hp]⟩
          | cons sc0 scs =>
            intro hk hsc
            simp only [define, List.mem_cons] at hsc
            rcases hsc with rfl | hsc
            · rcases List.mem_cons.1 hp with rfl | hp
              · exact ⟨_, _, _, rfl⟩
              · exact hk sc0 (by simp) p hp
            · exact hk sc (by simp [hsc]) p hp
    · rw [if_neg hc]
      simp only [hc, Bool.not_eq_true'] 
      refine Runs.cast (b := true) (.pure ?_) (by simp)
      have e := add_map (f := namesIn) n (.ustruct ms b a) s.tags
      rw [h.sees.tags, if_neg hc] at e
      exact ⟨⟨h.sees.syms, e.symm, h.sees.known⟩, h.cases⟩
  | nstruct n b a => exact .ub
  | _ => exact .pure h

/-! ### statements -/

/-- visible is what was, with more in the innermost scope -/
def Grown (Γ Γ' : Names) : Prop := Γ'.syms.tail = Γ.syms.tail ∧ Γ'.tags.tail = Γ.tags.tail

theorem Grown.refl : Grown Γ Γ := ⟨rfl, rfl⟩
theorem Grown.trans {Γ1 Γ2 Γ3 : Names} (h : Grown Γ1 Γ2) (k : Grown Γ2 Γ3) : Grown Γ1 Γ3 := ⟨k.1.trans h.1, k.2.trans h.2⟩

theorem add_tail {n : Str} {x : α} {l : List (List (Str × α))} : (add n x l).tail = l.tail := by
  cases l with
  | nil => rfl
  | cons sc l => simp only [add]; split <;> rfl

theorem declare_grown {d : SDecl} : Grown Γ (Tr.declare Γ d) := by
  unfold Tr.declare
  split
  · exact ⟨add_tail, rfl⟩
  · exact Grown.refl

theorem declares_grown : ∀ {ds : List SDecl} {Γ : Names}, Grown Γ (ds.foldl Tr.declare Γ)
  | [], _ => Grown.refl
  | _ :: _, _ => declare_grown.trans declares_grown

theorem tag_grown {n : Str} {t : DType} : Grown Γ (Tr.declareTag Γ n t) := by
  unfold Tr.declareTag
  split
  · exact ⟨rfl, add_tail⟩
  · exact Grown.refl

theorem after_grown : ∀ {i : SItem}, Grown Γ (Tr.after Γ i)
  | .stmt _ => Grown.refl
  | .decls _ => declares_grown
  | .tag _ _ => tag_grown

theorem enter_runs (h : Fine Γ sw s) : Runs enter s true fun _ s' => Fine (inside Γ) sw s' := by
  refine .modify ⟨⟨?_, ?_, ?_⟩, h.cases⟩
  · simp only [List.map_cons, List.map_nil, inside, h.sees.syms]
  · simp only [List.map_cons, List.map_nil, inside, h.sees.tags]
  · intro sc hsc p hp
    rcases List.mem_cons.1 hsc with rfl | hsc
    · cases hp
    · exact h.sees.known sc hsc p hp

theorem leave_runs {Γ' : Names} (h : Fine Γ' sw s) (hg : Grown (inside Γ) Γ') : Runs leave s true fun _ s' => Fine Γ sw s' := by
  refine .modify ⟨⟨?_, ?_, ?_⟩, h.cases⟩
  · simp only [List.map_tail, h.sees.syms, hg.1]; rfl
  · simp only [List.map_tail, h.sees.tags, hg.2]; rfl
  · intro sc hsc p hp
    exact h.sees.known sc (List.mem_of_mem_tail hsc) p hp

theorem label_runs (h : Fine Γ sw s) : Runs newLabel s true fun _ s' => Fine Γ sw s' :=
  newLabel_runs.mono fun _ _ h' => h'.1 ▸ h.keep ⟨rfl, rfl, rfl⟩

theorem emit_fine {x : Immc} (h : Fine Γ sw s) : Runs (emit x) s true fun _ s' => Fine Γ sw s' := .emit h
theorem emits_fine {x : List Immc} (h : Fine Γ sw s) : Runs (emits x) s true fun _ s' => Fine Γ sw s' := .emits h

theorem inLoop_runs {c k : Int} {m : GM Unit} {b : Bool} (h : Fine Γ sw s) (hm : ∀ s, Fine Γ sw s → Runs m s b fun _ s' => Fine Γ sw s') :
    Runs (inLoop c k m) s b fun _ s' => Fine Γ sw s' := by
  refine get_runs ?_
  refine Runs.seq (P := fun _ s' => Fine Γ sw s') (.modify (h.keep ⟨rfl, rfl, rfl⟩)) fun _ s1 h1 => ?_
  refine (hm s1 h1).last fun _ s2 h2 => ?_
  exact .modify (h2.keep ⟨rfl, rfl, rfl⟩)

theorem ite_runs {c : G} {m : GM Unit} {b1 b2 v b : Bool} (h : Fine Γ sw s) (hc : GT c Γ b1 b2 v) (hm : ∀ s, Fine Γ sw s → Runs m s b fun _ s' => Fine Γ sw s') :
    Runs (iteCode c m) s (b2 && b) fun _ s' => Fine Γ sw s' := by
  refine (label_runs h).seq fun id s1 h1 => ?_
  refine (hc.jmp false s1 h1.sees).bind fun j s2 k2 => ?_
  refine (hm s2 (h1.keep k2)).capture.last ?_
  rintro ⟨_, body⟩ s3 h3
  dsimp only
  cases endLabel body with
  | some n => exact (emit_fine h3).seq fun _ _ h => emits_fine h
  | none => exact (emit_fine h3).seq fun _ _ h => (emits_fine h).seq fun _ _ h => emit_fine h

theorem itee_runs {c : G} {m m' : GM Unit} {b1 b2 v b b' : Bool} (h : Fine Γ sw s) (hc : GT c Γ b1 b2 v) (hm : ∀ s, Fine Γ sw s → Runs m s b fun _ s' => Fine Γ sw s')
    (hm' : ∀ s, Fine Γ sw s → Runs m' s b' fun _ s' => Fine Γ sw s') : Runs (iteeCode c m m') s (b2 && b && b') fun _ s' => Fine Γ sw s' := by
  rw [Bool.and_assoc]
  refine (label_runs h).seq fun no s1 h1 => ?_
  refine (label_runs h1).seq fun id s1 h1 => ?_
  refine (hc.jmp false s1 h1.sees).bind fun j s2 k2 => ?_
  refine (emit_fine (h1.keep k2)).seq fun _ s3 h3 => ?_
  refine (hm s3 h3).bind fun _ s4 h4 => ?_
  have he : Runs (do emit (labelAt no); m') s4 b' fun _ s' => Fine Γ sw s' := (emit_fine h4).seq fun _ s5 h5 => hm' s5 h5
  refine he.capture.last ?_
  rintro ⟨_, body⟩ s3 h3
  dsimp only
  cases endLabel body with
  | some n => exact (emit_fine h3).seq fun _ _ h => emits_fine h
  | none => exact (emit_fine h3).seq fun _ _ h => (emits_fine h).seq fun _ _ h => emit_fine h

theorem switch_runs {c : G} {m : GM Unit} {b1 b2 v b : Bool} (h : Fine Γ sw s) (hc : GT c Γ b1 b2 v) (hm : ∀ s, Fine Γ true s → Runs m s b fun _ s' => Fine Γ true s') :
    Runs (switchCode c m) s (b2 && b) fun _ s' => Fine Γ sw s' := by
  refine (hc.reg s h.sees).bind ?_
  rintro reg s1 ⟨-, k1⟩
  have h1 := h.keep k1
  refine (label_runs h1).seq fun id s2 h2 => ?_
  refine get_runs ?_
  have h3 : Fine Γ true { s2 with cases := some [], dflt := -1, brk := id } := ⟨⟨h2.sees.1, h2.sees.2, h2.sees.3⟩, rfl⟩
  refine Runs.seq (P := fun _ s' => Fine Γ true s') (.modify h3) fun _ s3 h3 => ?_
  refine (hm s3 h3).capture.last ?_
  rintro ⟨_, body⟩ s4 h4
  refine get_runs ?_
  refine (emits_fine h4).seq fun _ s5 h5 => ?_
  refine (emit_fine h5).seq fun _ s6 h6 => ?_
  refine Runs.seq (P := fun _ s' => Fine Γ sw s') (.modify ⟨⟨h6.sees.1, h6.sees.2, h6.sees.3⟩, h2.cases⟩) fun _ s7 h7 => ?_
  exact (emits_fine h7).seq fun _ _ h => emit_fine h

theorem while_runs {c : G} {m : GM Unit} {b1 b2 v b : Bool} (h : Fine Γ sw s) (hc : GT c Γ b1 b2 v) (hm : ∀ s, Fine Γ sw s → Runs m s b fun _ s' => Fine Γ sw s') :
    Runs (whileCode c m) s (b2 && b) fun _ s' => Fine Γ sw s' := by
  refine (label_runs h).seq fun start s1 h1 => ?_
  refine (label_runs h1).seq fun done s2 h2 => ?_
  refine (emit_fine h2).seq fun _ s3 h3 => ?_
  refine (hc.jmp false s3 h3.sees).bind fun j s4 k4 => ?_
  refine (emit_fine (h3.keep k4)).seq fun _ s5 h5 => ?_
  refine (inLoop_runs h5 hm).last fun _ s6 h6 => ?_
  exact (emit_fine h6).seq fun _ _ h => emit_fine h

theorem forCond_runs {c : SStmt} {n : Name} (h : Fine Γ sw s) : Runs (forCond c n) s (Tr.fitsCond Γ c) fun _ s' => Fine Γ sw s' := by
  cases c with
  | expr e =>
    obtain ⟨_, he, -⟩ := expr_et (Γ := Γ) e
    exact (he.jmp false s h.sees).last fun _ _ k => emit_fine (h.keep k)
  | _ => exact .pure h

theorem for_runs {Γ' : Names} {i m nx : GM Unit} {cond : Name → GM Unit} {bi bc bn b : Bool} (h : Fine Γ sw s) (hi : ∀ s, Fine Γ sw s → Runs i s bi fun _ s' => Fine Γ' sw s')
    (hc : ∀ n s, Fine Γ' sw s → Runs (cond n) s bc fun _ s' => Fine Γ' sw s') (hn : ∀ s, Fine Γ' sw s → Runs nx s bn fun _ s' => Fine Γ' sw s')
    (hm : ∀ s, Fine Γ' sw s → Runs m s b fun _ s' => Fine Γ' sw s') : Runs (forCode i cond nx m) s (bi && bc && b && bn) fun _ s' => Fine Γ' sw s' := by
  rw [Bool.and_assoc, Bool.and_assoc]
  refine (label_runs h).seq fun start s1 h1 => ?_
  refine (label_runs h1).seq fun cont s2 h2 => ?_
  refine (label_runs h2).seq fun done s3 h3 => ?_
  refine (hi s3 h3).bind fun _ s4 h4 => ?_
  refine (emit_fine h4).seq fun _ s5 h5 => ?_
  refine (hc _ s5 h5).bind fun _ s6 h6 => ?_
  refine (inLoop_runs h6 hm).bind fun _ s7 h7 => ?_
  refine (emit_fine h7).seq fun _ s8 h8 => ?_
  refine (hn s8 h8).last fun _ s9 h9 => ?_
  exact (emit_fine h9).seq fun _ _ h => emit_fine h

theorem addCase_runs {v : SExpr} {id : Int} (h : Fine Γ sw s) : Runs (addCase v id) s (sw && Tr.isLit v) fun _ s' => Fine Γ sw s' := by
  refine get_runs ?_
  have hc := h.cases
  cases hs : s.cases with
  | none =>
    rw [hs] at hc
    subst hc
    exact .ub
  | some cs =>
    rw [hs] at hc
    subst hc
    cases v with
    | ilit t l => exact .modify ⟨⟨h.sees.1, h.sees.2, h.sees.3⟩, rfl⟩
    | _ => exact .ub

mutual
theorem stmt_runs : ∀ (x : SStmt) (sw : Bool) (Γ : Names) (s : GState), Fine Γ sw s → Runs (stmt x) s (Tr.fitsStmt Γ sw x) fun _ s' => Fine Γ sw s'
  | .cmpd is, sw, Γ, s, h => by
    have ih := items_runs is sw (inside Γ)
    simp only [stmt, Tr.fitsStmt]
    refine (enter_runs h).seq fun _ s1 h1 => ?_
    refine (ih s1 h1).last ?_
    rintro _ s2 ⟨Γ', h2, hg⟩
    exact leave_runs h2 hg
  | .case v b, sw, Γ, s, h => by
    have ih := stmt_runs b sw Γ
    simp only [stmt, Tr.fitsStmt]
    refine (label_runs h).seq fun id s1 h1 => ?_
    refine (addCase_runs h1).bind fun _ s2 h2 => ?_
    exact (emit_fine h2).seq fun _ s3 h3 => ih s3 h3
  | .dflt b, sw, Γ, s, h => by
    have ih := stmt_runs b sw Γ
    simp only [stmt, Tr.fitsStmt]
    refine (label_runs h).seq fun id s1 h1 => ?_
    refine Runs.seq (P := fun _ s' => Fine Γ sw s') (.modify (h1.keep ⟨rfl, rfl, rfl⟩)) fun _ s2 h2 => ?_
    exact (emit_fine h2).seq fun _ s3 h3 => ih s3 h3
  | .cont, sw, Γ, s, h => by
    simp only [stmt, Tr.fitsStmt]
    exact get_runs (emit_fine h)
  | .brk, sw, Γ, s, h => by
    simp only [stmt, Tr.fitsStmt]
    exact get_runs (emit_fine h)
  | .ret none, sw, Γ, s, h => by
    simp only [stmt, Tr.fitsStmt, returnCode, Option.map_none]
    exact get_runs (emit_fine h)
  | .ret (some e), sw, Γ, s, h => by
    obtain ⟨_, he, -⟩ := expr_et (Γ := Γ) e
    simp only [stmt, Tr.fitsStmt, returnCode, Option.map_some]
    refine (he.int none s h.sees).last fun _ _ k => ?_
    exact (emit_fine (h.keep k.2)).seq fun _ _ h => get_runs (emit_fine h)
  | .expr e, sw, Γ, s, h => by
    obtain ⟨_, he, -⟩ := expr_et (Γ := Γ) e
    simp only [stmt, Tr.fitsStmt]
    refine Runs.seq (P := fun _ s' => Fine Γ sw s') (.modify (h.keep ⟨rfl, rfl, rfl⟩)) fun _ s2 h2 => ?_
    exact (he.code s2 h2.sees).mono fun _ _ k => h2.keep k.1
  | .null, sw, Γ, s, h => by
    simp only [stmt, Tr.fitsStmt]
    exact .pure h
  | .ite c t, sw, Γ, s, h => by
    have ih := stmt_runs t sw Γ
    obtain ⟨_, he, -⟩ := expr_et (Γ := Γ) c
    simp only [stmt, Tr.fitsStmt]
    exact ite_runs h he ih
  | .itee c t e, sw, Γ, s, h => by
    have ih := stmt_runs t sw Γ
    have ih' := stmt_runs e sw Γ
    obtain ⟨_, he, -⟩ := expr_et (Γ := Γ) c
    simp only [stmt, Tr.fitsStmt]
    exact itee_runs h he ih ih'
  | .switch c b, sw, Γ, s, h => by
    have ih := stmt_runs b true Γ
    obtain ⟨_, he, -⟩ := expr_et (Γ := Γ) c
    simp only [stmt, Tr.fitsStmt]
    exact switch_runs h he ih
  | .while c b, sw, Γ, s, h => by
    have ih := stmt_runs b sw Γ
    obtain ⟨_, he, -⟩ := expr_et (Γ := Γ) c
    simp only [stmt, Tr.fitsStmt]
    exact while_runs h he ih
  | .for i c n b, sw, Γ, s, h => by
    have hi := item_runs i sw (inside Γ)
    have hn := stmt_runs n sw (Tr.after (inside Γ) i)
    have hb := stmt_runs b sw (Tr.after (inside Γ) i)
    simp only [stmt, Tr.fitsStmt]
    refine (enter_runs h).seq fun _ s1 h1 => ?_
    exact (for_runs h1 hi (fun _ _ => forCond_runs) hn hb).last fun _ s2 h2 => leave_runs h2 after_grown
theorem item_runs : ∀ (x : SItem) (sw : Bool) (Γ : Names) (s : GState), Fine Γ sw s → Runs (item x) s (Tr.fitsItem Γ sw x) fun _ s' => Fine (Tr.after Γ x) sw s'
  | .stmt x, sw, Γ, s, h => by
    have ih := stmt_runs x sw Γ s h
    simp only [item, Tr.fitsItem, Tr.after]
    exact ih
  | .decls ds, sw, Γ, s, h => by
    simp only [item, Tr.fitsItem, Tr.after]
    exact localDecls_runs h
  | .tag n t, sw, Γ, s, h => by
    simp only [item, Tr.fitsItem, Tr.after]
    exact tagDecl_runs h
theorem items_runs : ∀ (x : SItems) (sw : Bool) (Γ : Names) (s : GState), Fine Γ sw s → Runs (items x) s (Tr.fitsItems Γ sw x) fun _ s' => ∃ Γ', Fine Γ' sw s' ∧ Grown Γ Γ'
  | .nil, sw, Γ, s, h => by
    simp only [items, Tr.fitsItems]
    exact .pure ⟨Γ, h, Grown.refl⟩
  | .cons i is, sw, Γ, s, h => by
    have h1 := item_runs i sw Γ s h
    have h2 := items_runs is sw (Tr.after Γ i)
    simp only [items, Tr.fitsItems]
    refine h1.bind fun _ s1 hs1 => (h2 s1 hs1).mono ?_
    rintro _ _ ⟨Γ', h, hg⟩
    exact ⟨Γ', h, after_grown.trans hg⟩
end

/-! ### functions, static data, translation units -/

theorem params_runs : ∀ {ps : Params} {i : Nat} {Γ : Names} {s : GState}, Fine Γ sw s →
    Runs (paramsCode i ps) s (Tr.declareParams Γ ps).isSome fun _ s' => ∃ Γ', Tr.declareParams Γ ps = some Γ' ∧ Fine Γ' sw s' ∧ Grown Γ Γ'
  | .nil, i, Γ, s, h => by
    simp only [paramsCode, Tr.declareParams]
    exact .pure ⟨Γ, rfl, h, Grown.refl⟩
  | .cons none _ _, i, Γ, s, h => by
    simp only [paramsCode, Tr.declareParams]
    exact .ub
  | .cons (some n) t ps, i, Γ, s, h => by
    simp only [paramsCode, Tr.declareParams]
    refine get_runs ?_
    have e : (Γ.syms.head?.bind (List.lookup n)).isNone = canDefine n s.syms := by
      rw [← h.sees.syms]
      cases s.syms with
      | nil => rfl
      | cons sc _ =>
        simp only [List.map_cons, List.head?_cons, Option.bind_some, lookup_map, canDefine]
        cases sc.lookup n <;> rfl
    cases hl : Γ.syms.head?.bind (List.lookup n) with
    | some y =>
      rw [hl] at e
      simp only [Option.isNone_some] at e
      rw [← e]
      exact .ub
    | none =>
      rw [hl] at e
      simp only [Option.isNone_none] at e
      rw [← e]
      refine (defineMem_runs h).seq fun _ s1 h1 => ?_
      refine get_runs ?_
      refine (emit_fine h1).seq fun _ s2 h2 => ?_
      refine (params_runs h2).mono ?_
      rintro _ s3 ⟨Γ', e, h3, hg⟩
      exact ⟨Γ', e, h3, hg.1.trans add_tail, hg.2⟩

theorem func_runs {n : Str} {t : DType} {b : SItems} {label : Int → Str} (h : Fine Γ false s) :
    Runs (funcCode n t b) s (Tr.fitsExt label Γ (.func n t b)) fun _ s' => Fine (Tr.afterExt label Γ (.func n t b)) false s' := by
  refine nameOf_runs.bind ?_
  rintro name s1 ⟨-, e⟩
  rw [e]
  refine (defineLabel_runs h).seq fun _ s2 h2 => ?_
  cases t with
  | func ps r =>
    dsimp only
    refine Runs.seq (P := fun _ s' => Fine _ false s') (.modify (h2.keep ⟨rfl, rfl, rfl⟩)) fun _ s3 h3 => ?_
    refine (label_runs h3).seq fun ret s4 h4 => ?_
    refine (enter_runs h4).seq fun _ s5 h5 => ?_
    refine Runs.seq (P := fun _ s' => Fine _ false s') (.modify (h5.keep ⟨rfl, rfl, rfl⟩)) fun _ s6 h6 => ?_
    refine Runs.cast (b := (Tr.declareParams (inside { Γ with syms := add n ⟨true, .func ps r⟩ Γ.syms }) ps).isSome &&
      match Tr.declareParams (inside { Γ with syms := add n ⟨true, .func ps r⟩ Γ.syms }) ps with
      | some Γ' => Tr.fitsItems Γ' false b
      | none => false) ?_ (by cases h : Tr.declareParams (inside { Γ with syms := add n ⟨true, .func ps r⟩ Γ.syms }) ps <;> simp [h])
    refine (params_runs h6).capture.bind ?_
    rintro ⟨_, pc⟩ s7 ⟨Γ', e, h7, hg⟩
    rw [e]
    refine (items_runs b false Γ' s7 h7).capture.last ?_
    rintro ⟨_, bc⟩ s8 ⟨Γ2, h8, hg2⟩
    refine get_runs ?_
    refine (emit_fine h8).seq fun _ _ h => (emit_fine h).seq fun _ _ h => (emits_fine h).seq fun _ _ h => (emits_fine h).seq fun _ _ h =>
      (emit_fine h).seq fun _ _ h => (emit_fine h).seq fun _ s9 h9 => ?_
    refine Runs.seq (P := fun _ s' => Fine Γ2 false s') (.modify (h9.keep ⟨rfl, rfl, rfl⟩)) fun _ s10 h10 => ?_
    exact leave_runs h10 (hg.trans hg2)
  | _ => exact .ub

theorem whoName_runs {w : SWho} : Runs (whoName w) s (match w with | .ident n => Tr.ascii n | .str _ => true)
    fun m s' => m.1 = Tr.staticName (fun id => (stringName id).1) w ∧ s' = s := by
  cases w with
  | ident n => exact nameOf_runs
  | str id => exact .pure ⟨rfl, rfl⟩

theorem globalDecl_runs {d : SDecl} (h : Fine Γ sw s) :
    Runs (globalDecl d) s (Tr.fitsStatic (fun id => (stringName id).1) Γ d) fun _ s' => Fine (Tr.declareStatic (fun id => (stringName id).1) Γ d) sw s' := by
  refine whoName_runs.bind ?_
  rintro n s1 ⟨en, es⟩
  rw [es, ← en]
  have hd : Runs (defineLabel n.1 d.dt) s true fun _ s' => Fine (Tr.declareStatic (fun id => (stringName id).1) Γ d) sw s' := by
    unfold Tr.declareStatic
    rw [← en]
    exact defineLabel_runs h
  refine hd.seq fun _ s2 h2 => ?_
  refine get_runs ?_
  rw [find_sees h2.sees]
  cases hl : lookup n.1 s2.syms with
  | none => exact .ub
  | some y =>
    dsimp only [Option.map_some, symOf]
    cases ho : y.dt.isObject with
    | false => exact .pure h2
    | true =>
      simp only [Bool.not_true, Bool.false_or, Bool.false_eq_true, if_false]
      refine (emit_fine h2).seq fun _ s3 h3 => ?_
      cases d.init with
      | none => exact emit_fine h3
      | some i => exact (globalInit_runs i y.dt s3 h3.sees).mono fun _ _ k => h3.keep k

theorem globalDecls_runs : ∀ {ds : List SDecl} {Γ : Names} {s : GState}, Fine Γ sw s →
    Runs (globalDecls ds) s (Tr.fitsStatics (fun id => (stringName id).1) Γ ds) fun _ s' => Fine (ds.foldl (Tr.declareStatic (fun id => (stringName id).1)) Γ) sw s'
  | [], _, _, h => .pure h
  | _ :: _, _, _, h => (globalDecl_runs h).bind fun _ _ h1 => globalDecls_runs h1

theorem ext_runs {x : SExt} (h : Fine Γ false s) : Runs (ext x) s (Tr.fitsExt (fun id => (stringName id).1) Γ x)
    fun _ s' => Fine (Tr.afterExt (fun id => (stringName id).1) Γ x) false s' := by
  cases x with
  | func n t b => exact func_runs h
  | decls ds => exact globalDecls_runs h
  | tag n t => exact tagDecl_runs h

theorem unit_runs : ∀ {u : List SExt} {Γ : Names} {s : GState}, Fine Γ false s → Runs (unit u) s (Tr.fitsUnit (fun id => (stringName id).1) Γ u) fun _ _ => True
  | [], _, _, _ => .pure trivial
  | _ :: _, _, _, h => (ext_runs h).bind fun _ _ h1 => unit_runs h1

theorem initial_fine : Fine Tr.nothing false initial := ⟨⟨rfl, rfl, by intro sc h p hp; cases List.mem_singleton.1 h; cases hp⟩, rfl⟩

end

end Gen
end Umlcc
