import Verif.Lemma.GenLabelStmt
/-!
Labels of the code of a translation unit.
-/
namespace Umlcc
namespace Gen
open RSpec (target isLabelNamed UniqueLabels)
open Flow

theorem defs_nodup {name : Name} {is : List Int} {lo : Int} (hn : name.1.head? ≠ some 46) (h0 : -1 ≤ lo) (hd : is.Nodup) (hb : ∀ i ∈ is, lo < i) :
    (name :: is.map labelName).Nodup := by
  rw [List.nodup_cons]
  constructor
  · intro h
    obtain ⟨i, _, rfl⟩ := List.mem_map.1 h
    exact hn rfl
  · induction is with
    | nil => exact List.nodup_nil
    | cons i is ih =>
      rw [List.nodup_cons] at hd
      rw [List.map_cons, List.nodup_cons]
      refine ⟨?_, ih hd.2 fun j hj => hb j (by simp [hj])⟩
      intro h
      obtain ⟨j, hj, e⟩ := List.mem_map.1 h
      have h1 := hb i (by simp)
      have h2 := hb j (by simp [hj])
      exact hd.1 (labelName_inj (by omega) (by omega) e ▸ hj)

theorem unique_of_count : ∀ {c : List Immc} {m : Name} (_ : (defs c).count m ≤ 1) {i j : Nat} {x y : Immc},
    c[i]? = some x → c[j]? = some y → isLabelNamed m x = true → isLabelNamed m y = true → i = j
  | [], _, _, i, j, x, y, hi, _, _, _ => by simp at hi
  | z :: c, m, h, i, j, x, y, hi, hj, hx, hy => by
    have key : ∀ {k : Nat} {w : Immc}, c[k]? = some w → isLabelNamed m w = true → isLabelNamed m z = true → False := by
      intro k w hk hw hz
      have hm : m ∈ defs c := mem_defs.2 ⟨w, List.mem_of_getElem? hk, hw⟩
      cases z <;> simp [isLabelNamed] at hz
      subst hz
      simp only [defs, List.count_cons_self] at h
      have := List.count_pos_iff.2 hm
      omega
    cases i with
    | zero =>
      simp only [List.getElem?_cons_zero, Option.some.injEq] at hi
      subst hi
      cases j with
      | zero => rfl
      | succ j => exact (key (by simpa using hj) hy hx).elim
    | succ i =>
      cases j with
      | zero =>
        simp only [List.getElem?_cons_zero, Option.some.injEq] at hj
        subst hj
        exact (key (by simpa using hi) hx hy).elim
      | succ j =>
        have hc : (defs c).count m ≤ 1 := by
          cases z <;> simp only [defs] at h
          · exact h
          · exact h
          · exact Nat.le_trans List.count_le_count_cons h
        have := unique_of_count hc (by simpa using hi) (by simpa using hj) hx hy
        omega

/-! ### labels of a translation unit -/

theorem flat_data (d : IData) : Flat [.data d] := ⟨rfl, rfl⟩

theorem globalScalar_flat {t : DType} {e : SExpr} {s s' : GState} {c : List Immc} (h : globalScalar t e s = .ok ((), c, s')) :
    Flat c ∧ s'.lab = s.lab := by
  unfold globalScalar at h
  generalize stripCasts e = x at h
  split at h
  · generalize t.nbytes = k at h
    split at h
    all_goals first
      | (simp [fatal_ok] at h; done)
      | (obtain ⟨rfl, rfl⟩ := emit_ok.1 h; exact ⟨⟨rfl, rfl⟩, rfl⟩)
  · simp [ub_ok] at h

theorem Flat.append {a b : List Immc} (ha : Flat a) (hb : Flat b) : Flat (a ++ b) :=
  ⟨by rw [defs_append, ha.1, hb.1]; rfl, by rw [uses_append, ha.2, hb.2]; rfl⟩

theorem padding_flat {n : Int} {s s' : GState} {c : List Immc} (h : padding n s = .ok ((), c, s')) : Flat c ∧ s'.lab = s.lab := by
  unfold padding at h
  split at h
  · obtain ⟨rfl, rfl⟩ := emit_ok.1 h; exact ⟨⟨rfl, rfl⟩, rfl⟩
  · obtain ⟨_, rfl, rfl⟩ := pure_ok.1 h; exact ⟨flat_nil, rfl⟩

def FlatGen (g : DType → GM Unit) : Prop := ∀ {t s c s'}, g t s = .ok ((), c, s') → Flat c ∧ s'.lab = s.lab

theorem arrayInit_flat {t : DType} : ∀ {n : Nat} {gs : List (DType → GM Unit)} (_ : ∀ g ∈ gs, FlatGen g) {s s' : GState} {c : List Immc},
    arrayInit t n gs s = .ok ((), c, s') → Flat c ∧ s'.lab = s.lab
  | 0, _, _, s, s', c, h => by
    obtain ⟨_, rfl, rfl⟩ := pure_ok.1 h
    exact ⟨flat_nil, rfl⟩
  | n + 1, [], _, s, s', c, h => by simp [arrayInit, ub_ok] at h
  | n + 1, g :: gs, hg, s, s', c, h => by
    obtain ⟨c1, s1, c2, h1, h2, rfl⟩ := arrayInit_cons h
    have e1 := hg g (by simp) h1
    have e2 := arrayInit_flat (fun g' hg' => hg g' (by simp [hg'])) h2
    exact ⟨e1.1.append e2.1, e2.2.trans e1.2⟩

theorem globalMembers_flat {n : Nat} : ∀ {ms : List (DType × Nat)} {gs : List (DType → GM Unit)} (_ : ∀ g ∈ gs, FlatGen g) {s s' : GState}
    {c : List Immc}, globalMembers n ms gs s = .ok ((), c, s') → Flat c ∧ s'.lab = s.lab
  | [], _, _, s, s', c, h => by
    simp only [globalMembers] at h
    obtain ⟨_, rfl, rfl⟩ := pure_ok.1 h
    exact ⟨flat_nil, rfl⟩
  | _ :: _, [], _, s, s', c, h => by simp [globalMembers, ub_ok] at h
  | (t, o) :: ms, g :: gs, hg, s, s', c, h => by
    simp only [globalMembers] at h
    gm at h
    obtain ⟨_, c1, s1, _, h1, ⟨_, c2, s2, c3, h2, h3, rfl⟩, rfl⟩ := h
    have e1 := hg g (by simp) h1
    have e2 := padding_flat h2
    have e3 := globalMembers_flat (fun g' hg' => hg g' (by simp [hg'])) h3
    exact ⟨e1.1.append (e2.1.append e3.1), e3.2.trans (e2.2.trans e1.2)⟩

theorem globalStruct_flat {t : DType} {gs : List (DType → GM Unit)} (hg : ∀ g ∈ gs, FlatGen g) {s s' : GState} {c : List Immc}
    (h : globalStruct t gs s = .ok ((), c, s')) : Flat c ∧ s'.lab = s.lab := by
  simp only [globalStruct] at h
  gm at h
  obtain ⟨o, c1, s1, c2, h1, h, rfl⟩ := h
  obtain ⟨rfl, rfl, -⟩ := structType_ok h1
  cases o <;> simp only [ub_ok] at h
  exact globalMembers_flat hg h

mutual
theorem globalInit_flat : ∀ i : SInit, FlatGen (globalInit i)
  | .expr e, t, s, c, s', h => by
    simp only [globalInit] at h
    split at h
    · exact globalScalar_flat h
    · simp [ub_ok] at h
  | .str u b, t, s, c, s', h => by
    simp only [globalInit] at h
    split at h
    · obtain ⟨rfl, rfl⟩ := emit_ok.1 h; exact ⟨⟨rfl, rfl⟩, rfl⟩
    · simp [ub_ok] at h
  | .list is, t, s, c, s', h => by
    simp only [globalInit] at h
    split at h
    · exact arrayInit_flat (globalInits_flat is) h
    · exact globalStruct_flat (globalInits_flat is) h
    · exact globalStruct_flat (globalInits_flat is) h
    · simp [ub_ok] at h
theorem globalInits_flat : ∀ (is : SInits), ∀ g ∈ globalInits is, FlatGen g
  | .nil, g, hg, _, _, _, _, _ => by simp [globalInits] at hg
  | .cons i is, g, hg, t, s, c, s', h => by
    simp only [globalInits, List.mem_cons] at hg
    rcases hg with rfl | hg
    · exact globalInit_flat i h
    · exact globalInits_flat is g hg h
end

/-- numbered labels of external code: at most one of each new number, and jumps stay inside -/
structure EGood (s : GState) (c : List Immc) (s' : GState) : Prop where
  lab : s.lab ≤ s'.lab
  count : ∀ i : Int, 0 ≤ i → (defs c).count (labelName i) ≤ if s.lab < i ∧ i ≤ s'.lab then 1 else 0
  uses : ∀ m ∈ uses c, m ∈ defs c

theorem EGood.trans {a b d : GState} {x y : List Immc} (h : EGood a x b) (k : EGood b y d) : EGood a (x ++ y) d := by
  obtain ⟨h1, h2, h3⟩ := h
  obtain ⟨k1, k2, k3⟩ := k
  refine ⟨by omega, ?_, ?_⟩
  · intro i hi
    have e1 := h2 i hi
    have e2 := k2 i hi
    rw [defs_append, List.count_append]
    grind
  · intro m hm
    rw [uses_append] at hm
    rw [defs_append]
    rcases List.mem_append.1 hm with h | h
    · exact List.mem_append_left _ (h3 m h)
    · exact List.mem_append_right _ (k3 m h)

theorem EGood.flat {s s' : GState} {c : List Immc} (h : Flat c) (hl : s'.lab = s.lab) : EGood s c s' :=
  ⟨by omega, by simp [h.1], by simp [h.2]⟩

/-- no label with a number -/
theorem EGood.named {s s' : GState} {c : List Immc} {n : Name} {k : LblType} {v : Vis} (h : Flat c) (hl : s'.lab = s.lab)
    (hn : ∀ i, n ≠ labelName i) : EGood s (.label k v n :: c) s' := by
  refine ⟨by omega, ?_, ?_⟩
  · intro i _
    show (n :: defs c).count (labelName i) ≤ _
    rw [List.count_cons_of_ne (hn i), h.1]
    simp
  · intro m hm
    have : m ∈ Gen.uses c := hm
    simp [h.2] at this

theorem whoName_ok {w : SWho} {s s' : GState} {n : Name} {c : List Immc} (h : whoName w s = .ok (n, c, s')) (hw : plainWho w) :
    c = [] ∧ s' = s ∧ ∀ i, n ≠ labelName i := by
  cases w with
  | ident x =>
    obtain ⟨hx, rfl, rfl⟩ := nameOf_ok h
    refine ⟨rfl, rfl, ?_⟩
    rintro i rfl
    rw [← hx] at hw
    exact hw rfl
  | str id =>
    obtain ⟨rfl, rfl, rfl⟩ := pure_ok.1 h
    refine ⟨rfl, rfl, fun i e => ?_⟩
    have := congrArg Subtype.val e
    simp [stringName, labelName] at this

theorem globalDecl_good {d : SDecl} (hw : plainWho d.who) {s s' : GState} {c : List Immc} (h : globalDecl d s = .ok ((), c, s')) : EGood s c s' := by
  simp only [globalDecl, bind_ok] at h
  obtain ⟨n, c0, s0, _, h0, ⟨_, c1, s1, _, h1, ⟨s2, c2, s3, c3, h2, h, rfl⟩, rfl⟩, rfl⟩ := h
  obtain ⟨rfl, rfl, hn⟩ := whoName_ok h0 hw
  simp only [defineLabel, modify_ok] at h1
  obtain ⟨rfl, rfl⟩ := h1
  obtain ⟨rfl, rfl, rfl⟩ := get_ok.1 h2
  have hl : ∀ {x : GState}, x.lab = (if canDefine n.1 s0.syms = true then { s0 with syms := define n.1 ⟨.label, d.dt⟩ s0.syms } else s0).lab → x.lab = s0.lab := by
    intro x hx
    rw [hx]
    split <;> rfl
  revert h hl
  generalize (if canDefine n.1 s0.syms = true then { s0 with syms := define n.1 ⟨.label, d.dt⟩ s0.syms } else s0 : GState) = s4
  intro h hl
  cases hy : lookup n.1 s4.syms with
  | none => simp [hy, ub_ok] at h
  | some y =>
    simp only [hy] at h
    cases ho : y.dt.isObject
    · simp only [ho, Bool.not_false, if_true] at h
      obtain ⟨_, rfl, rfl⟩ := pure_ok.1 h
      exact .flat flat_nil (hl rfl)
    · simp only [ho, Bool.not_true, Bool.false_eq_true, if_false] at h
      cases hi : d.init with
      | none =>
        simp only [hi] at h
        gm at h
        obtain ⟨rfl, rfl⟩ := h
        exact EGood.named (flat_data _) (hl rfl) hn
      | some i =>
        simp only [hi] at h
        gm at h
        obtain ⟨c4, h4, rfl⟩ := h
        have := globalInit_flat i h4
        exact EGood.named this.1 (hl this.2) hn

theorem globalDecls_good : ∀ {ds : List SDecl} (_ : ∀ d ∈ ds, plainWho d.who) {s s' : GState} {c : List Immc}, globalDecls ds s = .ok ((), c, s') → EGood s c s'
  | [], _, s, s', c, h => by
    obtain ⟨_, rfl, rfl⟩ := pure_ok.1 h
    exact .flat flat_nil rfl
  | d :: ds, hd, s, s', c, h => by
    simp only [globalDecls, bind_ok] at h
    obtain ⟨_, c1, s1, c2, h1, h2, rfl⟩ := h
    exact (globalDecl_good (hd d (by simp)) h1).trans (globalDecls_good (fun d' h' => hd d' (by simp [h'])) h2)

theorem map_count {is : List Int} (hd : is.Nodup) {lo : Int} (h0 : -1 ≤ lo) (hb : ∀ i ∈ is, lo < i) {i : Int} (hi : 0 ≤ i) :
    (is.map labelName).count (labelName i) ≤ if i ∈ is then 1 else 0 := by
  have hn : (is.map labelName).Nodup := by
    have := defs_nodup (name := ⟨[97], by decide⟩) (by decide) h0 hd hb
    exact (List.nodup_cons.1 this).2
  split
  · exact List.nodup_iff_count.1 hn _
  · rename_i h
    rw [List.count_eq_zero_of_not_mem]
    · simp
    · intro hm
      obtain ⟨j, hj, e⟩ := List.mem_map.1 hm
      have := hb j hj
      exact h (labelName_inj (by omega) hi e ▸ hj)

theorem ext_good {x : SExt} (hx : plainExt x) {s s' : GState} (h0 : -1 ≤ s.lab) {c : List Immc} (h : ext x s = .ok ((), c, s')) : EGood s c s' := by
  cases x with
  | func n t b =>
    obtain ⟨name, is, hm, h1, h2, h3, h4, h5⟩ := funcCode_labels h hx.2.1 hx.2.2
    refine ⟨h5, ?_, ?_⟩
    · intro i hi
      rw [h1, List.count_cons_of_ne]
      · have := map_count h2 h0 (fun i hi => (h3 i hi).1) hi
        have := h3 i
        grind
      · rintro rfl
        exact hx.1 (hm ▸ rfl)
    · intro m hm'
      obtain ⟨i, hi, rfl⟩ := h4 m hm'
      rw [h1]
      exact List.mem_cons_of_mem _ (List.mem_map_of_mem hi)
  | decls ds => exact globalDecls_good hx h
  | tag n t =>
    obtain ⟨rfl, tg, rfl⟩ := tagDecl_ok h
    exact .flat flat_nil rfl

theorem unit_good : ∀ {u : List SExt} (_ : ∀ x ∈ u, plainExt x) {s s' : GState} (_ : -1 ≤ s.lab) {c : List Immc}, unit u s = .ok ((), c, s') → EGood s c s'
  | [], _, s, s', _, c, h => by
    obtain ⟨_, rfl, rfl⟩ := pure_ok.1 h
    exact .flat flat_nil rfl
  | x :: u, hu, s, s', h0, c, h => by
    simp only [unit, bind_ok] at h
    obtain ⟨_, c1, s1, c2, h1, h2, rfl⟩ := h
    have e := ext_good (hu x (by simp)) h0 h1
    exact e.trans (unit_good (fun x' h' => hu x' (by simp [h'])) (by have := e.lab; omega) h2)

end Gen
end Umlcc
