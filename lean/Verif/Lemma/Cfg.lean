import Verif.Lemma.SymTab
import Verif.Model.Regalloc
import Verif.Spec.Regalloc
/-! Control-flow graph and data-flow of regalloc.c (helper lemmas). -/
namespace Umlcc
namespace Regalloc
open HMap

/-! ### cutting into blocks -/

structure BlkOk (b : List Immc) : Prop where
  ne : b ≠ []
  lab : ∀ (k : Nat) x, 0 < k → b[k]? = some x → x.isLabel = false
  jmp : ∀ (k : Nat) x, k + 1 < b.length → b[k]? = some x → x.isJump = false

structure CurOk (b : List Immc) : Prop where
  lab : ∀ (k : Nat) x, 0 < k → b[k]? = some x → x.isLabel = false
  jmp : ∀ (k : Nat) x, b[k]? = some x → x.isJump = false

theorem CurOk.nil : CurOk [] := ⟨by simp, by simp⟩

theorem CurOk.blk {b : List Immc} (h : CurOk b) (hn : b ≠ []) : BlkOk b :=
  ⟨hn, h.lab, fun k x _ hk => h.jmp k x hk⟩

theorem getElem?_snoc {α : Type} (l : List α) (a : α) (k : Nat) :
    (l ++ [a])[k]? = if k < l.length then l[k]? else if k = l.length then some a else none := by
  split
  · rename_i h; rw [List.getElem?_append_left h]
  · rename_i h
    rw [List.getElem?_append_right (by omega)]
    split
    · rename_i h2; subst h2; simp
    · rw [List.getElem?_eq_none]; simp; omega

theorem CurOk.snoc {b : List Immc} (h : CurOk b) {i : Immc} (hj : i.isJump = false) (hl : i.isLabel = false) :
    CurOk (b ++ [i]) := by
  constructor
  · intro k x hk hx
    rw [getElem?_snoc] at hx
    split at hx
    · exact h.lab k x hk hx
    · split at hx
      · simp at hx; subst hx; exact hl
      · simp at hx
  · intro k x hx
    rw [getElem?_snoc] at hx
    split at hx
    · exact h.jmp k x hx
    · split at hx
      · simp at hx; subst hx; exact hj
      · simp at hx

theorem CurOk.snocJump {b : List Immc} (h : CurOk b) {i : Immc} (hl : i.isLabel = false) :
    BlkOk (b ++ [i]) := by
  refine ⟨by simp, ?_, ?_⟩
  · intro k x hk hx
    rw [getElem?_snoc] at hx
    split at hx
    · exact h.lab k x hk hx
    · split at hx
      · simp at hx; subst hx; exact hl
      · simp at hx
  · intro k x hk hx
    rw [getElem?_snoc] at hx
    simp at hk
    rw [if_pos hk] at hx
    exact h.jmp k x hx

theorem emit_flatten (b : List Immc) : (emit b).flatten = b := by
  unfold emit; split <;> simp [*]

theorem createBlocks_spec : ∀ (is cur : List Immc), CurOk cur →
    (∀ x, is.getLast? = some x → x.isLabel = false) →
    (createBlocks cur is).flatten = cur ++ is ∧ ∀ b ∈ createBlocks cur is, BlkOk b := by
  intro is
  induction is with
  | nil =>
    intro cur hc _
    refine ⟨by simp [createBlocks, emit_flatten], ?_⟩
    intro b hb
    unfold createBlocks emit at hb
    split at hb
    · simp at hb
    · simp at hb; subst hb; exact hc.blk (by assumption)
  | cons i is ih =>
    intro cur hc hlast
    have hl' : ∀ x, is.getLast? = some x → x.isLabel = false := by
      intro x hx; apply hlast
      cases is with
      | nil => simp at hx
      | cons a as => rw [List.getLast?_cons_cons]; exact hx
    have hnil : is = [] → i.isLabel = false := by
      rintro rfl; exact hlast i (by simp)
    unfold createBlocks
    split
    · rename_i hj
      have hil : i.isLabel = false := by cases i <;> simp_all [Immc.isJump, Immc.isLabel]
      have he : emit (cur ++ [i]) = [cur ++ [i]] := by simp [emit]
      rw [he]
      split
      · rename_i e; subst e
        refine ⟨by simp, ?_⟩
        intro b hb; simp at hb; subst hb; exact hc.snocJump hil
      · obtain ⟨h1, h2⟩ := ih [] CurOk.nil hl'
        refine ⟨by simp [h1], ?_⟩
        intro b hb
        simp at hb
        rcases hb with rfl | hb
        · exact hc.snocJump hil
        · exact h2 b hb
    · rename_i hj
      have hj' : i.isJump = false := by simpa using hj
      split
      · rename_i hl
        rw [if_neg (by intro e; rw [hnil e] at hl; simp at hl)]
        have hc1 : CurOk [i] := by
          constructor
          · intro k x hk hx
            rw [List.getElem?_eq_none (by simp; omega)] at hx; simp at hx
          · intro k x hx
            match k, hx with
            | 0, hx => simp at hx; subst hx; exact hj'
            | k + 1, hx => simp at hx
        obtain ⟨h1, h2⟩ := ih [i] hc1 hl'
        refine ⟨by simp [h1, emit_flatten], ?_⟩
        intro b hb
        rw [List.mem_append] at hb
        rcases hb with hb | hb
        · unfold emit at hb
          split at hb
          · simp at hb
          · simp at hb; subst hb; exact hc.blk (by assumption)
        · exact h2 b hb
      · rename_i hl
        obtain ⟨h1, h2⟩ := ih (cur ++ [i]) (hc.snoc hj' (by simpa using hl)) hl'
        exact ⟨by simp [h1], h2⟩

/-! ### positions -/

/-- where block `p` begins -/
def off (bl : List (List Immc)) (p : Nat) : Nat := (bl.take p).flatten.length

theorem off_succ {bl : List (List Immc)} {p : Nat} {b : List Immc} (h : bl[p]? = some b) :
    off bl (p + 1) = off bl p + b.length := by
  unfold off
  obtain ⟨hp, rfl⟩ := List.getElem?_eq_some_iff.1 h
  rw [List.take_add_one, List.getElem?_eq_getElem hp, List.flatten_append, List.length_append]
  simp only [Option.toList_some, List.flatten_cons, List.flatten_nil, List.append_nil]

theorem flatten_get {bl : List (List Immc)} : ∀ {p k : Nat} {b : List Immc}, bl[p]? = some b → k < b.length →
    bl.flatten[off bl p + k]? = b[k]? := by
  induction bl with
  | nil => intro p k b h; simp at h
  | cons c cs ih =>
    intro p k b h hk
    cases p with
    | zero =>
      simp at h; subst h
      simp only [off, List.take_zero, List.flatten_nil, List.length_nil, Nat.zero_add, List.flatten_cons]
      exact List.getElem?_append_left hk
    | succ p =>
      simp at h
      have := ih h hk
      rw [← this]
      have e : off (c :: cs) (p + 1) = c.length + off cs p := by simp [off]
      rw [e, List.flatten_cons, List.getElem?_append_right (by omega)]
      congr 1; omega

theorem flatten_pos {bl : List (List Immc)} : ∀ {i : Nat}, i < bl.flatten.length →
    ∃ p k b, bl[p]? = some b ∧ k < b.length ∧ i = off bl p + k := by
  induction bl with
  | nil => intro i h; simp at h
  | cons c cs ih =>
    intro i h
    by_cases hc : i < c.length
    · exact ⟨0, i, c, by simp, hc, by simp [off]⟩
    · simp at h
      obtain ⟨p, k, b, h1, h2, h3⟩ := @ih (i - c.length) (by simp; omega)
      refine ⟨p + 1, k, b, by simpa using h1, h2, ?_⟩
      have e : off (c :: cs) (p + 1) = c.length + off cs p := by simp [off]
      omega

theorem off_mono {bl : List (List Immc)} {p q : Nat} (h : p ≤ q) : off bl p ≤ off bl q := by
  unfold off
  have : bl.take q = bl.take p ++ (bl.drop p).take (q - p) := by
    rw [← List.take_add]; congr 1; omega
  rw [this]; simp

theorem off_le {bl : List (List Immc)} {p : Nat} : off bl p ≤ bl.flatten.length := by
  have h := @off_mono bl p (max p bl.length) (by omega)
  have : off bl (max p bl.length) = bl.flatten.length := by
    unfold off; rw [List.take_of_length_le (by omega)]
  omega

theorem pos_unique {bl : List (List Immc)} {p q k l : Nat} {b c : List Immc} (hb : bl[p]? = some b) (hc : bl[q]? = some c)
    (hk : k < b.length) (hl : l < c.length) (e : off bl p + k = off bl q + l) : p = q ∧ k = l := by
  rcases Nat.lt_trichotomy p q with h | h | h
  · have := @off_mono bl (p + 1) q h
    rw [off_succ hb] at this; omega
  · subst h; exact ⟨rfl, by omega⟩
  · have := @off_mono bl (q + 1) p h
    rw [off_succ hc] at this; omega

/-! ### the label map -/

theorem intHash : ∀ n : Int, 0 ≤ hashInteger n := by intro n; unfold hashInteger; split <;> omega

theorem labelMap_spec : ∀ (bs : List Block) (m m' : HMap Name Int) (id : Nat) (os : List (MOp Name Int)),
    labelMap m id bs = .ok m' → Exact hashName os m → (∀ o ∈ os, MSpec.isRemove o = false) →
    ∃ os', Exact hashName os' m' ∧ (∀ o ∈ os', MSpec.isRemove o = false) ∧
      ∀ n t, MSpec.lookup os' n = some t → MSpec.lookup os n = some t ∨
        ∃ (j : Nat) (b : Block) (x : Immc), bs[j]? = some b ∧ b.immcs[0]? = some x ∧ RSpec.isLabelNamed n x = true ∧ t = ((id + j : Nat) : Int) := by
  intro bs
  induction bs with
  | nil => intro m m' id os h he hr; simp [labelMap] at h; subst h; exact ⟨os, he, hr, fun n t h => Or.inl h⟩
  | cons b bs ih =>
    intro m m' id os h he hr
    unfold labelMap at h
    have shift : ∀ (os1 os' : List (MOp Name Int)) n t, (MSpec.lookup os1 n = some t ∨
        ∃ (j : Nat) (b : Block) (x : Immc), bs[j]? = some b ∧ b.immcs[0]? = some x ∧ RSpec.isLabelNamed n x = true ∧ t = ((id + 1 + j : Nat) : Int)) →
        (MSpec.lookup os1 n = some t ∨
        ∃ (j : Nat) (b' : Block) (x : Immc), (b :: bs)[j]? = some b' ∧ b'.immcs[0]? = some x ∧ RSpec.isLabelNamed n x = true ∧ t = ((id + j : Nat) : Int)) := by
      rintro os1 os' n t (h | ⟨j, b', x, h1, h2, h3, h4⟩)
      · exact Or.inl h
      · exact Or.inr ⟨j + 1, b', x, by simpa using h1, h2, h3, by rw [h4]; congr 1; omega⟩
    split at h
    · simp at h
    · rename_i ty vis name hhead
      obtain ⟨m1, h1, h2⟩ := exact_add hashName_nonneg he name (id : Int) (Or.inr hr)
      rw [h1, Out.ok_bind] at h
      have hr1 : ∀ o ∈ os ++ [MOp.add name (id : Int)], MSpec.isRemove o = false := by
        intro o ho; simp at ho; rcases ho with ho | rfl
        · exact hr o ho
        · rfl
      obtain ⟨os', h3, h4, h5⟩ := ih m1 m' (id + 1) _ h h2 hr1
      refine ⟨os', h3, h4, fun n t ht => ?_⟩
      rcases shift _ os' n t (h5 n t ht) with h6 | h6
      · rw [lookup_add] at h6
        split at h6
        · rename_i e; subst e
          simp at h6
          exact Or.inr ⟨0, b, _, by simp, hhead, by simp [RSpec.isLabelNamed], by rw [← h6]; simp⟩
        · exact Or.inl h6
      · exact Or.inr h6
    · obtain ⟨os', h3, h4, h5⟩ := ih m m' (id + 1) os h he hr
      exact ⟨os', h3, h4, fun n t ht => shift _ os' n t (h5 n t ht)⟩

/-! ### edges -/

structure SetsOk (b : Block) : Prop where
  inp : Inv hashInteger b.input
  out : Inv hashInteger b.output
  suc : Inv hashInteger b.succ

theorem connectLoop_spec : ∀ (bs bs' : List Block) (m : HMap Name Int) (n id : Nat),
    connectLoop m n id bs = .ok bs' → bs'.length = bs.length ∧
      ∀ (j : Nat) b, bs[j]? = some b → ∃ s, succOf m n (id + j) b = .ok s ∧ bs'[j]? = some { b with succ := s } := by
  intro bs
  induction bs with
  | nil => intro bs' m n id h; simp [connectLoop] at h; subst h; simp
  | cons b bs ih =>
    intro bs' m n id h
    simp only [connectLoop, Out.bind_eq_ok] at h
    obtain ⟨s, h1, r, h2, h3⟩ := h
    simp at h3; subst h3
    obtain ⟨h4, h5⟩ := ih r m n (id + 1) h2
    refine ⟨by simp [h4], ?_⟩
    intro j c hc
    cases j with
    | zero => simp at hc; subst hc; exact ⟨s, by simpa using h1, by simp⟩
    | succ j =>
      simp at hc
      obtain ⟨s', h6, h7⟩ := h5 j c hc
      exact ⟨s', by rw [← h6]; congr 1; omega, by simpa using h7⟩

/-- an item ends its block with a jump to `n` -/
theorem succOf_spec {m : HMap Name Int} {n id : Nat} {b : Block} {s : ISet} (hb : Inv hashInteger b.succ)
    (hm : Inv hashName m) (h : succOf m n id b = .ok s) :
    ∃ tail, b.immcs.getLast? = some tail ∧ Inv hashInteger s ∧
      (tail.isJmp = false → id + 1 < n → ((id : Int) + 1) ∈ HSet.elems s) ∧
      (∀ nm, tail.isJump = true → RSpec.target tail = some nm → ∃ t, LiveAt m.slots nm t ∧ t ∈ HSet.elems s) := by
  unfold succOf at h
  split at h
  · simp at h
  · rename_i tail ht
    refine ⟨tail, ht, ?_⟩
    rw [Out.bind_eq_ok] at h
    obtain ⟨s1, h1, h2⟩ := h
    have h3 : Inv hashInteger s1 ∧ ∀ nm, tail.isJump = true → RSpec.target tail = some nm → ∃ t, LiveAt m.slots nm t ∧ t ∈ HSet.elems s1 := by
      unfold jumpSucc at h1
      split at h1
      · rename_i hj
        split at h1
        · rename_i op name f sn
          rw [Out.bind_eq_ok] at h1
          obtain ⟨r, h4, h5⟩ := h1
          split at h5
          · simp at h5
          · rename_i t
            obtain ⟨r', h6, h7, _⟩ := get_spec hashName_nonneg hm name
            rw [h4] at h6; simp at h6; subst h6
            obtain ⟨s', h8, h9, h10⟩ := HSet.add_mem intHash hb t
            rw [h5] at h8; simp at h8; subst h8
            refine ⟨h9, ?_⟩
            intro nm _ hnm
            unfold RSpec.target at hnm
            dsimp only at hnm
            split at hnm
            · simp at hnm; subst hnm
              exact ⟨t, h7 t rfl, (h10 t).2 (Or.inl rfl)⟩
            · simp at hnm
        · simp at h1
      · rename_i hj
        simp at h1; subst h1
        exact ⟨hb, fun nm hj' => absurd hj' hj⟩
    split at h2
    · rename_i hc
      obtain ⟨s', h8, h9, h10⟩ := HSet.add_mem intHash h3.1 ((id : Int) + 1)
      rw [h2] at h8; simp at h8; subst h8
      refine ⟨h9, fun _ _ => (h10 _).2 (Or.inl rfl), fun nm hj hnm => ?_⟩
      obtain ⟨t, ht1, ht2⟩ := h3.2 nm hj hnm
      exact ⟨t, ht1, (h10 _).2 (Or.inr ht2)⟩
    · rename_i hc
      simp at h2; subst h2
      refine ⟨h3.1, fun ha hb => absurd ⟨hb, ha⟩ hc, h3.2⟩

/-- shape of the graph that the later passes keep -/
structure Graph (bl : List (List Immc)) (g : List Block) : Prop where
  immcs : g.map (·.immcs) = bl
  sets : ∀ b ∈ g, SetsOk b
  fall : ∀ (p : Nat) b tail, g[p]? = some b → b.immcs.getLast? = some tail → tail.isJmp = false → p + 1 < g.length →
    ((p : Int) + 1) ∈ HSet.elems b.succ
  jump : ∀ (p : Nat) b tail nm, g[p]? = some b → b.immcs.getLast? = some tail → tail.isJump = true →
    RSpec.target tail = some nm → ∃ (q : Nat) (c : Block) (x : Immc), g[q]? = some c ∧ c.immcs[0]? = some x ∧ RSpec.isLabelNamed nm x = true ∧ (q : Int) ∈ HSet.elems b.succ

theorem connect_graph {bl : List (List Immc)} {g : List Block} (h : connect (bl.map newBlock) = .ok g) : Graph bl g := by
  unfold connect at h
  rw [Out.bind_eq_ok] at h
  obtain ⟨m, h1, h2⟩ := h
  obtain ⟨os, h3, _, h4⟩ := labelMap_spec _ _ _ _ [] h1 exact_new (by simp)
  obtain ⟨h5, h6⟩ := connectLoop_spec _ _ _ _ _ h2
  have hget : ∀ (j : Nat) b, g[j]? = some b → ∃ c, bl[j]? = some c ∧ b.immcs = c ∧ b.input = HMap.new ∧ b.output = HMap.new ∧
      succOf m bl.length j (newBlock c) = .ok b.succ := by
    intro j b hj
    have hlt : j < bl.length := by
      have := (List.getElem?_eq_some_iff.1 hj).1; rw [h5] at this; simpa using this
    have hc : (bl.map newBlock)[j]? = some (newBlock bl[j]) := by simp [hlt]
    obtain ⟨s, h7, h8⟩ := h6 j _ hc
    rw [hj] at h8; simp at h8; subst h8
    exact ⟨bl[j], by simp [hlt], rfl, rfl, rfl, by simpa using h7⟩
  have hnew : Inv hashInteger (HMap.new : ISet) := inv_new
  have him : g.map (·.immcs) = bl := by
    apply List.ext_getElem?
    intro j
    rw [List.getElem?_map]
    cases hj : g[j]? with
    | some b => obtain ⟨c, h7, h8, _⟩ := hget j b hj; rw [h7]; simp [h8]
    | none =>
      rw [List.getElem?_eq_none_iff] at hj
      rw [h5] at hj
      simp at hj ⊢; omega
  refine ⟨him, ?_, ?_, ?_⟩
  · intro b hb
    obtain ⟨j, hj⟩ := List.mem_iff_getElem?.1 hb
    obtain ⟨c, h7, h8, h9, h10, h11⟩ := hget j b hj
    obtain ⟨tail, _, h12, _⟩ := succOf_spec hnew h3.inv h11
    exact ⟨by rw [h9]; exact hnew, by rw [h10]; exact hnew, h12⟩
  · intro p b tail hp ht hj hlt
    obtain ⟨c, h7, h8, h9, h10, h11⟩ := hget p b hp
    obtain ⟨tail', h12, _, h13, _⟩ := succOf_spec hnew h3.inv h11
    simp only [newBlock] at h12
    rw [h8] at ht; rw [h12] at ht; simp at ht; subst ht
    exact h13 hj (by rw [h5] at hlt; simpa using hlt)
  · intro p b tail nm hp ht hj htg
    obtain ⟨c, h7, h8, h9, h10, h11⟩ := hget p b hp
    obtain ⟨tail', h12, _, _, h13⟩ := succOf_spec hnew h3.inv h11
    simp only [newBlock] at h12
    rw [h8] at ht; rw [h12] at ht; simp at ht; subst ht
    obtain ⟨t, h14, h15⟩ := h13 nm hj htg
    rcases h4 nm t ((h3.live nm t).1 h14) with h16 | ⟨q, d, x, h16, h17, h18, rfl⟩
    · simp [MSpec.lookup, MSpec.after] at h16
    · have hq : q < bl.length := by simpa using (List.getElem?_eq_some_iff.1 h16).1
      have : ∃ e, g[q]? = some e ∧ e.immcs = d.immcs := by
        have hgl : q < g.length := by rw [h5]; simpa using hq
        refine ⟨g[q], by simp [hgl], ?_⟩
        obtain ⟨c', h19, h20, _⟩ := hget q g[q] (by simp [hgl])
        rw [h20]
        simp [List.getElem?_map, h19] at h16
        rw [← h16]; rfl
      obtain ⟨e, h19, h20⟩ := this
      exact ⟨q, e, x, h19, by rw [h20]; exact h17, h18, by simpa using h15⟩

/-! ### data flow -/

theorem remove_mem {s : ISet} (h : Inv hashInteger s) (k : Int) :
    ∃ s', HMap.remove hashInteger s k = .ok s' ∧ Inv hashInteger s' ∧ (∀ x, x ∈ HSet.elems s → x ≠ k → x ∈ HSet.elems s') ∧
      ∀ x, x ∈ HSet.elems s' → x ∈ HSet.elems s := by
  obtain ⟨s', h1, h2, h3⟩ := remove_spec intHash h k
  refine ⟨s', h1, h2, ?_, ?_⟩
  · intro x hx hne
    rcases h3 with ⟨rfl, _⟩ | ⟨P, w, hP, hl, _⟩
    · exact hx
    · rw [HSet.mem_elems] at hx ⊢
      obtain ⟨v, i, hv⟩ := hx
      refine ⟨v, (hl x v).2 ⟨i, ?_⟩⟩
      rw [getElem?_set_some]
      refine Or.inr ⟨?_, hv⟩
      rintro rfl; rw [hP] at hv; simp at hv; exact hne hv.symm
  · intro x hx
    rcases h3 with ⟨rfl, _⟩ | ⟨P, w, hP, hl, _⟩
    · exact hx
    · rw [HSet.mem_elems] at hx ⊢
      obtain ⟨v, hv⟩ := hx
      obtain ⟨i, hi⟩ := (hl x v).1 hv
      rw [getElem?_set_some] at hi
      rcases hi with ⟨_, _, hi⟩ | ⟨_, hi⟩
      · simp at hi
      · exact ⟨v, i, hi⟩

theorem addUse_mem {s : ISet} (h : Inv hashInteger s) (o : Option Ope) :
    ∃ s', addUse s o = .ok s' ∧ Inv hashInteger s' ∧ ∀ x, x ∈ HSet.elems s' ↔ x ∈ RSpec.opeRegs o ∨ x ∈ HSet.elems s := by
  unfold addUse
  split
  · rename_i a id b
    obtain ⟨s', h1, h2, h3⟩ := HSet.add_mem intHash h id
    exact ⟨s', h1, h2, by simpa [RSpec.opeRegs] using h3⟩
  · rename_i id
    obtain ⟨s', h1, h2, h3⟩ := HSet.add_mem intHash h id
    exact ⟨s', h1, h2, by simpa [RSpec.opeRegs] using h3⟩
  · rename_i h1 h2
    refine ⟨s, rfl, h, fun x => ?_⟩
    have : RSpec.opeRegs o = [] := by
      unfold RSpec.opeRegs
      split
      · rename_i a id b; exact absurd rfl (h1 a id b)
      · rename_i id; exact absurd rfl (h2 id)
      · rfl
    simp [this]

theorem flowInst_mem {s : ISet} (h : Inv hashInteger s) (x : Immc) :
    ∃ s', flowInst s x = .ok s' ∧ Inv hashInteger s' ∧
      (∀ v, v ∈ RSpec.reads x ∨ (v ∈ HSet.elems s ∧ RSpec.writes x ≠ some v) → v ∈ HSet.elems s') ∧
      (∀ v, v ∈ HSet.elems s' → v ∈ RSpec.reads x ∨ v ∈ HSet.elems s) := by
  match x with
  | .data d => exact ⟨s, rfl, h, by simp [RSpec.reads]; intro v hv _; exact hv, fun v hv => Or.inr hv⟩
  | .label a b c => exact ⟨s, rfl, h, by simp [RSpec.reads]; intro v hv _; exact hv, fun v hv => Or.inr hv⟩
  | .inst ⟨op, d, f, sn⟩ =>
    have hd : ∃ s1, flowDst s d = .ok s1 ∧ Inv hashInteger s1 ∧
        (∀ v, v ∈ (match d with | some (.ptr id) => [id] | _ => []) ∨ (v ∈ HSet.elems s ∧ RSpec.writes (.inst ⟨op, d, f, sn⟩) ≠ some v) → v ∈ HSet.elems s1) ∧
        (∀ v, v ∈ HSet.elems s1 → v ∈ (match d with | some (.ptr id) => [id] | _ => []) ∨ v ∈ HSet.elems s) := by
      unfold flowDst
      split
      · rename_i a id b
        obtain ⟨s1, h1, h2, h3, h4⟩ := remove_mem h id
        refine ⟨s1, h1, h2, ?_, fun v hv => Or.inr (h4 v hv)⟩
        rintro v (hv | ⟨hv, hw⟩)
        · simp at hv
        · exact h3 v hv (by rintro rfl; simp [RSpec.writes] at hw)
      · rename_i id
        obtain ⟨s1, h1, h2, h3⟩ := HSet.add_mem intHash h id
        refine ⟨s1, h1, h2, ?_, fun v hv => by simpa using (h3 v).1 hv⟩
        rintro v (hv | ⟨hv, hw⟩)
        · exact (h3 v).2 (by simpa using Or.inl hv)
        · exact (h3 v).2 (Or.inr hv)
      · rename_i hn1 hn2
        refine ⟨s, rfl, h, ?_, fun v hv => Or.inr hv⟩
        rintro v (hv | ⟨hv, hw⟩)
        · split at hv
          · rename_i id; exact absurd rfl (hn2 id)
          · simp at hv
        · exact hv
    obtain ⟨s1, h1, h2, h3, h4⟩ := hd
    obtain ⟨s2, h5, h6, h7⟩ := addUse_mem h2 f
    obtain ⟨s3, h8, h9, h10⟩ := addUse_mem h6 sn
    refine ⟨s3, ?_, h9, ?_, ?_⟩
    · unfold flowInst
      dsimp only
      rw [h1, Out.ok_bind, h5, Out.ok_bind, h8]
    · intro v hv
      rw [h10, h7]
      rcases hv with hv | hv
      · simp only [RSpec.reads, List.mem_append] at hv
        rcases hv with (hv | hv) | hv
        · exact Or.inr (Or.inl hv)
        · exact Or.inl hv
        · exact Or.inr (Or.inr (h3 v (Or.inl hv)))
      · exact Or.inr (Or.inr (h3 v (Or.inr hv)))
    · intro v hv
      rw [h10, h7] at hv
      simp only [RSpec.reads, List.mem_append]
      rcases hv with hv | hv | hv
      · exact Or.inl (Or.inl (Or.inr hv))
      · exact Or.inl (Or.inl (Or.inl hv))
      · rcases h4 v hv with h11 | h11
        · exact Or.inl (Or.inr h11)
        · exact Or.inr h11

theorem flowLoop_append (s : ISet) (a b : List Immc) :
    flowLoop s (a ++ b) = (flowLoop s a >>= fun s => flowLoop s b) := by
  induction a generalizing s with
  | nil => rfl
  | cons x xs ih =>
    simp only [List.cons_append, flowLoop]
    cases flowInst s x <;> simp [ih]

theorem flowLoop_ok : ∀ (is : List Immc) (s : ISet), Inv hashInteger s →
    ∃ s', flowLoop s is = .ok s' ∧ Inv hashInteger s' ∧
      ∀ v, v ∈ HSet.elems s' → v ∈ HSet.elems s ∨ ∃ x ∈ is, v ∈ RSpec.reads x := by
  intro is
  induction is with
  | nil => intro s h; exact ⟨s, rfl, h, fun v hv => Or.inl hv⟩
  | cons x xs ih =>
    intro s h
    obtain ⟨s1, h1, h2, _, h3⟩ := flowInst_mem h x
    obtain ⟨s2, h4, h5, h6⟩ := ih s1 h2
    refine ⟨s2, by simp [flowLoop, h1, h4], h5, ?_⟩
    intro v hv
    rcases h6 v hv with h7 | ⟨y, hy, h7⟩
    · rcases h3 v h7 with h8 | h8
      · exact Or.inr ⟨x, by simp, h8⟩
      · exact Or.inl h8
    · exact Or.inr ⟨y, by simp [hy], h7⟩

theorem union_mem {s o : ISet} (_hs : Inv hashInteger s) (_ho : Inv hashInteger o) :
    ∃ u, HSet.union hashInteger s o = .ok u ∧ Inv hashInteger u ∧ ∀ x, x ∈ HSet.elems u ↔ x ∈ HSet.elems s ∨ x ∈ HSet.elems o := by
  obtain ⟨u1, h1, h2, h3⟩ := HSet.addAll_mem intHash (fun _ => .ok true) (fun _ => True) (fun k => ⟨true, rfl, by simp⟩) (HSet.elems s)
    (inv_new (K := Int) (V := Unit))
  obtain ⟨u2, h4, h5, h6⟩ := HSet.addAll_mem intHash (fun _ => .ok true) (fun _ => True) (fun k => ⟨true, rfl, by simp⟩) (HSet.elems o) h2
  refine ⟨u2, by unfold HSet.union; rw [h1, Out.ok_bind, h4], h5, fun x => ?_⟩
  rw [h6, h3]
  have : HSet.elems (HMap.new : ISet) = [] := by decide
  simp [this]

theorem equals_mem {s o : ISet} (hs : Inv hashInteger s) (ho : Inv hashInteger o) :
    ∃ b, HSet.equals hashInteger s o = .ok b ∧ (b = true ↔ ∀ x, x ∈ HSet.elems s ↔ x ∈ HSet.elems o) := by
  obtain ⟨b1, h1, h2⟩ := HSet.allIn_spec intHash hs (HSet.elems o)
  obtain ⟨b2, h3, h4⟩ := HSet.allIn_spec intHash ho (HSet.elems s)
  unfold HSet.equals HSet.isSubset
  rw [h1, Out.ok_bind]
  cases b1 with
  | false =>
    refine ⟨false, by simp, ?_⟩
    simp at h2 ⊢
    obtain ⟨x, hx, hx2⟩ := h2
    exact ⟨x, fun h => hx2 (h.2 hx)⟩
  | true =>
    refine ⟨b2, by simp [h3], ?_⟩
    rw [h4]
    have := h2.1 rfl
    constructor
    · intro h x; exact ⟨h x, this x⟩
    · intro h x; exact (h x).1

theorem unionSucc_mem (bs : List Block) (hb : ∀ b ∈ bs, SetsOk b) : ∀ (ts : List Int) (acc u : ISet),
    Inv hashInteger acc → unionSucc bs ts acc = .ok u →
    Inv hashInteger u ∧ (∀ x, x ∈ HSet.elems acc → x ∈ HSet.elems u) ∧
      (∀ t ∈ ts, ∃ c, 0 ≤ t ∧ bs[t.toNat]? = some c ∧ ∀ x, x ∈ HSet.elems c.input → x ∈ HSet.elems u) := by
  intro ts
  induction ts with
  | nil => intro acc u h hu; simp [unionSucc] at hu; subst hu; exact ⟨h, fun _ h => h, by simp⟩
  | cons t ts ih =>
    intro acc u h hu
    unfold unionSucc at hu
    split at hu
    · simp at hu
    · rename_i c hc
      split at hc
      · rename_i ht
        have hcm : c ∈ bs := List.mem_of_getElem? hc
        obtain ⟨u1, h1, h2, h3⟩ := union_mem h (hb c hcm).inp
        rw [h1, Out.ok_bind] at hu
        obtain ⟨h4, h5, h6⟩ := ih u1 u h2 hu
        refine ⟨h4, fun x hx => h5 x ((h3 x).2 (Or.inl hx)), ?_⟩
        intro t' ht'
        simp at ht'
        rcases ht' with rfl | ht'
        · exact ⟨c, ht, hc, fun x hx => h5 x ((h3 x).2 (Or.inr hx))⟩
        · exact h6 t' ht'
      · simp at hc

/-- same graph with the same sets of registers -/
structure Same (g g' : List Block) : Prop where
  len : g'.length = g.length
  blk : ∀ (p : Nat) b b', g[p]? = some b → g'[p]? = some b' → b'.immcs = b.immcs ∧ b'.succ = b.succ ∧
    (∀ x, x ∈ HSet.elems b'.input ↔ x ∈ HSet.elems b.input) ∧ (∀ x, x ∈ HSet.elems b'.output ↔ x ∈ HSet.elems b.output)

/-- block `p` satisfies its flow equations (as inclusions) -/
def Eqn (g : List Block) (p : Nat) : Prop :=
  ∀ b, g[p]? = some b → flowLoop b.output b.immcs.reverse = .ok b.input ∧
    ∀ t ∈ HSet.elems b.succ, ∃ c, 0 ≤ t ∧ g[t.toNat]? = some c ∧ ∀ x, x ∈ HSet.elems c.input → x ∈ HSet.elems b.output

/-- only the flow sets differ -/
structure Shape (g g' : List Block) : Prop where
  len : g'.length = g.length
  blk : ∀ (p : Nat) b b', g[p]? = some b → g'[p]? = some b' → b'.immcs = b.immcs ∧ b'.succ = b.succ
  sets : (∀ b ∈ g, SetsOk b) → ∀ b ∈ g', SetsOk b

theorem Shape.refl (g : List Block) : Shape g g := ⟨rfl, by intro p b b' h h'; rw [h] at h'; simp at h'; subst h'; simp, fun h => h⟩

theorem Shape.trans {a b c : List Block} (h1 : Shape a b) (h2 : Shape b c) : Shape a c := by
  refine ⟨by rw [h2.len, h1.len], ?_, fun h => h2.sets (h1.sets h)⟩
  intro p x z hx hz
  have hl : p < b.length := by rw [h1.len]; exact (List.getElem?_eq_some_iff.1 hx).1
  have hy : b[p]? = some b[p] := by simp [hl]
  obtain ⟨e1, e2⟩ := h1.blk p _ _ hx hy
  obtain ⟨e3, e4⟩ := h2.blk p _ _ hy hz
  exact ⟨by rw [e3, e1], by rw [e4, e2]⟩

theorem Same.refl (g : List Block) : Same g g := ⟨rfl, by intro p b b' h h'; rw [h] at h'; simp at h'; subst h'; simp⟩

theorem Same.trans {a b c : List Block} (h1 : Same a b) (h2 : Same b c) : Same a c := by
  refine ⟨by rw [h2.len, h1.len], ?_⟩
  intro p x z hx hz
  have hl : p < b.length := by rw [h1.len]; exact (List.getElem?_eq_some_iff.1 hx).1
  have hy : b[p]? = some b[p] := by simp [hl]
  obtain ⟨e1, e2, e3, e4⟩ := h1.blk p _ _ hx hy
  obtain ⟨f1, f2, f3, f4⟩ := h2.blk p _ _ hy hz
  exact ⟨by rw [f1, e1], by rw [f2, e2], fun x => by rw [f3, e3], fun x => by rw [f4, e4]⟩

theorem updateFlow_spec {bs bs' : List Block} {id : Nat} {c : Bool} (hb : ∀ b ∈ bs, SetsOk b)
    (h : updateFlow bs id = .ok (bs', c)) :
    Shape bs bs' ∧ (c = true → Same bs bs' ∧ Eqn bs' id ∧ ∀ p, p ≠ id → Eqn bs p → Eqn bs' p) := by
  unfold updateFlow at h
  split at h
  · simp at h
  · rename_i b hid
    simp only [Out.bind_eq_ok] at h
    obtain ⟨out, h1, inp, h2, ci, h3, co, h4, h5⟩ := h
    simp at h5
    obtain ⟨h5, h6⟩ := h5
    have hbm : b ∈ bs := List.mem_of_getElem? hid
    have hlt := (List.getElem?_eq_some_iff.1 hid).1
    obtain ⟨h7, _, h8⟩ := unionSucc_mem bs hb _ _ _ inv_new h1
    obtain ⟨inp', h9, h10, _⟩ := flowLoop_ok b.immcs.reverse out h7
    rw [h2] at h9; simp at h9; subst h9
    have hget : ∀ p b1, bs'[p]? = some b1 → (p = id ∧ b1 = { b with input := inp, output := out }) ∨ (p ≠ id ∧ bs[p]? = some b1) := by
      intro p b1 hp
      rw [← h5, List.getElem?_set] at hp
      split at hp
      · rename_i e; simp at hp; exact Or.inl ⟨e.symm, hp.symm⟩
      · rename_i e; exact Or.inr ⟨fun e' => e e'.symm, hp⟩
    have hShape : Shape bs bs' := by
      refine ⟨by rw [← h5]; simp, ?_, ?_⟩
      · intro p x y hx hy
        rcases hget p y hy with ⟨rfl, rfl⟩ | ⟨_, hy⟩
        · rw [hid] at hx; simp at hx; subst hx; simp
        · rw [hx] at hy; simp at hy; subst hy; simp
      · intro _ x hx
        obtain ⟨p, hp⟩ := List.mem_iff_getElem?.1 hx
        rcases hget p x hp with ⟨rfl, rfl⟩ | ⟨_, hy⟩
        · exact ⟨h10, h7, (hb b hbm).suc⟩
        · exact hb x (List.mem_of_getElem? hy)
    refine ⟨hShape, ?_⟩
    intro hc
    rw [← h6] at hc
    simp at hc
    obtain ⟨hci, hco⟩ := hc
    obtain ⟨b1, h11, h12⟩ := equals_mem h10 (hb b hbm).inp
    rw [h3] at h11; simp at h11; subst h11
    obtain ⟨b2, h13, h14⟩ := equals_mem h7 (hb b hbm).out
    rw [h4] at h13; simp at h13; subst h13
    have e1 := h12.1 hci
    have e2 := h14.1 hco
    have hSame : Same bs bs' := by
      refine ⟨hShape.len, ?_⟩
      intro p x y hx hy
      rcases hget p y hy with ⟨rfl, rfl⟩ | ⟨_, hy⟩
      · rw [hid] at hx; simp at hx; subst hx; exact ⟨rfl, rfl, e1, e2⟩
      · rw [hx] at hy; simp at hy; subst hy; simp
    -- transport of successors' inputs
    have tr : ∀ (t : Nat) (c : Block), bs[t]? = some c → ∃ c' : Block, bs'[t]? = some c' ∧ ∀ x, x ∈ HSet.elems c'.input ↔ x ∈ HSet.elems c.input := by
      intro t c hc
      have hl : t < bs'.length := by rw [hShape.len]; exact (List.getElem?_eq_some_iff.1 hc).1
      refine ⟨bs'[t], by simp [hl], ?_⟩
      exact (hSame.blk t c bs'[t] hc (by simp [hl])).2.2.1
    refine ⟨hSame, ?_, ?_⟩
    · intro x hx
      rcases hget id x hx with ⟨_, rfl⟩ | ⟨hne, _⟩
      · refine ⟨h2, ?_⟩
        intro t ht
        obtain ⟨c, h15, h16, h17⟩ := h8 t ht
        obtain ⟨c', h18, h19⟩ := tr _ _ h16
        exact ⟨c', h15, h18, fun x hx => h17 x ((h19 x).1 hx)⟩
      · exact absurd rfl hne
    · intro p hne hE x hx
      rcases hget p x hx with ⟨e, _⟩ | ⟨_, hx⟩
      · exact absurd e hne
      · obtain ⟨f1, f2⟩ := hE x hx
        refine ⟨f1, ?_⟩
        intro t ht
        obtain ⟨c, h15, h16, h17⟩ := f2 t ht
        obtain ⟨c', h18, h19⟩ := tr _ _ h16
        exact ⟨c', h15, h18, fun x hx => h17 x ((h19 x).1 hx)⟩

theorem flowPass_spec : ∀ (n : Nat) (bs bs' : List Block) (term t : Bool), (∀ b ∈ bs, SetsOk b) →
    flowPass bs term n = .ok (bs', t) →
    Shape bs bs' ∧ (t = true → term = true ∧ Same bs bs' ∧ (∀ p, p < n → Eqn bs' p) ∧ ∀ p, Eqn bs p → n ≤ p → Eqn bs' p) := by
  intro n
  induction n with
  | zero =>
    intro bs bs' term t hb h
    simp [flowPass] at h
    obtain ⟨rfl, rfl⟩ := h
    exact ⟨Shape.refl _, fun h => ⟨h, Same.refl _, by omega, fun p h _ => h⟩⟩
  | succ n ih =>
    intro bs bs' term t hb h
    simp only [flowPass, Out.bind_eq_ok] at h
    obtain ⟨⟨bs1, c⟩, h1, h2⟩ := h
    dsimp only at h2
    obtain ⟨h3, h4⟩ := updateFlow_spec hb h1
    obtain ⟨h5, h6⟩ := ih bs1 bs' (term && c) t (h3.sets hb) h2
    refine ⟨h3.trans h5, ?_⟩
    intro ht
    obtain ⟨h7, h8, h9, h10⟩ := h6 ht
    simp at h7
    obtain ⟨h11, h12, h13⟩ := h4 h7.2
    refine ⟨h7.1, h11.trans h8, ?_, ?_⟩
    · intro p hp
      by_cases e : p = n
      · subst e; exact h10 p h12 (Nat.le_refl _)
      · exact h9 p (by omega)
    · intro p hE hp
      exact h10 p (h13 p (by omega) hE) (by omega)

theorem analyzeFlow_spec : ∀ (fuel : Nat) (bs bs' : List Block), (∀ b ∈ bs, SetsOk b) →
    analyzeFlow bs fuel = .ok bs' → Shape bs bs' ∧ ∀ p, p < bs'.length → Eqn bs' p := by
  intro fuel
  induction fuel with
  | zero => intro bs bs' _ h; simp [analyzeFlow] at h
  | succ fuel ih =>
    intro bs bs' hb h
    simp only [analyzeFlow, Out.bind_eq_ok] at h
    obtain ⟨⟨bs1, t⟩, h1, h2⟩ := h
    dsimp only at h2
    obtain ⟨h3, h4⟩ := flowPass_spec _ _ _ _ _ hb h1
    split at h2
    · rename_i ht
      simp at h2; subst h2
      obtain ⟨_, _, h5, _⟩ := h4 ht
      exact ⟨h3, fun p hp => h5 p (by rw [← h3.len]; exact hp)⟩
    · obtain ⟨h5, h6⟩ := ih bs1 bs' (h3.sets hb) h2
      exact ⟨h3.trans h5, h6⟩

theorem Graph.shape {bl : List (List Immc)} {g g' : List Block} (h : Graph bl g) (hs : Shape g g') : Graph bl g' := by
  have back : ∀ (p : Nat) b', g'[p]? = some b' → ∃ b, g[p]? = some b ∧ b'.immcs = b.immcs ∧ b'.succ = b.succ := by
    intro p b' hp
    have hl : p < g.length := by rw [← hs.len]; exact (List.getElem?_eq_some_iff.1 hp).1
    exact ⟨g[p], by simp [hl], hs.blk p _ _ (by simp [hl]) hp⟩
  refine ⟨?_, hs.sets h.sets, ?_, ?_⟩
  · rw [← h.immcs]
    apply List.ext_getElem?
    intro p
    rw [List.getElem?_map, List.getElem?_map]
    cases hp : g'[p]? with
    | some b' => obtain ⟨b, h1, h2, _⟩ := back p b' hp; simp [h1, h2]
    | none =>
      rw [List.getElem?_eq_none_iff, hs.len, ← List.getElem?_eq_none_iff] at hp
      simp [hp]
  · intro p b tail hp ht hj hlt
    obtain ⟨b0, h1, h2, h3⟩ := back p b hp
    rw [h3]; exact h.fall p b0 tail h1 (by rw [← h2]; exact ht) hj (by rw [← hs.len]; exact hlt)
  · intro p b tail nm hp ht hj hnm
    obtain ⟨b0, h1, h2, h3⟩ := back p b hp
    obtain ⟨q, c, x, h4, h5, h6, h7⟩ := h.jump p b0 tail nm h1 (by rw [← h2]; exact ht) hj hnm
    have hl : q < g'.length := by rw [hs.len]; exact (List.getElem?_eq_some_iff.1 h4).1
    refine ⟨q, g'[q], x, by simp [hl], ?_, h6, by rw [h3]; exact h7⟩
    rw [(hs.blk q c g'[q] h4 (by simp [hl])).1]; exact h5

/-- everything the later proofs need about the graph of a function -/
structure Flow (code : List Immc) (g : List Block) : Prop where
  graph : Graph (g.map (·.immcs)) g
  code : (g.map (·.immcs)).flatten = code
  blk : ∀ b ∈ g, BlkOk b.immcs
  eqn : ∀ p, p < g.length → Eqn g p

theorem controlFlow_flow {code : List Immc} {fuel : Nat} {g : List Block}
    (hlast : ∀ x, code.getLast? = some x → x.isLabel = false) (h : controlFlow code fuel = .ok g) : Flow code g := by
  unfold controlFlow at h
  rw [Out.bind_eq_ok] at h
  obtain ⟨g0, h1, h2⟩ := h
  have hg := connect_graph h1
  obtain ⟨h3, h4⟩ := analyzeFlow_spec _ _ _ hg.sets h2
  have hg' := hg.shape h3
  obtain ⟨h5, h6⟩ := createBlocks_spec code [] CurOk.nil hlast
  refine ⟨by rw [hg'.immcs]; exact hg', by rw [hg'.immcs, h5]; simp, ?_, h4⟩
  intro b hb
  apply h6
  rw [← hg'.immcs]
  exact List.mem_map.2 ⟨b, hb, rfl⟩

theorem getLast?_get {α : Type} {l : List α} {k : Nat} (h : k + 1 = l.length) : l.getLast? = l[k]? := by
  rw [List.getLast?_eq_getElem?]; congr 1; omega

/-- the set computed for the point before offset `k` of a block contains every live register -/
theorem flow_sound {code : List Immc} {g : List Block} (hf : Flow code g) (hu : RSpec.UniqueLabels code)
    (hr : ∀ x ∈ code, RSpec.target x ≠ none → x.isJump = true) {v : Int} {i : Nat} (hl : RSpec.LiveIn code v i) :
    ∀ (p k : Nat) b, g[p]? = some b → k < b.immcs.length → i = off (g.map (·.immcs)) p + k →
      ∃ s, flowLoop b.output (b.immcs.drop k).reverse = .ok s ∧ Inv hashInteger s ∧ v ∈ HSet.elems s := by
  have hbl : ∀ (p : Nat) b, g[p]? = some b → (g.map (·.immcs))[p]? = some b.immcs := by
    intro p b h; simp [h]
  have hcode : ∀ (p k : Nat) b, g[p]? = some b → k < b.immcs.length → code[off (g.map (·.immcs)) p + k]? = b.immcs[k]? := by
    intro p k b hp hk
    rw [← hf.code]; exact flatten_get (hbl p b hp) hk
  -- unfolding one item
  have unf : ∀ (p k : Nat) b x, g[p]? = some b → b.immcs[k]? = some x → ∃ s s', flowLoop b.output (b.immcs.drop (k+1)).reverse = .ok s ∧
      Inv hashInteger s ∧ flowInst s x = .ok s' ∧ flowLoop b.output (b.immcs.drop k).reverse = .ok s' ∧ Inv hashInteger s' := by
    intro p k b x hp hx
    have hset := hf.graph.sets b (List.mem_of_getElem? hp)
    obtain ⟨s, h1, h2, _⟩ := flowLoop_ok (b.immcs.drop (k+1)).reverse b.output hset.out
    obtain ⟨s', h3, h4, _⟩ := flowInst_mem h2 x
    refine ⟨s, s', h1, h2, h3, ?_, h4⟩
    obtain ⟨hk, rfl⟩ := List.getElem?_eq_some_iff.1 hx
    rw [List.drop_eq_getElem_cons hk, List.reverse_cons, flowLoop_append, h1, Out.ok_bind]
    simp [flowLoop, h3]
  induction hl with
  | @read i x hi hx =>
    intro p k b hp hk e
    have hxb : b.immcs[k]? = some x := by rw [← hcode p k b hp hk, ← e]; exact hi
    obtain ⟨s, s', h1, h2, h3, h4, h5⟩ := unf p k b x hp hxb
    obtain ⟨s'', h6, _, h7, _⟩ := flowInst_mem h2 x
    rw [h3] at h6; simp at h6; subst h6
    exact ⟨s', h4, h5, h7 v (Or.inl hx)⟩
  | @thru i j x hi hw hs hlj ih =>
    intro p k b hp hk e
    have hxb : b.immcs[k]? = some x := by rw [← hcode p k b hp hk, ← e]; exact hi
    obtain ⟨s, s', h1, h2, h3, h4, h5⟩ := unf p k b x hp hxb
    obtain ⟨s'', h6, _, h7, _⟩ := flowInst_mem h2 x
    rw [h3] at h6; simp at h6; subst h6
    refine ⟨s', h4, h5, h7 v (Or.inr ⟨?_, hw⟩)⟩
    -- `v` is in the set after item `k`
    have hjlt : j < code.length := by
      cases hlj with
      | read h _ => exact (List.getElem?_eq_some_iff.1 h).1
      | thru h _ _ _ => exact (List.getElem?_eq_some_iff.1 h).1
    have hplt := (List.getElem?_eq_some_iff.1 hp).1
    -- entering block `q` at its head from the end of block `p`
    have enter : ∀ (q : Nat) c, g[q]? = some c → j = off (g.map (·.immcs)) q → k + 1 = b.immcs.length → (q : Int) ∈ HSet.elems b.succ →
        v ∈ HSet.elems s := by
      intro q c hq hj hk1 hmem
      have hc0 : 0 < c.immcs.length := by
        have := (hf.blk c (List.mem_of_getElem? hq)).ne
        exact List.length_pos_iff.2 this
      obtain ⟨sq, h8, h9, h10⟩ := ih q 0 c hq hc0 (by omega)
      have hqlt := (List.getElem?_eq_some_iff.1 hq).1
      have heq := (hf.eqn q hqlt c hq).1
      simp only [List.drop_zero] at h8
      rw [heq] at h8; simp at h8; subst h8
      obtain ⟨c', _, h11, h12⟩ := (hf.eqn p hplt b hp).2 _ hmem
      simp at h11
      rw [hq] at h11; simp at h11; subst h11
      have h13 := h12 v h10
      have : b.immcs.drop (k + 1) = [] := by rw [List.drop_eq_nil_iff]; omega
      rw [this] at h1
      simp [flowLoop] at h1
      rw [← h1]; exact h13
    obtain ⟨x', hx', hcase⟩ := hs
    rw [hi] at hx'; simp at hx'; subst hx'
    rcases hcase with ⟨rfl, hnj⟩ | ⟨n, y, htg, hy, hyl⟩
    · by_cases hk1 : k + 1 < b.immcs.length
      · obtain ⟨s3, h8, _, h9⟩ := ih p (k + 1) b hp hk1 (by omega)
        rw [h1] at h8; simp at h8; subst h8; exact h9
      · have hk2 : k + 1 = b.immcs.length := by omega
        have hoff := off_succ (hbl p b hp)
        have hp1 : p + 1 < g.length := by
          apply Classical.byContradiction
          intro hcon
          have : off (g.map (·.immcs)) (p + 1) = code.length := by
            unfold off; rw [List.take_of_length_le (by simp; omega), hf.code]
          omega
        refine enter (p + 1) g[p+1] (by simp [hp1]) (by omega) hk2 ?_
        have := hf.graph.fall p b x hp (by rw [getLast?_get hk2]; exact hxb) (by
          cases x with
          | inst i0 =>
            obtain ⟨op, d, f, sn⟩ := i0
            simp only [Immc.isJmp, decide_eq_false_iff_not]
            rintro rfl; exact hnj d f sn rfl
          | data _ => rfl
          | label _ _ _ => rfl) hp1
        simpa using this
    · have hjx : x.isJump = true := hr x (List.mem_of_getElem? hi) (by simp [htg])
      have hk2 : k + 1 = b.immcs.length := by
        apply Classical.byContradiction
        intro hcon
        have := (hf.blk b (List.mem_of_getElem? hp)).jmp k x (by omega) hxb
        rw [this] at hjx; simp at hjx
      obtain ⟨q, c, y', h8, h9, h10, h11⟩ := hf.graph.jump p b x n hp (by rw [getLast?_get hk2]; exact hxb) hjx htg
      refine enter q c h8 ?_ hk2 h11
      have hc0 : 0 < c.immcs.length := (List.getElem?_eq_some_iff.1 h9).1
      have h12 := hcode q 0 c h8 hc0
      rw [h9] at h12
      exact hu j _ n y y' hy h12 hyl h10

end Regalloc
end Umlcc
