import Verif.Lemma.FlowEnds
import Verif.Lemma.FlowHome
import Verif.Lemma.Intervals
/-! The flow analysis of regalloc.c on orderly code (helper lemmas). -/
namespace Umlcc
namespace Regalloc
open HMap

theorem isJump_branches {op : IOp} (h : op.isJump = true) : RSpec.branches op = true := by
  cases op <;> first | rfl | cases h

theorem succOf_only {m : HMap Name Int} {n id : Nat} {b : Block} {s : ISet} (hb : Inv hashInteger b.succ) (he : HSet.elems b.succ = [])
    (hm : Inv hashName m) (h : succOf m n id b = .ok s) :
    ∃ tail, b.immcs.getLast? = some tail ∧ ∀ t ∈ HSet.elems s,
      (t = (id : Int) + 1 ∧ id + 1 < n ∧ tail.isJmp = false) ∨ ∃ nm, RSpec.target tail = some nm ∧ LiveAt m.slots nm t := by
  unfold succOf at h
  split at h
  · simp at h
  · rename_i tail ht
    refine ⟨tail, ht, ?_⟩
    rw [Out.bind_eq_ok] at h
    obtain ⟨s1, h1, h2⟩ := h
    have h3 : Inv hashInteger s1 ∧ ∀ t ∈ HSet.elems s1, ∃ nm, RSpec.target tail = some nm ∧ LiveAt m.slots nm t := by
      unfold jumpSucc at h1
      split at h1
      · rename_i hj
        split at h1
        · rename_i op name f sn
          rw [Out.bind_eq_ok] at h1
          obtain ⟨r, h4, h5⟩ := h1
          split at h5
          · simp at h5
          · rename_i t
            obtain ⟨r', h6, h7, _⟩ := get_spec hashName_nonneg hm name
            rw [h4] at h6; simp at h6; subst h6
            obtain ⟨s', h8, h9, h10⟩ := HSet.add_mem intHash hb t
            rw [h5] at h8; simp at h8; subst h8
            refine ⟨h9, ?_⟩
            intro t' ht'
            rcases (h10 t').1 ht' with rfl | h
            · exact ⟨name, by simp [RSpec.target, isJump_branches hj], h7 _ rfl⟩
            · rw [he] at h; simp at h
        · simp at h1
      · simp at h1; subst h1
        exact ⟨hb, fun t ht => by rw [he] at ht; simp at ht⟩
    split at h2
    · rename_i hc
      obtain ⟨s', h8, h9, h10⟩ := HSet.add_mem intHash h3.1 ((id : Int) + 1)
      rw [h2] at h8; simp at h8; subst h8
      intro t ht
      rcases (h10 t).1 ht with rfl | h
      · exact Or.inl ⟨rfl, hc.1, hc.2⟩
      · exact Or.inr (h3.2 t h)
    · simp at h2; subst h2
      intro t ht
      exact Or.inr (h3.2 t ht)

/-- the graph has no edges but those of the code -/
theorem connect_only {code : List Immc} {bl : List (List Immc)} {g : List Block} (hcode : bl.flatten = code) (hblk : ∀ b ∈ bl, BlkOk b)
    (h : connect (bl.map newBlock) = .ok g) :
    g.map (·.immcs) = bl ∧ (∀ b ∈ g, b.input = HMap.new ∧ b.output = HMap.new) ∧
    ∀ (p : Nat) b, g[p]? = some b → ∀ t ∈ HSet.elems b.succ, ∃ c, 0 ≤ t ∧ g[t.toNat]? = some c ∧
      RSpec.Succ code (off bl p + (b.immcs.length - 1)) (off bl t.toNat) := by
  have him := (connect_graph h).immcs
  unfold connect at h
  rw [Out.bind_eq_ok] at h
  obtain ⟨m, h1, h2⟩ := h
  obtain ⟨os, h3, _, h4⟩ := labelMap_spec _ _ _ _ [] h1 exact_new (by simp)
  obtain ⟨h5, h6⟩ := connectLoop_spec _ _ _ _ _ h2
  have hlen : g.length = bl.length := by rw [h5]; simp
  have hget : ∀ (j : Nat) b, g[j]? = some b → ∃ c, bl[j]? = some c ∧ b = { newBlock c with succ := b.succ } ∧ succOf m bl.length j (newBlock c) = .ok b.succ := by
    intro j b hj
    have hlt : j < bl.length := by
      have := (List.getElem?_eq_some_iff.1 hj).1; omega
    have hc : (bl.map newBlock)[j]? = some (newBlock bl[j]) := by simp [hlt]
    obtain ⟨s, h7, h8⟩ := h6 j _ hc
    rw [hj] at h8; simp at h8; subst h8
    exact ⟨bl[j], by simp [hlt], rfl, by simpa using h7⟩
  refine ⟨him, ?_, ?_⟩
  · intro b hb
    obtain ⟨j, hj⟩ := List.mem_iff_getElem?.1 hb
    obtain ⟨c, _, h8, _⟩ := hget j b hj
    rw [h8]; exact ⟨rfl, rfl⟩
  · intro p b hp t ht
    obtain ⟨c, h7, h8, h9⟩ := hget p b hp
    have hbc : b.immcs = c := by rw [h8]; rfl
    obtain ⟨tail, h10, h11⟩ := succOf_only (inv_new) (by show HSet.elems (HMap.new : ISet) = []; decide) h3.inv h9
    have hne := (hblk c (List.mem_of_getElem? h7)).ne
    have hpos : 0 < c.length := List.length_pos_iff.2 hne
    have htail : code[off bl p + (c.length - 1)]? = some tail := by
      rw [← hcode, flatten_get h7 (by omega), ← getLast?_get (by omega)]; exact h10
    rcases h11 t ht with ⟨rfl, h12, h13⟩ | ⟨nm, h12, h13⟩
    · have hlt : p + 1 < g.length := by omega
      refine ⟨g[p+1], by omega, ?_, tail, by rw [hbc]; exact htail, Or.inl ⟨?_, ?_⟩⟩
      · have : ((p : Int) + 1).toNat = p + 1 := by omega
        rw [this]; simp [hlt]
      · have : ((p : Int) + 1).toNat = p + 1 := by omega
        rw [this, off_succ h7, hbc]; omega
      · rintro d f s rfl; simp [Immc.isJmp] at h13
    · rcases h4 nm t ((h3.live nm t).1 h13) with h16 | ⟨q, d, x, h16, h17, h18, rfl⟩
      · simp [MSpec.lookup, MSpec.after] at h16
      · have hq : q < bl.length := by simpa using (List.getElem?_eq_some_iff.1 h16).1
        have hgq : q < g.length := by omega
        have hd : bl[q]? = some d.immcs := by
          rw [List.getElem?_map] at h16
          cases hb : bl[q]? with
          | none => rw [hb] at h16; simp at h16
          | some e => rw [hb] at h16; simp at h16; rw [← h16]; rfl
        have e : ((0 + q : Nat) : Int).toNat = q := by omega
        refine ⟨g[q], by omega, by rw [e]; simp [hgq], tail, by rw [hbc]; exact htail, Or.inr ⟨nm, x, h12, ?_, h18⟩⟩
        have h0 : 0 < d.immcs.length := (List.getElem?_eq_some_iff.1 h17).1
        have := flatten_get hd h0
        rw [hcode, h17] at this
        rw [e]; simpa using this

/-- registers needed inside a block are live there -/
theorem before_live {code : List Immc} {bl : List (List Immc)} (hcode : bl.flatten = code) {p : Nat} {is : List Immc} (hp : bl[p]? = some is) (hb : BlkOk is)
    {E : Int → Prop} (hE : ∀ v, E v → RSpec.LiveOut code v (off bl p + (is.length - 1))) :
    ∀ (b a : List Immc) (x : Immc), is = a ++ x :: b → ∀ v, before b E v → RSpec.LiveOut code v (off bl p + a.length) := by
  intro b
  induction b with
  | nil =>
    intro a x e v hv
    have : is.length - 1 = a.length := by rw [e]; simp
    rw [← this]; exact hE v hv
  | cons y b ih =>
    intro a x e v hv
    have hx : code[off bl p + a.length]? = some x := by
      rw [← hcode, flatten_get hp (by rw [e]; simp), e]; simp
    have hy : code[off bl p + (a.length + 1)]? = some y := by
      rw [← hcode, flatten_get hp (by rw [e]; simp), e]; simp
    have hj := hb.jmp a.length x (by rw [e]; simp) (by rw [e]; simp)
    refine ⟨off bl p + (a.length + 1), ⟨x, hx, Or.inl ⟨by omega, ?_⟩⟩, ?_⟩
    · rintro d f s rfl; simp [Immc.isJump, IOp.isJump] at hj
    · rcases hv with hv | ⟨hv, hw⟩
      · exact .read hy hv
      · obtain ⟨j, h1, h2⟩ := ih (a ++ [x]) y (by simp [e]) v hv
        refine .thru hy hw (j := j) ?_ h2
        simpa using h1

theorem mem_regs {code : List Immc} {v : Int} {i : Nat} (h : RSpec.LiveIn code v i) : v ∈ code.flatMap RSpec.reads := by
  induction h with
  | read h1 h2 => exact List.mem_flatMap.2 ⟨_, List.mem_of_getElem? h1, h2⟩
  | thru _ _ _ _ ih => exact ih

/-- blocks are cut after jumps and before labels only -/
def Cut : List (List Immc) → Prop
  | b :: c :: r => ((∃ x, b.getLast? = some x ∧ x.isJump = true) ∨ ∃ y, c.head? = some y ∧ y.isLabel = true) ∧ Cut (c :: r)
  | _ => True

theorem cut_cons {b : List Immc} {r : List (List Immc)} (hr : Cut r)
    (h : ∀ c s, r = c :: s → (∃ x, b.getLast? = some x ∧ x.isJump = true) ∨ ∃ y, c.head? = some y ∧ y.isLabel = true) : Cut (b :: r) := by
  cases r with
  | nil => trivial
  | cons c s => exact ⟨h c s rfl, hr⟩

theorem createBlocks_cut : ∀ (is cur : List Immc), Cut (createBlocks cur is) ∧
    ∀ x, cur.head? = some x → ∀ c s, createBlocks cur is = c :: s → c.head? = some x := by
  intro is
  induction is with
  | nil =>
    intro cur
    unfold createBlocks emit
    split
    · exact ⟨trivial, by intro x hx c s e; cases e⟩
    · exact ⟨trivial, by intro x hx c s e; cases e; exact hx⟩
  | cons i is ih =>
    intro cur
    unfold createBlocks
    split
    · rename_i hj
      have he : emit (cur ++ [i]) = [cur ++ [i]] := by simp [emit]
      rw [he]
      constructor
      · apply cut_cons
        · split
          · trivial
          · exact (ih []).1
        · intro c s _
          exact Or.inl ⟨i, by simp, hj⟩
      · intro x hx c s e
        cases e
        cases cur with
        | nil => simp at hx
        | cons a cur => simpa using hx
    · split
      · rename_i hl
        constructor
        · have hr : Cut (if is = [] then [] else createBlocks [i] is) := by
            split
            · trivial
            · exact (ih [i]).1
          unfold emit
          split
          · simpa using hr
          · refine cut_cons hr ?_
            intro c s e
            split at e
            · cases e
            · exact Or.inr ⟨i, (ih [i]).2 i rfl c s e, hl⟩
        · intro x hx c s e
          unfold emit at e
          split at e
          · rename_i hn; subst hn; simp at hx
          · cases e; exact hx
      · obtain ⟨h1, h2⟩ := ih (cur ++ [i])
        refine ⟨h1, fun x hx => h2 x ?_⟩
        cases cur with
        | nil => simp at hx
        | cons a cur => simpa using hx

theorem cut_get : ∀ {bl : List (List Immc)}, Cut bl → ∀ {p : Nat} {b c : List Immc}, bl[p]? = some b → bl[p + 1]? = some c →
    (∃ x, b.getLast? = some x ∧ x.isJump = true) ∨ ∃ y, c.head? = some y ∧ y.isLabel = true := by
  intro bl
  induction bl with
  | nil => intro _ p b c h; simp at h
  | cons a r ih =>
    intro h p b c hb hc
    cases r with
    | nil => simp at hc
    | cons a' r =>
      cases p with
      | zero => simp at hb hc; subst hb hc; exact h.1
      | succ p => exact ih h.2 (by simpa using hb) (by simpa using hc)

theorem connect_ground {code : List Immc} {bl : List (List Immc)} {g : List Block} (hcode : bl.flatten = code) (hblk : ∀ b ∈ bl, BlkOk b)
    (hcut : Cut bl) (h : connect (bl.map newBlock) = .ok g) (ho : RSpec.Orderly code) :
    Ground g (fun p v => RSpec.LiveIn code v (off bl p)) (code.flatMap RSpec.reads) := by
  obtain ⟨h1, h2, h3⟩ := connect_only hcode hblk h
  have hbl : ∀ (p : Nat) b, g[p]? = some b → bl[p]? = some b.immcs := by
    intro p b hp; rw [← h1]; simp [hp]
  have hE : ∀ (p : Nat) b, g[p]? = some b → ∀ v, (∃ t ∈ HSet.elems b.succ, RSpec.LiveIn code v (off bl t.toNat)) →
      RSpec.LiveOut code v (off bl p + (b.immcs.length - 1)) := by
    rintro p b hp v ⟨t, ht, hv⟩
    obtain ⟨c, _, _, hs⟩ := h3 p b hp t ht
    exact ⟨_, hs, hv⟩
  refine ⟨?_, fun p v => mem_regs, ?_, ?_⟩
  · intro p b hp t ht
    obtain ⟨c, h4, h5, _⟩ := h3 p b hp t ht
    exact ⟨c, h4, h5⟩
  · intro p b hp v hv
    have hok := hblk _ (List.mem_of_getElem? (hbl p b hp))
    obtain ⟨x, is, hx⟩ := List.exists_cons_of_ne_nil hok.ne
    have hx0 : code[off bl p]? = some x := by
      have := flatten_get (hbl p b hp) (k := 0) (by rw [hx]; simp)
      rw [hcode, hx] at this; simpa using this
    rw [hx] at hv
    rcases hv with hv | ⟨hv, hw⟩
    · exact .read hx0 hv
    · obtain ⟨j, h4, h5⟩ := before_live hcode (hbl p b hp) hok (hE p b hp) is [] x hx v hv
      exact .thru hx0 hw (by simpa using h4) h5
  · intro p b hp s hs hv
    have hok := hblk _ (List.mem_of_getElem? (hbl p b hp))
    have hmem : ∀ (k : Nat), k < b.immcs.length → code[off bl p + k]? = b.immcs[k]? := by
      intro k hk; rw [← hcode]; exact flatten_get (hbl p b hp) hk
    refine flowLoop_calm _ _ s (Nat.le_refl _) hs ?_
    intro a x c e
    have hx : code[off bl p + a.length]? = some x := by rw [hmem _ (by rw [e]; simp), e]; simp
    rcases ho _ x hx with ⟨hnd, hl⟩ | ⟨n, w, hin, hnl, hw, hdead, hstr, hnear⟩ | ⟨hj, hw⟩
    · refine Or.inl ⟨hnd, fun v hv' hw hbf => hl v hv' hw ?_⟩
      exact before_live hcode (hbl p b hp) hok (hE p b hp) c a x e v (before_mono _ hv v hbf)
    · refine Or.inr (Or.inl ?_)
      have hlen : b.immcs.length = a.length + (c.length + 1) := by rw [e]; simp
      -- the stretch ends within the block
      have hin' : n < off bl p + b.immcs.length := by
        apply Classical.byContradiction
        intro hno
        have hlast : b.immcs[b.immcs.length - 1]? = some (b.immcs[b.immcs.length - 1]'(by omega)) := by simp
        generalize b.immcs[b.immcs.length - 1]'(by omega) = z at hlast
        have hz : code[off bl p + (b.immcs.length - 1)]? = some z := by rw [hmem _ (by omega)]; exact hlast
        have hnext : off bl (p + 1) = off bl p + b.immcs.length := off_succ (hbl p b hp)
        have hp1 : p + 1 < bl.length := by
          apply Classical.byContradiction
          intro hc
          have hple : p < bl.length := (List.getElem?_eq_some_iff.1 (hbl p b hp)).1
          have : off bl (p + 1) = code.length := by
            unfold off
            rw [List.take_of_length_le (by omega), hcode]
          omega
        have hc2 : bl[p + 1]? = some bl[p + 1] := by simp [hp1]
        generalize bl[p + 1] = c2 at hc2
        have hne := (hblk c2 (List.mem_of_getElem? hc2)).ne
        obtain ⟨y, ys, rfl⟩ := List.exists_cons_of_ne_nil hne
        have hy : code[off bl p + (b.immcs.length - 1) + 1]? = some y := by
          have := flatten_get hc2 (k := 0) (by simp)
          rw [hcode, hnext] at this
          rw [show off bl p + (b.immcs.length - 1) + 1 = off bl p + b.immcs.length + 0 by omega, this]
          simp
        obtain ⟨s1, s2⟩ := hstr _ z y (by omega) (by omega) hz hy
        rcases cut_get hcut (hbl p b hp) hc2 with ⟨z', h4, h5⟩ | ⟨y', h4, h5⟩
        · rw [List.getLast?_eq_getElem?, hlast] at h4
          cases h4
          rw [s1] at h5; cases h5
        · simp at h4; subst h4
          rw [s2] at h5; cases h5
      refine ⟨c.take (n - (off bl p + a.length)), c.drop (n - (off bl p + a.length)), w, hw, by simp, ?_, ?_⟩
      · intro v hbf
        refine hdead v ?_
        have hsplit : b.immcs = (a ++ (x :: c).take (n - (off bl p + a.length))) ++
            (x :: c)[n - (off bl p + a.length)]'(by simp; omega) :: c.drop (n - (off bl p + a.length)) := by
          rw [e, List.append_assoc]
          congr 1
          have h1 := List.take_append_drop (n - (off bl p + a.length)) (x :: c)
          rw [List.drop_eq_getElem_cons (by simp; omega)] at h1
          simpa using h1.symm
        have := before_live hcode (hbl p b hp) hok (hE p b hp) _ _ _ hsplit v (before_mono _ hv v hbf)
        have hl2 : (a ++ (x :: c).take (n - (off bl p + a.length))).length = n - off bl p := by simp; omega
        rw [hl2] at this
        rw [show n = off bl p + (n - off bl p) by omega]
        exact this
      · intro y hy v hvy
        have : ∃ k : Nat, k ≤ n - (off bl p + a.length) ∧ (x :: c)[k]? = some y := by
          rcases List.mem_cons.1 hy with rfl | hy
          · exact ⟨0, by omega, rfl⟩
          · obtain ⟨k, hk⟩ := List.mem_iff_getElem?.1 hy
            rw [List.getElem?_take] at hk
            split at hk
            · exact ⟨k + 1, by omega, by simpa using hk⟩
            · cases hk
        obtain ⟨k, hk, hyk⟩ := this
        refine hnear (off bl p + a.length + k) y v (by omega) (by omega) ?_ hvy
        rw [Nat.add_assoc, hmem _ (by omega), e, List.getElem?_append_right (by omega)]
        rw [show a.length + k - a.length = k by omega]
        exact hyk
    · refine Or.inr (Or.inr ⟨?_, hw⟩)
      apply Classical.byContradiction
      intro hc
      have hpos : 0 < c.length := List.length_pos_iff.2 hc
      have := hok.jmp a.length x (by rw [e, List.length_append, List.length_cons]; omega) (by rw [e]; simp)
      rw [hj] at this; cases this

theorem start_going {code : List Immc} {bl : List (List Immc)} {g : List Block} {L : Nat → Int → Prop} (hcode : bl.flatten = code) (hblk : ∀ b ∈ bl, BlkOk b)
    (h : connect (bl.map newBlock) = .ok g) : Going g L g := by
  obtain ⟨_, h2, _⟩ := connect_only hcode hblk h
  have hnew : ∀ v : Int, v ∉ HSet.elems (HMap.new : ISet) := by
    have : HSet.elems (HMap.new : ISet) = [] := by decide
    simp [this]
  have hi : ∀ (p : Nat) b, g[p]? = some b → ∀ v, v ∉ HSet.elems b.input := by
    intro p b hp v; rw [(h2 b (List.mem_of_getElem? hp)).1]; exact hnew v
  have ho : ∀ (p : Nat) b, g[p]? = some b → ∀ v, v ∉ HSet.elems b.output := by
    intro p b hp v; rw [(h2 b (List.mem_of_getElem? hp)).2]; exact hnew v
  refine ⟨rfl, ?_, ?_, fun p b hp v hv => absurd hv (hi p b hp v), fun p b hp v hv => absurd hv (ho p b hp v),
    fun p b hp v hv => absurd hv (ho p b hp v), fun p b hp v hv => absurd hv (hi p b hp v)⟩
  · intro p b b0 h1 h2; rw [h1] at h2; cases h2; exact ⟨rfl, rfl⟩
  · intro b hb; rw [(h2 b hb).1, (h2 b hb).2]; exact ⟨neat_new, neat_new⟩

/-- The analysis ends, and its sets hold live registers only. -/
theorem controlFlow_ends {code : List Immc} {g0 : List Block} (hlast : ∀ x, code.getLast? = some x → x.isLabel = false)
    (h0 : connect ((createBlocks [] code).map newBlock) = .ok g0) (ho : RSpec.Orderly code) :
    ∃ N g, (∀ fuel, N ≤ fuel → controlFlow code fuel = .ok g) ∧ Flow code g ∧
      (∀ (p : Nat) b, g[p]? = some b → ∀ v ∈ HSet.elems b.input, RSpec.LiveIn code v (off (g.map (·.immcs)) p)) ∧
      ∀ (p : Nat) b, g[p]? = some b → ∀ v ∈ HSet.elems b.output, RSpec.LiveOut code v (off (g.map (·.immcs)) p + (b.immcs.length - 1)) := by
  obtain ⟨h5, h6⟩ := createBlocks_spec code [] CurOk.nil hlast
  simp only [List.nil_append] at h5
  have hg := connect_ground h5 h6 (createBlocks_cut code []).1 h0 ho
  obtain ⟨g, h1, h2⟩ := analyzeFlow_going hg (g0.length * (2 * (code.flatMap RSpec.reads).length) + 1) g0 (start_going h5 h6 h0) (by omega)
  have hcf : controlFlow code (g0.length * (2 * (code.flatMap RSpec.reads).length) + 1) = .ok g := by
    unfold controlFlow; rw [h0, Out.ok_bind, h1]
  have hfl := controlFlow_flow hlast hcf
  obtain ⟨c1, _, c3⟩ := connect_only h5 h6 h0
  have him : g.map (·.immcs) = createBlocks [] code := by
    rw [← c1]
    apply List.ext_getElem?
    intro p
    rw [List.getElem?_map, List.getElem?_map]
    cases hp : g[p]? with
    | none =>
      rw [List.getElem?_eq_none_iff, h2.len, ← List.getElem?_eq_none_iff] at hp
      simp [hp]
    | some b =>
      have hlt : p < g0.length := by rw [← h2.len]; exact (List.getElem?_eq_some_iff.1 hp).1
      have := (h2.same p b g0[p] hp (by simp [hlt])).1
      simp [hlt, this]
  refine ⟨_, g, fun fuel hf => controlFlow_more hcf hf, hfl, ?_, ?_⟩
  · intro p b hp v hv
    rw [him]; exact h2.inp p b hp v hv
  · intro p b hp v hv
    obtain ⟨t, ht, hv'⟩ := h2.out p b hp v hv
    have hlt : p < g0.length := by rw [← h2.len]; exact (List.getElem?_eq_some_iff.1 hp).1
    obtain ⟨e1, e2⟩ := h2.same p b g0[p] hp (by simp [hlt])
    obtain ⟨c, _, _, hs⟩ := c3 p g0[p] (by simp [hlt]) t (by rw [← e2]; exact ht)
    rw [him, e1]; exact ⟨_, hs, hv'⟩

end Regalloc
end Umlcc
