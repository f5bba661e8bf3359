import Verif.Lemma.Pressure
import Verif.Lemma.RegCheck
/-! Property theorems C38 - C41: register allocation. -/
namespace Umlcc
open Regalloc

/-! Code for the examples: `int f() { int a = 5; while (a > 0) a = a - 1; return a; }` -/

def exF : Name := ⟨[0x66], by decide⟩
def exL1 : Name := ⟨[0x4C, 0x31], by decide⟩
def exL2 : Name := ⟨[0x4C, 0x32], by decide⟩
private def r (n : Int) : Ope := .reg .long n false
private def n (k : Int) : Ope := .int .long ⟨.int, k⟩
private def ins (op : IOp) (d f s : Option Ope) : Immc := .inst ⟨op, d, f, s⟩

def exLoop : List Immc := [
  .label .function .global exF,
  ins .enter none (some (n 16)) none,
  ins .load (some (r 0)) (some (n 5)) none,
  ins .store (some (.mem 4)) (some (r 0)) none,
  .label .normal .none exL1,
  ins .load (some (r 1)) (some (.mem 4)) none,
  ins .jleq (some (.label exL2)) (some (r 1)) (some (n 0)),
  ins .load (some (r 2)) (some (.mem 4)) none,
  ins .sub (some (r 3)) (some (r 2)) (some (n 1)),
  ins .store (some (.mem 4)) (some (r 3)) none,
  ins .jmp (some (.label exL1)) none none,
  .label .normal .none exL2,
  ins .load (some (r 4)) (some (.mem 4)) none,
  ins .stret none (some (r 4)) none,
  ins .leave none (some (n 16)) none]

/-- its live registers, line by line -/
def exLoopTab : List (List Int) := [[], [], [], [0], [], [], [1], [], [2], [3], [], [], [], [4], []]

/-- the same function with the comparison computed by a branch the allocator knows, and a register kept
across the loop: `JEQ` instead of `JLEQ`, and register 0 returned -/
def exKnown : List Immc := [
  .label .function .global exF,
  ins .load (some (r 0)) (some (n 5)) none,
  .label .normal .none exL1,
  ins .load (some (r 1)) (some (.mem 4)) none,
  ins .jeq (some (.label exL2)) (some (r 1)) (some (n 0)),
  ins .sub (some (r 2)) (some (r 1)) (some (n 1)),
  ins .store (some (.mem 4)) (some (r 2)) none,
  ins .jmp (some (.label exL1)) none none,
  .label .normal .none exL2,
  ins .stret none (some (r 0)) none,
  ins .leave none none none]

def exKnownTab : List (List Int) := [[], [], [0], [0], [0, 1], [0, 1], [0, 2], [0], [0], [0], []]

/-- C38. In the code produced for a function (which is the input with its registers renamed by one map `ρ`), any
two different virtual registers live at the same instruction have different physical registers, all of them
between 0 and the number of registers. Live means: some path from here reads it before writing it.
Hypotheses beyond the English claim, which is why this is `_partial`: a live register was written on an earlier
line, and either every branch is one the compiler's jump test knows or no register is live across a backward jump.
(The intermediate code generator guarantees both, see C33; they are not consequences of the allocator.) -/
theorem C38_live_registers_distinct_partial (code out : List Immc) (o nregs fuel : Nat) (qs qs' : List Liveseq)
    (h : allocFunction code o nregs qs fuel = .ok (out, qs'))
    (hlast : ∀ x, code.getLast? = some x → x.isLabel = false)
    (hu : RSpec.UniqueLabels code) (hr : RSpec.KnownBranches code ∨ RSpec.BackDead code) (hdef : RSpec.DefBefore code) :
    ∃ ρ : Int → Int, out = code.map (RSpec.rename ρ) ∧
      ∀ i u, RSpec.LiveIn code u i → 0 ≤ ρ u ∧ ρ u < nregs ∧ ∀ v, RSpec.LiveIn code v i → u ≠ v → ρ u ≠ ρ v := by
  obtain ⟨g, lv, al, h1, h2, h3, h4, h5⟩ := allocFunction_parts h
  have hf := controlFlow_flow hlast h1
  obtain ⟨hj, _⟩ := intervals hf h2
  obtain ⟨st, ha⟩ := allocate_spec hj.mono h3
  refine ⟨phys al, genAllocated_rename h4, ?_⟩
  -- interval of a live register
  have cover : ∀ i u, RSpec.LiveIn code u i → 0 ≤ u ∧ ∃ l r, lv[u.toNat]? = some l ∧ al[u.toNat]? = some (some r) ∧ r < nregs ∧
      l.first < o + i ∧ o + i ≤ l.last := by
    intro i u hl
    have hreach : Reaches lv u (o + i) := by
      cases hl with
      | read hx hrd => exact hj.used i _ u hx hrd
      | thru hx hw hs hl' =>
        obtain ⟨a, l, b, c⟩ := liveOut_reaches hf h2 hu hr hs hl'
        exact ⟨a, l, b, by omega⟩
    obtain ⟨h0, l, hl1, hl2⟩ := hreach
    obtain ⟨k, x, hk, hx, hw⟩ := hdef i u hl
    obtain ⟨l', hl3, hl4⟩ := hj.defd k x u hx hw h0
    rw [hl1] at hl3; simp at hl3; subst hl3
    obtain ⟨r, hr'⟩ := all_allocated ha.allen h5 u.toNat (List.getElem?_eq_some_iff.1 hl1).1
    exact ⟨h0, l, r, hl1, hr', ha.bound _ _ hr', by omega, by omega⟩
  intro i u hl
  obtain ⟨hu0, l, r, a1, a2, a3, a4, a5⟩ := cover i u hl
  have hp : phys al u = r := by simp [phys, a2]
  refine ⟨by omega, by omega, ?_⟩
  intro v hlv huv
  obtain ⟨hv0, l', s, b1, b2, b3, b4, b5⟩ := cover i v hlv
  have hq : phys al v = s := by simp [phys, b2]
  have hne : u.toNat ≠ v.toNat := by intro e; apply huv; omega
  rw [hp, hq]
  intro e
  have e' : r = s := by omega
  rcases Nat.lt_or_gt_of_ne hne with hlt | hgt
  · exact overlap_ne ha a2 b2 a1 b1 hlt (by omega) e'
  · exact overlap_ne ha b2 a2 b1 a1 hgt (by omega) e'.symm

/-- both alternatives occur: a loop closed by an unknown branch but carrying no register, and a loop carrying one -/
example : (∃ res, allocFunction exLoop 0 8 (List.replicate 8 Liveseq.new) 9 = .ok res) ∧ RSpec.UniqueLabels exLoop ∧
    RSpec.BackDead exLoop ∧ RSpec.DefBefore exLoop :=
  ⟨⟨_, rfl⟩, RSpec.uniqueOk_unique (by decide), RSpec.backOk_dead (t := exLoopTab) (by decide) (by decide),
    RSpec.defOk_before (t := exLoopTab) (by decide) (by decide)⟩

example : (∃ res, allocFunction exKnown 0 8 (List.replicate 8 Liveseq.new) 9 = .ok res) ∧ RSpec.UniqueLabels exKnown ∧
    RSpec.KnownBranches exKnown ∧ RSpec.DefBefore exKnown :=
  ⟨⟨_, rfl⟩, RSpec.uniqueOk_unique (by decide), by unfold RSpec.KnownBranches; decide,
    RSpec.defOk_before (t := exKnownTab) (by decide) (by decide)⟩

/-- C39, linear scan: given intervals by non-decreasing start, every virtual register gets a physical one exactly
when at the start of each interval fewer than `nregs` earlier intervals are still running. -/
theorem C39_enough_registers_partial (lv : List Live) (nregs : Nat) (hs : RSpec.Sorted lv) :
    ∃ al, allocate lv nregs = .ok al ∧ al.length = lv.length ∧
      ((∀ x ∈ al, ∃ r, x = some r ∧ r < nregs) ↔ ∀ v, v < lv.length → RSpec.pressure lv v < nregs) := by
  have hm : Mono lv := hs
  obtain ⟨st, al, h1, h2⟩ := allocLoop_spec (n := nregs) hm lv.length 0 _ _ (by simp) (ainv_init lv nregs)
  refine ⟨al, h1, h2.allen, ?_⟩
  constructor
  · intro hall
    apply Classical.byContradiction
    intro hc
    simp only [Classical.not_forall, Nat.not_lt] at hc
    obtain ⟨v, hv, hp⟩ := hc
    obtain ⟨al', h3, u, hu, hn⟩ := allocLoop_spills hm lv.length 0 _ _ (by simp) (ainv_init lv nregs) (by simp) ⟨v, by simp, hv, hp⟩
    rw [h1] at h3; simp at h3; subst h3
    obtain ⟨r, hr, _⟩ := hall none (List.mem_of_getElem? hn)
    simp at hr
  · intro hp
    obtain ⟨al', h3, hall⟩ := allocLoop_all hm lv.length 0 _ _ (by simp) (ainv_init lv nregs) (by simp) (fun w _ hw => hp w hw)
    rw [h1] at h3; simp at h3; subst h3
    intro x hx
    obtain ⟨u, hu⟩ := List.mem_iff_getElem?.1 hx
    obtain ⟨r, hr⟩ := hall u (by rw [← h2.allen]; exact (List.getElem?_eq_some_iff.1 hu).1)
    rw [hu] at hr; simp at hr; subst hr
    exact ⟨r, rfl, h2.bound u r hu⟩

example : RSpec.Sorted [⟨1, 5⟩, ⟨2, 4⟩, ⟨3, 6⟩, ⟨4, 7⟩] ∧ allocate [⟨1, 5⟩, ⟨2, 4⟩, ⟨3, 6⟩, ⟨4, 7⟩] 3 = .ok [some 0, some 1, some 2, some 1] := by
  refine ⟨?_, by decide⟩
  intro u v lu lw huv h1 h2
  match u, v, huv, h1, h2 with
  | 0, v, _, h1, h2 => match v, h2 with
    | 0, h2 | 1, h2 | 2, h2 | 3, h2 => simp at h1 h2; subst h1 h2; decide
  | 1, v, _, h1, h2 => match v, h2 with
    | 1, h2 | 2, h2 | 3, h2 => simp at h1 h2; subst h1 h2; decide
  | 2, v, _, h1, h2 => match v, h2 with
    | 2, h2 | 3, h2 => simp at h1 h2; subst h1 h2; decide
  | 3, v, _, h1, h2 => match v, h2 with
    | 3, h2 => simp at h1 h2; subst h1 h2; decide

/-- C39, the general failure: for any function whose intervals exceed the registers at some point, the allocator
dereferences a null pointer (the spilled register has number -1 and `update_liveseqs` indexes with it);
it never produces code with spills. -/
theorem C39_spilling_crashes_violated (code : List Immc) (o nregs fuel : Nat) (qs : List Liveseq) (g : List Block) (lv : List Live)
    (hlast : ∀ x, code.getLast? = some x → x.isLabel = false)
    (hg : controlFlow code fuel = .ok g) (hl : liveBlocks [] o g = .ok lv)
    (hp : ∃ v, v < lv.length ∧ nregs ≤ RSpec.pressure lv v) :
    allocFunction code o nregs qs fuel = .ub := by
  have hf := controlFlow_flow hlast hg
  obtain ⟨hj, _⟩ := intervals hf hl
  obtain ⟨v, hv, hpv⟩ := hp
  obtain ⟨al, h3, u, hu, hn⟩ := allocLoop_spills hj.mono lv.length 0 _ _ (by simp) (ainv_init lv nregs) (by simp) ⟨v, by simp, hv, hpv⟩
  obtain ⟨st, al', h4, h5⟩ := allocLoop_spec (n := nregs) hj.mono lv.length 0 _ _ (by simp) (ainv_init lv nregs)
  rw [h3] at h4; simp at h4; subst h4
  have ha : allocate lv nregs = .ok al := h3
  -- every register mentioned in the code has an interval, so renaming itself succeeds or is undefined too
  have hub : updateLiveseqs qs (lv.zip al) = .ub := by
    apply updateLiveseqs_none
    have hul : u < al.length := by rw [h5.allen]; exact hu
    refine ⟨(lv[u], al[u]), List.mem_iff_getElem.2 ⟨u, by simp; omega, by simp⟩, ?_⟩
    rw [List.getElem?_eq_getElem hul] at hn; simpa using hn
  unfold allocFunction
  simp only [hg, hl, ha, Out.ok_bind]
  have hgen : ∀ is : List Immc, (∃ out, genAllocated al is = .ok out) ∨ genAllocated al is = .ub := by
    have hid : ∀ id, (∃ w, mapId al id = .ok w) ∨ mapId al id = .ub := by
      intro id
      unfold mapId
      split
      · exact Or.inr rfl
      · exact Or.inl ⟨_, rfl⟩
      · exact Or.inl ⟨_, rfl⟩
    have hope : ∀ ope, (∃ w, mapOpe al ope = .ok w) ∨ mapOpe al ope = .ub := by
      intro ope
      unfold mapOpe
      split
      · rename_i s id u
        rcases hid id with ⟨w, hw⟩ | hw
        · exact Or.inl ⟨some (.reg s w u), by simp [hw]⟩
        · exact Or.inr (by simp [hw])
      · rename_i id
        rcases hid id with ⟨w, hw⟩ | hw
        · exact Or.inl ⟨some (.ptr w), by simp [hw]⟩
        · exact Or.inr (by simp [hw])
      · exact Or.inl ⟨_, rfl⟩
    intro is
    induction is with
    | nil => exact Or.inl ⟨[], rfl⟩
    | cons x xs ih =>
      have hx : (∃ w, mapImmc al x = .ok w) ∨ mapImmc al x = .ub := by
        cases x with
        | inst i =>
          simp only [mapImmc]
          rcases hope i.fst with ⟨w, hw⟩ | hw
          · rcases hope i.snd with ⟨w2, hw2⟩ | hw2
            · rcases hope i.dst with ⟨w3, hw3⟩ | hw3
              · exact Or.inl ⟨_, by rw [hw, Out.ok_bind, hw2, Out.ok_bind, hw3, Out.ok_bind]; rfl⟩
              · exact Or.inr (by simp [hw, hw2, hw3])
            · exact Or.inr (by simp [hw, hw2])
          · exact Or.inr (by simp [hw])
        | data d => exact Or.inl ⟨_, rfl⟩
        | label a b c => exact Or.inl ⟨_, rfl⟩
      rcases hx with ⟨w, hw⟩ | hw
      · rcases ih with ⟨w2, hw2⟩ | hw2
        · exact Or.inl ⟨w :: w2, by simp [genAllocated, hw, hw2]⟩
        · exact Or.inr (by simp [genAllocated, hw, hw2])
      · exact Or.inr (by simp [genAllocated, hw])
  rcases hgen code with ⟨out, ho⟩ | ho
  · rw [ho, Out.ok_bind, hub]; rfl
  · rw [ho]; rfl

/-- nine values loaded, then added up from the last: nine registers live at once -/
def exNine : List Immc :=
  [.label .function .global exF] ++ (List.range 9).map (fun (k : Nat) => ins .load (some (r k)) (some (n 1)) none) ++
  (List.range 8).map (fun (k : Nat) => ins .add (some (r (7 - k : Int))) (some (r (7 - k : Int))) (some (r (8 - k : Int)))) ++
  [ins .stret none (some (r 0)) none, ins .leave none none none]

/-- C39, witness: nine simultaneously live registers with the eight available ones crash the compiler -/
theorem C39_nine_live_registers_violated :
    (∃ g lv, controlFlow exNine 5 = .ok g ∧ liveBlocks [] 0 g = .ok lv ∧ RSpec.pressure lv 8 = 8) ∧
    allocFunction exNine 0 8 (List.replicate 8 Liveseq.new) 5 = .ub ∧
    ∃ res, allocFunction exNine 0 9 (List.replicate 9 Liveseq.new) 5 = .ok res :=
  ⟨⟨_, _, rfl, rfl, by decide⟩, by decide +kernel, ⟨_, rfl⟩⟩

/-- `c ? 1 : 2` as the generator numbers it: the result register 0 is reserved before the condition (register 1) -/
def exCond : List Immc := [
  .label .function .global exF,
  ins .load (some (r 1)) (some (.mem 4)) none,
  ins .jeq (some (.label exL1)) (some (r 1)) (some (n 0)),
  ins .load (some (r 0)) (some (n 1)) none,
  ins .jmp (some (.label exL2)) none none,
  .label .normal .none exL1,
  ins .load (some (r 0)) (some (n 2)) none,
  .label .normal .none exL2,
  ins .stret none (some (r 0)) none,
  ins .leave none none none]

/-- C39, second witness: at no line of this code more than one register is live, yet with one physical register the
allocator crashes, because the interval of register 0 is made to start at the first write of register 1. -/
theorem C39_one_live_register_violated :
    (∀ i u v, RSpec.LiveIn exCond u i → RSpec.LiveIn exCond v i → u = v) ∧
    allocFunction exCond 0 1 (List.replicate 1 Liveseq.new) 9 = .ub ∧
    ∃ res, allocFunction exCond 0 2 (List.replicate 2 Liveseq.new) 9 = .ok res := by
  refine ⟨?_, by decide, ⟨_, rfl⟩⟩
  intro i u v hu hv
  have t : RSpec.tableOk exCond [[], [], [1], [], [0], [], [], [0], [0], []] = true := by decide
  have a := RSpec.tableOk_live t hu
  have b := RSpec.tableOk_live t hv
  match i, a, b with
  | 0, a, _ | 1, a, _ | 3, a, _ | 5, a, _ | 6, a, _ | 9, a, _ => simp [RSpec.tab] at a
  | 2, a, b | 4, a, b | 7, a, b | 8, a, b => simp [RSpec.tab] at a b; rw [a, b]
  | i + 10, a, _ => simp [RSpec.tab] at a

/-- code with a branch the allocator does not recognise: register 0 is live at line 3, where the branch to `L1` is -/
def exMissed : List Immc := [
  .label .function .global exF,
  ins .load (some (r 0)) (some (n 1)) none,
  ins .load (some (r 1)) (some (n 2)) none,
  ins .jleq (some (.label exL1)) (some (r 1)) (some (n 0)),
  ins .jmp (some (.label exL2)) none none,
  .label .normal .none exL1,
  ins .stret none (some (r 0)) none,
  .label .normal .none exL2,
  ins .leave none none none]

/-- C40 violated: register 0 is live after line 3 (path 3 → 5 → 6) but the flow analysis reports nothing live at the
end of the block containing lines 0 to 4, nor before line 3 (nor at line 4). `JLEQ` and `JLT` are not in the
range `JMP..JGEQ` the analysis tests for. -/
theorem C40_missed_branch_violated :
    ∃ g b, controlFlow exMissed 9 = .ok g ∧ g[0]? = some b ∧ b.immcs = exMissed.take 5 ∧
      RSpec.LiveIn exMissed 0 3 ∧ HSet.elems b.output = [] ∧
      ∃ s, flowLoop b.output (b.immcs.drop 3).reverse = .ok s ∧ (0 : Int) ∉ HSet.elems s := by
  refine ⟨_, _, rfl, rfl, by decide, ?_, by decide, _, rfl, by decide⟩
  refine .thru (j := 5) rfl (by decide) ⟨_, rfl, Or.inr ⟨exL1, _, rfl, rfl, by decide⟩⟩ ?_
  refine .thru (j := 6) rfl (by decide) ⟨_, rfl, Or.inl ⟨rfl, by simp⟩⟩ ?_
  exact .read rfl (by decide)

/-- C40: the blocks are the code, cut up; at every line the set the analysis computes for the point before that line
contains every register live there, at block ends `output` contains every register live out, and at block
starts `input` contains every register live in.
Missing for the full claim: code with `JLT`/`JLEQ` branches (violated, above). -/
theorem C40_liveness_sound_partial (code : List Immc) (fuel : Nat) (g : List Block) (h : controlFlow code fuel = .ok g)
    (hlast : ∀ x, code.getLast? = some x → x.isLabel = false)
    (hu : RSpec.UniqueLabels code) (hk : RSpec.KnownBranches code) :
    (g.map (·.immcs)).flatten = code ∧
    ∀ pre b post, g = pre ++ b :: post →
      let start := (pre.map (·.immcs)).flatten.length
      (∀ v k, k < b.immcs.length → RSpec.LiveIn code v (start + k) →
        ∃ s, flowLoop b.output (b.immcs.drop k).reverse = .ok s ∧ v ∈ HSet.elems s) ∧
      (∀ v, RSpec.LiveIn code v start → v ∈ HSet.elems b.input) ∧
      (∀ v k, k + 1 = b.immcs.length → RSpec.LiveOut code v (start + k) → v ∈ HSet.elems b.output) := by
  have hf := controlFlow_flow hlast h
  refine ⟨hf.code, ?_⟩
  intro pre b post hg
  have hp : g[pre.length]? = some b := by rw [hg]; simp
  have hoff : off (g.map (·.immcs)) pre.length = (pre.map (·.immcs)).flatten.length := by
    unfold off
    rw [hg, List.map_append]
    congr 2
    rw [List.take_append_of_le_length (by simp)]
    rw [List.take_of_length_le (by simp)]
  have hb := hf.blk b (List.mem_of_getElem? hp)
  have hb0 : 0 < b.immcs.length := List.length_pos_iff.2 hb.ne
  dsimp only
  rw [← hoff]
  have hplt := (List.getElem?_eq_some_iff.1 hp).1
  have first : ∀ v k, k < b.immcs.length → RSpec.LiveIn code v (off (g.map (·.immcs)) pre.length + k) →
        ∃ s, flowLoop b.output (b.immcs.drop k).reverse = .ok s ∧ v ∈ HSet.elems s := by
    intro v k hk' hl
    obtain ⟨s, h1, _, h2⟩ := flow_sound hf hu hk hl pre.length k b hp hk' rfl
    exact ⟨s, h1, h2⟩
  refine ⟨first, ?_, ?_⟩
  · intro v hl
    obtain ⟨s, h1, h2⟩ := first v 0 hb0 (by simpa using hl)
    have heq := (hf.eqn _ hplt b hp).1
    simp only [List.drop_zero] at h1
    rw [heq] at h1; simp at h1; subst h1; exact h2
  · rintro v k hk1 ⟨j, hs, hl⟩
    -- pretend the last line reads nothing: use the flow set after it
    obtain ⟨x, hx, hcase⟩ := hs
    have hxk : b.immcs[k]? = some x := by
      have := flatten_get (bl := g.map (·.immcs)) (p := pre.length) (k := k) (b := b.immcs) (by simp [hp]) (by omega)
      rw [← this, hf.code]; exact hx
    have enter : ∀ (q : Nat) d, g[q]? = some d → j = off (g.map (·.immcs)) q → (q : Int) ∈ HSet.elems b.succ → v ∈ HSet.elems b.output := by
      intro q d hq hjq hmem
      have hd0 : 0 < d.immcs.length := List.length_pos_iff.2 (hf.blk d (List.mem_of_getElem? hq)).ne
      obtain ⟨sq, h8, _, h10⟩ := flow_sound hf hu hk hl q 0 d hq hd0 (by omega)
      have hqlt := (List.getElem?_eq_some_iff.1 hq).1
      have heq := (hf.eqn q hqlt d hq).1
      simp only [List.drop_zero] at h8
      rw [heq] at h8; simp at h8; subst h8
      obtain ⟨c', _, h11, h12⟩ := (hf.eqn _ hplt b hp).2 _ hmem
      simp at h11
      rw [hq] at h11; simp at h11; subst h11
      exact h12 v h10
    rcases hcase with ⟨rfl, hnj⟩ | ⟨nm, y, htg, hy, hyl⟩
    · have hoff1 := off_succ (bl := g.map (·.immcs)) (p := pre.length) (b := b.immcs) (by simp [hp])
      have hjlt := hl.lt
      rw [← hf.code] at hjlt
      have hp1 : pre.length + 1 < g.length := by
        apply Classical.byContradiction
        intro hcon
        have : off (g.map (·.immcs)) (pre.length + 1) = (g.map (·.immcs)).flatten.length := by
          unfold off; rw [List.take_of_length_le (by simp; omega)]
        omega
      refine enter (pre.length + 1) g[pre.length+1] (by simp [hp1]) (by omega) ?_
      have := hf.graph.fall pre.length b x hp (by rw [getLast?_get hk1]; exact hxk) (by
        cases x with
        | inst i0 =>
          obtain ⟨op, d, f, sn⟩ := i0
          simp only [Immc.isJmp, decide_eq_false_iff_not]
          rintro rfl; exact hnj d f sn rfl
        | data _ => rfl
        | label _ _ _ => rfl) hp1
      simpa using this
    · have hjx : x.isJump = true := hk x (List.mem_of_getElem? hx) (by simp [htg])
      obtain ⟨q, d, y', h8, h9, h10, h11⟩ := hf.graph.jump pre.length b x nm hp (by rw [getLast?_get hk1]; exact hxk) hjx htg
      refine enter q d h8 ?_ h11
      have hd0 : 0 < d.immcs.length := (List.getElem?_eq_some_iff.1 h9).1
      have h12 := flatten_get (bl := g.map (·.immcs)) (p := q) (b := d.immcs) (by simp [h8]) hd0
      rw [h9, hf.code] at h12
      exact hu j _ nm y y' hy h12 hyl h10

example : ∃ g, controlFlow exKnown 9 = .ok g ∧ RSpec.KnownBranches exKnown ∧ RSpec.UniqueLabels exKnown ∧
    RSpec.LiveIn exKnown 0 4 ∧ g.length = 4 := by
  refine ⟨_, rfl, by unfold RSpec.KnownBranches; decide, RSpec.uniqueOk_unique (by decide), ?_, by decide⟩
  refine .thru (j := 8) rfl (by decide) ⟨_, rfl, Or.inr ⟨exL2, _, rfl, rfl, by decide⟩⟩ ?_
  refine .thru (j := 9) rfl (by decide) ⟨_, rfl, Or.inl ⟨rfl, by simp⟩⟩ ?_
  exact .read rfl (by decide)

/-- C41. For any meaning `sem` of the instructions (any function of the instruction's shape, the values it reads and
the rest of the machine state), the code before and after allocation, started at its beginning in the same state
with any register contents, is after every number of steps at the same place with the same state, or
both are stuck. Hypotheses beyond the English claim (hence `_partial`): those of C38 and that no write of a dead
register happens between other live ones unless it is the first write of a register that high. -/
theorem C41_allocation_preserves_behaviour_partial {Val St : Type} (sem : RSpec.Sem Val St)
    (code out : List Immc) (o nregs fuel : Nat) (qs qs' : List Liveseq)
    (h : allocFunction code o nregs qs fuel = .ok (out, qs'))
    (hlast : ∀ x, code.getLast? = some x → x.isLabel = false)
    (hu : RSpec.UniqueLabels code) (hr : RSpec.KnownBranches code ∨ RSpec.BackDead code) (hdef : RSpec.DefBefore code)
    (hwm : RSpec.WritesMatter code) (st : St) (regs regs' : Int → Val) (steps : Nat) :
    RSpec.seen (RSpec.run sem out ⟨0, regs', st⟩ steps) = RSpec.seen (RSpec.run sem code ⟨0, regs, st⟩ steps) := by
  obtain ⟨g, lv, al, h1, h2, h3, h4, h5⟩ := allocFunction_parts h
  have hf := controlFlow_flow hlast h1
  have hsafe := safe_of_alloc hf h2 h3 h5 h4 hu hr hdef hwm
  have hsim : Sim code al (⟨0, regs, st⟩ : RSpec.Mach Val St) ⟨0, regs', st⟩ := by
    refine ⟨rfl, rfl, ?_⟩
    intro u hl
    obtain ⟨k, x, hk, _⟩ := hdef 0 u hl
    omega
  rcases run_sim sem h4 hsafe hsim steps with ⟨a, b⟩ | ⟨m1, m1', a, b, c⟩
  · rw [a, b]
  · rw [a, b]; simp [RSpec.seen, c.pc, c.st]

example : (∃ res, allocFunction exLoop 0 8 (List.replicate 8 Liveseq.new) 9 = .ok res) ∧ RSpec.UniqueLabels exLoop ∧
    RSpec.BackDead exLoop ∧ RSpec.DefBefore exLoop ∧ RSpec.WritesMatter exLoop :=
  ⟨⟨_, rfl⟩, RSpec.uniqueOk_unique (by decide), RSpec.backOk_dead (t := exLoopTab) (by decide) (by decide),
    RSpec.defOk_before (t := exLoopTab) (by decide) (by decide), RSpec.matterOk_matter (t := exLoopTab) (by decide) (by decide)⟩

end Umlcc
