import Verif.Lemma.Layout
/-!
C50: data of objects with static storage.
-/
namespace Umlcc
namespace Gen
open Lay (leaves images object assembled tagsOf literals)

/-- What C50 asks: the code for a declaration outside functions is the label of the object and directives that assemble to the given bytes. -/
def Static (d : SDecl) (s : GState) (n : Name) (bs : List UInt8) : Prop :=
  ∃ ds s', globalDecl d s = .ok ((), .label .variable .global n :: ds.map .data, s') ∧ assembled ds = bs

/-- C50 in full, for objects not declared before: without an initialiser as many zeros as the type has bytes; with one the bytes of its parts at their
places in the type, and zeros between them. -/
def C50_full : Prop := ∀ (n : Name) (t : DType) (s : GState), t.isObject = true → canDefine n.1 s.syms = true →
  Static ⟨.ident n.1, t, none⟩ s n (List.replicate t.nbytes 0) ∧
  ∀ i ls ps, leaves (tagsOf s.tags) i t 0 = some ls → images ls = some ps → Static ⟨.ident n.1, t, some i⟩ s n (object t.nbytes ps)

theorem lookup_define {n : Str} {x : α} : ∀ scs : List (List (Str × α)), lookup n (define n x scs) = some x
  | [] => by simp [define, lookup]
  | sc :: scs => by simp [define, lookup]

/-- a declaration of an object, up to its initialiser -/
theorem globalDecl_run {w : SWho} {n : Name} {t : DType} {i : Option SInit} {s : GState} (hn : whoName w s = .ok (n, [], s)) (ho : t.isObject = true)
    (hc : canDefine n.1 s.syms = true) :
    globalDecl ⟨w, t, i⟩ s = pre [.label .variable .global n] ((match i with
      | none => emit (.data (.zero ⟨.int, t.nbytes⟩))
      | some i => globalInit i t) { s with syms := define n.1 ⟨.label, t⟩ s.syms }) := by
  have h1 : defineLabel n.1 t s = .ok ((), [], { s with syms := define n.1 ⟨.label, t⟩ s.syms }) := by
    simp only [defineLabel, modify_run, hc, if_true]
  rw [globalDecl, bind_run hn, pre_nil, bind_run h1, pre_nil, get_bind]
  simp only [lookup_define, ho, Bool.not_true, Bool.false_eq_true, if_false, emit_bind]
  cases i <;> rfl

theorem whoName_ident (n : Name) (s : GState) : whoName (.ident n.1) s = .ok (n, [], s) := by
  obtain ⟨n, hn⟩ := n
  exact dif_pos hn

theorem static_init {w : SWho} {n : Name} {t : DType} {s : GState} (hn : whoName w s = .ok (n, [], s)) (ho : t.isObject = true) (hc : canDefine n.1 s.syms = true) {i : SInit}
    {ls : List (Nat × Lay.Leaf)} {ps : List (Nat × List UInt8)} (h : leaves (tagsOf s.tags) i t 0 = some ls) (hp : images ls = some ps) (hl : literals i = true) :
    Static ⟨w, t, some i⟩ s n (object t.nbytes ps) := by
  obtain ⟨ds, h1, h2, h3, -⟩ := Lay.globalInit_emits { s with syms := define n.1 ⟨.label, t⟩ s.syms } i t 0 ls ps h hp hl
  refine ⟨ds, { s with syms := define n.1 ⟨.label, t⟩ s.syms }, ?_, ?_⟩
  · refine (globalDecl_run hn ho hc).trans ?_
    show pre _ (globalInit i t _) = _
    rw [h1, pre_mk]
    rfl
  · have := h3.object
    rw [Nat.zero_add, Nat.zero_add] at h2
    rwa [h2] at this

/-- C50 for initialisers whose values are integer literals with casts that may be merged into one, and strings. Missing: other constant expressions
and casts of casts, for which it fails. -/
theorem C50_data_partial (n : Name) (t : DType) (s : GState) (ho : t.isObject = true) (hc : canDefine n.1 s.syms = true) :
    Static ⟨.ident n.1, t, none⟩ s n (List.replicate t.nbytes 0) ∧
    ∀ i ls ps, leaves (tagsOf s.tags) i t 0 = some ls → images ls = some ps → literals i = true → Static ⟨.ident n.1, t, some i⟩ s n (object t.nbytes ps) := by
  refine ⟨⟨[.zero ⟨.int, t.nbytes⟩], { s with syms := define n.1 ⟨.label, t⟩ s.syms }, ?_, by simp [assembled, Lay.directive]⟩, fun i ls ps h hp hl => static_init (whoName_ident n s) ho hc h hp hl⟩
  rw [globalDecl_run (whoName_ident n s) ho hc]
  rfl

/-- C50 for string literals: the array behind a string literal holds its bytes. -/
theorem C50_string (id : Int) (b : List UInt8) (s : GState) (hc : canDefine (stringName id).1 s.syms = true) :
    Static ⟨.str id, .arr .char b.length, some (.str (.arr .char b.length) b)⟩ s (stringName id) b := by
  have h := static_init (w := .str id) (n := stringName id) (t := .arr .char b.length) (s := s) (i := .str (.arr .char b.length) b) (ls := [(0, .bytes b)]) (ps := [(0, b)])
    rfl rfl hc (by simp [leaves]) rfl rfl
  have e : object (DType.arr .char b.length).nbytes [(0, b)] = b := by
    have := (Lay.Spells.one (o := 0) (bs := b)).object
    rw [show (DType.arr .char b.length).nbytes = b.length by simp [DType.nbytes]]
    exact this.symm
  rwa [e] at h

theorem layoutLoop_ordered : ∀ {ms ms' : Members} {nb al nb' al' size : Nat}, DType.layoutLoop ms nb al = .ok (ms', nb', al') → nb' ≤ size →
    Lay.ordered ms' nb size = true ∧ nb ≤ nb' ∧ (nb = 0 → ms ≠ .nil → Lay.atStart ms' = true)
  | .nil, ms', nb, al, nb', al', size, h, hs => by
    simp only [DType.layoutLoop, Out.ok.injEq, Prod.mk.injEq] at h
    obtain ⟨rfl, rfl, rfl⟩ := h
    simp [Lay.ordered, hs]
  | .cons n t o ms, ms', nb, al, nb', al', size, h, hs => by
    simp only [DType.layoutLoop, Out.bind_eq_ok, DType.minMultipleOf] at h
    obtain ⟨off, h1, ⟨ms1, nb1, al1⟩, h2, h3⟩ := h
    cases h3
    split at h1 <;> cases h1
    rename_i ha
    obtain ⟨k1, k2, -⟩ := layoutLoop_ordered h2 hs
    have hle : nb ≤ (nb + t.alignment - 1) / t.alignment * t.alignment := by
      have h3 := Nat.div_add_mod (nb + t.alignment - 1) t.alignment
      have h4 := Nat.mod_lt (nb + t.alignment - 1) (Nat.pos_of_ne_zero ha)
      rw [Nat.mul_comm] at h3
      omega
    refine ⟨by simp only [Lay.ordered, k1, Bool.and_true, decide_eq_true_eq]; exact hle, by show nb ≤ nb1; omega, ?_⟩
    rintro rfl -
    have : (0 + t.alignment - 1) / t.alignment = 0 := Nat.div_eq_of_lt (by omega)
    simp only [Lay.atStart, this, Nat.zero_mul, beq_self_eq_true]

/-- The structures the compiler lays out are as `structOf` expects. -/
theorem C50_layout_fits (ms : Members) (h0 : ms ≠ .nil) (ms' : Members) (b a : Nat) (h : DType.newUnnamedStruct ms = .ok (.ustruct ms' b a))
    (tags : Str → Option (Members × Nat)) : Lay.structOf tags (.ustruct ms' b a) = some (ms', b) := by
  simp only [DType.newUnnamedStruct, Out.bind_eq_ok, DType.minMultipleOf] at h
  obtain ⟨⟨ms1, nb, al⟩, h1, b1, h2, h3⟩ := h
  split at h2 <;> cases h2
  rename_i ha
  dsimp only at ha
  cases h3
  have hle : nb ≤ (nb + al - 1) / al * al := by
    have h3 := Nat.div_add_mod (nb + al - 1) al
    have h4 := Nat.mod_lt (nb + al - 1) (Nat.pos_of_ne_zero ha)
    rw [Nat.mul_comm] at h3
    omega
  obtain ⟨k1, -, k3⟩ := layoutLoop_ordered h1 hle
  simp [Lay.structOf, k1, k3 rfl h0]

/-- `struct { char c; int x[2]; char d; } g[2] = {{1, {2, 3}, 4}, {5, {6}}};` and its 32 bytes -/
def padded : DType := .ustruct (.cons [99] .char 0 (.cons [120] (.arr .int 2) 4 (.cons [100] .char 12 .nil))) 16 4

private def num (v : Int) : SExpr := .ilit .int ⟨.int, v⟩
private def chr (v : Int) : SExpr := .un .cast .char (num v)

def paddedInit : SInit :=
  .list (.cons (.list (.cons (.expr (chr 1)) (.cons (.list (.cons (.expr (num 2)) (.cons (.expr (num 3)) .nil))) (.cons (.expr (chr 4)) .nil))))
    (.cons (.list (.cons (.expr (chr 5)) (.cons (.list (.cons (.expr (num 6)) (.cons (.expr (num 0)) .nil))) (.cons (.expr (chr 0)) .nil)))) .nil))

example : (DType.arr padded 2).isObject = true ∧ canDefine [103] initial.syms = true ∧ literals paddedInit = true ∧
    ∃ ls ps, leaves (tagsOf initial.tags) paddedInit (.arr padded 2) 0 = some ls ∧ images ls = some ps ∧
      object 32 ps = [1, 0, 0, 0, 2, 0, 0, 0, 3, 0, 0, 0, 4, 0, 0, 0, 5, 0, 0, 0, 6, 0, 0, 0, 0, 0, 0, 0, 0, 0, 0, 0] := by
  refine ⟨by decide, by decide, by decide, _, _, rfl, rfl, by decide⟩

/-- C50 fails: `int x = -1;` reads through NULL. -/
theorem C50_not_literal_violated : ¬ C50_full := by
  intro h
  obtain ⟨ds, s', h1, -⟩ := (h ⟨[120], by decide⟩ .int initial rfl rfl).2 (.expr (.un .neg .int (num 1))) _ _ rfl rfl
  have h2 : globalDecl ⟨.ident [120], .int, some (.expr (.un .neg .int (num 1)))⟩ initial = .ub := by decide +kernel
  rw [h2] at h1
  cases h1

/-- C50 fails: `int x = (char)300;` makes `x` 300 instead of 44. -/
theorem C50_casts_violated : ¬ C50_full := by
  intro h
  obtain ⟨ds, s', h1, h2⟩ := (h ⟨[120], by decide⟩ .int initial rfl rfl).2 (.expr (.un .cast .int (chr 300))) _ _ rfl rfl
  have h3 : ∃ s', globalDecl ⟨.ident [120], .int, some (.expr (.un .cast .int (chr 300)))⟩ initial =
      .ok ((), .label .variable .global ⟨[120], by decide⟩ :: [IData.long ⟨.int, 300⟩].map .data, s') := ⟨_, rfl⟩
  obtain ⟨s2, h3⟩ := h3
  rw [h3] at h1
  simp only [Out.ok.injEq, Prod.mk.injEq, List.cons.injEq, true_and] at h1
  have h4 : ds = [IData.long ⟨.int, 300⟩] := by
    have := (List.map_inj_right (f := Immc.data) (fun x y h => by cases h; rfl)).1 h1.1
    exact this.symm
  subst h4
  revert h2
  decide

end Gen
end Umlcc
