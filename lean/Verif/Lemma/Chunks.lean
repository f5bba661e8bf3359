import Verif.Lemma.GenBody
import Verif.Lemma.GenInvStmt
import Verif.Lemma.X64Body
import Verif.Spec.X64Run
/-!
Helper lemmas: the functions and objects of a translation unit in the code, from the generator through register allocation to the machine code.
-/
namespace Umlcc
namespace Gen
open Regalloc (startsExternal allocAll allocFunction genAllocated mapImmc)

/-- the code of a function -/
structure FuncChunk (n : Name) (c : List Immc) : Prop where
  eq : ∃ v i body l, c = .label .function v n :: .inst i :: (body ++ [.inst l]) ∧ i.op = .enter ∧ l.op = .leave ∧ ∀ x ∈ body, Body x

/-- an object with its initial value -/
structure VarChunk (c : List Immc) : Prop where
  eq : ∃ v n ds, c = .label .variable v n :: ds ∧ ∀ x ∈ ds, IsData x

def IsExt (c : List Immc) : Prop := (∃ n, FuncChunk n c) ∨ VarChunk c

theorem body_inner {x : Immc} (h : Body x) : startsExternal x = false ∧ X64.isLeave x = false := by
  cases x with
  | inst i => exact ⟨rfl, by simp only [X64.isLeave, decide_eq_false_iff_not]; exact h.2⟩
  | label t v n => cases h; exact ⟨rfl, rfl⟩
  | data d => cases h

theorem data_inner {x : Immc} (h : IsData x) : startsExternal x = false := by cases x <;> first | rfl | cases h

/-- begins with the label of a function or object, and has no other -/
theorem ext_head {c : List Immc} (h : IsExt c) : ∃ x xs, c = x :: xs ∧ startsExternal x = true ∧ ∀ y ∈ xs, startsExternal y = false := by
  rcases h with ⟨n, v, i, body, l, rfl, h1, h2, h3⟩ | ⟨v, n, ds, rfl, h⟩
  · refine ⟨_, _, rfl, rfl, ?_⟩
    intro y hy
    simp only [List.mem_cons, List.mem_append, List.not_mem_nil, or_false] at hy
    rcases hy with rfl | hy | rfl
    · rfl
    · exact (body_inner (h3 y hy)).1
    · rfl
  · exact ⟨_, _, rfl, rfl, fun y hy => data_inner (h y hy)⟩

/-! ### generator -/

theorem funcCode_chunk {f : Str} {t : DType} {b : SItems} {s s' : GState} {c : List Immc} (h : funcCode f t b s = .ok ((), c, s')) :
    ∃ hn : ∀ x ∈ f, x.toNat < 128, FuncChunk ⟨f, hn⟩ c ∧ s'.syms = (s.declareLabel f t).syms ∧ s'.tags = s.tags ∧ s'.mem = 0 ∧ s.lab ≤ s'.lab := by
  obtain ⟨name, ps, rt, pc, s1, bc, s2, h0, rfl, h1, h2, rfl, rfl⟩ := funcCode_ok h
  obtain ⟨a1, -, a2⟩ := paramsCode_em _ _ _ _ _ _ h1
  obtain ⟨b1, -, b2⟩ := items_body _ _ _ _ _ h2
  obtain ⟨hn, -, -⟩ := nameOf_ok h0
  have hn' : name.val = f := hn
  subst hn'
  refine ⟨name.2, ⟨.global, ⟨.enter, none, some (intOpe .quad s2.mem), none⟩, pc ++ bc ++ [labelAt (s.lab + 1)], ⟨.leave, none, some (intOpe .quad s2.mem), none⟩, ?_, rfl, rfl, ?_⟩, ?_, ?_, rfl, ?_⟩
  · simp only [List.append_assoc, List.cons_append, List.nil_append]; rfl
  · intro x hx
    simp only [List.mem_append, List.mem_cons, List.not_mem_nil, or_false] at hx
    rcases hx with (hx | hx) | rfl
    · exact a1 x hx
    · exact b1 x hx
    · exact body_label _
  · show s2.syms.tail = _
    rw [b2.syms, a2.syms]
    rfl
  · show s2.tags.tail = _
    rw [b2.tags, a2.tags]
    rfl
  · have h3 := a2.lab
    have h4 := b2.lab
    have h5 : (s.inFunc name.val (.func ps rt)).lab = s.lab + 1 := rfl
    show s.lab ≤ s2.lab
    omega

/-- some functions and objects -/
def Chunks (c : List Immc) : Prop := ∃ cs : List (List Immc), (∀ x ∈ cs, IsExt x) ∧ c = cs.flatten

theorem Chunks.append {a b : List Immc} (h : Chunks a) (k : Chunks b) : Chunks (a ++ b) := by
  obtain ⟨x, hx, rfl⟩ := h
  obtain ⟨y, hy, rfl⟩ := k
  exact ⟨x ++ y, fun z hz => (List.mem_append.1 hz).elim (hx z) (hy z), by simp⟩

theorem globalDecl_chunk {d : SDecl} {s s' : GState} {c : List Immc} (h : globalDecl d s = .ok ((), c, s')) :
    Chunks c ∧ ∃ n, whoName d.who s = .ok (n, [], s) ∧ s' = s.declareLabel n.1 d.dt := by
  simp only [globalDecl, bind_ok] at h
  obtain ⟨n, c0, s0, _, h0, ⟨_, c1, s1, _, h1, ⟨s2, c2, s3, c3, h2, h, rfl⟩, rfl⟩, rfl⟩ := h
  have h0' : c0 = [] ∧ s0 = s := by
    cases hw : d.who with
    | str i => rw [hw] at h0; cases h0; exact ⟨rfl, rfl⟩
    | ident m =>
      rw [hw] at h0
      exact ⟨(nameOf_ok h0).2.1, (nameOf_ok h0).2.2⟩
  obtain ⟨rfl, rfl⟩ := h0'
  simp only [defineLabel, modify_ok] at h1
  obtain ⟨rfl, hs⟩ := h1
  obtain ⟨rfl, rfl, rfl⟩ := get_ok.1 h2
  have e : s3 = s0.declareLabel n.1 d.dt := hs
  subst e
  simp only [List.nil_append]
  suffices hh : Chunks c3 ∧ s' = s0.declareLabel n.1 d.dt from ⟨hh.1, n, h0, hh.2⟩
  cases hy : lookup n.1 (s0.declareLabel n.1 d.dt).syms with
  | none => simp [hy, ub_ok] at h
  | some y =>
    simp only [hy] at h
    cases ho : y.dt.isObject
    · simp only [ho, Bool.not_false, if_true] at h
      obtain ⟨_, rfl, rfl⟩ := pure_ok.1 h
      exact ⟨⟨[], by simp, rfl⟩, rfl⟩
    · simp only [ho, Bool.not_true, Bool.false_eq_true, if_false] at h
      cases hi : d.init with
      | none =>
        simp only [hi] at h
        gm at h
        obtain ⟨rfl, rfl⟩ := h
        refine ⟨⟨[_], ?_, by simp; rfl⟩, rfl⟩
        intro x hx
        simp only [List.mem_singleton] at hx
        subst hx
        exact .inr ⟨_, _, _, rfl, by intro y hy; simp only [List.mem_singleton] at hy; subst hy; trivial⟩
      | some i =>
        simp only [hi] at h
        gm at h
        obtain ⟨c4, h4, rfl⟩ := h
        obtain ⟨e1, -, e2⟩ := globalInit_em _ _ _ _ _ _ h4
        refine ⟨⟨[_], ?_, by simp; rfl⟩, e2.symm⟩
        intro x hx
        simp only [List.mem_singleton] at hx
        subst hx
        exact .inr ⟨_, _, _, rfl, e1⟩

theorem globalDecls_chunk : ∀ {ds : List SDecl} {s s' : GState} {c : List Immc}, globalDecls ds s = .ok ((), c, s') → Chunks c
  | [], s, s', c, h => by
    obtain ⟨_, rfl, rfl⟩ := pure_ok.1 h
    exact ⟨[], by simp, rfl⟩
  | d :: ds, s, s', c, h => by
    simp only [globalDecls, bind_ok] at h
    obtain ⟨_, c1, s1, c2, h1, h2, rfl⟩ := h
    exact (globalDecl_chunk h1).1.append (globalDecls_chunk h2)

theorem ext_chunk {x : SExt} {s s' : GState} {c : List Immc} (h : ext x s = .ok ((), c, s')) : Chunks c := by
  cases x with
  | func f t b =>
    obtain ⟨hn, h1, -⟩ := funcCode_chunk h
    exact ⟨[c], fun x hx => by rw [List.mem_singleton] at hx; subst hx; exact .inl ⟨_, h1⟩, by simp⟩
  | decls ds => exact globalDecls_chunk h
  | tag n t =>
    obtain ⟨rfl, -⟩ := tagDecl_ok h
    exact ⟨[], by simp, rfl⟩

theorem unit_chunk : ∀ {u : List SExt} {s s' : GState} {c : List Immc}, unit u s = .ok ((), c, s') → Chunks c
  | [], s, s', c, h => by
    obtain ⟨_, rfl, rfl⟩ := pure_ok.1 h
    exact ⟨[], by simp, rfl⟩
  | x :: u, s, s', c, h => by
    simp only [unit, bind_ok] at h
    obtain ⟨_, c1, s1, c2, h1, h2, rfl⟩ := h
    exact (ext_chunk h1).append (unit_chunk h2)

/-! ### register allocation -/

theorem takeWhile_inner {xs ys : List Immc} (h : ∀ y ∈ xs, startsExternal y = false) (hy : ys = [] ∨ ∃ y zs, ys = y :: zs ∧ startsExternal y = true) :
    (xs ++ ys).takeWhile (fun x => !startsExternal x) = xs ∧ (xs ++ ys).dropWhile (fun x => !startsExternal x) = ys := by
  induction xs with
  | nil =>
    rcases hy with rfl | ⟨y, zs, rfl, hy⟩
    · exact ⟨rfl, rfl⟩
    · simp [hy]
  | cons x xs ih =>
    have hx := h x (by simp)
    obtain ⟨h1, h2⟩ := ih fun y hy => h y (by simp [hy])
    simp only [List.cons_append]
    rw [List.takeWhile_cons_of_pos (by simp [hx]), List.dropWhile_cons_of_pos (by simp [hx]), h1, h2]
    exact ⟨rfl, rfl⟩

theorem flatten_head {cs : List (List Immc)} (h : ∀ x ∈ cs, IsExt x) : cs.flatten = [] ∨ ∃ y zs, cs.flatten = y :: zs ∧ startsExternal y = true := by
  cases cs with
  | nil => exact .inl rfl
  | cons c cs =>
    obtain ⟨x, xs, rfl, hx, -⟩ := ext_head (h c (by simp))
    exact .inr ⟨x, xs ++ cs.flatten, rfl, hx⟩

theorem mapImmc_kind {al : List (Option Nat)} {x y : Immc} (h : mapImmc al x = .ok y) :
    (∀ i, x = .inst i → ∃ j, y = .inst j ∧ j.op = i.op) ∧ (∀ t v n, x = .label t v n → y = x) ∧ (Body x → Body y) := by
  cases x with
  | inst i =>
    simp only [mapImmc, Out.bind_eq_ok, Out.pure_eq, Out.ok.injEq] at h
    obtain ⟨f, -, s, -, d, -, rfl⟩ := h
    exact ⟨fun j hj => by cases hj; exact ⟨_, rfl, rfl⟩, by simp, fun hb => hb⟩
  | label t v n => cases h; exact ⟨by simp, fun _ _ _ _ => rfl, fun hb => hb⟩
  | data d => cases h; exact ⟨by simp, fun _ _ _ _ => rfl, fun hb => hb⟩

theorem genAllocated_append {al : List (Option Nat)} : ∀ {a b o : List Immc}, genAllocated al (a ++ b) = .ok o → ∃ x y, genAllocated al a = .ok x ∧ genAllocated al b = .ok y ∧ o = x ++ y
  | [], b, o, h => ⟨[], o, rfl, h, rfl⟩
  | i :: a, b, o, h => by
    simp only [List.cons_append, genAllocated, Out.bind_eq_ok, Out.pure_eq, Out.ok.injEq] at h
    obtain ⟨j, h1, js, h2, rfl⟩ := h
    obtain ⟨x, y, h3, h4, rfl⟩ := genAllocated_append h2
    exact ⟨j :: x, y, by simp [genAllocated, h1, h3], h4, rfl⟩

theorem genAllocated_body {al : List (Option Nat)} : ∀ {a o : List Immc}, genAllocated al a = .ok o → o.length = a.length ∧ ((∀ x ∈ a, Body x) → ∀ x ∈ o, Body x)
  | [], o, h => by cases h; exact ⟨rfl, fun _ => by simp⟩
  | i :: a, o, h => by
    simp only [genAllocated, Out.bind_eq_ok, Out.pure_eq, Out.ok.injEq] at h
    obtain ⟨j, h1, js, h2, rfl⟩ := h
    obtain ⟨h3, h4⟩ := genAllocated_body h2
    refine ⟨by simp [h3], ?_⟩
    intro hb x hx
    rcases List.mem_cons.1 hx with rfl | hx
    · exact (mapImmc_kind h1).2.2 (hb i (by simp))
    · exact h4 (fun y hy => hb y (by simp [hy])) x hx

theorem allocFunction_chunk {n : Name} {c : List Immc} (hc : FuncChunk n c) {off nregs fuel : Nat} {qs qs' : List Liveseq} {o : List Immc}
    (h : allocFunction c off nregs qs fuel = .ok (o, qs')) : FuncChunk n o ∧ o.length = c.length := by
  simp only [allocFunction, Out.bind_eq_ok, Out.pure_eq, Out.ok.injEq, Prod.mk.injEq] at h
  obtain ⟨g, -, lv, -, al, -, o', h1, q, -, rfl, -⟩ := h
  refine ⟨?_, (genAllocated_body h1).1⟩
  obtain ⟨v, i, body, l, rfl, e1, e2, e3⟩ := hc
  simp only [genAllocated, Out.bind_eq_ok, Out.pure_eq, Out.ok.injEq] at h1
  obtain ⟨x, h1, xs, ⟨y, h2, ys, h3, rfl⟩, rfl⟩ := h1
  obtain ⟨b, z, h4, h5, rfl⟩ := genAllocated_append h3
  simp only [genAllocated, Out.bind_eq_ok, Out.pure_eq, Out.ok.injEq] at h5
  obtain ⟨w, h5, -, rfl, rfl⟩ := h5
  rw [(mapImmc_kind h1).2.1 _ _ _ rfl]
  obtain ⟨i', rfl, hi⟩ := (mapImmc_kind h2).1 _ rfl
  obtain ⟨l', rfl, hl⟩ := (mapImmc_kind h5).1 _ rfl
  exact ⟨v, i', b, l', rfl, hi.trans e1, hl.trans e2, (genAllocated_body h4).2 e3⟩

theorem alloc_acc {nregs fuel : Nat} : ∀ {n : Nat} {acc : List Immc} {qs : List Liveseq} {off : Nat} {code out : List Immc} {qs' : List Liveseq},
    allocAll nregs fuel acc qs off n code = .ok (out, qs') → ∃ o, out = acc ++ o := by
  intro n
  induction n with
  | zero =>
    intro acc qs off code out qs' h
    cases code <;> simp [allocAll] at h
    exact ⟨[], by simp [h.1]⟩
  | succ n ih =>
    intro acc qs off code out qs' h
    cases code with
    | nil =>
      simp only [allocAll, Out.ok.injEq, Prod.mk.injEq] at h
      exact ⟨[], by simp [h.1]⟩
    | cons i rest =>
      simp only [allocAll] at h
      split at h
      · simp only [Out.bind_eq_ok] at h
        obtain ⟨⟨o, q⟩, -, h⟩ := h
        obtain ⟨o', rfl⟩ := ih h
        exact ⟨o ++ o', by simp⟩
      · obtain ⟨o', rfl⟩ := ih h
        exact ⟨_, List.append_assoc ..⟩
      · cases h

/-- register allocation of one external declaration or function -/
theorem alloc_step {nregs fuel : Nat} {out : List Immc} {qs' : List Liveseq} {d : List Immc} (hd : IsExt d) {r : List Immc}
    (hr : r = [] ∨ ∃ y zs, r = y :: zs ∧ startsExternal y = true) {acc : List Immc} {qs : List Liveseq} {off n : Nat}
    (h : allocAll nregs fuel acc qs off n (d ++ r) = .ok (out, qs')) : ∃ m, n = m + 1 ∧
      ((∃ g o q, FuncChunk g d ∧ allocFunction d off nregs qs fuel = .ok (o, q) ∧ allocAll nregs fuel (acc ++ o) q (off + d.length) m r = .ok (out, qs')) ∨
       (VarChunk d ∧ allocAll nregs fuel (acc ++ d) qs (off + d.length) m r = .ok (out, qs'))) := by
  obtain ⟨x, xs, rfl, hx, hxs⟩ := ext_head hd
  obtain ⟨e1, e2⟩ := takeWhile_inner hxs hr
  cases n with
  | zero => cases h
  | succ n =>
    refine ⟨n, rfl, ?_⟩
    simp only [List.cons_append, allocAll, e1, e2] at h
    rcases hd with ⟨g, hg⟩ | hv
    · have hg' := hg
      obtain ⟨v, i, body, l, e, -⟩ := hg
      cases e
      simp only [Out.bind_eq_ok] at h
      obtain ⟨⟨o, q⟩, h3, h4⟩ := h
      exact .inl ⟨g, o, q, hg', h3, h4⟩
    · have hv' := hv
      obtain ⟨v, i, ds, e, -⟩ := hv
      cases e
      exact .inr ⟨hv', h⟩

/-- where the code of a function is after register allocation -/
theorem alloc_split {nregs fuel : Nat} {f : Name} {c : List Immc} (hc : FuncChunk f c) {cs2 : List (List Immc)} (h2 : ∀ x ∈ cs2, IsExt x) {out : List Immc} {qs' : List Liveseq} :
    ∀ (cs1 : List (List Immc)) (_ : ∀ x ∈ cs1, IsExt x) {acc : List Immc} {qs : List Liveseq} {off n : Nat},
      allocAll nregs fuel acc qs off n (cs1.flatten ++ (c ++ cs2.flatten)) = .ok (out, qs') →
      ∃ os1 o o2 q1 q2, out = acc ++ (List.flatten os1 ++ (o ++ o2)) ∧ (List.flatten os1).length = cs1.flatten.length ∧ (∀ x ∈ os1, IsExt x) ∧ FuncChunk f o ∧
        allocFunction c (off + cs1.flatten.length) nregs q1 fuel = .ok (o, q2) := by
  intro cs1
  induction cs1 with
  | nil =>
    intro _ acc qs off n h
    simp only [List.flatten_nil, List.nil_append] at h
    obtain ⟨m, rfl, ⟨g, o, q, hg, h3, h4⟩ | ⟨hv, -⟩⟩ := alloc_step (.inl ⟨f, hc⟩) (flatten_head h2) h
    · obtain ⟨o2, rfl⟩ := alloc_acc h4
      exact ⟨[], o, o2, qs, q, by simp, rfl, by simp, (allocFunction_chunk hc h3).1, by simpa using h3⟩
    · obtain ⟨v, i, ds, rfl, -⟩ := hv
      obtain ⟨v', i', b, l, e, -⟩ := hc
      cases e
  | cons d cs1 ih =>
    intro h1 acc qs off n h
    have hd := h1 d (by simp)
    have h1' : ∀ x ∈ cs1, IsExt x := fun x hx => h1 x (by simp [hx])
    have hr : cs1.flatten ++ (c ++ cs2.flatten) = [] ∨ ∃ y zs, cs1.flatten ++ (c ++ cs2.flatten) = y :: zs ∧ startsExternal y = true := by
      have := flatten_head (cs := cs1 ++ c :: cs2) (by
        intro x hx
        simp only [List.mem_append, List.mem_cons] at hx
        rcases hx with hx | rfl | hx
        · exact h1' x hx
        · exact .inl ⟨f, hc⟩
        · exact h2 x hx)
      simpa using this
    rw [List.flatten_cons, List.append_assoc] at h
    obtain ⟨m, rfl, ⟨g, o, q, hg, h3, h4⟩ | ⟨hv, h4⟩⟩ := alloc_step hd hr h
    · obtain ⟨os1, o', o2, q1, q2, rfl, e1, e2, e3, e4⟩ := ih h1' h4
      obtain ⟨e5, e6⟩ := allocFunction_chunk hg h3
      refine ⟨o :: os1, o', o2, q1, q2, by simp, by simp [e1, e6], ?_, e3, ?_⟩
      · intro x hx
        rcases List.mem_cons.1 hx with rfl | hx
        · exact .inl ⟨g, e5⟩
        · exact e2 x hx
      · rw [List.flatten_cons, List.length_append, ← Nat.add_assoc]; exact e4
    · obtain ⟨os1, o', o2, q1, q2, rfl, e1, e2, e3, e4⟩ := ih h1' h4
      refine ⟨d :: os1, o', o2, q1, q2, by simp, by simp [e1], ?_, e3, ?_⟩
      · intro x hx
        rcases List.mem_cons.1 hx with rfl | hx
        · exact hd
        · exact e2 x hx
      · rw [List.flatten_cons, List.length_append, ← Nat.add_assoc]; exact e4

end Gen

namespace X86
open X64
open Gen (FuncChunk VarChunk IsExt Body IsData body_inner data_inner)
open Regalloc (startsExternal)

/-! ### machine code -/

/-- names of the labels defined -/
def itemLabels (l : List Item) : List Name := l.filterMap fun | .label _ _ n => some n | _ => none
def codeLabels (l : List Immc) : List Name := l.filterMap fun | .label _ _ n => some n | _ => none

theorem itemLabels_append (a b : List Item) : itemLabels (a ++ b) = itemLabels a ++ itemLabels b := List.filterMap_append ..
theorem codeLabels_append (a b : List Immc) : codeLabels (a ++ b) = codeLabels a ++ codeLabels b := List.filterMap_append ..
theorem itemLabels_inst (l : List XInst) : itemLabels (l.map .inst) = [] := by induction l <;> simp_all [itemLabels]

theorem mem_itemLabels {l : List Item} {n : Name} : n ∈ itemLabels l ↔ ∃ y ∈ l, isItemLabel n y = true := by
  simp only [itemLabels, List.mem_filterMap]
  constructor
  · rintro ⟨y, hy, h⟩
    refine ⟨y, hy, ?_⟩
    cases y <;> cases h
    simp [isItemLabel]
  · rintro ⟨y, hy, h⟩
    refine ⟨y, hy, ?_⟩
    cases y <;> simp [isItemLabel] at h
    rw [h]

theorem mem_codeLabels {l : List Immc} {n : Name} : n ∈ codeLabels l ↔ ∃ y ∈ l, RSpec.isLabelNamed n y = true := by
  simp only [codeLabels, List.mem_filterMap]
  constructor
  · rintro ⟨y, hy, h⟩
    refine ⟨y, hy, ?_⟩
    cases y <;> cases h
    simp [RSpec.isLabelNamed]
  · rintro ⟨y, hy, h⟩
    refine ⟨y, hy, ?_⟩
    cases y <;> simp [RSpec.isLabelNamed] at h
    rw [h]

theorem genItem_rest {x : Immc} {st st' : St} {cs : List Item} (h : genItem x st = .ok (cs, st')) :
    st'.rest = st.rest.tail ∧ nextAll st.qs = .ok st'.qs ∧ itemLabels cs = codeLabels [x] := by
  simp only [genItem, Out.bind_eq_ok, Out.pure_eq, Out.ok.injEq, Prod.mk.injEq] at h
  obtain ⟨⟨c, ev⟩, h1, q, h2, rfl, rfl⟩ := h
  refine ⟨rfl, h2, ?_⟩
  cases x with
  | inst i =>
    simp only [Out.bind_eq_ok, Out.ok.injEq, Prod.mk.injEq] at h1
    obtain ⟨⟨c', ev'⟩, -, rfl, -⟩ := h1
    exact itemLabels_inst _
  | label t v n => cases h1; rfl
  | data d => cases h1; rfl

theorem genItem_same {x : Immc} {st st' : St} {cs : List Item} (h : genItem x st = .ok (cs, st')) (hx : ∀ i, x ≠ .inst i) : st'.ev = st.ev := by
  simp only [genItem, Out.bind_eq_ok, Out.pure_eq, Out.ok.injEq, Prod.mk.injEq] at h
  obtain ⟨⟨c, ev⟩, h1, q, h2, rfl, rfl⟩ := h
  cases x with
  | inst i => exact absurd rfl (hx i)
  | label t v n => cases h1; rfl
  | data d => cases h1; rfl

theorem nextAllN_add {qs q q' : List Liveseq} : ∀ {a b : Nat}, nextAllN qs a = .ok q → nextAllN q b = .ok q' → nextAllN qs (a + b) = .ok q'
  | a, 0, h, k => by cases k; exact h
  | a, b + 1, h, k => by
    simp only [nextAllN, Out.bind_eq_ok] at k
    obtain ⟨r, k1, k2⟩ := k
    rw [← Nat.add_assoc, nextAllN, nextAllN_add h k1]
    exact k2

theorem nextAllN_one {qs q : List Liveseq} (h : nextAll qs = .ok q) : nextAllN qs 1 = .ok q := by
  show nextAllN qs 0 >>= nextAll = _
  exact h

theorem genBody_rest {l : Inst} (hl : l.op = .leave) {r : List Immc} : ∀ {body : List Immc} (_ : ∀ x ∈ body, Body x) {acc : List Item} {qs : List Liveseq} {ev : Nat} {cs : List Item} {st : St},
    genBody acc qs ev (body ++ .inst l :: r) = .ok (cs, st) →
      st.rest = .inst l :: r ∧ nextAllN qs body.length = .ok st.qs ∧ itemLabels cs = itemLabels acc ++ codeLabels body
  | [], _, acc, qs, ev, cs, st, h => by
    have e : isLeave (.inst l) = true := by simp [isLeave, hl]
    simp only [List.nil_append, genBody, e, if_true, Out.ok.injEq, Prod.mk.injEq] at h
    obtain ⟨rfl, rfl⟩ := h
    exact ⟨rfl, rfl, by simp [codeLabels]⟩
  | x :: body, hb, acc, qs, ev, cs, st, h => by
    have hx := hb x (by simp)
    have e := (body_inner hx).2
    simp only [List.cons_append, genBody, e, Bool.false_eq_true, if_false] at h
    have k : ∃ c st1, genItem x ⟨x :: (body ++ .inst l :: r), qs, ev⟩ = .ok (c, st1) ∧ genBody (acc ++ c) st1.qs st1.ev (body ++ .inst l :: r) = .ok (cs, st) := by
      cases x with
      | data d => cases hx
      | inst i =>
        simp only [Out.bind_eq_ok] at h
        obtain ⟨⟨c, st1⟩, h1, h2⟩ := h
        exact ⟨c, st1, h1, h2⟩
      | label t v n =>
        simp only [Out.bind_eq_ok] at h
        obtain ⟨⟨c, st1⟩, h1, h2⟩ := h
        exact ⟨c, st1, h1, h2⟩
    obtain ⟨c, st1, h1, h2⟩ := k
    obtain ⟨a1, a2, a3⟩ := genItem_rest h1
    obtain ⟨b1, b2, b3⟩ := genBody_rest hl (fun y hy => hb y (by simp [hy])) h2
    refine ⟨b1, nextAllN_succ a2 b2, ?_⟩
    rw [b3, itemLabels_append, a3, List.append_assoc, ← codeLabels_append]
    rfl

theorem genFunction_rest {n : Name} {o : List Immc} (ho : FuncChunk n o) {r : List Immc} {qs : List Liveseq} {ev : Nat} {cs : List Item} {st : St}
    (h : genFunction ⟨o ++ r, qs, ev⟩ = .ok (cs, st)) :
    st.rest = r ∧ st.ev = 0 ∧ nextAllN qs o.length = .ok st.qs ∧ itemLabels cs = codeLabels o ∧ ∃ v tl, cs = .label .function v n :: tl := by
  obtain ⟨v, i, body, l, rfl, hi, hl, hb⟩ := ho
  simp only [genFunction, List.cons_append, List.append_assoc, List.nil_append, Out.bind_eq_ok] at h
  obtain ⟨⟨lc, s1⟩, h1, ⟨hc, s2⟩, h2, ⟨bc, s3⟩, h3, h⟩ := h
  obtain ⟨a1, a2, a3⟩ := genItem_rest h1
  obtain ⟨b1, b2, b3⟩ := genItem_rest h2
  obtain ⟨c1, c2, c3⟩ := genBody_rest hl hb h3
  simp only [c1, Out.bind_eq_ok, Out.pure_eq, Out.ok.injEq, Prod.mk.injEq] at h
  obtain ⟨⟨tc, s4⟩, h4, rfl, rfl⟩ := h
  obtain ⟨d1, d2, d3⟩ := genItem_rest h4
  have hlc : lc = [.label .function v n] := by
    simp only [genItem, Out.bind_eq_ok, Out.pure_eq, Out.ok.injEq, Prod.mk.injEq] at h1
    obtain ⟨⟨c, ev⟩, e1, q, -, rfl, -⟩ := h1
    cases e1; rfl
  refine ⟨by rw [d1, c1]; rfl, rfl, ?_, ?_, ?_⟩
  · have e : (Immc.label .function v n :: .inst i :: (body ++ [.inst l])).length = (1 + 1 + body.length) + 1 := by simp; omega
    rw [e]
    exact nextAllN_add (nextAllN_add (nextAllN_add (nextAllN_one a2) (nextAllN_one b2)) c2) (nextAllN_one d2)
  · simp only [itemLabels_append, itemLabels_inst, a3, b3, c3, d3]
    simp [codeLabels, itemLabels]
  · subst hlc
    exact ⟨v, _, by simp only [List.append_assoc, List.cons_append, List.nil_append]; rfl⟩

theorem genVarData_rest {r : List Immc} (hr : r = [] ∨ ∃ y zs, r = y :: zs ∧ startsExternal y = true) : ∀ {ds : List Immc} (_ : ∀ x ∈ ds, IsData x) {acc : List Item} {qs : List Liveseq} {ev : Nat}
    {cs : List Item} {st : St}, genVarData acc qs ev (ds ++ r) = .ok (cs, st) → st.rest = r ∧ st.ev = ev ∧ nextAllN qs ds.length = .ok st.qs ∧ itemLabels cs = itemLabels acc ++ codeLabels ds
  | [], _, acc, qs, ev, cs, st, h => by
    rcases hr with rfl | ⟨y, zs, rfl, hy⟩
    · simp only [List.append_nil, genVarData, Out.ok.injEq, Prod.mk.injEq] at h
      obtain ⟨rfl, rfl⟩ := h
      exact ⟨rfl, rfl, rfl, by simp [codeLabels]⟩
    · have e : endsVariable y = true := by
        cases y with
        | label t v n => cases t <;> first | rfl | cases hy
        | _ => cases hy
      simp only [List.nil_append, genVarData, e, if_true, Out.ok.injEq, Prod.mk.injEq] at h
      obtain ⟨rfl, rfl⟩ := h
      exact ⟨rfl, rfl, rfl, by simp [codeLabels]⟩
  | x :: ds, hd, acc, qs, ev, cs, st, h => by
    have hx := hd x (by simp)
    cases x with
    | data d =>
      have e : endsVariable (.data d) = false := rfl
      simp only [List.cons_append, genVarData, e, Bool.false_eq_true, if_false, Out.bind_eq_ok] at h
      obtain ⟨⟨c, st1⟩, h1, h2⟩ := h
      obtain ⟨a1, a2, a3⟩ := genItem_rest h1
      have a4 := genItem_same h1 (by simp)
      obtain ⟨b1, b2, b3, b4⟩ := genVarData_rest hr (fun y hy => hd y (by simp [hy])) h2
      refine ⟨b1, b2.trans a4, nextAllN_succ a2 b3, ?_⟩
      rw [b4, itemLabels_append, a3, List.append_assoc, ← codeLabels_append]
      rfl
    | _ => cases hx

theorem genVariable_rest {o : List Immc} (ho : VarChunk o) {r : List Immc} (hr : r = [] ∨ ∃ y zs, r = y :: zs ∧ startsExternal y = true) {qs : List Liveseq} {ev : Nat} {cs : List Item} {st : St}
    (h : genVariable ⟨o ++ r, qs, ev⟩ = .ok (cs, st)) : st.rest = r ∧ st.ev = ev ∧ nextAllN qs o.length = .ok st.qs ∧ itemLabels cs = codeLabels o := by
  obtain ⟨v, n, ds, rfl, hd⟩ := ho
  simp only [genVariable, List.cons_append, Out.bind_eq_ok, Out.pure_eq, Out.ok.injEq, Prod.mk.injEq] at h
  obtain ⟨⟨lc, s1⟩, h1, ⟨dc, s2⟩, h2, rfl, rfl⟩ := h
  obtain ⟨a1, a2, a3⟩ := genItem_rest h1
  have a4 := genItem_same h1 (by simp)
  obtain ⟨b1, b2, b3, b4⟩ := genVarData_rest hr hd h2
  refine ⟨b1, b2.trans a4, nextAllN_succ a2 b3, ?_⟩
  rw [itemLabels_append, a3, b4]
  simp [codeLabels, itemLabels]

theorem gen_acc : ∀ {n : Nat} {acc : List Item} {st : St} {items : List Item}, generateLoop acc n st = .ok items → ∃ o, items = acc ++ o := by
  intro n
  induction n with
  | zero => intro acc st items h; cases h
  | succ n ih =>
    intro acc st items h
    simp only [generateLoop] at h
    split at h
    · cases h; exact ⟨[], by simp⟩
    · simp only [Out.bind_eq_ok] at h
      obtain ⟨⟨cs, st'⟩, -, h⟩ := h
      obtain ⟨o, rfl⟩ := ih h
      exact ⟨cs ++ o, by simp⟩
    · simp only [Out.bind_eq_ok] at h
      obtain ⟨⟨cs, st'⟩, -, h⟩ := h
      obtain ⟨o, rfl⟩ := ih h
      exact ⟨cs ++ o, by simp⟩
    · cases h
    · cases h

/-- where the machine code of a function is -/
theorem gen_split {f : Name} {o o2 : List Immc} (ho : FuncChunk f o) {items : List Item} : ∀ (os1 : List (List Immc)) (_ : ∀ x ∈ os1, IsExt x) {acc : List Item} {n : Nat} {qs : List Liveseq},
    generateLoop acc n ⟨os1.flatten ++ (o ++ o2), qs, 0⟩ = .ok items →
      ∃ P cs st Q qx, items = acc ++ (P ++ cs ++ Q) ∧ nextAllN qs os1.flatten.length = .ok qx ∧ genFunction ⟨o ++ o2, qx, 0⟩ = .ok (cs, st) ∧ itemLabels P = codeLabels os1.flatten := by
  intro os1
  induction os1 with
  | nil =>
    intro _ acc n qs h
    cases n with
    | zero => cases h
    | succ n =>
      have ho' := ho
      obtain ⟨v, i, body, l, rfl, -⟩ := ho
      simp only [List.flatten_nil, List.nil_append, List.cons_append, generateLoop, Out.bind_eq_ok] at h
      obtain ⟨⟨cs, st⟩, h1, h2⟩ := h
      obtain ⟨Q, rfl⟩ := gen_acc h2
      exact ⟨[], cs, st, Q, qs, by simp, rfl, h1, rfl⟩
  | cons d os1 ih =>
    intro h1 acc n qs h
    have hd := h1 d (by simp)
    have h1' : ∀ x ∈ os1, IsExt x := fun x hx => h1 x (by simp [hx])
    have hr : os1.flatten ++ (o ++ o2) = [] ∨ ∃ y zs, os1.flatten ++ (o ++ o2) = y :: zs ∧ startsExternal y = true := by
      rcases Gen.flatten_head h1' with e | ⟨y, zs, e, hy⟩
      · obtain ⟨x, xs, rfl, hx, -⟩ := Gen.ext_head (.inl ⟨f, ho⟩ : IsExt o)
        exact .inr ⟨x, xs ++ o2, by rw [e]; rfl, hx⟩
      · exact .inr ⟨y, zs ++ (o ++ o2), by rw [e]; rfl, hy⟩
    rw [List.flatten_cons, List.append_assoc] at h
    cases n with
    | zero => cases h
    | succ n =>
      have k : ∃ cs st, generateLoop (acc ++ cs) n st = .ok items ∧ st.rest = os1.flatten ++ (o ++ o2) ∧ st.ev = 0 ∧ nextAllN qs d.length = .ok st.qs ∧ itemLabels cs = codeLabels d := by
        rcases hd with ⟨g, hg⟩ | hv
        · have hg' := hg
          obtain ⟨v, i, body, l, rfl, -⟩ := hg
          simp only [List.cons_append, generateLoop, Out.bind_eq_ok] at h
          obtain ⟨⟨cs, st⟩, h2, h3⟩ := h
          obtain ⟨e1, e2, e3, e4, -⟩ := genFunction_rest hg' (r := os1.flatten ++ (o ++ o2)) h2
          exact ⟨cs, st, h3, e1, e2, e3, e4⟩
        · have hv' := hv
          obtain ⟨v, i, ds, rfl, -⟩ := hv
          simp only [List.cons_append, generateLoop, Out.bind_eq_ok] at h
          obtain ⟨⟨cs, st⟩, h2, h3⟩ := h
          obtain ⟨e1, e2, e3, e4⟩ := genVariable_rest hv' hr h2
          exact ⟨cs, st, h3, e1, e2, e3, e4⟩
      obtain ⟨cs, ⟨rest, q, ev⟩, h3, e1, e2, e3, e4⟩ := k
      dsimp only at e1 e2 e3
      subst e1 e2
      obtain ⟨P, cs', st', Q, qx, rfl, f1, f2, f3⟩ := ih h1' h3
      refine ⟨cs ++ P, cs', st', Q, qx, by simp, ?_, f2, ?_⟩
      · rw [List.flatten_cons, List.length_append]
        exact nextAllN_add e3 f1
      · rw [itemLabels_append, e4, f3, List.flatten_cons, codeLabels_append]

end X86
end Umlcc
