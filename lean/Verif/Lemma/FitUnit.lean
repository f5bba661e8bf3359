import Verif.Lemma.TidyUnit
import Verif.Lemma.FitInst
/-!
Machine code is generated for all that is generated and allocated for good translation units (helper lemmas for C74).
-/
namespace Umlcc
namespace Tidy
open Gen (GState funcCode IsExt FuncChunk VarChunk)
open X64
open RSpec (reads writes opeRegs rename renameOpe)
open X86 (nextAllN nextAllN_succ nextAllN_add nextAllN_at nextAllN_one)
open Regalloc (phys)

/-! ### the sequences of intervals -/

theorem next_keep {q q' : Liveseq} (h : q.next = .ok q') : q'.lives = q.lives ∧ q'.index = q.index + 1 := by
  unfold Liveseq.next at h
  dsimp only at h
  repeat' split at h
  all_goals first | cases h; exact ⟨rfl, rfl⟩ | cases h

theorem nextN_keep : ∀ {n : Nat} {q q' : Liveseq}, q.nextN n = .ok q' → q'.lives = q.lives ∧ q'.index = q.index + n
  | 0, q, q', h => by cases h; exact ⟨rfl, rfl⟩
  | n + 1, q, q', h => by
    simp only [Liveseq.nextN, Out.bind_eq_ok] at h
    obtain ⟨q1, h1, h2⟩ := h
    obtain ⟨a, b⟩ := nextN_keep h1
    obtain ⟨c, d⟩ := next_keep h2
    exact ⟨c.trans a, by omega⟩

theorem isAlive_true {q : Liveseq} (h : q.isAlive = .ok true) : ∃ l ∈ q.lives, l.first ≤ q.index ∧ q.index < l.last := by
  unfold Liveseq.isAlive at h
  dsimp only at h
  split at h
  · cases h
  · split at h
    · cases h
    · rename_i l hl
      exact ⟨l, List.mem_of_getElem? hl, by simpa using h⟩

theorem nextAll_total : ∀ qs : List Liveseq, ∃ qs', nextAll qs = .ok qs'
  | [] => ⟨[], rfl⟩
  | q :: qs => by
    obtain ⟨q', h⟩ := Plain.next_total q
    obtain ⟨qs', g⟩ := nextAll_total qs
    exact ⟨q' :: qs', by simp [nextAll, h, g]⟩

theorem nextAllN_total (qs : List Liveseq) : ∀ n, ∃ qs', nextAllN qs n = .ok qs'
  | 0 => ⟨qs, rfl⟩
  | n + 1 => by
    obtain ⟨q, h⟩ := nextAllN_total qs n
    obtain ⟨q', g⟩ := nextAll_total q
    exact ⟨q', by simp [nextAllN, h, g]⟩

/-! ### the driver -/

/-- all instructions can be translated -/
def Ready (qs : List Liveseq) (out : List Immc) : Prop :=
  ∀ (i : Nat) (x : Inst), out[i]? = some (.inst x) → ∀ qn, nextAllN qs i = .ok qn → ∀ ev, ∃ r, genInst qn ev x = .ok r

theorem Ready.drop {qs q : List Liveseq} {a b : List Immc} (h : Ready qs (a ++ b)) (hq : nextAllN qs a.length = .ok q) : Ready q b := by
  intro i x hx qn hn
  refine h (a.length + i) x ?_ qn (nextAllN_add hq hn)
  rw [List.getElem?_append_right (by omega)]
  simpa using hx

theorem Ready.take {qs : List Liveseq} {a b : List Immc} (h : Ready qs (a ++ b)) : Ready qs a := by
  intro i x hx qn hn
  refine h i x ?_ qn hn
  rw [List.getElem?_append_left (List.getElem?_eq_some_iff.1 hx).1]
  exact hx

theorem Ready.tail {qs q : List Liveseq} {x : Immc} {b : List Immc} (h : Ready qs (x :: b)) (hq : nextAll qs = .ok q) : Ready q b :=
  Ready.drop (a := [x]) h (nextAllN_one hq)

theorem genItem_ok {x : Immc} {xs : List Immc} {qs : List Liveseq} (h : Ready qs (x :: xs)) (rest : List Immc) (ev : Nat) :
    ∃ cs ev' q, genItem x ⟨rest, qs, ev⟩ = .ok (cs, ⟨rest.tail, q, ev'⟩) ∧ nextAll qs = .ok q := by
  obtain ⟨q, hq⟩ := nextAll_total qs
  cases x with
  | inst i =>
    obtain ⟨⟨c, ev'⟩, hc⟩ := h 0 i rfl qs rfl ev
    exact ⟨c.map X64.Item.inst, ev', q, by simp [genItem, hc, hq], hq⟩
  | label t v n => exact ⟨_, ev, q, by simp [genItem, hq]; rfl, hq⟩
  | data d => exact ⟨_, ev, q, by simp [genItem, hq]; rfl, hq⟩

theorem genBody_ok {l : Inst} (hl : l.op = .leave) {r : List Immc} : ∀ {body : List Immc} (_ : ∀ x ∈ body, Gen.Body x) {acc : List X64.Item} {qs : List Liveseq} {ev : Nat},
    Ready qs (body ++ [.inst l]) → ∃ cs st, genBody acc qs ev (body ++ .inst l :: r) = .ok (cs, st) ∧ Ready st.qs [.inst l]
  | [], _, acc, qs, ev, h => by
    have e : isLeave (.inst l) = true := by simp [isLeave, hl]
    exact ⟨acc, ⟨.inst l :: r, qs, ev⟩, by simp only [List.nil_append, genBody, e, if_true], h⟩
  | x :: body, hb, acc, qs, ev, h => by
    have hx := hb x (by simp)
    have e := (Gen.body_inner hx).2
    obtain ⟨c, ev', q, h1, h2⟩ := genItem_ok h (x :: (body ++ .inst l :: r)) ev
    obtain ⟨cs, st, h3, h4⟩ := genBody_ok hl (r := r) (fun y hy => hb y (by simp [hy])) (acc := acc ++ c) (qs := q) (ev := ev') (h.tail h2)
    refine ⟨cs, st, ?_, h4⟩
    simp only [List.cons_append, genBody, e, Bool.false_eq_true, if_false]
    cases x with
    | data d => cases hx
    | inst i => simp only [h1, Out.ok_bind, h3]
    | label t v n => simp only [h1, Out.ok_bind, h3]

theorem genFunction_ok {n : Name} {o : List Immc} (ho : FuncChunk n o) (r : List Immc) {qs : List Liveseq} (h : Ready qs o) : ∃ cs st, genFunction ⟨o ++ r, qs, 0⟩ = .ok (cs, st) := by
  obtain ⟨v, i, body, l, rfl, hi, hl, hb⟩ := ho
  obtain ⟨c1, e1, q1, h1, k1⟩ := genItem_ok h (.label .function v n :: .inst i :: (body ++ .inst l :: r)) 0
  have r1 := h.tail k1
  obtain ⟨c2, e2, q2, h2, k2⟩ := genItem_ok r1 (.inst i :: (body ++ .inst l :: r)) e1
  have r2 := r1.tail k2
  obtain ⟨c3, st, h3, r3⟩ := genBody_ok hl (r := r) hb (acc := []) (ev := e2) r2
  obtain ⟨h4, -, -⟩ := X86.genBody_rest hl hb h3
  obtain ⟨c5, e5, q5, h5, -⟩ := genItem_ok r3 st.rest st.ev
  simp only [List.tail_cons] at h1 h2
  simp only [genFunction, List.cons_append, List.append_assoc, List.nil_append, h1, h2, h3, h4, Out.ok_bind]
  obtain ⟨rest, q, ev⟩ := st
  dsimp only at h4 h5
  subst h4
  simp only [h5, Out.ok_bind]
  exact ⟨_, _, rfl⟩

theorem genVarData_ok {r : List Immc} (hr : r = [] ∨ ∃ y zs, r = y :: zs ∧ Regalloc.startsExternal y = true) : ∀ {ds : List Immc} (_ : ∀ x ∈ ds, Gen.IsData x) (acc : List X64.Item) (qs : List Liveseq) (ev : Nat),
    ∃ cs st, genVarData acc qs ev (ds ++ r) = .ok (cs, st)
  | [], _, acc, qs, ev => by
    rcases hr with rfl | ⟨y, zs, rfl, hy⟩
    · exact ⟨_, _, rfl⟩
    · have : endsVariable y = true := by
        cases y with
        | label t v n => cases t <;> first | rfl | cases hy
        | _ => cases hy
      exact ⟨_, _, by simp only [List.nil_append, genVarData, this, if_true]; rfl⟩
  | x :: ds, hd, acc, qs, ev => by
    have hx := hd x (by simp)
    cases x with
    | data d =>
      obtain ⟨q, hq⟩ := nextAll_total qs
      obtain ⟨cs, st, h⟩ := genVarData_ok hr (ds := ds) (fun y hy => hd y (by simp [hy])) (acc ++ [X64.Item.data d]) q ev
      exact ⟨cs, st, by simp [genVarData, endsVariable, genItem, hq, h]⟩
    | _ => cases hx

theorem genVariable_ok {o : List Immc} (ho : VarChunk o) {r : List Immc} (hr : r = [] ∨ ∃ y zs, r = y :: zs ∧ Regalloc.startsExternal y = true) (qs : List Liveseq) (ev : Nat) :
    ∃ cs st, genVariable ⟨o ++ r, qs, ev⟩ = .ok (cs, st) := by
  obtain ⟨v, n, ds, rfl, hd⟩ := ho
  obtain ⟨q, hq⟩ := nextAll_total qs
  obtain ⟨cs, st, h⟩ := genVarData_ok hr hd [] q ev
  exact ⟨_, st, by simp [genVariable, genItem, hq, h]; rfl⟩

theorem generateLoop_ok : ∀ (os : List (List Immc)) (_ : ∀ x ∈ os, IsExt x) {qs : List Liveseq} (_ : Ready qs os.flatten) (acc : List X64.Item) {n : Nat} (_ : os.flatten.length < n),
    ∃ items, generateLoop acc n ⟨os.flatten, qs, 0⟩ = .ok items
  | [], _, qs, _, acc, n, hn => by
    obtain ⟨n, rfl⟩ : ∃ m, n = m + 1 := ⟨n - 1, by omega⟩
    exact ⟨acc, rfl⟩
  | o :: os, ho, qs, h, acc, n, hn => by
    obtain ⟨n, rfl⟩ : ∃ m, n = m + 1 := ⟨n - 1, by omega⟩
    have hos : ∀ x ∈ os, IsExt x := fun x hx => ho x (by simp [hx])
    have hr := Gen.flatten_head (cs := os) hos
    have hne : 0 < o.length := by
      obtain ⟨x, xs, rfl, -⟩ := Gen.ext_head (ho o (by simp))
      simp
    rw [List.flatten_cons, List.length_append] at hn
    rw [List.flatten_cons] at h ⊢
    have k : ∃ cs st, generateLoop acc (n + 1) ⟨o ++ os.flatten, qs, 0⟩ = generateLoop (acc ++ cs) n st ∧ st.rest = os.flatten ∧ st.ev = 0 ∧ nextAllN qs o.length = .ok st.qs := by
      rcases ho o (by simp) with ⟨g, hg⟩ | hv
      · obtain ⟨cs, st, h1⟩ := genFunction_ok hg os.flatten h.take
        obtain ⟨e1, e2, e3, -, -⟩ := X86.genFunction_rest hg h1
        refine ⟨cs, st, ?_, e1, e2, e3⟩
        obtain ⟨v, i, body, l, rfl, -⟩ := hg
        simp only [List.cons_append, generateLoop] at h1 ⊢
        simp only [h1, Out.ok_bind]
      · obtain ⟨cs, st, h1⟩ := genVariable_ok hv hr qs 0
        obtain ⟨e1, e2, e3, -⟩ := X86.genVariable_rest hv hr h1
        refine ⟨cs, st, ?_, e1, e2, e3⟩
        obtain ⟨v, i, ds, rfl, -⟩ := hv
        simp only [List.cons_append, generateLoop] at h1 ⊢
        simp only [h1, Out.ok_bind]
    obtain ⟨cs, ⟨rest, q, ev⟩, e, e1, e2, e3⟩ := k
    dsimp only at e1 e2 e3
    subst e1 e2
    rw [e]
    exact generateLoop_ok os hos (h.drop e3) _ (by omega)

/-! ### calls -/

/-- few enough registers are in use -/
def Few (P : Nat → Prop) (d : Option Ope) : Prop :=
  (d = none → ∀ r, ¬ P r) ∧ ∀ s id u, d = some (.reg s id u) → ∀ rs : List Nat, rs.Nodup → (∀ r ∈ rs, P r ∧ (r : Int) ≠ id) → rs.length ≤ 5

theorem Few.mono {P Q : Nat → Prop} {d : Option Ope} (h : Few P d) (hpq : ∀ r, Q r → P r) : Few Q d :=
  ⟨fun hd r hr => h.1 hd r (hpq r hr), fun s id u e rs h1 h2 => h.2 s id u e rs h1 fun r hr => ⟨hpq r (h2 r hr).1, (h2 r hr).2⟩⟩

/-- the register is in use at the line -/
def Used (qs : List Liveseq) (i r : Nat) : Prop := ∃ q l, qs[r]? = some q ∧ l ∈ q.lives ∧ l.first ≤ i ∧ i < l.last

theorem evacPairs_ok {s : Sfx} {id : Int} {u : Bool} : ∀ {ks : List Int} {n : Nat}, (∀ k ∈ ks, 0 ≤ k ∧ k < 8) → n + (ks.filter (fun k => decide (k ≠ id))).length ≤ 5 →
    ∃ ps, evacPairs (some (.reg s id u)) n ks = .ok ps
  | [], n, _, _ => ⟨[], rfl⟩
  | k :: ks, n, hk, hn => by
    simp only [evacPairs, deref, regField, Out.ok_bind]
    by_cases e : k = id
    · rw [if_pos e]
      refine evacPairs_ok (fun x hx => hk x (by simp [hx])) ?_
      simpa [List.filter_cons, e] using hn
    · rw [if_neg e]
      rw [List.filter_cons, if_pos (by simpa using e), List.length_cons] at hn
      obtain ⟨ps, hp⟩ := evacPairs_ok (s := s) (id := id) (u := u) (ks := ks) (n := n + 1) (fun x hx => hk x (by simp [hx])) (by omega)
      obtain ⟨r, hr⟩ := callerAt_ok (hk k (by simp))
      have hc : ∃ r, calleeAt n = .ok r := by
        have : n = 0 ∨ n = 1 ∨ n = 2 ∨ n = 3 ∨ n = 4 := by omega
        rcases this with rfl | rfl | rfl | rfl | rfl <;> exact ⟨_, rfl⟩
      obtain ⟨r', hr'⟩ := hc
      exact ⟨_, by simp only [hr, hr', hp, Out.ok_bind]; rfl⟩

theorem flags_total : ∀ qs : List Liveseq, ∃ bs : List Bool, qs.map Liveseq.isAlive = bs.map Out.ok ∧ bs.length = qs.length
  | [] => ⟨[], rfl, rfl⟩
  | q :: qs => by
    obtain ⟨bs, e, e'⟩ := flags_total qs
    obtain ⟨b, hb⟩ := Plain.isAlive_total q
    exact ⟨b :: bs, by simp [hb, e], by simp [e']⟩

theorem evac_ok {qs qn : List Liveseq} {i : Nat} (h8 : qs.length = 8) (h0 : ∀ q ∈ qs, q.index = 0) (hn : nextAllN qs i = .ok qn) {d : Option Ope} (hd : d.all isReg = true)
    (hf : Few (Used qs i) d) : ∃ s ps, aliveSet HMap.new 0 qn = .ok s ∧ evacPairs d 0 (HSet.elems s) = .ok ps := by
  obtain ⟨hl, hat⟩ := nextAllN_at hn
  obtain ⟨bs, e1, e2⟩ := flags_total qn
  obtain ⟨s, h1, h2, h3⟩ := X86.aliveSet_facts qn bs e1 (by omega)
  have hu : ∀ k ∈ HSet.elems s, 0 ≤ k ∧ k < 8 ∧ Used qs i k.toNat := by
    intro k hk
    obtain ⟨a1, a2⟩ := (h3 k).1 hk
    have hlt : k.toNat < qs.length := by have := (List.getElem?_eq_some_iff.1 a2).1; omega
    obtain ⟨q', b1, b2⟩ := hat k.toNat qs[k.toNat] (List.getElem?_eq_getElem hlt)
    obtain ⟨c1, c2⟩ := nextN_keep b1
    have : q'.isAlive = .ok true := by
      have := congrArg (fun l => l[k.toNat]?) e1
      simpa [List.getElem?_map, b2, a2] using this
    obtain ⟨l, d1, d2, d3⟩ := isAlive_true this
    rw [c2, h0 _ (List.getElem_mem hlt)] at d2 d3
    refine ⟨a1, by omega, qs[k.toNat], l, List.getElem?_eq_getElem hlt, c1 ▸ d1, by omega, by omega⟩
  refine ⟨s, ?_⟩
  cases d with
  | none =>
    have : HSet.elems s = [] := by
      cases he : HSet.elems s with
      | nil => rfl
      | cons k ks => exact absurd (hu k (by simp [he])).2.2 (hf.1 rfl _)
    exact ⟨[], h1, by rw [this]; rfl⟩
  | some o =>
    cases o <;> first | cases hd; done | skip
    rename_i sf id un
    obtain ⟨ps, hp⟩ := evacPairs_ok (s := sf) (id := id) (u := un) (ks := HSet.elems s) (n := 0) (fun k hk => ⟨(hu k hk).1, (hu k hk).2.1⟩) (by
      have := hf.2 sf id un rfl (((HSet.elems s).filter (fun k => decide (k ≠ id))).map Int.toNat) ?_ ?_
      · simpa using this
      · refine List.Pairwise.map _ (R := fun a b => a ∈ HSet.elems s ∧ b ∈ HSet.elems s ∧ a ≠ b) ?_ ?_
        · rintro a b ⟨ha, hb, hab⟩ e
          have := (hu a ha).1
          have := (hu b hb).1
          omega
        · refine List.Pairwise.imp_of_mem ?_ (h2.filter _)
          intro a b ha hb hab
          exact ⟨(List.mem_filter.1 ha).1, (List.mem_filter.1 hb).1, hab⟩
      · intro r hr
        obtain ⟨k, hk, rfl⟩ := List.mem_map.1 hr
        obtain ⟨k1, k2⟩ := List.mem_filter.1 hk
        have := hu k k1
        refine ⟨this.2.2, ?_⟩
        have : k ≠ id := by simpa using k2
        omega)
    exact ⟨ps, h1, hp⟩

/-! ### one function -/

/-- an instruction that can be translated where few enough registers are in use -/
structure Solid (P : Nat → Prop) (x : Inst) : Prop where
  fit : ∃ K : Kind, K.m = false ∧ fitInst K x = true
  dst : Small x.dst
  fst : Small x.fst
  snd : Small x.snd
  few : x.op = .call → Few P x.dst

theorem Solid.mono {P Q : Nat → Prop} {x : Inst} (h : Solid P x) (hpq : ∀ r, Q r → P r) : Solid Q x :=
  ⟨h.fit, h.dst, h.fst, h.snd, fun e => (h.few e).mono hpq⟩

theorem ready_of_solid {qs : List Liveseq} (h8 : qs.length = 8) (h0 : ∀ q ∈ qs, q.index = 0) {out : List Immc} (h : ∀ (i : Nat) x, out[i]? = some (.inst x) → Solid (Used qs i) x) : Ready qs out := by
  intro i x hx qn hn ev
  obtain ⟨⟨K, hm, hf⟩, h1, h2, h3, h4⟩ := h i x hx
  refine genInst_ok hm ((nextAllN_at hn).1.trans h8) ev h1 h2 h3 hf fun ho => ?_
  refine evac_ok h8 h0 hn ?_ (h4 ho)
  obtain ⟨op, d, f, g⟩ := x
  dsimp only at ho
  subst ho
  simp only [fitInst, Bool.and_eq_true] at hf
  exact hf.1.1.1.2

theorem choose_list {α : Type} {Q : α → Nat → Prop} (hq : ∀ u r r', Q u r → Q u r' → r = r') : ∀ {rs : List Nat}, rs.Nodup → (∀ r ∈ rs, ∃ u, Q u r) →
    ∃ us : List α, us.length = rs.length ∧ us.Nodup ∧ ∀ u ∈ us, ∃ r ∈ rs, Q u r
  | [], _, _ => ⟨[], rfl, by simp, by simp⟩
  | r :: rs, hn, h => by
    obtain ⟨hr, hn⟩ := List.nodup_cons.1 hn
    obtain ⟨us, e1, e2, e3⟩ := choose_list hq hn fun x hx => h x (by simp [hx])
    obtain ⟨u, hu⟩ := h r (by simp)
    refine ⟨u :: us, by simp [e1], List.nodup_cons.2 ⟨fun hm => ?_, e2⟩, ?_⟩
    · obtain ⟨r', hr', hu'⟩ := e3 u hm
      rw [hq u r r' hu hu'] at hr
      exact hr hr'
    · intro v hv
      rcases List.mem_cons.1 hv with rfl | hv
      · exact ⟨r, by simp, hu⟩
      · obtain ⟨r', hr', hu'⟩ := e3 v hv
        exact ⟨r', by simp [hr'], hu'⟩

theorem phys_of {al : List (Option Nat)} {u r : Nat} (h : al[u]? = some (some r)) : phys al (u : Int) = r := by
  simp [phys, h]

theorem all_at {al : List (Option Nat)} {n u : Nat} (h : ∀ r ∈ al, ∃ q, r = some q ∧ q < n) (hu : u < al.length) : ∃ r, al[u]? = some (some r) ∧ r < n := by
  obtain ⟨r, e, hr⟩ := h al[u] (List.getElem_mem hu)
  exact ⟨r, by rw [List.getElem?_eq_getElem hu, e], hr⟩

theorem mem_assigned {lv : List Live} {al : List (Option Nat)} {r : Nat} {l : Live} (h : l ∈ assigned (lv.zip al) r) : ∃ u : Nat, lv[u]? = some l ∧ al[u]? = some (some r) := by
  simp only [assigned, List.mem_filterMap, Option.ite_none_right_eq_some, Option.some.injEq] at h
  obtain ⟨⟨l', x⟩, h1, h2, h3⟩ := h
  dsimp only at h2 h3
  subst h2 h3
  obtain ⟨u, hu⟩ := List.mem_iff_getElem?.1 h1
  obtain ⟨h3, h4⟩ := List.getElem?_zip_eq_some.1 hu
  exact ⟨u, h3, h4⟩

theorem before {code a b : List Immc} {x y : Immc} {i : Nat} (e : code = a ++ x :: b) (h : code[i]? = some y) (hi : i < a.length) : y ∈ a := by
  rw [e, List.getElem?_append_left hi] at h
  exact List.mem_of_getElem? h

section
variable {K : Kind} {code out : List Immc} {o k : Nat} {qs qs' : List Liveseq} {lv : List Live} {al : List (Option Nat)} (hw : How code o 8 qs out qs' lv al)
include hw

theorem small_of {x : Immc} (hx : x ∈ code) {p : Option Ope} (h : ∀ v ∈ opeRegs p, v ∈ reads x ∨ writes x = some v) : Small (renameOpe (phys al) p) := by
  intro v hv
  rw [Plain.opeRegs_rename] at hv
  obtain ⟨u, hu, rfl⟩ := List.mem_map.1 hv
  obtain ⟨h1, h2⟩ := hw.regs x hx u (h u hu)
  obtain ⟨r, h3, h4⟩ := all_at hw.all h2
  have := phys_of h3
  rw [Int.toNat_of_nonneg h1] at this
  omega

/-- what is known of a register in use -/
theorem used_why {a b : List Immc} {x : Immc} (e : code = a ++ x :: b) {r : Nat} (h : ∃ l ∈ assigned (lv.zip al) r, l.first ≤ o + a.length ∧ o + a.length < l.last) :
    ∃ u : Nat, al[u]? = some (some r) ∧ (∃ z ∈ b, (u : Int) ∈ reads z) ∧ ((∃ y ∈ a, ∃ v, writes y = some v ∧ (u : Int) ≤ v) ∨ ∃ v, writes x = some v ∧ (u : Int) ≤ v) := by
  obtain ⟨l, hl, h1, h2⟩ := h
  obtain ⟨u, h3, h4⟩ := mem_assigned hl
  refine ⟨u, h4, ?_, ?_⟩
  · rcases hw.why u l h3 with h5 | ⟨j, y, h5, h6, h7⟩
    · omega
    · exact ⟨y, mem_after (e ▸ h5) (by omega), h6⟩
  · obtain ⟨i, y, v, h5, h6, h7, h8, -⟩ := hw.j.orig u l h3
    rcases Nat.lt_or_ge i a.length with hi | hi
    · exact .inl ⟨y, before e h5 hi, v, h6, h7⟩
    · obtain rfl : i = a.length := by omega
      rw [e, List.getElem?_append_right (Nat.le_refl _)] at h5
      simp at h5
      subst h5
      exact .inr ⟨v, h6, h7⟩

theorem solid_of (hm : K.m = false) (hk : K.c = true → k ≤ 5) (hf : ∀ x ∈ code, Fit K.any x) (hh : Hush code) (hc : CallsNew code) (hl : Level code [] k) {i : Nat} {x' : Inst} (hx : out[i]? = some (.inst x')) :
    Solid (fun r => ∃ l ∈ assigned (lv.zip al) r, l.first ≤ o + i ∧ o + i < l.last) x' := by
  rw [hw.out] at hx
  obtain ⟨x, hx, ex⟩ := Plain.line_rename hx
  cases x <;> first | cases ex; done | skip
  rename_i x
  have hmem := List.mem_of_getElem? hx
  have ht := hf _ hmem
  have ex' : x' = ⟨x.op, renameOpe (phys al) x.dst, renameOpe (phys al) x.fst, renameOpe (phys al) x.snd⟩ := by simpa [rename] using ex
  refine ⟨⟨K.any, hm, ?_⟩, ?_, ?_, ?_, ?_⟩
  · have := (fit_rename (K := K.any) (phys al) (.inst x)).2 ht
    rw [← ex] at this
    exact this
  · rw [ex']
    refine small_of hw hmem fun v hv => ?_
    obtain ⟨op, d, f, g⟩ := x
    cases d with
    | none => cases hv
    | some p =>
      cases p <;> first | cases hv; done | skip
      · simp [opeRegs] at hv; subst hv; exact .inr rfl
      · simp [opeRegs] at hv; subst hv; exact .inl (by simp [reads])
  · rw [ex']
    exact small_of hw hmem fun v hv => .inl (by simp [reads, hv])
  · rw [ex']
    exact small_of hw hmem fun v hv => .inl (by simp [reads, hv])
  · intro ho
    obtain ⟨op, d, f, g⟩ := x
    rw [ex'] at ho ⊢
    dsimp only at ho
    subst ho
    obtain ⟨a, b, e, rfl⟩ := split_at hx
    have hKc : K.c = true := by
      simp only [Fit, fitInst, Kind.any, Bool.and_eq_true] at ht
      exact ht.1.1.1.1
    refine ⟨?_, ?_⟩
    · intro hd r hr
      have hd' : d = none := by
        cases d with
        | none => rfl
        | some p => cases p <;> cases hd
      subst hd'
      obtain ⟨u, -, ⟨z, hz, hu⟩, ⟨y, hy, v, h1, h2⟩ | ⟨v, h1, -⟩⟩ := used_why hw e hr
      · have := hh a _ b e rfl y hy z hz v u h1 hu
        omega
      · cases h1
    · intro s id un hd rs hn hrs
      obtain ⟨w, rfl, rfl⟩ : ∃ w, d = some (.reg s w un) ∧ id = phys al w := by
        cases d with
        | none => cases hd
        | some p => cases p <;> cases hd; exact ⟨_, rfl, rfl⟩
      obtain ⟨us, e1, e2, e3⟩ := choose_list (α := Int) (Q := fun u r => ∃ n : Nat, u = n ∧ al[n]? = some (some r) ∧ u < w ∧ ∃ z ∈ b, u ∈ reads z) (by
        rintro u r r' ⟨n, rfl, h1, -⟩ ⟨n', h2, h3, -⟩
        obtain rfl := Int.ofNat_inj.1 h2
        rw [h1] at h3
        simpa using h3) hn (by
        intro r hr
        obtain ⟨h1, h2⟩ := hrs r hr
        obtain ⟨u, h3, h4, h5⟩ := used_why hw e h1
        refine ⟨u, u, rfl, h3, ?_, h4⟩
        rcases h5 with ⟨y, hy, v, h5, h6⟩ | ⟨v, h5, h6⟩
        · have := hc a _ b e rfl w rfl y hy v h5
          omega
        · obtain rfl : v = w := by simpa [writes] using h5.symm
          have : (u : Int) ≠ v := by
            rintro rfl
            exact h2 (phys_of h3).symm
          omega)
      rw [← e1]
      refine Nat.le_trans (hl a _ b e w rfl us e2 fun u hu => ?_) (hk hKc)
      obtain ⟨r, -, n, -, -, h3, h4⟩ := e3 u hu
      exact ⟨h3, .inl h4⟩

/-- the intervals are within the function -/
theorem bounds_of {r : Nat} {l : Live} (h : l ∈ assigned (lv.zip al) r) : o ≤ l.first ∧ l.last ≤ o + code.length := by
  obtain ⟨u, h3, -⟩ := mem_assigned h
  obtain ⟨i, y, v, h5, -, -, h8, -⟩ := hw.j.orig u l h3
  have := (List.getElem?_eq_some_iff.1 h5).1
  refine ⟨by omega, ?_⟩
  rcases hw.why u l h3 with h5 | ⟨j, y, h5, -, h7⟩
  · omega
  · have := (List.getElem?_eq_some_iff.1 h5).1
    omega
end

/-! ### translation units -/

/-- the sequences have got more intervals, for some lines -/
structure Gained (o n : Nat) (qs qs' : List Liveseq) (ls : Nat → List Live) : Prop where
  len : qs'.length = qs.length
  get : ∀ (r : Nat) q, qs[r]? = some q → qs'[r]? = some { q with lives := q.lives ++ ls r }
  bounds : ∀ (r : Nat) l, l ∈ ls r → o ≤ l.first ∧ l.last ≤ o + n

/-- in use according to the intervals -/
def Live' (ls : Nat → List Live) (i r : Nat) : Prop := ∃ l ∈ ls r, l.first ≤ i ∧ i < l.last

/-- what a translation unit is made of, functions getting registers and instructions that can be translated -/
def Whole (c : List Immc) : Prop :=
  VarChunk c ∨ (∃ n, FuncChunk n c) ∧ ∃ N, ∀ fuel, N ≤ fuel → ∀ o qs, qs.length = 8 → ∃ out qs' ls, Regalloc.allocFunction c o 8 qs fuel = .ok (out, qs') ∧ Gained o c.length qs qs' ls ∧
    ∀ (i : Nat) x, out[i]? = some (.inst x) → Solid (Live' ls (o + i)) x

theorem Whole.ext {c : List Immc} (h : Whole c) : IsExt c := h.elim .inr fun h => .inl h.1

theorem Gained.refl (o n : Nat) (qs : List Liveseq) : Gained o n qs qs fun _ => [] :=
  ⟨rfl, fun r q h => by rw [h]; simp, fun r l h => by cases h⟩

theorem Gained.seq {o n m : Nat} {qs q1 qs' : List Liveseq} {l1 l2 : Nat → List Live} (h : Gained o n qs q1 l1) (g : Gained (o + n) m q1 qs' l2) : Gained o (n + m) qs qs' fun r => l1 r ++ l2 r := by
  refine ⟨g.len.trans h.len, fun r q hr => ?_, fun r l hl => ?_⟩
  · rw [g.get r _ (h.get r q hr)]
    simp
  · rcases List.mem_append.1 hl with hl | hl
    · have := h.bounds r l hl; omega
    · have := g.bounds r l hl; omega

theorem allocAll_fine : ∀ (cs : List (List Immc)), (∀ x ∈ cs, Whole x) → ∃ N, ∀ fuel, N ≤ fuel → ∀ acc qs off n, cs.flatten.length ≤ n → qs.length = 8 →
    ∃ os qs' ls, Regalloc.allocAll 8 fuel acc qs off n cs.flatten = .ok (acc ++ List.flatten os, qs') ∧ (∀ x ∈ os, IsExt x) ∧ Gained off cs.flatten.length qs qs' ls ∧
      ∀ (i : Nat) x, (List.flatten os)[i]? = some (.inst x) → Solid (Live' ls (off + i)) x
  | [], _ => ⟨0, fun fuel _ acc qs off n _ _ => ⟨[], qs, _, by cases n <;> simp [Regalloc.allocAll], by simp, .refl _ _ _, by simp⟩⟩
  | c :: cs, h => by
    obtain ⟨N, ih⟩ := allocAll_fine cs fun x hx => h x (by simp [hx])
    have hc := h c (by simp)
    have hext := hc.ext
    obtain ⟨x, xs, e, hx, hxs⟩ := Gen.ext_head hc.ext
    have hr := Gen.flatten_head (cs := cs) fun y hy => (h y (by simp [hy])).ext
    obtain ⟨e1, e2⟩ := Gen.takeWhile_inner hxs hr
    rcases hc with hv | ⟨⟨m, hf⟩, M, hM⟩
    · refine ⟨N, fun fuel hfu acc qs off n hn hq => ?_⟩
      obtain ⟨v, m, ds, e', hds⟩ := hv
      rw [e] at e'
      cases e'
      subst e
      rw [List.flatten_cons, List.cons_append] at hn ⊢
      simp only [List.length_cons, List.length_append] at hn
      obtain ⟨n, rfl⟩ : ∃ m, n = m + 1 := ⟨n - 1, by omega⟩
      simp only [Regalloc.allocAll, e1, e2]
      obtain ⟨os, qs', ls, h1, h2, h3, h4⟩ := ih fuel hfu (acc ++ (.label .variable v m :: xs)) qs (off + (Immc.label .variable v m :: xs).length) n (by omega) hq
      refine ⟨(.label .variable v m :: xs) :: os, qs', fun r => [] ++ ls r, by rw [h1]; simp, ?_, ?_, ?_⟩
      · intro y hy
        rcases List.mem_cons.1 hy with rfl | hy
        · exact hext
        · exact h2 y hy
      · rw [← List.cons_append, List.length_append]
        exact (Gained.refl off _ qs).seq h3
      · intro i x hi
        rw [List.flatten_cons] at hi
        rcases Nat.lt_or_ge i (Immc.label .variable v m :: xs).length with hlt | hge
        · rw [List.getElem?_append_left hlt] at hi
          have := List.mem_of_getElem? hi
          rcases List.mem_cons.1 this with e | hm
          · cases e
          · exact absurd (hds _ hm) (by simp [Gen.IsData])
        · rw [List.getElem?_append_right hge] at hi
          refine (h4 _ x hi).mono ?_
          rintro r ⟨l, hl, h5, h6⟩
          exact ⟨l, by simpa using hl, by omega, by omega⟩
    · refine ⟨max N M, fun fuel hfu acc qs off n hn hq => ?_⟩
      have hf0 := hf
      obtain ⟨v, i, body, l, e', -⟩ := hf
      rw [e] at e'
      cases e'
      subst e
      obtain ⟨out, q1, l1, ha, hg, hs⟩ := hM fuel (by omega) off qs hq
      obtain ⟨hch, hlen⟩ := Gen.allocFunction_chunk hf0 ha
      rw [List.flatten_cons, List.cons_append] at hn ⊢
      simp only [List.length_cons, List.length_append] at hn
      obtain ⟨n, rfl⟩ : ∃ m, n = m + 1 := ⟨n - 1, by omega⟩
      simp only [Regalloc.allocAll, e1, e2, ha, Out.ok_bind]
      obtain ⟨os, qs', ls, h1, h2, h3, h4⟩ := ih fuel (by omega) (acc ++ out) q1 (off + (Immc.label .function v m :: .inst i :: (body ++ [.inst l])).length) n (by omega) (hg.len.trans hq)
      refine ⟨out :: os, qs', fun r => l1 r ++ ls r, by rw [h1]; simp, ?_, ?_, ?_⟩
      · intro y hy
        rcases List.mem_cons.1 hy with rfl | hy
        · exact .inl ⟨_, hch⟩
        · exact h2 y hy
      · rw [← List.cons_append, List.length_append]
        exact hg.seq h3
      · intro j x hj
        rw [List.flatten_cons] at hj
        rcases Nat.lt_or_ge j out.length with hlt | hge
        · rw [List.getElem?_append_left hlt] at hj
          refine (hs j x hj).mono ?_
          rintro r ⟨k, hk, h5, h6⟩
          rcases List.mem_append.1 hk with hk | hk
          · exact ⟨k, hk, h5, h6⟩
          · have := h3.bounds r k hk
            omega
        · rw [List.getElem?_append_right hge] at hj
          refine (h4 _ x hj).mono ?_
          rintro r ⟨k, hk, h5, h6⟩
          rcases List.mem_append.1 hk with hk | hk
          · have := hg.bounds r k hk
            omega
          · exact ⟨k, hk, by omega, by omega⟩

/-- the code of a good function -/
theorem func_fine {n : Str} {t : DType} {b : SItems} {s s' : GState} {code : List Immc} (hx : goodExt (.func n t b) = true) (hl : -1 ≤ s.lab) (hg : CStm.Global s)
    (h : funcCode n t b s = .ok ((), code, s')) : Whole code := by
  obtain ⟨_, hch, -, -, -, -⟩ := Gen.funcCode_chunk h
  have key : ∀ (k : Nat) (c : Bool), (c = true → k ≤ 5) → k < 8 → tidyExt k (.func n t b) = true → usableExt c (.func n t b) = true → Whole code := by
    intro k c hk h8 ht hu
    simp only [tidyExt, Bool.and_eq_true, Bool.not_eq_true', decide_eq_true_eq] at ht
    obtain ⟨⟨⟨⟨a1, a2⟩, a3⟩, a4⟩, a5⟩ := ht
    obtain ⟨N, hN⟩ := allocFunction_how h a4 a3 a2 a1 hl a5 h8
    obtain ⟨L, hL⟩ : ∃ L, ∀ ps rt, t = .func ps rt → (∀ n ∈ paramNames ps, n ∈ L) ∧ usableAll c L b = true := by
      cases t with
      | func ps rt =>
        refine ⟨paramNames ps ++ namesAll b, fun ps' rt' e => ?_⟩
        cases e
        exact ⟨fun n hn => by simp [hn], hu⟩
      | _ => exact ⟨[], fun _ _ e => by cases e⟩
    obtain ⟨s0, s2, e0, hr⟩ := funcCode_runs (K := ⟨true, false, c, false, L⟩) h a4 a5 fun _ => hL
    have hI : I ⟨true, false, c, false, L⟩ s0 := by
      rw [e0]
      refine .inr fun sc hsc p hp hne => ?_
      rcases List.mem_cons.1 hsc with rfl | hsc
      · cases hp
      · exact absurd (CStm.global_declare hg n t sc hsc p hp) hne
    obtain ⟨⟨f1, f2⟩, -⟩ := hr.fit rfl hI
    refine .inr ⟨⟨_, hch⟩, N, fun fuel hf o qs hq => ?_⟩
    obtain ⟨out, qs', lv, al, ha, hw⟩ := hN fuel hf o qs hq
    obtain ⟨u1, u2⟩ := updateLiveseqs_lives _ _ _ hw.seqs
    exact ⟨out, qs', assigned (lv.zip al), ha, ⟨u1, u2, fun r l hl => bounds_of hw hl⟩,
      fun i x hi => solid_of (K := ⟨true, false, c, false, L⟩) hw rfl hk f1 f2 hr.call hr.level hi⟩
  simp only [goodExt, Bool.or_eq_true, Bool.and_eq_true] at hx
  rcases hx with ⟨h1, h2⟩ | ⟨h1, h2⟩
  · exact key 5 true (fun _ => Nat.le_refl _) (by omega) h1 h2
  · exact key 7 false nofun (by omega) h1 h2

/-- the code of a good translation unit -/
theorem unit_fine {u : List SExt} {code : List Immc} {s' : GState} (hu : ∀ x ∈ u, goodExt x = true) (h : Gen.unit u Gen.initial = .ok ((), code, s')) :
    ∃ N, ∀ fuel, N ≤ fuel → ∃ out qs items, Regalloc.run code 8 fuel = .ok (out, qs) ∧ generate out qs = .ok items := by
  obtain ⟨cs, h1, rfl⟩ := unit_made (P := Whole) (Q := fun x => goodExt x = true) (fun _ => .inl) (fun hx hl hg h => func_fine hx hl hg h) hu (by decide) (by simp [CStm.Global, Gen.initial]) h
  obtain ⟨N, hN⟩ := allocAll_fine cs h1
  refine ⟨N, fun fuel hf => ?_⟩
  obtain ⟨os, qs, ls, h2, h3, h4, h5⟩ := hN fuel hf [] (List.replicate 8 Liveseq.new) 0 _ (Nat.le_refl _) (by simp)
  have hat : ∀ (r : Nat) q, qs[r]? = some q → q.lives = ls r ∧ q.index = 0 := by
    intro r q hq
    have hr : r < 8 := by
      have := (List.getElem?_eq_some_iff.1 hq).1
      have := h4.len
      simp at this
      omega
    have := h4.get r Liveseq.new (by rw [List.getElem?_replicate, if_pos hr])
    rw [hq] at this
    cases this
    exact ⟨by simp [Liveseq.new], rfl⟩
  have hready : Ready qs os.flatten := by
    refine ready_of_solid (by rw [h4.len]; simp) (fun q hq => ?_) fun i x hx => (h5 i x hx).mono ?_
    · obtain ⟨r, hr⟩ := List.mem_iff_getElem?.1 hq
      exact (hat r q hr).2
    · rintro r ⟨q, l, h6, h7, h8, h9⟩
      rw [(hat r q h6).1] at h7
      exact ⟨l, h7, by omega, by omega⟩
  obtain ⟨items, hi⟩ := generateLoop_ok os h3 hready [] (n := os.flatten.length + 1) (by omega)
  exact ⟨os.flatten, qs, items, by simpa [Regalloc.run] using h2, hi⟩

end Tidy
end Umlcc
