import Verif.Lemma.StmtStatic
/-!
C36: how runs of the code of statements begin and end; declarations; the jumps of a `switch`.
-/
namespace Umlcc
namespace Sim
open IMach (Val St Env Mem)
open RSpec (Mach UniqueLabels)
open CSem (InRange rep Ctx eval safe)
open CStm
open Lay (Leaf leaves elems members initialise tagsOf packed)
open Gen

variable {W : Type} {I : Impl W} {E : Env W} {P : List Immc}

theorem _root_.Umlcc.CStm.LabelAt.mk {k : Nat} {id : Int} (h : P[k]? = some (labelAt id)) : LabelAt P k id := ⟨_, _, h⟩

theorem _root_.Umlcc.CStm.LabelAt.unique (hu : UniqueLabels P) {k k' : Nat} {id : Int} (h : LabelAt P k id) (h' : LabelAt P k' id) : k = k' := by
  obtain ⟨_, _, h⟩ := h
  obtain ⟨_, _, h'⟩ := h'
  have := labelPos_of hu h
  rw [labelPos_of hu h'] at this
  cases this; rfl

theorem jump_steps (hu : UniqueLabels P) {p k : Nat} {id : Int} {R : Int → Val} {st : St W} (h : P[p]? = some (jump id)) (hk : LabelAt P k id) :
    Steps E P ⟨p, R, st⟩ ⟨k, R, st⟩ := by
  obtain ⟨_, _, hk⟩ := hk
  exact step_jmp hu h hk

theorem _root_.Umlcc.CStm.LabelAt.steps {p : Nat} {id : Int} {R : Int → Val} {st : St W} (h : LabelAt P p id) : Steps E P ⟨p, R, st⟩ ⟨p + 1, R, st⟩ := by
  obtain ⟨_, _, h⟩ := h
  exact step_label h

/-! ### ends -/

/-- the machine gets from one state to another, and not by doing nothing -/
def Moves (E : Env W) (P : List Immc) (m m' : Mach Val (St W)) : Prop := ∃ n, RSpec.run (IMach.sem E) P m (n + 1) = some m'

theorem Moves.of_step {m m' : Mach Val (St W)} (h : RSpec.step (IMach.sem E) P m = some m') : Moves E P m m' := ⟨0, by simp [RSpec.run, h]⟩

theorem Moves.steps {m m' : Mach Val (St W)} (h : Moves E P m m') : Steps E P m m' := h.elim fun n h => ⟨n + 1, h⟩

theorem Moves.trans {a b c : Mach Val (St W)} (h : Moves E P a b) (k : Steps E P b c) : Moves E P a c := by
  obtain ⟨n, h⟩ := h
  obtain ⟨m, k⟩ := k
  exact ⟨n + m, by rw [show n + m + 1 = n + 1 + m by omega, run_add, h]; exact k⟩

theorem _root_.Umlcc.CStm.LabelAt.moves {p : Nat} {id : Int} {R : Int → Val} {st : St W} (h : LabelAt P p id) : Moves E P ⟨p, R, st⟩ ⟨p + 1, R, st⟩ := by
  obtain ⟨_, _, h⟩ := h
  exact .of_step (by simp only [RSpec.step, h])

/-- What a run from `m` comes to if an execution ends with a result, memory and world: `q` is the end of the statement's code, `s` knows the labels for `break`,
`continue` and `return`, `st` is the state before. If the execution goes on, the run has at least `d` steps. -/
def Ends (E : Env W) (P : List Immc) (m : Mach Val (St W)) (s : GState) (q : Nat) (st : St W) (d : Nat) (σ : Mem × W) : Res → Prop
  | .norm => ∃ R, Steps E P m ⟨q, R, res st σ⟩
  | .brk => ∃ R, ∀ k, LabelAt P k s.brk → Steps E P m ⟨k, R, res st σ⟩
  | .cont => ∃ R, ∀ k, LabelAt P k s.cont → Steps E P m ⟨k, R, res st σ⟩
  | .ret v => ∃ R, ∀ k, LabelAt P k s.ret → Steps E P m ⟨k, R, { res st σ with ret := v.or st.ret }⟩
  | .more => ∃ i m', RSpec.run (IMach.sem E) P m i = some m' ∧ d ≤ i ∧ m'.st.mem = σ.1 ∧ m'.st.w = σ.2

variable {m m1 : Mach Val (St W)} {s s1 s' : GState} {q q' d d' : Nat} {st : St W} {σ σ1 : Mem × W} {r : Res}

theorem Ends.of (h : Ends E P m s1 q st d σ r) (h1 : s1.brk = s.brk) (h2 : s1.cont = s.cont) (h3 : s1.ret = s.ret) : Ends E P m s q st d σ r := by
  cases r <;> simpa only [Ends, h1, h2, h3] using h

theorem Ends.mono (h : Ends E P m s q st d σ r) (hd : d' ≤ d) : Ends E P m s q st d' σ r := by
  cases r with
  | more => obtain ⟨i, m', h1, h2, h3⟩ := h; exact ⟨i, m', h1, by omega, h3⟩
  | _ => exact h

/-- steps in front -/
theorem Ends.pre (hs : Steps E P m m1) (h : Ends E P m1 s q (res st σ1) d σ r) : Ends E P m s q st d σ r := by
  cases r with
  | norm => obtain ⟨R, h⟩ := h; exact ⟨R, hs.trans h⟩
  | brk => obtain ⟨R, h⟩ := h; exact ⟨R, fun k hk => hs.trans (h k hk)⟩
  | cont => obtain ⟨R, h⟩ := h; exact ⟨R, fun k hk => hs.trans (h k hk)⟩
  | ret v => obtain ⟨R, h⟩ := h; exact ⟨R, fun k hk => hs.trans (h k hk)⟩
  | more =>
    obtain ⟨i, m', h, h1, h2⟩ := h
    obtain ⟨j, hs⟩ := hs
    exact ⟨j + i, m', by rw [run_add, hs]; exact h, by omega, h2⟩

theorem Ends.pre' (hs : Steps E P m m1) (h : Ends E P m1 s q st d σ r) : Ends E P m s q st d σ r := Ends.pre (st := st) (σ1 := (st.mem, st.w)) hs h

/-- a step at least in front -/
theorem Ends.move (hs : Moves E P m m1) (h : Ends E P m1 s q (res st σ1) d σ r) (hd : d' ≤ d + 1) : Ends E P m s q st d' σ r := by
  cases r with
  | more =>
    obtain ⟨i, m', h, h1, h2⟩ := h
    obtain ⟨j, hs⟩ := hs
    exact ⟨j + 1 + i, m', by rw [run_add, hs]; exact h, by omega, h2⟩
  | _ => exact Ends.pre hs.steps h

theorem Ends.move' (hs : Moves E P m m1) (h : Ends E P m1 s q st d σ r) (hd : d' ≤ d + 1) : Ends E P m s q st d' σ r :=
  Ends.move (st := st) (σ1 := (st.mem, st.w)) hs h hd

/-- steps at the end -/
theorem Ends.post (h : Ends E P m s q st d σ r) (hs : ∀ R, Steps E P ⟨q, R, res st σ⟩ ⟨q', R, res st σ⟩) : Ends E P m s q' st d σ r := by
  cases r with
  | norm => obtain ⟨R, h⟩ := h; exact ⟨R, h.trans (hs R)⟩
  | _ => exact h

theorem Ends.to (h : Ends E P m s q st d σ r) (e : q = q') : Ends E P m s q' st d σ r := e ▸ h

theorem Ends.seq {r0 : Res} {σ0 : Mem × W} {kf : Mem × W → Option (Res × Mem × W)} {x : Res × Mem × W} (h : Ends E P m s q st d σ0 r0) (hr : r0.andThen σ0 kf = some x)
    (hk : ∀ R, kf σ0 = some x → Ends E P ⟨q, R, res st σ0⟩ s q' (res st σ0) d x.2 x.1) : Ends E P m s q' st d x.2 x.1 := by
  cases r0 with
  | norm =>
    obtain ⟨R, h⟩ := h
    exact Ends.pre h (hk R hr)
  | _ => cases hr; exact h

theorem Ends.body {r0 : Res} {σ0 : Mem × W} {kf : Mem × W → Option (Res × Mem × W)} {x : Res × Mem × W} {kc kb : Nat} (h : Ends E P m s1 q st d σ0 r0)
    (hr : r0.afterBody σ0 kf = some x) (h3 : s1.ret = s.ret) (hc : LabelAt P kc s1.cont) (hb : LabelAt P kb s1.brk)
    (hq : ∀ R, Steps E P ⟨q, R, res st σ0⟩ ⟨kc, R, res st σ0⟩)
    (hk : ∀ R, kf σ0 = some x → Ends E P ⟨kc, R, res st σ0⟩ s (kb + 1) (res st σ0) d x.2 x.1) : Ends E P m s (kb + 1) st d x.2 x.1 := by
  cases r0 with
  | norm =>
    obtain ⟨R, h⟩ := h
    exact Ends.pre (h.trans (hq R)) (hk R hr)
  | cont =>
    obtain ⟨R, h⟩ := h
    exact Ends.pre (h kc hc) (hk R hr)
  | brk =>
    cases hr
    obtain ⟨R, h⟩ := h
    exact ⟨R, (h kb hb).trans hb.steps⟩
  | ret v =>
    cases hr
    obtain ⟨R, h⟩ := h
    exact ⟨R, by rw [← h3]; exact h⟩
  | more => cases hr; exact h

theorem Ends.switch {r0 : Res} {kb : Nat} (h : Ends E P m s1 kb st d σ r0) (h2 : s1.cont = s.cont) (h3 : s1.ret = s.ret) (hb : LabelAt P kb s1.brk) :
    Ends E P m s (kb + 1) st d σ r0.afterSwitch := by
  cases r0 with
  | norm => obtain ⟨R, h⟩ := h; exact ⟨R, h.trans hb.steps⟩
  | brk => obtain ⟨R, h⟩ := h; exact ⟨R, (h kb hb).trans hb.steps⟩
  | cont => obtain ⟨R, h⟩ := h; exact ⟨R, by rw [← h2]; exact h⟩
  | ret v => obtain ⟨R, h⟩ := h; exact ⟨R, by rw [← h3]; exact h⟩
  | more => exact h

mutual
/-- how many levels of execution a statement may use up without a step of the machine -/
def size : SStmt → Nat
  | .cmpd is => sizes is + 1
  | .case _ s | .dflt s | .ite _ s | .switch _ s => size s + 1
  | .itee _ t e => size t + size e + 1
  | .while _ s => size s + 2
  | .for i _ n b => sizeItem i + size n + size b + 3
  | .cont | .brk | .ret _ | .expr _ | .null => 1
def sizeItem : SItem → Nat
  | .stmt s => size s + 1
  | .decls _ | .tag _ _ => 1
def sizes : SItems → Nat
  | .nil => 1
  | .cons i is => sizeItem i + sizes is + 1
end

/-! ### beginnings -/

/-- where the code is entered: at its beginning, or at the label that was noted -/
def Entry (P : List Immc) (s s' : GState) (p : Nat) : Mode → Nat → Prop
  | .run, k => k = p
  | .seek (.value _ v), k => ∃ cs new id l, s.cases = some cs ∧ s'.cases = some (cs ++ new) ∧ firstCase v new = some (id, l) ∧ LabelAt P k id
  | .seek .dflt, k => LabelAt P k s'.dflt

/-- the label looked for is there, and is looked for properly -/
def Okay (h : Label → Bool) (ok : Sfx × Bool → Bool) (d : Nat) : Mode → Prop
  | .run => True
  | .seek (.value q v) => q.1 ≠ .none ∧ h (.value q v) = true ∧ ok q = true
  | .seek .dflt => h .dflt = true ∧ d ≤ 1

theorem Entry.of {p p' k : Nat} {T : Label} {s2 s3 : GState} (h : Entry P s s' p (.seek T) k) (h1 : s2.cases = s.cases) (h2 : s3.cases = s'.cases) (h3 : s3.dflt = s'.dflt) :
    Entry P s2 s3 p' (.seek T) k := by
  cases T with
  | value q v => simpa only [Entry, h1, h2] using h
  | dflt => simpa only [Entry, h3] using h

section
variable {h1 h2 : Label → Bool} {ok1 ok2 : Sfx × Bool → Bool} {d1 d2 p p' k : Nat} {T : Label}

theorem Entry.left (k1 : Cases h1 ok1 s s1) (k2 : Cases h2 ok2 s1 s') (e1 : d1 = 0 ↔ h1 .dflt = false) (e2 : d2 = 0 ↔ h2 .dflt = false)
    (ho : Okay (fun T => h1 T || h2 T) (fun q => ok1 q && ok2 q) (d1 + d2) (.seek T)) (h : Entry P s s' p (.seek T) k) (hT : h1 T = true) :
    Entry P s s1 p' (.seek T) k ∧ Okay h1 ok1 d1 (.seek T) := by
  cases T with
  | value q v =>
    obtain ⟨a1, a2, a3⟩ := ho
    obtain ⟨cs, new, id, l, b1, b2, b3, b4⟩ := h
    simp only [Bool.and_eq_true] at a3
    obtain ⟨n1, c1, c2⟩ := k1.value cs b1
    obtain ⟨n2, d1, d2⟩ := k2.value _ c1
    rw [d1] at b2
    simp only [Option.some.injEq, List.append_assoc, List.append_cancel_left_eq] at b2
    subst b2
    have := (c2 q a1 a3.1).1 v
    rw [hT] at this
    obtain ⟨⟨id', l'⟩, e⟩ := Option.isSome_iff_exists.1 this.symm
    have e' : firstCase v (n1 ++ n2) = some (id', l') := by
      rw [firstCase] at e ⊢
      rw [List.find?_append, e]
      rfl
    rw [e'] at b3
    cases b3
    exact ⟨⟨cs, n1, _, _, b1, c1, e, b4⟩, a1, hT, a3.1⟩
  | dflt =>
    obtain ⟨a1, a2⟩ := ho
    have : d1 ≠ 0 := fun h0 => by rw [e1.1 h0] at hT; cases hT
    have h0 : d2 = 0 := by omega
    refine ⟨?_, hT, by omega⟩
    have e := k2.same (e2.1 h0)
    simp only [Entry, e] at h
    exact h

theorem Entry.right (k1 : Cases h1 ok1 s s1) (k2 : Cases h2 ok2 s1 s')
    (ho : Okay (fun T => h1 T || h2 T) (fun q => ok1 q && ok2 q) (d1 + d2) (.seek T)) (h : Entry P s s' p (.seek T) k) (hT : h1 T = false) :
    Entry P s1 s' p' (.seek T) k ∧ Okay h2 ok2 d2 (.seek T) := by
  cases T with
  | value q v =>
    obtain ⟨a1, a2, a3⟩ := ho
    obtain ⟨cs, new, id, l, b1, b2, b3, b4⟩ := h
    simp only [Bool.and_eq_true] at a3
    simp only [hT, Bool.false_or] at a2
    obtain ⟨n1, c1, c2⟩ := k1.value cs b1
    obtain ⟨n2, d1, d2⟩ := k2.value _ c1
    rw [d1] at b2
    simp only [Option.some.injEq, List.append_assoc, List.append_cancel_left_eq] at b2
    subst b2
    have := (c2 q a1 a3.1).1 v
    rw [hT] at this
    have e : firstCase v n1 = none := by
      cases hf : firstCase v n1 with
      | none => rfl
      | some x => rw [hf] at this; cases this
    rw [firstCase] at e b3
    rw [List.find?_append, e] at b3
    exact ⟨⟨_, n2, _, _, c1, d1, b3, b4⟩, a1, a2, a3.2⟩
  | dflt =>
    obtain ⟨a1, a2⟩ := ho
    simp only [hT, Bool.false_or] at a1
    exact ⟨h, a1, by omega⟩
end

/-! ### declarations -/

mutual
theorem leaves_safe {tags : Str → Option (Members × Nat)} : ∀ (i : SInit) {t : DType} {o : Nat} {ls : List (Nat × Leaf)}, leaves tags i t o = some ls → safeInit i = true → ls.all safeLeaf = true
  | .expr e, t, o, ls, h, hs => by
    simp only [leaves] at h
    split at h <;> cases h
    simpa [safeLeaf, safeInit] using hs
  | .str u b, t, o, ls, h, hs => by
    simp only [leaves] at h
    split at h
    case h_2 => cases h
    split at h <;> cases h
    rfl
  | .list is, t, o, ls, h, hs => by
    simp only [safeInit] at hs
    simp only [leaves] at h
    split at h
    · exact elems_safe is h hs
    · split at h
      · exact members_safe is h hs
      · cases h
theorem elems_safe {tags : Str → Option (Members × Nat)} : ∀ (is : SInits) {t : DType} {n o : Nat} {ls : List (Nat × Leaf)}, elems tags is t n o = some ls → safeInits is = true → ls.all safeLeaf = true
  | .nil, t, n, o, ls, h, hs => by
    cases n <;> simp only [elems] at h <;> cases h
    rfl
  | .cons i is, t, n, o, ls, h, hs => by
    cases n with
    | zero => simp [elems] at h
    | succ n =>
      simp only [safeInits, Bool.and_eq_true] at hs
      simp only [elems] at h
      split at h <;> cases h
      rename_i a b ha hb
      rw [List.all_append, leaves_safe i ha hs.1, elems_safe is hb hs.2]
      rfl
theorem members_safe {tags : Str → Option (Members × Nat)} : ∀ (is : SInits) {ms : Members} {o : Nat} {ls : List (Nat × Leaf)}, members tags is ms o = some ls → safeInits is = true → ls.all safeLeaf = true
  | .nil, ms, o, ls, h, hs => by
    cases ms <;> simp only [members] at h <;> cases h
    rfl
  | .cons i is, ms, o, ls, h, hs => by
    cases ms with
    | nil => simp [members] at h
    | cons n t k ms =>
      simp only [safeInits, Bool.and_eq_true] at hs
      simp only [members] at h
      split at h <;> cases h
      rename_i a b ha hb
      rw [List.all_append, leaves_safe i ha hs.1, members_safe is hb hs.2]
      rfl
end

theorem lookup_define {α : Type} (n : Str) (x : α) (l : List (List (Str × α))) : lookup n (define n x l) = some x := by
  cases l <;> simp [define, lookup]

theorem decl_sim (hu : UniqueLabels P) (hf : Fits I E) (hl : I.base.lim = true) {d : SDecl} {n : Str} (hn : d.who = .ident n) {V V1 : Vars} {s s' : GState} {c : List Immc}
    (h : localDecl d s = .ok ((), c, s')) (ha : Agree E V s) (hs : d.init.all safeInit = true) (hd : CStm.declare I n d.dt V = some V1) {p : Nat} (hp : At P p c)
    {R : Int → Val} {st : St W} {σ : Mem × W} (hi : initObj I V1 n d.dt d.init (st.mem, st.w) = some σ) : ∃ R', Steps E P ⟨p, R, st⟩ ⟨p + c.length, R', res st σ⟩ := by
  obtain ⟨hc, ha1⟩ := declare_agree hf ha hd
  obtain ⟨n', hn', ⟨hi0, rfl, rfl⟩ | ⟨i, y, s1, hi1, h1, h2, rfl⟩⟩ := localDecl_ok h
  · simp only [initObj, hi0, Option.some.injEq] at hi
    subst hi
    exact ⟨R, .refl _⟩
  · rw [hn] at hn'
    cases hn'
    simp only [hi1, Option.all_some] at hs
    simp only [initObj, hi1, Option.bind_eq_bind, Option.bind_eq_some_iff] at hi
    obtain ⟨_, hneed, ls, hls, a, haddr, hi⟩ := hi
    obtain ⟨ho, hpk⟩ := CSem.need_some.1 hneed
    have hpk := hpk hl
    have hdecl : s.declare n d.dt = { s with syms := define n ⟨.mem ((s.mem + d.dt.nbytes + 3) / 4 * 4), d.dt⟩ s.syms, mem := (s.mem + d.dt.nbytes + 3) / 4 * 4 } := by
      simp only [GState.declare, hc, if_true, ho]
    have hy : y = ⟨.mem ((s.mem + d.dt.nbytes + 3) / 4 * 4), d.dt⟩ := by
      rw [hdecl] at h1
      simp only [lookup_define] at h1
      exact (Option.some.inj h1).symm
    have hr : Rel (V1.ctx I) E (s.declare n d.dt) := ha1.rel hf hl
    rw [ha1.names, find_locate, h1] at haddr
    rw [structs_eq, ha1.tags] at hpk hls
    subst hy
    simp only [Option.map_some, Option.some.injEq, CSem.addrOf] at haddr
    subst haddr
    obtain ⟨⟨f, g⟩, -⟩ := localInit_sim (C := V1.ctx I) (E := E) hu (K := ((s.mem + d.dt.nbytes + 3) / 4 * 4 : Nat)) i (o := 0) h2 hls (by simp [Loc.off]) hpk
    obtain ⟨R', k1, -⟩ := g (leaves_safe i hls hs) (hr.of rfl rfl) (R := R) hp hi
    exact ⟨R', k1⟩

theorem decls_sim (hu : UniqueLabels P) (hf : Fits I E) (hl : I.base.lim = true) : ∀ {ds : List SDecl} {V : Vars} {s s' : GState} {c : List Immc},
    localDecls ds s = .ok ((), c, s') → Agree E V s → (ds.all fun d => d.init.all safeInit) = true → ∀ {p : Nat}, At P p c → ∀ {R : Int → Val} {st : St W} {σ : Mem × W},
    execDecls I ds V (st.mem, st.w) = some σ → ∃ R', Steps E P ⟨p, R, st⟩ ⟨p + c.length, R', res st σ⟩
  | [], V, s, s', c, h, ha, hs, p, hp, R, st, σ, hx => by
    cases h
    cases hx
    exact ⟨R, .refl _⟩
  | d :: ds, V, s, s', c, h, ha, hs, p, hp, R, st, σ, hx => by
    obtain ⟨c1, s1, c2, h1, h2, rfl⟩ := localDecls_cons h
    obtain ⟨n, hn, k⟩ := localDecl_keep h1
    simp only [execDecls, hn, Option.bind_eq_bind, Option.bind_eq_some_iff] at hx
    obtain ⟨V1, hd, σ1, hi, hx⟩ := hx
    simp only [List.all_cons, Bool.and_eq_true] at hs
    obtain ⟨a1, a2⟩ := at_append.1 hp
    obtain ⟨R1, g1⟩ := decl_sim hu hf hl hn h1 ha hs.1 hd a1 (R := R) hi
    obtain ⟨R2, g2⟩ := decls_sim hu hf hl h2 (((declare_agree hf ha hd).2).of k.syms k.tags k.mem) hs.2 a2 (R := R1) (st := res st σ1) hx
    exact ⟨R2, (g1.trans g2).to (by len)⟩

/-! ### the jumps of a `switch` -/

theorem wider_bits (a b : Sfx) : a.bits ≤ (IMach.wider a b).bits := by
  unfold IMach.wider
  split <;> omega

theorem eq_of_wider {q : Sfx × Bool} {a b : Int} {w : Nat} (ha : InRange q a) (hb : InRange q b) (hq : q.1 ≠ .none) (hw : q.1.bits ≤ w)
    (h : BitVec.ofInt w a = BitVec.ofInt w b) : a = b := by
  refine inj ha hb hq (ofInt_eq.2 ?_)
  have h := ofInt_eq.1 h
  have hd : (2 : Int) ^ q.1.bits ∣ 2 ^ w := ⟨2 ^ (w - q.1.bits), by rw [← Int.pow_add, Nat.add_sub_cancel' hw]⟩
  rw [← Int.emod_emod_of_dvd a hd, h, Int.emod_emod_of_dvd _ hd]

theorem case_step (hu : UniqueLabels P) {q : Sfx × Bool} (hq : q.1 ≠ .none) {id r x : Int} {l : ILit} {p k : Nat} {R : Int → Val} {st : St W}
    (hr : R r = ⟨q.1, BitVec.ofInt _ x⟩) (hx : InRange q x) (hv : InRange q l.value) (hk : LabelAt P k id)
    (hc : P[p]? = some (inst .jeq (some (labelOpe id)) (some (.reg q.1 r q.2)) (some (.int (Sfx.get l.type.nbytes) l)))) :
    Steps E P ⟨p, R, st⟩ ⟨if l.value = x then k else p + 1, R, st⟩ := by
  obtain ⟨lt, vis, hk⟩ := hk
  have hl : Sfx.get l.type.nbytes ≠ .none := by cases l.type <;> decide
  have h1 := src_reg hq hx hr (IMach.wider q.1 (Sfx.get l.type.nbytes))
  have key : ∀ {fo so : Option Ope} {f g pp : Option Val} {w : Sfx} (_ : IMach.wider (IMach.width fo) (IMach.width so) = w) {x y : BitVec w.bits}
      (_ : IMach.src fo f w = some x) (_ : IMach.src so g w = some y),
      IMach.exec E .jeq (some (.label (labelName id))) fo so f g pp st = some (st, IMach.noVal, decide (x.toNat = y.toNat)) := by
    intro fo so f g pp w hw x y hx hy
    subst hw
    simp only [IMach.exec, hx, hy, ISem.rel, Option.map_some]
  have h2 : IMach.src (RSpec.eraseOpe (some (.int (Sfx.get l.type.nbytes) l))) (rv R (some (.int (Sfx.get l.type.nbytes) l))) (IMach.wider q.1 (Sfx.get l.type.nbytes)) =
      some (BitVec.ofInt _ l.value) := by
    simp only [IMach.src, RSpec.eraseOpe, ne_eq, hl, not_false_eq_true, if_true]
  have key := key (fo := RSpec.eraseOpe (some (.reg q.1 r q.2))) (so := RSpec.eraseOpe (some (.int (Sfx.get l.type.nbytes) l))) (pp := none)
    (w := IMach.wider q.1 (Sfx.get l.type.nbytes)) rfl h1 h2
  have hd : decide ((BitVec.ofInt (IMach.wider q.1 (Sfx.get l.type.nbytes)).bits x).toNat = (BitVec.ofInt (IMach.wider q.1 (Sfx.get l.type.nbytes)).bits l.value).toNat) =
      decide (l.value = x) := by
    by_cases e : l.value = x
    · simp [e]
    · rw [decide_eq_false e, decide_eq_false_iff_not]
      exact fun h => e (eq_of_wider hx hv hq (wider_bits _ _) (BitVec.eq_of_toNat_eq h)).symm
  rw [hd] at key
  by_cases e : l.value = x
  · rw [if_pos e]
    simp only [e, decide_true] at key
    exact step_taken hu (by rfl) hc hk key
  · rw [if_neg e]
    simp only [e, decide_false] at key
    exact step_not_taken (by rfl) (by decide) hc key

theorem caseJumps_steps (hu : UniqueLabels P) {q : Sfx × Bool} (hq : q.1 ≠ .none) {r x : Int} {R : Int → Val} {st : St W}
    (hr : R r = ⟨q.1, BitVec.ofInt _ x⟩) (hx : InRange q x) : ∀ {cs : List (Int × ILit)} {p : Nat}, At P p (caseJumps (.reg q.1 r q.2) cs) →
    (∀ c ∈ cs, InRange q c.2.value ∧ ∃ k, LabelAt P k c.1) →
    (∀ id l k, firstCase x cs = some (id, l) → LabelAt P k id → Steps E P ⟨p, R, st⟩ ⟨k, R, st⟩) ∧
    (firstCase x cs = none → Steps E P ⟨p, R, st⟩ ⟨p + cs.length, R, st⟩)
  | [], p, _, _ => ⟨fun _ _ _ h => by simp [firstCase] at h, fun _ => .refl _⟩
  | (id, l) :: cs, p, hp, hc => by
    obtain ⟨hp1, hp2⟩ := hp
    obtain ⟨hv, k0, hk0⟩ := hc (id, l) (by simp)
    have ih := caseJumps_steps (st := st) hu hq hr hx (cs := cs) hp2 (fun c hm => hc c (by simp [hm]))
    have s1 := case_step (E := E) (st := st) hu hq hr hx hv hk0 hp1
    by_cases e : l.value = x
    · rw [if_pos e] at s1
      have hf : firstCase x ((id, l) :: cs) = some (id, l) := by simp [firstCase, e]
      refine ⟨?_, fun h => by rw [hf] at h; cases h⟩
      intro id' l' k h hk
      rw [hf] at h
      cases h
      rw [hk.unique hu hk0]
      exact s1
    · rw [if_neg e] at s1
      have hf : firstCase x ((id, l) :: cs) = firstCase x cs := by simp [firstCase, e]
      rw [hf]
      refine ⟨fun id' l' k h hk => s1.trans (ih.1 id' l' k h hk), fun h => (s1.trans (ih.2 h)).to (by simp only [List.length_cons]; omega)⟩

end Sim
end Umlcc
