import Verif.Spec.StmtGen
import Verif.Lemma.SimInit
import Verif.Lemma.SimProps
/-!
C36: what the generator's tables say about names, tags, cases and the default label while statements are translated.
-/
namespace Umlcc
namespace Sim
open IMach (Val St Env Mem)
open CSem (InRange rep Ctx eval safe addrOf wrap)
open CStm
open CStm (Fits Agree locate)
open Lay (tagsOf constant)
open Gen

variable {W : Type} {I : Impl W} {E : Env W}

/-! ### names -/

theorem find_eq {α : Type} (n : Str) : ∀ l : List (List (Str × α)), find n l = lookup n l
  | [] => rfl
  | sc :: scs => by rw [find, lookup, find_eq n scs]

theorem lookup_map {α β : Type} (f : Str → α → β) (n : Str) : ∀ l : List (Str × α), (l.map fun p => (p.1, f p.1 p.2)).lookup n = (l.lookup n).map (f n)
  | [] => rfl
  | (m, x) :: l => by
    simp only [List.map_cons, List.lookup_cons]
    by_cases h : n = m
    · subst h; simp
    · simp [h, lookup_map f n l, beq_eq_false_iff_ne.2 h]

theorem find_locate (n : Str) : ∀ l, find n (locate E l) = (lookup n l).map fun y => addrOf E n y.loc
  | [] => rfl
  | sc :: scs => by
    show find n ((sc.map fun p => (p.1, addrOf E p.1 p.2.loc)) :: locate E scs) = _
    rw [find, lookup, find_locate n scs, lookup_map (fun n (y : GSym) => addrOf E n y.loc)]
    cases sc.lookup n <;> simp

theorem isNew_locate (n : Str) : ∀ l, isNew n (locate E l) = canDefine n l
  | [] => rfl
  | sc :: scs => by
    show isNew n ((sc.map fun p => (p.1, addrOf E p.1 p.2.loc)) :: locate E scs) = _
    rw [isNew, canDefine, lookup_map (fun n (y : GSym) => addrOf E n y.loc)]
    simp

theorem isNew_eq {α : Type} (n : Str) : ∀ l : List (List (Str × α)), isNew n l = canDefine n l
  | [] => rfl
  | _ :: _ => rfl

theorem add_eq {α : Type} (n : Str) (x : α) : ∀ l : List (List (Str × α)), add n x l = define n x l
  | [] => rfl
  | _ :: _ => rfl

theorem add_locate (n : Str) (y : GSym) : ∀ l, add n (addrOf E n y.loc) (locate E l) = locate E (define n y l)
  | [] => rfl
  | _ :: _ => rfl

theorem structs_eq (tags : List (List (Str × DType))) : structs tags = tagsOf tags := by
  funext n
  rw [structs, tagsOf, find_eq]
  cases lookup n tags with
  | none => rfl
  | some t => cases t <;> rfl

theorem _root_.Umlcc.CStm.Agree.of {V : Vars} {s s' : GState} (h : Agree E V s) (h1 : s'.syms = s.syms) (h2 : s'.tags = s.tags) (h3 : s'.mem = s.mem) : Agree E V s' :=
  ⟨by rw [h1]; exact h.names, by rw [h2]; exact h.tags, by rw [h3]; exact h.used⟩

theorem _root_.Umlcc.CStm.Agree.frame {V : Vars} {s s' : GState} (h : Agree E V s) (f : Frame s s') : Agree E V s' := h.of f.syms f.tags f.mem

theorem _root_.Umlcc.CStm.Agree.enter {V : Vars} {s : GState} (h : Agree E V s) : Agree E V.enter { s with syms := [] :: s.syms, tags := [] :: s.tags } :=
  ⟨by show [] :: V.names = _; rw [h.names]; rfl, by show [] :: V.tags = _; rw [h.tags], h.used⟩

/-- evaluation of expressions -/
theorem _root_.Umlcc.CStm.Agree.rel {V : Vars} {s : GState} (hf : Fits I E) (hl : I.base.lim = true) (h : Agree E V s) : Rel (V.ctx I) E s where
  call := hf.call
  ok := hf.ok
  str := hf.str
  addr n y hy := by
    have := (ctxOf_describes E s true).addr n y hy
    simp only [Vars.ctx, h.names, find_locate]
    exact this
  tag n ms b a ht := by
    simp only [Vars.ctx, h.tags, find_eq, ht]
    rfl
  lim := hl

theorem declare_agree {V V' : Vars} {s : GState} {n : Str} {t : DType} (hf : Fits I E) (h : Agree E V s) (hd : CStm.declare I n t V = some V') :
    canDefine n s.syms = true ∧ Agree E V' (s.declare n t) := by
  simp only [CStm.declare, Option.bind_eq_bind, Option.bind_eq_some_iff] at hd
  obtain ⟨_, hn, hd⟩ := hd
  have hn := CSem.need_some.1 hn
  rw [h.names, isNew_locate] at hn
  refine ⟨hn, ?_⟩
  unfold GState.declare
  rw [if_pos hn]
  split at hd
  · rename_i ho
    rw [if_pos ho]
    cases hd
    refine ⟨?_, h.tags, ?_⟩
    · show add n _ V.names = locate E (define n ⟨.mem _, t⟩ s.syms)
      rw [← add_locate, h.names, hf.place, hf.frame, h.used]
      simp only [addrOf, BitVec.ofInt_natCast]
    · simp only [hf.place, h.used]
  · rename_i ho
    rw [if_neg ho]
    simp only [Option.bind_eq_some_iff] at hd
    obtain ⟨a, ha, hd⟩ := hd
    cases hd
    obtain ⟨hm, rfl⟩ := hf.addr n a ha
    refine ⟨?_, h.tags, h.used⟩
    show add n _ V.names = locate E (define n ⟨.label, t⟩ s.syms)
    rw [← add_locate, h.names, addrOf, dif_pos hm]

/-! ### initialisers change no tables -/

/-- what an initialiser leaves as it is -/
structure IKeep (s s' : GState) : Prop where
  syms : s'.syms = s.syms
  tags : s'.tags = s.tags
  mem : s'.mem = s.mem
  cases : s'.cases = s.cases
  dflt : s'.dflt = s.dflt
  ret : s'.ret = s.ret

theorem IKeep.refl (s : GState) : IKeep s s := ⟨rfl, rfl, rfl, rfl, rfl, rfl⟩
theorem IKeep.trans {a b c : GState} (h : IKeep a b) (k : IKeep b c) : IKeep a c :=
  ⟨k.syms.trans h.syms, k.tags.trans h.tags, k.mem.trans h.mem, k.cases.trans h.cases, k.dflt.trans h.dflt, k.ret.trans h.ret⟩

theorem arrayInit_keep {t : DType} : ∀ {n : Nat} {gs : List (DType → GM Unit)}
    (_ : ∀ g ∈ gs, ∀ {t s c s'}, g t s = .ok ((), c, s') → IKeep s s') {s s' : GState} {c : List Immc},
    arrayInit t n gs s = .ok ((), c, s') → IKeep s s'
  | 0, _, _, s, s', c, h => by cases h; exact .refl s
  | n + 1, [], _, s, s', c, h => by simp [arrayInit, ub_ok] at h
  | n + 1, g :: gs, hg, s, s', c, h => by
    obtain ⟨c1, s1, c2, h1, h2, rfl⟩ := arrayInit_cons h
    exact (hg g (by simp) h1).trans (arrayInit_keep (fun g' hg' => hg g' (by simp [hg'])) h2)

theorem localMembers_keep {off : Int} : ∀ {ms : List (DType × Nat)} {gs : List (DType → GM Unit)}
    (_ : ∀ g ∈ gs, ∀ {t s c s'}, g t s = .ok ((), c, s') → IKeep s s') {s s' : GState} {c : List Immc},
    localMembers off ms gs s = .ok ((), c, s') → IKeep s s'
  | [], _, _, s, s', c, h => by cases h; exact .refl s
  | _ :: _, [], _, s, s', c, h => by simp [localMembers, ub_ok] at h
  | (t, o) :: ms, g :: gs, hg, s, s', c, h => by
    obtain ⟨c1, s1, c2, h1, h2, rfl⟩ := localMembers_cons h
    have k := hg g (by simp) h1
    exact IKeep.trans (b := s1) ⟨k.syms, k.tags, k.mem, k.cases, k.dflt, k.ret⟩ (localMembers_keep (fun g' hg' => hg g' (by simp [hg'])) h2)

theorem localStruct_keep {t : DType} {gs : List (DType → GM Unit)} (hg : ∀ g ∈ gs, ∀ {t s c s'}, g t s = .ok ((), c, s') → IKeep s s')
    {s s' : GState} {c : List Immc} (h : localStruct t gs s = .ok ((), c, s')) : IKeep s s' := by
  obtain ⟨ms, b, a, _, h2⟩ := localStruct_ok h
  exact localMembers_keep hg h2

mutual
theorem localInit_keep : ∀ (i : SInit) {t : DType} {s s' : GState} {c : List Immc}, localInit i t s = .ok ((), c, s') → IKeep s s'
  | .expr e, t, s, s', c, h => by
    simp only [localInit] at h
    split at h
    · obtain ⟨o, c1, s1, h1, rfl, rfl⟩ := localScalar_ok h
      have f := ((expr_inv e).int h1).1
      exact ⟨f.syms, f.tags, f.mem, f.cases, f.dflt, f.ret⟩
    · simp [ub_ok] at h
  | .str u b, t, s, s', c, h => by
    simp only [localInit] at h
    split at h
    · rw [localString_run, Out.ok.injEq, Prod.mk.injEq, Prod.mk.injEq] at h
      obtain ⟨_, rfl, rfl⟩ := h
      exact ⟨rfl, rfl, rfl, rfl, rfl, rfl⟩
    · simp [ub_ok] at h
  | .list is, t, s, s', c, h => by
    simp only [localInit] at h
    split at h
    · exact arrayInit_keep (localInits_keep is) h
    · exact localStruct_keep (localInits_keep is) h
    · exact localStruct_keep (localInits_keep is) h
    · simp [ub_ok] at h
theorem localInits_keep : ∀ (is : SInits), ∀ g ∈ localInits is, ∀ {t : DType} {s : GState} {c : List Immc} {s' : GState},
    g t s = .ok ((), c, s') → IKeep s s'
  | .nil, g, hg, _, _, _, _, _ => by simp [localInits] at hg
  | .cons i is, g, hg, t, s, c, s', h => by
    simp only [localInits, List.mem_cons] at hg
    rcases hg with rfl | hg
    · exact localInit_keep i h
    · exact localInits_keep is g hg h
end

/-- the state after a declaration, as far as the tables go -/
theorem localDecl_keep {d : SDecl} {s s' : GState} {c : List Immc} (h : localDecl d s = .ok ((), c, s')) :
    ∃ n, d.who = .ident n ∧ IKeep (s.declare n d.dt) s' := by
  obtain ⟨n, hn, ⟨_, rfl, rfl⟩ | ⟨i, y, s1, _, _, h1, rfl⟩⟩ := localDecl_ok h
  · exact ⟨n, hn, .refl _⟩
  · have k := localInit_keep i h1
    exact ⟨n, hn, ⟨k.syms, k.tags, k.mem, k.cases, k.dflt, k.ret⟩⟩

theorem declare_keep (s : GState) (n : Str) (t : DType) : (s.declare n t).cases = s.cases ∧ (s.declare n t).dflt = s.dflt ∧ (s.declare n t).ret = s.ret :=
  ⟨(declare_same s n t).cases, (declare_same s n t).dflt, (declare_same s n t).ret⟩

theorem localDecls_keep : ∀ {ds : List SDecl} {s s' : GState} {c : List Immc}, localDecls ds s = .ok ((), c, s') → s'.cases = s.cases ∧ s'.dflt = s.dflt
  | [], s, s', c, h => by cases h; exact ⟨rfl, rfl⟩
  | d :: ds, s, s', c, h => by
    obtain ⟨c1, s1, c2, h1, h2, rfl⟩ := localDecls_cons h
    obtain ⟨n, -, k⟩ := localDecl_keep h1
    have e := declare_keep s n d.dt
    have i := localDecls_keep h2
    exact ⟨i.1.trans (k.cases.trans e.1), i.2.trans (k.dflt.trans e.2.1)⟩

/-! ### scopes -/

theorem localDecls_agree (hf : Fits I E) : ∀ {ds : List SDecl} {V V' : Vars} {s s' : GState} {c : List Immc}, localDecls ds s = .ok ((), c, s') →
    declareAll I ds V = some V' → Agree E V s → Agree E V' s'
  | [], V, V', s, s', c, h, hv, ha => by cases h; cases hv; exact ha
  | d :: ds, V, V', s, s', c, h, hv, ha => by
    obtain ⟨c1, s1, c2, h1, h2, rfl⟩ := localDecls_cons h
    obtain ⟨n, hn, k⟩ := localDecl_keep h1
    simp only [declareAll, hn, Option.bind_eq_bind, Option.bind_eq_some_iff] at hv
    obtain ⟨V1, hd, hv⟩ := hv
    exact localDecls_agree hf h2 hv (((declare_agree hf ha hd).2).of k.syms k.tags k.mem)

theorem tagDecl_agree {n : Str} {t : DType} {V V' : Vars} {s s' : GState} {c : List Immc} (h : tagDecl n t s = .ok ((), c, s')) (hs : laidOut t = true)
    (hv : declareTag n t V = some V') (ha : Agree E V s) : Agree E V' s' := by
  cases t with
  | ustruct ms b a =>
    simp only [declareTag, Option.bind_eq_bind, Option.bind_eq_some_iff] at hv
    obtain ⟨_, hn, hv⟩ := hv
    cases hv
    have hn := CSem.need_some.1 hn
    rw [ha.tags, isNew_eq] at hn
    simp only [laidOut, decide_eq_true_eq] at hs
    simp only [tagDecl, get_bind, hn, if_true] at h
    gm at h
    obtain ⟨t, c1, s1, _, h1, ⟨rfl, rfl⟩, rfl⟩ := h
    obtain ⟨h1, rfl, rfl⟩ := lift_ok.1 h1
    rw [hs] at h1
    cases h1
    exact ⟨ha.names, by simp only [add_eq, ha.tags], ha.used⟩
  | nstruct => simp [tagDecl, ub_ok] at h
  | _ =>
    simp only [tagDecl] at h
    cases h
    cases hv
    exact ha

theorem tagDecl_keep {n : Str} {t : DType} {s s' : GState} {c : List Immc} (h : tagDecl n t s = .ok ((), c, s')) :
    c = [] ∧ s'.cases = s.cases ∧ s'.dflt = s.dflt ∧ s'.ret = s.ret ∧ s'.brk = s.brk ∧ s'.cont = s.cont ∧ s'.lab = s.lab := by
  obtain ⟨rfl, tg, rfl⟩ := tagDecl_ok h
  exact ⟨rfl, rfl, rfl, rfl, rfl, rfl, rfl⟩

theorem declare_tail {n : Str} {t : DType} {V V' : Vars} (h : CStm.declare I n t V = some V') : V'.names.tail = V.names.tail ∧ V'.tags = V.tags := by
  have k : ∀ (x : BitVec 64) l, (add n x l).tail = l.tail := by intro x l; cases l <;> rfl
  simp only [CStm.declare, Option.bind_eq_bind, Option.bind_eq_some_iff] at h
  obtain ⟨_, -, h⟩ := h
  split at h
  · cases h; exact ⟨k _ _, rfl⟩
  · simp only [Option.bind_eq_some_iff] at h
    obtain ⟨a, -, h⟩ := h
    cases h; exact ⟨k _ _, rfl⟩

theorem declareAll_tail : ∀ {ds : List SDecl} {V V' : Vars}, declareAll I ds V = some V' → V'.names.tail = V.names.tail ∧ V'.tags = V.tags
  | [], V, V', h => by cases h; exact ⟨rfl, rfl⟩
  | d :: ds, V, V', h => by
    cases hw : d.who with
    | str => simp [declareAll, hw] at h
    | ident n =>
      simp only [declareAll, hw, Option.bind_eq_bind, Option.bind_eq_some_iff] at h
      obtain ⟨V1, h1, h2⟩ := h
      have := declareAll_tail h2
      have k := declare_tail h1
      exact ⟨this.1.trans k.1, this.2.trans k.2⟩

theorem declareTag_tail {n : Str} {t : DType} {V V' : Vars} (h : declareTag n t V = some V') : V'.names = V.names ∧ V'.tags.tail = V.tags.tail := by
  have k : ∀ (x : DType) l, (add n x l).tail = l.tail := by intro x l; cases l <;> rfl
  unfold declareTag at h
  split at h
  · simp only [Option.bind_eq_bind, Option.bind_eq_some_iff] at h
    obtain ⟨_, -, h⟩ := h
    cases h; exact ⟨rfl, k _ _⟩
  · cases h; exact ⟨rfl, rfl⟩

mutual
theorem scope_same : ∀ (b : SStmt) {V V' : Vars}, scope I b V = some V' → V'.names = V.names ∧ V'.tags = V.tags
  | .cmpd is, V, V', h => by
    simp only [scope, Option.bind_eq_bind, Option.bind_eq_some_iff] at h
    obtain ⟨V1, -, h⟩ := h
    cases h; exact ⟨rfl, rfl⟩
  | .case _ s, V, V', h | .dflt s, V, V', h | .switch _ s, V, V', h | .while _ s, V, V', h | .ite _ s, V, V', h => by
    simp only [scope] at h
    exact scope_same s h
  | .itee _ t e, V, V', h => by
    simp only [scope, Option.bind_eq_bind, Option.bind_eq_some_iff] at h
    obtain ⟨V1, h1, h2⟩ := h
    have a := scope_same t h1
    have b := scope_same e h2
    exact ⟨b.1.trans a.1, b.2.trans a.2⟩
  | .for i _ n b, V, V', h => by
    simp only [scope, Option.bind_eq_bind, Option.bind_eq_some_iff] at h
    obtain ⟨V1, -, V2, -, V3, -, h⟩ := h
    cases h; exact ⟨rfl, rfl⟩
  | .cont, V, V', h | .brk, V, V', h | .ret _, V, V', h | .expr _, V, V', h | .null, V, V', h => by
    simp only [scope] at h
    cases h; exact ⟨rfl, rfl⟩
end

theorem scopeItem_tail (i : SItem) {V V' : Vars} (h : scopeItem I i V = some V') : V'.names.tail = V.names.tail ∧ V'.tags.tail = V.tags.tail := by
  cases i with
  | stmt s =>
    simp only [scopeItem] at h
    obtain ⟨a, b⟩ := scope_same s h
    rw [a, b]; exact ⟨rfl, rfl⟩
  | decls ds =>
    simp only [scopeItem] at h
    obtain ⟨a, b⟩ := declareAll_tail h
    rw [a, b]; exact ⟨rfl, rfl⟩
  | tag n t =>
    simp only [scopeItem] at h
    obtain ⟨a, b⟩ := declareTag_tail h
    rw [a, b]; exact ⟨rfl, rfl⟩

theorem scopes_tail : ∀ (is : SItems) {V V' : Vars}, scopes I is V = some V' → V'.names.tail = V.names.tail ∧ V'.tags.tail = V.tags.tail
  | .nil, V, V', h => by cases h; exact ⟨rfl, rfl⟩
  | .cons i is, V, V', h => by
    simp only [scopes, Option.bind_eq_bind, Option.bind_eq_some_iff] at h
    obtain ⟨V1, h1, h2⟩ := h
    have a := scopeItem_tail i h1
    have b := scopes_tail is h2
    exact ⟨b.1.trans a.1, b.2.trans a.2⟩

/-- the end of a block -/
theorem _root_.Umlcc.CStm.Agree.leave {V V' : Vars} {s : GState} (h : Agree E V' s) (h1 : V'.names.tail = V.names) (h2 : V'.tags.tail = V.tags) :
    Agree E { V with used := V'.used } { s with syms := s.syms.tail, tags := s.tags.tail } := by
  refine ⟨?_, ?_, h.used⟩
  · show V.names = locate E s.syms.tail
    rw [← h1, h.names]
    cases s.syms <;> rfl
  · show V.tags = s.tags.tail
    rw [← h2, h.tags]

theorem forCond_frame {c : SStmt} {n : Name} {s s' : GState} {code : List Immc} (h : forCond c n s = .ok ((), code, s')) : Frame s s' := (forCond_good h).1

mutual
theorem stmt_agree (hf : Fits I E) : ∀ (b : SStmt) {V V' : Vars} {s s' : GState} {c : List Immc}, stmt b s = .ok ((), c, s') → sound b = true →
    scope I b V = some V' → Agree E V s → Agree E V' s'
  | .cmpd is, V, V', s, s', c, h, hs, hv, ha => by
    obtain ⟨s1, h1, rfl⟩ := stmt_cmpd h
    simp only [scope, Option.bind_eq_bind, Option.bind_eq_some_iff] at hv
    obtain ⟨V1, h2, hv⟩ := hv
    cases hv
    simp only [sound] at hs
    exact (items_agree hf is h1 hs h2 ha.enter).leave (scopes_tail is h2).1 (scopes_tail is h2).2
  | .case v b, V, V', s, s', c, h, hs, hv, ha => by
    obtain ⟨cs, t, l, c1, _, _, h1, _⟩ := stmt_case h
    simp only [scope] at hv
    simp only [sound] at hs
    exact stmt_agree hf b h1 hs hv (ha.of rfl rfl rfl)
  | .dflt b, V, V', s, s', c, h, hs, hv, ha => by
    obtain ⟨c1, h1, _⟩ := stmt_dflt h
    simp only [scope] at hv
    simp only [sound] at hs
    exact stmt_agree hf b h1 hs hv (ha.of rfl rfl rfl)
  | .cont, V, V', s, s', c, h, hs, hv, ha | .brk, V, V', s, s', c, h, hs, hv, ha => by
    simp only [stmt] at h
    gm at h
    obtain ⟨rfl, rfl⟩ := h
    cases hv; exact ha
  | .null, V, V', s, s', c, h, hs, hv, ha => by
    simp only [stmt] at h
    cases h
    cases hv; exact ha
  | .ret none, V, V', s, s', c, h, hs, hv, ha => by
    simp only [stmt, Option.map_none] at h
    obtain ⟨rfl, rfl⟩ := returnCode_none h
    cases hv; exact ha
  | .ret (some e), V, V', s, s', c, h, hs, hv, ha => by
    simp only [stmt, Option.map_some] at h
    obtain ⟨o, c1, h1, rfl⟩ := returnCode_some h
    cases hv; exact ha.frame ((expr_inv e).int h1).1
  | .expr e, V, V', s, s', c, h, hs, hv, ha => by
    simp only [stmt, modify_bind] at h
    cases hv
    have f := ((expr_inv e).code h).1
    exact ha.of f.syms f.tags f.mem
  | .ite e t, V, V', s, s', c, h, hs, hv, ha => by
    simp only [stmt] at h
    obtain ⟨j, c1, s1, c2, h1, h2, -⟩ := iteCode_ok h
    simp only [sound, Bool.and_eq_true] at hs
    simp only [scope] at hv
    have f := ((expr_inv e).jmp h1).1.1
    exact stmt_agree hf t h2 hs.2 hv (ha.of f.syms f.tags f.mem)
  | .itee e t u, V, V', s, s', c, h, hs, hv, ha => by
    simp only [stmt] at h
    obtain ⟨j, c1, s1, c2, s2, c3, h1, h2, h3, -⟩ := iteeCode_ok h
    simp only [sound, Bool.and_eq_true] at hs
    simp only [scope, Option.bind_eq_bind, Option.bind_eq_some_iff] at hv
    obtain ⟨V1, v1, v2⟩ := hv
    have f := ((expr_inv e).jmp h1).1.1
    exact stmt_agree hf u h3 hs.2 v2 (stmt_agree hf t h2 hs.1.2 v1 (ha.of f.syms f.tags f.mem))
  | .switch e b, V, V', s, s', c, h, hs, hv, ha => by
    simp only [stmt] at h
    obtain ⟨o, c1, s1, c2, s2, h1, h2, rfl, rfl⟩ := switchCode_ok h
    simp only [sound, Bool.and_eq_true] at hs
    simp only [scope] at hv
    have f := ((expr_inv e).reg h1).1
    exact (stmt_agree hf b h2 hs.2 hv (ha.of f.syms f.tags f.mem)).of rfl rfl rfl
  | .while e b, V, V', s, s', c, h, hs, hv, ha => by
    simp only [stmt] at h
    obtain ⟨j, c1, s1, c2, s2, h1, h2, rfl, rfl⟩ := whileCode_ok h
    simp only [sound, Bool.and_eq_true] at hs
    simp only [scope] at hv
    have f := ((expr_inv e).jmp h1).1.1
    exact (stmt_agree hf b h2 hs.2 hv (ha.of f.syms f.tags f.mem)).of rfl rfl rfl
  | .for i e n b, V, V', s, s', c, h, hs, hv, ha => by
    obtain ⟨s1, hc, rfl⟩ := stmt_for h
    obtain ⟨c1, s2, c2, s3, c3, s4, c4, h1, h2, h3, h4, rfl⟩ := forCode_ok hc
    simp only [sound, Bool.and_eq_true] at hs
    obtain ⟨⟨⟨⟨i1, i2⟩, i3⟩, i4⟩, i5⟩ := hs
    simp only [scope, Option.bind_eq_bind, Option.bind_eq_some_iff] at hv
    obtain ⟨V1, v1, V2, v2, V3, v3, hv⟩ := hv
    cases hv
    have a1 := item_agree hf i h1 i1 v1 (ha.enter.of rfl rfl rfl)
    have a2 := stmt_agree hf b h3 i5 v2 ((a1.frame (forCond_frame h2)).of rfl rfl rfl)
    have hn : sound n = true := by cases n <;> simp_all [simple, sound]
    have a3 := stmt_agree hf n h4 hn v3 (a2.of rfl rfl rfl)
    have t1 := scopeItem_tail i v1
    have t2 := scope_same b v2
    have t3 := scope_same n v3
    exact a3.leave (by rw [t3.1, t2.1, t1.1]; rfl) (by rw [t3.2, t2.2, t1.2]; rfl)
theorem item_agree (hf : Fits I E) : ∀ (b : SItem) {V V' : Vars} {s s' : GState} {c : List Immc}, item b s = .ok ((), c, s') → soundItem b = true →
    scopeItem I b V = some V' → Agree E V s → Agree E V' s'
  | .stmt b, V, V', s, s', c, h, hs, hv, ha => by
    simp only [item] at h
    simp only [soundItem] at hs
    simp only [scopeItem] at hv
    exact stmt_agree hf b h hs hv ha
  | .decls ds, V, V', s, s', c, h, hs, hv, ha => by
    simp only [item] at h
    simp only [scopeItem] at hv
    exact localDecls_agree hf h hv ha
  | .tag n t, V, V', s, s', c, h, hs, hv, ha => by
    simp only [item] at h
    simp only [soundItem] at hs
    simp only [scopeItem] at hv
    exact tagDecl_agree h hs hv ha
theorem items_agree (hf : Fits I E) : ∀ (is : SItems) {V V' : Vars} {s s' : GState} {c : List Immc}, items is s = .ok ((), c, s') → soundAll is = true →
    scopes I is V = some V' → Agree E V s → Agree E V' s'
  | .nil, V, V', s, s', c, h, hs, hv, ha => by
    simp only [items] at h
    cases h; cases hv; exact ha
  | .cons i is, V, V', s, s', c, h, hs, hv, ha => by
    obtain ⟨c1, s1, c2, h1, h2, rfl⟩ := items_cons h
    simp only [soundAll, Bool.and_eq_true] at hs
    simp only [scopes, Option.bind_eq_bind, Option.bind_eq_some_iff] at hv
    obtain ⟨V1, v1, v2⟩ := hv
    exact items_agree hf is h2 hs.2 v2 (item_agree hf i h1 hs.1 v1 ha)
end

/-! ### labels of cases -/

/-- the first case with a value -/
def firstCase (v : Int) (cs : List (Int × ILit)) : Option (Int × ILit) := cs.find? fun p => p.2.value == v

/-- The labels noted while code is generated between two states are those that `h` says; `ok` says for which types the values of the cases are their own. -/
structure Cases (h : Label → Bool) (ok : Sfx × Bool → Bool) (s s' : GState) : Prop where
  value : ∀ cs, s.cases = some cs → ∃ new, s'.cases = some (cs ++ new) ∧ ∀ q, q.1 ≠ .none → ok q = true →
    (∀ v, h (.value q v) = (firstCase v new).isSome) ∧ ∀ p ∈ new, InRange q p.2.value
  same : h .dflt = false → s'.dflt = s.dflt
  new : h .dflt = true → s.lab < s'.dflt
  lab : s.lab ≤ s'.lab

variable {h h1 h2 : Label → Bool} {ok ok1 ok2 : Sfx × Bool → Bool} {s s1 s2 s' : GState}

theorem Cases.from (k : Cases h ok s1 s') (e1 : s1.cases = s.cases) (e2 : s1.dflt = s.dflt) (e3 : s.lab ≤ s1.lab) : Cases h ok s s' where
  value := by rw [← e1]; exact k.value
  same := by rw [← e2]; exact k.same
  new hd := by have := k.new hd; omega
  lab := by have := k.lab; omega

theorem Cases.upto (k : Cases h ok s s1) (e1 : s'.cases = s1.cases) (e2 : s'.dflt = s1.dflt) (e3 : s1.lab ≤ s'.lab) : Cases h ok s s' where
  value := by rw [e1]; exact k.value
  same := by rw [e2]; exact k.same
  new := by rw [e2]; exact k.new
  lab := by have := k.lab; omega

theorem Cases.none (e1 : s'.cases = s.cases) (e2 : s'.dflt = s.dflt) (e3 : s.lab ≤ s'.lab) : Cases (fun _ => false) ok s s' where
  value cs hc := ⟨[], by simp [e1, hc], by simp [firstCase]⟩
  same _ := e2
  new hd := by cases hd
  lab := e3

theorem Cases.seq (k1 : Cases h1 ok1 s s1) (k2 : Cases h2 ok2 s1 s') : Cases (fun T => h1 T || h2 T) (fun q => ok1 q && ok2 q) s s' where
  value cs hc := by
    obtain ⟨n1, a1, a2⟩ := k1.value cs hc
    obtain ⟨n2, b1, b2⟩ := k2.value _ a1
    refine ⟨n1 ++ n2, by rw [b1, List.append_assoc], ?_⟩
    intro q hq hok
    simp only [Bool.and_eq_true] at hok
    refine ⟨fun v => by simp only [(a2 q hq hok.1).1 v, (b2 q hq hok.2).1 v, firstCase, List.find?_append, Option.isSome_or], ?_⟩
    intro p hp
    rcases List.mem_append.1 hp with hp | hp
    · exact (a2 q hq hok.1).2 p hp
    · exact (b2 q hq hok.2).2 p hp
  same hd := by
    simp only [Bool.or_eq_false_iff] at hd
    rw [k2.same hd.2, k1.same hd.1]
  new hd := by
    have e1 := k1.lab
    cases hd2 : h2 .dflt with
    | true => have := k2.new hd2; omega
    | false =>
      simp only [hd2, Bool.or_false] at hd
      rw [k2.same hd2]
      exact k1.new hd
  lab := by have := k1.lab; have := k2.lab; omega

theorem constant_lit {t : DType} {l : ILit} {v : Int} (h : constant (.ilit t l) = some v) : v = l.value := by
  simp only [constant, eval, Option.bind_eq_bind, Option.map_eq_some_iff, Option.bind_eq_some_iff] at h
  obtain ⟨x, ⟨q, _, _, _, hx⟩, rfl⟩ := h
  cases hx
  rfl

theorem is_lit {t : DType} {l : ILit} {q : Sfx × Bool} {v w : Int} (h : constant (.ilit t l) = some w) (hq : q.1 ≠ .none) (hr : InRange q w) :
    Label.is (.value q v) (.ilit t l) = (l.value == v) := by
  have := constant_lit h
  subst this
  simp only [Label.is, h, Option.map_some, wrap_eq hr hq, Option.some.injEq]
  by_cases e : l.value = v <;> simp [e]

theorem Cases.congr (k : Cases h ok s s') (e1 : ∀ T, h1 T = h T) (e2 : ∀ q, ok1 q = ok q) : Cases h1 ok1 s s' := by
  rw [show h1 = h from funext e1, show ok1 = ok from funext e2]; exact k

theorem forCond_cases {c : SStmt} {n : Name} {code : List Immc} (h : forCond c n s = .ok ((), code, s')) : s'.cases = s.cases ∧ s'.dflt = s.dflt ∧ s.lab ≤ s'.lab :=
  ⟨(forCond_frame h).cases, (forCond_frame h).dflt, (forCond_frame h).lab⟩

theorem simple_cases {b : SStmt} {c : List Immc} (h : stmt b s = .ok ((), c, s')) (hs : simple b = true) : s'.cases = s.cases ∧ s'.dflt = s.dflt ∧ s.lab ≤ s'.lab := by
  cases b <;> simp [simple] at hs
  · simp only [stmt, modify_bind] at h
    rename_i e
    have f := ((expr_inv e).code h).1
    exact ⟨f.cases, f.dflt, f.lab⟩
  · simp only [stmt] at h
    cases h; exact ⟨rfl, rfl, by omega⟩

theorem plainItem_cases {b : SItem} {c : List Immc} (h : item b s = .ok ((), c, s')) (hs : hitsNothing b = true) : s'.cases = s.cases ∧ s'.dflt = s.dflt ∧ s.lab ≤ s'.lab := by
  cases b with
  | stmt b =>
    simp only [item] at h
    exact simple_cases h hs
  | decls ds =>
    simp only [item] at h
    exact ⟨(localDecls_keep h).1, (localDecls_keep h).2, (localDecls_good h).lab⟩
  | tag n t =>
    simp only [item] at h
    obtain ⟨-, k1, k2, -, -, -, k3⟩ := tagDecl_keep h
    exact ⟨k1, k2, by omega⟩

mutual
theorem stmt_cases : ∀ (b : SStmt) {s s' : GState} {c : List Immc}, stmt b s = .ok ((), c, s') → sound b = true →
    Cases (fun T => hits T b) (fun q => casesIn q b) s s'
  | .cmpd is, s, s', c, h, hs => by
    obtain ⟨s1, h1, rfl⟩ := stmt_cmpd h
    simp only [sound] at hs
    simp only [hits, casesIn]
    exact ((items_cases is h1 hs).from (s := s) rfl rfl (Int.le_refl _)).upto rfl rfl (Int.le_refl _)
  | .case v b, s, s', c, h, hs => by
    obtain ⟨cs, t, l, c1, hc, rfl, h1, _⟩ := stmt_case h
    simp only [sound] at hs
    have k := stmt_cases b h1 hs
    refine ⟨?_, ?_, ?_, ?_⟩
    · intro cs' hc'
      rw [hc] at hc'
      cases hc'
      obtain ⟨new, a1, a2⟩ := k.value _ rfl
      refine ⟨(s.lab + 1, l) :: new, by rw [a1]; simp, ?_⟩
      intro q hq hok
      simp only [casesIn, Bool.and_eq_true] at hok
      obtain ⟨k1, k2⟩ := hok
      cases hcon : constant (.ilit t l) with
      | none => simp [hcon] at k1
      | some w =>
        simp only [hcon, decide_eq_true_eq] at k1
        have e := constant_lit hcon
        refine ⟨fun v => ?_, ?_⟩
        · simp only [hits, is_lit hcon hq k1, (a2 q hq k2).1 v, firstCase, List.find?_cons]
          cases l.value == v <;> simp
        · intro p hp
          rcases List.mem_cons.1 hp with rfl | hp
          · rw [← e]; exact k1
          · exact (a2 q hq k2).2 p hp
    · intro hd
      simp only [hits, Label.is, Bool.false_or] at hd
      rw [k.same hd]
    · intro hd
      simp only [hits, Label.is, Bool.false_or] at hd
      have := k.new hd
      simp only at this
      omega
    · have := k.lab
      simp only at this
      omega
  | .dflt b, s, s', c, h, hs => by
    obtain ⟨c1, h1, _⟩ := stmt_dflt h
    simp only [sound] at hs
    have k := stmt_cases b h1 hs
    refine ⟨?_, ?_, ?_, ?_⟩
    · intro cs hc
      obtain ⟨new, a1, a2⟩ := k.value cs hc
      refine ⟨new, a1, ?_⟩
      intro q hq hok
      simp only [casesIn] at hok
      exact ⟨fun v => by simp [hits, (a2 q hq hok).1 v], (a2 q hq hok).2⟩
    · intro hd
      simp [hits] at hd
    · intro _
      have e := k.lab
      cases hd : hits .dflt b with
      | true =>
        have := k.new hd
        simp only at this
        omega
      | false => rw [k.same hd]; simp only; omega
    · have := k.lab
      simp only at this
      omega
  | .cont, s, s', c, h, hs | .brk, s, s', c, h, hs => by
    simp only [stmt] at h
    gm at h
    obtain ⟨rfl, rfl⟩ := h
    simp only [hits, casesIn]
    exact .none rfl rfl (Int.le_refl _)
  | .null, s, s', c, h, hs => by
    simp only [stmt] at h
    cases h
    simp only [hits, casesIn]
    exact .none rfl rfl (Int.le_refl _)
  | .ret none, s, s', c, h, hs => by
    simp only [stmt, Option.map_none] at h
    obtain ⟨rfl, rfl⟩ := returnCode_none h
    simp only [hits, casesIn]
    exact .none rfl rfl (Int.le_refl _)
  | .ret (some e), s, s', c, h, hs => by
    simp only [stmt, Option.map_some] at h
    obtain ⟨o, c1, h1, rfl⟩ := returnCode_some h
    simp only [hits, casesIn]
    have f := ((expr_inv e).int h1).1
    exact .none f.cases f.dflt f.lab
  | .expr e, s, s', c, h, hs => by
    obtain ⟨a1, a2, a3⟩ := simple_cases h hs
    simp only [hits, casesIn]
    exact .none a1 a2 a3
  | .ite e t, s, s', c, h, hs => by
    simp only [stmt] at h
    obtain ⟨j, c1, s1, c2, h1, h2, -⟩ := iteCode_ok h
    simp only [sound, Bool.and_eq_true] at hs
    simp only [hits, casesIn]
    have f := ((expr_inv e).jmp h1).1.1
    have f4 := f.lab
    simp only at f4
    exact (stmt_cases t h2 hs.2).from f.cases f.dflt (by omega)
  | .itee e t u, s, s', c, h, hs => by
    simp only [stmt] at h
    obtain ⟨j, c1, s1, c2, s2, c3, h1, h2, h3, -⟩ := iteeCode_ok h
    simp only [sound, Bool.and_eq_true] at hs
    simp only [hits, casesIn]
    have f := ((expr_inv e).jmp h1).1.1
    have f4 := f.lab
    simp only at f4
    exact ((stmt_cases t h2 hs.1.2).from (s := s) f.cases f.dflt (by omega)).seq (stmt_cases u h3 hs.2)
  | .switch e b, s, s', c, h, hs => by
    simp only [stmt] at h
    obtain ⟨o, c1, s1, c2, s2, h1, h2, rfl, rfl⟩ := switchCode_ok h
    simp only [sound, Bool.and_eq_true] at hs
    simp only [hits, casesIn]
    have f := ((expr_inv e).reg h1).1
    have k := (stmt_cases b h2 hs.2).lab
    have f4 := f.lab
    simp only at k
    exact .none f.cases f.dflt (by simp only; omega)
  | .while e b, s, s', c, h, hs => by
    simp only [stmt] at h
    obtain ⟨j, c1, s1, c2, s2, h1, h2, rfl, rfl⟩ := whileCode_ok h
    simp only [sound, Bool.and_eq_true] at hs
    simp only [hits, casesIn]
    have f := ((expr_inv e).jmp h1).1.1
    have f4 := f.lab
    simp only at f4
    exact ((stmt_cases b h2 hs.2).from (s := s) f.cases f.dflt (by simp only; omega)).upto rfl rfl (Int.le_refl _)
  | .for i e n b, s, s', c, h, hs => by
    obtain ⟨s1, hc, rfl⟩ := stmt_for h
    obtain ⟨c1, s2, c2, s3, c3, s4, c4, h1, h2, h3, h4, rfl⟩ := forCode_ok hc
    simp only [sound, Bool.and_eq_true] at hs
    obtain ⟨⟨⟨⟨i1, i2⟩, i3⟩, i4⟩, i5⟩ := hs
    simp only [hits, casesIn]
    obtain ⟨a1, a2, a3⟩ := plainItem_cases h1 i2
    obtain ⟨b1, b2, b3⟩ := forCond_cases h2
    obtain ⟨d1, d2, d3⟩ := simple_cases h4 i4
    simp only at a1 a2 a3 d1 d2 d3
    exact ((stmt_cases b h3 i5).from (by rw [← a1, ← b1]) (by rw [← a2, ← b2]) (by simp only; omega)).upto d1 d2 d3
theorem item_cases : ∀ (b : SItem) {s s' : GState} {c : List Immc}, item b s = .ok ((), c, s') → soundItem b = true →
    Cases (fun T => hitsItem T b) (fun q => casesInItem q b) s s'
  | .stmt b, s, s', c, h, hs => by
    simp only [item] at h
    simp only [soundItem] at hs
    simp only [hitsItem, casesInItem]
    exact stmt_cases b h hs
  | .decls ds, s, s', c, h, hs => by
    obtain ⟨a1, a2, a3⟩ := plainItem_cases h rfl
    simp only [hitsItem, casesInItem]
    exact .none a1 a2 a3
  | .tag n t, s, s', c, h, hs => by
    obtain ⟨a1, a2, a3⟩ := plainItem_cases h rfl
    simp only [hitsItem, casesInItem]
    exact .none a1 a2 a3
theorem items_cases : ∀ (is : SItems) {s s' : GState} {c : List Immc}, items is s = .ok ((), c, s') → soundAll is = true →
    Cases (fun T => hitsAny T is) (fun q => casesInAll q is) s s'
  | .nil, s, s', c, h, hs => by
    simp only [items] at h
    cases h
    simp only [hitsAny, casesInAll]
    exact .none rfl rfl (Int.le_refl _)
  | .cons i is, s, s', c, h, hs => by
    obtain ⟨c1, s1, c2, h1, h2, rfl⟩ := items_cons h
    simp only [soundAll, Bool.and_eq_true] at hs
    simp only [hitsAny, casesInAll]
    exact (item_cases i h1 hs.1).seq (items_cases is h2 hs.2)
end

mutual
/-- without a `default` there is none to count -/
theorem dflts_zero : ∀ b : SStmt, dflts b = 0 ↔ hits .dflt b = false
  | .cmpd is => by simp only [dflts, hits]; exact dfltsAll_zero is
  | .case v b => by simp only [dflts, hits, Label.is, Bool.false_or]; exact dflts_zero b
  | .dflt b => by simp [dflts, hits]
  | .ite _ b | .while _ b | .for _ _ _ b => by simp only [dflts, hits]; exact dflts_zero b
  | .itee _ t e => by simp only [dflts, hits, Bool.or_eq_false_iff, Nat.add_eq_zero_iff, dflts_zero t, dflts_zero e]
  | .switch _ _ | .cont | .brk | .ret _ | .expr _ | .null => by simp [dflts, hits]
theorem dfltsItem_zero : ∀ b : SItem, dfltsItem b = 0 ↔ hitsItem .dflt b = false
  | .stmt b => by simp only [dfltsItem, hitsItem]; exact dflts_zero b
  | .decls _ | .tag _ _ => by simp [dfltsItem, hitsItem]
theorem dfltsAll_zero : ∀ b : SItems, dfltsAll b = 0 ↔ hitsAny .dflt b = false
  | .nil => by simp [dfltsAll, hitsAny]
  | .cons i is => by simp only [dfltsAll, hitsAny, Bool.or_eq_false_iff, Nat.add_eq_zero_iff, dfltsItem_zero i, dfltsAll_zero is]
end

end Sim
end Umlcc
