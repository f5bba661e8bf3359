import Verif.Lemma.GenInv
/-!
What a successful run of the functions for statements and declarations consists of.
-/
namespace Umlcc
namespace Gen

theorem iteCode_ok {c : G} {t : GM Unit} {s s' : GState} {u : Unit} {code : List Immc} (h : iteCode c t s = .ok (u, code, s')) :
    ∃ j c1 s1 c2, c.jmp false { s with lab := s.lab + 1 } = .ok (j, c1, s1) ∧ t s1 = .ok ((), c2, s') ∧
      ((∃ n, endLabel c2 = some n ∧ code = c1 ++ (j n :: c2)) ∨
       (endLabel c2 = none ∧ code = c1 ++ (j (labelName (s.lab + 1)) :: (c2 ++ [labelAt (s.lab + 1)])))) := by
  simp only [iteCode] at h
  gm at h
  obtain ⟨j, c1, s1, _, h1, ⟨⟨_, c2⟩, c3, s2, c4, h2, h, rfl⟩, rfl⟩ := h
  obtain ⟨rfl, h2'⟩ := capture_ok.1 h2
  dsimp only at h h2'
  cases he : endLabel c2 with
  | none =>
    simp only [he] at h
    gm at h
    obtain ⟨rfl, rfl⟩ := h
    exact ⟨_, _, _, _, h1, h2', .inr ⟨he, by simp⟩⟩
  | some n =>
    simp only [he] at h
    gm at h
    obtain ⟨rfl, rfl⟩ := h
    exact ⟨_, _, _, _, h1, h2', .inl ⟨n, he, by simp⟩⟩

theorem iteeCode_ok {c : G} {t e : GM Unit} {s s' : GState} {u : Unit} {code : List Immc} (h : iteeCode c t e s = .ok (u, code, s')) :
    ∃ j c1 s1 c2 s2 c3, c.jmp false { s with lab := s.lab + 1 + 1 } = .ok (j, c1, s1) ∧ t s1 = .ok ((), c2, s2) ∧
      e s2 = .ok ((), c3, s') ∧
      ((∃ n, endLabel (labelAt (s.lab + 1) :: c3) = some n ∧
          code = c1 ++ (j (labelName (s.lab + 1)) :: (c2 ++ (inst .jmp (some (.label n)) none none :: labelAt (s.lab + 1) :: c3)))) ∨
       (endLabel (labelAt (s.lab + 1) :: c3) = none ∧
          code = c1 ++ (j (labelName (s.lab + 1)) :: (c2 ++ (jump (s.lab + 1 + 1) :: labelAt (s.lab + 1) :: (c3 ++ [labelAt (s.lab + 1 + 1)])))))) := by
  simp only [iteeCode] at h
  gm at h
  obtain ⟨j, c1, s1, _, h1, ⟨_, ⟨_, c2, s2, _, h2, ⟨⟨_, c3⟩, c4, s3, c5, h3, h, rfl⟩, rfl⟩, rfl⟩, rfl⟩ := h
  obtain ⟨rfl, h3'⟩ := capture_ok.1 h3
  gm at h3'
  obtain ⟨c3', h3', hc⟩ := h3'
  dsimp only at h hc
  subst hc
  cases he : endLabel (labelAt (s.lab + 1) :: c3') with
  | none =>
    simp only [he] at h
    gm at h
    obtain ⟨rfl, rfl⟩ := h
    exact ⟨_, _, _, _, _, _, h1, h2, h3', .inr ⟨he, by simp⟩⟩
  | some n =>
    simp only [he] at h
    gm at h
    obtain ⟨rfl, rfl⟩ := h
    exact ⟨_, _, _, _, _, _, h1, h2, h3', .inl ⟨n, he, by simp⟩⟩

theorem switchCode_ok {c : G} {b : GM Unit} {s s' : GState} {u : Unit} {code : List Immc} (h : switchCode c b s = .ok (u, code, s')) :
    ∃ o c1 s1 c2 s2, c.reg s = .ok (o, c1, s1) ∧
      b { s1 with lab := s1.lab + 1, cases := some [], dflt := -1, brk := s1.lab + 1 } = .ok ((), c2, s2) ∧
      code = c1 ++ (caseJumps o (s2.cases.getD []) ++
        (jump (if s2.dflt > 0 then s2.dflt else s1.lab + 1) :: (c2 ++ [labelAt (s1.lab + 1)]))) ∧
      s' = { s2 with cases := s1.cases, dflt := s1.dflt, brk := s1.brk } := by
  simp only [switchCode] at h
  gm at h
  obtain ⟨o, c1, s1, _, h1, ⟨⟨_, c2⟩, c3, s2, c4, h2, ⟨rfl, rfl⟩, rfl⟩, rfl⟩ := h
  obtain ⟨rfl, h2'⟩ := capture_ok.1 h2
  exact ⟨_, _, _, _, _, h1, h2', by simp, rfl⟩

theorem inLoop_ok {k b : Int} {m : GM Unit} {s s' : GState} {u : Unit} {code : List Immc} (h : inLoop k b m s = .ok (u, code, s')) :
    ∃ s1, m { s with cont := k, brk := b } = .ok ((), code, s1) ∧ s' = { s1 with cont := s.cont, brk := s.brk } := by
  simp only [inLoop] at h
  gm at h
  obtain ⟨_, c1, s1, _, h1, ⟨rfl, rfl⟩, rfl⟩ := h
  exact ⟨s1, by simpa using h1, rfl⟩

theorem whileCode_ok {c : G} {b : GM Unit} {s s' : GState} {u : Unit} {code : List Immc} (h : whileCode c b s = .ok (u, code, s')) :
    ∃ j c1 s1 c2 s2, c.jmp false { s with lab := s.lab + 1 + 1 } = .ok (j, c1, s1) ∧
      b { s1 with cont := s.lab + 1, brk := s.lab + 1 + 1 } = .ok ((), c2, s2) ∧
      code = labelAt (s.lab + 1) :: (c1 ++ (j (labelName (s.lab + 1 + 1)) :: (c2 ++ [jump (s.lab + 1), labelAt (s.lab + 1 + 1)]))) ∧
      s' = { s2 with cont := s1.cont, brk := s1.brk } := by
  simp only [whileCode] at h
  gm at h
  obtain ⟨_, ⟨j, c1, s1, _, h1, ⟨_, ⟨_, c2, s2, _, h2, ⟨rfl, rfl⟩, rfl⟩, rfl⟩, rfl⟩, rfl⟩ := h
  obtain ⟨s3, h2', rfl⟩ := inLoop_ok h2
  exact ⟨_, _, _, _, _, h1, h2', rfl, rfl⟩

theorem forCode_ok {i : GM Unit} {c : Name → GM Unit} {n b : GM Unit} {s s' : GState} {u : Unit} {code : List Immc}
    (h : forCode i c n b s = .ok (u, code, s')) :
    ∃ c1 s1 c2 s2 c3 s3 c4, i { s with lab := s.lab + 1 + 1 + 1 } = .ok ((), c1, s1) ∧
      c (labelName (s.lab + 1 + 1 + 1)) s1 = .ok ((), c2, s2) ∧
      b { s2 with cont := s.lab + 1 + 1, brk := s.lab + 1 + 1 + 1 } = .ok ((), c3, s3) ∧
      n { s3 with cont := s2.cont, brk := s2.brk } = .ok ((), c4, s') ∧
      code = c1 ++ (labelAt (s.lab + 1) :: (c2 ++ (c3 ++ (labelAt (s.lab + 1 + 1) :: (c4 ++
        [jump (s.lab + 1), labelAt (s.lab + 1 + 1 + 1)]))))) := by
  simp only [forCode] at h
  gm at h
  obtain ⟨_, c1, s1, _, h1, ⟨_, ⟨_, c2, s2, _, h2, ⟨_, c3, s3, _, h3, ⟨_, ⟨_, c4, s4, _, h4, ⟨rfl, rfl⟩, rfl⟩, rfl⟩, rfl⟩, rfl⟩, rfl⟩, rfl⟩ := h
  obtain ⟨s5, h3', rfl⟩ := inLoop_ok h3
  exact ⟨_, _, _, _, _, _, _, h1, h2, h3', h4, rfl⟩

theorem forCond_ok {c : SStmt} {n : Name} {s s' : GState} {u : Unit} {code : List Immc} (h : forCond c n s = .ok (u, code, s')) :
    (∃ e j c1, c = .expr e ∧ (expr e).jmp false s = .ok (j, c1, s') ∧ code = c1 ++ [j n]) ∨
    ((∀ e, c ≠ .expr e) ∧ code = [] ∧ s' = s) := by
  cases c <;> simp only [forCond] at h <;> gm at h
  case expr e =>
    obtain ⟨j, c1, s1, _, h1, ⟨rfl, rfl⟩, rfl⟩ := h
    exact .inl ⟨_, _, _, rfl, h1, rfl⟩
  all_goals
    obtain ⟨rfl, rfl⟩ := h
    exact .inr ⟨nofun, rfl, rfl⟩

theorem returnCode_none {s s' : GState} {u : Unit} {code : List Immc} (h : returnCode none s = .ok (u, code, s')) :
    code = [jump s.ret] ∧ s' = s := by
  simp only [returnCode] at h
  gm at h
  obtain ⟨rfl, rfl⟩ := h
  exact ⟨rfl, rfl⟩

theorem returnCode_some {g : G} {s s' : GState} {u : Unit} {code : List Immc} (h : returnCode (some g) s = .ok (u, code, s')) :
    ∃ o c1, g.int none s = .ok (o, c1, s') ∧ code = c1 ++ [inst .stret none (some o) none, jump s'.ret] := by
  simp only [returnCode] at h
  gm at h
  obtain ⟨o, c1, s1, _, h1, ⟨rfl, rfl⟩, rfl⟩ := h
  exact ⟨_, _, h1, rfl⟩

theorem addCase_ok {v : SExpr} {id : Int} {s s' : GState} {u : Unit} {code : List Immc} (h : addCase v id s = .ok (u, code, s')) :
    ∃ cs t l, s.cases = some cs ∧ v = .ilit t l ∧ code = [] ∧ s' = { s with cases := some (cs ++ [(id, l)]) } := by
  simp only [addCase, get_bind] at h
  generalize hc : s.cases = x at h
  cases x with
  | none => cases v <;> simp [ub_ok] at h
  | some cs =>
    cases v <;> simp only [ub_ok] at h
    gm at h
    obtain ⟨rfl, rfl⟩ := h
    exact ⟨_, _, _, rfl, rfl, rfl, rfl⟩

theorem stmt_case {v : SExpr} {b : SStmt} {s s' : GState} {u : Unit} {code : List Immc} (h : stmt (.case v b) s = .ok (u, code, s')) :
    ∃ cs t l c1, s.cases = some cs ∧ v = .ilit t l ∧
      stmt b { s with lab := s.lab + 1, cases := some (cs ++ [(s.lab + 1, l)]) } = .ok ((), c1, s') ∧
      code = labelAt (s.lab + 1) :: c1 := by
  simp only [stmt] at h
  gm at h
  obtain ⟨_, c1, s1, _, h1, ⟨c2, h2, rfl⟩, rfl⟩ := h
  obtain ⟨cs, t, l, hc, rfl, rfl, rfl⟩ := addCase_ok h1
  exact ⟨_, _, _, _, hc, rfl, h2, rfl⟩

theorem stmt_dflt {b : SStmt} {s s' : GState} {u : Unit} {code : List Immc} (h : stmt (.dflt b) s = .ok (u, code, s')) :
    ∃ c1, stmt b { s with lab := s.lab + 1, dflt := s.lab + 1 } = .ok ((), c1, s') ∧ code = labelAt (s.lab + 1) :: c1 := by
  simp only [stmt] at h
  gm at h
  exact h

theorem stmt_cmpd {is : SItems} {s s' : GState} {u : Unit} {code : List Immc} (h : stmt (.cmpd is) s = .ok (u, code, s')) :
    ∃ s1, items is { s with syms := [] :: s.syms, tags := [] :: s.tags } = .ok ((), code, s1) ∧
      s' = { s1 with syms := s1.syms.tail, tags := s1.tags.tail } := by
  simp only [stmt, enter, leave] at h
  gm at h
  obtain ⟨_, c1, s1, _, h1, ⟨rfl, rfl⟩, rfl⟩ := h
  exact ⟨s1, by simpa using h1, rfl⟩

theorem stmt_for {i : SItem} {c n b : SStmt} {s s' : GState} {u : Unit} {code : List Immc} (h : stmt (.for i c n b) s = .ok (u, code, s')) :
    ∃ s1, forCode (item i) (forCond c) (stmt n) (stmt b) { s with syms := [] :: s.syms, tags := [] :: s.tags } = .ok ((), code, s1) ∧
      s' = { s1 with syms := s1.syms.tail, tags := s1.tags.tail } := by
  simp only [stmt, enter, leave] at h
  gm at h
  obtain ⟨_, c1, s1, _, h1, ⟨rfl, rfl⟩, rfl⟩ := h
  exact ⟨s1, by simpa using h1, rfl⟩

theorem items_cons {i : SItem} {is : SItems} {s s' : GState} {u : Unit} {code : List Immc} (h : items (.cons i is) s = .ok (u, code, s')) :
    ∃ c1 s1 c2, item i s = .ok ((), c1, s1) ∧ items is s1 = .ok ((), c2, s') ∧ code = c1 ++ c2 := by
  simp only [items] at h
  gm at h
  obtain ⟨_, c1, s1, c2, h1, h2, rfl⟩ := h
  exact ⟨_, _, _, h1, h2, rfl⟩

theorem localDecls_cons {d : SDecl} {ds : List SDecl} {s s' : GState} {u : Unit} {code : List Immc}
    (h : localDecls (d :: ds) s = .ok (u, code, s')) :
    ∃ c1 s1 c2, localDecl d s = .ok ((), c1, s1) ∧ localDecls ds s1 = .ok ((), c2, s') ∧ code = c1 ++ c2 := by
  simp only [localDecls] at h
  gm at h
  obtain ⟨_, c1, s1, c2, h1, h2, rfl⟩ := h
  exact ⟨_, _, _, h1, h2, rfl⟩

/-- effect of declaring a local name on the state -/
def GState.declare (s : GState) (n : Str) (t : DType) : GState :=
  if canDefine n s.syms then
    if t.isObject then { s with syms := define n ⟨.mem ((s.mem + t.nbytes + 3) / 4 * 4), t⟩ s.syms, mem := (s.mem + t.nbytes + 3) / 4 * 4 }
    else { s with syms := define n ⟨.label, t⟩ s.syms }
  else s

theorem localIdent_run {n : Str} {t : DType} {s : GState} : localIdent n t s = .ok ((), [], s.declare n t) := by
  unfold localIdent GState.declare
  cases t.isObject <;> simp only [Bool.false_eq_true, if_false, if_true, defineMem, defineLabel, modify_run]

theorem localIdent_bind {n : Str} {t : DType} {f : Unit → GM β} {s : GState} : (localIdent n t >>= f) s = f () (s.declare n t) :=
  (bind_run localIdent_run).trans pre_nil

theorem localDecl_ok {d : SDecl} {s s' : GState} {u : Unit} {code : List Immc} (h : localDecl d s = .ok (u, code, s')) :
    ∃ n, d.who = .ident n ∧
      ((d.init = none ∧ code = [] ∧ s' = s.declare n d.dt) ∨
       ∃ i y s1, d.init = some i ∧ lookup n (s.declare n d.dt).syms = some y ∧
        localInit i y.dt { s.declare n d.dt with initOff := y.loc.off } = .ok ((), code, s1) ∧ s' = { s1 with initOff := -1 }) := by
  obtain ⟨who, dt, init⟩ := d
  cases who with
  | str id => simp [localDecl, ub_ok] at h
  | ident n =>
    refine ⟨n, rfl, ?_⟩
    cases init with
    | none =>
      simp only [localDecl, localIdent_bind, pure_run, Out.ok.injEq, Prod.mk.injEq, true_and] at h
      obtain ⟨rfl, rfl⟩ := h
      exact .inl ⟨rfl, rfl, rfl⟩
    | some i =>
      simp only [localDecl, localIdent_bind, get_bind] at h
      cases hl : lookup n (s.declare n dt).syms with
      | none => simp [hl, ub_ok] at h
      | some y =>
        simp only [hl] at h
        gm at h
        obtain ⟨_, c1, s1, _, h1, ⟨rfl, rfl⟩, rfl⟩ := h
        refine .inr ⟨_, _, s1, rfl, rfl, ?_, rfl⟩
        simpa using h1

theorem localScalar_ok {t : DType} {g : G} {s s' : GState} {u : Unit} {code : List Immc} (h : localScalar t g s = .ok (u, code, s')) :
    ∃ o c1 s1, g.int none s = .ok (o, c1, s1) ∧ code = c1 ++ [inst .store (some (.mem s.initOff)) (some o) none] ∧
      s' = { s1 with initOff := s1.initOff - t.nbytes } := by
  simp only [localScalar] at h
  gm at h
  obtain ⟨o, c1, s1, _, h1, ⟨rfl, rfl⟩, rfl⟩ := h
  exact ⟨_, _, _, h1, rfl, rfl⟩

theorem localString_run {t : DType} {b : List UInt8} {s : GState} :
    localString t b s = .ok ((), [inst .str (some (.mem s.initOff)) (some (.str b)) none], { s with initOff := s.initOff - t.nbytes }) := rfl

theorem structType_ok {t : DType} {s s' : GState} {o : DType} {c : List Immc} (h : structType t s = .ok (o, c, s')) :
    c = [] ∧ s' = s ∧ (o = t ∨ ∃ n b a, t = .nstruct n b a ∧ lookup n s.tags = some o) := by
  unfold structType at h
  split at h
  · rename_i n b a
    rw [get_bind] at h
    generalize hl : lookup n s.tags = x at h
    split at h
    · gm at h
      obtain ⟨rfl, rfl, rfl⟩ := h
      exact ⟨rfl, rfl, .inr ⟨_, _, _, rfl, hl⟩⟩
    · simp [ub_ok] at h
  · gm at h
    obtain ⟨rfl, rfl, rfl⟩ := h
    exact ⟨rfl, rfl, .inl rfl⟩

theorem localStruct_ok {t : DType} {gs : List (DType → GM Unit)} {s s' : GState} {u : Unit} {code : List Immc}
    (h : localStruct t gs s = .ok (u, code, s')) :
    ∃ ms b a, structType t s = .ok (.ustruct ms b a, [], s) ∧ localMembers s.initOff (memberList ms) gs s = .ok ((), code, s') := by
  simp only [localStruct] at h
  gm at h
  obtain ⟨o, c1, s1, c2, h1, h, rfl⟩ := h
  obtain ⟨rfl, rfl, -⟩ := structType_ok h1
  cases o <;> simp only [ub_ok] at h
  exact ⟨_, _, _, h1, by simpa using h⟩

theorem localMembers_cons {off : Int} {t : DType} {o : Nat} {ms : List (DType × Nat)} {g : DType → GM Unit} {gs : List (DType → GM Unit)}
    {s s' : GState} {u : Unit} {code : List Immc} (h : localMembers off ((t, o) :: ms) (g :: gs) s = .ok (u, code, s')) :
    ∃ c1 s1 c2, g t { s with initOff := off - o } = .ok ((), c1, s1) ∧ localMembers off ms gs s1 = .ok ((), c2, s') ∧ code = c1 ++ c2 := by
  simp only [localMembers] at h
  gm at h
  obtain ⟨_, c1, s1, c2, h1, h2, rfl⟩ := h
  exact ⟨_, _, _, h1, h2, rfl⟩

theorem arrayInit_cons {t : DType} {n : Nat} {g : DType → GM Unit} {gs : List (DType → GM Unit)}
    {s s' : GState} {u : Unit} {code : List Immc} (h : arrayInit t (n + 1) (g :: gs) s = .ok (u, code, s')) :
    ∃ c1 s1 c2, g t s = .ok ((), c1, s1) ∧ arrayInit t n gs s1 = .ok ((), c2, s') ∧ code = c1 ++ c2 := by
  simp only [arrayInit] at h
  gm at h
  obtain ⟨_, c1, s1, c2, h1, h2, rfl⟩ := h
  exact ⟨_, _, _, h1, h2, rfl⟩

theorem tagDecl_ok {n : Str} {t : DType} {s s' : GState} {u : Unit} {code : List Immc} (h : tagDecl n t s = .ok (u, code, s')) :
    code = [] ∧ ∃ tg, s' = { s with tags := tg } := by
  unfold tagDecl at h
  split at h
  · rw [get_bind] at h
    split at h
    · gm at h
      obtain ⟨_, c1, s1, _, h1, ⟨rfl, rfl⟩, rfl⟩ := h
      obtain ⟨-, rfl, rfl⟩ := lift_ok.1 h1
      exact ⟨rfl, _, rfl⟩
    · gm at h
      obtain ⟨rfl, rfl⟩ := h
      exact ⟨rfl, _, rfl⟩
  · simp [ub_ok] at h
  · gm at h
    obtain ⟨rfl, rfl⟩ := h
    exact ⟨rfl, _, rfl⟩

/-- effect of declaring a label on the state -/
def GState.declareLabel (s : GState) (n : Str) (t : DType) : GState :=
  if canDefine n s.syms then { s with syms := define n ⟨.label, t⟩ s.syms } else s

/-- the state in which the parameters are treated -/
def GState.inFunc (s : GState) (n : Str) (t : DType) : GState :=
  let s1 := s.declareLabel n t
  { s1 with reg := -1, lab := s.lab + 1, syms := [] :: s1.syms, tags := [] :: s.tags, mem := 0, ret := s.lab + 1 }

theorem funcCode_ok {n : Str} {t : DType} {b : SItems} {s s' : GState} {u : Unit} {code : List Immc}
    (h : funcCode n t b s = .ok (u, code, s')) :
    ∃ name ps rt pc s1 bc s2, nameOf n s = .ok (name, [], s) ∧ t = .func ps rt ∧
      paramsCode 0 ps (s.inFunc n t) = .ok ((), pc, s1) ∧
      items b s1 = .ok ((), bc, s2) ∧
      code = .label .function .global name :: inst .enter none (some (intOpe .quad s2.mem)) none ::
        (pc ++ (bc ++ [labelAt (s.lab + 1), inst .leave none (some (intOpe .quad s2.mem)) none])) ∧
      s' = { s2 with mem := 0, syms := s2.syms.tail, tags := s2.tags.tail } := by
  simp only [funcCode, bind_ok] at h
  obtain ⟨name, c0, s0, _, h0, h, rfl⟩ := h
  obtain ⟨hn, rfl, rfl⟩ := nameOf_ok h0
  simp only [defineLabel, modify_ok] at h
  obtain ⟨_, _, s4, _, ⟨rfl, hs4⟩, h, rfl⟩ := h
  cases t <;> simp only [ub_ok] at h
  rename_i ps rt
  simp only [enter, leave] at h
  gm at h
  obtain ⟨⟨_, pc⟩, c1, s1, _, h1, ⟨⟨_, bc⟩, c2, s2, _, h2, ⟨rfl, rfl⟩, rfl⟩, rfl⟩ := h
  obtain ⟨rfl, h1'⟩ := capture_ok.1 h1
  obtain ⟨rfl, h2'⟩ := capture_ok.1 h2
  have e : s4 = s0.declareLabel n (.func ps rt) := by rw [hs4]; rfl
  have e1 : s4.lab = s0.lab := by rw [hs4]; split <;> rfl
  have e2 : s4.tags = s0.tags := by rw [hs4]; split <;> rfl
  rw [e1, e2] at h1'
  subst e
  refine ⟨name, ps, rt, pc, s1, bc, s2, h0, rfl, h1', h2', ?_, rfl⟩
  rw [e1]
  simp

theorem paramsCode_cons {i : Nat} {n : Option Str} {t : DType} {ps : Params} {s s' : GState} {u : Unit} {code : List Immc}
    (h : paramsCode i (.cons n t ps) s = .ok (u, code, s')) :
    ∃ m c1, n = some m ∧ canDefine m s.syms = true ∧
      paramsCode (i + 1) ps { s with syms := define m ⟨.mem ((s.mem + t.nbytes + 3) / 4 * 4), t⟩ s.syms, mem := (s.mem + t.nbytes + 3) / 4 * 4 } = .ok ((), c1, s') ∧
      code = inst .ldarg (some (.mem ((s.mem + t.nbytes + 3) / 4 * 4 : Nat))) (some (.arg (Sfx.get t.nbytes) i false)) none :: c1 := by
  cases n with
  | none => simp [paramsCode, ub_ok] at h
  | some m =>
    simp only [paramsCode, get_bind] at h
    split at h
    · rename_i hc
      simp only [defineMem] at h
      gm at h
      simp only [hc, if_true] at h
      obtain ⟨c1, h1, rfl⟩ := h
      exact ⟨m, c1, rfl, hc, h1, rfl⟩
    · simp [ub_ok] at h

end Gen
end Umlcc
