import Verif.Lemma.LiveExprs
import Verif.Spec.Paths
/-!
Registers written by straight-line code.
-/
namespace Umlcc
namespace Live
open RSpec (reads writes branches cuts WrittenOnce calm calmArgs)
open Gen hiding Branch Branch.defs

theorem Once.nil : WrittenOnce [] := by
  intro i k x y v _ h
  simp at h

theorem Once.one (x : Immc) : WrittenOnce [x] := by
  intro i k a b v hik h1 h2
  have := (List.getElem?_eq_some_iff.1 h2).1
  simp at this
  omega

theorem Once.append {a b : List Immc} (ha : WrittenOnce a) (hb : WrittenOnce b) (hd : ∀ v, wset a v → ¬ wset b v) : WrittenOnce (a ++ b) := by
  intro i k x y v hik h1 h2 hx hy
  by_cases hk : k < a.length
  · rw [List.getElem?_append_left (by omega)] at h1
    rw [List.getElem?_append_left hk] at h2
    obtain ⟨j, z, j1, j2, j3, j4⟩ := ha i k x y v hik h1 h2 hx hy
    exact ⟨j, z, j1, j2, by rw [List.getElem?_append_left (by omega)]; exact j3, j4⟩
  · rw [List.getElem?_append_right (by omega)] at h2
    by_cases hi : i < a.length
    · rw [List.getElem?_append_left hi] at h1
      exact absurd ⟨y, List.mem_of_getElem? h2, hy⟩ (hd v ⟨x, List.mem_of_getElem? h1, hx⟩)
    · rw [List.getElem?_append_right (by omega)] at h1
      obtain ⟨j, z, j1, j2, j3, j4⟩ := hb _ _ x y v (by omega) h1 h2 hx hy
      exact ⟨j + a.length, z, by omega, by omega, by rw [List.getElem?_append_right (by omega)]; simpa using j3, j4⟩

/-- a label or a branch in between -/
theorem Once.cut {a b : List Immc} {x : Immc} (ha : WrittenOnce a) (hx : cuts x = true) (hw : writes x = none) (hb : WrittenOnce b) : WrittenOnce (a ++ (x :: b)) := by
  intro i k x' y v hik h1 h2 hx' hy
  have hc : (a ++ (x :: b))[a.length]? = some x := by simp
  by_cases hk : k < a.length
  · rw [List.getElem?_append_left (by omega)] at h1
    rw [List.getElem?_append_left hk] at h2
    obtain ⟨j, z, j1, j2, j3, j4⟩ := ha i k x' y v hik h1 h2 hx' hy
    exact ⟨j, z, j1, j2, by rw [List.getElem?_append_left (by omega)]; exact j3, j4⟩
  · by_cases hk' : k = a.length
    · subst hk'
      rw [hc] at h2
      cases h2
      rw [hw] at hy
      cases hy
    · by_cases hi : i < a.length
      · exact ⟨a.length, x, hi, by omega, hc, hx⟩
      · by_cases hi' : i = a.length
        · subst hi'
          rw [hc] at h1
          cases h1
          rw [hw] at hx'
          cases hx'
        · rw [List.getElem?_append_right (by omega), show i - a.length = (i - a.length - 1) + 1 by omega, List.getElem?_cons_succ] at h1
          rw [List.getElem?_append_right (by omega), show k - a.length = (k - a.length - 1) + 1 by omega, List.getElem?_cons_succ] at h2
          obtain ⟨j, z, j1, j2, j3, j4⟩ := hb _ _ x' y v (by omega) h1 h2 hx' hy
          refine ⟨j + 1 + a.length, z, by omega, by omega, ?_, j4⟩
          rw [List.getElem?_append_right (by omega), show j + 1 + a.length - a.length = j + 1 by omega, List.getElem?_cons_succ]
          exact j3

/-- the code generated between two states writes new registers, each once in a straight line -/
structure New (s : GState) (c : List Immc) (s' : GState) : Prop where
  reg : s.reg ≤ s'.reg
  wr : ∀ v, wset c v → s.reg < v ∧ v ≤ s'.reg
  once : WrittenOnce c

theorem New.nil {s s' : GState} (h : s'.reg = s.reg) : New s [] s' := ⟨by omega, fun _ h => (wset_nil h).elim, Once.nil⟩

theorem New.seq {s s1 s2 : GState} {a b : List Immc} (h : New s a s1) (k : New s1 b s2) : New s (a ++ b) s2 := by
  have r1 := h.reg
  have r2 := k.reg
  refine ⟨by omega, ?_, Once.append h.once k.once ?_⟩
  · intro v hv
    rcases wset_append.1 hv with hv | hv
    · have := h.wr v hv; omega
    · have := k.wr v hv; omega
  · intro v h1 h2
    have := h.wr v h1
    have := k.wr v h2
    omega

/-- an instruction that writes the register after the last -/
theorem New.fin {s s1 s' : GState} {c : List Immc} (h : New s c s1) {x : Immc} (hx : writes x = some (s1.reg + 1)) (hr : s'.reg = s1.reg + 1) : New s (c ++ [x]) s' := by
  refine h.seq ⟨by omega, ?_, Once.one x⟩
  intro v hv
  rcases wset_cons.1 hv with e | e
  · rw [hx] at e; cases e; omega
  · exact (wset_nil e).elim

/-- an instruction that writes no register -/
theorem New.skip {s s1 s' : GState} {c : List Immc} (h : New s c s1) {x : Immc} (hx : writes x = none) (hr : s'.reg = s1.reg) : New s (c ++ [x]) s' := by
  refine h.seq ⟨by omega, ?_, Once.one x⟩
  intro v hv
  rcases wset_cons.1 hv with e | e
  · rw [hx] at e; cases e
  · exact (wset_nil e).elim

theorem New.to {s s' s0 s2 : GState} {c : List Immc} (h : New s c s') (h0 : s0.reg = s.reg) (h2 : s2.reg = s'.reg) : New s0 c s2 := by
  obtain ⟨h1, h3, h4⟩ := h
  rw [← h0, ← h2] at h1 h3
  exact ⟨h1, h3, h4⟩

/-- what the generators of an expression write -/
structure GNew (g : G) : Prop where
  code : ∀ {s c s'}, g.code s = .ok ((), c, s') → New s c s'
  int : ∀ {cast s o c s'}, g.int cast s = .ok (o, c, s') → New s c s'
  ptr : ∀ {s o c s'}, g.ptr s = .ok (o, c, s') → New s c s' ∧ ∀ sf r u, o ≠ .reg sf r u
  jmp : ∀ {b s j c s'}, g.jmp b s = .ok (j, c, s') → New s c s' ∧ Gen.Branch j

theorem branch_writes {j : Name → Immc} (h : Gen.Branch j) (n : Name) : writes (j n) = none ∧ cuts (j n) = true := by
  obtain ⟨op, f, g, hb, rfl⟩ := h
  exact ⟨rfl, hb⟩

theorem GNew.reg {g : G} (h : GNew g) {s : GState} {o : Ope} {c : List Immc} {s' : GState} (hr : g.reg s = .ok (o, c, s')) : New s c s' := by
  obtain ⟨sf, r, u, rfl, h1 | ⟨l, c0, s0, h1, rfl, rfl, rfl, rfl⟩⟩ := reg_ok hr
  · exact h.int h1
  · exact (h.int h1).fin rfl rfl

theorem GNew.of {code : GM Unit} {int : Option DType → GM Ope} (h1 : ∀ {s c s'}, code s = .ok ((), c, s') → New s c s')
    (h2 : ∀ {cast s o c s'}, int cast s = .ok (o, c, s') → New s c s') (h3 : GInv (G.of code int)) : GNew (G.of code int) where
  code := h1
  int := h2
  ptr {s o c s'} h := by
    obtain ⟨h', rfl⟩ := ptrOf_ok h
    exact ⟨h1 h', nofun⟩
  jmp {b s j c s'} h := by
    obtain ⟨sf, r, u, h', rfl⟩ := jmpZero_ok h
    refine ⟨?_, (h3.jmp h).2⟩
    obtain ⟨sf, r, u, he, k | ⟨l, c0, s0, k, rfl, rfl, rfl, rfl⟩⟩ := reg_ok h'
    · exact h2 k
    · exact (h2 k).fin (by rw [he]; rfl) rfl

theorem GNew.plain {code : GM Unit} (h1 : ∀ {s c s'}, code s = .ok ((), c, s') → New s c s') (h3 : GInv (G.plain code)) : GNew (G.plain code) := by
  refine GNew.of h1 ?_ h3
  intro cast s o c s' h
  simp only [bind_ok] at h
  obtain ⟨_, c1, s1, c2, ha, hb, rfl⟩ := h
  obtain ⟨sf', r', u', he, ⟨rfl, ho, rfl, rfl⟩ | ⟨t, _, rfl, rfl, rfl⟩⟩ := castReg_ok hb
  · rw [List.append_nil]; exact h1 ha
  · exact (h1 ha).fin rfl rfl

theorem condCode_new {t : DType} {c l r : G} (hc : GNew c) (hl : GNew l) (hr : GNew r) {s s' : GState} {code : List Immc} (h : condCode t c l r s = .ok ((), code, s')) :
    New s code s' := by
  obtain ⟨j, c1, s1, a, c2, s2, b, c3, s3, h1, h2, h3, rfl, rfl⟩ := condCode_ok h
  obtain ⟨n1, hj⟩ := hc.jmp h1
  obtain ⟨j1, j2⟩ := branch_writes hj (labelName (s.lab + 1))
  have n2 := hl.reg h2
  have n3 := hr.reg h3
  have r1 : s.reg ≤ s1.reg := n1.reg
  have r2 : s1.reg + 1 ≤ s2.reg := n2.reg
  have r3 : s2.reg ≤ s3.reg := n3.reg
  have w1 : ∀ v, wset c1 v → s.reg < v ∧ v ≤ s1.reg := n1.wr
  have w2 : ∀ v, wset c2 v → s1.reg + 1 < v ∧ v ≤ s2.reg := n2.wr
  have w3 : ∀ v, wset c3 v → s2.reg < v ∧ v ≤ s3.reg := n3.wr
  refine ⟨by dsimp only; omega, ?_, ?_⟩
  · intro v hv
    dsimp only
    simp only [wset_append, wset_cons, j1, writes_reg, wset_nil, Option.some.injEq, or_false] at hv
    rcases hv with hv | hv | hv | hv | hv | hv | hv | hv | hv
    · have := w1 v hv; omega
    · cases hv
    · have := w2 v hv; omega
    · omega
    · cases hv
    · cases hv
    · have := w3 v hv; omega
    · omega
    · cases hv
  · refine Once.cut n1.once j2 j1 ?_
    have e : c2 ++ (load (.reg (Sfx.get t.nbytes) (s1.reg + 1) t.isUnsigned) a :: jump (s.lab + 1 + 1) :: labelAt (s.lab + 1) :: (c3 ++
        [load (.reg (Sfx.get t.nbytes) (s1.reg + 1) t.isUnsigned) b, labelAt (s.lab + 1 + 1)])) =
        (c2 ++ [load (.reg (Sfx.get t.nbytes) (s1.reg + 1) t.isUnsigned) a]) ++ (jump (s.lab + 1 + 1) :: ([] ++ (labelAt (s.lab + 1) :: (c3 ++
          [load (.reg (Sfx.get t.nbytes) (s1.reg + 1) t.isUnsigned) b, labelAt (s.lab + 1 + 1)])))) := by simp
    rw [e]
    have one : ∀ (c : List Immc) (x : Immc), WrittenOnce c → (∀ v, writes x = some v → ¬ wset c v) → WrittenOnce (c ++ [x]) := by
      intro c x hc hx
      refine Once.append hc (Once.one x) fun v hv hv' => ?_
      rcases wset_cons.1 hv' with e | e
      · exact hx v e hv
      · exact wset_nil e
    refine Once.cut (one _ _ n2.once ?_) rfl rfl (Once.cut Once.nil rfl rfl ?_)
    · intro v hv hv'
      cases hv
      have := w2 _ hv'
      omega
    · rw [show c3 ++ [load (.reg (Sfx.get t.nbytes) (s1.reg + 1) t.isUnsigned) b, labelAt (s.lab + 1 + 1)] =
        (c3 ++ [load (.reg (Sfx.get t.nbytes) (s1.reg + 1) t.isUnsigned) b]) ++ [labelAt (s.lab + 1 + 1)] by simp]
      refine Once.cut (one _ _ n3.once ?_) rfl rfl Once.nil
      intro v hv hv'
      cases hv
      have := w3 _ hv'
      omega

theorem logicalCode_new {b : Bool} {t : DType} {l r : G} (hl : GNew l) (hr : GNew r) {s s' : GState} {code : List Immc} (h : logicalCode b t l r s = .ok ((), code, s')) :
    New s code s' := by
  obtain ⟨j, c1, s1, k, c2, s2, h1, h2, rfl, rfl⟩ := logicalCode_ok h
  obtain ⟨n1, hj⟩ := hl.jmp h1
  obtain ⟨n2, hk⟩ := hr.jmp h2
  obtain ⟨j1, j2⟩ := branch_writes hj (labelName (s.lab + 1))
  obtain ⟨k1, k2⟩ := branch_writes hk (labelName (s.lab + 1))
  have r1 : s.reg ≤ s1.reg := n1.reg
  have r2 : s1.reg ≤ s2.reg := n2.reg
  have w1 : ∀ v, wset c1 v → s.reg < v ∧ v ≤ s1.reg := n1.wr
  have w2 : ∀ v, wset c2 v → s1.reg < v ∧ v ≤ s2.reg := n2.wr
  refine ⟨by dsimp only; omega, ?_, ?_⟩
  · intro v hv
    dsimp only
    simp only [wset_append, wset_cons, j1, k1, writes_reg, wset_nil, Option.some.injEq, or_false] at hv
    rcases hv with hv | hv | hv | hv | hv | hv | hv | hv | hv
    · have := w1 v hv; omega
    · cases hv
    · have := w2 v hv; omega
    · cases hv
    · omega
    · cases hv
    · cases hv
    · omega
    · cases hv
  · exact Once.cut n1.once j2 j1 (Once.cut n2.once k2 k1 (Once.cut (a := [_]) (Once.one _) rfl rfl (Once.cut Once.nil rfl rfl (Once.cut (a := [_]) (Once.one _) rfl rfl Once.nil))))

theorem symOpe_new {n : Str} {s s' : GState} {o : Ope} {c : List Immc} (h : symOpe n s = .ok (o, c, s')) : New s c s' ∧ ∀ sf r u, o ≠ .reg sf r u := by
  obtain ⟨rfl, rfl, y, -, ⟨-, m, -, rfl⟩ | ⟨k, -, rfl⟩⟩ := symOpe_ok h
  · exact ⟨.nil rfl, nofun⟩
  · exact ⟨.nil rfl, nofun⟩

theorem pure_new {o o' : Ope} {s s' : GState} {c : List Immc} (h : (pure o : GM Ope) s = .ok (o', c, s')) : New s c s' := by
  obtain ⟨rfl, rfl, rfl⟩ := pure_ok.1 h
  exact .nil rfl

theorem primaryCode_new {t : DType} {src : GM Ope} (hs : ∀ {s o c s'}, src s = .ok (o, c, s') → New s c s') {s s' : GState} {code : List Immc}
    (h : primaryCode t src s = .ok ((), code, s')) : New s code s' := by
  obtain ⟨o, c1, s1, h1, rfl, rfl⟩ := primaryCode_ok h
  exact (hs h1).fin rfl rfl

theorem addrCode_new {t : DType} {src : GM Ope} (hs : ∀ {s o c s'}, src s = .ok (o, c, s') → New s c s') {s s' : GState} {code : List Immc}
    (h : addrCode t src s = .ok ((), code, s')) : New s code s' := by
  obtain ⟨o, c1, s1, h1, rfl, rfl⟩ := addrCode_ok h
  exact (hs h1).fin rfl rfl

theorem memberAddrCode_new {t st : DType} {e : G} {m : Str} (he : GNew e) {s s' : GState} {code : List Immc} (h : memberAddrCode t st e m s = .ok ((), code, s')) :
    New s code s' := by
  obtain ⟨a, c1, s1, ms, o, h1, _, _, rfl, rfl⟩ := memberAddrCode_ok h
  exact (he.reg h1).fin rfl rfl

theorem memberCode_new {t st : DType} {e : G} {m : Str} (he : GNew e) {s s' : GState} {code : List Immc} (h : memberCode t st e m s = .ok ((), code, s')) :
    New s code s' := by
  obtain ⟨sf, r, us, c1, s1, h1, h2, rfl, rfl⟩ := memberCode_ok h
  exact (memberAddrCode_new he h1).fin rfl rfl

theorem argsCode_new : ∀ {gs : List G} (_ : ∀ g ∈ gs, GNew g) {i : Nat} {s s' : GState} {code : List Immc} (_ : argsCode i gs s = .ok ((), code, s')), New s code s'
  | [], _, _, _, _, _, h => by
    obtain ⟨-, rfl, rfl⟩ := pure_ok.1 h
    exact .nil rfl
  | g :: gs, hg, i, s, s', code, h => by
    obtain ⟨c1, s1, a, c2, h1, h2, rfl⟩ := argsCode_ok h
    rw [← List.append_assoc]
    exact ((argsCode_new (fun g hg' => hg g (by simp [hg'])) h1).seq ((hg g (by simp)).int h2)).skip rfl rfl

theorem callCode_new {t : DType} {f : G} {gs : List G} (hf : GNew f) (hg : ∀ g ∈ gs, GNew g) {s s' : GState} {code : List Immc} (h : callCode t f gs s = .ok ((), code, s')) :
    New s code s' := by
  obtain ⟨c1, s1, p, c2, s2, d, c3, s3, h1, h2, _, rfl, h4⟩ := callCode_ok h
  have g3 := (((New.nil (s := s) rfl).skip (x := inst .prep none (some (intOpe .none gs.length)) none) rfl (s' := s) rfl).seq (argsCode_new hg h1)).seq (hf.ptr h2).1
  have e : inst .prep none (some (intOpe .none gs.length)) none :: (c1 ++ (c2 ++ callEnd d p gs.length)) =
      ((([] ++ [inst .prep none (some (intOpe .none gs.length)) none] ++ c1) ++ c2) ++ [inst .call d (some p) (some (intOpe .none gs.length))]) ++
        [inst .clean none (some (intOpe .none gs.length)) none] := by simp [callEnd]
  rw [e]
  rcases h4 with ⟨_, rfl, rfl⟩ | ⟨_, rfl, rfl⟩
  · exact (g3.skip (s' := s2) rfl rfl).skip rfl rfl
  · exact (g3.fin (s' := { s2 with reg := s2.reg + 1 }) rfl rfl).skip rfl rfl

theorem fatal_new {s s' : GState} {c : List Immc} (h : fatal s = .ok ((), c, s')) : New s c s' := by simp [fatal_ok] at h

theorem un_new {op : SUn} {t : DType} {e : SExpr} (hs : calm (.un op t e) = true) (he : GNew (expr e))
    (hm : ∀ t' d a m, e = .tomember t' d a m → GNew (expr d)) (hi : ∀ t' d, e = .un .indir t' d → GNew (expr d)) : GNew (expr (.un op t e)) := by
  have hinv := expr_inv (.un op t e)
  cases op with
  | cast =>
    rw [expr] at hinv ⊢
    exact .of fatal_new (fun h => he.int h) hinv
  | addr =>
    cases e with
    | ident t' n =>
      rw [expr] at hinv ⊢
      have := GNew.plain (code := addrCode t (symOpe n)) (addrCode_new fun h => (symOpe_new h).1) ⟨hinv.code, hinv.int, fun h => by
        obtain ⟨h', -⟩ := ptrOf_ok h
        exact hinv.code h', hinv.jmp⟩
      exact ⟨this.code, this.int, symOpe_new, this.jmp⟩
    | str t' id => rw [expr] at hinv ⊢; exact .plain (addrCode_new pure_new) hinv
    | tomember t' d a m => rw [expr] at hinv ⊢; exact .plain (memberAddrCode_new (hm _ _ _ _ rfl)) hinv
    | un op' t' d =>
      cases op' with
      | indir => rw [expr] at hinv ⊢; exact .plain (hi _ _ rfl).code hinv
      | _ => rw [expr] at hinv ⊢ <;> first | exact .plain fatal_new hinv | nofun
    | _ => rw [expr] at hinv ⊢ <;> first | exact .plain fatal_new hinv | nofun
  | indir =>
    rw [expr] at hinv ⊢
    refine .plain (fun hc => ?_) hinv
    obtain ⟨p, c1, s1, h1, rfl, rfl⟩ := indirCode_ok hc
    exact (he.ptr h1).1.fin rfl rfl
  | pos =>
    rw [expr] at hinv ⊢
    refine .plain (fun hc => ?_) hinv
    obtain ⟨sf, r, us, s1, h1, rfl⟩ := posCode_ok hc
    exact (he.reg h1).to rfl rfl
  | neg =>
    rw [expr] at hinv ⊢
    refine .plain (fun hc => ?_) hinv
    obtain ⟨a, c1, s1, h1, rfl, rfl⟩ := unCode_ok hc
    exact (he.int h1).fin rfl rfl
  | not =>
    rw [expr] at hinv ⊢
    refine .plain (fun hc => ?_) hinv
    obtain ⟨a, c1, s1, h1, rfl, rfl⟩ := unCode_ok hc
    exact (he.int h1).fin rfl rfl
  | lnot =>
    rw [expr] at hinv ⊢
    refine .plain (fun hc => ?_) hinv
    obtain ⟨a, c1, s1, h1, rfl, rfl⟩ := lnotCode_ok hc
    exact (he.reg h1).fin rfl rfl
  | _ => simp [calm] at hs

theorem binCode_new {op : SBin} (ho : op ≠ .padd ∧ op ≠ .psub ∧ op ≠ .pdiff) {t lt : DType} {l r : G} (hl : GNew l) (hr : GNew r) {s s' : GState} {c : List Immc}
    (h : binCode op t lt l r s = .ok ((), c, s')) : New s c s' := by
  unfold binCode at h
  split at h
  · obtain ⟨sf, id, us, c1, s1, p, c2, s2, h1, h2, rfl, rfl⟩ := assignCode_ok h
    obtain ⟨g2, hp⟩ := hl.ptr h2
    rw [← List.append_assoc]
    refine ((hr.reg h1).seq g2).skip ?_ rfl
    cases p <;> first | rfl | exact absurd rfl (hp _ _ _)
  · exact logicalCode_new hl hr h
  · exact logicalCode_new hl hr h
  · exact absurd rfl ho.1
  · exact absurd rfl ho.2.1
  · exact absurd rfl ho.2.2
  · obtain ⟨a, c1, s1, b, c2, s2, h1, h2, rfl, rfl⟩ := arithCode_ok h
    rw [← List.append_assoc]
    exact ((hl.reg h1).seq (hr.int h2)).fin rfl rfl

theorem bin_new {op : SBin} {t : DType} {l r : SExpr} (hs : calm (.bin op t l r) = true) (hl : GNew (expr l)) (hr : GNew (expr r)) : GNew (expr (.bin op t l r)) := by
  have hinv := expr_inv (.bin op t l r)
  simp only [calm, Bool.and_eq_true, bne_iff_ne] at hs
  rw [expr] at hinv ⊢
  have hp : GNew (G.plain (binCode op t l.dt (expr l) (expr r))) := by
    refine .plain (binCode_new ⟨hs.1.1.1.1, hs.1.1.1.2, hs.1.1.2⟩ hl hr) (GInv.plain hinv.code)
  refine ⟨hp.code, hp.int, hp.ptr, ?_⟩
  intro b s j c s' h
  refine ⟨?_, (hinv.jmp h).2⟩
  simp only [G.bin] at h
  cases hc : cjmp op b with
  | none => rw [hc] at h; exact (hp.jmp h).1
  | some o =>
    rw [hc] at h
    obtain ⟨a, c1, s1, b', c2, h1, h2, rfl, rfl⟩ := jmpCmp_ok h
    exact (hl.reg h1).seq (hr.int h2)

mutual
theorem expr_new : ∀ (e : SExpr), calm e = true → GNew (expr e)
  | .ident t n, _ => by
    have hinv := expr_inv (.ident t n)
    rw [expr] at hinv ⊢
    exact .plain (primaryCode_new fun h => (symOpe_new h).1) hinv
  | .str t id, _ => by
    have hinv := expr_inv (.str t id)
    rw [expr] at hinv ⊢
    exact .plain (primaryCode_new pure_new) hinv
  | .ilit t l, _ => by
    have hinv := expr_inv (.ilit t l)
    rw [expr] at hinv ⊢
    exact .of (primaryCode_new pure_new) pure_new hinv
  | .bin op t l r, hs => bin_new hs (expr_new l (by simp only [calm, Bool.and_eq_true] at hs; exact hs.1.2)) (expr_new r (by simp only [calm, Bool.and_eq_true] at hs; exact hs.2))
  | .cond t c l r, hs => by
    have hinv := expr_inv (.cond t c l r)
    simp only [calm, Bool.and_eq_true] at hs
    rw [expr] at hinv ⊢
    exact .plain (condCode_new (expr_new c hs.1.1) (expr_new l hs.1.2) (expr_new r hs.2)) hinv
  | .un op t (.tomember t' d a m), hs => un_new hs (expr_new _ (by simp only [calm, Bool.and_eq_true] at hs ⊢; exact hs.2))
      (fun _ _ _ _ h => by cases h; exact expr_new d (by simp only [calm, Bool.and_eq_true] at hs; exact hs.2)) nofun
  | .un op t (.un o t' d), hs => un_new hs (expr_new _ (by simp only [calm, Bool.and_eq_true] at hs ⊢; exact hs.2)) nofun
      (fun _ _ h => by cases h; exact expr_new d (by simp only [calm, Bool.and_eq_true] at hs; exact hs.2.2))
  | .un op t (.ident t' n), hs => un_new hs (expr_new _ (by simp only [calm, Bool.and_eq_true] at hs ⊢)) nofun nofun
  | .un op t (.str t' n), hs => un_new hs (expr_new _ (by simp only [calm, Bool.and_eq_true] at hs ⊢)) nofun nofun
  | .un op t (.ilit t' n), hs => un_new hs (expr_new _ (by simp only [calm, Bool.and_eq_true] at hs ⊢)) nofun nofun
  | .un op t (.bin o t' l r), hs => un_new hs (expr_new _ (by simp only [calm, Bool.and_eq_true] at hs ⊢; exact hs.2)) nofun nofun
  | .un op t (.cond t' c l r), hs => un_new hs (expr_new _ (by simp only [calm, Bool.and_eq_true] at hs ⊢; exact hs.2)) nofun nofun
  | .un op t (.call t' f as), hs => un_new hs (expr_new _ (by simp only [calm, Bool.and_eq_true] at hs ⊢; exact hs.2)) nofun nofun
  | .call t f as, hs => by
    have hinv := expr_inv (.call t f as)
    simp only [calm, Bool.and_eq_true] at hs
    rw [expr] at hinv ⊢
    exact .plain (callCode_new (expr_new f hs.1) (args_new as hs.2)) hinv
  | .tomember t e a m, hs => by
    have hinv := expr_inv (.tomember t e a m)
    simp only [calm] at hs
    rw [expr] at hinv ⊢
    exact .plain (memberCode_new (expr_new e hs)) hinv
theorem args_new : ∀ as : SArgs, calmArgs as = true → ∀ g ∈ args as, GNew g
  | .nil, _ => by simp [args]
  | .cons e as, hs => by
    simp only [calmArgs, Bool.and_eq_true] at hs
    intro g hg
    rw [args] at hg
    rcases List.mem_cons.1 hg with rfl | h
    · exact expr_new e hs.1
    · exact args_new as hs.2 g h
end

end Live
end Umlcc
