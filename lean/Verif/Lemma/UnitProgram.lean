import Verif.Spec.UnitCheck
import Verif.Lemma.Chunks
import Verif.Lemma.ProgramCall
import Verif.Lemma.PlainFlags
import Verif.Lemma.Liveseq
/-!
Helper lemmas: the functions of a translation unit that pass the test behave as C65 says.
-/
namespace Umlcc
namespace CStm
open Gen Sim

variable {W : Type} {E : IMach.Env W}

theorem outerName_agree {n : Name} {t : DType} {V V' : Vars} {s : GState} (ha : Agree E V s) (h : outerName E.glob n.val V = some V') :
    Agree E V' (s.declareLabel n.val t) ∧ V'.used = V.used := by
  simp only [outerName, ha.names, isNew_locate] at h
  unfold GState.declareLabel
  split at h
  · rename_i hn
    rw [if_pos hn]
    split at h
    · rename_i hm
      cases h
      refine ⟨⟨?_, ha.tags, ha.used⟩, rfl⟩
      show add n.val _ (locate E s.syms) = locate E (define n.val ⟨.label, t⟩ s.syms)
      rw [← add_locate, CSem.addrOf, dif_pos hm]
    · cases h
  · rename_i hn
    rw [if_neg hn]
    cases h
    exact ⟨ha, rfl⟩

theorem outerDecls_agree : ∀ {ds : List SDecl} {V V' : Vars} {s s' : GState} {c : List Immc}, globalDecls ds s = .ok ((), c, s') → Agree E V s → outerDecls E.glob ds V = some V' →
    Agree E V' s' ∧ V'.used = V.used ∧ s'.lab = s.lab
  | [], V, V', s, s', c, h, ha, hv => by
    obtain ⟨_, rfl, rfl⟩ := pure_ok.1 h
    cases hv
    exact ⟨ha, rfl, rfl⟩
  | d :: ds, V, V', s, s', c, h, ha, hv => by
    simp only [globalDecls, bind_ok] at h
    obtain ⟨_, c1, s1, c2, h1, h2, rfl⟩ := h
    obtain ⟨-, n, hn, rfl⟩ := globalDecl_chunk h1
    simp only [outerDecls, Option.bind_eq_bind, Option.bind_eq_some_iff] at hv
    obtain ⟨V1, hv1, hv2⟩ := hv
    have e : declName d.who = n.val := by
      cases hw : d.who with
      | ident m =>
        rw [hw] at hn
        exact (nameOf_ok hn).1.symm
      | str id =>
        rw [hw] at hn
        cases hn; rfl
    rw [e] at hv1
    obtain ⟨a1, a2⟩ := outerName_agree (t := d.dt) ha hv1
    obtain ⟨b1, b2, b3⟩ := outerDecls_agree h2 a1 hv2
    refine ⟨b1, b2.trans a2, b3.trans ?_⟩
    unfold GState.declareLabel
    split <;> rfl

theorem outer_agree {x : SExt} {V V' : Vars} {s s' : GState} {c : List Immc} (h : ext x s = .ok ((), c, s')) (ha : Agree E V s) (hu : V.used = 0) (hv : outer E.glob x V = some V') :
    Agree E V' s' ∧ V'.used = 0 ∧ s.lab ≤ s'.lab := by
  cases x with
  | func f t b =>
    obtain ⟨hn, -, h1, h2, h3, h4⟩ := funcCode_chunk h
    obtain ⟨a1, a2⟩ := outerName_agree (n := ⟨f, hn⟩) (t := t) ha hv
    refine ⟨⟨?_, ?_, ?_⟩, a2.trans hu, h4⟩
    · rw [a1.names, h1]
    · rw [a1.tags, h2]
      unfold GState.declareLabel
      split <;> rfl
    · rw [a2, hu, h3]
  | decls ds =>
    obtain ⟨a1, a2, a3⟩ := outerDecls_agree h ha hv
    exact ⟨a1, a2.trans hu, by omega⟩
  | tag n t =>
    simp only [outer, Option.bind_eq_bind, Option.bind_eq_some_iff] at hv
    obtain ⟨_, hl, hv⟩ := hv
    refine ⟨tagDecl_agree h (CSem.need_some.1 hl) hv ha, ?_, ?_⟩
    · cases t <;> simp only [declareTag, Option.some.injEq] at hv <;> try (subst hv; exact hu)
      simp only [Option.bind_eq_bind, Option.bind_eq_some_iff, Option.some.injEq] at hv
      obtain ⟨_, -, rfl⟩ := hv
      exact hu
    · obtain ⟨-, -, -, -, -, -, e⟩ := tagDecl_keep h
      omega

/-- no name of a local object -/
def Global (s : GState) : Prop := ∀ sc ∈ s.syms, ∀ p ∈ sc, p.2.loc = .label

theorem global_declare {s : GState} (h : Global s) (n : Str) (t : DType) : Global (s.declareLabel n t) := by
  unfold GState.declareLabel
  split
  · intro sc hsc p hp
    cases hs : s.syms with
    | nil =>
      simp only [hs, define, List.mem_singleton] at hsc
      subst hsc
      simp only [List.mem_singleton] at hp
      subst hp; rfl
    | cons l ls =>
      simp only [hs, define, List.mem_cons] at hsc
      rcases hsc with rfl | hsc
      · rcases List.mem_cons.1 hp with rfl | hp
        · rfl
        · exact h l (by simp [hs]) p hp
      · exact h sc (by simp [hs, hsc]) p hp
  · exact h

theorem global_decls : ∀ {ds : List SDecl} {s s' : GState} {c : List Immc}, globalDecls ds s = .ok ((), c, s') → Global s → Global s'
  | [], s, s', c, h, hg => by
    obtain ⟨_, rfl, rfl⟩ := pure_ok.1 h
    exact hg
  | d :: ds, s, s', c, h, hg => by
    simp only [globalDecls, bind_ok] at h
    obtain ⟨_, c1, s1, c2, h1, h2, rfl⟩ := h
    obtain ⟨-, n, hn, rfl⟩ := globalDecl_chunk h1
    exact global_decls h2 (global_declare hg _ _)

theorem global_ext {x : SExt} {s s' : GState} {c : List Immc} (h : ext x s = .ok ((), c, s')) (hg : Global s) : Global s' := by
  cases x with
  | func f t b =>
    obtain ⟨hn, -, h1, -⟩ := funcCode_chunk h
    have := global_declare hg f t
    unfold Global at this ⊢
    rw [h1]
    exact this
  | decls ds => exact global_decls h hg
  | tag n t =>
    obtain ⟨rfl, tg, rfl⟩ := tagDecl_ok h
    exact hg

/-- the part of the translation unit before a function -/
theorem fns_split {sym : Name → BitVec 64} {size : Name → Nat} {g : Fn} : ∀ {u : List SExt} {V : Vars} {fs : List Fn} {s s' : GState} {c : List Immc}, fnsOf sym size u V = some fs → g ∈ fs →
    unit u s = .ok ((), c, s') → (∀ E : IMach.Env W, E.glob = sym → Agree E V s) → V.used = 0 → -1 ≤ s.lab → Global s →
    ∃ c1 c2 c3 s1 s2, c = c1 ++ (c2 ++ c3) ∧ Chunks c1 ∧ Chunks c3 ∧ funcCode g.name.val (.func g.ps g.rt) g.body s1 = .ok ((), c2, s2) ∧ (∀ E : IMach.Env W, E.glob = sym → Agree E g.scope s1) ∧ -1 ≤ s1.lab ∧
      g.size = size g.name ∧ Global s1
  | [], V, fs, s, s', c, hf, hg, h, ha, hu, hl, hgl => by
    cases hf
    cases hg
  | x :: u, V, fs, s, s', c, hf, hg, h, ha, hu, hl, hgl => by
    simp only [unit, bind_ok] at h
    obtain ⟨_, c1, s1, c2, h1, h2, rfl⟩ := h
    simp only [fnsOf, Option.bind_eq_bind, Option.bind_eq_some_iff] at hf
    obtain ⟨V', hv, fs', hf', hx⟩ := hf
    have a1 : ∀ E : IMach.Env W, E.glob = sym → Agree E V' s1 := by
      intro E hE
      subst hE
      exact (outer_agree h1 (ha E rfl) hu hv).1
    obtain ⟨-, a2, a3⟩ := outer_agree (E := ⟨0, sym, fun _ _ _ _ _ => none, [], fun _ => true⟩) h1 (ha _ rfl) hu hv
    have rest : g ∈ fs' → ∃ d1 d2 d3 t1 t2, c1 ++ c2 = d1 ++ (d2 ++ d3) ∧ Chunks d1 ∧ Chunks d3 ∧ funcCode g.name.val (.func g.ps g.rt) g.body t1 = .ok ((), d2, t2) ∧
        (∀ E : IMach.Env W, E.glob = sym → Agree E g.scope t1) ∧ -1 ≤ t1.lab ∧ g.size = size g.name ∧ Global t1 := by
      intro hm
      obtain ⟨d1, d2, d3, t1, t2, rfl, e1, e2, e3⟩ := fns_split hf' hm h2 a1 a2 (by omega) (global_ext h1 hgl)
      exact ⟨c1 ++ d1, d2, d3, t1, t2, by simp, (ext_chunk h1).append e1, e2, e3⟩
    split at hx
    · rename_i f ps rt b
      split at hx
      · rename_i hn
        cases hx
        rcases List.mem_cons.1 hg with rfl | hm
        · exact ⟨[], c1, c2, s, s1, by simp, ⟨[], by simp, rfl⟩, unit_chunk h2, h1, ha, hl, rfl, hgl⟩
        · exact rest hm
      · cases hx
    · cases hx
    · cases hx
      exact rest hg

theorem bind_count {I : Impl W} : ∀ {ps : Params} {vs : List IMach.Val} {V : Vars} {m : IMach.Mem} {x : Vars × IMach.Mem}, bindParams I ps vs V m = some x → vs.length = paramCount ps
  | .nil, [], _, _, _, _ => rfl
  | .nil, _ :: _, _, _, _, h => by simp [bindParams] at h
  | .cons none _ _, _, _, _, _, h => by simp [bindParams] at h
  | .cons (some _) _ _, [], _, _, _, h => by simp [bindParams] at h
  | .cons (some n) t ps, v :: vs, V, m, x, h => by
    simp only [bindParams, Option.bind_eq_bind, Option.bind_eq_some_iff] at h
    obtain ⟨q, -, _, -, V1, -, a, -, h⟩ := h
    simp [paramCount, bind_count h]

theorem exec_count {I : Impl W} {k : Nat} {V : Vars} {f : Str} {ps : Params} {rt : DType} {b : SItems} {vs : List IMach.Val} {σ : IMach.Mem × W} {r : Res × IMach.Mem × W}
    (h : execFunc I k V f ps rt b vs σ = some r) : vs.length = paramCount ps := by
  simp only [execFunc, Option.bind_eq_bind, Option.bind_eq_some_iff] at h
  obtain ⟨V1, -, x, h, -⟩ := h
  exact bind_count h

end CStm

namespace X86
open CStm
open Gen (FuncChunk IsExt Chunks Body body_inner)

variable {W : Type}

theorem intervalsAt_eq (qs : List Liveseq) : ∀ n, intervalsAt qs n = nextAllN qs n
  | 0 => rfl
  | n + 1 => by rw [intervalsAt, nextAllN, intervalsAt_eq qs n]

theorem labelNames_eq (l : List X64.Item) : labelNames l = itemLabels l := rfl

theorem untilLeave_body {l : Inst} (hl : l.op = .leave) (r : List Immc) : ∀ {body : List Immc} (_ : ∀ x ∈ body, X64.isLeave x = false), untilLeave (body ++ .inst l :: r) = body ++ [.inst l]
  | [], _ => by simp [untilLeave, X64.isLeave, hl]
  | x :: body, h => by
    have hx := h x (by simp)
    have := untilLeave_body hl r (body := body) fun y hy => h y (by simp [hy])
    simp [untilLeave, hx, this]

theorem untilLeave_chunk {n : Name} {o : List Immc} (ho : FuncChunk n o) (r : List Immc) : untilLeave (o ++ r) = o := by
  obtain ⟨v, i, body, l, rfl, hi, hl, hb⟩ := ho
  have := untilLeave_body hl r (body := .label .function v n :: .inst i :: body) (by
    intro x hx
    simp only [List.mem_cons] at hx
    rcases hx with rfl | rfl | hx
    · rfl
    · simp [X64.isLeave, hi]
    · exact (body_inner (hb x hx)).2)
  simpa using this

theorem while_split {p : Immc → Bool} {a : List Immc} {x : Immc} {b : List Immc} (ha : ∀ y ∈ a, p y = true) (hx : p x = false) :
    (a ++ x :: b).takeWhile p = a ∧ (a ++ x :: b).dropWhile p = x :: b := by
  induction a with
  | nil => simp [hx]
  | cons y a ih =>
    have hy := ha y (by simp)
    obtain ⟨h1, h2⟩ := ih fun z hz => ha z (by simp [hz])
    simp [hy, h1, h2]

theorem allocAll_length {nregs fuel : Nat} : ∀ {n : Nat} {code acc out : List Immc} {qs qs' : List Liveseq} {off : Nat},
    Regalloc.allocAll nregs fuel acc qs off n code = .ok (out, qs') → qs'.length = qs.length
  | 0, [], _, _, _, _, _, h => by cases h; rfl
  | 0, _ :: _, _, _, _, _, _, h => by cases h
  | _ + 1, [], _, _, _, _, _, h => by cases h; rfl
  | n + 1, x :: rest, acc, out, qs, qs', off, h => by
    simp only [Regalloc.allocAll] at h
    split at h
    · simp only [Out.bind_eq_ok] at h
      obtain ⟨⟨o, q⟩, h1, h2⟩ := h
      obtain ⟨g, lv, al, -, -, -, -, h5⟩ := Regalloc.allocFunction_parts h1
      rw [allocAll_length h2, (updateLiveseqs_lives _ _ _ h5).1]
    · exact allocAll_length h
    · cases h

/-- every function whose allocated code meets `Suits` does what C65 says -/
theorem good_from {u : List SExt} {code out : List Immc} {qs : List Liveseq} {items : List X64.Item} {fuel : Nat} {P : Prog W} {I : Image W}
    (hgen : Gen.generate u = .ok code) (hreg : Regalloc.run code 8 fuel = .ok (out, qs)) (hx : X64.generate out qs = .ok items) (hlab : (labelNames items).Nodup)
    (hfns : fnsOf P.sym (sizeIn out) u noVars = some P.fns) (hlink : Linked I items) (hsym : I.host.sym = P.sym) (hlim : P.lim = true) {g : Fn} (hg : g ∈ P.fns)
    (p1 : soundAll g.body = true) (p2 : Flow.freeBrks g.body = false) (p3 : Flow.freeConts g.body = false) (p4 : g.name.val.head? ≠ some 46) (p5 : paramCount g.ps < 2 ^ 57)
    (p7 : frameOf (linesOf g.name out) < 2 ^ 31 - 16) {d : Nat} (p8 : g.size + (24 + d) + 8 ≤ P.each)
    (hs : ∀ {code s s' off q q' fuel qx}, Gen.funcCode g.name.val (.func g.ps g.rt) g.body s = .ok ((), code, s') →
      Regalloc.allocFunction code off 8 q fuel = .ok (linesOf g.name out, q') → Global s → -1 ≤ s.lab → intervalsAt qs (lineNo g.name out) = .ok qx → qx.length = 8 →
      Gen.Own code (linesOf g.name out) off 8 fuel qs → lineNo g.name out = off → (∀ q ∈ qs, q.index = 0) → qs.length = 8 → g.scope.tags = s.tags →
      ∃ K flags A Z, Suits (linesOf g.name out) qx (frameOf (linesOf g.name out)) (paramCount g.ps) K flags A Z ∧ ∀ i, heldAll (A i) ≤ d)
    {vs : List IMach.Val} (hcount : vs.length = paramCount g.ps) : Good P I items g vs := by
  have hunit : ∃ s', Gen.unit u Gen.initial = .ok ((), code, s') := by
    unfold Gen.generate at hgen
    split at hgen <;> cases hgen
    exact ⟨_, ‹_›⟩
  obtain ⟨s', hunit⟩ := hunit
  have agree0 : ∀ E : IMach.Env W, Agree E noVars Gen.initial := fun E => ⟨rfl, rfl, rfl⟩
  obtain ⟨c1, c2, c3, s1, s2, rfl, ⟨cs1, hc1, rfl⟩, ⟨cs3, hc3, rfl⟩, hfc, hag, hl, hsize, hgl⟩ := fns_split hfns hg hunit (fun E _ => agree0 E) rfl (by decide) (by simp [Global, Gen.initial])
  obtain ⟨hn, hch, -⟩ := Gen.funcCode_chunk hfc
  have hq8 : qs.length = 8 := by
    have := allocAll_length hreg
    simpa using this
  have hidx : ∀ q ∈ qs, q.index = 0 := by
    intro q hq
    obtain ⟨r, hr⟩ := List.mem_iff_getElem?.1 hq
    have hall : ∀ x ∈ cs1 ++ c2 :: cs3, IsExt x := by
      intro x hx
      simp only [List.mem_append, List.mem_cons] at hx
      rcases hx with hx | rfl | hx
      · exact hc1 x hx
      · exact .inl ⟨_, hch⟩
      · exact hc3 x hx
    obtain ⟨q0, _, e, rfl, -⟩ := Gen.allocAll_gained (cs1 ++ c2 :: cs3) hall (by simp only [List.flatten_append, List.flatten_cons]; exact hreg) r q hr
    rw [List.eq_of_mem_replicate (List.mem_of_getElem? e)]
    rfl
  obtain ⟨os1, o, o2, q1, q2, ho, hlen, hos, hoc, hal, hown⟩ := Gen.alloc_own hch hc3 cs1 hc1 (by
    intro q hq l hl
    rw [List.eq_of_mem_replicate hq] at hl
    cases hl) hreg
  rw [List.nil_append] at ho
  subst ho
  obtain ⟨B, cs, st, Q, qx, hitems, hqx, hgf, hBl⟩ := gen_split hoc os1 hos hx
  rw [List.nil_append] at hitems
  subst hitems
  obtain ⟨-, -, -, hol, v, tl, hcs⟩ := genFunction_rest hoc hgf
  -- labels
  rw [labelNames_eq, itemLabels_append, itemLabels_append, List.nodup_append, List.nodup_append] at hlab
  have hdis : ∀ n ∈ itemLabels B, n ∉ codeLabels o := by
    intro n h1 h2
    rw [← hol] at h2
    exact hlab.1.2.2 n h1 n h2 rfl
  have hnames : ∀ y ∈ B, ∀ x ∈ o, ∀ l, isItemLabel l y = true → RSpec.isLabelNamed l x = false := by
    intro y hy x hxo l h1
    cases h2 : RSpec.isLabelNamed l x with
    | false => rfl
    | true => exact absurd (mem_codeLabels.2 ⟨x, hxo, h2⟩) (hdis l (mem_itemLabels.2 ⟨y, hy, h1⟩))
  have hhead : ∃ w' t', o = .label .function w' g.name :: t' := by
    obtain ⟨w', i, body, l, rfl, -⟩ := hoc
    exact ⟨w', _, rfl⟩
  have hnot : ∀ y ∈ os1.flatten, (!RSpec.isLabelNamed g.name y) = true := by
    intro y hy
    cases h2 : RSpec.isLabelNamed g.name y with
    | false => rfl
    | true =>
      have h3 := mem_codeLabels.2 ⟨y, hy, h2⟩
      rw [← hBl] at h3
      refine absurd ?_ (hdis _ h3)
      obtain ⟨w', t', rfl⟩ := hhead
      exact mem_codeLabels.2 ⟨_, List.mem_cons_self .., by simp [RSpec.isLabelNamed]⟩
  have hlines : linesOf g.name (os1.flatten ++ (o ++ o2)) = o ∧ lineNo g.name (os1.flatten ++ (o ++ o2)) = os1.flatten.length := by
    obtain ⟨w', t', e⟩ := hhead
    obtain ⟨e1, e2⟩ := while_split (b := t' ++ o2) hnot (x := .label .function w' g.name) (by simp [RSpec.isLabelNamed])
    rw [linesOf, lineNo]
    rw [e, List.cons_append, e1, e2]
    refine ⟨?_, rfl⟩
    rw [← List.cons_append, ← e]
    exact untilLeave_chunk hoc o2
  obtain ⟨hlines, hno⟩ := hlines
  have hqx8 : qx.length = 8 := by rw [(nextAllN_at hqx).1, hq8]
  have hs := hs (code := c2) (qx := qx) hfc (by rw [hlines]; exact hal) hgl hl (by rw [hno, intervalsAt_eq, hqx]) hqx8 (by rw [hlines]; exact hown)
    (by rw [hno, hlen, Nat.zero_add]) hidx hq8 (hag ⟨0, P.sym, fun _ _ _ _ _ => none, [], fun _ => true⟩ rfl).tags
  rw [hlines] at p7 hs
  rw [sizeIn, hlines] at hsize
  have hloc : I.locate (P.sym g.name) = some B.length := by
    rw [← hsym]
    refine hlink.func _ v _ ?_
    rw [hcs, List.append_assoc, List.getElem?_append_right (Nat.le_refl _), Nat.sub_self]
    rfl
  refine ⟨⟨B.length, 24 + d, hloc, p8, ?_⟩, ?_⟩
  · intro E hglob hargs
    obtain ⟨K, flags, A, Z, hs, hd⟩ := hs
    have := C65_stages_partial (implOf E true) E g.scope s1 g.name.val g.ps g.rt g.body o qx B Q (fits_implOf E true) (hag E hglob) hl p4 p2 p3 p1 hfc hal hgf hnames
      (by rw [hargs, hcount]; exact hs) p7 fun i _ => hd i
    rw [hsize, hlim]
    exact this
  · rw [hcount]
    simp only [inSize]
    omega

/-- every function that passes the test does what C65 says -/
theorem good_of {u : List SExt} {code out : List Immc} {qs : List Liveseq} {items : List X64.Item} {fuel rounds : Nat} {P : Prog W} {I : Image W}
    (hgen : Gen.generate u = .ok code) (hreg : Regalloc.run code 8 fuel = .ok (out, qs)) (hx : X64.generate out qs = .ok items) (hlab : (labelNames items).Nodup)
    (hfns : fnsOf P.sym (sizeIn out) u noVars = some P.fns) (hlink : Linked I items) (hsym : I.host.sym = P.sym) (hlim : P.lim = true) {g : Fn} (hg : g ∈ P.fns)
    (hp : proper out qs rounds P.each g = true) {vs : List IMach.Val} (hcount : vs.length = paramCount g.ps) : Good P I items g vs := by
  rw [proper, Bool.or_eq_true] at hp
  rcases hp with hp | hp
  · simp only [passes, Bool.and_eq_true, Bool.not_eq_true', decide_eq_true_eq] at hp
    obtain ⟨⟨⟨⟨⟨⟨⟨p1, p2⟩, p3⟩, p4⟩, p5⟩, p6⟩, p7⟩, p8⟩ := hp
    refine good_from hgen hreg hx hlab hfns hlink hsym hlim hg p1 p2 p3 p4 p5 p7 p8 ?_ hcount
    intro code s s' off q q' fuel qx _ _ _ _ hqx _ _ _ _ _ _
    rw [hqx] at p6
    exact ⟨_, _, _, _, suits_of p6, fun _ => heldMost_le⟩
  · simp only [plainFn, Bool.and_eq_true, Bool.not_eq_true', decide_eq_true_eq] at hp
    obtain ⟨⟨⟨⟨⟨⟨⟨p1, p2⟩, p3⟩, p4⟩, p5⟩, p6⟩, p7⟩, p9⟩ := hp
    simp only [Plain.plainIn, Bool.or_eq_true, Bool.and_eq_true, decide_eq_true_eq] at p6
    rcases p6 with ⟨p6, p8⟩ | ⟨⟨pt, p6⟩, p8⟩
    · refine good_from hgen hreg hx hlab hfns hlink hsym hlim hg p1 p2 p3 p4 p5 p7 (d := 0) (by omega) ?_ hcount
      intro code s s' off q q' fuel qx hfc hal hgl hl _ hq _ _ _ _ htg
      rw [htg] at p9
      obtain ⟨h1, h2⟩ := Plain.suits_plain (N := none) hfc hal p6 p1 p3 p2 p4 hl hgl p9 hq (.inl rfl)
      exact ⟨_, _, _, _, h1, h2⟩
    · refine good_from hgen hreg hx hlab hfns hlink hsym hlim hg p1 p2 p3 p4 p5 p7 (d := Plain.bound (some ((P.each - (g.size + 40)) / 8))) (by simp only [Plain.bound]; omega) ?_ hcount
      intro code s s' off q q' fuel qx hfc hal hgl hl hqx hq hown hno hidx hq8 htg
      rw [htg] at p9
      rw [hno, intervalsAt_eq] at hqx
      obtain ⟨h1, h2⟩ := Plain.suits_plain hfc hal p6 p1 p3 p2 p4 hl hgl p9 hq
        (.inr fun i x hx hcall r hr => Plain.flags_plain hfc hown p6 pt p1 p3 p2 p4 hl hgl p9 hidx hqx (by rw [hq, hq8]) hx hcall hr)
      exact ⟨_, _, _, _, h1, h2⟩

end X86
end Umlcc
