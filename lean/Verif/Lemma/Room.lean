import Verif.Spec.Room
import Verif.Lemma.GenLabel
import Verif.Lemma.GenBody
import Verif.Lemma.UnitProgram
/-!
Helper lemmas: the size of the frame of a function is bounded by the sizes of its objects.
-/
namespace Umlcc
namespace Whole
open Gen

def SameMem (s s' : GState) : Prop := s'.mem = s.mem
instance : Change SameMem := ⟨fun _ => rfl, fun h k => Eq.trans k h⟩
abbrev Keep (m : GM α) : Prop := EmitP (fun _ => True) SameMem m T

theorem localScalar_keep {t : DType} {e : SExpr} : Keep (localScalar t (expr e)) := by
  intro s a c s' h
  obtain ⟨o, c1, s1, h1, -, rfl⟩ := localScalar_ok h
  exact ⟨fun _ _ => trivial, trivial, ((expr_inv e).int h1).1.mem⟩

theorem localMembers_keep {off : Int} : ∀ {ms : List (DType × Nat)} {gs : List (DType → GM Unit)} (_ : ∀ g ∈ gs, ∀ t, Keep (g t)), Keep (localMembers off ms gs)
  | [], _, _ => by unfold localMembers; exact .pure trivial
  | _ :: _, [], _ => by unfold localMembers; exact .ub
  | (t, o) :: ms, g :: gs, h => by
    unfold localMembers
    exact (EmitP.modify (by exact fun _ => rfl)).bind fun _ _ => (h g (List.mem_cons_self ..) t).bind fun _ _ => localMembers_keep fun g hg => h g (List.mem_cons_of_mem _ hg)

theorem localStruct_keep {t : DType} {gs : List (DType → GM Unit)} (h : ∀ g ∈ gs, ∀ t, Keep (g t)) : Keep (localStruct t gs) := by
  unfold localStruct
  refine structType_em.bind fun _ _ => EmitP.get.bind fun _ _ => ?_
  split
  · exact localMembers_keep h
  · exact EmitP.ub

mutual
theorem localInit_keep : ∀ (i : SInit) (t : DType), Keep (localInit i t)
  | .expr e, t => by
    simp only [localInit]
    split
    · exact localScalar_keep
    · exact EmitP.ub
  | .str a b, t => by
    cases t <;> simp only [localInit] <;> first | exact EmitP.ub | exact EmitP.get.bind fun _ _ => (EmitP.emit trivial).bind fun _ _ => EmitP.modify (by exact fun _ => rfl)
  | .list is, t => by
    cases t <;> simp only [localInit] <;> first | exact arrayInit_em (localInits_keep is) | exact localStruct_keep (localInits_keep is) | exact EmitP.ub
theorem localInits_keep : ∀ (is : SInits), ∀ g ∈ localInits is, ∀ t, Keep (g t)
  | .nil => by simp [localInits]
  | .cons i is => by
    intro g hg t
    simp only [localInits, List.mem_cons] at hg
    rcases hg with rfl | hg
    · exact localInit_keep i t
    · exact localInits_keep is g hg t
end

theorem declare_mem {s : GState} {n : Str} {t : DType} : (s.declare n t).mem ≤ s.mem + (t.nbytes + 3) := by
  unfold GState.declare
  split
  · split
    · show (s.mem + t.nbytes + 3) / 4 * 4 ≤ _
      omega
    · show s.mem ≤ _
      omega
  · omega

theorem localDecls_room : ∀ {ds : List SDecl} {s s' : GState} {u : Unit} {c : List Immc}, localDecls ds s = .ok (u, c, s') → s'.mem ≤ s.mem + declRoom ds
  | [], s, s', u, c, h => by cases h; exact Nat.le_refl _
  | d :: ds, s, s', u, c, h => by
    obtain ⟨c1, s1, c2, h1, h2, -⟩ := localDecls_cons h
    have h3 := localDecls_room h2
    obtain ⟨n, -, ⟨-, -, rfl⟩ | ⟨i, y, s2, -, -, h4, rfl⟩⟩ := localDecl_ok h1
    · have := @declare_mem s n d.dt
      simp only [declRoom]
      omega
    · have h5 : s2.mem = (s.declare n d.dt).mem := (localInit_keep _ _ _ _ _ _ h4).2.2
      have := @declare_mem s n d.dt
      simp only [declRoom]
      dsimp only at h3
      omega

theorem forCond_mem {c : SStmt} {n : Name} {s s' : GState} {u : Unit} {code : List Immc} (h : forCond c n s = .ok (u, code, s')) : s'.mem = s.mem := by
  rcases forCond_ok h with ⟨e, j, c1, -, h1, -⟩ | ⟨-, -, rfl⟩
  · exact ((expr_inv e).jmp h1).1.1.mem
  · rfl

mutual
theorem stmt_room : ∀ (x : SStmt) {s s' : GState} {u : Unit} {c : List Immc}, stmt x s = .ok (u, c, s') → s'.mem ≤ s.mem + stmtRoom x
  | .cmpd is, s, s', u, c, h => by
    obtain ⟨s1, h1, rfl⟩ := stmt_cmpd h
    have := items_room is h1
    exact this
  | .case v b, s, s', u, c, h => by
    obtain ⟨cs, t, l, c1, -, -, h1, -⟩ := stmt_case h
    have := stmt_room b h1
    exact this
  | .dflt b, s, s', u, c, h => by
    obtain ⟨c1, h1, -⟩ := stmt_dflt h
    have := stmt_room b h1
    exact this
  | .cont, s, s', u, c, h => by cases h; exact Nat.le_refl _
  | .brk, s, s', u, c, h => by cases h; exact Nat.le_refl _
  | .ret none, s, s', u, c, h => by
    obtain ⟨-, rfl⟩ := returnCode_none h
    exact Nat.le_refl _
  | .ret (some e), s, s', u, c, h => by
    obtain ⟨o, c1, h1, -⟩ := returnCode_some (g := expr e) h
    exact Nat.le_of_eq ((expr_inv e).int h1).1.mem
  | .expr e, s, s', u, c, h => by
    simp only [stmt] at h
    gm at h
    have := ((expr_inv e).code h).1.mem
    exact Nat.le_of_eq this
  | .null, s, s', u, c, h => by cases h; exact Nat.le_refl _
  | .ite cn t, s, s', u, c, h => by
    obtain ⟨j, c1, s1, c2, h1, h2, -⟩ := iteCode_ok h
    have e1 := ((expr_inv cn).jmp h1).1.1.mem
    have e2 := stmt_room t h2
    simp only [stmtRoom]
    dsimp only at e1
    omega
  | .itee cn t e, s, s', u, c, h => by
    obtain ⟨j, c1, s1, c2, s2, c3, h1, h2, h3, -⟩ := iteeCode_ok h
    have e1 := ((expr_inv cn).jmp h1).1.1.mem
    have e2 := stmt_room t h2
    have e3 := stmt_room e h3
    simp only [stmtRoom]
    dsimp only at e1
    omega
  | .switch cn b, s, s', u, c, h => by
    obtain ⟨o, c1, s1, c2, s2, h1, h2, -, rfl⟩ := switchCode_ok h
    have e1 := ((expr_inv cn).reg h1).1.mem
    have e2 := stmt_room b h2
    simp only [stmtRoom]
    dsimp only at e2 ⊢
    omega
  | .while cn b, s, s', u, c, h => by
    obtain ⟨j, c1, s1, c2, s2, h1, h2, -, rfl⟩ := whileCode_ok h
    have e1 := ((expr_inv cn).jmp h1).1.1.mem
    have e2 := stmt_room b h2
    simp only [stmtRoom]
    dsimp only at e1 e2 ⊢
    omega
  | .for i cn n b, s, s', u, c, h => by
    obtain ⟨s0, h0, rfl⟩ := stmt_for h
    obtain ⟨c1, s1, c2, s2, c3, s3, c4, h1, h2, h3, h4, -⟩ := forCode_ok h0
    have e1 := item_room i h1
    have e2 := forCond_mem h2
    have e3 := stmt_room b h3
    have e4 := stmt_room n h4
    simp only [stmtRoom]
    dsimp only at e1 e3 e4 ⊢
    omega
theorem item_room : ∀ (x : SItem) {s s' : GState} {u : Unit} {c : List Immc}, item x s = .ok (u, c, s') → s'.mem ≤ s.mem + itemRoom x
  | .stmt x, s, s', u, c, h => stmt_room x h
  | .decls ds, s, s', u, c, h => localDecls_room h
  | .tag n t, s, s', u, c, h => by
    obtain ⟨-, tg, rfl⟩ := tagDecl_ok h
    exact Nat.le_refl _
theorem items_room : ∀ (x : SItems) {s s' : GState} {u : Unit} {c : List Immc}, items x s = .ok (u, c, s') → s'.mem ≤ s.mem + itemsRoom x
  | .nil, s, s', u, c, h => by cases h; exact Nat.le_refl _
  | .cons i is, s, s', u, c, h => by
    obtain ⟨c1, s1, c2, h1, h2, -⟩ := items_cons h
    have e1 := item_room i h1
    have e2 := items_room is h2
    simp only [itemsRoom]
    omega
end

theorem params_room : ∀ {ps : Params} {i : Nat} {s s' : GState} {u : Unit} {c : List Immc}, paramsCode i ps s = .ok (u, c, s') → s'.mem ≤ s.mem + paramRoom ps
  | .nil, _, s, s', u, c, h => by cases h; exact Nat.le_refl _
  | .cons n t ps, i, s, s', u, c, h => by
    obtain ⟨m, c1, -, -, h1, -⟩ := paramsCode_cons h
    have := params_room h1
    simp only [paramRoom]
    dsimp only at this
    omega

/-- the number of bytes in the `ENTER` of a function -/
theorem func_room {f : Str} {ps : Params} {rt : DType} {b : SItems} {s s' : GState} {c : List Immc} (h : funcCode f (.func ps rt) b s = .ok ((), c, s')) (ρ : Int → Int) :
    X86.frameOf (c.map (RSpec.rename ρ)) ≤ room ps b := by
  obtain ⟨name, ps', rt', pc, s1, bc, s2, -, e, h1, h2, rfl, -⟩ := funcCode_ok h
  cases e
  have e1 := params_room h1
  have e2 := items_room b h2
  show X86.frameOf (_ :: RSpec.rename ρ (.inst ⟨.enter, none, some (.int .quad ⟨.int, s2.mem⟩), none⟩) :: _) ≤ _
  show ((s2.mem : Int)).toNat ≤ _
  have e3 : (s.inFunc f (.func ps rt)).mem = 0 := rfl
  simp only [Int.toNat_natCast, room]
  omega

open X86 in
/-- the lines of a function in the allocated code are the allocated code of the function -/
theorem fn_lines {u : List SExt} {code out : List Immc} {qs : List Liveseq} {items : List X64.Item} {fuel : Nat} {sym : Name → BitVec 64} {fns : List CStm.Fn}
    (hgen : Gen.generate u = .ok code) (hreg : Regalloc.run code 8 fuel = .ok (out, qs)) (hx : X64.generate out qs = .ok items) (hlab : (labelNames items).Nodup)
    (hfns : CStm.fnsOf sym (sizeIn out) u CStm.noVars = some fns) {g : CStm.Fn} (hg : g ∈ fns) :
    frameOf (linesOf g.name out) ≤ room g.ps g.body ∧ g.size = frameSize (frameOf (linesOf g.name out)) := by
  have hunit : ∃ s', Gen.unit u Gen.initial = .ok ((), code, s') := by
    unfold Gen.generate at hgen
    split at hgen <;> cases hgen
    exact ⟨_, ‹_›⟩
  obtain ⟨s', hunit⟩ := hunit
  obtain ⟨c1, c2, c3, s1, s2, rfl, ⟨cs1, hc1, rfl⟩, ⟨cs3, hc3, rfl⟩, hfc, -, -, hsize, -⟩ := CStm.fns_split (W := Unit) hfns hg hunit (fun E _ => ⟨rfl, rfl, rfl⟩) rfl (by decide) (by simp [CStm.Global, Gen.initial])
  obtain ⟨hn, hch, -⟩ := Gen.funcCode_chunk hfc
  obtain ⟨os1, o, o2, q1, q2, ho, hlen, hos, hoc, hal⟩ := Gen.alloc_split hch hc3 cs1 hc1 hreg
  rw [List.nil_append] at ho
  subst ho
  obtain ⟨B, cs, st, Q, qx, hitems, hqx, hgf, hBl⟩ := gen_split hoc os1 hos hx
  rw [List.nil_append] at hitems
  subst hitems
  obtain ⟨-, -, -, hol, v, tl, hcs⟩ := genFunction_rest hoc hgf
  rw [labelNames_eq, itemLabels_append, itemLabels_append, List.nodup_append, List.nodup_append] at hlab
  have hdis : ∀ n ∈ itemLabels B, n ∉ codeLabels o := by
    intro n h1 h2
    rw [← hol] at h2
    exact hlab.1.2.2 n h1 n h2 rfl
  have hhead : ∃ w' t', o = .label .function w' g.name :: t' := by
    obtain ⟨w', i, body, l, rfl, -⟩ := hoc
    exact ⟨w', _, rfl⟩
  have hnot : ∀ y ∈ os1.flatten, (!RSpec.isLabelNamed g.name y) = true := by
    intro y hy
    cases h2 : RSpec.isLabelNamed g.name y with
    | false => rfl
    | true =>
      have h3 := mem_codeLabels.2 ⟨y, hy, h2⟩
      rw [← hBl] at h3
      refine absurd ?_ (hdis _ h3)
      obtain ⟨w', t', rfl⟩ := hhead
      exact mem_codeLabels.2 ⟨_, List.mem_cons_self .., by simp [RSpec.isLabelNamed]⟩
  have hlines : linesOf g.name (os1.flatten ++ (o ++ o2)) = o := by
    obtain ⟨w', t', e⟩ := hhead
    obtain ⟨e1, e2⟩ := while_split (b := t' ++ o2) hnot (x := .label .function w' g.name) (by simp [RSpec.isLabelNamed])
    rw [linesOf]
    rw [e, List.cons_append, e2]
    rw [← List.cons_append, ← e]
    exact untilLeave_chunk hoc o2
  obtain ⟨_, _, al, -, -, -, h4, -⟩ := Regalloc.allocFunction_parts hal
  refine ⟨?_, hsize⟩
  rw [hlines, Regalloc.genAllocated_rename h4]
  exact func_room hfc _

end Whole
end Umlcc
