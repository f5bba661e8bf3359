import Verif.Lemma.StaticDtor
/-!
The resolver on expressions, against the static semantics.
-/
namespace Umlcc
namespace StatL
open Syn Stat TSpec
open Res (RM RState RSym Rec full full_expr bind_some bind_none attempt_ok)

/-- the outcome, whatever the state -/
def Is (m : RM α) : V α → Prop
  | .ok a => m = pure a
  | .bad => m = Res.fail
  | .out => True

theorem Is.does {m : RM α} {v : V α} (h : Is m v) (s : RState) : Does m s v [] := by
  cases v with
  | ok a => simp only [Is] at h; subst h; exact Does.pure rfl
  | bad => simp only [Is] at h; subst h; exact Does.fail rfl
  | out => trivial

theorem decay_eq (x : SExpr) : Res.decay x = Stat.decay x := by
  unfold Res.decay Stat.decay; cases x.dt <;> rfl

/-! ### arithmetic conversions -/

def castList (t p c : DType) : List DType :=
  (if compat t p then [] else [p]) ++ (if compat (if compat t p then t else p) c then [] else [c])

theorem conv_casts (p c : DType) (x : SExpr) : conv c (conv p x) = Res.casts (castList x.dt p c) x := by
  unfold conv castList
  cases h : compat x.dt p with
  | true =>
    simp only [if_true, List.nil_append]
    cases compat x.dt c <;> rfl
  | false =>
    simp only [Bool.false_eq_true, if_false, SExpr.dt]
    cases compat p c <;> rfl

theorem casts_dt (l : List DType) (x : SExpr) : (Res.casts l x).dt = l.getLastD x.dt := by
  induction l generalizing x with
  | nil => rfl
  | cons t l ih => rw [Res.casts, ih]; cases l <;> rfl

def allInt : List IntTy := [.char, .int, .uint, .long, .ulong, .llong, .ullong]
theorem mem_allInt (i : IntTy) : i ∈ allInt := by cases i <;> decide

theorem usual_table (i j : IntTy) : Conv.usual i.toDType j.toDType =
    (castList i.toDType i.promote.toDType (IntTy.common i j).toDType, castList j.toDType j.promote.toDType (IntTy.common i j).toDType) ∧
    (castList i.toDType i.promote.toDType (IntTy.common i j).toDType).getLastD i.toDType = (IntTy.common i j).toDType := by
  have : ∀ i ∈ allInt, ∀ j ∈ allInt, Conv.usual i.toDType j.toDType =
    (castList i.toDType i.promote.toDType (IntTy.common i j).toDType, castList j.toDType j.promote.toDType (IntTy.common i j).toDType) ∧
    (castList i.toDType i.promote.toDType (IntTy.common i j).toDType).getLastD i.toDType = (IntTy.common i j).toDType := by decide +kernel
  exact this i (mem_allInt i) j (mem_allInt j)

theorem intOf_toDType {t : DType} {i : IntTy} (h : intOf t = some i) (he : enumTy t = false) : t = i.toDType := by
  cases t <;> simp only [intOf, reduceCtorEq, Option.some.injEq, enumTy] at h he <;> first | (subst h; rfl) | (cases he)

theorem usual_ok {l r : SExpr} {i j : IntTy} (hl : intOf l.dt = some i) (hr : intOf r.dt = some j) (he : (enumTy l.dt || enumTy r.dt) = false) :
    Res.usual l r = (conv (IntTy.common i j).toDType (conv i.promote.toDType l), conv (IntTy.common i j).toDType (conv j.promote.toDType r)) ∧
    (conv (IntTy.common i j).toDType (conv i.promote.toDType l)).dt = (IntTy.common i j).toDType := by
  simp only [Bool.or_eq_false_iff] at he
  have h1 := intOf_toDType hl he.1
  have h2 := intOf_toDType hr he.2
  have ht := usual_table i j
  constructor
  · simp only [Res.usual, h1, h2, ht.1, conv_casts]
  · rw [conv_casts, casts_dt, h1, ht.2]

/-- both operands arithmetic -/
theorem usual_arith {l r : SExpr} (h : (l.dt.isArithmetic && r.dt.isArithmetic) = true) {P : V (DType × SExpr × SExpr) → Prop} (ho : P .out)
    (hk : ∀ c, (Res.usual l r).1.dt = c → P (.ok (c, (Res.usual l r).1, (Res.usual l r).2))) : P (Stat.usual true l r) := by
  simp only [isArithmetic_eq, Bool.and_eq_true, Option.isSome_iff_exists] at h
  obtain ⟨⟨i, hi⟩, j, hj⟩ := h
  simp only [Stat.usual, hi, hj, differs]
  cases he : (enumTy l.dt || enumTy r.dt) with
  | true => exact ho
  | false =>
    obtain ⟨h1, h2⟩ := usual_ok hi hj he
    have := hk (IntTy.common i j).toDType (by rw [h1]; exact h2)
    rw [h1] at this
    exact this

theorem usual_none {l r : SExpr} (h : (l.dt.isArithmetic && r.dt.isArithmetic) = false) : Stat.usual true l r = .bad ∧ Res.usual l r = (l, r) := by
  constructor
  · simp only [isArithmetic_eq, Bool.and_eq_false_iff] at h
    unfold Stat.usual
    cases hl : intOf l.dt <;> cases hr : intOf r.dt <;> simp_all
  · have : (!l.dt.isArithmetic || !r.dt.isArithmetic) = true := by
      rw [← Bool.not_and, h]; rfl
    simp only [Res.usual, Conv.usual, this, if_true]
    rfl

/-! ### what is done with resolved operands -/

def arithPost (op : SBin) (l r : SExpr) : RM SExpr := do
  Res.require ((Res.usual l r).1.dt.isInteger && (Res.usual l r).2.dt.isInteger)
  pure (.bin op (Res.usual l r).1.dt (Res.usual l r).1 (Res.usual l r).2)

def cmpPost (op : SBin) (l r : SExpr) : RM SExpr :=
  if l.dt.isArithmetic && r.dt.isArithmetic then pure (.bin op .int (Res.usual l r).1 (Res.usual l r).2)
  else if Res.compatPtrs l.dt r.dt then pure (.bin op .int l r)
  else Res.fail

def addPost (l r : SExpr) : RM SExpr :=
  if l.dt.isArithmetic && r.dt.isArithmetic then pure (.bin .add (Res.usual l r).1.dt (Res.usual l r).1 (Res.usual l r).2)
  else if Res.isPtr l.dt && r.dt.isInteger then pure (.bin .padd l.dt l r)
  else if l.dt.isInteger && Res.isPtr r.dt then pure (.bin .padd r.dt r l)
  else Res.fail

def subPost (l r : SExpr) : RM SExpr :=
  if l.dt.isArithmetic && r.dt.isArithmetic then pure (.bin .sub (Res.usual l r).1.dt (Res.usual l r).1 (Res.usual l r).2)
  else if Res.isPtr l.dt && r.dt.isInteger then pure (.bin .psub l.dt l r)
  else if Res.compatPtrs l.dt r.dt then pure (.bin .pdiff .ullong l r)
  else Res.fail

def binPost (op : BinOp) (l r : SExpr) : RM SExpr :=
  match op with
  | .lor | .land => do
    Res.require (l.dt.isScalar && r.dt.isScalar)
    pure (.bin (opOf op) .int l r)
  | .or | .xor | .and | .mul | .div | .mod | .shl | .shr => arithPost (opOf op) l r
  | .eq | .ne | .lt | .gt | .le | .ge => cmpPost (opOf op) l r
  | .add => addPost l r
  | .sub => subPost l r

theorem int_dt_toDType (i : IntTy) : (intOf i.toDType) = some i := by cases i <;> rfl

theorem usual_bool {l r : SExpr} {i j : IntTy} (hi : intOf l.dt = some i) (hj : intOf r.dt = some j) : (l.dt.isArithmetic && r.dt.isArithmetic) = true := by
  simp [isArithmetic_eq, hi, hj]

theorem not_ptr_int {t : DType} (h : (intOf t).isSome = true) : ∀ a, t ≠ .ptr a := by rintro a rfl; cases h

theorem arith_is (op : SBin) (l r : SExpr) : Is (arithPost op l r) (do let (c, l, r) ← Stat.usual true l r; .ok (.bin op c l r)) := by
  cases h : (l.dt.isArithmetic && r.dt.isArithmetic) with
  | false =>
    rw [(usual_none h).1]
    simp only [v_bad, Is, arithPost, (usual_none h).2]
    have : (l.dt.isInteger && r.dt.isInteger) = false := by rw [isInteger_eq, isInteger_eq, ← isArithmetic_eq, ← isArithmetic_eq]; exact h
    rw [this]; rfl
  | true =>
    have h' := h
    simp only [isArithmetic_eq, Bool.and_eq_true, Option.isSome_iff_exists] at h'
    obtain ⟨⟨i, hi⟩, j, hj⟩ := h'
    simp only [Stat.usual, hi, hj, differs]
    cases he : (enumTy l.dt || enumTy r.dt) with
    | true => trivial
    | false =>
      obtain ⟨h1, h2⟩ := usual_ok hi hj he
      have h3 := usual_ok hj hi (by rw [Bool.or_comm]; exact he)
      have hc : IntTy.common j i = IntTy.common i j := by
        have : ∀ i ∈ allInt, ∀ j ∈ allInt, IntTy.common j i = IntTy.common i j := by decide +kernel
        exact this i (mem_allInt i) j (mem_allInt j)
      rw [hc] at h3
      simp only [Bool.false_eq_true, if_false, v_ok, Is, arithPost, h1, h2, h3.2, isInteger_eq, int_dt_toDType]
      rfl

theorem ptr_ptr (a b : DType) : ((DType.ptr a).isArithmetic && (DType.ptr b).isArithmetic) = false := rfl

/-- the types of the operands: two pointers, one pointer, or none -/
theorem ptr_cases (t u : DType) : (∃ a b, t = .ptr a ∧ u = .ptr b) ∨ (∃ a, t = .ptr a ∧ ptrTy u = false) ∨ (∃ b, ptrTy t = false ∧ u = .ptr b) ∨ (ptrTy t = false ∧ ptrTy u = false) := by
  cases t <;> cases u <;> simp [ptrTy]

theorem ptrTy_false {t : DType} (h : ptrTy t = false) : ∀ a, t ≠ .ptr a := by rintro a rfl; cases h

/-- comparisons of operands that are not both pointers -/
theorem cmp_other (op : SBin) (l r : SExpr) (h : Res.compatPtrs l.dt r.dt = false) :
    Is (cmpPost op l r) (do let (_, l, r) ← Stat.usual true l r; .ok (.bin op .int l r)) := by
  cases ha : (l.dt.isArithmetic && r.dt.isArithmetic) with
  | false =>
    rw [(usual_none ha).1]
    simp only [v_bad, Is, cmpPost, ha, h]
    rfl
  | true =>
    refine usual_arith ha (P := fun v => Is (cmpPost op l r) (v >>= fun (x : DType × SExpr × SExpr) => .ok (.bin op .int x.2.1 x.2.2))) trivial ?_
    intro c hc
    simp only [v_ok, Is, cmpPost, ha, if_true]

theorem cmp_ptr {op : SBin} {l r : SExpr} {a b : DType} (hl : l.dt = .ptr a) (hr : r.dt = .ptr b) :
    cmpPost op l r = if compat a b then pure (.bin op .int l r) else Res.fail := by
  simp only [cmpPost, hl, hr, ptr_ptr, Res.compatPtrs, equals_eq]
  rfl

theorem ordered_is (op : SBin) (l r : SExpr) : Is (cmpPost op l r) (ordered true op l r) := by
  rcases ptr_cases l.dt r.dt with ⟨a, b, hl, hr⟩ | ⟨a, hl, hr⟩ | ⟨b, hl, hr⟩ | ⟨hl, hr⟩
  · rw [cmp_ptr hl hr]
    simp only [ordered, hl, hr]
    cases compat a b with
    | false => rfl
    | true => cases funcTy a <;> first | rfl | trivial
  all_goals
    have hc : Res.compatPtrs l.dt r.dt = false := by
      unfold Res.compatPtrs
      split
      · rename_i h1 h2; simp_all [ptrTy]
      · rfl
    have := cmp_other op l r hc
    unfold ordered
    split
    · rename_i h1 h2; simp_all [ptrTy]
    · exact this

theorem compatPtrs_false {t u : DType} (h : ptrTy t = false ∨ ptrTy u = false) : Res.compatPtrs t u = false := by
  unfold Res.compatPtrs
  split
  · simp [ptrTy] at h
  · rfl

theorem equality_is (op : SBin) (l r : SExpr) : Is (cmpPost op l r) (equality true op l r) := by
  rcases ptr_cases l.dt r.dt with ⟨a, b, hl, hr⟩ | ⟨a, hl, hr⟩ | ⟨b, hl, hr⟩ | ⟨hl, hr⟩
  · rw [cmp_ptr hl hr]
    simp only [equality, hl, hr, differs]
    cases compat a b with
    | true => rfl
    | false =>
      simp only [Bool.false_eq_true, if_false]
      split
      · trivial
      split
      · trivial
      split
      · trivial
      · rfl
  · have hc := compatPtrs_false (t := l.dt) (u := r.dt) (.inr hr)
    have hb : cmpPost op l r = Res.fail := by
      have : (l.dt.isArithmetic && r.dt.isArithmetic) = false := by rw [hl]; rfl
      simp only [cmpPost, hc, this]; rfl
    unfold equality
    split
    · exfalso; simp_all [ptrTy]
    · simp only [differs]; split <;> first | trivial | exact hb
    · exfalso; simp_all [ptrTy]
    · exfalso; simp_all [ptrTy]
  · have hc := compatPtrs_false (t := l.dt) (u := r.dt) (.inl hl)
    have hb : cmpPost op l r = Res.fail := by
      have : (l.dt.isArithmetic && r.dt.isArithmetic) = false := by rw [hr]; simp [DType.isArithmetic, DType.isInteger]
      simp only [cmpPost, hc, this]; rfl
    unfold equality
    split
    · exfalso; simp_all [ptrTy]
    · exfalso; simp_all [ptrTy]
    · simp only [differs]; split <;> first | trivial | exact hb
    · exfalso; simp_all [ptrTy]
  · have hc := compatPtrs_false (t := l.dt) (u := r.dt) (.inr hr)
    have := cmp_other op l r hc
    unfold equality
    split
    · exfalso; simp_all [ptrTy]
    · exfalso; simp_all [ptrTy]
    · exfalso; simp_all [ptrTy]
    · exact this

theorem isInt_ptr {t : DType} (h : ptrTy t = true) : t.isInteger = false := by cases t <;> simp_all [ptrTy, DType.isInteger]

theorem add_other (l r : SExpr) (hl : ptrTy l.dt = false) (hr : ptrTy r.dt = false) :
    Is (addPost l r) (do let (c, l, r) ← Stat.usual true l r; .ok (.bin .add c l r)) := by
  cases ha : (l.dt.isArithmetic && r.dt.isArithmetic) with
  | false =>
    rw [(usual_none ha).1]
    simp only [v_bad, Is, addPost, ha, isPtr_eq, hl, hr, Bool.false_and, Bool.and_false]
    rfl
  | true =>
    refine usual_arith ha (P := fun v => Is (addPost l r) (v >>= fun (x : DType × SExpr × SExpr) => .ok (.bin .add x.1 x.2.1 x.2.2))) trivial ?_
    intro c hc
    simp only [v_ok, Is, addPost, ha, if_true, hc]

theorem sub_other (l r : SExpr) (hl : ptrTy l.dt = false) :
    Is (subPost l r) (do let (c, l, r) ← Stat.usual true l r; .ok (.bin .sub c l r)) := by
  cases ha : (l.dt.isArithmetic && r.dt.isArithmetic) with
  | false =>
    rw [(usual_none ha).1]
    simp only [v_bad, Is, subPost, ha, isPtr_eq, hl, Bool.false_and, compatPtrs_false (.inl hl)]
    rfl
  | true =>
    refine usual_arith ha (P := fun v => Is (subPost l r) (v >>= fun (x : DType × SExpr × SExpr) => .ok (.bin .sub x.1 x.2.1 x.2.2))) trivial ?_
    intro c hc
    simp only [v_ok, Is, subPost, ha, if_true, hc]

theorem sum_is (l r : SExpr) : Is (addPost l r) (sum true l r) := by
  rcases ptr_cases l.dt r.dt with ⟨a, b, hl, hr⟩ | ⟨a, hl, hr⟩ | ⟨b, hl, hr⟩ | ⟨hl, hr⟩
  · simp only [sum, hl, hr, Is, addPost]; rfl
  · have ha : (l.dt.isArithmetic && r.dt.isArithmetic) = false := by rw [hl]; rfl
    have hb : addPost l r = if (intOf r.dt).isSome then pure (.bin .padd l.dt l r) else Res.fail := by
      simp only [addPost, ha, isPtr_eq, hr, isInteger_eq, Bool.and_false, hl, ptrTy, Bool.true_and]; rfl
    unfold sum
    split
    · exfalso; simp_all [ptrTy]
    · rw [hb]
      cases (intOf r.dt).isSome with
      | false => rfl
      | true =>
        simp only [if_true]
        split <;> first | trivial | rfl
    · exfalso; simp_all [ptrTy]
    · exfalso; simp_all [ptrTy]
  · have ha : (l.dt.isArithmetic && r.dt.isArithmetic) = false := by rw [hr]; simp [DType.isArithmetic, DType.isInteger]
    have hb : addPost l r = if (intOf l.dt).isSome then pure (.bin .padd r.dt r l) else Res.fail := by
      have hp : ptrTy r.dt = true := by rw [hr]; rfl
      simp only [addPost, ha, isPtr_eq, hl, isInteger_eq, Bool.and_true, hp, Bool.false_and]; rfl
    unfold sum
    split
    · exfalso; simp_all [ptrTy]
    · exfalso; simp_all [ptrTy]
    · rw [hb]
      cases (intOf l.dt).isSome with
      | false => rfl
      | true =>
        simp only [if_true]
        split <;> first | trivial | rfl
    · exfalso; simp_all [ptrTy]
  · have := add_other l r hl hr
    unfold sum
    split
    · exfalso; simp_all [ptrTy]
    · exfalso; simp_all [ptrTy]
    · exfalso; simp_all [ptrTy]
    · exact this

theorem diff_is (l r : SExpr) : Is (subPost l r) (diff true l r) := by
  rcases ptr_cases l.dt r.dt with ⟨a, b, hl, hr⟩ | ⟨a, hl, hr⟩ | ⟨b, hl, hr⟩ | ⟨hl, hr⟩
  · simp only [diff, hl, hr, differs]
    cases hc : compat a b with
    | true => trivial
    | false =>
      simp only [Is, subPost, hl, hr, ptr_ptr, Res.compatPtrs, equals_eq, hc, DType.isInteger, Bool.and_false]
      rfl
  · have ha : (l.dt.isArithmetic && r.dt.isArithmetic) = false := by rw [hl]; rfl
    have hb : subPost l r = if (intOf r.dt).isSome then pure (.bin .psub l.dt l r) else Res.fail := by
      simp only [subPost, ha, isPtr_eq, isInteger_eq, compatPtrs_false (.inr hr), hl, ptrTy, Bool.true_and]; rfl
    unfold diff
    split
    · exfalso; simp_all [ptrTy]
    · rw [hb]
      cases (intOf r.dt).isSome with
      | false => rfl
      | true =>
        simp only [if_true]
        split <;> first | trivial | rfl
    · exfalso; simp_all [ptrTy]
  all_goals
    have := sub_other l r hl
    unfold diff
    split
    · exfalso; simp_all [ptrTy]
    · exfalso; simp_all [ptrTy]
    · exact this

theorem common_self (i j : IntTy) (h : i.promote = j.promote) : IntTy.common i j = i.promote := by
  unfold IntTy.common; rw [if_pos h]

theorem promote_compat (i : IntTy) (x : SExpr) : compat (conv i.promote.toDType x).dt i.promote.toDType = true := by
  unfold conv
  split
  · assumption
  · simp [SExpr.dt, compat]

theorem shift_is (op : SBin) (l r : SExpr) : Is (arithPost op l r) (shift true op l r) := by
  have h := arith_is op l r
  unfold shift
  split
  · rename_i i j hi hj
    simp only [differs, if_true]
    split
    · trivial
    · rename_i he
      simp only [Bool.or_eq_true, decide_eq_true_eq, not_or, Bool.not_eq_true, Decidable.not_not, ne_eq] at he
      obtain ⟨⟨he1, he2⟩, hp⟩ := he
      simp only [Stat.usual, hi, hj, he1, he2, Bool.or_false, Bool.false_eq_true, if_false, v_ok, common_self i j hp] at h
      have e : ∀ (y : SExpr), compat y.dt i.promote.toDType = true → conv i.promote.toDType y = y := by
        intro y hy; unfold conv; rw [if_pos hy]
      have h3 := e (conv i.promote.toDType l) (promote_compat i l)
      have h4 := e (conv j.promote.toDType r) (by rw [hp]; exact promote_compat j r)
      rw [h3, h4] at h
      exact h
  · rename_i hn
    have : Stat.usual true l r = .bad := by
      unfold Stat.usual
      split
      · rename_i h1 h2; exact absurd h2 (hn _ _ h1)
      · rfl
    rw [this] at h
    exact h

theorem binary_is (op : BinOp) (l r : SExpr) : Is (binPost op l r) (binary true op l r) := by
  cases op
  case lor | land =>
    simp only [binPost, binary, isScalar_eq]
    cases (scalar l.dt && scalar r.dt) <;> rfl
  case or | xor | and | mul | div | mod => exact arith_is _ l r
  case shl | shr => exact shift_is _ l r
  case eq | ne => exact equality_is _ l r
  case lt | gt | le | ge => exact ordered_is _ l r
  case add => exact sum_is l r
  case sub => exact diff_is l r

/-- the resolver on a binary expression -/
theorem bin_run (op : BinOp) (l r : Ast) : full.expr (.node op.node [l, r]) =
    (do let x ← full.expr l; let y ← full.expr r; binPost op (Res.decay x) (Res.decay y)) := by
  rw [full_expr]
  funext s
  cases op <;>
    (simp only [BinOp.node, Res.expr, Res.node_type, Res.logical, Res.arith, Res.comparison, Res.addExpr, Res.subExpr, Res.operands, Res.kid0, Res.kid1, Res.pure_bind,
      Res.bind_run]
     cases full.expr l s with
     | ok p =>
       obtain ⟨x, s1⟩ := p
       cases x with
       | none => rfl
       | some x =>
         simp only
         cases full.expr r s1 with
         | ok p =>
           obtain ⟨y, s2⟩ := p
           cases y <;> rfl
         | _ => rfl
     | _ => rfl)

end StatL
end Umlcc
