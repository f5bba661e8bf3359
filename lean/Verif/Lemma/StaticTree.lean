import Verif.Lemma.StaticExpr
/-!
The resolver on expressions, against the static semantics: the remaining operators, and the whole tree.
-/
namespace Umlcc
namespace StatL
open Syn Stat TSpec
open Res (RM RState RSym Rec full full_expr bind_some bind_none attempt_ok)

theorem is_must {b : Bool} : Is (Res.require b) (must b) := by cases b <;> rfl

theorem Is.bind {m : RM α} {v : V α} {f : α → RM β} {g : α → V β} (h : Is m v) (hf : ∀ a, v = .ok a → Is (f a) (g a)) : Is (m >>= f) (v >>= g) := by
  cases v with
  | ok a => simp only [Is] at h; subst h; exact hf a rfl
  | bad => simp only [Is] at h; subst h; rfl
  | out => trivial

theorem arr_match (t : DType) (b : Bool) : (match t with | .arr _ _ => false | _ => b) = (!arrTy t && b) := by cases t <;> simp [arrTy]

theorem modifiable_is (x : SExpr) : Is (Res.require x.isModifiable) (modifiable true x) := by
  have h : x.isModifiable = (object x.dt && !arrTy x.dt && (match x with | .ident _ _ | .un .indir _ _ | .tomember _ _ _ _ => true | _ => false)) := by
    unfold SExpr.isModifiable
    rw [isObject_eq]
    cases object x.dt with
    | false => rfl
    | true =>
      simp only [Bool.not_true, Bool.false_eq_true, if_false, Bool.true_and]
      rw [← arr_match]
      cases x.dt <;> rfl
  rw [h]
  unfold modifiable
  cases ho : (object x.dt && !arrTy x.dt) with
  | false => rfl
  | true =>
    simp only [Bool.true_and, if_true]
    simp only [Bool.and_eq_true] at ho
    cases x with
    | ident t n => have : object t = true := ho.1; simp only [lvalue, this]; rfl
    | un op t e => cases op <;> simp only [lvalue, isMember] <;> rfl
    | str t i =>
      have h2 : (!arrTy t) = true := ho.2
      simp only [Bool.not_eq_true'] at h2
      simp only [lvalue, isMember, h2]; rfl
    | tomember t p u m => simp only [isMember, differs, if_true]; split <;> first | rfl | trivial
    | _ => simp only [lvalue, isMember]; rfl

/-! ### what is done with resolved operands -/

def assignPost (l r : SExpr) : RM SExpr := do
  Res.require l.isModifiable
  Res.require (DType.isAssignable l.dt r.dt)
  let r := if DType.equals r.dt l.dt then r else .un .cast l.dt r
  pure (.bin .assign l.dt (Res.toPtr l) r)

theorem voidTy_func {t : DType} (h : voidTy t = true) : funcTy t = false := by cases t <;> simp_all [voidTy, funcTy]

/-- conversion as by assignment -/
theorem assignConv_is (t : DType) (x : SExpr) : Is (do
    Res.require (DType.isAssignable t x.dt)
    pure (if DType.equals x.dt t then x else .un .cast t x)) (assignConv true t x) := by
  have hcv : (if DType.equals x.dt t then x else .un .cast t x) = conv t x := by rw [equals_eq]; rfl
  rw [hcv]
  unfold assignConv
  split
  · rename_i a b hx
    have ha : DType.isAssignable (.ptr a) x.dt = (compat a b || voidTy a || voidTy b) := by
      rw [hx]; simp only [DType.isAssignable, equals_eq, isVoid_eq]
    rw [ha]
    cases hc : compat a b with
    | true => rfl
    | false =>
      simp only [Bool.false_eq_true, if_false, Bool.false_or, differs, if_true]
      cases hv : (voidTy a || voidTy b) with
      | true =>
        simp only [if_true]
        split <;> first | trivial | rfl
      | false =>
        simp only [Bool.false_eq_true, if_false]
        split <;> first | trivial | rfl
  · rename_i a hx
    have ha : DType.isAssignable (.ptr a) x.dt = false := by
      unfold DType.isAssignable
      split
      · rename_i h1 h2; exact absurd h2 (hx _)
      · simp_all [DType.isArithmetic, DType.isInteger]
    rw [ha]
    simp only [differs, if_true]
    split <;> first | trivial | rfl
  · rename_i t _ _ hn _
    have ha : DType.isAssignable t x.dt = ((intOf t).isSome && (intOf x.dt).isSome) := by
      unfold DType.isAssignable
      split
      · exfalso; exact hn _ rfl
      · simp [isArithmetic_eq]
    rw [ha]
    cases ((intOf t).isSome && (intOf x.dt).isSome) with
    | true => rfl
    | false =>
      simp only [Bool.false_eq_true, if_false, differs, if_true]
      split <;> first | trivial | rfl

theorem bind_assoc (m : RM α) (f : α → RM β) (g : β → RM γ) : (m >>= f >>= g) = (m >>= fun a => f a >>= g) := by
  funext s
  simp only [Res.bind_run]
  cases m s with
  | ok p => obtain ⟨x, s1⟩ := p; cases x <;> rfl
  | _ => rfl

theorem assign_is (l r : SExpr) : Is (assignPost l (Res.decay r)) (assign true l r) := by
  have e : assignPost l (Res.decay r) = (Res.require l.isModifiable >>= fun _ => (Res.require (DType.isAssignable l.dt (Res.decay r).dt) >>= fun _ =>
      pure (if DType.equals (Res.decay r).dt l.dt then Res.decay r else .un .cast l.dt (Res.decay r))) >>= fun x => pure (.bin .assign l.dt (Res.toPtr l) x)) := by
    simp only [bind_assoc, Res.pure_bind]; rfl
  rw [e]
  refine (modifiable_is l).bind fun _ _ => ?_
  rw [decay_eq]
  exact (assignConv_is l.dt (Stat.decay r)).bind fun x _ => rfl

def condPost (c l r : SExpr) : RM SExpr :=
  if l.dt.isArithmetic && r.dt.isArithmetic then pure (.cond (Res.usual l r).1.dt c (Res.usual l r).1 (Res.usual l r).2)
  else if Res.compatPtrs l.dt r.dt then pure (.cond l.dt c l r)
  else match l.dt, r.dt with
    | .nstruct _ _ _, .nstruct _ _ _ | .ustruct _ _ _, .ustruct _ _ _ =>
      if DType.equals l.dt r.dt then pure (.cond l.dt c l r) else Res.fail
    | _, _ => Res.fail

theorem cond_struct (c l r : SExpr) (ha : (l.dt.isArithmetic && r.dt.isArithmetic) = false) (hp : Res.compatPtrs l.dt r.dt = false) :
    condPost c l r = if structTy l.dt && compat l.dt r.dt then pure (.cond l.dt c l r) else Res.fail := by
  unfold condPost
  rw [ha, hp]
  simp only [Bool.false_eq_true, if_false]
  split
  · rename_i h1 h2; rw [equals_eq, h1]; rfl
  · rename_i h1 h2; rw [equals_eq, h1]; rfl
  · rename_i hn1 hn2
    have : (structTy l.dt && compat l.dt r.dt) = false := by
      cases h1 : l.dt <;> cases h2 : r.dt <;> simp [structTy, compat, shape]
      · exact absurd h2 (hn1 _ _ _ _ _ _ h1)
      · exact absurd h2 (hn2 _ _ _ _ _ _ h1)
    rw [this]; rfl

theorem cond_is (c l r : SExpr) : Is (condPost c l r) (conditional true c l r) := by
  rcases ptr_cases l.dt r.dt with ⟨a, b, hl, hr⟩ | ⟨a, hl, hr⟩ | ⟨b, hl, hr⟩ | ⟨hl, hr⟩
  · have hb : condPost c l r = if compat a b then pure (.cond l.dt c l r) else Res.fail := by
      simp only [condPost, hl, hr, ptr_ptr, Res.compatPtrs, equals_eq]; rfl
    rw [hb]
    simp only [conditional, hl, hr, differs]
    cases compat a b with
    | true => rfl
    | false =>
      simp only [Bool.false_eq_true, if_false, if_true]
      split
      · trivial
      split
      · trivial
      split
      · trivial
      · rfl
  · have hb : condPost c l r = Res.fail := by
      rw [cond_struct c l r (by rw [hl]; rfl) (compatPtrs_false (.inr hr)), hl]; rfl
    unfold conditional
    split
    · exfalso; simp_all [ptrTy]
    · simp only [differs]; split <;> first | trivial | exact hb
    · exfalso; simp_all [ptrTy]
    · exfalso; simp_all [ptrTy]
    · exfalso; simp_all [ptrTy]
  · have hb : condPost c l r = Res.fail := by
      rw [cond_struct c l r (by rw [hr]; simp [DType.isArithmetic, DType.isInteger]) (compatPtrs_false (.inl hl))]
      rw [if_neg]
      rw [hr]
      cases l.dt <;> simp [structTy, compat, shape]
    unfold conditional
    split
    · exfalso; simp_all [ptrTy]
    · exfalso; simp_all [ptrTy]
    · simp only [differs]; split <;> first | trivial | exact hb
    · exfalso; simp_all [ptrTy]
    · exfalso; simp_all [ptrTy]
  · unfold conditional
    split
    · exfalso; simp_all [ptrTy]
    · exfalso; simp_all [ptrTy]
    · exfalso; simp_all [ptrTy]
    · trivial
    · cases ha : (l.dt.isArithmetic && r.dt.isArithmetic) with
      | false =>
        rw [cond_struct c l r ha (compatPtrs_false (.inl hl)), (usual_none ha).1]
        split <;> rfl
      | true =>
        have hs : structTy l.dt = false := by
          simp only [Bool.and_eq_true] at ha
          cases h : l.dt <;> first | rfl | (rw [h] at ha; simp [DType.isArithmetic, DType.isInteger] at ha)
        rw [hs]
        simp only [Bool.false_and, Bool.false_eq_true, if_false]
        refine usual_arith ha (P := fun v => Is (condPost c l r) (v >>= fun (x : DType × SExpr × SExpr) => .ok (.cond x.1 c x.2.1 x.2.2))) trivial ?_
        intro d hd
        simp only [v_ok, Is, condPost, ha, if_true, hd]

def unPost (op : UnOp) (e : SExpr) : RM SExpr :=
  match op with
  | .addr => do
    Res.require (match e.dt with | .func _ _ => true | _ => match e with
      | .un .indir _ _ => true
      | .ident t _ => t.isObject
      | _ => false)
    pure (.un .addr (.ptr e.dt) e)
  | .indir => match (Res.decay e).dt with
    | .ptr t => pure (.un .indir t (Res.decay e))
    | _ => Res.fail
  | .pos => do Res.require e.dt.isInteger; pure (.un .pos (Res.promote e).dt (Res.promote e))
  | .neg => do Res.require e.dt.isInteger; pure (.un .neg (Res.promote e).dt (Res.promote e))
  | .not => do Res.require e.dt.isInteger; pure (.un .not (Res.promote e).dt (Res.promote e))
  | .lnot => do Res.require (Res.decay e).dt.isScalar; pure (.un .lnot .int (Res.decay e))

theorem func_match (t : DType) (b : Bool) : (match t with | .func _ _ => true | _ => b) = (funcTy t || b) := by cases t <;> simp [funcTy]

theorem promote_is (e : SExpr) : Is (do Res.require e.dt.isInteger; pure (Res.promote e)) (Stat.promote true e) := by
  unfold Stat.promote
  rw [isInteger_eq]
  cases hi : intOf e.dt with
  | none => rfl
  | some i =>
    simp only [differs, if_true]
    split
    · trivial
    · rename_i he
      have ht := intOf_toDType hi (by simpa using he)
      have : Res.promote e = conv i.promote.toDType e := by
        unfold Res.promote conv
        rw [ht]
        cases i <;> rfl
      rw [this]; rfl

theorem sign_is (op : SUn) (e : SExpr) : Is (do Res.require e.dt.isInteger; pure (.un op (Res.promote e).dt (Res.promote e))) (sign true op e) := by
  have := (promote_is e).bind (f := fun y => pure (SExpr.un op y.dt y)) (g := fun y => V.ok (SExpr.un op y.dt y)) fun y _ => (by rfl)
  rw [bind_assoc] at this
  exact this

theorem unary_is (op : UnOp) (e : SExpr) : Is (unPost op e) (unary true op e) := by
  cases op with
  | addr =>
    simp only [unPost, unary, address, func_match]
    cases funcTy e.dt with
    | true => rfl
    | false =>
      simp only [Bool.false_eq_true, if_false, Bool.false_or]
      cases e with
      | ident t n =>
        have : lvalue (.ident t n) = object t := rfl
        rw [this]
        simp only [isObject_eq]
        cases object t <;> rfl
      | un op t e => cases op <;> simp only [lvalue] <;> rfl
      | str t i => simp only [lvalue, differs, if_true]; cases arrTy t <;> first | trivial | rfl
      | tomember t p u m => simp only [differs, if_true]; split <;> first | trivial | rfl
      | _ => rfl
  | indir =>
    simp only [unPost, unary, indirection, decay_eq]
    cases (Stat.decay e).dt <;> rfl
  | pos => exact sign_is _ e
  | neg => exact sign_is _ e
  | not => exact sign_is _ e
  | lnot =>
    simp only [unPost, unary, decay_eq, isScalar_eq]
    cases scalar (Stat.decay e).dt <;> rfl

theorem un_run (op : UnOp) (e : Ast) : full.expr (.node op.node [e]) = (full.expr e >>= unPost op) := by
  rw [full_expr]
  cases op <;>
    simp only [UnOp.node, Res.expr, Res.node_type, Res.addressExpr, Res.indirectionExpr, Res.signExpr, Res.lnotExpr, Res.kid0, Res.pure_bind] <;> rfl

def castPost (t : DType) (e : SExpr) : RM SExpr := do
  Res.require (t.isVoid || (t.isScalar && e.dt.isScalar))
  pure (.un .cast t e)

theorem cast_is (t : DType) (e : SExpr) : Is (castPost t e) (Stat.cast true t e) := by
  unfold castPost Stat.cast
  rw [isVoid_eq, isScalar_eq, isScalar_eq]
  cases h : (arrTy e.dt || funcTy e.dt) with
  | false =>
    have : Stat.decay e = e := by
      unfold Stat.decay
      cases hd : e.dt <;> first | rfl | (rw [hd] at h; simp [arrTy, funcTy] at h)
    rw [this]
    simp only [Bool.false_eq_true, if_false]
    cases (voidTy t || (scalar t && scalar e.dt)) <;> rfl
  | true =>
    have hs : scalar e.dt = false := by cases hd : e.dt <;> rw [hd] at h <;> simp_all [arrTy, funcTy, scalar, intOf, ptrTy]
    simp only [if_true, differs, hs, Bool.and_false, Bool.or_false]
    split
    · trivial
    · rename_i hv
      simp only [Bool.or_eq_true, not_or, Bool.not_eq_true] at hv
      rw [hv.1]; rfl

def incPost (op : SUn) (e : SExpr) : RM SExpr := do
  Res.require e.isModifiable
  Res.require (e.dt.isInteger || Res.isPtr e.dt)
  pure (.un op e.dt (Res.toPtr e))

theorem incdec_is (op : SUn) (e : SExpr) : Is (incPost op e) (incdec true op e) := by
  refine (modifiable_is e).bind fun _ _ => ?_
  rw [isInteger_eq, isPtr_eq]
  split
  · rename_i t ht
    rw [ht]
    split
    · simp only [Is, ptrTy, Bool.or_true]; rfl
    · trivial
  · rename_i hn
    have : ptrTy e.dt = false := by cases h : e.dt <;> first | rfl | exact absurd h (hn _)
    rw [this, Bool.or_false]
    cases (intOf e.dt).isSome <;> rfl

def subsPost (l r : SExpr) : RM SExpr := do
  Res.require ((Res.isPtr l.dt && r.dt.isInteger) || (l.dt.isInteger && Res.isPtr r.dt))
  let (l, r) := if Res.isPtr r.dt then (r, l) else (l, r)
  match l.dt with
  | .ptr t => do
    Res.require t.isObject
    pure (.un .indir t (.bin .padd l.dt l r))
  | _ => Res.ub

theorem subscript_is (l r : SExpr) : Is (subsPost l r) (subscript l r) := by
  unfold subsPost
  simp only [isPtr_eq, isInteger_eq, isObject_eq]
  rcases ptr_cases l.dt r.dt with ⟨a, b, hl, hr⟩ | ⟨a, hl, hr⟩ | ⟨b, hl, hr⟩ | ⟨hl, hr⟩
  · simp only [subscript, hl, hr]; rfl
  · have h1 : subscript l r = if (intOf r.dt).isSome && object a then .ok (.un .indir a (.bin .padd l.dt l r)) else .bad := by
      unfold subscript
      split <;> simp_all [ptrTy]
    rw [h1, hr]
    have hp : ptrTy l.dt = true := by rw [hl]; rfl
    simp only [hp, Bool.true_and, Bool.and_false, Bool.or_false, Bool.false_eq_true, if_false]
    cases (intOf r.dt).isSome with
    | false => rfl
    | true =>
      simp only [Res.require_true, Res.pure_bind, hl, Bool.true_and]
      cases object a <;> rfl
  · have h1 : subscript l r = if (intOf l.dt).isSome && object b then .ok (.un .indir b (.bin .padd r.dt r l)) else .bad := by
      unfold subscript
      split <;> simp_all [ptrTy]
    rw [h1, hl]
    have hp : ptrTy r.dt = true := by rw [hr]; rfl
    simp only [hp, Bool.false_and, Bool.false_or, Bool.and_true, if_true]
    cases (intOf l.dt).isSome with
    | false => rfl
    | true =>
      simp only [Res.require_true, Res.pure_bind, hr, Bool.true_and]
      cases object b <;> rfl
  · have h1 : subscript l r = .bad := by
      unfold subscript
      split <;> simp_all [ptrTy]
    rw [h1, hl, hr]
    simp only [Bool.false_and, Bool.and_false, Bool.or_false]
    rfl

/-! ### members -/

theorem findMember_eq (m : Id) : (ms : Members) → Res.findMember m ms = memberTy m ms
  | .nil => rfl
  | .cons n t o ms => by simp only [Res.findMember, memberTy, findMember_eq m ms]

def selPost (p : SExpr) (t : DType) (m : Id) : RM SExpr := do
  match ← Res.structOf t with
  | none => Res.fail
  | some ms =>
    match Res.findMember m ms with
    | some mt => pure (.tomember mt p mt m)
    | none => Res.fail

theorem select_does (s : RState) (p : SExpr) (t : DType) (m : Id) (ht : structTy t = true) : Does (selPost p t m) s (select true (scope s) p t m) [] := by
  have found : ∀ ms, Does (match Res.findMember m ms with | some mt => pure (.tomember mt p mt m) | none => Res.fail : RM SExpr) s (match memberTy m ms with
      | some u => do let u ← known true (scope s) u; .ok (.tomember u p u m)
      | none => .bad) [] := by
    intro ms
    rw [findMember_eq]
    cases memberTy m ms with
    | none => exact Does.fail rfl
    | some u =>
      simp only [known, differs]
      split
      · exact Does.pure rfl
      · trivial
  cases t <;> simp only [structTy, Bool.false_eq_true] at ht
  case ustruct ms b a => exact found ms
  case nstruct n b a =>
    simp only [select, membersOf, spec_lookup]
    cases h : Res.lookup n s.tags with
    | none => exact Does.fail (by simp [selPost, Res.structOf, bind_assoc, h])
    | some u =>
      cases u with
      | ustruct ms b a =>
        have e : selPost p (.nstruct n b a) m s = (match Res.findMember m ms with | some mt => pure (.tomember mt p mt m) | none => Res.fail : RM SExpr) s := by
          simp [selPost, Res.structOf, bind_assoc, h]
        have := found ms
        simp only [v_ok]
        unfold Does at this ⊢
        have e' : ∀ b' a', selPost p (.nstruct n b' a') m s = (match Res.findMember m ms with | some mt => pure (.tomember mt p mt m) | none => Res.fail : RM SExpr) s := by
          intros; simp [selPost, Res.structOf, bind_assoc, h]
        simp only [e']
        exact this
      | _ => trivial

def memPost (e : SExpr) (m : Id) : RM SExpr := if structTy e.dt then selPost (Res.toPtr e) e.dt m else Res.fail
def arrPost (e : SExpr) (m : Id) : RM SExpr :=
  match e.dt with
  | .ptr t => if structTy t then selPost e t m else Res.fail
  | _ => Res.fail

theorem membersOf_none {Γ : Stat.Scope} {t : DType} (h : structTy t = false) : membersOf Γ t = .bad := by
  cases t <;> simp_all [structTy, membersOf]

theorem member_does (s : RState) (e : SExpr) (m : Id) : Does (memPost e m) s (member true (scope s) e m) [] := by
  unfold memPost member
  cases h : structTy e.dt with
  | true => exact select_does s _ _ m h
  | false => rw [select, membersOf_none h]; exact Does.fail rfl

theorem arrow_does (s : RState) (e : SExpr) (m : Id) : Does (arrPost e m) s (arrow true (scope s) e m) [] := by
  unfold arrPost arrow
  split
  · rename_i t ht
    rw [ht]
    cases h : structTy t with
    | true => exact select_does s _ _ m h
    | false => simp only [select, membersOf_none h]; exact Does.fail rfl
  · split
    · rename_i h1 _ _ h2; exact absurd h2 (h1 _)
    · trivial
    · exact Does.fail rfl

theorem mem_run (e : Ast) (m : Id) : full.expr (.node .member [e, .name .identExpr m]) = (full.expr e >>= fun x => memPost x m) := by
  rw [full_expr]
  simp only [Res.expr, Res.node_type, Res.memberExpr, Res.kid0, Res.kid1, Res.pure_bind, Res.ident_name]
  congr 1

theorem arr_run (e : Ast) (m : Id) : full.expr (.node .tomember [e, .name .identExpr m]) = (full.expr e >>= fun x => arrPost x m) := by
  rw [full_expr]
  simp only [Res.expr, Res.node_type, Res.memberExpr, Res.kid0, Res.kid1, Res.pure_bind, Res.ident_name]
  congr 1
  funext x
  unfold arrPost
  cases h : x.dt with
  | ptr t =>
    cases t <;> simp only [structTy, Bool.false_eq_true, if_false, if_true, Res.pure_bind, Res.fail_bind, h] <;> rfl
  | _ => rfl

/-! ### whole trees -/

theorem litTy_eq (t : ILType) : Res.litType t = litTy t := by cases t <;> rfl

theorem expr_type (e : Expr) : e.ast.type ≠ .typeName := by
  cases e with
  | un op e => cases op <;> simp [Expr.ast, UnOp.node]
  | bin op l r => cases op <;> simp [Expr.ast, BinOp.node]
  | assign op l r => cases op <;> simp [Expr.ast, AsgOp.node]
  | _ => simp [Expr.ast]

theorem Does.nil_bind {m : RM α} {f : α → RM β} {s : RState} {v : V α} {g : α → V β} {s2 : List (List UInt8)} (h : Does m s v [])
    (hf : ∀ a, v = .ok a → Does (f a) s (g a) s2) : Does (m >>= f) s (v >>= g) s2 := by
  have := Does.bind (s2 := s2) h hf
  simpa using this

theorem Does.bind_nil {m : RM α} {f : α → RM β} {s : RState} {v : V α} {g : α → V β} {s1 : List (List UInt8)} (h : Does m s v s1)
    (hf : ∀ a, v = .ok a → Does (f a) (push s s1) (g a) []) : Does (m >>= f) s (v >>= g) s1 := by
  have := Does.bind (s2 := []) h hf
  simpa using this

def sizePost (t : DType) : RM SExpr := do
  Res.require (match t with | .func _ _ => false | _ => !t.isIncomplete)
  pure (.ilit .int ⟨.int, t.nbytes⟩)

theorem size_is (t : DType) : Is (sizePost t) (sizeof true t) := by
  unfold sizePost sizeof
  have e : (match t with | .func _ _ => false | _ => !t.isIncomplete) = !(funcTy t || incomplete t) := by
    cases t <;> simp [funcTy, isIncomplete_eq]
  rw [e]
  cases (funcTy t || incomplete t) with
  | false => trivial
  | true => rfl

theorem assign_run (l r : Ast) : Res.assignment full (.node .assign [l, r]) = (do
    let x ← full.expr l; let y ← full.expr r; assignPost x (Res.decay y)) := by
  simp only [Res.assignment, Res.kid0, Res.kid1, Res.pure_bind]; rfl

theorem subs_run (l r : Ast) : full.expr (.node .subsc [l, r]) = (do
    let x ← full.expr l; let y ← full.expr r; subsPost (Res.decay x) (Res.decay y)) := by
  rw [full_expr]
  simp only [Res.expr, Res.node_type, Res.subscriptionExpr, Res.operands, Res.kid0, Res.kid1, Res.pure_bind, bind_assoc]
  rfl

theorem compound_op (op : AsgOp) (b : BinOp) (h : asgOp op = some b) : Res.compoundOp op.node = some b.node := by
  cases op <;> simp only [asgOp, reduceCtorEq, Option.some.injEq] at h <;> subst h <;> rfl

theorem compound_run (op : AsgOp) (b : BinOp) (h : asgOp op = some b) (l r : Ast) : full.expr (.node op.node [l, r]) = (do
    let x ← full.expr l; let y ← full.expr (.node b.node [l, r]); assignPost x (Res.decay y)) := by
  rw [full_expr, ← assign_run]
  have hc := compound_op op b h
  have : Res.expr full (.node op.node [l, r]) = Res.compoundAssignment full (.node op.node [l, r]) := by
    cases op <;> first | rfl | simp [asgOp] at h
  rw [this]
  simp only [Res.compoundAssignment, Res.node_type, hc, Res.kid0, Res.kid1, Res.pure_bind]

theorem arguments_types : (ps : Params) → Res.Params.types ps = paramTys ps
  | .nil => rfl
  | .cons n t ps => by simp [Res.Params.types, paramTys, arguments_types ps]

theorem asts_length : (as : Args) → as.asts.length = arity as
  | .nil => rfl
  | .cons e as => by simp [Args.asts, arity, asts_length as]

/-- one more argument -/
theorem args_cons {f : β → RM SExpr} {x : β} {xs : List β} {s : RState} {v : V SExpr} {w : V SArgs} {s1 s2 : List (List UInt8)}
    (h1 : Does (f x) s v s1) (h2 : Does (do let es ← Res.collect f xs; pure (SArgs.ofList es)) (push s s1) w s2) :
    Does (do let es ← Res.collect f (x :: xs); pure (SArgs.ofList es)) s (match V.and v w with
      | .ok (x, xs) => .ok (.cons x xs)
      | .bad => if (s1 ++ s2).isEmpty then .bad else .out
      | .out => .out) (s1 ++ s2) := by
  cases ha : V.and v w with
  | out => trivial
  | ok p =>
    obtain ⟨h3, h4⟩ := and_ok ha
    subst h3 h4
    simp only [Does] at h1 h2 ⊢
    rw [Res.bind_run] at h2
    simp only [Res.collect, bind_assoc]
    rw [bind_some (attempt_ok h1), push_append]
    generalize hr : Res.collect f xs (push s s1) = r at h2
    match r with
    | .ok (none, s') => simp at h2
    | .ok (some es, s') =>
      simp only [Res.pure_run, Out.ok.injEq, Prod.mk.injEq, Option.some.injEq] at h2
      rw [bind_some (attempt_ok hr)]
      simp only [Res.pure_bind, Res.pure_run, SArgs.ofList, h2.1, h2.2]
  | bad =>
    simp only
    split
    · rename_i he
      simp only [List.isEmpty_iff, List.append_eq_nil_iff] at he
      obtain ⟨rfl, rfl⟩ := he
      simp only [push_nil] at h2
      refine Does.fail ?_
      simp only [Res.collect, bind_assoc]
      have key : ∀ es, (w = .bad ∨ ∃ b, w = .ok b) → (Res.attempt (Res.collect f xs) >>= es : RM SArgs) s = es none s ∨ ∃ l, (Res.attempt (Res.collect f xs) >>= es : RM SArgs) s = es (some l) s := by
        intro es hw
        rcases hw with rfl | ⟨b, rfl⟩
        · have h2 := h2.bad_nil
          rw [Res.bind_run] at h2
          generalize hr : Res.collect f xs s = r at h2
          match r with
          | .ok (none, s') =>
            simp only [Out.ok.injEq, Prod.mk.injEq, true_and] at h2
            subst h2
            exact .inl (bind_some (attempt_ok hr))
          | .ok (some es, s') => simp at h2
        · simp only [Does, push_nil] at h2
          rw [Res.bind_run] at h2
          generalize hr : Res.collect f xs s = r at h2
          match r with
          | .ok (none, s') => simp at h2
          | .ok (some es', s') =>
            simp only [Res.pure_run, Out.ok.injEq, Prod.mk.injEq] at h2
            obtain ⟨_, rfl⟩ := h2
            exact .inr ⟨es', bind_some (attempt_ok hr)⟩
      rcases and_bad ha with ⟨rfl, hw⟩ | ⟨⟨a, rfl⟩, rfl⟩
      · rw [bind_some (attempt_ok h1.bad_nil)]
        rcases key _ hw with hk | ⟨l, hk⟩ <;> (rw [hk]; rfl)
      · simp only [Does, push_nil] at h1
        rw [bind_some (attempt_ok h1)]
        have h2 := h2.bad_nil
        rw [Res.bind_run] at h2
        generalize hr : Res.collect f xs s = r at h2
        match r with
        | .ok (none, s') =>
          simp only [Out.ok.injEq, Prod.mk.injEq, true_and] at h2
          subst h2
          rw [bind_some (attempt_ok hr)]
          rfl
        | .ok (some es, s') => simp at h2
    · trivial

theorem one_le (s : RState) (a : List (List UInt8)) : (push s a).sid + 1 = s.sid + 1 + a.length := by rw [push_sid]; omega

theorem Does.congr {m m' : RM α} {s : RState} {v : V α} {ss} (h : m s = m' s) (hd : Does m' s v ss) : Does m s v ss := by
  unfold Does at hd ⊢
  rw [h]; exact hd

theorem Is.guard {m : RM α} {v : V α} {b : Bool} (h : Is m v) : Is m (do let x ← v; if b then .ok x else .out) := by
  cases v with
  | ok a => cases b <;> first | exact h | trivial
  | bad => exact h
  | out => trivial

mutual
theorem tree_does : (e : Expr) → ∀ s : RState, Does (full.expr e.ast) s (tree true (scope s) (s.sid + 1) e) (strs e)
  | .ident n, s => by
    have hx : full.expr (Expr.ident n).ast s = (match Res.lookup n s.syms with
        | none => Res.fail
        | some (.int l) => pure (.ilit .int l)
        | some (.obj t) => pure (.ident t n) : RM SExpr) s := by rw [full_expr]; rfl
    simp only [tree, scope, strs]
    cases h : Res.lookup n s.syms with
    | none => rw [h] at hx; exact Does.fail hx
    | some y =>
      rw [h] at hx
      cases y with
      | int l => exact Does.pure hx
      | obj t =>
        have gen : Does (full.expr (Expr.ident n).ast) s (do let t ← known true (scope s) t; V.ok (.ident t n)) [] := by
          simp only [known, differs]
          split
          · exact Does.pure hx
          · trivial
        cases t <;> first | trivial | exact gen
  | .int l, s => by
    have : full.expr (Expr.int l).ast = pure (.ilit (Res.litType l.type) l) := by rw [full_expr]; rfl
    simp only [tree, strs, this, litTy_eq]
    exact Does.pure rfl
  | .char l, s => by
    have : full.expr (Expr.char l).ast = pure (.ilit .int l) := by rw [full_expr]; rfl
    simp only [tree, strs, this]
    exact Does.pure rfl
  | .str b, s => by
    simp only [tree, strs, Does]
    rw [full_expr]
    rfl
  | .subsc l r, s => by
    simp only [tree, strs, Expr.ast, subs_run]
    refine Does.bind (tree_does l s) fun x _ => ?_
    have := tree_does r (push s (strs l))
    rw [push_scope, one_le] at this
    refine Does.bind_nil this fun y _ => ?_
    rw [decay_eq, decay_eq]
    exact (subscript_is _ _).does _
  | .call f as, s => by
    simp only [tree, strs, Expr.ast]
    have e : full.expr (.node .call [f.ast, .node .argList as.asts]) = (do
        let x ← full.expr f.ast
        match (Res.decay x).dt with
        | .ptr (.func ps ret) => do
          let as ← Res.arguments full ps (.node .argList as.asts)
          pure (.call ret (Res.decay x) as)
        | _ => Res.fail) := by
      rw [full_expr]
      simp only [Res.expr, Res.node_type, Res.callExpr, Res.kid0, Res.kid1, Res.pure_bind]
      rfl
    rw [e]
    refine Does.bind (tree_does f s) fun x _ => ?_
    rw [decay_eq]
    split
    · rename_i ps t ht
      rw [ht]
      simp only [Res.arguments, arguments_types, Res.node_children, asts_length]
      by_cases hl : (paramTys ps).length = arity as
      · simp only [hl, decide_true, Res.require_true, Res.pure_bind, if_true]
        have := args_does as (paramTys ps) (push s (strs f)) hl
        rw [push_scope, one_le] at this
        refine Does.bind_nil this fun xs _ => ?_
        split
        · trivial
        · exact Does.pure rfl
      · simp only [hl, decide_false, Res.require_false, Res.fail_bind, if_false]
        exact Does.fail rfl
    · split
      · rename_i hn _ ps t ht; exact absurd ht (hn _ _)
      · exact Does.fail rfl
  | .member e m, s => by
    simp only [tree, strs, Expr.ast, mem_run]
    refine Does.bind_nil (tree_does e s) fun x _ => ?_
    have := member_does (push s (strs e)) x m
    rwa [push_scope] at this
  | .arrow e m, s => by
    simp only [tree, strs, Expr.ast, arr_run]
    refine Does.bind_nil (tree_does e s) fun x _ => ?_
    have := arrow_does (push s (strs e)) x m
    rwa [push_scope] at this
  | .postinc e, s => by
    have h : full.expr (.node .postinc [e.ast]) = (full.expr e.ast >>= incPost .postinc) := by rw [full_expr]; rfl
    simp only [tree, strs, Expr.ast, h]
    exact Does.bind_nil (tree_does e s) fun x _ => (incdec_is _ x).does _
  | .postdec e, s => by
    have h : full.expr (.node .postdec [e.ast]) = (full.expr e.ast >>= incPost .postdec) := by rw [full_expr]; rfl
    simp only [tree, strs, Expr.ast, h]
    exact Does.bind_nil (tree_does e s) fun x _ => (incdec_is _ x).does _
  | .preinc e, s => by
    have h : full.expr (.node .preinc [e.ast]) = (full.expr e.ast >>= incPost .preinc) := by rw [full_expr]; rfl
    simp only [tree, strs, Expr.ast, h]
    exact Does.bind_nil (tree_does e s) fun x _ => (incdec_is _ x).does _
  | .predec e, s => by
    have h : full.expr (.node .predec [e.ast]) = (full.expr e.ast >>= incPost .predec) := by rw [full_expr]; rfl
    simp only [tree, strs, Expr.ast, h]
    exact Does.bind_nil (tree_does e s) fun x _ => (incdec_is _ x).does _
  | .un op e, s => by
    simp only [tree, strs, Expr.ast, un_run]
    exact Does.bind_nil (tree_does e s) fun x _ => (unary_is op x).does _
  | .sizeofE e, s => by
    have h : full.expr (.node .sizeof [e.ast]) = (full.expr e.ast >>= fun x => sizePost x.dt) := by
      rw [full_expr]
      simp only [Res.expr, Res.node_type, Res.sizeofExpr, Res.kid0, Res.pure_bind, expr_type e, if_false, bind_assoc]
      rfl
    simp only [tree, strs, Expr.ast, h]
    exact Does.bind_nil (tree_does e s) fun x _ => (size_is _).does _
  | .sizeofT t, s => by
    have h : full.expr (.node .sizeof [t.ast]) = (Res.typeName full t.ast >>= sizePost) := by
      have ht : t.ast.type = .typeName := by obtain ⟨ss, d⟩ := t; simp [TyName.ast]
      rw [full_expr]
      simp only [Res.expr, Res.node_type, Res.sizeofExpr, Res.kid0, Res.pure_bind, ht, if_true]
      rfl
    simp only [tree, strs, Expr.ast, h]
    exact Does.bind_nil (tyName_does s t) fun t _ => (size_is _).does _
  | .cast t e, s => by
    have h : full.expr (.node .cast [t.ast, e.ast]) = (do let t ← Res.typeName full t.ast; let x ← full.expr e.ast; castPost t x) := by rw [full_expr]; rfl
    simp only [tree, strs, Expr.ast, h]
    refine Does.nil_bind (tyName_does s t) fun t _ => ?_
    exact Does.bind_nil (tree_does e s) fun x _ => (cast_is t x).does _
  | .bin op l r, s => by
    simp only [tree, strs, Expr.ast, bin_run]
    refine Does.bind (tree_does l s) fun x _ => ?_
    have := tree_does r (push s (strs l))
    rw [push_scope, one_le] at this
    refine Does.bind_nil this fun y _ => ?_
    rw [decay_eq, decay_eq]
    exact (binary_is op _ _).does _
  | .cond c l r, s => by
    have h : full.expr (.node .cond [c.ast, l.ast, r.ast]) = (do
        let c ← full.expr c.ast
        Res.require (Res.decay c).dt.isScalar
        let l ← full.expr l.ast
        let r ← full.expr r.ast
        condPost (Res.decay c) (Res.decay l) (Res.decay r)) := by
      rw [full_expr]
      simp only [Res.expr, Res.node_type, Res.conditional, Res.kid0, Res.kid1, Res.kid2, Res.pure_bind]
      rfl
    simp only [tree, strs, Expr.ast, h]
    refine Does.bind (tree_does c s) fun x _ => ?_
    rw [decay_eq, isScalar_eq]
    refine Does.nil_bind Does.require fun _ _ => ?_
    have h1 := tree_does l (push s (strs c))
    rw [push_scope, one_le] at h1
    refine Does.bind h1 fun y _ => ?_
    have h2 := tree_does r (push (push s (strs c)) (strs l))
    rw [push_scope, push_scope, one_le, one_le] at h2
    refine Does.bind_nil h2 fun z _ => ?_
    rw [decay_eq, decay_eq]
    exact (cond_is _ _ _).does _
  | .assign op l r, s => by
    simp only [tree, strs, Expr.ast]
    cases ho : asgOp op with
    | none =>
      have hop : op = .asg := by cases op <;> first | rfl | simp [asgOp] at ho
      subst hop
      have h : full.expr (.node .assign [l.ast, r.ast]) = (do
          let x ← full.expr l.ast; let y ← full.expr r.ast; assignPost x (Res.decay y)) := by rw [full_expr, ← assign_run]; rfl
      simp only [AsgOp.node, h]
      refine Does.bind (tree_does l s) fun x _ => ?_
      have := tree_does r (push s (strs l))
      rw [push_scope, one_le] at this
      exact Does.bind_nil this fun y _ => (assign_is x y).does _
    | some b =>
      rw [compound_run op b ho]
      simp only
      split
      · rename_i hs
        simp only [List.isEmpty_iff] at hs
        have hl := tree_does l s
        have hr := tree_does r s
        rw [hs] at hl ⊢
        simp only [List.nil_append]
        refine Does.nil_bind hl fun x hx => ?_
        rw [bin_run, bind_assoc]
        rw [hx] at hl
        have e : (full.expr l.ast >>= fun a => (full.expr r.ast >>= fun y => binPost b (Res.decay a) (Res.decay y)) >>= fun y => assignPost x (Res.decay y)) s =
          (full.expr r.ast >>= fun y => binPost b (Res.decay x) (Res.decay y) >>= fun y => assignPost x (Res.decay y)) s := by
          rw [bind_some (m := full.expr l.ast) hl, bind_assoc]; rfl
        refine Does.congr e ?_
        refine Does.bind_nil hr fun y _ => ?_
        rw [decay_eq, decay_eq]
        exact ((binary_is b _ _).bind fun v _ => (assign_is x v).guard).does _
      · trivial
theorem args_does : (as : Args) → ∀ (ts : List DType) (s : RState), ts.length = arity as →
    Does (do let es ← Res.collect (Res.argument full) (ts.zip as.asts); pure (SArgs.ofList es)) s (args true (scope s) (s.sid + 1) ts as) (strsA as)
  | .nil, ts, s, h => by
    have : ts = [] := by simpa [arity] using h
    subst this
    exact Does.pure rfl
  | .cons e as, ts, s, h => by
    match ts, h with
    | t :: ts, h =>
      simp only [args, strsA, Args.asts, List.zip_cons_cons]
      have h1 : Does (Res.argument full (t, e.ast)) s (do let x ← tree true (scope s) (s.sid + 1) e; assignConv true t (Stat.decay x)) (strs e) := by
        refine Does.bind_nil (tree_does e s) fun x _ => ?_
        have := assignConv_is t (Stat.decay x)
        rw [decay_eq]
        have c : DType.equals (Stat.decay x).dt t = DType.equals t (Stat.decay x).dt := by rw [equals_eq, equals_eq, compat_comm]
        rw [c] at this
        exact this.does _
      have h2 := args_does as ts (push s (strs e)) (by simpa [arity] using h)
      rw [push_scope, one_le] at h2
      exact args_cons h1 h2
end

end StatL
end Umlcc
