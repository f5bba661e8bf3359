import Verif.Lemma.Resolver
import Verif.Spec.Resolver
/-!
C27: enumerators.
-/
namespace Umlcc
namespace Res

theorem runs_of_tends {f : Rec → RM α} (h : Tends (fun n => f (resolver n)) (f full)) {s : RState} {o : Out (Option α × RState)} (ho : f full s = o) :
    Runs f s o := by
  obtain ⟨N, -, h2⟩ := h s
  exact ⟨N, fun n hn => (h2 n hn).trans ho⟩

theorem runs_iff {f : Rec → RM α} (h : Tends (fun n => f (resolver n)) (f full)) {s : RState} {o : Out (Option α × RState)} :
    Runs f s o ↔ f full s = o := by
  refine ⟨fun ⟨N, hN⟩ => ?_, runs_of_tends h⟩
  obtain ⟨N', -, h2⟩ := h s
  rw [← h2 (max N N') (by omega)]
  exact hN _ (by omega)

theorem runs_fuel {f : Rec → RM α} (h : Tends (fun n => f (resolver n)) (f full)) {s : RState} {o : Out (Option α × RState)} (n : Nat) (hn : f (resolver n) s = o)
    (ho : o ≠ .hang) : Runs f s o := by
  obtain ⟨N, h1, h2⟩ := h s
  have : N ≤ n := Classical.byContradiction fun hlt => ho (hn.symm.trans (h1 n (by omega)))
  exact ⟨N, fun m hm => (h2 m hm).trans ((h2 n this).symm.trans hn)⟩

theorem resolves_of_full {a : Ast} {r : Option (List SExt)} {s : RState} (h : transUnit full a initial = .ok (r, s)) : Resolves a (.ok r) := by
  obtain ⟨N, -, h2⟩ := resolve_tends a
  exact ⟨N, fun n hn => by rw [h2 n hn, h]; rfl⟩

theorem resolves_fuel {a : Ast} {o : Out (Option (List SExt))} (n : Nat) (h : resolve n a = o) (ho : o ≠ .hang) : Resolves a o :=
  ⟨n, fun m hm => by rw [resolve_mono hm a (by rw [h]; exact ho), h]⟩

/-! ### tables -/

theorem lookup_define (n m : Str) (a : α) (t : List (List (Str × α))) : lookup m (define n a t) = if m = n then some a else lookup m t := by
  cases t with
  | nil =>
    by_cases h : m = n
    · simp [define, lookup, assoc, h]
    · have : ¬ n = m := fun e => h e.symm
      simp [define, lookup, assoc, h, this]
  | cons l ls =>
    by_cases h : m = n
    · simp [define, lookup, assoc, h]
    · have : ¬ n = m := fun e => h e.symm
      simp [define, lookup, assoc, h, this]

theorem canDefine_define (n m : Str) (a : α) (t : List (List (Str × α))) : canDefine m (define n a t) = (decide (m ≠ n) && canDefine m t) := by
  cases t with
  | nil =>
    by_cases h : m = n
    · simp [define, canDefine, assoc, h]
    · have : ¬ n = m := fun e => h e.symm
      simp [define, canDefine, assoc, h, this]
  | cons l ls =>
    by_cases h : m = n
    · simp [define, canDefine, assoc, h]
    · have : ¬ n = m := fun e => h e.symm
      simp [define, canDefine, assoc, h, this]

/-! ### enumerators -/

/-- the values of the enumerators a state knows -/
def envOf (s : RState) : Str → Option Int := fun n =>
  match lookup n s.syms with
  | some (.int l) => if l.type.isUnsigned then none else some l.value
  | _ => none

/-- tree of an enumerator -/
def enumAst : Str × Option Const → Ast
  | (n, none) => .node .enumor [.name .enumConst n]
  | (n, some c) => .node .enumor [.name .enumConst n, c.expr.ast]

theorem enumsOf_asts (e : Str × Option Const) (es : List (Str × Option Const)) : (enumsOf e es).asts = (e :: es).map enumAst := by
  induction es generalizing e with
  | nil => obtain ⟨n, _ | c⟩ := e <;> rfl
  | cons e' es ih => obtain ⟨n, _ | c⟩ := e <;> simp [enumsOf, Syn.Enums.asts, ih, enumAst]

/-- what resolving a constant gives -/
theorem const_run (c : Const) (s : RState) :
    (∃ e, full.expr c.expr.ast s = .ok (some e, s) ∧ ∀ s', signedConst e s' = .ok (c.value (envOf s), s')) ∨
      (full.expr c.expr.ast s = .ok (none, s) ∧ c.value (envOf s) = none) := by
  rw [full_expr]
  cases c with
  | int l =>
    left
    refine ⟨.ilit (litType l.type) l, rfl, fun s' => ?_⟩
    simp only [signedConst, Const.value]
    split <;> rfl
  | char l =>
    left
    refine ⟨.ilit .int l, rfl, fun s' => ?_⟩
    simp only [signedConst, Const.value]
    split <;> rfl
  | ref n =>
    have e : expr full (Const.ref n).expr.ast s = identExpr (.name .identExpr n) s := rfl
    rw [e]
    simp only [identExpr, ident_name, pure_bind, get_bind, Const.value, envOf]
    cases h : lookup n s.syms with
    | none => right; simp
    | some y =>
      left
      cases y with
      | int l =>
        refine ⟨_, rfl, fun s' => ?_⟩
        simp only [signedConst]
        split <;> rfl
      | obj t => exact ⟨_, rfl, fun s' => rfl⟩

/-- the state after defining enumerators -/
def defs : List (Str × Int) → RState → RState
  | [], s => s
  | (n, v) :: l, s => defs l { s with syms := define n (.int ⟨.int, v⟩) s.syms, enumNext := v + 1 }

def InRange (v : Int) : Prop := -2147483648 ≤ v ∧ v < 2147483647

theorem toInt32_id {v : Int} (h : InRange v) : toInt32 v = v := by
  unfold toInt32; unfold InRange at h; omega

theorem envOf_define (s : RState) (n : Str) (v k : Int) :
    envOf { s with syms := define n (.int ⟨.int, v⟩) s.syms, enumNext := k } = fun m => if m = n then some v else envOf s m := by
  funext m
  simp only [envOf, lookup_define]
  by_cases h : m = n <;> simp [h, ILType.isUnsigned]

/-- value of an enumerator -/
def valueOf (env : Str → Option Int) (next : Int) : Option Const → Option Int
  | none => some next
  | some c => c.value env

theorem enumerate_cons (env : Str → Option Int) (next : Int) (n : Str) (c : Option Const) (es : List (Str × Option Const)) :
    enumerate env next ((n, c) :: es) = (valueOf env next c).bind fun v =>
      (enumerate (fun m => if m = n then some v else env m) (v + 1) es).map ((n, v) :: ·) := by
  have k : ∀ v, (enumerate (fun m => if m = n then some v else env m) (v + 1) es).bind (fun vs => some ((n, v) :: vs)) =
      (enumerate (fun m => if m = n then some v else env m) (v + 1) es).map ((n, v) :: ·) := by
    intro v; cases enumerate (fun m => if m = n then some v else env m) (v + 1) es <;> rfl
  cases c with
  | none => exact k next
  | some c =>
    show (c.value env).bind _ = (c.value env).bind _
    congr 1
    funext v
    exact k v

theorem enumValue_run (n : Str) (c : Option Const) (s : RState) (hr : ∀ v, valueOf (envOf s) s.enumNext c = some v → InRange v) :
    enumValue full s.enumNext (enumAst (n, c)) s = .ok (valueOf (envOf s) s.enumNext c, s) := by
  cases c with
  | none => rfl
  | some c =>
    simp only [enumAst, enumValue, node_children, kid1, pure_bind, valueOf] at hr ⊢
    rcases const_run c s with ⟨e, h1, h2⟩ | ⟨h1, h2⟩
    · rw [bind_some h1]
      cases hv : c.value (envOf s) with
      | none => rw [bind_none ((h2 s).trans (by rw [hv]))]
      | some v => rw [bind_some ((h2 s).trans (by rw [hv])), toInt32_id (hr v hv)]; rfl
    · rw [bind_none h1, h2]

theorem enumerator_run (n : Str) (c : Option Const) (s : RState) (hr : ∀ v, valueOf (envOf s) s.enumNext c = some v → InRange v) :
    enumerator full (enumAst (n, c)) s =
      if canDefine n s.syms then
        match valueOf (envOf s) s.enumNext c with
        | some v => .ok (some (n, v), { s with syms := define n (.int ⟨.int, v⟩) s.syms, enumNext := v + 1 })
        | none => .ok (none, s)
      else .ok (none, s) := by
  have hk : (do let c ← kid (enumAst (n, c)) 0; ident c : RM Str) = pure n := by cases c <;> rfl
  have hk' : ∀ (f : Str → RM (Str × Int)), (do let c ← kid (enumAst (n, c)) 0; let n ← ident c; f n) = f n := by intro f; cases c <;> rfl
  unfold enumerator
  rw [hk', get_bind]
  cases canDefine n s.syms with
  | false => rfl
  | true =>
    simp only [require_true, pure_bind, if_true]
    cases hv : valueOf (envOf s) s.enumNext c with
    | none => rw [bind_none ((enumValue_run n c s hr).trans (by rw [hv]))]
    | some v =>
      rw [bind_some ((enumValue_run n c s hr).trans (by rw [hv]))]
      have := hr v hv
      have h1 : ¬ (v + 1 ≥ 2147483648) := by have := this.2; omega
      rw [if_neg h1]
      rfl

/-- all values are in range, as far as they are defined -/
def AllIn (env : Str → Option Int) (next : Int) : List (Str × Option Const) → Prop
  | [] => True
  | (n, c) :: es => match valueOf env next c with
    | none => True
    | some v => InRange v ∧ AllIn (fun m => if m = n then some v else env m) (v + 1) es

theorem enum_collect (es : List (Str × Option Const)) (s : RState) (vs : List (Str × Int)) (h : enumerate (envOf s) s.enumNext es = some vs)
    (hr : ∀ p ∈ vs, InRange p.2) (hnd : (es.map (·.1)).Nodup) (hf : ∀ p ∈ es, canDefine p.1 s.syms = true) :
    collect (enumerator full) (es.map enumAst) s = .ok (some vs, defs vs s) := by
  induction es generalizing s vs with
  | nil =>
    simp only [enumerate, Option.some.injEq] at h
    subst h
    rfl
  | cons e es ih =>
    obtain ⟨n, c⟩ := e
    rw [enumerate_cons] at h
    cases hv : valueOf (envOf s) s.enumNext c with
    | none => rw [hv] at h; simp at h
    | some v =>
      rw [hv] at h
      simp only [Option.bind_some, Option.map_eq_some_iff] at h
      obtain ⟨vs', h', rfl⟩ := h
      have hvr : InRange v := hr (n, v) (by simp)
      have h1 := enumerator_run n c s (fun w hw => by rw [hv] at hw; cases hw; exact hvr)
      rw [hf (n, c) (by simp), hv] at h1
      simp only [if_true] at h1
      rw [← envOf_define s n v (v + 1)] at h'
      simp only [List.map_cons, List.nodup_cons] at hnd
      have h2 := ih { s with syms := define n (.int ⟨.int, v⟩) s.syms, enumNext := v + 1 } vs' h' (fun p hp => hr p (by simp [hp])) hnd.2 (fun p hp => by
        simp only [canDefine_define, hf p (by simp [hp]), Bool.and_true, decide_eq_true_eq]
        rintro rfl
        exact hnd.1 (List.mem_map_of_mem hp))
      simp only [List.map_cons, collect]
      rw [bind_some (attempt_ok h1), bind_some (attempt_ok h2)]
      rfl

/-- names come out as they went in -/
theorem enum_names (es : List (Str × Option Const)) (env : Str → Option Int) (k : Int) (vs : List (Str × Int)) (h : enumerate env k es = some vs) :
    vs.map (·.1) = es.map (·.1) := by
  induction es generalizing env k vs with
  | nil => simp only [enumerate, Option.some.injEq] at h; subst h; rfl
  | cons e es ih =>
    obtain ⟨n, c⟩ := e
    rw [enumerate_cons] at h
    cases hv : valueOf env k c with
    | none => rw [hv] at h; simp at h
    | some v =>
      rw [hv] at h
      simp only [Option.bind_some, Option.map_eq_some_iff] at h
      obtain ⟨vs', h', rfl⟩ := h
      simp [ih _ _ _ h']

/-- accepted lists have different, new names -/
theorem enum_accepted (es : List (Str × Option Const)) (s s' : RState) (vs : List (Str × Int)) (hc : ∀ (s : RState) (p), p ∈ es → (enumerator full (enumAst p) s = .ub) ∨
      (∃ v, enumerator full (enumAst p) s = .ok (some (p.1, v), { s with syms := define p.1 (.int ⟨.int, v⟩) s.syms, enumNext := v + 1 }) ∧ canDefine p.1 s.syms = true) ∨
      enumerator full (enumAst p) s = .ok (none, s))
    (h : collect (enumerator full) (es.map enumAst) s = .ok (some vs, s')) :
    (es.map (·.1)).Nodup ∧ (∀ p ∈ es, canDefine p.1 s.syms = true) := by
  induction es generalizing s vs with
  | nil => simp
  | cons e es ih =>
    simp only [List.map_cons, collect] at h
    rcases hc s e (by simp) with h1 | ⟨v, h1, h2⟩ | h1
    · simp only [bind_run, attempt, h1] at h
      exact absurd h (by simp)
    · rw [bind_some (attempt_ok h1)] at h
      generalize hs1 : ({ s with syms := define e.1 (.int ⟨.int, v⟩) s.syms, enumNext := v + 1 } : RState) = s1 at h
      cases hr : collect (enumerator full) (es.map enumAst) s1 with
      | ok r =>
        obtain ⟨r, s2⟩ := r
        rw [bind_some (attempt_ok hr)] at h
        cases r with
        | none => simp at h
        | some vs' =>
          obtain ⟨h3, h4⟩ := ih s1 vs' (fun s p hp => hc s p (by simp [hp])) (by
            simp only [pure_run, Out.ok.injEq, Prod.mk.injEq] at h
            rw [hr, h.2])
          subst hs1
          simp only [canDefine_define, Bool.and_eq_true, decide_eq_true_eq] at h4
          refine ⟨?_, ?_⟩
          · simp only [List.map_cons, List.nodup_cons]
            refine ⟨fun hm => ?_, h3⟩
            obtain ⟨p, hp, e'⟩ := List.mem_map.1 hm
            exact (h4 p hp).1 e'
          · intro p hp
            rcases List.mem_cons.1 hp with rfl | hp
            · exact h2
            · exact (h4 p hp).2
      | _ => simp only [bind_run, attempt, hr] at h; exact absurd h (by simp)
    · rw [bind_some (attempt_ok h1)] at h
      cases hr : collect (enumerator full) (es.map enumAst) s with
      | ok r => obtain ⟨r, s2⟩ := r; rw [bind_some (attempt_ok hr)] at h; cases r <;> simp at h
      | _ => simp only [bind_run, attempt, hr] at h; exact absurd h (by simp)

theorem enumerator_cases (n : Str) (c : Option Const) (s : RState) : (enumerator full (enumAst (n, c)) s = .ub) ∨
      (∃ v, enumerator full (enumAst (n, c)) s = .ok (some (n, v), { s with syms := define n (.int ⟨.int, v⟩) s.syms, enumNext := v + 1 }) ∧ canDefine n s.syms = true) ∨
      enumerator full (enumAst (n, c)) s = .ok (none, s) := by
  have hk' : ∀ (f : Str → RM (Str × Int)), (do let c ← kid (enumAst (n, c)) 0; let n ← ident c; f n) = f n := by intro f; cases c <;> rfl
  unfold enumerator
  rw [hk', get_bind]
  cases canDefine n s.syms with
  | false => right; right; rfl
  | true =>
    simp only [require_true, pure_bind]
    have key : (∃ v, enumValue full s.enumNext (enumAst (n, c)) s = .ok (some v, s)) ∨ enumValue full s.enumNext (enumAst (n, c)) s = .ok (none, s) := by
      cases c with
      | none => exact .inl ⟨_, rfl⟩
      | some c =>
        simp only [enumAst, enumValue, node_children, kid1, pure_bind]
        rcases const_run c s with ⟨e, h1, h2⟩ | ⟨h1, h2⟩
        · rw [bind_some h1]
          cases hv : c.value (envOf s) with
          | none => right; rw [bind_none ((h2 s).trans (by rw [hv]))]
          | some v => left; exact ⟨_, by rw [bind_some ((h2 s).trans (by rw [hv]))]; rfl⟩
        · right; rw [bind_none h1]
    rcases key with ⟨v, h⟩ | h
    · rw [bind_some h]
      by_cases hv : v + 1 ≥ 2147483648
      · left; rw [if_pos hv]; rfl
      · right; left; exact ⟨v, by rw [if_neg hv]; rfl, by simp⟩
    · right; right; rw [bind_none h]

theorem defs_lookup (vs : List (Str × Int)) (s : RState) (hnd : (vs.map (·.1)).Nodup) (n : Str) (v : Int) (h : (n, v) ∈ vs) :
    lookup n (defs vs s).syms = some (.int ⟨.int, v⟩) := by
  have other : ∀ (vs : List (Str × Int)) (s : RState) (n : Str), n ∉ vs.map (·.1) → lookup n (defs vs s).syms = lookup n s.syms := by
    intro vs
    induction vs with
    | nil => intros; rfl
    | cons p vs ih =>
      intro s n hn
      simp only [List.map_cons, List.mem_cons, not_or] at hn
      rw [defs, ih _ _ hn.2]
      simp [lookup_define, hn.1]
  induction vs generalizing s with
  | nil => simp at h
  | cons p vs ih =>
    simp only [List.map_cons, List.nodup_cons] at hnd
    rcases List.mem_cons.1 h with rfl | h
    · rw [defs, other _ _ _ hnd.1]
      simp [lookup_define]
    · exact ih _ hnd.2 h

end Res
end Umlcc
