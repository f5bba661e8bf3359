import Verif.Lemma.SimStmt
import Verif.Lemma.GenLabelUnit
import Verif.Spec.Flow
import Verif.Props.LocalInit
/-!
C36: executions without the limits of `lim`; no `break` or `continue` leaves a function; parameters; whole functions.
-/
namespace Umlcc
namespace Sim
open IMach (Val St Env Mem)
open RSpec (Mach UniqueLabels)
open CSem (InRange rep Ctx eval safe)
open CStm
open Gen
open Flow (freeBrk freeBrkItem freeBrks freeCont freeContItem freeConts)

variable {W : Type} {I : Impl W} {E : Env W} {P : List Immc}

/-! ### without limits -/

/-- the same without the limits -/
def full (I : Impl W) : Impl W := { I with base := I.base.full }

theorem declare_full (n : Str) (t : DType) (V : Vars) : declare (full I) n t V = declare I n t V := rfl

theorem declareAll_full : ∀ (ds : List SDecl) (V : Vars), declareAll (full I) ds V = declareAll I ds V
  | [], _ => rfl
  | d :: ds, V => by
    simp only [declareAll, declare_full]
    split
    · congr 1
      funext V
      exact declareAll_full ds V
    · rfl

mutual
theorem scope_full : ∀ (b : SStmt) (V : Vars), scope (full I) b V = scope I b V
  | .cmpd is, V => by simp only [scope, scopes_full is]
  | .case _ s, V | .dflt s, V | .switch _ s, V | .while _ s, V | .ite _ s, V => by simp only [scope, scope_full s]
  | .itee _ t e, V => by simp only [scope, scope_full t, scope_full e]
  | .for i _ n b, V => by simp only [scope, scopeItem_full i, scope_full b, scope_full n]
  | .cont, V | .brk, V | .ret _, V | .expr _, V | .null, V => rfl
theorem scopeItem_full : ∀ (b : SItem) (V : Vars), scopeItem (full I) b V = scopeItem I b V
  | .stmt s, V => by simp only [scopeItem, scope_full s]
  | .decls ds, V => by simp only [scopeItem, declareAll_full]
  | .tag n t, V => rfl
theorem scopes_full : ∀ (b : SItems) (V : Vars), scopes (full I) b V = scopes I b V
  | .nil, V => rfl
  | .cons i is, V => by simp only [scopes, scopeItem_full i, scopes_full is]
end

theorem ctx_full (V : Vars) : V.ctx (full I) = (V.ctx I).full := rfl

theorem test_full {V : Vars} {c : SExpr} {σ : Mem × W} {x : Bool × Mem × W} (h : test (V.ctx I) c σ = some x) : test (V.ctx (full I)) c σ = some x := by
  obtain ⟨y, h1, h2, rfl⟩ := test_some h
  simp [test, ctx_full, CSem.eval_full c h1, h2, CSem.need]

theorem testFor_full {V : Vars} {c : SStmt} {σ : Mem × W} {x : Bool × Mem × W} (h : testFor (V.ctx I) c σ = some x) : testFor (V.ctx (full I)) c σ = some x := by
  cases c with
  | expr c => exact test_full h
  | null => exact h
  | _ => cases h

theorem initObj_full {V : Vars} {n : Str} {t : DType} {i : Option SInit} {σ σ' : Mem × W} (h : initObj I V n t i σ = some σ') : initObj (full I) V n t i σ = some σ' := by
  cases i with
  | none => exact h
  | some i =>
    simp only [initObj, Option.bind_eq_bind, Option.bind_eq_some_iff] at h ⊢
    obtain ⟨u, h1, ls, h2, a, h3, h4⟩ := h
    have h1 := CSem.need_some.1 h1
    exact ⟨(), CSem.need_some.2 ⟨h1.1, nofun⟩, ls, h2, a, h3, initialise_full h4⟩

theorem execDecls_full : ∀ {ds : List SDecl} {V : Vars} {σ σ' : Mem × W}, execDecls I ds V σ = some σ' → execDecls (full I) ds V σ = some σ'
  | [], _, _, _, h => h
  | d :: ds, V, σ, σ', h => by
    simp only [execDecls] at h ⊢
    cases hd : d.who with
    | str id => simp [hd] at h
    | ident n =>
      simp only [hd, Option.bind_eq_bind, Option.bind_eq_some_iff] at h ⊢
      obtain ⟨V1, h1, σ1, h2, h3⟩ := h
      exact ⟨V1, h1, σ1, initObj_full h2, execDecls_full h3⟩

section
variable {f g : Mem × W → Option (Res × Mem × W)} {r : Res} {σ : Mem × W} {x : Res × Mem × W}

theorem andThen_le (h : r.andThen σ f = some x) (hf : f σ = some x → g σ = some x) : r.andThen σ g = some x := by
  cases r <;> first | exact hf h | exact h

theorem afterBody_le (h : r.afterBody σ f = some x) (hf : f σ = some x → g σ = some x) : r.afterBody σ g = some x := by
  cases r <;> first | exact hf h | exact h
end

/-- executions that respect the limits are executions -/
structure Full (I : Impl W) (n : Nat) : Prop where
  stmt : ∀ {b V m σ x}, exec I n V m b σ = some x → exec (full I) n V m b σ = some x
  item : ∀ {b V m σ x}, execItem I n V m b σ = some x → execItem (full I) n V m b σ = some x
  items : ∀ {b V m σ x}, execs I n V m b σ = some x → execs (full I) n V m b σ = some x
  loop : ∀ {c s b V1 V2 σ x}, execLoop I n V1 V2 c s b σ = some x → execLoop (full I) n V1 V2 c s b σ = some x
  next : ∀ {c s b V1 V2 σ x}, execNext I n V1 V2 c s b σ = some x → execNext (full I) n V1 V2 c s b σ = some x

theorem stmt_full {n : Nat} (k : Full I n) {b : SStmt} {V : Vars} {m : Mode} {σ : Mem × W} {x : Res × Mem × W} (h : exec I (n + 1) V m b σ = some x) :
    exec (full I) (n + 1) V m b σ = some x := by
  cases b with
  | cmpd is => simp only [exec] at h ⊢; exact k.items h
  | case e s => cases m <;> simp only [exec] at h ⊢ <;> exact k.stmt h
  | dflt s => cases m <;> simp only [exec] at h ⊢ <;> exact k.stmt h
  | cont => cases m <;> simp only [exec] at h ⊢ <;> exact h
  | brk => cases m <;> simp only [exec] at h ⊢ <;> exact h
  | null => cases m <;> simp only [exec] at h ⊢ <;> exact h
  | ret e =>
    cases m with
    | seek T => cases e <;> simp [exec] at h
    | run =>
      cases e with
      | none => simp only [exec] at h ⊢; exact h
      | some e =>
        simp only [exec, Option.bind_eq_bind, Option.bind_eq_some_iff] at h ⊢
        obtain ⟨q, hq, y, hy, h⟩ := h
        exact ⟨q, hq, y, CSem.eval_full e hy, h⟩
  | expr e =>
    cases m with
    | seek T => simp [exec] at h
    | run =>
      simp only [exec, Option.bind_eq_bind, Option.bind_eq_some_iff] at h ⊢
      obtain ⟨y, hy, h⟩ := h
      exact ⟨y, CSem.eval_full e hy, h⟩
  | ite c t =>
    cases m with
    | seek T => simp only [exec] at h ⊢; exact k.stmt h
    | run =>
      simp only [exec, Option.bind_eq_bind, Option.bind_eq_some_iff] at h ⊢
      obtain ⟨y, hy, h⟩ := h
      refine ⟨y, test_full hy, ?_⟩
      split at h
      · rename_i hc; rw [if_pos hc]; exact k.stmt h
      · rename_i hc; rw [if_neg hc]; exact h
  | itee c t e =>
    cases m with
    | seek T =>
      simp only [exec, Option.bind_eq_bind, Option.bind_eq_some_iff, scope_full] at h ⊢
      obtain ⟨V1, hv, h⟩ := h
      refine ⟨V1, hv, ?_⟩
      split at h
      · rename_i hc; rw [if_pos hc]; exact k.stmt h
      · rename_i hc; rw [if_neg hc]; exact k.stmt h
    | run =>
      simp only [exec, Option.bind_eq_bind, Option.bind_eq_some_iff, scope_full] at h ⊢
      obtain ⟨V1, hv, y, hy, h⟩ := h
      refine ⟨V1, hv, y, test_full hy, ?_⟩
      split at h
      · rename_i hc; rw [if_pos hc]; exact k.stmt h
      · rename_i hc; rw [if_neg hc]; exact k.stmt h
  | switch c b =>
    cases m with
    | seek T => simp [exec] at h
    | run =>
      simp only [exec, Option.bind_eq_bind, Option.bind_eq_some_iff] at h ⊢
      obtain ⟨q, hq, _, hn, y, hy, h⟩ := h
      refine ⟨q, hq, (), CSem.need_some.2 ⟨(CSem.need_some.1 hn).1, nofun⟩, y, CSem.eval_full c hy, ?_⟩
      cases hc : choose q y.1 b with
      | none => simpa only [hc] using h
      | some T =>
        simp only [hc, Option.bind_eq_some_iff] at h ⊢
        obtain ⟨z, hz, h⟩ := h
        exact ⟨z, k.stmt hz, h⟩
  | «while» c b =>
    cases m with
    | seek T =>
      simp only [exec, Option.bind_eq_bind, Option.bind_eq_some_iff] at h ⊢
      obtain ⟨y, hy, h⟩ := h
      exact ⟨y, k.stmt hy, afterBody_le h k.stmt⟩
    | run =>
      simp only [exec, Option.bind_eq_bind, Option.bind_eq_some_iff] at h ⊢
      obtain ⟨y, hy, h⟩ := h
      refine ⟨y, test_full hy, ?_⟩
      split at h
      · rename_i hc
        rw [if_pos hc]
        simp only [Option.bind_eq_some_iff] at h ⊢
        obtain ⟨z, hz, h⟩ := h
        exact ⟨z, k.stmt hz, afterBody_le h k.stmt⟩
      · rename_i hc; rw [if_neg hc]; exact h
  | «for» i c s b =>
    simp only [exec, Option.bind_eq_bind, Option.bind_eq_some_iff, scope_full, scopeItem_full] at h ⊢
    obtain ⟨V1, v1, V2, v2, h⟩ := h
    refine ⟨V1, v1, V2, v2, ?_⟩
    cases m with
    | run =>
      simp only [Option.bind_eq_some_iff] at h ⊢
      obtain ⟨y, hy, h⟩ := h
      exact ⟨y, k.item hy, andThen_le h k.loop⟩
    | seek T =>
      simp only [Option.bind_eq_some_iff] at h ⊢
      obtain ⟨y, hy, h⟩ := h
      exact ⟨y, k.stmt hy, afterBody_le h k.next⟩

theorem exec_full : ∀ n, Full I n
  | 0 => by
    constructor <;> intros <;> rename_i h <;> simp only [exec, execItem, execs, execLoop, execNext] at h ⊢ <;> exact h
  | n + 1 => by
    have k := exec_full n
    refine ⟨stmt_full k, ?_, ?_, ?_, ?_⟩
    · intro b V m σ x h
      cases b with
      | stmt s => simp only [execItem] at h ⊢; exact k.stmt h
      | tag n t => cases m <;> simp only [execItem] at h ⊢ <;> exact h
      | decls ds =>
        cases m with
        | seek T => simp [execItem] at h
        | run =>
          simp only [execItem, Option.bind_eq_bind, Option.bind_eq_some_iff] at h ⊢
          obtain ⟨σ', h1, h⟩ := h
          exact ⟨σ', execDecls_full h1, h⟩
    · intro b V m σ x h
      cases b with
      | nil => cases m <;> simp only [execs] at h ⊢ <;> exact h
      | cons i is =>
        cases m with
        | run =>
          simp only [execs, Option.bind_eq_bind, Option.bind_eq_some_iff, scopeItem_full] at h ⊢
          obtain ⟨V1, v1, y, hy, h⟩ := h
          exact ⟨V1, v1, y, k.item hy, andThen_le h k.items⟩
        | seek T =>
          simp only [execs, Option.bind_eq_bind, Option.bind_eq_some_iff, scopeItem_full] at h ⊢
          obtain ⟨V1, v1, h⟩ := h
          refine ⟨V1, v1, ?_⟩
          split at h
          · rename_i hc
            rw [if_pos hc]
            simp only [Option.bind_eq_some_iff] at h ⊢
            obtain ⟨y, hy, h⟩ := h
            exact ⟨y, k.item hy, andThen_le h k.items⟩
          · rename_i hc; rw [if_neg hc]; exact k.items h
    · intro c s b V1 V2 σ x h
      simp only [execLoop, Option.bind_eq_bind, Option.bind_eq_some_iff] at h ⊢
      obtain ⟨y, hy, h⟩ := h
      refine ⟨y, testFor_full hy, ?_⟩
      split at h
      · rename_i hc
        rw [if_pos hc]
        simp only [Option.bind_eq_some_iff] at h ⊢
        obtain ⟨z, hz, h⟩ := h
        exact ⟨z, k.stmt hz, afterBody_le h k.next⟩
      · rename_i hc; rw [if_neg hc]; exact h
    · intro c s b V1 V2 σ x h
      simp only [execNext, Option.bind_eq_bind, Option.bind_eq_some_iff] at h ⊢
      obtain ⟨y, hy, h⟩ := h
      exact ⟨y, k.stmt hy, andThen_le h k.loop⟩

/-! ### `break` and `continue` -/

/-- a result that is neither `break` nor `continue` unless there is one -/
def Stays (b c : Bool) (r : Res) : Prop := (b = false → r ≠ .brk) ∧ (c = false → r ≠ .cont)

theorem Stays.mono {b c b' c' : Bool} {r : Res} (h : Stays b c r) (hb : b' = false → b = false) (hc : c' = false → c = false) : Stays b' c' r :=
  ⟨fun e => h.1 (hb e), fun e => h.2 (hc e)⟩

theorem Stays.done {b c : Bool} {r : Res} (h : r ≠ .brk ∧ r ≠ .cont) : Stays b c r := ⟨fun _ => h.1, fun _ => h.2⟩

structure Inside (I : Impl W) (n : Nat) : Prop where
  stmt : ∀ {b V m σ x}, exec I n V m b σ = some x → Stays (freeBrk b) (freeCont b) x.1
  item : ∀ {b V m σ x}, execItem I n V m b σ = some x → Stays (freeBrkItem b) (freeContItem b) x.1
  items : ∀ {b V m σ x}, execs I n V m b σ = some x → Stays (freeBrks b) (freeConts b) x.1
  loop : ∀ {c s b V1 V2 σ x}, execLoop I n V1 V2 c s b σ = some x → Stays (freeBrk s) (freeCont s) x.1
  next : ∀ {c s b V1 V2 σ x}, execNext I n V1 V2 c s b σ = some x → Stays (freeBrk s) (freeCont s) x.1

section
variable {f : Mem × W → Option (Res × Mem × W)} {r : Res} {σ : Mem × W} {x : Res × Mem × W} {b c : Bool}

theorem andThen_stays (h : r.andThen σ f = some x) (hr : Stays b c r) (hf : f σ = some x → Stays b c x.1) : Stays b c x.1 := by
  cases r with
  | norm => exact hf h
  | _ => cases h; exact hr

theorem afterBody_stays (h : r.afterBody σ f = some x) (hf : f σ = some x → Stays b c x.1) : Stays b c x.1 := by
  cases r with
  | norm => exact hf h
  | cont => exact hf h
  | _ => cases h; exact .done (by simp)
end

theorem stmt_inside {n : Nat} (k : Inside I n) {b : SStmt} {V : Vars} {m : Mode} {σ : Mem × W} {x : Res × Mem × W} (h : exec I (n + 1) V m b σ = some x) :
    Stays (freeBrk b) (freeCont b) x.1 := by
  cases b with
  | cmpd is => simp only [exec] at h; simpa only [freeBrk, freeCont] using k.items h
  | case e s => cases m <;> simp only [exec] at h <;> simpa only [freeBrk, freeCont] using k.stmt h
  | dflt s => cases m <;> simp only [exec] at h <;> simpa only [freeBrk, freeCont] using k.stmt h
  | cont => cases m <;> simp only [exec] at h <;> cases h; exact ⟨fun _ => nofun, nofun⟩
  | brk => cases m <;> simp only [exec] at h <;> cases h; exact ⟨nofun, fun _ => nofun⟩
  | null => cases m <;> simp only [exec] at h <;> cases h; exact .done (by simp)
  | ret e =>
    cases m with
    | seek T => cases e <;> simp [exec] at h
    | run =>
      cases e with
      | none => simp only [exec] at h; cases h; exact .done (by simp)
      | some e =>
        simp only [exec, Option.bind_eq_bind, Option.bind_eq_some_iff] at h
        obtain ⟨q, hq, y, hy, h⟩ := h
        cases h
        exact .done (by simp)
  | expr e =>
    cases m with
    | seek T => simp [exec] at h
    | run =>
      simp only [exec, Option.bind_eq_bind, Option.bind_eq_some_iff] at h
      obtain ⟨y, hy, h⟩ := h
      cases h
      exact .done (by simp)
  | ite c t =>
    simp only [freeBrk, freeCont]
    cases m with
    | seek T => simp only [exec] at h; exact k.stmt h
    | run =>
      simp only [exec, Option.bind_eq_bind, Option.bind_eq_some_iff] at h
      obtain ⟨y, hy, h⟩ := h
      split at h
      · exact k.stmt h
      · cases h; exact .done (by simp)
  | itee c t e =>
    have ht : ∀ {V m σ}, exec I n V m t σ = some x → Stays (freeBrk (.itee c t e)) (freeCont (.itee c t e)) x.1 := fun h =>
      (k.stmt h).mono (fun e => by simp [freeBrk] at e; exact e.1) (fun e => by simp [freeCont] at e; exact e.1)
    have he : ∀ {V m σ}, exec I n V m e σ = some x → Stays (freeBrk (.itee c t e)) (freeCont (.itee c t e)) x.1 := fun h =>
      (k.stmt h).mono (fun e => by simp [freeBrk] at e; exact e.2) (fun e => by simp [freeCont] at e; exact e.2)
    cases m with
    | seek T =>
      simp only [exec, Option.bind_eq_bind, Option.bind_eq_some_iff] at h
      obtain ⟨V1, hv, h⟩ := h
      split at h
      · exact ht h
      · exact he h
    | run =>
      simp only [exec, Option.bind_eq_bind, Option.bind_eq_some_iff] at h
      obtain ⟨V1, hv, y, hy, h⟩ := h
      split at h
      · exact ht h
      · exact he h
  | switch c b =>
    cases m with
    | seek T => simp [exec] at h
    | run =>
      simp only [exec, Option.bind_eq_bind, Option.bind_eq_some_iff] at h
      obtain ⟨q, hq, _, hn, y, hy, h⟩ := h
      cases hc : choose q y.1 b with
      | none =>
        simp only [hc, Option.some.injEq] at h
        subst h
        exact .done (by simp)
      | some T =>
        simp only [hc, Option.bind_eq_some_iff] at h
        obtain ⟨z, hz, h⟩ := h
        cases h
        have := k.stmt hz
        simp only [freeBrk, freeCont]
        refine ⟨fun _ => ?_, fun e => ?_⟩
        · cases z.1 <;> simp [Res.afterSwitch]
        · have := this.2 e
          revert this
          cases z.1 <;> simp [Res.afterSwitch]
  | «while» c b =>
    have ih : ∀ {σ}, exec I n V .run (.while c b) σ = some x → _ := fun h => k.stmt h
    cases m with
    | seek T =>
      simp only [exec, Option.bind_eq_bind, Option.bind_eq_some_iff] at h
      obtain ⟨y, hy, h⟩ := h
      exact afterBody_stays h ih
    | run =>
      simp only [exec, Option.bind_eq_bind, Option.bind_eq_some_iff] at h
      obtain ⟨y, hy, h⟩ := h
      split at h
      · simp only [Option.bind_eq_some_iff] at h
        obtain ⟨z, hz, h⟩ := h
        exact afterBody_stays h ih
      · cases h; exact .done (by simp)
  | «for» i c s b =>
    simp only [exec, Option.bind_eq_bind, Option.bind_eq_some_iff] at h
    obtain ⟨V1, v1, V2, v2, h⟩ := h
    cases m with
    | run =>
      simp only [Option.bind_eq_some_iff] at h
      obtain ⟨y, hy, h⟩ := h
      refine andThen_stays h ((k.item hy).mono (fun e => ?_) (fun e => ?_)) fun h => (k.loop h).mono (fun e => ?_) (fun e => ?_)
      all_goals
        simp [freeBrk, freeCont] at e
        first | exact e.1 | exact e.2
    | seek T =>
      simp only [Option.bind_eq_some_iff] at h
      obtain ⟨y, hy, h⟩ := h
      refine afterBody_stays h fun h => (k.next h).mono (fun e => ?_) (fun e => ?_)
      all_goals
        simp [freeBrk, freeCont] at e
        exact e.2

theorem exec_inside : ∀ n, Inside I n
  | 0 => by
    constructor <;> intros <;> rename_i h <;> simp only [exec, execItem, execs, execLoop, execNext] at h <;> cases h <;> exact .done (by simp)
  | n + 1 => by
    have k := exec_inside n
    refine ⟨stmt_inside k, ?_, ?_, ?_, ?_⟩
    · intro b V m σ x h
      cases b with
      | stmt s => simp only [execItem] at h; simpa only [freeBrkItem, freeContItem] using k.stmt h
      | tag n t => cases m <;> simp only [execItem] at h <;> cases h; exact .done (by simp)
      | decls ds =>
        cases m with
        | seek T => simp [execItem] at h
        | run =>
          simp only [execItem, Option.bind_eq_bind, Option.bind_eq_some_iff] at h
          obtain ⟨σ', h1, h⟩ := h
          cases h
          exact .done (by simp)
    · intro b V m σ x h
      cases b with
      | nil => cases m <;> simp only [execs] at h <;> cases h; exact .done (by simp)
      | cons i is =>
        have hi : ∀ {V m σ} {y : Res × Mem × W}, execItem I n V m i σ = some y → Stays (freeBrks (.cons i is)) (freeConts (.cons i is)) y.1 := fun h =>
          (k.item h).mono (fun e => by simp [freeBrks] at e; exact e.1) (fun e => by simp [freeConts] at e; exact e.1)
        have his : ∀ {V m σ} {y : Res × Mem × W}, execs I n V m is σ = some y → Stays (freeBrks (.cons i is)) (freeConts (.cons i is)) y.1 := fun h =>
          (k.items h).mono (fun e => by simp [freeBrks] at e; exact e.2) (fun e => by simp [freeConts] at e; exact e.2)
        cases m with
        | run =>
          simp only [execs, Option.bind_eq_bind, Option.bind_eq_some_iff] at h
          obtain ⟨V1, v1, y, hy, h⟩ := h
          exact andThen_stays h (hi hy) his
        | seek T =>
          simp only [execs, Option.bind_eq_bind, Option.bind_eq_some_iff] at h
          obtain ⟨V1, v1, h⟩ := h
          split at h
          · simp only [Option.bind_eq_some_iff] at h
            obtain ⟨y, hy, h⟩ := h
            exact andThen_stays h (hi hy) his
          · exact his h
    · intro c s b V1 V2 σ x h
      simp only [execLoop, Option.bind_eq_bind, Option.bind_eq_some_iff] at h
      obtain ⟨y, hy, h⟩ := h
      split at h
      · simp only [Option.bind_eq_some_iff] at h
        obtain ⟨z, hz, h⟩ := h
        exact afterBody_stays h k.next
      · cases h; exact .done (by simp)
    · intro c s b V1 V2 σ x h
      simp only [execNext, Option.bind_eq_bind, Option.bind_eq_some_iff] at h
      obtain ⟨y, hy, h⟩ := h
      exact andThen_stays h (k.stmt hy) k.loop

/-! ### functions -/

theorem rep_object {t : DType} {q : Sfx × Bool} (h : rep t = some q) : t.isObject = true := by
  cases t <;> simp [rep] at h <;> rfl

theorem bindParams_full : ∀ {ps : Params} {vs : List Val} {V : Vars} {m : Mem}, bindParams (full I) ps vs V m = bindParams I ps vs V m
  | .nil, vs, V, m => by cases vs <;> rfl
  | .cons none t ps, vs, V, m => by simp only [bindParams]
  | .cons (some n) t ps, [], V, m => by simp only [bindParams]
  | .cons (some n) t ps, v :: vs, V, m => by simp only [bindParams, declare_full, bindParams_full]

theorem params_sim (hf : Fits I E) : ∀ {ps : Params} {vs : List Val} {i : Nat} {V V' : Vars} {s s' : GState} {c : List Immc} {mem mem' : Mem} {p : Nat},
    paramsCode i ps s = .ok ((), c, s') → Agree E V s → bindParams I ps vs V mem = some (V', mem') → E.args.drop i = vs → At P p c →
    Agree E V' s' ∧ s'.lab = s.lab ∧ s'.ret = s.ret ∧ ∀ {R : Int → Val} {st : St W}, st.mem = mem → Steps E P ⟨p, R, st⟩ ⟨p + c.length, R, { st with mem := mem' }⟩
  | .nil, vs, i, V, V', s, s', c, mem, mem', p, h, ha, hb, hv, hp => by
    cases h
    cases vs with
    | cons v vs => simp [bindParams] at hb
    | nil =>
      cases hb
      exact ⟨ha, rfl, rfl, fun h => by subst h; exact .refl _⟩
  | .cons n t ps, vs, i, V, V', s, s', c, mem, mem', p, h, ha, hb, hv, hp => by
    obtain ⟨m, c1, rfl, hc, h1, rfl⟩ := paramsCode_cons h
    cases vs with
    | nil => simp [bindParams] at hb
    | cons v vs =>
      simp only [bindParams, Option.bind_eq_bind, Option.bind_eq_some_iff] at hb
      obtain ⟨q, hq, _, hn, V1, hd, a, hfa, hb⟩ := hb
      have hn := CSem.need_some.1 hn
      obtain ⟨-, ha1⟩ := declare_agree hf ha hd
      have ho := rep_object hq
      have hdecl : s.declare m t = { s with syms := define m ⟨.mem ((s.mem + t.nbytes + 3) / 4 * 4), t⟩ s.syms, mem := (s.mem + t.nbytes + 3) / 4 * 4 } := by
        simp only [GState.declare, hc, if_true, ho]
      rw [hdecl] at ha1
      rw [ha1.names, find_locate, lookup_define] at hfa
      simp only [Option.map_some, Option.some.injEq, CSem.addrOf] at hfa
      have hv1 : E.args[i]? = some v := by
        have := congrArg List.head? hv
        simpa using this
      obtain ⟨p1, p2⟩ := hp
      obtain ⟨b1, b2, b3, b4⟩ := params_sim hf h1 ha1 hb (by rw [← List.tail_drop, hv]; rfl) p2
      refine ⟨b1, b2, b3, ?_⟩
      intro R st hst
      have k1 : Steps E P ⟨p, R, st⟩ ⟨p + 1, R, { st with mem := IMach.write st.mem a v.1 v.2 }⟩ := by
        refine step_eff (v := IMach.noVal) (b := false) p1 nofun rfl ?_
        have e := rep_get hq
        simp only [IMach.exec, RSpec.eraseOpe, IMach.place, hfa, Int.toNat_natCast, hv1]
        rw [if_pos ⟨by rw [e.1, hn], by rw [e.1]; exact e.2.2.1, by omega⟩]
      have k2 := b4 (R := R) (st := { st with mem := IMach.write st.mem a v.1 v.2 }) (by rw [hst])
      exact (k1.trans k2).to (by len)

theorem withSelf_agree (hf : Fits I E) {V V1 : Vars} {s : GState} {n : Str} {ps : Params} {rt : DType} (ha : Agree E V s) (h : withSelf I n (.func ps rt) V = some V1) :
    Agree E { V1.enter with used := 0 } (s.inFunc n (.func ps rt)) := by
  have key : Agree E V1 (s.declareLabel n (.func ps rt)) := by
    unfold withSelf at h
    split at h
    · have := (declare_agree hf ha h).2
      unfold GState.declare at this
      unfold GState.declareLabel
      split
      · rename_i hc
        rw [if_pos hc, if_neg (by simp [DType.isObject])] at this
        exact this
      · rename_i hc
        rw [if_neg hc] at this
        exact this
    · rename_i hn
      cases h
      rw [ha.names, isNew_locate] at hn
      unfold GState.declareLabel
      rw [if_neg hn]
      exact ha
  have e2 : (s.declareLabel n (.func ps rt)).tags = s.tags := by unfold GState.declareLabel; split <;> rfl
  refine ⟨?_, ?_, rfl⟩
  · show [] :: V1.names = locate E ([] :: (s.declareLabel n (.func ps rt)).syms)
    rw [key.names]; rfl
  · show [] :: V1.tags = [] :: s.tags
    rw [key.tags, e2]

/-- what a call of a function comes to: the end of its code with the value returned, or ever more steps -/
def Returns (E : Env W) (P : List Immc) (m : Mach Val (St W)) (st : St W) (d : Nat) (σ : Mem × W) : Res → Prop
  | .norm => ∃ R, Steps E P m ⟨P.length, R, { st with mem := σ.1, w := σ.2 }⟩
  | .ret v => ∃ R, Steps E P m ⟨P.length, R, { st with mem := σ.1, w := σ.2, ret := v.or st.ret }⟩
  | .more => ∃ i m', RSpec.run (IMach.sem E) P m i = some m' ∧ d ≤ i ∧ m'.st.mem = σ.1 ∧ m'.st.w = σ.2
  | .brk | .cont => False

theorem func_sim (hf : Fits I E) (hl : I.base.lim = true) {n : Str} {ps : Params} {rt : DType} {b : SItems} {s s' : GState} {code : List Immc} {V : Vars}
    (h : funcCode n (.func ps rt) b s = .ok ((), code, s')) (hu : UniqueLabels code) (hs : soundAll b = true) (hb : freeBrks b = false) (hc : freeConts b = false)
    (ha : Agree E V s) (hlab : -1 ≤ s.lab) {k : Nat} {R : Int → Val} {st : St W} {r : Res × Mem × W}
    (hx : execFunc I k V n ps rt b E.args (st.mem, st.w) = some r) : Returns E code ⟨0, R, st⟩ st (k - sizes b) r.2 r.1 := by
  obtain ⟨name, ps', rt', pc, s1, bc, s2, -, e, h1, h2, hcode, -⟩ := funcCode_ok h
  cases e
  simp only [execFunc, Option.bind_eq_bind, Option.bind_eq_some_iff] at hx
  obtain ⟨V1, hv, ⟨V2, mem⟩, hbp, hx⟩ := hx
  have hP' : ∀ x, code = x → At code 0 x := by rintro _ rfl; exact at_self _
  have hP' := hP' _ hcode
  obtain ⟨p0, p1, p2⟩ := hP'
  obtain ⟨p2, p3⟩ := at_append.1 p2
  obtain ⟨p3, p4, p5, -⟩ := at_append.1 p3
  have q0 := step_label (env := E) (R := R) (st := st) p0
  have q1 : Steps E code ⟨0 + 1, R, st⟩ ⟨0 + 1 + 1, R, st⟩ := step_eff (v := IMach.noVal) (b := false) p1 nofun rfl rfl
  obtain ⟨a1, a2, a3, a4⟩ := params_sim (P := code) hf h1 (withSelf_agree hf ha hv) hbp rfl p2
  have q2 := (q0.trans q1).trans (a4 (R := R) (st := st) rfl)
  have a2' : s1.lab = s.lab + 1 := a2
  have a3' : s1.ret = s.lab + 1 := a3
  have m := (all_sim hu hf hl k).2.2.1 b (m := .run) (k := 0 + 1 + 1 + pc.length) h2 hs a1 (by omega) p3 rfl trivial (R := R)
    (st := { st with mem := mem }) hx
  have L : LabelAt code (0 + 1 + 1 + pc.length + bc.length) (s.lab + 1) := .mk p4
  have q3 : ∀ {R : Int → Val} {st : St W}, Steps E code ⟨0 + 1 + 1 + pc.length + bc.length, R, st⟩ ⟨code.length, R, st⟩ := by
    intro R st
    have k1 : Steps E code ⟨0 + 1 + 1 + pc.length + bc.length + 1, R, st⟩ ⟨0 + 1 + 1 + pc.length + bc.length + 1 + 1, R, st⟩ :=
      step_eff (v := IMach.noVal) (b := false) p5 nofun rfl rfl
    exact (L.steps.trans k1).to (by rw [hcode]; len)
  have ins := (exec_inside k).items hx
  obtain ⟨r, σ⟩ := r
  cases r with
  | norm =>
    obtain ⟨R', m⟩ := m
    exact ⟨R', (q2.trans m).trans q3⟩
  | brk => exact absurd rfl (ins.1 hb)
  | cont => exact absurd rfl (ins.2 hc)
  | ret v =>
    obtain ⟨R', m⟩ := m
    exact ⟨R', (q2.trans (m _ (by rw [a3']; exact L))).trans q3⟩
  | more =>
    obtain ⟨i, m', m1, m2, m3, m4⟩ := m
    obtain ⟨j, q2⟩ := q2
    exact ⟨j + i, m', by rw [run_add, q2]; exact m1, by omega, m3, m4⟩

end Sim
end Umlcc
