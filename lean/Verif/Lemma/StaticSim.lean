import Verif.Spec.StaticUnit
import Verif.Lemma.StaticTree
/-!
The resolver follows a description of what it should do: `Sim`.
-/
namespace Umlcc
namespace StatL
open Syn Stat
open Res (RM RState RSym Rec full full_expr full_spec full_declor full_stmt full_init bind_some bind_none attempt_ok)

def nameOf : RSym → Stat.Name
  | .int l => .const l
  | .obj (.tdef t) => .type t
  | .obj t => .obj t
def tagOf : DType → Stat.Tag
  | .ustruct ms b a => .struct ms b a
  | _ => .enum

def mapVal (f : α → β) (l : List (List (Id × α))) : List (List (Id × β)) := l.map (·.map fun p => (p.1, f p.2))

/-- what the state of the resolver says about the unit -/
def abs (s : RState) : St where
  names := mapVal nameOf s.syms
  tags := mapVal tagOf s.tags
  labels := s.cases.map fun cs => (cs.map (·.value), s.dflt)
  next := s.sid + 1
  unit := s.unit
  block := s.blocks.head?

theorem lookup_map (f : α → β) (n : Id) (l : List (Id × α)) : (l.map fun p => (p.1, f p.2)).lookup n = (Res.assoc n l).map f := by
  induction l with
  | nil => rfl
  | cons p l ih =>
    obtain ⟨m, a⟩ := p
    by_cases h : m = n
    · subst h; simp [List.lookup_cons, Res.assoc]
    · have h' : (n == m) = false := by simpa [beq_eq_false_iff_ne] using fun e : n = m => h e.symm
      simp only [List.map_cons, List.lookup_cons, h', Res.assoc, h, if_false]
      exact ih

theorem find_map (f : α → β) (n : Id) (l : List (List (Id × α))) : find n (mapVal f l) = (Res.lookup n l).map f := by
  induction l with
  | nil => rfl
  | cons x l ih =>
    simp only [mapVal, List.map_cons, find, Res.lookup, lookup_map]
    cases Res.assoc n x with
    | none => exact ih
    | some a => rfl

theorem declared_map (f : α → β) (n : Id) (l : List (List (Id × α))) : (declared n (mapVal f l)).isNone = Res.canDefine n l := by
  cases l with
  | nil => rfl
  | cons x l => simp [mapVal, declared, Res.canDefine, lookup_map]

theorem declare_map (f : α → β) (n : Id) (a : α) (l : List (List (Id × α))) : mapVal f (Res.define n a l) = declare n (f a) (mapVal f l) := by
  cases l <;> rfl

theorem abs_scope (s : RState) : (abs s).scope = scope s := by
  simp only [St.scope, scope, abs, find_map, Stat.Scope.mk.injEq]
  constructor
  · funext n
    cases Res.lookup n s.syms with
    | none => rfl
    | some y =>
      cases y with
      | int l => rfl
      | obj t => cases t <;> rfl
  · funext n
    cases Res.lookup n s.tags with
    | none => rfl
    | some t => cases t <;> rfl

/-- the outcome of a part of the resolver is as described; a refusal is described as: never accepted -/
def Acc (m : RM α) (s : RState) : V (α × St) → Prop
  | .ok (a, σ) => ∃ s', m s = .ok (some a, s') ∧ abs s' = σ ∧ s'.blocks.tail = s.blocks.tail
  | .bad => ∀ a s', m s ≠ .ok (some a, s')
  | .out => True

def Sim (m : RM α) (f : M α) : Prop := ∀ s, Acc m s (f (abs s))

theorem m_bind (f : M α) (g : α → M β) (σ : St) : (f >>= g) σ = V.bind (f σ) fun p => g p.1 p.2 := rfl
@[simp] theorem vb_ok (a : α) (f : α → V β) : V.bind (.ok a) f = f a := rfl
@[simp] theorem vb_bad (f : α → V β) : V.bind .bad f = .bad := rfl
@[simp] theorem vb_out (f : α → V β) : V.bind .out f = .out := rfl
@[simp] theorem m_pure_bind (a : α) (g : α → M β) : ((pure a : M α) >>= g) = g a := rfl
@[simp] theorem m_bad_bind (g : α → M β) : ((bad : M α) >>= g) = bad := rfl
@[simp] theorem m_out_bind (g : α → M β) : ((out : M α) >>= g) = out := rfl
theorem m_get_bind (g : St → M β) (σ : St) : (get >>= g) σ = g σ σ := rfl
theorem m_modify_bind (f : St → St) (g : Unit → M β) (σ : St) : (modify f >>= g) σ = g () (f σ) := rfl
theorem m_bind_assoc (m : M α) (f : α → M β) (g : β → M γ) : (m >>= f >>= g) = (m >>= fun a => f a >>= g) := by
  funext σ
  simp only [m_bind]
  cases m σ <;> rfl

theorem never_bind {m : RM α} {k : α → RM β} {s : RState} (h : ∀ a s', m s = .ok (some a, s') → ∀ b s'', k a s' ≠ .ok (some b, s'')) (b : β) (s' : RState) :
    (m >>= k) s ≠ .ok (some b, s') := by
  rw [Res.bind_run]
  cases hm : m s with
  | ok p =>
    obtain ⟨r, s1⟩ := p
    cases r with
    | none => simp
    | some a => exact h a s1 hm b s'
  | _ => simp

theorem never_fail (s : RState) (b : β) (s' : RState) : (Res.fail : RM β) s ≠ .ok (some b, s') := by simp [Res.fail]

theorem Acc.bind {m : RM α} {k : α → RM β} {s : RState} {v : V (α × St)} {g : α → M β} (hm : Acc m s v)
    (hk : ∀ a s', m s = .ok (some a, s') → v = .ok (a, abs s') → Acc (k a) s' (g a (abs s'))) : Acc (m >>= k) s (V.bind v fun p => g p.1 p.2) := by
  cases v with
  | out => trivial
  | bad => exact never_bind fun a s' e => absurd e (hm a s')
  | ok p =>
    obtain ⟨a, σ⟩ := p
    obtain ⟨s', h1, h2, h3⟩ := hm
    have hk := hk a s' h1 (by rw [h2])
    rw [h2] at hk
    simp only [vb_ok]
    cases hg : g a σ with
    | out => trivial
    | bad =>
      rw [hg] at hk
      intro b s''
      rw [bind_some h1]
      exact hk b s''
    | ok q =>
      obtain ⟨b, τ⟩ := q
      rw [hg] at hk
      obtain ⟨s'', e1, e2, e3⟩ := hk
      exact ⟨s'', by rw [bind_some h1, e1], e2, e3.trans h3⟩

theorem Sim.bind {m : RM α} {k : α → RM β} {f : M α} {g : α → M β} (hm : Sim m f) (hk : ∀ a, Sim (k a) (g a)) : Sim (m >>= k) (f >>= g) :=
  fun s => (hm s).bind fun a s' _ _ => hk a s'

theorem Sim.pure (a : α) : Sim (pure a : RM α) (pure a : M α) := fun s => ⟨s, rfl, rfl, rfl⟩
theorem Sim.out (m : RM α) : Sim m out := fun _ => trivial
theorem Sim.fail : Sim (Res.fail : RM α) bad := fun s a s' => never_fail s a s'
theorem Sim.get_bind {k : RState → RM β} {g : St → M β} (h : ∀ s, Acc (k s) s (g (abs s) (abs s))) : Sim (Res.get >>= k) (get >>= g) := h
theorem Sim.require (b : Bool) : Sim (Res.require b) (lift (must b)) := by
  intro s
  cases b
  · exact fun a s' => never_fail s a s'
  · exact ⟨s, rfl, rfl, rfl⟩

theorem Does.acc {m : RM α} {s : RState} {v : V α} (h : Does m s v []) : Acc m s (V.bind v fun a => .ok (a, abs s)) := by
  cases v with
  | out => trivial
  | bad =>
    intro a s' e
    rw [h.bad_nil] at e
    simp at e
  | ok a => exact ⟨s, h, rfl, rfl⟩

theorem Sim.ask {m : RM α} {f : Stat.Scope → V α} (h : ∀ s, Does m s (f (scope s)) []) : Sim m (ask f) := fun s => by
  have := (h s).acc
  rw [← abs_scope] at this
  exact this

theorem Sim.is {m : RM α} {v : V α} (h : Is m v) : Sim m (lift v) := fun s => (h.does s).acc

theorem push_abs (s : RState) (ss : List (List UInt8)) :
    abs (push s ss) = { abs s with next := (abs s).next + ss.length, unit := (abs s).unit ++ strDecls (abs s).next ss } ∧ (push s ss).blocks = s.blocks := by
  induction ss generalizing s with
  | nil => simp [abs, strDecls]
  | cons b ss ih =>
    obtain ⟨h1, h2⟩ := ih { s with sid := s.sid + 1, unit := s.unit ++ [.decls [⟨.str (s.sid + 1), .arr .char b.length, some (.str (.arr .char b.length) b)⟩]] }
    refine ⟨?_, h2⟩
    rw [push, h1]
    simp only [abs, strDecls, List.append_assoc, List.cons_append, List.nil_append, List.length_cons, St.mk.injEq, and_true, true_and]
    omega

theorem Sim.expr (e : Expr) : Sim (full.expr e.ast) (Stat.expr true e) := by
  intro s
  have h := tree_does e s
  simp only [Stat.expr, abs_scope]
  have : (abs s).next = s.sid + 1 := rfl
  rw [this]
  cases hv : tree true (scope s) (s.sid + 1) e with
  | out => trivial
  | bad =>
    rw [hv] at h
    obtain ⟨ss, -, h⟩ := h
    intro a s' e
    rw [h] at e
    simp at e
  | ok x =>
    rw [hv] at h
    obtain ⟨h1, h2⟩ := push_abs s (strs e)
    exact ⟨_, h, h1, by rw [h2]⟩

/-- parts that change the state in a described way -/
theorem Sim.modify {f : RState → RState} {g : St → St} (h : ∀ s, abs (f s) = g (abs s)) (hb : ∀ s, (f s).blocks.tail = s.blocks.tail) :
    Sim (Res.modify f) (modify g) := fun s => ⟨f s, rfl, h s, hb s⟩

theorem never_attempt_fail {m : RM α} {k : Option α → RM β} {s : RState} (h : ∀ r s', m s = .ok (r, s') → ∀ b s'', k r s' ≠ .ok (some b, s'')) (b : β) (s' : RState) :
    (Res.attempt m >>= k) s ≠ .ok (some b, s') := by
  rw [Res.bind_run, Res.attempt]
  cases hm : m s with
  | ok p => obtain ⟨r, s1⟩ := p; exact h r s1 hm b s'
  | _ => simp

/-- lists of results -/
theorem Sim.collect {f : β → RM α} {g : γ → M α} {h : γ → β} {ys : List γ} (H : ∀ y ∈ ys, Sim (f (h y)) (g y)) :
    Sim (Res.collect f (ys.map h)) (forEach g ys) := by
  induction ys with
  | nil => exact Sim.pure []
  | cons y ys ih =>
    intro s
    have hx := H y (by simp)
    have ih := ih fun z hz => H z (by simp [hz])
    simp only [Res.collect, forEach, List.map_cons]
    have h1 := hx s
    simp only [m_bind]
    cases hg : g y (abs s) with
    | out => trivial
    | bad =>
      rw [hg] at h1
      refine never_attempt_fail fun r s1 e => ?_
      cases r with
      | some a => exact absurd e (h1 a s1)
      | none => exact never_attempt_fail fun r2 s2 _ => never_fail s2
    | ok p =>
      obtain ⟨a, σ⟩ := p
      rw [hg] at h1
      obtain ⟨s1, e1, e2, e3⟩ := h1
      simp only [vb_ok]
      have h2 := ih s1
      rw [e2] at h2
      cases hf : forEach g ys σ with
      | out => trivial
      | bad =>
        rw [hf] at h2
        intro b s'
        rw [bind_some (attempt_ok e1)]
        refine never_attempt_fail ?_ b s'
        intro r s2 e
        cases r with
        | some as => exact absurd e (h2 as s2)
        | none => exact never_fail s2
      | ok q =>
        obtain ⟨as, τ⟩ := q
        rw [hf] at h2
        obtain ⟨s2, k1, k2, k3⟩ := h2
        refine ⟨s2, ?_, k2, k3.trans e3⟩
        rw [bind_some (attempt_ok e1), bind_some (attempt_ok k1)]
        rfl

end StatL
end Umlcc
