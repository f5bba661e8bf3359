import Verif.Spec.Static
import Verif.Lemma.Resolver
import Verif.Lemma.DType
import Verif.Props.Specifiers
/-!
The resolver on type names, against the static semantics.
-/
namespace Umlcc
namespace StatL
open Syn Stat
open Res (RM RState RSym Rec full full_expr full_spec full_declor bind_some bind_none attempt_ok)

/-- the names and tags in scope -/
def scope (s : RState) : Stat.Scope where
  names n := match Res.lookup n s.syms with
    | none => none
    | some (.int l) => some (.const l)
    | some (.obj (.tdef t)) => some (.type t)
    | some (.obj t) => some (.obj t)
  tags n := match Res.lookup n s.tags with
    | none => none
    | some (.ustruct ms b a) => some (.struct ms b a)
    | some _ => some .enum

/-- the state after string literals -/
def push (s : RState) : List (List UInt8) → RState
  | [] => s
  | b :: bs => push { s with sid := s.sid + 1, unit := s.unit ++ [.decls [⟨.str (s.sid + 1), .arr .char b.length, some (.str (.arr .char b.length) b)⟩]] } bs

@[simp] theorem push_nil (s : RState) : push s [] = s := rfl
theorem push_append (s : RState) (a b : List (List UInt8)) : push s (a ++ b) = push (push s a) b := by
  induction a generalizing s with
  | nil => rfl
  | cons x a ih => exact ih _
theorem push_sid (s : RState) (a : List (List UInt8)) : (push s a).sid = s.sid + a.length := by
  induction a generalizing s with
  | nil => simp
  | cons x a ih => rw [push, ih]; simp; omega
@[simp] theorem push_syms (s : RState) (a : List (List UInt8)) : (push s a).syms = s.syms := by
  induction a generalizing s with
  | nil => rfl
  | cons x a ih => rw [push, ih]
@[simp] theorem push_tags (s : RState) (a : List (List UInt8)) : (push s a).tags = s.tags := by
  induction a generalizing s with
  | nil => rfl
  | cons x a ih => rw [push, ih]
@[simp] theorem push_scope (s : RState) (a : List (List UInt8)) : scope (push s a) = scope s := by simp [scope]

/-- the outcome of a part of the resolver that meets the string literals `ss` is as described by `v` -/
def Does (m : RM α) (s : RState) (v : V α) (ss : List (List UInt8)) : Prop :=
  match v with
  | .ok a => m s = .ok (some a, push s ss)
  | .bad => ∃ ss', ss' <+: ss ∧ m s = .ok (none, push s ss')
  | .out => True

@[simp] theorem v_ok (a : α) (f : α → V β) : ((V.ok a : V α) >>= f) = f a := rfl
@[simp] theorem v_bad (f : α → V β) : ((V.bad : V α) >>= f) = .bad := rfl
@[simp] theorem v_out (f : α → V β) : ((V.out : V α) >>= f) = .out := rfl

theorem Does.out (m : RM α) (s : RState) (ss) : Does m s .out ss := trivial
theorem Does.fail {m : RM α} {s : RState} {ss} (h : m s = .ok (none, s)) : Does m s .bad ss := ⟨[], List.nil_prefix, h⟩
theorem Does.pure {m : RM α} {s : RState} {a : α} (h : m s = .ok (some a, s)) : Does m s (.ok a) [] := h

theorem Does.bind {m : RM α} {f : α → RM β} {s : RState} {v : V α} {g : α → V β} {s1 s2 : List (List UInt8)} (h : Does m s v s1)
    (hf : ∀ a, v = .ok a → Does (f a) (push s s1) (g a) s2) : Does (m >>= f) s (v >>= g) (s1 ++ s2) := by
  cases v with
  | out => trivial
  | bad =>
    obtain ⟨ss, h1, h2⟩ := h
    exact ⟨ss, h1.trans (List.prefix_append _ _), bind_none h2⟩
  | ok a =>
    have h : m s = .ok (some a, push s s1) := h
    have := hf a rfl
    simp only [v_ok]
    cases hg : g a with
    | out => trivial
    | bad =>
      rw [hg] at this
      obtain ⟨ss, h1, h2⟩ := this
      exact ⟨s1 ++ ss, (List.prefix_append_right_inj _).2 h1, by rw [bind_some h, h2, push_append]⟩
    | ok b =>
      rw [hg] at this
      have this : f a (push s s1) = _ := this
      simp only [Does]
      rw [bind_some h, this, push_append]

/-- when no string literal is met the state stays -/
theorem Does.bad_nil {m : RM α} {s : RState} (h : Does m s .bad []) : m s = .ok (none, s) := by
  obtain ⟨ss, h1, h2⟩ := h
  obtain rfl := List.prefix_nil.1 h1
  exact h2

/-- a check -/
theorem Does.require {b : Bool} {s : RState} : Does (Res.require b) s (must b) [] := by
  cases b
  · exact Does.fail rfl
  · exact Does.pure rfl

/-! ### types -/

theorem isInteger_eq (t : DType) : t.isInteger = (intOf t).isSome := by cases t <;> rfl
theorem isArithmetic_eq (t : DType) : t.isArithmetic = (intOf t).isSome := by cases t <;> rfl
theorem isScalar_eq (t : DType) : t.isScalar = scalar t := by cases t <;> rfl
theorem isIncomplete_eq (t : DType) : t.isIncomplete = incomplete t := by
  cases t <;> simp only [DType.isIncomplete, incomplete] <;> exact (Bool.beq_eq_decide_eq _ _).symm
theorem isObject_eq (t : DType) : t.isObject = object t := by
  cases t <;> simp [DType.isObject, DType.isIncomplete, object, incomplete]
  all_goals (rename_i n _; cases n <;> simp)
theorem isVoid_eq (t : DType) : t.isVoid = voidTy t := by cases t <;> rfl
theorem isPtr_eq (t : DType) : Res.isPtr t = ptrTy t := by cases t <;> rfl
theorem equals_eq (a b : DType) : DType.equals a b = compat a b := by
  rw [Bool.eq_iff_iff, DType.equals_iff]; simp [compat]
theorem compat_comm (a b : DType) : compat a b = compat b a := by simp [compat, eq_comm]

/-! ### specifiers -/

def toSpec : Kind → Specifiers.Spec
  | .void => .void | .char => .char | .int => .int | .long => .long | .unsigned => .unsigned | .struct => .struct | .enum => .enum
  | .tdname => .typedefName

theorem toSpec_inj : ∀ a b : Kind, toSpec a = toSpec b → a = b := by intro a b; cases a <;> cases b <;> simp [toSpec]

theorem code_ast (s : Spec) : s.ast.type.ctorIdx = (toSpec (kind s)).code := by
  cases s <;> rfl

theorem specs_asts : (ss : Specs) → ss.asts = (specList ss).map Spec.ast
  | .one s => by simp [Specs.asts, specList]
  | .cons s ss => by simp [Specs.asts, specList, specs_asts ss]

theorem specList_ne (ss : Specs) : specList ss ≠ [] := by cases ss <;> simp [specList]

theorem perm_toSpec {l m : List Kind} (h : (l.map toSpec).Perm (m.map toSpec)) : l.Perm m := by
  have : ∀ l : List Kind, (l.map toSpec).map (fun
      | .void => Kind.void | .char => .char | .int => .int | .long => .long | .unsigned => .unsigned | .struct => .struct | .enum => .enum
      | .typedefName => .tdname) = l := by
    intro l
    induction l with
    | nil => rfl
    | cons x l ih => simp only [List.map_cons, ih]; cases x <;> rfl
  have k := h.map (fun
      | .void => Kind.void | .char => .char | .int => .int | .long => .long | .unsigned => .unsigned | .struct => .struct | .enum => .enum
      | .typedefName => .tdname)
  rwa [this, this] at k

theorem spell_mem {l : List Kind} {t : DType} (h : (l, t) ∈ spellings) : (l.map toSpec, Specifiers.Denoted.type t) ∈ cSpellings := by
  simp only [spellings, List.mem_cons, Prod.mk.injEq, List.not_mem_nil, or_false] at h
  rcases h with ⟨rfl, rfl⟩ | ⟨rfl, rfl⟩ | ⟨rfl, rfl⟩ | ⟨rfl, rfl⟩ | ⟨rfl, rfl⟩ | ⟨rfl, rfl⟩ | ⟨rfl, rfl⟩ | ⟨rfl, rfl⟩ | ⟨rfl, rfl⟩ |
    ⟨rfl, rfl⟩ | ⟨rfl, rfl⟩ | ⟨rfl, rfl⟩ | ⟨rfl, rfl⟩ <;> decide

theorem mem_spell {l : List Specifiers.Spec} {d : Specifiers.Denoted} (h : (l, d) ∈ cSpellings) (hl : 2 ≤ l.length) :
    ∃ m t, (m, t) ∈ spellings ∧ l = m.map toSpec ∧ d = .type t := by
  simp only [cSpellings, List.mem_cons, Prod.mk.injEq, List.not_mem_nil, or_false] at h
  rcases h with ⟨rfl, rfl⟩ | ⟨rfl, rfl⟩ | ⟨rfl, rfl⟩ | ⟨rfl, rfl⟩ | ⟨rfl, rfl⟩ | ⟨rfl, rfl⟩ | ⟨rfl, rfl⟩ | ⟨rfl, rfl⟩ | ⟨rfl, rfl⟩ |
    ⟨rfl, rfl⟩ | ⟨rfl, rfl⟩ | ⟨rfl, rfl⟩ | ⟨rfl, rfl⟩ | ⟨rfl, rfl⟩ | ⟨rfl, rfl⟩ | ⟨rfl, rfl⟩
  all_goals first
    | (simp at hl; done)
    | exact ⟨_, _, by simp [spellings]; rfl, rfl, rfl⟩
    | skip
  · exact ⟨[.long, .int], .long, by simp [spellings], rfl, rfl⟩
  · exact ⟨[.long, .long], .llong, by simp [spellings], rfl, rfl⟩
  · exact ⟨[.long, .long, .int], .llong, by simp [spellings], rfl, rfl⟩
  · exact ⟨[.unsigned, .int], .uint, by simp [spellings], rfl, rfl⟩
  · exact ⟨[.unsigned, .long], .ulong, by simp [spellings], rfl, rfl⟩
  · exact ⟨[.unsigned, .long, .int], .ulong, by simp [spellings], rfl, rfl⟩
  · exact ⟨[.unsigned, .long, .long], .ullong, by simp [spellings], rfl, rfl⟩
  · exact ⟨[.unsigned, .long, .long, .int], .ullong, by simp [spellings], rfl, rfl⟩

/-- lists of two or more specifiers -/
theorem keywords_resolve (l : List Kind) (hl : 2 ≤ l.length) :
    Specifiers.resolve (l.map toSpec) = .ok ((keywords l).map .type) := by
  obtain ⟨r, h1, h2⟩ := C19_specifiers_any_order (l.map toSpec)
  rw [h1]
  congr 1
  cases hk : keywords l with
  | some t =>
    simp only [keywords, Option.map_eq_some_iff] at hk
    obtain ⟨p, hp, rfl⟩ := hk
    have hm := List.mem_of_find?_eq_some hp
    have hq := List.find?_some hp
    exact (h2 (.type p.2)).2 ⟨_, spell_mem hm, (List.isPerm_iff.1 hq).map _⟩
  | none =>
    cases r with
    | none => rfl
    | some d =>
      obtain ⟨m, hm, hp⟩ := (h2 d).1 rfl
      obtain ⟨m', t, h3, rfl, rfl⟩ := mem_spell hm (by have := hp.length_eq; simp at this; omega)
      simp only [keywords, Option.map_eq_none_iff, List.find?_eq_none] at hk
      exact absurd (List.isPerm_iff.2 (perm_toSpec hp)) (by simpa using hk _ h3)

theorem spec_lookup {s : RState} {n : Id} : (scope s).tags n = match Res.lookup n s.tags with
    | none => none
    | some (.ustruct ms b a) => some (.struct ms b a)
    | some _ => some .enum := rfl

theorem structRef_does (s : RState) (n : Id) :
    Does (Res.structSpec full (.node .typeStruct [.name .structName n])) s (specTy true (scope s) (.structRef n)) [] := by
  simp only [specTy, spec_lookup]
  cases h : Res.lookup n s.tags with
  | none => exact Does.pure (by simp [Res.structSpec, h, Ast.name, Ast.type, Res.ident])
  | some t =>
    cases t with
    | ustruct ms b a => exact Does.pure (by simp [Res.structSpec, h, Ast.name, Ast.type, Res.ident, Res.dims])
    | _ => trivial

theorem enumRef_does (s : RState) (n : Id) :
    Does (Res.enumSpec full (.node .typeEnum [.name .enumName n])) s (specTy true (scope s) (.enumRef n)) [] := by
  simp only [specTy]
  split
  · exact Does.pure (by simp [Res.enumSpec, Ast.name, Ast.type, Res.ident])
  · trivial

theorem refresh_nstruct (s : RState) (n : Id) (b a : Nat) : refresh (scope s) (.nstruct n b a) = match Res.lookup n s.tags with
    | some (.ustruct _ b a) => .nstruct n b a
    | _ => .nstruct n b a := by
  simp only [refresh, spec_lookup]
  cases h : Res.lookup n s.tags with
  | none => rfl
  | some t => cases t <;> rfl

theorem known_does {s : RState} {Γ : Stat.Scope} {t : DType} {m : RM DType} (h : m s = .ok (some t, s)) : Does m s (known true Γ t) [] := by
  simp only [known]
  split
  · exact h
  · trivial

theorem tdname_does (s : RState) (n : Id) :
    Does (Res.typedefName (.name .typedefName n)) s (specTy true (scope s) (.tdname n)) [] := by
  simp only [specTy]
  have hn : (scope s).names n = match Res.lookup n s.syms with
    | none => none
    | some (.int l) => some (.const l)
    | some (.obj (.tdef t)) => some (.type t)
    | some (.obj t) => some (.obj t) := rfl
  split
  case h_2 => trivial
  case h_1 t ht =>
    have hl : Res.lookup n s.syms = some (.obj (.tdef t)) := by
      rw [hn] at ht
      cases h : Res.lookup n s.syms with
      | none => simp [h] at ht
      | some x =>
        cases x with
        | int l => simp [h] at ht
        | obj u => cases u <;> simp_all
    cases t with
    | void => trivial
    | tdef => trivial
    | ustruct ms b a =>
      simp only [typedefTy]
      split
      · trivial
      · exact Does.pure (by simp_all [Res.typedefName, DType.isIncomplete])
    | nstruct m b a =>
      simp only [typedefTy]
      split
      · rename_i hb
        subst hb
        rw [refresh_nstruct, spec_lookup]
        cases h : Res.lookup m s.tags with
        | none => exact Does.pure (by simp [Res.typedefName, DType.isIncomplete, hl, h])
        | some u =>
          cases u with
          | ustruct ms b a => exact Does.pure (by simp [Res.typedefName, DType.isIncomplete, hl, h])
          | _ => trivial
      · exact known_does (by simp_all [Res.typedefName, DType.isIncomplete])
    | _ => exact known_does (by simp [Res.typedefName, DType.isIncomplete, hl])

theorem codes_eq (l : List Spec) : Res.codes (l.map Spec.ast) = (l.map kind).map fun k => (toSpec k).code := by
  induction l with
  | nil => rfl
  | cons x l ih => simp only [Res.codes, List.map_cons, List.map_map] at ih ⊢; rw [code_ast]; congr 1

theorem specL_does (k : AstT) (l : List Spec) (s : RState) : Does (full.spec (.node k (l.map Spec.ast))) s (specsTy true (scope s) l) [] := by
  rw [full_spec]
  cases l with
  | nil => exact Does.fail rfl
  | cons x l =>
    cases l with
    | nil =>
      simp only [specsTy]
      have : ∀ (c : Nat), Specifiers.sortAll [c] = .ok [c] := fun _ => rfl
      simp only [Res.spec, Res.node_children, codes_eq, List.map_cons, List.map_nil, List.length_cons, List.length_nil, this]
      rw [if_neg (by decide)]
      cases x with
      | tdname n => exact tdname_does s n
      | structRef n => exact structRef_does s n
      | enumRef n => exact enumRef_does s n
      | structDef => trivial
      | enumDef => trivial
      | _ => rfl
    | cons y l =>
      have h := keywords_resolve ((x :: y :: l).map kind) (by simp)
      have hv : specsTy true (scope s) (x :: y :: l) = match keywords ((x :: y :: l).map kind) with
        | some t => .ok t
        | none => .bad := rfl
      rw [hv]
      simp only [Res.spec, Res.node_children, codes_eq]
      simp only [Specifiers.resolve] at h
      simp only [List.length_map] at h ⊢
      split
      · rename_i hn
        rw [if_pos hn] at h
        cases hk : keywords ((x :: y :: l).map kind) with
        | none => exact Does.fail rfl
        | some t => rw [hk] at h; simp at h
      · rename_i hn
        rw [if_neg hn] at h
        simp only [List.map_map] at h ⊢
        have e : Specifiers.Spec.code ∘ toSpec ∘ kind = (fun k => (toSpec k).code) ∘ kind := rfl
        rw [e] at h
        cases hb : Specifiers.sortAll ((x :: y :: l).map ((fun k => (toSpec k).code) ∘ kind)) with
        | ok b =>
          rw [hb] at h
          have ht : Specifiers.table b = (keywords ((x :: y :: l).map kind)).map .type := by simpa using h
          have hm : (do
              let sorted ← Res.lift (.ok b)
              match Specifiers.table sorted with
              | none => Res.fail
              | some (.type t) => pure t
              | some .structChild => do let c ← Res.kid (.node k ((x :: y :: l).map Spec.ast)) 0; Res.structSpec full c
              | some .enumChild => do let c ← Res.kid (.node k ((x :: y :: l).map Spec.ast)) 0; Res.enumSpec full c
              | some .typedefChild => do let c ← Res.kid (.node k ((x :: y :: l).map Spec.ast)) 0; Res.typedefName c : RM DType) s =
            .ok (keywords ((x :: y :: l).map kind), s) := by
            rw [Res.bind_some (s' := s) (a := b) rfl, ht]
            cases keywords ((x :: y :: l).map kind) <;> rfl
          cases hk : keywords ((x :: y :: l).map kind) with
          | none => rw [hk] at hm; exact Does.fail hm
          | some t => rw [hk] at hm; exact hm
        | _ => rw [hb] at h; simp at h

theorem spec_does (k : AstT) (ss : Specs) (s : RState) : Does (full.spec (.node k ss.asts)) s (specsTy true (scope s) (specList ss)) [] := by
  rw [specs_asts]; exact specL_does k (specList ss) s

end StatL
end Umlcc
