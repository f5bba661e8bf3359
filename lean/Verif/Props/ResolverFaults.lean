import Verif.Props.Init
/-!
C60, C61: programs on which the resolver fails.
-/
namespace Umlcc
namespace Res
open Syn

/-- `enum E { A }; struct E x;` -/
def enumAsStruct : List Ext := [.decl ⟨[.ty (.enumDef (some [69]) (.one [65]))], []⟩, .decl ⟨[.ty (.structRef [69])], [⟨[120], .leaf, none⟩]⟩]
/-- `typedef struct { void x; } T; T y;` -/
def brokenTypedef : List Ext := [.decl ⟨[.td, .ty (.structDef none (.one (.mk (.one .void) (.one [120] .leaf))))], [⟨[84], .leaf, none⟩]⟩,
  .decl ⟨[.ty (.tdname [84])], [⟨[121], .leaf, none⟩]⟩]
/-- `typedef void V; V *p;` -/
def voidTypedef : List Ext := [.decl ⟨[.td, .ty .void], [⟨[86], .leaf, none⟩]⟩, .decl ⟨[.ty (.tdname [86])], [⟨[112], .ptr .leaf, none⟩]⟩]
/-- `struct S { int a; }; void f(void) { struct T { struct S s; }; struct S { struct T t; }; struct S v = {1}; }` -/
def endlessStruct : List Ext := [
  .decl ⟨[.ty (.structDef (some [83]) (.one (.mk (.one .int) (.one [97] .leaf))))], []⟩,
  .func (.one .void) [102] (.fn .leaf (.one (.mk (.one .void) none .leaf)))
    (.decl ⟨[.ty (.structDef (some [84]) (.one (.mk (.one (.structRef [83])) (.one [115] .leaf))))], []⟩
    (.decl ⟨[.ty (.structDef (some [83]) (.one (.mk (.one (.structRef [84])) (.one [116] .leaf))))], []⟩
    (.decl ⟨[.ty (.structRef [83])], [⟨[118], .leaf, some (.list (.one (num 1)))⟩]⟩ .nil)))]

/-- the parser accepts the text and the resolver ends like that on the tree it returns -/
def Ends (u : List Ext) (o : Out (Option (List SExt))) : Prop := ∃ a s, Parser.run (unitToks u) = .ok a s ∧ Resolves a o

theorem ends_of {u : List Ext} {o : Out (Option (List SExt))} (h : Resolves (unitAst u) o) (hu : u ≠ []) (hok : unitOk [] u) (he : Tok.eof ∉ u.flatMap Ext.toks) : Ends u o := by
  obtain ⟨s, h1, -⟩ := Parser.C17_unit_round_trip u hu hok he
  exact ⟨_, s, h1, h⟩

/-- C60 fails: a tag of an enumeration used as a tag of a struct makes the compiler dereference NULL -/
theorem C60_enum_tag_violated : Ends enumAsStruct .ub :=
  ends_of (resolves_fuel 10 rfl (by simp)) (by simp [enumAsStruct])
    (by simp [enumAsStruct, unitOk, Ext.ok, Decl.ok, idsOk, DSpec.ok, Spec.ok, Enums.ok, IDtor.ok, Dtor.ok, Ext.after, Decl.after, tdsAfter, Decl.isTd, DSpec.isTd]) (by decide)
/-- C60 fails: after a refused typedef the parser knows the name but the resolver does not; it dereferences NULL at the next use -/
theorem C60_refused_typedef_violated : Ends brokenTypedef .ub :=
  ends_of (resolves_fuel 10 rfl (by simp)) (by simp [brokenTypedef])
    (by simp [brokenTypedef, unitOk, Ext.ok, Decl.ok, idsOk, DSpec.ok, Spec.ok, Specs.ok, MemberL.ok, MemberD.ok, NDtors.ok, IDtor.ok, Dtor.ok, Ext.after, Decl.after, tdsAfter, Decl.isTd, DSpec.isTd]) (by decide)
/-- C60 fails: a name for `void` makes the compiler stop with an internal error -/
theorem C60_void_typedef_violated : Ends voidTypedef .fatal :=
  ends_of (resolves_fuel 10 rfl (by simp)) (by simp [voidTypedef])
    (by simp [voidTypedef, unitOk, Ext.ok, Decl.ok, idsOk, DSpec.ok, Spec.ok, IDtor.ok, Dtor.ok, Ext.after, Decl.after, tdsAfter, Decl.isTd, DSpec.isTd]) (by decide)

/-! ### a struct that contains itself -/

/-- an initialiser list with one number -/
def oneNum (a : Ast) : Bool := a.type = .initList && (match a.children with | [c] => decide (c.type = .intExpr) | _ => false)

/-- the tag of the struct leads back to it -/
def cyclic (s : RState) : Bool :=
  (match lookup [83] s.tags with | some (.ustruct (.cons _ (.nstruct n _ _) _ _) _ _) => decide (n = [84]) | _ => false) &&
  (match lookup [84] s.tags with | some (.ustruct (.cons _ (.nstruct n _ _) _ _) _ _) => decide (n = [83]) | _ => false) && decide (s.initOff = 0)

theorem bind_hang {m : RM α} {f : α → RM β} {s : RState} (h : m s = .hang) : (m >>= f) s = .hang := by rw [bind_run, h]
theorem attempt_hang {m : RM α} {s : RState} (h : m s = .hang) : attempt m s = .hang := by rw [attempt, h]

theorem cyclic_look {s : RState} (hs : cyclic s = true) {t : Str} (ht : t = [83] ∨ t = [84]) :
    ∃ m b k ms p q w t', lookup t s.tags = some (.ustruct (.cons m (.nstruct t' b k) p ms) q w) ∧ (t' = [83] ∨ t' = [84]) := by
  simp only [cyclic, Bool.and_eq_true] at hs
  obtain ⟨⟨h1, h2⟩, -⟩ := hs
  rcases ht with rfl | rfl
  · split at h1
    · exact ⟨_, _, _, _, _, _, _, _, by assumption, .inr (by simpa using h1)⟩
    · simp at h1
  · split at h2
    · exact ⟨_, _, _, _, _, _, _, _, by assumption, .inl (by simpa using h2)⟩
    · simp at h2

theorem cyclic_init (n : Nat) : ∀ (t : Str) (x y : Nat) (a : Ast) (s : RState), (t = [83] ∨ t = [84]) → oneNum a = true → cyclic s = true →
    (resolver n).init true (.nstruct t x y) a s = .hang := by
  induction n with
  | zero => intros; rfl
  | succ n ih =>
    intro t x y a s ht ha hs
    obtain ⟨m, b, k, ms, p, q, w, t', hl, ht'⟩ := cyclic_look hs ht
    have hc : complete (.nstruct t x y) s = .ok (some (.ustruct (.cons m (.nstruct t' b k) p ms) q w), s) := by
      simp only [complete, get_bind, hl]
      rfl
    have e : (resolver (n + 1)).init true (.nstruct t x y) a s = (complete (.nstruct t x y) >>= fun t => aggregateInit (resolver n) true t a) s := rfl
    have hi := ih t' b k a s ht' ha hs
    have ho : s.initOff = 0 := by
      simp only [cyclic, Bool.and_eq_true, decide_eq_true_eq] at hs
      exact hs.2
    simp only [oneNum, Bool.and_eq_true, decide_eq_true_eq] at ha
    obtain ⟨ha, hch⟩ := ha
    split at hch
    · rename_i c hcs
      have hct : c.type = .intExpr := by simpa using hch
      have hk : kid a 0 = pure c := by simp [kid, hcs]
      have he : elemInits (resolver n) a (.nstruct t' b k :: elems.types ms) s = .hang := by
        have c1 : s.initOff < (a.children.length : Int) := by rw [ho, hcs]; simp
        rw [elemInits]
        simp only [get_bind]
        rw [if_pos c1, ho, if_neg (by omega), Int.toNat_zero, hk, pure_bind]
        refine bind_hang ?_
        rw [elemInit, if_pos (by simp [isAggregate, hct])]
        exact attempt_hang hi
      rw [e, bind_some hc, aggregateInit, ha]
      simp only [decide_true, require_true, pure_bind, elems, elems.types]
      exact bind_hang (attempt_hang he)
    · simp at hch

/-- `full` with the calls known not to return marked -/
noncomputable def marked : Rec := { full with init := fun b t a s =>
  match b, t with
  | true, .nstruct n x y => if (decide (n = [83]) || decide (n = [84])) && oneNum a && cyclic s then .hang else full.init true (.nstruct n x y) a s
  | b, t => full.init b t a s }

theorem marked_eq : marked = full := by
  have : marked.init = full.init := by
    funext b t a s
    simp only [marked]
    split
    · rename_i n x y
      split
      · rename_i h
        simp only [Bool.and_eq_true, Bool.or_eq_true, decide_eq_true_eq] at h
        obtain ⟨N, -, h2⟩ := tends_full.init true (.nstruct n x y) a s
        rw [← h2 N (by omega)]
        exact (cyclic_init N n x y a s h.1.1 h.1.2 h.2).symm
      · rfl
    · rfl
  have e : marked = ⟨full.expr, full.spec, full.declor, marked.init, full.zero, full.stmt⟩ := rfl
  rw [e, this]

theorem full_step : full = step full := by
  have h : ∀ R R' : Rec, R.expr = R'.expr → R.spec = R'.spec → R.declor = R'.declor → R.init = R'.init → R.zero = R'.zero → R.stmt = R'.stmt → R = R' := by
    rintro ⟨⟩ ⟨⟩ h1 h2 h3 h4 h5 h6
    simp_all
  exact h _ _ (funext full_expr) (funext full_spec) (by funext t ws a; exact full_declor t ws a) (by funext b t a; exact full_init b t a) (funext full_zero)
    (by funext b t a; exact full_stmt b t a)

/-- `k` levels -/
def levels : Nat → Rec → Rec
  | 0, R => R
  | k + 1, R => step (levels k R)

theorem full_levels (k : Nat) : full = levels k marked := by
  induction k with
  | zero => exact marked_eq.symm
  | succ k ih => rw [levels, ← ih, ← full_step]

/-- C60 fails: a struct whose tag is redefined in an inner scope can contain itself; the compiler does not come to an end initialising it -/
theorem C60_cyclic_struct_violated : Ends endlessStruct .hang := by
  refine ends_of ?_ (by simp [endlessStruct]) ?_ (by decide)
  · obtain ⟨N, -, h2⟩ := resolve_tends (unitAst endlessStruct)
    refine ⟨N, fun n hn => ?_⟩
    rw [h2 n hn]
    have : transUnit full (unitAst endlessStruct) initial = .hang := by
      rw [full_levels 10]
      rfl
    rw [this]
    rfl
  · simp [endlessStruct, num, unitOk, Ext.ok, Decl.ok, idsOk, DSpec.ok, Spec.ok, Specs.ok, MemberL.ok, MemberD.ok, NDtors.ok, IDtor.ok, Dtor.ok, Ext.after, Decl.after, tdsAfter, Decl.isTd, DSpec.isTd,
      ParamL.ok, ParamD.ok, Items.ok, Init.ok, Inits.ok, Expr.ok, Dtor.absOk]

/-! ### array sizes -/

/-- `int a[4294967297];` -/
def hugeArray : List Ext := [.decl ⟨[.ty .int], [⟨[97], .arr .leaf (.int ⟨.long, 4294967297⟩), none⟩]⟩]

/-- C61 fails: the size is checked to be positive and then cut to 32 bits, so `int a[4294967297];` declares one `int` -/
theorem C61_size_truncated_violated : Ends hugeArray (.ok (some [.decls [⟨.ident [97], .arr .int 1, none⟩]])) :=
  ends_of (resolves_fuel 10 rfl (by simp)) (by simp [hugeArray])
    (by simp [hugeArray, unitOk, Ext.ok, Decl.ok, idsOk, DSpec.ok, Spec.ok, Expr.ok, IDtor.ok, Dtor.ok, Decl.isTd, DSpec.isTd, tdsAfter]) (by decide)

/-- `typedef int F(void); F a[2];` -/
def functionArray : List Ext := [.decl ⟨[.td, .ty .int], [⟨[70], .fn .leaf (.one (.mk (.one .void) none .leaf)), none⟩]⟩,
  .decl ⟨[.ty (.tdname [70])], [⟨[97], .arr .leaf (.int ⟨.int, 2⟩), none⟩]⟩]

/-- C61 fails: through a typedef an array of functions is accepted (C11 6.7.6.2p1 forbids it) -/
theorem C61_array_of_functions_violated :
    Ends functionArray (.ok (some [.decls [⟨.ident [70], .tdef (.func .nil .int), none⟩], .decls [⟨.ident [97], .arr (.func .nil .int) 2, none⟩]])) :=
  ends_of (resolves_fuel 10 rfl (by simp)) (by simp [functionArray])
    (by simp [functionArray, unitOk, Ext.ok, Decl.ok, idsOk, DSpec.ok, Spec.ok, Specs.ok, Expr.ok, IDtor.ok, Dtor.ok, Decl.isTd, DSpec.isTd, tdsAfter, Ext.after, Decl.after, ParamL.ok, ParamD.ok, Dtor.absOk]) (by decide)

end Res
end Umlcc
