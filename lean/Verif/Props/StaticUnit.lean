import Verif.Lemma.StaticStmt
import Verif.Lemma.StaticUnitMono
import Verif.Props.ResolverFaults
/-!
C67: the front end accepts exactly the translation units that C allows and gives the typed trees of C.

* `Stat.unit false` is C (`Spec/StaticUnit.lean`): scopes, declarations, struct and enum definitions with layout, initialisers, statements, functions.
* `Stat.unit true` is the same with the cases in which the compiler is known to differ left out. The theorem covers all the others: any number
  of declarations and functions, any nesting. Witnesses of the cases left out follow.
-/
namespace Umlcc
namespace Stat
open Syn StatL
open Res (Ends ends_of)

/-- parser and resolver do with the text of the unit what C says -/
def UnitConforms (xs : List Ext) : Prop :=
  match unit false xs with
  | .ok u => Ends xs (.ok (some u))
  | .bad => ∀ u, ¬ Ends xs (.ok (some u))
  | .out => True

/-- C67, what is claimed of the code -/
def C67_full : Prop := ∀ xs, xs ≠ [] → unitOk [] xs → Tok.eof ∉ xs.flatMap Ext.toks → UnitConforms xs

/-- C67 holds wherever the compiler is not known to differ -/
theorem C67_units_partial (xs : List Ext) (hne : xs ≠ []) (hok : unitOk [] xs) (he : Tok.eof ∉ xs.flatMap Ext.toks) (h : unit true xs ≠ .out) : UnitConforms xs := by
  obtain ⟨s, hp, -⟩ := Parser.C17_unit_round_trip xs hne hok he
  have hl : unit true xs = unit false xs := (unit_le xs).resolve_left h
  unfold UnitConforms
  cases hv : unit false xs with
  | out => trivial
  | ok u =>
    obtain ⟨s', hr⟩ := unit_ok (hl.trans hv)
    exact ⟨_, s, hp, Res.resolves_of_full hr⟩
  | bad =>
    rintro u ⟨a, s', hp', hr⟩
    rw [hp] at hp'
    cases hp'
    exact not_resolves (unit_bad (hl.trans hv)) hr

/-! ### units that are covered -/

def I : Specs := .one .int
def noParams : ParamL := .one (.mk (.one .void) none .leaf)
def num (n : Int) : Expr := .int ⟨.int, n⟩
def decl1 (ss : List DSpec) (n : Id) (d : Dtor) (i : Option Init) : Decl := ⟨ss, [⟨n, d, i⟩]⟩
/-- `struct P { char c; int m[2]; }; enum { A, B = 5, C }; typedef int (*F)(int, char); int g[3] = { 1, C }; int puts(char *);`
```
int h(struct P *p, int n) {
  int r = n;
  for (int i = 0; i < n; i++) {
    if (p->c == 97) continue;
    switch (r) { case A: r = r + 1; break; case 9: { F k; r = k(p->m[1], p->c); } default: puts("no"); }
  }
  while (r > B) --r;
  return r * g[1];
}
``` -/
def program : List Ext := [
  .decl ⟨[.ty (.structDef (some [80]) (.cons (.mk (.one .char) (.one [99] .leaf)) (.one (.mk I (.one [109] (.arr .leaf (num 2)))))))], []⟩,
  .decl ⟨[.ty (.enumDef none (.cons [65] (.consV [66] (num 5) (.one [67]))))], []⟩,
  .decl (decl1 [.td, .ty .int] [70] (.fn (.ptr .leaf) (.cons (.mk I none .leaf) (.one (.mk (.one .char) none .leaf)))) none),
  .decl (decl1 [.ty .int] [103] (.arr .leaf (num 3)) (some (.list (.cons (.expr (num 1)) (.one (.expr (.ident [67]))))))),
  .decl (decl1 [.ty .int] [112, 117, 116, 115] (.fn .leaf (.one (.mk (.one .char) none (.ptr .leaf)))) none),
  .func I [104] (.fn .leaf (.cons (.mk (.one (.structRef [80])) (some [112]) (.ptr .leaf)) (.one (.mk I (some [110]) .leaf))))
    (.decl (decl1 [.ty .int] [114] .leaf (some (.expr (.ident [110]))))
    (.stmt (.forD (decl1 [.ty .int] [105] .leaf (some (.expr (num 0)))) (some (.bin .lt (.ident [105]) (.ident [110]))) (some (.postinc (.ident [105])))
      (.block (.stmt (.ifS (.bin .eq (.arrow (.ident [112]) [99]) (num 97)) .continue)
        (.stmt (.switch (.ident [114]) (.block
          (.stmt (.case (.ident [65]) (.expr (.assign .asg (.ident [114]) (.bin .add (.ident [114]) (num 1)))))
          (.stmt .break
          (.stmt (.case (num 9) (.block (.decl (decl1 [.ty (.tdname [70])] [107] .leaf none)
            (.stmt (.expr (.assign .asg (.ident [114]) (.call (.ident [107]) (.cons (.subsc (.arrow (.ident [112]) [109]) (num 1)) (.cons (.arrow (.ident [112]) [99]) .nil))))) .nil))))
          (.stmt (.default (.expr (.call (.ident [112, 117, 116, 115]) (.cons (.str [110, 111, 0]) .nil)))) .nil)))))) .nil))))
    (.stmt (.while (.bin .gt (.ident [114]) (.ident [66])) (.expr (.predec (.ident [114]))))
    (.stmt (.retE (.bin .mul (.ident [114]) (.subsc (.ident [103]) (num 1)))) .nil))))]

deriving instance DecidableEq for V

def ok? : V α → Bool
  | .ok _ => true
  | _ => false
def bad? : V α → Bool
  | .bad => true
  | _ => false

theorem ok_of {xs : List Ext} (hne : xs ≠ []) (hok : unitOk [] xs) (he : Tok.eof ∉ xs.flatMap Ext.toks) (h : ok? (unit true xs) = true) : ∃ u, unit false xs = .ok u ∧ Ends xs (.ok (some u)) := by
  have hl := unit_le xs
  cases hv : unit true xs with
  | ok u =>
    have h2 : unit false xs = .ok u := by
      rcases hl with hl | hl
      · rw [hv] at hl; cases hl
      · rw [← hl, hv]
    have := C67_units_partial xs hne hok he (by rw [hv]; simp)
    unfold UnitConforms at this
    rw [h2] at this
    exact ⟨u, h2, this⟩
  | _ => rw [hv] at h; cases h

/-- the whole program above is accepted with the tree of C -/
example : ∃ u, unit false program = .ok u ∧ Ends program (.ok (some u)) :=
  ok_of (by simp [program])
    (by simp [program, decl1, num, I, unitOk, Ext.ok, Decl.ok, idsOk, DSpec.ok, Spec.ok, Specs.ok, MemberL.ok, MemberD.ok, NDtors.ok, Enums.ok, IDtor.ok, Dtor.ok, ParamL.ok, ParamD.ok, Expr.ok,
      Args.ok, Init.ok, Inits.ok, Items.ok, Stmt.ok, optOk, Ext.after, Decl.after, tdsAfter, Decl.isTd, DSpec.isTd, Stmt.openIf, Dtor.absOk])
    (by decide +kernel) (by decide +kernel)

def voidF (is : Items) : List Ext := [.func (.one .void) [102] (.fn .leaf noParams) is]
def intF (is : Items) : List Ext := [.func I [102] (.fn .leaf noParams) is]
/-- `int f(char c) { switch (c) { case 1: return c; } return 0; }` with its typed tree -/
example : unit true [.func I [102] (.fn .leaf (.one (.mk (.one .char) (some [99]) .leaf)))
      (.stmt (.switch (.ident [99]) (.block (.stmt (.case (num 1) (.retE (.ident [99]))) .nil))) (.stmt (.retE (num 0)) .nil))] =
    .ok [.func [102] (.func (.cons (some [99]) .char .nil) .int) (.cons (.stmt (.switch (.un .cast .int (.ident .char [99]))
      (.cmpd (.cons (.stmt (.case (.ilit .int ⟨.int, 1⟩) (.ret (some (.un .cast .int (.ident .char [99])))))) .nil))))
      (.cons (.stmt (.ret (some (.ilit .int ⟨.int, 0⟩)))) .nil))] := by decide +kernel
/-- `struct S { char c; int m[2]; } a[2] = {{1}, 2, 3};` with layout, braces and zeros -/
example : unit true [.decl ⟨[.ty (.structDef (some [83]) (.cons (.mk (.one .char) (.one [99] .leaf)) (.one (.mk I (.one [109] (.arr .leaf (num 2)))))))],
      [⟨[97], .arr .leaf (num 2), some (.list (.cons (.list (.one (.expr (num 1)))) (.cons (.expr (num 2)) (.one (.expr (num 3))))))⟩]⟩] =
    .ok [.tag [83] (.ustruct (.cons [99] .char 0 (.cons [109] (.arr .int 2) 4 .nil)) 12 4),
      .decls [⟨.ident [97], .arr (.nstruct [83] 12 4) 2, some (.list
        (.cons (.list (.cons (.expr (.un .cast .char (.ilit .int ⟨.int, 1⟩)))
          (.cons (.list (.cons (.expr (.ilit .int ⟨.int, 0⟩)) (.cons (.expr (.ilit .int ⟨.int, 0⟩)) .nil))) .nil)))
        (.cons (.list (.cons (.expr (.un .cast .char (.ilit .int ⟨.int, 2⟩)))
          (.cons (.list (.cons (.expr (.ilit .int ⟨.int, 3⟩)) (.cons (.expr (.ilit .int ⟨.int, 0⟩)) .nil))) .nil))) .nil)))⟩]] := by decide +kernel
/-- refused: `break;` and `case 1:;` outside, `return;` from `int`, `return 1;` from `void`, an unnamed parameter, an unknown name, two equal labels, `int x; int x;` in a
block, `int x; char x;`, two members or enumerators with one name, a member of type `void`, `void v;`, too many initialisers, a struct as condition -/
example : [intF (.stmt .break .nil), intF (.stmt (.case (num 1) .null) .nil), intF (.stmt .ret .nil), voidF (.stmt (.retE (num 1)) .nil),
    [.func I [102] (.fn .leaf (.one (.mk I none .leaf))) .nil], intF (.stmt (.retE (.ident [121])) .nil),
    intF (.stmt (.switch (num 1) (.case (num 1) (.case (num 1) .null))) .nil), intF (.decl (decl1 [.ty .int] [120] .leaf none) (.decl (decl1 [.ty .int] [120] .leaf none) .nil)),
    [.decl (decl1 [.ty .int] [120] .leaf none), .decl (decl1 [.ty .char] [120] .leaf none)],
    [.decl ⟨[.ty (.structDef none (.cons (.mk I (.one [97] .leaf)) (.one (.mk I (.one [97] .leaf)))))], []⟩], [.decl ⟨[.ty (.enumDef none (.cons [65] (.one [65])))], []⟩],
    [.decl ⟨[.ty (.structDef none (.one (.mk (.one .void) (.one [97] .leaf))))], []⟩], [.decl (decl1 [.ty .void] [118] .leaf none)],
    [.decl (decl1 [.ty .int] [97] (.arr .leaf (num 1)) (some (.list (.cons (.expr (num 1)) (.one (.expr (num 2)))))))],
    .decl (decl1 [.ty (.structDef none (.one (.mk I (.one [97] .leaf))))] [115] .leaf none) :: voidF (.stmt (.while (.ident [115]) .null) .nil)].all (fun u => bad? (unit true u)) = true := by
  decide +kernel

/-! ### where the code differs from C -/

/-- C says `v`, the front end answers `o` -/
def UnitDiffers (xs : List Ext) (v : V (List SExt)) (o : Option (List SExt)) : Prop := unit false xs = v ∧ Ends xs (.ok o)

macro "unit_ok" : tactic => `(tactic| simp [decl1, num, I, noParams, unitOk, Ext.ok, Decl.ok, idsOk, DSpec.ok, Spec.ok, Specs.ok, IDtor.ok, Dtor.ok, ParamL.ok, ParamD.ok, Expr.ok,
      Items.ok, Stmt.ok, optOk, Ext.after, Decl.after, tdsAfter, Decl.isTd, DSpec.isTd, Dtor.absOk])

theorem unit_differs {xs : List Ext} {v : V (List SExt)} {o : Option (List SExt)} (n : Nat) (hne : xs ≠ []) (hok : unitOk [] xs) (he : Tok.eof ∉ xs.flatMap Ext.toks) (hv : unit false xs = v)
    (h : Res.resolve n (unitAst xs) = .ok o) : UnitDiffers xs v o := ⟨hv, ends_of (Res.resolves_fuel n h (by simp)) hne hok he⟩

/-- `int f(int); int f(int a) { return a; }`: a declared function cannot be defined -/
theorem C67_prototype_violated : UnitDiffers [.decl (decl1 [.ty .int] [102] (.fn .leaf (.one (.mk I none .leaf))) none),
      .func I [102] (.fn .leaf (.one (.mk I (some [97]) .leaf))) (.stmt (.retE (.ident [97])) .nil)]
    (.ok [.decls [⟨.ident [102], .func (.cons none .int .nil) .int, none⟩],
      .func [102] (.func (.cons (some [97]) .int .nil) .int) (.cons (.stmt (.ret (some (.ident .int [97])))) .nil)]) none :=
  unit_differs 10 (by simp) (by unit_ok) (by decide) (by decide +kernel) rfl
/-- `int x; int x;`: nothing can be declared twice -/
theorem C67_tentative_violated : UnitDiffers [.decl (decl1 [.ty .int] [120] .leaf none), .decl (decl1 [.ty .int] [120] .leaf none)]
    (.ok [.decls [⟨.ident [120], .int, none⟩], .decls [⟨.ident [120], .int, none⟩]]) none :=
  unit_differs 10 (by simp) (by unit_ok) (by decide) (by decide +kernel) rfl
/-- `typedef void F(int);` is refused -/
theorem C67_void_function_name_violated : UnitDiffers [.decl (decl1 [.td, .ty .void] [70] (.fn .leaf (.one (.mk I none .leaf))) none)]
    (.ok [.decls [⟨.ident [70], .tdef (.func (.cons none .int .nil) .void), none⟩]]) none :=
  unit_differs 10 (by simp) (by unit_ok) (by decide) (by decide +kernel) rfl
/-- `typedef typedef int T;` is accepted -/
theorem C67_storage_class_violated : UnitDiffers [.decl (decl1 [.td, .td, .ty .int] [84] .leaf none)] .bad (some [.decls [⟨.ident [84], .tdef .int, none⟩]]) :=
  unit_differs 10 (by simp) (by unit_ok) (by decide) (by decide +kernel) rfl
/-- `int;` is accepted -/
theorem C67_empty_declaration_violated : UnitDiffers [.decl ⟨[.ty .int], []⟩] .bad (some [.decls []]) :=
  unit_differs 10 (by simp) (by unit_ok) (by decide) (by decide +kernel) rfl
/-- `typedef int F(void); F f { return 0; }` is accepted -/
theorem C67_typedef_function_violated : UnitDiffers [.decl (decl1 [.td, .ty .int] [70] (.fn .leaf noParams) none),
      .func (.one (.tdname [70])) [102] .leaf (.stmt (.retE (num 0)) .nil)] .bad
    (some [.decls [⟨.ident [70], .tdef (.func .nil .int), none⟩], .func [102] (.func .nil .int) (.cons (.stmt (.ret (some (.ilit .int ⟨.int, 0⟩)))) .nil)]) :=
  unit_differs 10 (by simp) (by unit_ok) (by decide) (by decide +kernel) rfl

/-- C67 does not hold in full -/
theorem C67_violated : ¬ C67_full := by
  intro h
  have h1 := h _ (by simp) (by unit_ok) (by decide : Tok.eof ∉ List.flatMap Ext.toks [.decl ⟨[.ty .int], []⟩])
  exact h1 _ C67_empty_declaration_violated.2

end Stat
end Umlcc
