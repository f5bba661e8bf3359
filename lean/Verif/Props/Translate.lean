import Verif.Lemma.RunsStmt
import Verif.Model.Main
/-!
C62: which resolved programs the generator of intermediate code translates.
-/
namespace Umlcc
namespace Gen

/-- the typed tree of a source text: the stages before the generator -/
def resolved (n : Nat) (src : List UInt8) : Out (Option (List SExt)) := do
  let toks ← Lexer.tokenize src
  let a ← Main.ofParser (Parser.parse n (.unit []) (Parser.start toks))
  Res.resolve n a

/-- C62 in full: every source text the resolver accepts is translated. -/
def C62_full : Prop := ∀ n src u, resolved n src = .ok (some u) → ∃ code, generate u = .ok code

/-- C62, exactly the trees that are translated: each name is declared before it is used (`declared`), each member exists, initialisers have enough elements, static
initialisers are integer literals, values are used only where they exist, and casts stand only where their value is used. `Tr.fitsUnit` says this on the tree.
Missing for C62: that trees the resolver accepts are of this form, which does not hold (`C62_cast_statement_violated` and the others below). -/
theorem C62_translatable_partial (u : List SExt) : (∃ code, generate u = .ok code) ↔ Tr.fitsUnit (fun id => (stringName id).1) Tr.nothing u = true := by
  obtain ⟨h1, h2⟩ := unit_runs (u := u) initial_fine
  unfold generate
  constructor
  · rintro ⟨code, h⟩
    cases hf : Tr.fitsUnit (fun id => (stringName id).1) Tr.nothing u with
    | true => rfl
    | false =>
      split at h <;> cases h
      next hu => exact absurd hu (h2 hf _)
  · intro hf
    obtain ⟨_, c, _, h, -⟩ := h1 hf
    rw [h]
    exact ⟨c, rfl⟩

/-- C62 of source texts: accepted texts whose trees fit are translated -/
theorem C62_source_partial (n : Nat) (src : List UInt8) (u : List SExt) (_ : resolved n src = .ok (some u))
    (hf : Tr.fitsUnit (fun id => (stringName id).1) Tr.nothing u = true) : ∃ code, generate u = .ok code := (C62_translatable_partial u).2 hf

def text (s : String) : List UInt8 := s.toList.map fun c => c.toNat.toUInt8

/-- the text is accepted and its tree fits -/
def fitsText (n : Nat) (src : List UInt8) : Bool :=
  match resolved n src with
  | .ok (some u) => Tr.fitsUnit (fun id => (stringName id).1) Tr.nothing u
  | _ => false

theorem fitsText_ok {n : Nat} {src : List UInt8} (h : fitsText n src = true) :
    ∃ u, resolved n src = .ok (some u) ∧ Tr.fitsUnit (fun id => (stringName id).1) Tr.nothing u = true := by
  unfold fitsText at h
  split at h
  · exact ⟨_, by assumption, h⟩
  · cases h

/-- static data of a struct type, arrays, control statements, members through pointers -/
example : ∀ p ∈ ["struct S{int a;}g={1};", "int f(int n){int a[2]={1,2};return a[0];}", "int f(int n){while(n)switch(n){case 1:break;default:n--;}return n;}",
    "struct S{int a;};int f(struct S*p){return p->a;}"], ∃ u, resolved 80 (text p) = .ok (some u) ∧ Tr.fitsUnit (fun id => (stringName id).1) Tr.nothing u = true := by
  intro p hp
  simp only [List.mem_cons, List.not_mem_nil, or_false] at hp
  rcases hp with rfl | rfl | rfl | rfl <;> exact fitsText_ok (by decide +kernel)

/-- the text is accepted and the generator ends in the `unreachable` exit (`true`) or reads through NULL (`false`) -/
def faults (n : Nat) (src : List UInt8) : Option Bool :=
  match resolved n src with
  | .ok (some u) => match generate u with
    | .fatal => some true
    | .ub => some false
    | _ => none
  | _ => none

theorem faults_fatal {n : Nat} {src : List UInt8} (h : faults n src = some true) : ∃ u, resolved n src = .ok (some u) ∧ generate u = .fatal := by
  unfold faults at h
  split at h
  · refine ⟨_, by assumption, ?_⟩
    split at h <;> first | assumption | cases h
  · cases h

theorem faults_ub {n : Nat} {src : List UInt8} (h : faults n src = some false) : ∃ u, resolved n src = .ok (some u) ∧ generate u = .ub := by
  unfold faults at h
  split at h
  · refine ⟨_, by assumption, ?_⟩
    split at h <;> first | assumption | cases h
  · cases h

/-- C62 fails: a cast as a statement ends in the `unreachable` exit. -/
theorem C62_cast_statement_violated : ∃ u, resolved 60 (text "int f(int x){(void)x;return 0;}") = .ok (some u) ∧ generate u = .fatal :=
  faults_fatal (by decide +kernel)

/-- C62 fails: so does `*` of a cast. -/
theorem C62_cast_dereferenced_violated : ∃ u, resolved 60 (text "int f(int*p){return *(char*)p;}") = .ok (some u) ∧ generate u = .fatal :=
  faults_fatal (by decide +kernel)

/-- C62 fails: so does a member of the struct that a call returns. -/
theorem C62_member_of_call_violated : ∃ u, resolved 60 (text "struct S{int a;};struct S f(void);int g(void){return f().a;}") = .ok (some u) ∧ generate u = .fatal :=
  faults_fatal (by decide +kernel)

/-- C62 fails: a static object initialised with `-1` makes the generator read through NULL. -/
theorem C62_negative_static_violated : ∃ u, resolved 60 (text "int x=-1;") = .ok (some u) ∧ generate u = .ub := faults_ub (by decide +kernel)

/-- C62 fails: so do addresses, here of a string. -/
theorem C62_static_pointer_violated : ∃ u, resolved 60 (text "char*s=\"a\";") = .ok (some u) ∧ generate u = .ub := faults_ub (by decide +kernel)

theorem C62_violated : ¬ C62_full := by
  intro h
  obtain ⟨u, h1, h2⟩ := C62_negative_static_violated
  obtain ⟨code, h3⟩ := h _ _ u h1
  rw [h2] at h3
  cases h3

end Gen
end Umlcc
