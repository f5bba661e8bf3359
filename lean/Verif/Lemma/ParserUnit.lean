import Verif.Lemma.ParserStmt
/-!
The whole parser, and where it stops.
-/
namespace Umlcc
namespace Parser
open M

/-- recursion depth that `parse_translation_unit` needs at most (see C18) -/
def enough (toks : List Tok) : Nat := 27 * toks.length + 27

/-- `parser_create_ast`, parser.c:16-18, after `new_parser`: the whole parser -/
def run (toks : List Tok) : PR Ast := parse (enough toks) (.unit []) (start toks)

theorem unit_at_eof (f : Nat) (acc : List Ast) (s : PS) (a : Ast) (s' : PS) (h : parse f (.unit acc) s = .ok a s') :
    ∃ ts, s'.toks = .eof :: ts := by
  induction f generalizing acc s with
  | zero => simp [parse] at h
  | succ f ih =>
    change pUnit (parse f) acc s = _ at h
    unfold pUnit at h
    rw [run_bind] at h
    cases h1 : mayFuncDef (parse f) s <;> simp only [h1, PR.bind] at h <;> try contradiction
    rename_i b s1
    have key : ∀ (m : M Ast), (do
        let a ← m
        let c ← peek
        if c = Tok.eof then pure (Ast.node AstT.trasUnit (acc ++ [a])) else parse f (NT.unit (acc ++ [a]))) s1 = PR.ok a s' →
        ∃ ts, s'.toks = .eof :: ts := by
      intro m h
      rw [run_bind] at h
      cases h2 : m s1 <;> simp only [h2, PR.bind] at h <;> try contradiction
      rename_i a2 s2
      rw [run_bind] at h
      cases hs : s2.toks with
      | nil => simp [peek, hs, PR.bind] at h
      | cons t ts =>
        simp only [peek, hs, PR.bind, run_ite] at h
        split at h
        · rename_i ht
          subst ht
          simp only [run_pure, PR.ok.injEq] at h
          rw [← h.2, hs]
          exact ⟨ts, rfl⟩
        · exact ih _ _ h
    rw [run_ite] at h
    split at h <;> exact key _ h

end Parser
end Umlcc
