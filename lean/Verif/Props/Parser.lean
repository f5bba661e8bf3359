import Verif.Lemma.ParserUnit
import Verif.Lemma.ParserComma
/-!
C15, C17, C18: the parser.
-/
namespace Umlcc
namespace Parser
open M Syn

/-- C18. On a token list with one end-of-file token, at the end, every parser function that is called at any depth reads existing tokens only and the
recursion ends: the parser returns a tree, and then it has read everything up to the end-of-file token, or an error. It neither reads beyond the tokens
(`ub`), nor reaches an "unreachable statement" (`fatal`), nor recurses without end (`hang`). -/
theorem C18_parser_stays_inside (toks : List Tok) (h : Eof toks) :
    (∃ a s, run toks = .ok a s ∧ s.toks = [.eof]) ∨ (∃ s, run toks = .err s ∧ Eof s.toks) := by
  have k := sound_parse (enough toks) (.unit []) (start toks) trivial h (by simp [depth, enough, start, rank])
  unfold wp at k
  unfold run
  cases hr : parse (enough toks) (.unit []) (start toks) with
  | ok a s =>
    rw [hr] at k
    obtain ⟨ts, hts⟩ := unit_at_eof _ _ _ _ _ hr
    left
    refine ⟨a, s, rfl, ?_⟩
    obtain ⟨pre, h1, h2⟩ := k.1
    rw [hts] at h1
    cases pre with
    | nil => rw [hts]; simpa using h1
    | cons p pre => simp at h1; exact absurd (h1.1 ▸ List.mem_cons_self) h2
  | err s => rw [hr] at k; exact .inr ⟨s, rfl, k.1⟩
  | fatal => rw [hr] at k; exact k.elim
  | ub => rw [hr] at k; exact k.elim
  | hang => rw [hr] at k; exact k.elim

/-- and a larger recursion depth changes nothing -/
theorem C18_depth_irrelevant (toks : List Tok) (h : Eof toks) (f : Nat) (hf : enough toks ≤ f) : parse f (.unit []) (start toks) = run toks := by
  refine parse_mono hf _ _ (fun hh => ?_)
  rcases C18_parser_stays_inside toks h with ⟨a, s, h1, -⟩ | ⟨s, h1, -⟩ <;> (unfold run at h1; rw [h1] at hh; contradiction)

/-- `int x ( ; <eof>`: an error, without reading past the end -/
example : Eof [.kw .kint, .ident [120], .punct .lparen, .punct .semicolon, .eof] :=
  ⟨[.kw .kint, .ident [120], .punct .lparen, .punct .semicolon], rfl, by decide⟩

/-- C15. Printing an expression with parentheses only where the grammar needs them, and parsing: the same tree, and exactly the printed tokens
are consumed. The expression may be followed by anything that does not continue it (`Stops 0`). Casts and `sizeof` with type names, with all their
declarators, struct and enum specifiers, are included. The typedef names in scope are `c.tds`: identifiers in expressions are not typedef names. -/
theorem C15_expression_round_trip (e : Expr) (c : Ctx) (h : e.ok c.tds) (t : Tok) (ht : Stops 0 t) (rest : List Tok) (hr : Eof (e.toks ++ t :: rest)) :
    parse (enough (e.toks ++ t :: rest)) .assign (st c (e.toks ++ t :: rest)) = .ok e.ast (st c (t :: rest)) := by
  refine P.at ((g_expr c.tds e h).assign rfl ht) (fun hh => ?_)
  have k := sound_parse (enough (e.toks ++ t :: rest)) .assign (st c (e.toks ++ t :: rest)) trivial hr (by simp [depth, enough, st, rank])
  unfold wp at k
  rw [hh] at k
  exact k

/-- different trees have different spellings: parentheses are never missing -/
theorem C15_spelling_unambiguous (e e' : Expr) (h : e.ok []) (h' : e'.ok []) (hn : Tok.eof ∉ e.toks) (heq : e.toks = e'.toks) : e.ast = e'.ast := by
  let c : Ctx := ⟨[], false, 0⟩
  have hE : Eof (e.toks ++ Tok.punct .semicolon :: [Tok.eof]) := ⟨e.toks ++ [.punct .semicolon], by simp, by simp [hn]⟩
  have h1 := C15_expression_round_trip e c h (.punct .semicolon) (stops_semicolon 0) [.eof] hE
  rw [heq] at hE h1
  have h2 := C15_expression_round_trip e' c h' (.punct .semicolon) (stops_semicolon 0) [.eof] hE
  rw [h1] at h2
  simpa using h2

/-- `(a - b) - c` and `a - (b - c)`, `(int *)x . y [ 1 ]`, `a = b ? c : d = e` -/
def sampleE : Expr :=
  .assign .asg (.un .indir (.cast (.mk (.one .int) (.ptr .leaf)) (.subsc (.member (.ident [120]) [121]) (.int ⟨.int, 1⟩))))
    (.bin .sub (.bin .sub (.ident [97]) (.ident [98])) (.bin .sub (.bin .mul (.ident [99]) (.int ⟨.int, 2⟩)) (.cond (.ident [97]) (.ident [98]) (.ident [99]))))

example : sampleE.ok [[84]] := by simp [sampleE, Expr.ok, TyName.ok, Specs.ok, Spec.ok, Dtor.ok, Dtor.absOk]
example : sampleE.toks =
  [.punct .asterisk, .punct .lparen, .kw .kint, .punct .asterisk, .punct .rparen, .ident [120], .punct .dot, .ident [121], .punct .lbracket,
    .int ⟨.int, 1⟩, .punct .rbracket, .punct .equal, .ident [97], .punct .minus, .ident [98], .punct .minus, .punct .lparen, .ident [99],
    .punct .asterisk, .int ⟨.int, 2⟩, .punct .minus, .punct .lparen, .ident [97], .punct .question, .ident [98], .punct .colon, .ident [99],
    .punct .rparen, .punct .rparen] := rfl
example : Stops 0 (.punct .semicolon) := stops_semicolon 0

/-- C17. Every translation unit: printing it in C syntax and parsing gives the same tree and reads everything. An `else` belongs to the nearest `if`:
`Stmt.ok` excludes only trees with an open `if` before an `else`, which no C text denotes. Names: see `Decl.ok`; a typedef name is in scope up to the end of
its block, and the name of a declaration is not a typedef name in scope. -/
theorem C17_unit_round_trip (xs : List Ext) (hne : xs ≠ []) (h : unitOk [] xs) (hn : Tok.eof ∉ xs.flatMap Ext.toks) :
    ∃ s, run (unitToks xs) = .ok (unitAst xs) s ∧ s.toks = [.eof] := by
  have hp := g_unit xs ⟨[], false, 0⟩ [] hne h
  have hE : Eof (unitToks xs) := ⟨xs.flatMap Ext.toks, rfl, hn⟩
  refine ⟨_, P.at hp (fun hh => ?_), rfl⟩
  rcases C18_parser_stays_inside _ hE with ⟨a, s, h1, -⟩ | ⟨s, h1, -⟩
  · have : run (unitToks xs) = .hang := hh
    rw [h1] at this; contradiction
  · have : run (unitToks xs) = .hang := hh
    rw [h1] at this; contradiction

/-- statements on their own: followed by anything, but not by `else` after an open `if` -/
theorem C17_statement_round_trip (s : Stmt) (c : Ctx) (h : s.ok c.tds) (t : Tok) (ht : s.openIf = true → t ≠ .kw .kelse) (rest : List Tok)
    (hr : Eof (s.toks ++ t :: rest)) :
    parse (enough (s.toks ++ t :: rest)) .stmt (st c (s.toks ++ t :: rest)) = .ok s.ast (st c (t :: rest)) := by
  refine P.at (g_stmt s h ht rest) (fun hh => ?_)
  have k := sound_parse (enough (s.toks ++ t :: rest)) .stmt (st c (s.toks ++ t :: rest)) trivial hr (by simp [depth, enough, st, rank])
  unfold wp at k
  rw [hh] at k
  exact k

/-- `else` after an open `if`: it is the inner one that gets it -/
theorem C17_else_binds_to_nearest (a b : Expr) (s t : Stmt) (c : Ctx) (ha : a.ok c.tds) (hb : b.ok c.tds) (hs : s.ok c.tds) (ht : t.ok c.tds)
    (ho : s.openIf = false) (u : Tok) (rest : List Tok) (hu : u ≠ .kw .kelse)
    (hr : Eof ((Stmt.ifS a (.ifS b s)).toks ++ .kw .kelse :: (t.toks ++ u :: rest))) :
    parse (enough ((Stmt.ifS a (.ifS b s)).toks ++ .kw .kelse :: (t.toks ++ u :: rest))) .stmt (st c ((Stmt.ifS a (.ifS b s)).toks ++ .kw .kelse :: (t.toks ++ u :: rest))) =
      .ok (.node .ifStmt [a.ast, .node .ifStmt [b.ast, s.ast, t.ast]]) (st c (u :: rest)) := by
  have e : (Stmt.ifS a (.ifS b s)).toks ++ .kw .kelse :: (t.toks ++ u :: rest) = (Stmt.ifS a (.ifElse b s t)).toks ++ u :: rest := by
    simp [Stmt.toks]
  rw [e] at hr ⊢
  have := C17_statement_round_trip (.ifS a (.ifElse b s t)) c (by simp only [Stmt.ok]; exact ⟨ha, hb, hs, ht, ho⟩) u (fun _ => hu) rest hr
  simpa [Stmt.ast] using this

/-- a comma after the last enumerator changes nothing (6.7.2.2) -/
theorem C17_enum_comma (n : Option Id) (es : Enums) (c : Ctx) (h : es.ok c.tds) (t : Tok) (ht : t ≠ .punct .lbrace) (rest : List Tok)
    (hr : Eof ((.kw .kenum :: (optTok n ++ .punct .lbrace :: (es.toks ++ [.punct .comma] ++ [.punct .rbrace]))) ++ t :: rest)) :
    parse (enough ((.kw .kenum :: (optTok n ++ .punct .lbrace :: (es.toks ++ [.punct .comma] ++ [.punct .rbrace]))) ++ t :: rest)) .typeSpec
      (st c ((.kw .kenum :: (optTok n ++ .punct .lbrace :: (es.toks ++ [.punct .comma] ++ [.punct .rbrace]))) ++ t :: rest)) =
      .ok (Spec.enumDef n es).ast (st c (t :: rest)) := by
  generalize hX : (Tok.kw .kenum :: (optTok n ++ .punct .lbrace :: (es.toks ++ [.punct .comma] ++ [.punct .rbrace]))) ++ t :: rest = X at hr ⊢
  have hg := (gs_enumDef n (g_enums_comma c.tds es h)).2 c t rest rfl ht
  rw [hX] at hg
  rw [show (Spec.enumDef n es).ast = .node .typeEnum (optName .enumName n ++ [.node .enumorList es.asts]) from by simp [Spec.ast]]
  refine P.at hg (fun hh => ?_)
  have k := sound_parse (enough X) .typeSpec (st c X) (by rw [← hX]; simp [Pre, st, isTypeSpec]) hr (by simp [depth, enough, st, rank])
  unfold wp at k
  rw [hh] at k
  exact k

/-- a comma after the last initialiser changes nothing (6.7.9) -/
theorem C17_init_comma (is : Inits) (c : Ctx) (h : is.ok c.tds) (t : Tok) (ht : Stops 0 t) (rest : List Tok)
    (hr : Eof ((.punct .lbrace :: (is.toks ++ [.punct .comma] ++ [.punct .rbrace])) ++ t :: rest)) :
    parse (enough ((.punct .lbrace :: (is.toks ++ [.punct .comma] ++ [.punct .rbrace])) ++ t :: rest)) .init
      (st c ((.punct .lbrace :: (is.toks ++ [.punct .comma] ++ [.punct .rbrace])) ++ t :: rest)) =
      .ok (Init.list is).ast (st c (t :: rest)) := by
  generalize hX : (Tok.punct .lbrace :: (is.toks ++ [.punct .comma] ++ [.punct .rbrace])) ++ t :: rest = X at hr ⊢
  have hg := (gi_list (g_inits_comma c.tds is h)).2 c t rest rfl ht
  rw [hX] at hg
  rw [show (Init.list is).ast = .node .initList is.asts from by simp [Init.ast]]
  refine P.at hg (fun hh => ?_)
  have k := sound_parse (enough X) .init (st c X) trivial hr (by simp [depth, enough, st, rank])
  unfold wp at k
  rw [hh] at k
  exact k

/-- `enum e { A, B = 2, } x`, `{ { 1, }, 2 }`, the second with the inner comma -/
example : (Enums.cons [65] (.oneV [66] (.int ⟨.int, 2⟩))).ok [] ∧
    Eof ((.kw .kenum :: (optTok (some [101]) ++ .punct .lbrace ::
      ((Enums.cons [65] (.oneV [66] (.int ⟨.int, 2⟩))).toks ++ [.punct .comma] ++ [.punct .rbrace]))) ++ .ident [120] :: [.eof]) :=
  ⟨by simp [Enums.ok, Expr.ok], [.kw .kenum, .ident [101], .punct .lbrace, .ident [65], .punct .comma, .ident [66], .punct .equal, .int ⟨.int, 2⟩,
    .punct .comma, .punct .rbrace, .ident [120]], rfl, by decide⟩
example : (Inits.cons (.list (.one (.expr (.int ⟨.int, 1⟩)))) (.one (.expr (.int ⟨.int, 2⟩)))).ok [] := by
  simp [Inits.ok, Init.ok, Expr.ok]

/-- `typedef int T; int f(int a, T *b) { if (a) while (a) return a; else ; { typedef char U; U c; } for (;;) break; }` -/
def sampleU : List Ext :=
  [.decl ⟨[.td, .ty .int], [⟨[84], .leaf, none⟩]⟩,
   .func (.one .int) [102] (.fn .leaf (.cons (.mk (.one .int) (some [97]) .leaf) (.one (.mk (.one (.tdname [84])) (some [98]) (.ptr .leaf)))))
    (.stmt (.ifElse (.ident [97]) (.while (.ident [97]) (.retE (.ident [97]))) .null)
      (.stmt (.block (.decl ⟨[.td, .ty .char], [⟨[85], .leaf, none⟩]⟩ (.decl ⟨[.ty (.tdname [85])], [⟨[99], .leaf, none⟩]⟩ .nil)))
        (.stmt (.forE none none none .break) .nil)))]

example : unitOk [] sampleU := by
  simp [sampleU, unitOk, Ext.ok, Ext.after, Decl.ok, Decl.after, Decl.isTd, DSpec.ok, DSpec.isTd, Spec.ok, Specs.ok, idsOk, IDtor.ok, tdsAfter, Dtor.ok, ParamL.ok, ParamD.ok,
    Items.ok, Stmt.ok, Expr.ok, Stmt.openIf, optOk]
example : Tok.eof ∉ sampleU.flatMap Ext.toks := by decide +kernel

end Parser
end Umlcc
