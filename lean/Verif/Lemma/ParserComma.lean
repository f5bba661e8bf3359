import Verif.Lemma.ParserStmt
/-! Lists between braces with a comma at the end (helper lemmas). -/
namespace Umlcc
namespace Parser
open Syn

variable {tds : List Id} {X : List Tok} {a : Ast}

theorem ges_comma (h : GE tds X a) : GEs tds (X ++ [.punct .comma]) [a] := fun c acc Y hc => by
  simp only [List.append_assoc, List.cons_append, List.nil_append]
  exact P.intro1 (h c (.punct .comma) (.punct .rbrace :: Y) hc (.inl rfl)) (fun r k => by
    simp [body, pEnumors, run_bind, k, bind_ok, run_peek, run_consume, run_pure])

theorem g_enums_comma (tds : List Id) : (es : Enums) → es.ok tds → GEs tds (es.toks ++ [.punct .comma]) es.asts
  | .one n, _ => ges_comma (ge_plain n)
  | .oneV n e, h => by
    simp only [Enums.ok] at h
    obtain ⟨q, hq, k⟩ := g_wrap 1 (by omega) (g_expr tds e h)
    exact ges_comma (ge_value n hq k)
  | .cons n es, h => by
    simp only [Enums.ok] at h
    obtain ⟨t, tl, e, ht⟩ := es_ne_rbrace es
    have := ges_cons (ge_plain n) (g_enums_comma tds es h) ⟨t, tl ++ [.punct .comma], by rw [e]; rfl, ht⟩
    simpa [Enums.toks, Enums.asts] using this
  | .consV n e es, h => by
    simp only [Enums.ok] at h
    obtain ⟨q, hq, k⟩ := g_wrap 1 (by omega) (g_expr tds e h.1)
    obtain ⟨t, tl, e', ht⟩ := es_ne_rbrace es
    have := ges_cons (ge_value n hq k) (g_enums_comma tds es h.2) ⟨t, tl ++ [.punct .comma], by rw [e']; rfl, ht⟩
    simpa [Enums.toks, Enums.asts] using this

theorem gis_comma (h : GI tds X a) : GIs tds (X ++ [.punct .comma]) [a] := by
  refine ⟨?_, fun c acc Y hc => ?_⟩
  · obtain ⟨⟨t, tl, rfl, ht⟩, -⟩ := h
    exact ⟨t, _, rfl, ht⟩
  · simp only [List.append_assoc, List.cons_append, List.nil_append]
    exact P.intro1 (h.2 c (.punct .comma) (.punct .rbrace :: Y) hc (stops_comma 0)) (fun r k => by
      simp [body, pInitList, run_bind, k, bind_ok, run_peek, run_consume, run_pure])

theorem g_inits_comma (tds : List Id) : (is : Inits) → is.ok tds → GIs tds (is.toks ++ [.punct .comma]) is.asts
  | .one i, h => by simp only [Inits.ok] at h; exact gis_comma (g_init tds i h)
  | .cons i is, h => by
    simp only [Inits.ok] at h
    have := gis_cons (g_init tds i h.1) (g_inits_comma tds is h.2)
    simpa [Inits.toks, Inits.asts] using this

end Parser
end Umlcc
