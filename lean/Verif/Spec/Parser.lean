import Verif.Model.Parser
/-!
Vocabulary for the statements about the parser.
-/
namespace Umlcc

/-- token lists as the lexer makes them: one end-of-file token, at the end -/
def Eof (ts : List Tok) : Prop := ∃ pre, ts = pre ++ [.eof] ∧ Tok.eof ∉ pre

end Umlcc
