import Verif.Model.Map
import Verif.Model.Immc
/-!
Model of `src/lexer/*.c`, `src/ctoken/ctoken.h`, `src/freader/freader.c` and `create_iliteral`.

The lexer's `content` and `content_index` are modelled by the list of bytes not yet consumed. `content_size` is
`strlen(content)`, so the list contains no NUL (`fileContent`). Reading past the end gives `EOF` and stays there,
as in the code (`content_index` beyond `content_size` is compared with `>=`).
Simplifications: `malloc` succeeds; sizes do not overflow `int`; the growing buffers (`length`, `capacity`) are lists
(`length + 1 < capacity` holds whenever they are written).
-/
namespace Umlcc

/-- keyword token types, ctoken.h:8-28 -/
inductive KW where
  | kbreak | kcase | kchar | kcontinue | kdefault | kelse | kenum | kfor | kif | kint | klong | kreturn | ksizeof
  | kstruct | kswitch | ktypedef | kunsigned | kvoid | kwhile
  deriving DecidableEq, Repr

/-- punctuator token types, ctoken.h:38-83 -/
inductive Pct where
  | lbracket | rbracket | lparen | rparen | lbrace | rbrace | dot | arrow | plusPlus | minusMinus
  | and | asterisk | plus | minus | tilde | exclam | slash | percent
  | lessLess | greaterGreater | less | greater | lessEqual | greaterEqual | equalEqual | exclamEqual
  | caret | vbar | andAnd | vbarVbar | question | colon | semicolon | equal
  | asteriskEqual | slashEqual | percentEqual | plusEqual | minusEqual | lessLessEqual | greaterGreaterEqual
  | andEqual | caretEqual | vbarEqual | comma
  deriving DecidableEq, Repr

/-- `CToken`, ctoken.h:87-92. A string literal is its bytes including the terminating NUL. -/
inductive Tok where
  | kw (k : KW)
  | ident (name : List UInt8)
  | int (lit : ILit)
  | char (lit : ILit)
  | str (bytes : List UInt8)
  | punct (p : Pct)
  | eof
  deriving DecidableEq

namespace Lexer

/-- `freader_read`, freader.c:11-31, followed by `new_lexer`, lexer.c:8-22: an empty file is an error; the content seen
by the lexer ends at the first NUL (`strlen`). -/
def fileContent (bytes : List UInt8) : Out (List UInt8) :=
  if bytes = [] then .err else .ok (bytes.takeWhile (· ≠ 0))

/-- `get_content_top`, util.c:203-208: `EOF` (-1) at the end, else the (signed) character -/
def top : List UInt8 → Int
  | [] => -1
  | b :: _ => charVal b

/-- members of `new_nondigit_set`, util.c:36-47; the 54th character of the array is its terminating NUL -/
def nondigits : List Int := ("_abcdefghijklmnopqrstuvwxyzABCDEFGHIJKLMNOPQRSTUVWXYZ".toList.map (fun c => (c.toNat : Int))) ++ [0]

/-- members of `new_white_space_set`, util.c:182-193, including the terminating NUL -/
def whiteSpaces : List Int := [0x20, 0x09, 0x0A, 0x0B, 0x0C, 0]

/-- entries of `new_octdigit_map`, util.c:49-60 -/
def octdigits : List (Int × Int) := (List.range 8).map (fun (i : Nat) => ((0x30 + i : Int), (i : Int)))

/-- entries of `new_digit_map`, util.c:62-73 -/
def digits : List (Int × Int) := (List.range 10).map (fun (i : Nat) => ((0x30 + i : Int), (i : Int)))

/-- entries of `new_hexdigit_map`, util.c:75-95 -/
def hexdigits : List (Int × Int) :=
  digits ++ ((List.range 6).map (fun (i : Nat) => [((0x61 + i : Int), (i + 10 : Int)), ((0x41 + i : Int), (i + 10 : Int))])).flatten

/-- `set_contains(nondigit_set, &c)`. That the hash set of set.c answers this is `nondigit_set_contains` (Lemma/LexTables). -/
def isNondigit (c : Int) : Bool := decide (c ∈ nondigits)
/-- `set_contains(white_space_set, &c)` -/
def isSpace (c : Int) : Bool := decide (c ∈ whiteSpaces)
/-- `map_get(octdigit_map, &c)` -/
def octVal (c : Int) : Option Int := octdigits.lookup c
/-- `map_get(digit_map, &c)` -/
def digVal (c : Int) : Option Int := digits.lookup c
/-- `map_get(hexdigit_map, &c)` -/
def hexVal (c : Int) : Option Int := hexdigits.lookup c

/-- bytes of an ASCII string constant of the source -/
def lit (s : String) : List UInt8 := s.toList.map (fun c => UInt8.ofNat c.toNat)

/-- `new_keyword_map`, util.c:10-34, in the order of the `ctoken_map_add` calls -/
def keywords : List (List UInt8 × KW) := [
  (lit "break", .kbreak), (lit "case", .kcase), (lit "char", .kchar), (lit "continue", .kcontinue),
  (lit "default", .kdefault), (lit "else", .kelse), (lit "enum", .kenum), (lit "for", .kfor), (lit "if", .kif),
  (lit "int", .kint), (lit "long", .klong), (lit "return", .kreturn), (lit "sizeof", .ksizeof),
  (lit "struct", .kstruct), (lit "switch", .kswitch), (lit "typedef", .ktypedef), (lit "unsigned", .kunsigned),
  (lit "void", .kvoid), (lit "while", .kwhile)]

/-- `new_integer_suffix_map`, util.c:97-128 -/
def suffixes : List (List UInt8 × ILType) := [
  (lit "l", .long), (lit "L", .long), (lit "ll", .llong), (lit "LL", .llong), (lit "u", .uint), (lit "U", .uint),
  (lit "ul", .ulong), (lit "Ul", .ulong), (lit "uL", .ulong), (lit "UL", .ulong),
  (lit "lu", .ulong), (lit "Lu", .ulong), (lit "lU", .ulong), (lit "LU", .ulong),
  (lit "ull", .ullong), (lit "Ull", .ullong), (lit "uLL", .ullong), (lit "ULL", .ullong),
  (lit "llu", .ullong), (lit "LLu", .ullong), (lit "llU", .ullong), (lit "LLU", .ullong)]

/-- `new_punctuator_map`, util.c:130-180 -/
def punctuators : List (List UInt8 × Pct) := [
  (lit "[", .lbracket), (lit "]", .rbracket), (lit "(", .lparen), (lit ")", .rparen), (lit "{", .lbrace),
  (lit "}", .rbrace), (lit ".", .dot), (lit "->", .arrow), (lit "++", .plusPlus), (lit "--", .minusMinus),
  (lit "&", .and), (lit "*", .asterisk), (lit "+", .plus), (lit "-", .minus), (lit "~", .tilde), (lit "!", .exclam),
  (lit "/", .slash), (lit "%", .percent), (lit "<", .less), (lit ">", .greater), (lit "<<", .lessLess),
  (lit ">>", .greaterGreater), (lit "<=", .lessEqual), (lit ">=", .greaterEqual), (lit "==", .equalEqual),
  (lit "!=", .exclamEqual), (lit "^", .caret), (lit "|", .vbar), (lit "&&", .andAnd), (lit "||", .vbarVbar),
  (lit "?", .question), (lit ":", .colon), (lit ";", .semicolon), (lit "=", .equal), (lit "*=", .asteriskEqual),
  (lit "/=", .slashEqual), (lit "%=", .percentEqual), (lit "+=", .plusEqual), (lit "-=", .minusEqual),
  (lit "<<=", .lessLessEqual), (lit ">>=", .greaterGreaterEqual), (lit "&=", .andEqual), (lit "^=", .caretEqual),
  (lit "|=", .vbarEqual), (lit ",", .comma)]

/-- the hash map built by adding the entries of a table in order (`integer_suffix_map_add`, `ctoken_map_add`, util.c:220-232) -/
def build (tbl : List (List UInt8 × V)) : HMap (List UInt8) V :=
  match HMap.run hashString HMap.new (tbl.map fun e => MOp.add e.1 e.2) with
  | .ok m => m
  | _ => HMap.new

/-- `map_get` of a string in such a map. For strings with a non-negative hash this is a table lookup (that map.c
really returns it is `tableGet_eq`, Lemma/LexTables); for others it is whatever map.c does, which is usually an
out-of-bounds read. -/
def tableGet (tbl : List (List UInt8 × V)) (s : List UInt8) : Out (Option V) :=
  if 0 ≤ hashString s then .ok (tbl.lookup s) else HMap.get hashString (build tbl) s

/-- `skip_white_spaces`, util.c:195-201 -/
def skipSpaces : List UInt8 → List UInt8
  | [] => []
  | b :: s => if isSpace (charVal b) then skipSpaces s else b :: s

/-- the loops `while (1) { c = top; if (!p(c)) break; index++; push c }` (reader.c:21-34, 276-289). `EOF` satisfies none
of the tests used. -/
def span (p : Int → Bool) : List UInt8 → List UInt8 × List UInt8
  | [] => ([], [])
  | b :: s => if p (charVal b) then ((b :: (span p s).1), (span p s).2) else ([], b :: s)

/-- loop condition of read_keyword_or_identifier, reader.c:23 -/
def isWordChar (c : Int) : Bool := isNondigit c || (digVal c).isSome

/-- `read_keyword_or_identifier`, reader.c:11-47; called with a non-digit on top -/
def readWord : List UInt8 → Out (Tok × List UInt8)
  | [] => .ub
  | b :: s => do
    let w := b :: (span isWordChar s).1
    let k ← tableGet keywords w
    match k with
    | some k => .ok (.kw k, (span isWordChar s).2)
    | none => .ok (.ident w, (span isWordChar s).2)

/-- `read_integer_constant_digits`, reader.c:260-294 -/
def readDigits (dig : Int → Option Int) (s : List UInt8) : Out (List UInt8 × List UInt8) :=
  if (dig (top s)).isSome then .ok (span (fun c => (dig c).isSome) s) else .err

/-- the (at most `n`) characters pushed into the small buffers of read_punctuator and read_integer_suffix
(reader.c:215-235, 303-324): stops at `EOF`, which a byte 0xFF also looks like -/
def buffer : Nat → List UInt8 → List UInt8
  | 0, _ => []
  | _, [] => []
  | n + 1, b :: s => if charVal b = -1 then [] else b :: buffer n s

/-- the shortening loops of read_punctuator and read_integer_suffix (reader.c:237-248, 326-337): the first of
`buf` cut to lengths `n, n-1, …, 1` that is in the table -/
def longest (tbl : List (List UInt8 × V)) (buf : List UInt8) : Nat → Out (Option (V × Nat))
  | 0 => .ok none
  | n + 1 => do
    let r ← tableGet tbl (buf.take (n + 1))
    match r with
    | some v => .ok (some (v, n + 1))
    | none => longest tbl buf n

/-- `read_integer_suffix`, reader.c:296-343 -/
def readSuffix (s : List UInt8) : Out (ILType × List UInt8) := do
  let buf := buffer 3 s
  let r ← longest suffixes buf buf.length
  match r with
  | some (t, n) => .ok (t, s.drop n)
  | none => .ok (.int, s)

/-- value of a string of digits as `strtoll`/`strtoull` read it -/
def digitsVal (base : Int) (dig : Int → Option Int) (ds : List UInt8) : Int :=
  ds.foldl (fun v b => v * base + (dig (charVal b)).getD 0) 0

/-- `create_iliteral`, util.c:210-218: `strtoull` and `strtoll` return the largest value on overflow -/
def createILit (value : Int) (t : ILType) : ILit :=
  if t.isUnsigned then ⟨t, min value 18446744073709551615⟩ else ⟨t, min value 9223372036854775807⟩

/-- the common end of the three branches of read_integer_constant -/
def intConstant (base : Int) (dig : Int → Option Int) (s : List UInt8) : Out (Tok × List UInt8) := do
  let (ds, rest) ← readDigits dig s
  let (t, rest) ← readSuffix rest
  .ok (.int (createILit (digitsVal base dig ds) t), rest)

/-- the test for a hexadecimal prefix, reader.c:62 -/
def hexPrefix : List UInt8 → Bool
  | a :: b :: _ => a == 0x30 && (b == 0x78 || b == 0x58)
  | _ => false

/-- `read_integer_constant`, reader.c:49-103 -/
def readInteger (s : List UInt8) : Out (Tok × List UInt8) :=
  if hexPrefix s then intConstant 16 hexVal (s.drop 2)
  else if top s = 0x30 then intConstant 8 octVal s
  else intConstant 10 digVal s

/-- loop of read_hexadecimal_escape_seqence, reader.c:389-407; `int` overflow is undefined -/
def hexLoop (v : Int) : List UInt8 → Out (Int × List UInt8)
  | [] => .ok (v, [])
  | b :: s =>
    match hexVal (charVal b) with
    | none => .ok (v, b :: s)
    | some d => if v * 16 + d > 2147483647 then .ub else hexLoop (v * 16 + d) s

/-- loop of read_octal_escape_seqence, reader.c:367-387, at most `n` more digits -/
def octLoop (v : Int) : Nat → List UInt8 → Int × List UInt8
  | 0, s => (v, s)
  | _, [] => (v, [])
  | n + 1, b :: s =>
    match octVal (charVal b) with
    | none => (v, b :: s)
    | some d => octLoop (v * 8 + d) n s

/-- `read_simple_escape_seqence`, reader.c:409-442 -/
def simpleEscape : List UInt8 → Out (Int × List UInt8)
  | [] => .err
  | b :: s =>
    match b with
    | 0x27 => .ok (0x27, s)
    | 0x22 => .ok (0x22, s)
    | 0x3F => .ok (0x3F, s)
    | 0x5C => .ok (0x5C, s)
    | 0x61 => .ok (7, s)
    | 0x62 => .ok (8, s)
    | 0x66 => .ok (12, s)
    | 0x6E => .ok (10, s)
    | 0x72 => .ok (13, s)
    | 0x74 => .ok (9, s)
    | 0x76 => .ok (11, s)
    | _ => .err

/-- `read_escape_seqence`, reader.c:345-365 (called after the backslash) -/
def readEscape (s : List UInt8) : Out (Int × List UInt8) :=
  if top s = 0x78 ∧ (hexVal (top s.tail)).isSome then hexLoop 0 s.tail
  else if (octVal (top s)).isSome then .ok (octLoop 0 3 s)
  else simpleEscape s

/-- one character or escape of a literal, reader.c:112-126, 128-145, 166-182 (`fuel` of the callers counts these);
at the end of the input it is `EOF`, which no literal rejects: the caller's loop never ends -/
def literalItem : List UInt8 → Out (Int × List UInt8)
  | [] => .hang
  | b :: s =>
    if b = 0x5C then readEscape s
    else if b = 0x0A then .err
    else .ok (charVal b, s)

/-- loop of read_character_constant after the first character, reader.c:128-145 -/
def charRest : Nat → List UInt8 → Out (List UInt8)
  | 0, _ => .hang
  | fuel + 1, s =>
    if top s = 0x27 then .ok s.tail
    else do
      let (_, s) ← literalItem s
      charRest fuel s

/-- `read_character_constant`, reader.c:105-153 (`s` starts after the opening quote) -/
def readChar (s : List UInt8) : Out (Tok × List UInt8) :=
  if top s = 0x27 then .err
  else do
    let (c, s) ← literalItem s
    let s ← charRest (s.length + 1) s
    .ok (.char ⟨.int, c⟩, s)

/-- loop of read_string_literal, reader.c:165-192; stored characters are truncated to a byte -/
def strLoop : Nat → List UInt8 → Out (List UInt8 × List UInt8)
  | 0, _ => .hang
  | fuel + 1, s =>
    if top s = 0x22 then .ok ([], s.tail)
    else do
      let (c, s) ← literalItem s
      let (cs, s) ← strLoop fuel s
      .ok (UInt8.ofInt c :: cs, s)

/-- `read_string_literal`, reader.c:155-204 (`s` starts after the opening quote) -/
def readString (s : List UInt8) : Out (Tok × List UInt8) := do
  let (cs, s) ← strLoop (s.length + 1) s
  .ok (.str (cs ++ [0]), s)

/-- `read_punctuator`, reader.c:206-258 -/
def readPunct (s : List UInt8) : Out (Tok × List UInt8) := do
  if top s = -1 then .ok (.eof, s)
  else
    let buf := buffer 3 s
    let r ← longest punctuators buf buf.length
    match r with
    | some (p, n) => .ok (.punct p, s.drop n)
    | none => .err

/-- body of the loop of lexer_read_ctokens, lexer.c:31-49 -/
def readTok (s : List UInt8) : Out (Tok × List UInt8) :=
  if isNondigit (top s) then readWord s
  else if (digVal (top s)).isSome then readInteger s
  else if top s = 0x27 then readChar s.tail
  else if top s = 0x22 then readString s.tail
  else readPunct s

/-- loop of lexer_read_ctokens, lexer.c:31-59; every iteration but the last consumes a character, so `fuel` larger than
the length of the input never runs out -/
def lexLoop : Nat → List UInt8 → Out (List Tok)
  | 0, _ => .hang
  | fuel + 1, s => do
    let (t, s) ← readTok s
    if t = .eof then .ok [.eof]
    else do
      let ts ← lexLoop fuel (skipSpaces s)
      .ok (t :: ts)

/-- `lexer_read_ctokens`, lexer.c:24-63 -/
def lex (content : List UInt8) : Out (List Tok) := lexLoop (content.length + 1) (skipSpaces content)

/-- `freader_read`, `new_lexer`, `lexer_read_ctokens` as main.c:38-62 calls them -/
def tokenize (bytes : List UInt8) : Out (List Tok) := do
  let content ← fileContent bytes
  lex content

end Lexer
end Umlcc
