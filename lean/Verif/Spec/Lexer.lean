import Verif.Model.Lexer
/-! The lexical grammar of the language, as C11 6.4 gives it, independent of the lexer: what tokens look like. -/
namespace Umlcc
namespace LSpec

def isLetter (b : UInt8) : Bool := b == 0x5F || (0x61 ≤ b && b ≤ 0x7A) || (0x41 ≤ b && b ≤ 0x5A)
def isDigit (b : UInt8) : Bool := 0x30 ≤ b && b ≤ 0x39
def isOct (b : UInt8) : Bool := 0x30 ≤ b && b ≤ 0x37
def isHex (b : UInt8) : Bool := isDigit b || (0x61 ≤ b && b ≤ 0x66) || (0x41 ≤ b && b ≤ 0x46)
/-- white space: blank, tab, newline, vertical tab, form feed -/
def isSpace (b : UInt8) : Bool := b == 0x20 || (0x09 ≤ b && b ≤ 0x0C)
def isWord (b : UInt8) : Bool := isLetter b || isDigit b

/-- the ASCII bytes of a string -/
def ascii (s : String) : List UInt8 := s.toList.map (fun c => UInt8.ofNat c.toNat)

/-- spelling of the keywords -/
def kwText : KW → List UInt8
  | .kbreak => ascii "break" | .kcase => ascii "case" | .kchar => ascii "char" | .kcontinue => ascii "continue"
  | .kdefault => ascii "default" | .kelse => ascii "else" | .kenum => ascii "enum" | .kfor => ascii "for"
  | .kif => ascii "if" | .kint => ascii "int" | .klong => ascii "long" | .kreturn => ascii "return"
  | .ksizeof => ascii "sizeof" | .kstruct => ascii "struct" | .kswitch => ascii "switch" | .ktypedef => ascii "typedef"
  | .kunsigned => ascii "unsigned" | .kvoid => ascii "void" | .kwhile => ascii "while"

/-- spelling of the punctuators -/
def pctText : Pct → List UInt8
  | .lbracket => ascii "[" | .rbracket => ascii "]" | .lparen => ascii "(" | .rparen => ascii ")"
  | .lbrace => ascii "{" | .rbrace => ascii "}" | .dot => ascii "." | .arrow => ascii "->"
  | .plusPlus => ascii "++" | .minusMinus => ascii "--" | .and => ascii "&" | .asterisk => ascii "*"
  | .plus => ascii "+" | .minus => ascii "-" | .tilde => ascii "~" | .exclam => ascii "!" | .slash => ascii "/"
  | .percent => ascii "%" | .lessLess => ascii "<<" | .greaterGreater => ascii ">>" | .less => ascii "<"
  | .greater => ascii ">" | .lessEqual => ascii "<=" | .greaterEqual => ascii ">=" | .equalEqual => ascii "=="
  | .exclamEqual => ascii "!=" | .caret => ascii "^" | .vbar => ascii "|" | .andAnd => ascii "&&"
  | .vbarVbar => ascii "||" | .question => ascii "?" | .colon => ascii ":" | .semicolon => ascii ";"
  | .equal => ascii "=" | .asteriskEqual => ascii "*=" | .slashEqual => ascii "/=" | .percentEqual => ascii "%="
  | .plusEqual => ascii "+=" | .minusEqual => ascii "-=" | .lessLessEqual => ascii "<<="
  | .greaterGreaterEqual => ascii ">>=" | .andEqual => ascii "&=" | .caretEqual => ascii "^=" | .vbarEqual => ascii "|="
  | .comma => ascii ","

/-- the value of a hexadecimal (octal, decimal) digit -/
def digit (b : UInt8) : Nat :=
  if isDigit b then b.toNat - 0x30 else if 0x61 ≤ b then b.toNat - 0x61 + 10 else b.toNat - 0x41 + 10

/-- the number a digit string spells, most significant digit first -/
def number (base : Nat) (ds : List UInt8) : Nat := ds.foldl (fun v b => v * base + digit b) 0

/-- the number bases of integer constants; `hex` remembers how the `x` is written -/
inductive Base where
  | dec | oct
  | hex (x : UInt8)
  deriving DecidableEq

def Base.num : Base → Nat
  | .dec => 10
  | .oct => 8
  | .hex _ => 16

def Base.lead : Base → List UInt8
  | .hex x => [0x30, x]
  | _ => []

/-- digit strings allowed after the lead: decimal constants do not begin with 0, octal ones do -/
def Base.Digits : Base → List UInt8 → Prop
  | .dec, ds => (∃ d r, ds = d :: r ∧ d ≠ 0x30) ∧ ds.all isDigit = true
  | .oct, ds => (∃ r, ds = 0x30 :: r) ∧ ds.all isOct = true
  | .hex x, ds => (x = 0x78 ∨ x = 0x58) ∧ ds ≠ [] ∧ ds.all isHex = true

/-- integer suffixes and the type rank/signedness they ask for: `u` or `U`, `l`/`L`, `ll`/`LL`, in either order -/
def suffix : ILType → List (List UInt8)
  | .int => [[]]
  | .uint => us
  | .long => ls
  | .llong => lls
  | .ulong => (us.map fun u => ls.map fun l => [u ++ l, l ++ u]).flatten.flatten
  | .ullong => (us.map fun u => lls.map fun l => [u ++ l, l ++ u]).flatten.flatten
where
  us := [ascii "u", ascii "U"]
  ls := [ascii "l", ascii "L"]
  lls := [ascii "ll", ascii "LL"]

/-- largest value of the 64-bit type of that signedness -/
def largest (t : ILType) : Nat :=
  match t with
  | .uint | .ulong | .ullong => 2 ^ 64 - 1
  | _ => 2 ^ 63 - 1

/-- simple escape sequences, C11 6.4.4.4 -/
def escape (b : UInt8) : Option Nat :=
  match b with
  | 0x27 => some 0x27 | 0x22 => some 0x22 | 0x3F => some 0x3F | 0x5C => some 0x5C
  | 0x61 => some 7 | 0x62 => some 8 | 0x66 => some 12 | 0x6E => some 10 | 0x72 => some 13 | 0x74 => some 9 | 0x76 => some 11
  | _ => none

/-- what a character or string literal is made of -/
inductive Item where
  | plain (b : UInt8)
  | simple (b : UInt8)
  | oct (ds : List UInt8)
  | hex (ds : List UInt8)
  deriving DecidableEq

def Item.text : Item → List UInt8
  | .plain b => [b]
  | .simple b => [0x5C, b]
  | .oct ds => 0x5C :: ds
  | .hex ds => 0x5C :: 0x78 :: ds

/-- the value of one item; a plain character is a (signed) `char` -/
def Item.value : Item → Int
  | .plain b => if b.toNat < 128 then b.toNat else (b.toNat : Int) - 256
  | .simple b => (escape b).getD 0
  | .oct ds => number 8 ds
  | .hex ds => number 16 ds

/-- items allowed between quotes `q` -/
def Item.WF (q : UInt8) : Item → Prop
  | .plain b => b ≠ q ∧ b ≠ 0x5C ∧ b ≠ 0x0A
  | .simple b => (escape b).isSome = true
  | .oct ds => ds ≠ [] ∧ ds.length ≤ 3 ∧ ds.all isOct = true
  | .hex ds => ds ≠ [] ∧ ds.all isHex = true

/-- an escape that would swallow the first character of what follows -/
def Item.glued : Item → List UInt8 → Bool
  | .oct ds, b :: _ => decide (ds.length < 3) && isOct b
  | .hex _, b :: _ => isHex b
  | _, _ => false

def itemsText (is : List Item) : List UInt8 := (is.map Item.text).flatten

/-- no escape in the sequence runs into the next item -/
def Munch : List Item → Prop
  | [] => True
  | i :: is => i.glued (itemsText is) = false ∧ Munch is

/-- a `char` holding the value -/
def toByte (v : Int) : UInt8 := UInt8.ofNat (v % 256).toNat

/-- the tokens of the language with their spelling -/
inductive Lexeme where
  | kw (k : KW)
  | ident (name : List UInt8)
  | int (base : Base) (ds : List UInt8) (t : ILType) (sfx : List UInt8)
  | char (is : List Item)
  | str (is : List Item)
  | punct (p : Pct)
  deriving DecidableEq

def Lexeme.text : Lexeme → List UInt8
  | .kw k => kwText k
  | .ident s => s
  | .int base ds _ sfx => base.lead ++ ds ++ sfx
  | .char is => 0x27 :: itemsText is ++ [0x27]
  | .str is => 0x22 :: itemsText is ++ [0x22]
  | .punct p => pctText p

/-- the token a lexeme denotes -/
def Lexeme.tok : Lexeme → Tok
  | .kw k => .kw k
  | .ident s => .ident s
  | .int base ds t _ => .int ⟨t, number base.num ds⟩
  | .char is => .char ⟨.int, (is.head?.map Item.value).getD 0⟩
  | .str is => .str (is.map (fun i => toByte i.value) ++ [0])
  | .punct p => .punct p

/-- well-formed spelling -/
def Lexeme.WF : Lexeme → Prop
  | .kw _ => True
  | .ident s => (∃ c r, s = c :: r ∧ isLetter c = true ∧ r.all isWord = true) ∧ ∀ k, s ≠ kwText k
  | .int base ds t sfx => base.Digits ds ∧ sfx ∈ suffix t
  | .char is => is ≠ [] ∧ (∀ i ∈ is, i.WF 0x27) ∧ Munch is
  | .str is => (∀ i ∈ is, i.WF 0x22) ∧ Munch is
  | .punct _ => True

/-- constants within range: integers representable in 64 bits of their signedness, hexadecimal escapes in an `int` -/
def Lexeme.Fits : Lexeme → Prop
  | .int base ds t _ => number base.num ds ≤ largest t
  | .char is => ∀ i ∈ is, i.value ≤ 2147483647
  | .str is => ∀ i ∈ is, i.value ≤ 2147483647
  | _ => True

/-- a program text: leading white space, then lexemes each followed by white space -/
def layout (lead : List UInt8) (ls : List (Lexeme × List UInt8)) : List UInt8 :=
  lead ++ (ls.map fun p => p.1.text ++ p.2).flatten

end LSpec
end Umlcc
