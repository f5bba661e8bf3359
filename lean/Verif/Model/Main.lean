import Verif.Model.Print
import Verif.Model.Lexer
import Verif.Model.Parser
import Verif.Model.Resolver
import Verif.Model.Immcgen
import Verif.Model.Regalloc
/-!
Model of `src/main.c`: the stages one after the other, and the files.

The file system is a function from names to contents, with the files that can be opened for writing and the number of bytes the device
takes before writing fails. Simplifications: messages on `stderr` and reading errors are left out; files that can be read are regular files.
The parameter `n` bounds the depth of calls of the resolver and the number of passes of the data flow analysis (`hang` when it is reached).
-/
namespace Umlcc
namespace Main

/-- the files -/
structure Files where
  /-- contents of the files that exist and can be read -/
  content : List UInt8 → Option (List UInt8)
  /-- whether `fopen(name, "w")` succeeds -/
  writable : List UInt8 → Bool
  /-- bytes that can be written before `fprintf` and `fclose` fail -/
  room : Nat

/-- outcome of `parser_create_ast` -/
def ofParser : Parser.PR Ast → Out Ast
  | .ok a _ => .ok a
  | .err _ => .err
  | .fatal => .fatal
  | .ub => .ub
  | .hang => .hang

/-- main.c:38-98: source text to assembly items; `err` if a stage reports errors -/
def stages (n : Nat) (src : List UInt8) : Out (List X64.Item) := do
  let toks ← Lexer.tokenize src
  let a ← ofParser (Parser.parse n (.unit []) (Parser.start toks))
  match ← Res.resolve n a with
  | none => .err
  | some u => do
    let code ← Gen.generate u
    let (code, qs) ← Regalloc.run code 8 n
    X64.generate code qs

/-- `strrchr(s, '.')`, `none` if there is no dot -/
def fromLastDot : List UInt8 → Option (List UInt8)
  | [] => none
  | b :: bs => match fromLastDot bs with
    | some e => some e
    | none => if b = 0x2E then some (b :: bs) else none

/-- main.c:19-30: the tests of the file name -/
def isCFile (name : List UInt8) : Bool := fromLastDot name == some [0x2E, 0x63]

/-- main.c:100-103: the last character replaced by `s` -/
def dstName (name : List UInt8) : List UInt8 := name.dropLast ++ [0x73]

/-- the loop of main.c:107-111 -/
def printAll : List X64.Item → Out (List UInt8)
  | [] => .ok []
  | x :: xs => do
    let t ← X64.itemString x
    let ts ← printAll xs
    pure (t ++ ts)

/-- opening the output empties it, main.c:104; the bytes that fit are written, main.c:107-112. The results of `fprintf` and `fclose` are not looked at. -/
def write (fs : Files) (name text : List UInt8) : Files :=
  { fs with content := fun f => if f = name then some (text.take fs.room) else fs.content f, room := fs.room - text.length }

/-- `main`, main.c:13-118: exit status and files afterwards. The "unreachable" exits are `exit(1)`. `fprintf` to a NULL stream is undefined behaviour. With nothing to print `fclose(NULL)` is. -/
def main (n : Nat) (args : List (List UInt8)) (fs : Files) : Out (Nat × Files) :=
  match args with
  | [name] => match fs.content name with
    | none => .ok (1, fs)
    | some src =>
      if !isCFile name then .ok (1, fs)
      else match stages n src with
        | .err => .ok (1, fs)
        | .fatal => .ok (1, fs)
        | .ub => .ub
        | .hang => .hang
        | .ok items =>
          if !fs.writable (dstName name) then .ub
          else match printAll items with
            | .ok text => .ok (0, write fs (dstName name) text)
            | _ => .ub
  | _ => .ok (1, fs)

end Main
end Umlcc
