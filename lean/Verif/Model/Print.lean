import Verif.Model.X64Text
import Verif.Model.Literal
/-!
The characters printed for assembly items: `x64_tostring`, `src/x64/{x64,inst,ope,data,label}.c`, with the fixed sizes of the buffers
the text is put together in. Writing past a buffer is undefined behaviour.
-/
namespace Umlcc
namespace X64

/-- bytes of an ASCII string -/
def bytes (s : String) : List UInt8 := s.toList.map (fun c => UInt8.ofNat c.toNat)

/-- decimal digits, as `%d`, `%lld` and `%llu` print them -/
def decimal (v : Int) : List UInt8 :=
  (if v < 0 then [0x2D] else []) ++ (Nat.toDigits 10 v.natAbs).map (fun c => UInt8.ofNat c.toNat)

/-- a C string put into a buffer of `size` bytes, with its NUL -/
def inBuffer (size : Nat) (s : List UInt8) : Out (List UInt8) := if s.length + 1 ≤ size then .ok s else .ub

/-- the characters of a printed operand, x64/ope.c:112-138 -/
def OpTxt.bytes : OpTxt → List UInt8
  | .reg n => X64.bytes n
  | .ind n => X64.bytes "(" ++ X64.bytes n ++ X64.bytes ")"
  | .star n => X64.bytes "*" ++ X64.bytes n
  | .disp v n => decimal v ++ X64.bytes "(" ++ X64.bytes n ++ X64.bytes ")"
  | .rip s => s.1 ++ X64.bytes "(%rip)"
  | .sym s => s.1
  | .imm v => X64.bytes "$" ++ decimal v

/-- `x64ope_tostring`, x64/ope.c:106-140: the buffer has 50 bytes -/
def opeString (o : XOpe) : Out (List UInt8) := do
  let t ← opTxt o
  inBuffer 50 t.bytes

/-- operands with what separates them, x64/inst.c:54-71 -/
def opeStrings (sep : List UInt8) : List XOpe → Out (List UInt8)
  | [] => .ok []
  | o :: os => do
    let t ← opeString o
    let ts ← opeStrings (bytes ", ") os
    pure (sep ++ t ++ ts)

/-- `x64inst_tostring`, x64/inst.c:43-75: the buffer has 200 bytes. (`x64instcode_tostring` has one of 50 bytes for at most 8 characters.) -/
def instString (i : XInst) : Out (List UInt8) := do
  let mn ← mnemonic i
  let ops ← opeStrings (bytes "\t") (printedOps i)
  inBuffer 200 (bytes "\t" ++ bytes mn ++ ops ++ bytes "\n")

/-- `x64data_tostring`, x64/data.c:45-85: the buffer has 200 bytes. `iliteral_display_string` has one of 50 bytes for at most 20 characters. -/
def dataString : IData → Out (List UInt8)
  | .byte l => inBuffer 200 (bytes "\t.byte\t" ++ decimal l.value ++ bytes "\n")
  | .word l => inBuffer 200 (bytes "\t.word\t" ++ decimal l.value ++ bytes "\n")
  | .long l => inBuffer 200 (bytes "\t.long\t" ++ decimal l.value ++ bytes "\n")
  | .quad l => inBuffer 200 (bytes "\t.quad\t" ++ decimal l.value ++ bytes "\n")
  | .zero l => inBuffer 200 (bytes "\t.zero\t" ++ decimal l.value ++ bytes "\n")
  | .str b => do
    let s ← Literal.display b
    inBuffer 200 (bytes "\t.ascii\t" ++ s ++ bytes "\n")

/-- first line of a label, x64/label.c:32-41 -/
def section_ : LblType → List UInt8
  | .function => bytes "\t.text\n"
  | .variable => bytes "\t.data\n"
  | .normal => []

/-- visibility of a label, x64/label.c:43-56 -/
def visibility (n : Name) : Vis → List UInt8
  | .global => bytes "\t.globl " ++ n.1 ++ bytes "\n"
  | .local_ => bytes "\t.local " ++ n.1 ++ bytes "\n"
  | .none => []

/-- `x64label_tostring`, x64/label.c:27-62: the buffer has 200 bytes -/
def labelString (t : LblType) (v : Vis) (n : Name) : Out (List UInt8) :=
  inBuffer 200 (section_ t ++ visibility n v ++ n.1 ++ bytes ":\n")

/-- `x64_tostring`, x64/x64.c:70-81 -/
def itemString : Item → Out (List UInt8)
  | .inst i => instString i
  | .data d => dataString d
  | .label t v n => labelString t v n

end X64
end Umlcc
