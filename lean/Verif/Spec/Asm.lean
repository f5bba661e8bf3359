import Verif.Spec.Gas
import Verif.Spec.Layout
import Verif.Spec.Program
/-!
C69: how the GNU assembler reads the characters of an assembly file (gas manual, "Syntax" and "Assembler Directives"), and how the processor runs through what
is read. Only what the compiler prints is described; everything else is not read.
-/
namespace Umlcc
namespace Asm
open X64 (Line OpTxt Item XOpe)
open X86 (Mach Host Conf Image push mnOf opsOf)

/-- letters, digits, `_` and `.` -/
def symChar (b : UInt8) : Bool :=
  (0x61 ≤ b && b ≤ 0x7A) || (0x41 ≤ b && b ≤ 0x5A) || (0x30 ≤ b && b ≤ 0x39) || b == 0x5F || b == 0x2E

def digit (b : UInt8) : Bool := 0x30 ≤ b && b ≤ 0x39

/-- a symbol does not begin with a digit -/
def isSymbol : List UInt8 → Bool
  | [] => false
  | b :: s => symChar b && !digit b && s.all symChar

theorem symChar_ascii {b : UInt8} (h : symChar b = true) : b.toNat < 128 := by
  simp only [symChar, Bool.or_eq_true, Bool.and_eq_true, decide_eq_true_eq, beq_iff_eq, UInt8.le_iff_toNat_le] at h
  rcases h with (((h | h) | h) | rfl) | rfl
  · have : (0x7A : UInt8).toNat = 122 := rfl
    omega
  · have : (0x5A : UInt8).toNat = 90 := rfl
    omega
  · have : (0x39 : UInt8).toNat = 57 := rfl
    omega
  · decide
  · decide

def symbol (s : List UInt8) : Option Name :=
  if h : isSymbol s = true then some ⟨s, by
    intro b hb
    cases s with
    | nil => cases hb
    | cons c s =>
      simp only [isSymbol, Bool.and_eq_true, List.all_eq_true] at h
      rcases List.mem_cons.1 hb with rfl | hb
      · exact symChar_ascii h.1.1
      · exact symChar_ascii (h.2 b hb)⟩
  else none

/-- decimal digits; a number of more than one digit does not begin with 0 (it would be octal) -/
def natural (s : List UInt8) : Option Nat :=
  match s with
  | [] => none
  | b :: t => if (b :: t).all digit && (b != 0x30 || t.isEmpty) then some ((b :: t).foldl (fun v b => 10 * v + (b.toNat - 0x30)) 0) else none

def integer : List UInt8 → Option Int
  | 0x2D :: s => (natural s).map fun n => -(n : Int)
  | s => (natural s).map fun n => (n : Int)

/-- characters of a word -/
def word (s : List UInt8) : String := String.ofList (s.map fun b => Char.ofNat b.toNat)

/-- `%` and letters and digits -/
def register : List UInt8 → Option String
  | 0x25 :: s => if s != [] && s.all symChar then some (word (0x25 :: s)) else none
  | _ => none

/-- what is before the first `c`, and after it -/
def cut (c : UInt8) : List UInt8 → Option (List UInt8 × List UInt8)
  | [] => none
  | b :: s => if b = c then some ([], s) else (cut c s).map fun p => (b :: p.1, p.2)

/-- an operand: register, `*` register, constant, symbol, and memory operands -/
def operand (s : List UInt8) : Option OpTxt :=
  match s with
  | 0x25 :: _ => (register s).map .reg
  | 0x2A :: r => (register r).map .star
  | 0x24 :: r => (integer r).map .imm
  | s => match cut 0x28 s with
    | none => (symbol s).map .sym
    | some (a, r) => match cut 0x29 r with
      | some (r, []) => match register r with
        | none => none
        | some r => if a = [] then some (.ind r)
          else if r = "%rip" then (symbol a).map .rip
          else (integer a).map fun v => .disp v r
      | _ => none

def skipBlanks (s : List UInt8) : List UInt8 := s.dropWhile fun b => b == 0x20 || b == 0x09

/-- operands separated by commas -/
def operands : Nat → List UInt8 → Option (List OpTxt)
  | 0, _ => none
  | n + 1, s => match cut 0x2C (skipBlanks s) with
    | none => (operand (skipBlanks s)).map fun o => [o]
    | some (a, r) => match operand a, operands n r with
      | some o, some os => some (o :: os)
      | _, _ => none

/-- sections of the object file -/
inductive Sec where
  | text | data
  deriving DecidableEq, Repr

/-- what a line adds to the section -/
inductive Stmt where
  | label (n : Name)
  | inst (l : Line)
  | bytes (bs : List UInt8)
  deriving DecidableEq

/-- a line -/
inductive Entry where
  | sec (s : Sec)
  | globl (n : Name)
  | stmt (s : Stmt)
  deriving DecidableEq

/-- the letters of an ASCII string -/
def letters (s : String) : List UInt8 := s.toList.map fun c => UInt8.ofNat c.toNat

def number (k : Nat) (s : List UInt8) : Option Entry := (integer s).map fun v => .stmt (.bytes (Lay.leBytes k v))

/-- a directive or an instruction: its first word and the rest of the line after a blank -/
def command (w rest : List UInt8) : Option Entry :=
  if w.head? = some 0x2E then
    if w = letters ".text" then (if rest = [] then some (.sec .text) else none)
    else if w = letters ".data" then (if rest = [] then some (.sec .data) else none)
    else if w = letters ".globl" then (symbol rest).map .globl
    else if w = letters ".byte" then number 1 rest
    else if w = letters ".word" then number 2 rest
    else if w = letters ".long" then number 4 rest
    else if w = letters ".quad" then number 8 rest
    else if w = letters ".zero" then (natural rest).map fun n => .stmt (.bytes (List.replicate n 0))
    else if w = letters ".ascii" then (Gas.decode rest).map fun b => .stmt (.bytes b)
    else none
  else if w = [] then none
  else if rest = [] then some (.stmt (.inst ⟨word w, []⟩))
  else (operands (rest.length + 1) rest).map fun os => .stmt (.inst ⟨word w, os⟩)

/-- the first word of a line and what follows the blank after it -/
def split : List UInt8 → List UInt8 × List UInt8
  | [] => ([], [])
  | b :: s => if b = 0x20 ∨ b = 0x09 then ([], s) else ((b :: (split s).1), (split s).2)

/-- a line without its newline: a label, or a blank and a directive or an instruction -/
def line (s : List UInt8) : Option Entry :=
  match s with
  | 0x09 :: s => command (split s).1 (split s).2
  | s => match cut 0x3A s with
    | some (n, []) => (symbol n).map fun n => .stmt (.label n)
    | _ => none

/-- every line ends in a newline -/
def entries : Nat → List UInt8 → Option (List Entry)
  | _, [] => some []
  | 0, _ => none
  | n + 1, s => match cut 0x0A s with
    | none => none
    | some (l, r) => match line l, entries n r with
      | some e, some es => some (e :: es)
      | _, _ => none

/-- an object file: what is in the sections, in the order of the text, and the symbols other files can use -/
structure Obj where
  stmts : List (Sec × Stmt)
  globals : List Name
  deriving DecidableEq

/-- the statements with the section that is current at each -/
def sections : Sec → List Entry → List (Sec × Stmt)
  | _, [] => []
  | _, .sec s :: es => sections s es
  | s, .globl _ :: es => sections s es
  | s, .stmt x :: es => (s, x) :: sections s es

def globals (es : List Entry) : List Name := es.filterMap fun | .globl n => some n | _ => none

/-- the assembler reads a text; the section at the beginning is `.text` -/
def read (s : List UInt8) : Option Obj := (entries (s.length + 1) s).map fun es => ⟨sections .text es, globals es⟩

/-! ### running through an object file -/

/-- the address an instruction calls, if it is a call -/
def callee {W : Type} (H : Host W) (m : Mach) (l : Line) : Option (BitVec 64) :=
  match mnOf l.mn, opsOf l.ops with
  | some .call, some [.sym n] => some (H.sym n)
  | some .call, some [.star r] => some (m.regs r)
  | _, _ => none

/-- the world after a call of a function outside -/
def worldAfter {W : Type} (H : Host W) (p : Nat) (m : Mach) (w : W) (l : Line) : W :=
  match callee H m l with
  | none => w
  | some t => match H.fn t (push m (H.back p)) w with
    | some (_, w') => w'
    | none => w

def isLabel (n : Name) (s : Sec × Stmt) : Bool := decide (s.2 = .label n)

/-- one statement of a program in memory; the positions are those in the list of statements -/
def hop {W : Type} (I : Image W) (code : List (Sec × Stmt)) : Conf W → Option (Conf W)
  | .done _ _ _ => none
  | .at pc m w => match code[pc]? with
    | some (_, .label _) => some (.at (pc + 1) m w)
    | some (.text, .inst l) => match (callee I.host m l).bind I.locate with
      | some p => some (.at p (push m (I.host.back pc)) w)
      | none => match X86.exec (I.host.env pc w) m l with
        | .next m' => some (.at (pc + 1) m' (worldAfter I.host pc m w l))
        | .jump n m' => (code.findIdx? (isLabel n)).map fun p => .at p m' w
        | .ret a m' => some (I.goto a m' w)
        | _ => none
    | _ => none

def hops {W : Type} (I : Image W) (code : List (Sec × Stmt)) (c : Conf W) : Nat → Option (Conf W)
  | 0 => some c
  | n + 1 => (hops I code c n).bind (hop I code)

/-! ### the object file of generated code -/

/-- what the names in an operand have to be -/
def SymOpe : XOpe → Prop
  | .label n | .jlabel n => isSymbol n.1 = true
  | _ => True

instance : DecidablePred SymOpe := fun o => by cases o <;> simp only [SymOpe] <;> infer_instance

/-- sections and symbols as the assembler takes them: names are symbols, strings are of characters the printed text stands for, sizes are not negative -/
def Legible : Item → Prop
  | .inst i => ∀ o ∈ X64.printedOps i, SymOpe o
  | .data (.str b) => ∀ c ∈ b, c.toNat < 128 ∧ c ≠ 7 ∧ c ≠ 11
  | .data (.zero l) => 0 ≤ l.value
  | .data _ => True
  | .label _ v n => v ≠ .local_ ∧ isSymbol n.1 = true

instance : DecidablePred Legible := fun x => by
  cases x with
  | inst i => simp only [Legible]; infer_instance
  | data d => cases d <;> simp only [Legible] <;> infer_instance
  | label t v n => simp only [Legible]; infer_instance

/-- what an item stands for -/
def stmtOf : Item → Out Stmt
  | .inst i => do let l ← X64.line i; pure (.inst l)
  | .data d => .ok (.bytes (Lay.directive d))
  | .label _ _ n => .ok (.label n)

/-- the section after an item -/
def secAfter (s : Sec) : Item → Sec
  | .label .function _ _ => .text
  | .label .variable _ _ => .data
  | _ => s

/-- the items with their sections -/
def stmtsOf : Sec → List Item → Out (List (Sec × Stmt))
  | _, [] => .ok []
  | s, x :: xs => do
    let y ← stmtOf x
    let ys ← stmtsOf (secAfter s x) xs
    pure ((secAfter s x, y) :: ys)

/-- the symbols declared global -/
def globalsOf (l : List Item) : List Name := l.filterMap fun | .label _ .global n => some n | _ => none

/-- where instructions are and which symbols functions have: instructions in `.text`, functions global -/
def arranged : Sec → List Item → Bool
  | _, [] => true
  | s, x :: xs => (match x with
    | .inst _ => decide (s = .text)
    | .label .function v _ => decide (v = .global)
    | _ => true) && arranged (secAfter s x) xs

/-- the assembler takes a label only once -/
def labels (l : List (Sec × Stmt)) : List Name := l.filterMap fun | (_, .label n) => some n | _ => none

/-- The global labels of the code are at the addresses of their names; the address after a call is the return address. -/
structure Linked {W : Type} (I : Image W) (o : Obj) : Prop where
  func : ∀ p n, o.stmts[p]? = some (.text, .label n) → n ∈ o.globals → I.locate (I.host.sym n) = some p
  back : ∀ p s l, o.stmts[p]? = some (s, .inst l) → mnOf l.mn = some .call → I.locate (I.host.back p) = some (p + 1)

end Asm
end Umlcc
