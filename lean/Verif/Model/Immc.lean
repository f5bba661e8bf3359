import Verif.Model.SymTab
/-!
Model of the intermediate code `src/immc/*`: operands, instructions, labels, data.

Simplifications: pointers to operands are values (every `immcope_copy`/`immc_copy` is the identity);
label names are ASCII strings (`.L<n>`, `.SL<n>` and identifiers).
-/
namespace Umlcc

/-- `ImmcSuffix`, immc/suffix.h -/
inductive Sfx where
  | none | byte | word | long | quad
  deriving DecidableEq, Repr

/-- `immcsuffix_get`, immc/suffix.c:3-16 -/
def Sfx.get (nbytes : Nat) : Sfx :=
  match nbytes with
  | 1 => .byte
  | 2 => .word
  | 4 => .long
  | 8 => .quad
  | _ => .none

/-- `immcsuffix_tonbytes`, immc/suffix.c:18-31 -/
def Sfx.nbytes : Sfx → Nat
  | .byte => 1
  | .word => 2
  | .long => 4
  | .quad => 8
  | .none => 0

/-- `IntegerLiteralType`, literal/iliteral.h -/
inductive ILType where
  | int | uint | long | ulong | llong | ullong
  deriving DecidableEq, Repr

/-- `iliteral_type_isunsigned`, literal/iliteral.c:67-69 -/
def ILType.isUnsigned : ILType → Bool
  | .uint | .ulong | .ullong => true
  | _ => false

/-- `iliteral_type_nbytes`, literal/iliteral.c:71-85 -/
def ILType.nbytes : ILType → Nat
  | .int | .uint => 4
  | _ => 8

/-- `IntegerLiteral`, literal/iliteral.h: the value is `signed_value` or `unsigned_value`, whichever the type selects -/
structure ILit where
  type : ILType
  value : Int
  deriving DecidableEq, Repr

/-- `ImmcOpe`, immc/ope.h. `arg`/`reg` carry suffix, register id and `is_unsigned`;
`ptr` always has the suffix `quad` and a signed register (ope.c:54-59). -/
inductive Ope where
  | arg (sfx : Sfx) (id : Int) (uns : Bool)
  | reg (sfx : Sfx) (id : Int) (uns : Bool)
  | ptr (id : Int)
  | mem (offset : Int)
  | label (name : Name)
  | int (sfx : Sfx) (lit : ILit)
  | str (bytes : List UInt8)
  deriving DecidableEq

/-- `ImmcInstType`, immc/inst.h -/
inductive IOp where
  | load | addr | str | store | ldarg | starg | stret
  | add | sub | mul | div | mod | neg
  | and | not | or | xor
  | sal | sar
  | seteq | setneq | setlt | setgt | setleq | setgeq
  | jmp | jeq | jneq | jgt | jgeq | jlt | jleq
  | call | enter | leave | prep | clean
  deriving DecidableEq, Repr

/-- `ImmcInst`, immc/inst.h; a NULL operand is `none` -/
structure Inst where
  op : IOp
  dst : Option Ope
  fst : Option Ope
  snd : Option Ope
  deriving DecidableEq

/-- `ImmcLabelType`, immc/label.h -/
inductive LblType where
  | function | variable | normal
  deriving DecidableEq, Repr

/-- `ImmcVisibility`, immc/label.h -/
inductive Vis where
  | none | local_ | global
  deriving DecidableEq, Repr

/-- `ImmcData`, immc/data.h: `.byte/.word/.long/.quad n`, `.zero n`, `.string s` -/
inductive IData where
  | byte (l : ILit) | word (l : ILit) | long (l : ILit) | quad (l : ILit) | zero (l : ILit)
  | str (bytes : List UInt8)
  deriving DecidableEq

/-- `Immc`, immc/immc.h -/
inductive Immc where
  | inst (i : Inst)
  | data (d : IData)
  | label (type : LblType) (vis : Vis) (name : Name)
  deriving DecidableEq

/-- `immc_isjumpinst`, immc/immc.c:75-77: the enumerators from `IMMC_INST_JMP` to `IMMC_INST_JGEQ`;
`JLT` and `JLEQ` come after `JGEQ` in immc/inst.h and are not included. -/
def IOp.isJump : IOp → Bool
  | .jmp | .jeq | .jneq | .jgt | .jgeq => true
  | _ => false

def Immc.isJump : Immc → Bool
  | .inst i => i.op.isJump
  | _ => false

/-- an unconditional jump (the test in regalloc.c:161) -/
def Immc.isJmp : Immc → Bool
  | .inst i => decide (i.op = .jmp)
  | _ => false

def Immc.isLabel : Immc → Bool
  | .label _ _ _ => true
  | _ => false

end Umlcc
