import Verif.Spec.Regalloc
import Verif.Spec.X64Arith
/-!
What intermediate code does: an instance of the abstract machine of `RSpec` in which the instructions have their intended meaning.
The meanings of the operations are those of `ISem`, which the machine code is measured against too.

A register holds a value of some width; reading it with another width is an error (the machine is stuck), and so is accessing memory through a
pointer or by name where that is not allowed. Called functions are described by
an arbitrary function from their address, arguments, the memory and the rest of the world to the new memory and world and a result,
so that every sequence of calls with all their arguments can be observed in the world.
-/
namespace Umlcc
namespace IMach

abbrev Mem := BitVec 64 → BitVec 8

/-- content of a register: a value with its width -/
abbrev Val := (s : Sfx) × BitVec s.bits

/-- where things are, what calls do, and the arguments of the function that is running -/
structure Env (W : Type) where
  /-- base address of the frame: the local object with offset `o` is at `bp - o` -/
  bp : BitVec 64
  glob : Name → BitVec 64
  /-- what calling a function with arguments for a result of some width does -/
  call : BitVec 64 → List Val → Sfx → Mem → W → Option (Mem × W × BitVec 64)
  args : List Val
  /-- the bytes that may be accessed through pointers and by name -/
  ok : BitVec 64 → Bool

/-- memory, the world outside, arguments stored for the calls in preparation (innermost first), and the value to be returned -/
structure St (W : Type) where
  mem : Mem
  w : W
  out : List (List (Nat × Val))
  ret : Option Val

/-- the wider of two suffixes -/
def wider (a b : Sfx) : Sfx := if a.bits < b.bits then b else a

/-- width of an operand -/
def width : Option Ope → Sfx
  | some (.arg s _ _) | some (.reg s _ _) | some (.int s _) => s
  | some (.ptr _) => .quad
  | _ => .none

/-- the operand is unsigned -/
def isUns : Option Ope → Bool
  | some (.arg _ _ u) | some (.reg _ _ u) => u
  | some (.int _ l) => l.type.isUnsigned
  | _ => false

/-- value of a register or literal, brought to width `w`; `v` is the content of the operand's register -/
def src (o : Option Ope) (v : Option Val) (w : Sfx) : Option (BitVec w.bits) :=
  match o, v with
  | some (.reg s _ u), some v => if v.1 = s ∧ s ≠ .none then some (ISem.conv u v.2 w.bits) else none
  | some (.int s l), _ => if s ≠ .none then some (BitVec.ofInt _ l.value) else none
  | _, _ => none

/-- content of a register as an address -/
def asPtr : Val → Option (BitVec 64)
  | ⟨.quad, b⟩ => some b
  | _ => none

/-- the place an operand denotes -/
def place (env : Env W) (o : Option Ope) (v : Option Val) : Option (BitVec 64) :=
  match o, v with
  | some (.mem k), _ => some (env.bp - BitVec.ofInt 64 k)
  | some (.label n), _ => some (env.glob n)
  | some (.ptr _), some v => asPtr v
  | _, _ => none

def read (m : Mem) (a : BitVec 64) (s : Sfx) : BitVec s.bits := BitVec.ofNat _ (X86.readLE m a s.nbytes)
def write (m : Mem) (a : BitVec 64) (s : Sfx) (v : BitVec s.bits) : Mem := X86.writeLE m a s.nbytes v.toNat

/-- bytes stored one after the other -/
def writeBytes (m : Mem) (a : BitVec 64) : List UInt8 → Mem
  | [] => m
  | b :: bs => writeBytes (X86.writeLE m a 1 b.toNat) (a + 1) bs

/-- all of the `n` bytes from an address on may be accessed -/
def allowed (ok : BitVec 64 → Bool) (a : BitVec 64) (n : Nat) : Bool := (List.range n).all fun k => ok (a + BitVec.ofNat 64 k)

/-- the operand may be used to access `n` bytes at the place it denotes: local objects always -/
def may (env : Env W) (o : Option Ope) (a : BitVec 64) (n : Nat) : Bool :=
  match o with
  | some (.mem _) => true
  | _ => allowed env.ok a n

/-- what a load finds: the value of a register or literal, or the memory at a place -/
def fetch (env : Env W) (m : Mem) (o : Option Ope) (v : Option Val) (w : Sfx) : Option (BitVec w.bits) :=
  match place env o v with
  | some a => if may env o a w.nbytes then some (read m a w) else none
  | none => src o v w

/-- the arguments `0 ... n-1` among those stored -/
def gather (xs : List (Nat × Val)) : Nat → Option (List Val)
  | 0 => some []
  | n + 1 => match gather xs n, xs.lookup n with
    | some vs, some v => some (vs ++ [v])
    | _, _ => none

/-- number in a literal operand -/
def litNat : Option Ope → Option Nat
  | some (.int _ l) => if 0 ≤ l.value then some l.value.toNat else none
  | _ => none

/-- value of an arithmetic instruction on operands of the common width; `du` and `fu` are the signedness of destination and first operand -/
def arith (op : IOp) (du fu : Bool) (a b : BitVec w) : Option (BitVec w) :=
  match op with
  | .div | .mod => ISem.divmod op du a b
  | .sal | .sar => if b.toNat < w then ISem.shift op fu a b.toNat else none
  | op => ISem.bin op a b

/-- a value for a destination of width `s` -/
def result (s : Sfx) (b : BitVec s.bits) : Val := ⟨s, b⟩

/-- nothing for a destination -/
def noVal : Val := ⟨.none, 0⟩

/-- What an instruction does: `f`, `s`, `p` are the contents of the registers of its first and second operand and of its destination if that is
the place a register points to. The result is the new state, the value for the destination register and whether the branch is taken. -/
def exec {W : Type} (env : Env W) (op : IOp) (d fo so : Option Ope) (f s p : Option Val) (st : St W) : Option (St W × Val × Bool) :=
  match op with
  | .load => match d with
    | some (.reg ds _ _) => if ds = .none then none else (fetch env st.mem fo f ds).map fun b => (st, result ds b, false)
    | _ => none
  | .addr => match d with
    | some (.reg .quad _ _) => (place env fo f).map fun a => (st, result .quad a, false)
    | _ => none
  | .store => match place env d p, src fo f (width fo) with
    | some a, some v => if may env d a (width fo).nbytes then some ({ st with mem := write st.mem a (width fo) v }, noVal, false) else none
    | _, _ => none
  | .str => match place env d p, fo with
    | some a, some (.str bs) => some ({ st with mem := writeBytes st.mem a bs }, noVal, false)
    | _, _ => none
  | .ldarg => match place env d p, fo with
    | some a, some (.arg as i _) => match env.args[i.toNat]? with
      | some v => if v.1 = as ∧ as ≠ .none ∧ 0 ≤ i then some ({ st with mem := write st.mem a v.1 v.2 }, noVal, false) else none
      | none => none
    | _, _ => none
  | .starg => match d, src fo f (width fo), st.out with
    | some (.arg _ i _), some v, xs :: rest =>
      if 0 ≤ i then some ({ st with out := ((i.toNat, result (width fo) v) :: xs) :: rest }, noVal, false) else none
    | _, _, _ => none
  | .stret => (src fo f (width fo)).map fun v => ({ st with ret := some (result (width fo) v) }, noVal, false)
  | .add | .sub | .mul | .div | .mod | .and | .or | .xor | .sal | .sar => match d with
    | some (.reg ds _ du) =>
      if ds = .none then none
      else match src fo f (wider (width fo) (width so)), src so s (wider (width fo) (width so)) with
        | some a, some b => (arith op du (isUns fo) a b).map fun v => (st, result ds (ISem.conv du v ds.bits), false)
        | _, _ => none
    | _ => none
  | .neg | .not => match d with
    | some (.reg ds _ _) =>
      if ds = .none then none
      else match src fo f (width fo) with
        | some a => (ISem.un op a).map fun v => (st, result ds (ISem.conv (isUns fo) v ds.bits), false)
        | none => none
    | _ => none
  | .seteq | .setneq | .setlt | .setgt | .setleq | .setgeq => match d with
    | some (.reg ds _ _) =>
      if ds = .none then none
      else match src fo f (wider (width fo) (width so)), src so s (wider (width fo) (width so)) with
        | some a, some b => (ISem.rel op (isUns fo) a b).map fun v => (st, result ds (if v then 1 else 0), false)
        | _, _ => none
    | _ => none
  | .jmp => some (st, noVal, true)
  | .jeq | .jneq | .jgt | .jgeq | .jlt | .jleq =>
    match src fo f (wider (width fo) (width so)), src so s (wider (width fo) (width so)) with
    | some a, some b => (ISem.rel op (isUns fo) a b).map fun v => (st, noVal, v)
    | _, _ => none
  | .call => match place env fo f, litNat so, st.out with
    | some a, some n, xs :: _ => match gather xs n with
      | some vs => match env.call a vs (width d) st.mem st.w with
        | some (m, w, r) => some ({ st with mem := m, w := w }, result (width d) (r.setWidth _), false)
        | none => none
      | none => none
    | _, _, _ => none
  | .prep => some ({ st with out := [] :: st.out }, noVal, false)
  | .clean => match st.out with
    | _ :: rest => some ({ st with out := rest }, noVal, false)
    | [] => none
  | .enter | .leave => some (st, noVal, false)

/-- the content of an operand's register, taken from a list -/
def cut : Option Ope → List Val → Option Val × List Val
  | some (.reg _ _ _), v :: vs => (some v, vs)
  | some (.ptr _), v :: vs => (some v, vs)
  | _, vs => (none, vs)

/-- the instructions' meaning, for the machine of `RSpec` -/
def sem {W : Type} (env : Env W) : RSpec.Sem Val (St W) := fun i vs st =>
  let f := cut i.fst vs
  let s := cut i.snd f.2
  let p := match i.dst with
    | some (.ptr r) => (cut (some (.ptr r)) s.2).1
    | _ => none
  exec env i.op i.dst i.fst i.snd f.1 s.1 p st

end IMach
end Umlcc
