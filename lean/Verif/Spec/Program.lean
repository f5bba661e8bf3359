import Verif.Spec.StmtGen
import Verif.Spec.X64Run
/-!
Programs of several functions that call each other and functions outside: what calls mean in C, and how the processor runs through all of the machine code.

What a call of a function of the program does is what executing its body does. C does not say where on the stack the objects of the called function lie, nor what
their bytes are before they are written. A call has a meaning here if what it does is the same wherever they lie and whatever is there.
-/
namespace Umlcc
namespace CStm
open IMach (Val Mem)

/-- a function of the program -/
structure Fn where
  name : Name
  ps : Params
  rt : DType
  body : SItems
  /-- what is in scope before its definition -/
  scope : Vars
  /-- bytes set aside for its objects -/
  size : Nat

/-- a call: the bytes the caller lets the called function access, its address, the arguments, the width of the result asked for, memory and world -/
abbrev CallFun (W : Type) := (BitVec 64 → Bool) → BitVec 64 → List Val → Sfx → Mem → W → Option (Mem × W × BitVec 64)

structure Prog (W : Type) where
  fns : List Fn
  /-- where functions and objects are -/
  sym : Name → BitVec 64
  /-- what functions outside of the program do -/
  ext : CallFun W
  /-- bytes of stack functions outside need -/
  outside : Nat
  /-- bytes of stack every function of the program needs, without what the functions it calls need -/
  each : Nat
  /-- whether the cases in which the compiler is known to be wrong are excluded (`Spec/CSem.lean`, `Spec/CStmt.lean`); if not, calls mean what C says -/
  lim : Bool

/-- the function at an address -/
def Prog.fn {W : Type} (P : Prog W) (t : BitVec 64) : Option Fn := P.fns.find? fun g => decide (P.sym g.name = t)

/-- bytes of stack for calls of depth `n` -/
def Prog.stack {W : Type} (P : Prog W) (n : Nat) : Nat := P.outside + n * P.each

/-- the byte belongs to the `below` bytes below address `a`, or the `above` bytes from it on -/
def Near (a : BitVec 64) (below above : Nat) (x : BitVec 64) : Prop := (x - (a - BitVec.ofNat 64 below)).toNat < below + above

/-- The stack at `sp`, where the return address of a call is, is free: neither the `room` bytes below nor the return address and the stack arguments among the
`n` arguments may be accessed by name or through pointers. It is aligned. -/
def Free (ok : BitVec 64 → Bool) (room n : Nat) (sp : BitVec 64) : Prop :=
  (sp.toNat + 8) % 16 = 0 ∧ ∀ x, Near sp room (8 + 8 * (n - 6)) x → ok x = false

/-- value of a call that is asked for a result of some width -/
def valueOf (s : Sfx) : Res → Option (BitVec 64)
  | .ret (some v) => if v.1 = s then some (v.2.setWidth 64) else if s = .none then some 0 else none
  | .norm | .ret none => if s = .none then some 0 else none
  | _ => none

/-- the bytes a function may access: those of its objects, below `bp`, besides those its caller lets it access -/
def withFrame (ok : BitVec 64 → Bool) (bp : BitVec 64) (size : Nat) (x : BitVec 64) : Bool := ok x || decide ((x - (bp - BitVec.ofNat 64 size)).toNat < size)

/-- a function at work: its objects lie below `bp` -/
def Prog.env {W : Type} (P : Prog W) (c : CallFun W) (g : Fn) (ok : BitVec 64 → Bool) (bp : BitVec 64) (vs : List Val) : IMach.Env W where
  bp := bp
  glob := P.sym
  call := c (withFrame ok bp g.size)
  args := vs
  ok := withFrame ok bp g.size

/-- Calling function `g` does this: executing its body does, wherever its objects lie. There is a place for them. -/
def Prog.Does {W : Type} (P : Prog W) (c : CallFun W) (room : Nat) (g : Fn) (ok : BitVec 64 → Bool) (vs : List Val) (s : Sfx) (M : Mem) (w : W)
    (y : Mem × W × BitVec 64) : Prop :=
  (∃ sp, Free ok room vs.length sp) ∧ (∀ a, ok a = false → y.1 a = M a) ∧
  ∀ sp M0, Free ok room vs.length sp → (∀ a, ok a = true → M0 a = M a) →
    ∃ k r M1, execFunc (implOf (P.env c g ok (sp - 8) vs) P.lim) k g.scope g.name.val g.ps g.rt g.body vs (M0, w) = some (r, M1, y.2.1) ∧
      valueOf s r = some y.2.2 ∧ (∀ a, ok a = true → M1 a = y.1 a) ∧ ∀ a, withFrame ok (sp - 8) g.size a = false → M1 a = M0 a

open Classical in
/-- Calls, `n` deep at most. Functions outside of the program only change bytes they are let to. -/
noncomputable def Prog.call {W : Type} (P : Prog W) : Nat → CallFun W
  | 0, ok, t, vs, s, M, w => match P.fn t with
    | some _ => none
    | none => P.ext ok t vs s M w
  | n + 1, ok, t, vs, s, M, w => match P.fn t with
    | some g => if h : ∃ y, P.Does (P.call n) (P.stack (n + 1)) g ok vs s M w y then some h.choose else none
    | none => P.ext ok t vs s M w

end CStm

namespace X86
open X64 (Item)
open IMach (Val Mem)

/-- What the machine does when the function at `t` is entered is what a call has to do: entered with `room` bytes of free stack, the arguments where the calling convention
says and the bytes that may be accessed as in memory `M`, it comes back with result, world and those bytes as in `y`, and all other bytes but those of its own stack
as they were. -/
def Provides {W : Type} (fn : BitVec 64 → Mach → W → Option (Mach × W)) (room : Nat) (ok : BitVec 64 → Bool) (t : BitVec 64) (vs : List Val) (s : Sfx) (M : Mem) (w : W)
    (y : Mem × W × BitVec 64) : Prop :=
  ∀ m, CStm.Free ok room vs.length (m.regs .sp) → (∀ k v, vs[k]? = some v → (argAt m k).setWidth v.1.bits = v.2) → (∀ a, ok a = true → m.mem a = M a) →
    ∃ m', fn t m w = some (m', y.2.1) ∧ get m' .ax s = y.2.2.setWidth s.bits ∧ (∀ a, ok a = true → m'.mem a = y.1 a) ∧
      ∀ a, ok a = false → ¬ CStm.Near (m.regs .sp) room (8 + 8 * (vs.length - 6)) a → m'.mem a = m.mem a

/-- the machine code of a program in memory: symbols, functions outside and return addresses, and the item at an address -/
structure Image (W : Type) where
  host : Host W
  locate : BitVec 64 → Option Nat

/-- going on at an address: in the program or outside -/
def Image.goto {W : Type} (I : Image W) (a : BitVec 64) (m : Mach) (w : W) : Conf W :=
  match I.locate a with
  | some p => .at p m w
  | none => .done a m w

/-- One item of the whole program: calls of functions of the program push the return address and go on in the called function, `ret` goes on at the address popped.
Functions outside do all of their work at once. -/
def hop {W : Type} (I : Image W) (code : List Item) : Conf W → Option (Conf W)
  | .done _ _ _ => none
  | .at pc m w => match code[pc]? with
    | some (.inst i) => match (callee I.host m i).bind I.locate with
      | some p => some (.at p (push m (I.host.back pc)) w)
      | none => (tick I.host code (.at pc m w)).map fun
        | .done a m w => I.goto a m w
        | c => c
    | _ => tick I.host code (.at pc m w)

/-- `n` items -/
def hops {W : Type} (I : Image W) (code : List Item) (c : Conf W) : Nat → Option (Conf W)
  | 0 => some c
  | n + 1 => (hops I code c n).bind (hop I code)

/-- the functions outside obey the calling convention and do what `ext` says; they are not in the program -/
structure Outside {W : Type} (P : CStm.Prog W) (I : Image W) : Prop where
  abi : ∀ p w, Abi (I.host.env p w)
  does : ∀ ok t vs s M w y, P.fn t = none → P.ext ok t vs s M w = some y → 
    I.locate t = none ∧ vs.length < 2 ^ 58 ∧ Provides I.host.fn P.outside ok t vs s M w y ∧ ∀ a, ok a = false → y.1 a = M a

end X86
end Umlcc
