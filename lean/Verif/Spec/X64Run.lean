import Verif.Spec.ImmcSem
import Verif.Spec.X64Inst
/-!
Machine code of a whole function: how the processor runs through it, what a function may rely on when it is entered, what it has
to have done when it returns, and for which allocated intermediate code the machine code of the single instructions is right.
-/
namespace Umlcc
namespace X86
open X64 (Item XInst)

/-! ### running through the items of a program -/

/-- Where symbols are, what called functions do to the machine and to the world outside (from the state at entry to the state after
their `ret`), and the return address the call at an item of the program pushes. -/
structure Host (W : Type) where
  sym : Name → BitVec 64
  fn : BitVec 64 → Mach → W → Option (Mach × W)
  back : Nat → BitVec 64

/-- the same as seen by the single instruction at item `p`, the world being `w` -/
def Host.env {W : Type} (H : Host W) (p : Nat) (w : W) : Env := ⟨H.sym, fun t m => (H.fn t m w).map (·.1), H.back p⟩

/-- the address an instruction calls, if it is a call -/
def callee {W : Type} (H : Host W) (m : Mach) (i : XInst) : Option (BitVec 64) :=
  match X64.line i with
  | .ok l => match mnOf l.mn, opsOf l.ops with
    | some .call, some [.sym n] => some (H.sym n)
    | some .call, some [.star r] => some (m.regs r)
    | _, _ => none
  | _ => none

/-- the world after the instruction at item `p`: only calls change it -/
def worldAfter {W : Type} (H : Host W) (p : Nat) (m : Mach) (w : W) (i : XInst) : W :=
  match callee H m i with
  | none => w
  | some t => match H.fn t (push m (H.back p)) w with
    | some (_, w') => w'
    | none => w

/-- at an item of the program, or back at the caller -/
inductive Conf (W : Type) where
  | at (pc : Nat) (m : Mach) (w : W)
  | done (a : BitVec 64) (m : Mach) (w : W)

def isItemLabel (n : Name) : Item → Bool
  | .label _ _ l => decide (l = n)
  | _ => false

/-- one item; `none`: stuck -/
def tick {W : Type} (H : Host W) (code : List Item) : Conf W → Option (Conf W)
  | .done _ _ _ => none
  | .at pc m w => match code[pc]? with
    | some (.label _ _ _) => some (.at (pc + 1) m w)
    | some (.inst i) => match stepI (H.env pc w) m i with
      | .next m' => some (.at (pc + 1) m' (worldAfter H pc m w i))
      | .jump n m' => (code.findIdx? (isItemLabel n)).map fun p => .at p m' w
      | .ret a m' => some (.done a m' w)
      | _ => none
    | _ => none

/-- `n` items -/
def ticks {W : Type} (H : Host W) (code : List Item) (c : Conf W) : Nat → Option (Conf W)
  | 0 => some c
  | n + 1 => (ticks H code c n).bind (tick H code)

/-! ### the stack of a function -/

/-- The private bytes of a function with `F` bytes of local objects below its frame base `bp` and `T` bytes of return address and arguments
from `bp` on, `D` being the depth its stack may reach: everything from `bp - D` to `bp + T` but the local objects. -/
def Priv (bp : BitVec 64) (F D T : Nat) (a : BitVec 64) : Prop :=
  ∃ x : Int, a = bp + BitVec.ofInt 64 x ∧ ((-(D : Int) ≤ x ∧ x < -(F : Int)) ∨ (0 ≤ x ∧ x < T))

/-- bytes of local objects, rounded up to 16 -/
def frameSize (n : Nat) : Nat := (n + 15) / 16 * 16

/-- saved frame pointer, return address, and the arguments after the sixth -/
def inSize (nargs : Nat) : Nat := 16 + 8 * (nargs - 6)

/-- The functions called do what the environment of the intermediate code says: entered on a private part of the stack with at least `room` bytes
left below it, the arguments in the right places, the stack aligned to 16 bytes before the return address and the memory not private to the caller as in the
intermediate code, they change memory and world accordingly, return the result in `rax` in the width it is asked for, and leave the private bytes
above their own arguments alone. Nor may the private bytes be accessed through pointers or by name. -/
structure Serves {W : Type} (E : IMach.Env W) (H : Host W) (F D T room : Nat) : Prop where
  abi : ∀ p w, Abi (H.env p w)
  ok : ∀ a, E.ok a = true → ¬ Priv E.bp F D T a
  glob : E.glob = H.sym
  fn : ∀ t vs s M w M' w' r m (x : Int), E.call t vs s M w = some (M', w', r) →
    m.regs .sp = E.bp + BitVec.ofInt 64 x → -(D : Int) + room ≤ x → x + 8 * (vs.length - 6 : Nat) + 8 ≤ -(F : Int) →
    ((m.regs .sp).toNat + 8) % 16 = 0 →
    (∀ k v, vs[k]? = some v → (argAt m k).setWidth v.1.bits = v.2) →
    (∀ a, ¬ Priv E.bp F D T a → m.mem a = M a) →
    ∃ m', H.fn t m w = some (m', w') ∧ get m' .ax s = r.setWidth s.bits ∧
      (∀ a, ¬ Priv E.bp F D T a → m'.mem a = M' a) ∧
      (∀ y : Int, x + 8 * (vs.length - 6 : Nat) + 8 ≤ y → Priv E.bp F D T (E.bp + BitVec.ofInt 64 y) → y < T →
        m'.mem (E.bp + BitVec.ofInt 64 y) = m.mem (E.bp + BitVec.ofInt 64 y))

/-- the machine when the function is entered -/
structure Entered {W : Type} (E : IMach.Env W) (F D T : Nat) (M : IMach.Mem) (e : Mach) : Prop where
  sp : e.regs .sp = E.bp + 8
  aligned : ((e.regs .sp).toNat + 8) % 16 = 0
  args : ∀ k v, E.args[k]? = some v → (argAt e k).setWidth v.1.bits = v.2
  mem : ∀ a, ¬ Priv E.bp F D T a → e.mem a = M a

/-- the machine when the function has returned to address `a`: stack pointer, the registers to be kept, the memory, and the result -/
structure Returned {W : Type} (E : IMach.Env W) (F D T : Nat) (e : Mach) (M : IMach.Mem) (ret : Option IMach.Val) (a : BitVec 64) (m : Mach) : Prop where
  back : a = load e (e.regs .sp) .quad
  sp : m.regs .sp = e.regs .sp + 8
  kept : ∀ r ∈ sysvKept, m.regs r = e.regs r
  mem : ∀ a, ¬ Priv E.bp F D T a → m.mem a = M a
  result : ∀ v, ret = some v → get m .ax v.1 = v.2

/-! ### instructions whose machine code is right -/

/-- a call in preparation: number of arguments, how many have been stored, whether the call has been made -/
structure Prep where
  n : Nat
  k : Nat
  called : Bool
  deriving DecidableEq, Repr

/-- bytes a call in preparation has on the stack: eight bytes of padding for an odd number of stack arguments, and the arguments;
after the call only the stack arguments and the padding -/
def Prep.held (p : Prep) : Nat :=
  if p.called then (if 6 < p.n then (p.n - 6 + 1) / 2 * 16 else 0)
  else (if 6 < p.n ∧ p.n % 2 = 1 then 8 else 0) + 8 * p.k

def heldAll : List Prep → Nat
  | [] => 0
  | p :: ps => p.held + heldAll ps

/-- how an instruction changes the calls in preparation -/
def prepAfter (x : Immc) (ps : List Prep) : List Prep :=
  match x with
  | .inst i => match i.op, i.fst, ps with
    | .prep, some (.int _ l), ps => ⟨l.value.toNat, 0, false⟩ :: ps
    | .starg, _, p :: ps => ⟨p.n, p.k + 1, p.called⟩ :: ps
    | .call, _, p :: ps => ⟨p.n, p.k, true⟩ :: ps
    | .clean, _, _ :: ps => ps
    | _, _, ps => ps
  | _ => ps

/-- a local object the operand may denote, with `s` bytes, is among the `n` bytes of local objects -/
def InFrame (n : Nat) (s : Nat) (o : Option Ope) : Prop := ∀ k, o = some (.mem k) → (s : Int) ≤ k ∧ k ≤ n

/-- first operand in a register, second operand a register other than that, or a literal -/
structure Pair (i : Inst) (fs : Sfx) (f : Int) (fu : Bool) (o : Ope) (w : Sfx) : Prop where
  fst : i.fst = some (.reg fs f fu)
  snd : i.snd = some o
  common : w = IMach.wider fs (IMach.width (some o))
  other : ∀ s u, o ≠ .reg s f u
  /-- no conversion of an unsigned 32-bit register to 64 bits -/
  wide : ¬ Widens true (.reg fs f fu) w
  wide2 : ¬ Widens true o w

/-- destination in a register; the result is not an unsigned 32-bit number for a 64-bit register -/
structure Dest (i : Inst) (w ds : Sfx) (d : Int) (du : Bool) : Prop where
  dst : i.dst = some (.reg ds d du)
  wide : ¬ (du = true ∧ w = .long ∧ ds = .quad)

/-- The machine code of instruction `i` computes what the intermediate instruction means: `live` are the registers live after it,
`flags` those reported alive by the intervals, `ps` the calls in preparation, `n` the bytes of local objects, `nargs` the number of arguments,
`early` whether the registers of the arguments still hold them. Register 1 is `rdx` and register 6 is `r10`. Not more than one register is
saved around a call: the second would be saved in `rbp`. -/
def Shape (live : Int → Prop) (flags : List Bool) (ps : List Prep) (n nargs : Nat) (early : Prop) (i : Inst) : Prop :=
  match i.op with
  | .load => ∃ ds d du o, i.dst = some (.reg ds d du) ∧ i.fst = some o ∧ LitLoads ds o ∧ ¬ Widens true o ds ∧ InFrame n ds.nbytes (some o)
  | .addr => ∃ o, i.fst = some o ∧ ∀ r, o ≠ .ptr r
  | .store => ∃ o, i.fst = some o ∧ LitFits (IMach.width (some o)) o ∧ InFrame n (IMach.width (some o)).nbytes i.dst
  | .str => ∃ k bs, i.dst = some (.mem k) ∧ i.fst = some (.str bs) ∧ (∀ c ∈ bs, c.toNat < 128) ∧
      (bs.length % 8 = 0 ∨ bs.length % 8 = 1 ∨ bs.length % 8 = 2 ∨ bs.length % 8 = 4) ∧ (bs.length : Int) ≤ k ∧ k ≤ n ∧ ¬ live 6
  | .ldarg => early ∧ ∃ k s j u, i.dst = some (.mem k) ∧ i.fst = some (.arg s j u) ∧ (s.nbytes : Int) ≤ k ∧ k ≤ n ∧ j < nargs ∧
      (6 ≤ j → ¬ live 6)
  | .starg => ∃ p rest j s u o, ps = p :: rest ∧ p.called = false ∧ p.k < p.n ∧ i.dst = some (.arg s j u) ∧ j = (p.n - 1 - p.k : Nat) ∧
      i.fst = some o ∧ LitFits .quad o
  | .stret => ∃ o, i.dst = none ∧ i.fst = some o ∧ LitLoads (IMach.width (some o)) o
  | .add | .sub | .and | .or | .xor => ∃ fs f fu o w ds d du, Pair i fs f fu o w ∧ Dest i w ds d du ∧ LitFits w o ∧ (f = d ∨ ¬ live f)
  | .mul => ∃ fs f fu o w ds d du, Pair i fs f fu o w ∧ Dest i w ds d du ∧ LitFits w o ∧ w ≠ .byte ∧ ¬ Widens false o w
  | .div | .mod => ∃ fs f fu o w ds d du, Pair i fs f fu o w ∧ Dest i w ds d du ∧ LitLoads w o ∧ w ≠ .byte ∧ ¬ Widens false o w ∧
      (live 1 → d ≠ 1 → flags[1]? = some true ∧ f ≠ 1) ∧ (∀ s l, o = .int s l → d = 6 ∨ ¬ live 6) ∧ (∀ s u, o = .reg s 1 u → f = d ∨ ¬ live f)
  | .sal | .sar => ∃ fs f fu s l w ds d du, Pair i fs f fu (.int s l) w ∧ Dest i w ds d du ∧ 0 ≤ l.value ∧ l.value < w.bits ∧
      (i.op = .sar → fu = false) ∧ (f = d ∨ ¬ live f)
  | .neg | .not => ∃ fs f fu ds d du, i.fst = some (.reg fs f fu) ∧ i.snd = none ∧ i.dst = some (.reg ds d du) ∧
      ¬ (fu = true ∧ fs = .long ∧ ds = .quad) ∧ (f = d ∨ ¬ live f)
  | .seteq | .setneq | .setlt | .setgt | .setleq | .setgeq => ∃ fs f fu o w ds du, Pair i fs f fu o w ∧ i.dst = some (.reg ds f du) ∧ LitFits w o
  | .jmp => ∃ l, i.dst = some (.label l)
  | .jeq | .jneq | .jgt | .jgeq | .jlt | .jleq => ∃ fs f fu o w l, Pair i fs f fu o w ∧ i.dst = some (.label l) ∧ LitFits w o
  | .call => ∃ o s l p rest, i.fst = some o ∧ i.snd = some (.int s l) ∧ ps = p :: rest ∧ p.called = false ∧ p.k = p.n ∧ l.value = p.n ∧
      p.n < 2 ^ 27 ∧ heldAll rest % 16 = 0 ∧ (i.dst = none ∨ ∃ ds d du, i.dst = some (.reg ds d du) ∧ ds ≠ .none) ∧
      (∀ u, live u → (∀ s d, i.dst ≠ some (.reg s u d)) → flags[u.toNat]? = some true) ∧
      (∀ a b : Nat, flags[a]? = some true → flags[b]? = some true → (∀ s d, i.dst ≠ some (.reg s a d)) → (∀ s d, i.dst ≠ some (.reg s b d)) → a = b)
  | .prep => ∃ s l, i.dst = none ∧ i.fst = some (.int s l) ∧ 0 ≤ l.value
  | .clean => ∃ s l p rest, i.dst = none ∧ i.fst = some (.int s l) ∧ ps = p :: rest ∧ p.called = true ∧ l.value = p.n ∧ p.n < 2 ^ 27
  | .enter | .leave => False

/-- the flags of the eight register sequences after `k` items -/
def Reports (qs : List Liveseq) (k : Nat) (fl : List Bool) : Prop :=
  ∀ (j : Nat) (q : Liveseq), qs[j]? = some q → ∃ q', q.nextN k = .ok q' ∧ ∃ b, fl[j]? = some b ∧ q'.isAlive = .ok b

/-- Allocated code of a function all of whose instructions are translated correctly: `n` bytes of local objects, `K` arguments stored at the beginning,
`A` the calls in preparation at every line, `Z` the lines after the return value has been set, `qs` the intervals. -/
structure Suits (out : List Immc) (qs : List Liveseq) (n nargs K : Nat) (flags : Nat → List Bool) (A : Nat → List Prep) (Z : Nat → Prop) : Prop where
  head : ∃ t v f s, ∃ l : ILit, out[0]? = some (.label t v f) ∧ out[1]? = some (.inst ⟨.enter, none, some (.int s l), none⟩) ∧ l.value = (n : Int)
  last : ∃ s, ∃ l : ILit, out[out.length - 1]? = some (.inst ⟨.leave, none, some (.int s l), none⟩) ∧ l.value = (n : Int)
  long : 3 ≤ out.length
  eight : qs.length = 8
  noData : ∀ (i : Nat) d, out[i]? ≠ some (Immc.data d)
  labels : RSpec.UniqueLabels out
  regs : ∀ (i : Nat) x u, out[i]? = some x → (u ∈ RSpec.reads x ∨ RSpec.writes x = some u) → 0 ≤ u ∧ u < 8
  fresh : ∀ u, ¬ RSpec.LiveIn out u 2
  forward : ∀ i j, RSpec.Succ out i j → j = i + 1 ∨ 2 ≤ j
  shape : ∀ i x, 2 ≤ i → i + 1 < out.length → out[i]? = some (.inst x) →
    Shape (fun u => RSpec.LiveOut out u i) (flags i) (A i) n nargs (i < K + 2) x
  flags : ∀ i, 2 ≤ i → i + 1 < out.length → (flags i).length = 8 ∧ Reports qs i (flags i)
  args : ∀ i x, 2 ≤ i → i < K + 2 → out[i]? = some x → ∃ d f s, x = .inst ⟨.ldarg, d, f, s⟩
  start : A 2 = []
  finish : A (out.length - 1) = []
  prep : ∀ i j x, 2 ≤ i → out[i]? = some x → RSpec.Succ out i j → j < out.length → A j = prepAfter x (A i)
  ret : ∀ i j d f s, out[i]? = some (.inst ⟨.stret, d, f, s⟩) → RSpec.Succ out i j → Z j
  zone : ∀ i x, Z i → out[i]? = some x → (∃ t v f, x = .label t v f) ∨ (∃ d f s, x = .inst ⟨.jmp, d, f, s⟩) ∨ (∃ d f s, x = .inst ⟨.leave, d, f, s⟩)
  zoneNext : ∀ i j, Z i → RSpec.Succ out i j → Z j

end X86
end Umlcc
