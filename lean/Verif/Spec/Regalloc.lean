import Verif.Model.Immc
/-!
What register allocation has to respect, stated on plain instruction lists:
reads, writes, control flow, liveness as existence of a path, and an abstract machine.
Nothing here refers to basic blocks, sets or intervals.
-/
namespace Umlcc
namespace RSpec

/-- registers an operand mentions -/
def opeRegs : Option Ope → List Int
  | some (.reg _ id _) => [id]
  | some (.ptr id) => [id]
  | _ => []

/-- registers read by an item: the sources, and the pointer of a store through a pointer -/
def reads : Immc → List Int
  | .inst i => opeRegs i.fst ++ opeRegs i.snd ++ (match i.dst with | some (.ptr id) => [id] | _ => [])
  | _ => []

/-- register written by an item -/
def writes : Immc → Option Int
  | .inst ⟨_, some (.reg _ id _), _, _⟩ => some id
  | _ => none

/-- instructions that may transfer control to a label -/
def branches : IOp → Bool
  | .jmp | .jeq | .jneq | .jgt | .jgeq | .jlt | .jleq => true
  | _ => false

/-- the label an item may transfer control to -/
def target : Immc → Option Name
  | .inst ⟨op, some (.label n), _, _⟩ => if branches op then some n else none
  | _ => none

def isLabelNamed (n : Name) : Immc → Bool
  | .label _ _ m => decide (m = n)
  | _ => false

/-- control may go from item `i` to item `j` -/
def Succ (code : List Immc) (i j : Nat) : Prop :=
  ∃ x, code[i]? = some x ∧
    ((j = i + 1 ∧ ∀ d f s, x ≠ .inst ⟨.jmp, d, f, s⟩) ∨
     ∃ n y, target x = some n ∧ code[j]? = some y ∧ isLabelNamed n y = true)

/-- some path starting before item `i` reaches a read of `v` with no write of `v` in between -/
inductive LiveIn (code : List Immc) (v : Int) : Nat → Prop
  | read {i x} : code[i]? = some x → v ∈ reads x → LiveIn code v i
  | thru {i j x} : code[i]? = some x → writes x ≠ some v → Succ code i j → LiveIn code v j → LiveIn code v i

/-- `v` is live when control leaves item `i` -/
def LiveOut (code : List Immc) (v : Int) (i : Nat) : Prop := ∃ j, Succ code i j ∧ LiveIn code v j

/-- no two labels have the same name -/
def UniqueLabels (code : List Immc) : Prop :=
  ∀ (i j : Nat) n x y, code[i]? = some x → code[j]? = some y →
    isLabelNamed n x = true → isLabelNamed n y = true → i = j

/-- control never goes back (to an earlier item or the same one) while a register is live there -/
def BackDead (code : List Immc) : Prop :=
  ∀ (i j : Nat) u, Succ code i j → j ≤ i → ¬ LiveIn code u j

/-- every branch instruction is one of those the compiler's own jump test knows (`JMP`, `JEQ`, `JNEQ`, `JGT`, `JGEQ`) -/
def KnownBranches (code : List Immc) : Prop := ∀ x ∈ code, target x ≠ none → x.isJump = true

/-- a live register has been written on some earlier line -/
def DefBefore (code : List Immc) : Prop :=
  ∀ (i : Nat) u, LiveIn code u i → ∃ (k : Nat) (x : Immc), k < i ∧ code[k]? = some x ∧ writes x = some u

/-- A write is not useless, or happens where it cannot hurt: it is the first write of this or any higher register,
or the register is read on this or a later line, or no other register is live after it. -/
def WritesMatter (code : List Immc) : Prop :=
  ∀ (i : Nat) x v, code[i]? = some x → writes x = some v →
    (∀ (k : Nat) y w, k < i → code[k]? = some y → writes y = some w → w < v) ∨
    (∃ (k : Nat) (y : Immc), i ≤ k ∧ code[k]? = some y ∧ v ∈ reads y) ∨
    (∀ u, u ≠ v → ¬ LiveOut code u i)

/-- a register that is never read is at least written before any higher-numbered register is -/
def FirstOrRead (code : List Immc) : Prop :=
  ∀ u : Int, 0 ≤ u → (∃ (k : Nat) (x : Immc), code[k]? = some x ∧ u ∈ reads x) ∨
    ∀ (k : Nat) x w, code[k]? = some x → writes x = some w → u < w →
      ∃ (k' : Nat) (y : Immc), k' < k ∧ code[k']? = some y ∧ writes y = some u

/-- renaming the registers of an operand -/
def renameOpe (ρ : Int → Int) : Option Ope → Option Ope
  | some (.reg s id u) => some (.reg s (ρ id) u)
  | some (.ptr id) => some (.ptr (ρ id))
  | o => o

/-- renaming the registers of an item -/
def rename (ρ : Int → Int) : Immc → Immc
  | .inst i => .inst ⟨i.op, renameOpe ρ i.dst, renameOpe ρ i.fst, renameOpe ρ i.snd⟩
  | x => x

/-- operand with its register number forgotten -/
def eraseOpe : Option Ope → Option Ope
  | some (.reg s _ u) => some (.reg s 0 u)
  | some (.ptr _) => some (.ptr 0)
  | o => o

/-- instruction with its register numbers forgotten -/
def eraseInst (i : Inst) : Inst := ⟨i.op, eraseOpe i.dst, eraseOpe i.fst, eraseOpe i.snd⟩

/-- What an instruction does, whatever that is: from its shape, the values of the registers it reads and the rest
of the machine state it computes the new rest of the state, the value for its destination register and whether
its branch is taken; `none` if it gets stuck. -/
abbrev Sem (Val St : Type) := Inst → List Val → St → Option (St × Val × Bool)

structure Mach (Val St : Type) where
  pc : Nat
  regs : Int → Val
  st : St

/-- position of the first label with that name -/
def labelPos (code : List Immc) (n : Name) : Option Nat := code.findIdx? (isLabelNamed n)

/-- one step of the abstract machine; `none`: stuck or past the end -/
def step {Val St : Type} (sem : Sem Val St) (code : List Immc) (m : Mach Val St) : Option (Mach Val St) :=
  match code[m.pc]? with
  | none => none
  | some (.inst i) =>
    match sem (eraseInst i) ((reads (.inst i)).map m.regs) m.st with
    | none => none
    | some (st, val, taken) =>
      let regs := match writes (.inst i) with
        | some r => fun q => if q = r then val else m.regs q
        | none => m.regs
      match target (.inst i) with
      | none => if i.op = .jmp then none else some ⟨m.pc + 1, regs, st⟩
      | some n =>
        if i.op = .jmp ∨ taken = true then (labelPos code n).map fun p => ⟨p, regs, st⟩
        else some ⟨m.pc + 1, regs, st⟩
  | some _ => some ⟨m.pc + 1, m.regs, m.st⟩

/-- the state after `n` steps -/
def run {Val St : Type} (sem : Sem Val St) (code : List Immc) (m : Mach Val St) : Nat → Option (Mach Val St)
  | 0 => some m
  | n + 1 => (run sem code m n).bind (step sem code)

/-- What one can see of a machine: where it is and its memory, arguments, output ... but not its registers. -/
def seen {Val St : Type} (m : Option (Mach Val St)) : Option (Nat × St) := m.map fun m => (m.pc, m.st)

end RSpec
end Umlcc
