import Verif.Model.Map
import Verif.Model.DType
/-!
Model of `src/symtab/symtab.c`, `src/symtab/symbol.c`: symbol tables as a chain of scopes, innermost first, each
with the hash map of `map.c`. `src/tagtab/tagtab.c` has the same scope functions without memory.

Names are identifiers, i.e. strings of ASCII bytes (the lexer builds identifiers from letters, digits and `_`).
-/
namespace Umlcc

/-- identifier: a C string of ASCII bytes -/
abbrev Name := { s : List UInt8 // ∀ b ∈ s, b.toNat < 128 }

/-- hash of a table with `t_hashable_string` keys -/
def hashName (n : Name) : Int := hashString n.1

/-- `struct Symbol`, symbol.h; `SYMBOL_LABEL`, `SYMBOL_MEM` with offset, `SYMBOL_INT` with the literal's value -/
inductive SymKind where
  | label
  | mem (offset : Nat)
  | int (value : Int)
  deriving DecidableEq

structure Symbol where
  kind : SymKind
  dtype : DType
  deriving DecidableEq

/-- one `SymbolTable` node (symtab.h): the map and `memory_nbytes` -/
structure Scope where
  map : HMap Name Symbol
  mem : Nat

/-- a table: its scopes innermost first; `[]` is the NULL table -/
abbrev SymTab := List Scope

namespace SymTab

/-- `new_symboltable`, symtab.c:8-14 -/
def new : SymTab := [⟨HMap.new, 0⟩]

/-- `symboltable_enter_scope`, symtab.c:74-81 -/
def enter : SymTab → SymTab
  | [] => [⟨HMap.new, 0⟩]
  | s :: ss => ⟨HMap.new, s.mem⟩ :: s :: ss

/-- `symboltable_exit_scope`, symtab.c:83-91; on the NULL table a NULL dereference -/
def exit : SymTab → Out SymTab
  | [] => .ub
  | [_] => .ok []
  | s :: o :: ss => .ok (⟨o.map, s.mem⟩ :: ss)

/-- `symboltable_can_define`, symtab.c:27-29 -/
def canDefine (t : SymTab) (n : Name) : Out Bool :=
  match t with
  | [] => .ub
  | s :: _ => do let r ← s.map.get hashName n; pure r.isNone

/-- add to the innermost map -/
def addSym (t : SymTab) (n : Name) (sym : Symbol) : Out SymTab :=
  match t with
  | [] => .ub
  | s :: ss => do let m ← s.map.add hashName n sym; pure (⟨m, s.mem⟩ :: ss)

/-- `symboltable_define_label` (symtab.c:31-39) and `symboltable_define_integer` (symtab.c:52-60): `none` is NULL -/
def defineKind (k : SymKind) (t : SymTab) (n : Name) (ty : DType) : Out (SymTab × Option Symbol) := do
  let b ← canDefine t n
  if b then
    let sym : Symbol := ⟨k, ty⟩
    let t ← addSym t n sym
    pure (t, some sym)
  else pure (t, none)

/-- `min_multiple_of(n, 4)` -/
def up4 (n : Nat) : Nat := (n + 4 - 1) / 4 * 4

/-- `symboltable_define_memory`, symtab.c:41-50 -/
def defineMem (t : SymTab) (n : Name) (ty : DType) : Out (SymTab × Option Symbol) := do
  let b ← canDefine t n
  if b then
    match t with
    | [] => .ub
    | s :: ss =>
      let mem := up4 (s.mem + ty.nbytes)
      let sym : Symbol := ⟨.mem mem, ty⟩
      let t ← addSym (⟨s.map, mem⟩ :: ss) n sym
      pure (t, some sym)
  else pure (t, none)

/-- `symboltable_search`, symtab.c:62-72 -/
def search : SymTab → Name → Out (Option Symbol)
  | [], _ => .ok none
  | s :: ss, n => do
    let r ← s.map.get hashName n
    match r with
    | some sym => pure (some sym)
    | none => search ss n

end SymTab

/-- calls of the symbol table API in the order the resolver makes them -/
inductive SOp where
  | enter
  | exit
  | label (n : Name) (ty : DType)
  | int (n : Name) (ty : DType) (v : Int)
  | mem (n : Name) (ty : DType)

namespace SymTab

/-- one call; the second component is the symbol defined, if any -/
def step (t : SymTab) : SOp → Out (SymTab × Option Symbol)
  | .enter => .ok (t.enter, none)
  | .exit => do let t ← t.exit; pure (t, none)
  | .label n ty => defineKind .label t n ty
  | .int n ty v => defineKind (.int v) t n ty
  | .mem n ty => defineMem t n ty

/-- a history of calls; the second component lists the results (`none` = NULL or no result) -/
def run (t : SymTab) : List SOp → Out (SymTab × List (Option Symbol))
  | [] => .ok (t, [])
  | o :: os => do
    let (t, r) ← step t o
    let (t, rs) ← run t os
    pure (t, r :: rs)

end SymTab
end Umlcc
