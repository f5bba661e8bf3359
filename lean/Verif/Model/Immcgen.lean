import Verif.Model.Srt
import Verif.Model.Immc
/-!
Model of `src/immcgen/*.c`: from the typed tree to intermediate code.

`struct Immcgen` (immcgen.h) is the state `GState`. Fields that a caller sets before a call and restores after it are arguments
(`srt`, `initialized_dtype`). The generating functions return vectors that their callers append to their own; here `GM` collects the
code in order, and `capture` is a vector built separately.

Simplifications: pointers to operands are values. The symbol and tag tables are lists of scopes, innermost first, as in the resolver's model
(C24, C25 justify this); `memory_nbytes` of a scope is copied in at `symboltable_enter_scope` and out at `symboltable_exit_scope`, so it is one
number. `int` overflow of counters is ignored. Names are ASCII (other names have undefined hash values, C06_hash_string_violated).
-/
namespace Umlcc
namespace Gen

/-- entries of the symbol table, symbol.h: `SYMBOL_LABEL` or `SYMBOL_MEM` with its offset, and the type -/
inductive Loc where
  | label
  | mem (offset : Nat)
  deriving DecidableEq

/-- `memory_offset`, symbol.c: -1 for labels -/
def Loc.off : Loc → Int
  | .mem o => o
  | .label => -1

structure GSym where
  loc : Loc
  dt : DType
  deriving DecidableEq

/-- `struct Immcgen`, immcgen.h -/
structure GState where
  syms : List (List (Str × GSym))
  /-- `symbol_table->memory_nbytes` -/
  mem : Nat
  tags : List (List (Str × DType))
  /-- `expr_reg_suffix` and `expr_reg` (number, unsigned); `none` is NULL -/
  exprReg : Option (Sfx × Int × Bool)
  /-- `next_reg_id` -/
  reg : Int
  /-- `initialized_offset` -/
  initOff : Int
  cont : Int
  brk : Int
  ret : Int
  /-- `case_label_values`; `none` is NULL -/
  cases : Option (List (Int × ILit))
  /-- `default_label_id` -/
  dflt : Int
  /-- `label_id` -/
  lab : Int
  deriving DecidableEq

/-- `new_immcgen`, immcgen.c:10-26; `default_label_id` is not set there, it is saved and restored but not otherwise used before being set -/
def initial : GState := ⟨[[]], 0, [[]], none, -1, -1, -1, -1, -1, none, -1, -1⟩

/-- a generating function: its result, the code it appends, the new state -/
def GM (α : Type) := GState → Out (α × List Immc × GState)

namespace GM
def pure (a : α) : GM α := fun s => .ok (a, [], s)
def bind (m : GM α) (f : α → GM β) : GM β := fun s =>
  match m s with
  | .ok (a, c, s) =>
    match f a s with
    | .ok (b, c', s) => .ok (b, c ++ c', s)
    | .err => .err
    | .fatal => .fatal
    | .ub => .ub
    | .hang => .hang
  | .err => .err
  | .fatal => .fatal
  | .ub => .ub
  | .hang => .hang
instance : Monad GM where
  pure := GM.pure
  bind := GM.bind
end GM

/-- `exit(1)` after "unreachable statement" -/
def fatal : GM α := fun _ => .fatal
def ub : GM α := fun _ => .ub
def get : GM GState := fun s => .ok (s, [], s)
def modify (f : GState → GState) : GM Unit := fun s => .ok ((), [], f s)
/-- `vector_push(codes, ...)` -/
def emit (x : Immc) : GM Unit := fun s => .ok ((), [x], s)
/-- a list of codes, `vector_extend` -/
def emits (xs : List Immc) : GM Unit := fun s => .ok ((), xs, s)
/-- the code goes to a vector of its own -/
def capture (m : GM α) : GM (α × List Immc) := fun s =>
  match m s with
  | .ok (a, c, s) => .ok ((a, c), [], s)
  | .err => .err
  | .fatal => .fatal
  | .ub => .ub
  | .hang => .hang
def lift (x : Out α) : GM α := fun s =>
  match x with
  | .ok a => .ok (a, [], s)
  | .err => .err
  | .fatal => .fatal
  | .ub => .ub
  | .hang => .hang

/-! ### labels, immc/util.c -/

/-- decimal digits, most significant first; `fuel` bounds their number -/
def decAux : Nat → Nat → List UInt8
  | 0, _ => []
  | fuel + 1, n => if n < 10 then [UInt8.ofNat (48 + n)] else decAux fuel (n / 10) ++ [UInt8.ofNat (48 + n % 10)]

/-- `%d` -/
def dec (i : Int) : List UInt8 :=
  match i with
  | .ofNat n => decAux (n + 1) n
  | .negSucc n => 45 :: decAux (n + 2) (n + 1)

theorem decAux_ascii : ∀ fuel n, ∀ b ∈ decAux fuel n, b.toNat < 128
  | 0, _ => by simp [decAux]
  | fuel + 1, n => by
    intro b hb
    simp only [decAux] at hb
    split at hb
    · simp only [List.mem_singleton] at hb
      subst hb
      simp only [UInt8.toNat_ofNat']
      omega
    · simp only [List.mem_append, List.mem_singleton] at hb
      rcases hb with hb | hb
      · exact decAux_ascii fuel _ b hb
      · subst hb
        simp only [UInt8.toNat_ofNat']
        omega

theorem dec_ascii (i : Int) : ∀ b ∈ dec i, b.toNat < 128 := by
  cases i with
  | ofNat n => exact decAux_ascii _ _
  | negSucc n =>
    intro b hb
    rcases List.mem_cons.1 hb with rfl | hb
    · decide
    · exact decAux_ascii _ _ b hb

/-- `create_label_name`, immc/util.c:7-13 -/
def labelName (id : Int) : Name := ⟨46 :: 76 :: dec id, by
  intro b hb
  rcases List.mem_cons.1 hb with rfl | hb
  · decide
  rcases List.mem_cons.1 hb with rfl | hb
  · decide
  exact dec_ascii id b hb⟩

/-- `create_sliteral_label`, immc/util.c:15-21 -/
def stringName (id : Int) : Name := ⟨46 :: 83 :: 76 :: dec id, by
  intro b hb
  rcases List.mem_cons.1 hb with rfl | hb
  · decide
  rcases List.mem_cons.1 hb with rfl | hb
  · decide
  rcases List.mem_cons.1 hb with rfl | hb
  · decide
  exact dec_ascii id b hb⟩

/-- an identifier as label name -/
def nameOf (s : Str) : GM Name := fun st => if h : ∀ b ∈ s, b.toNat < 128 then .ok (⟨s, h⟩, [], st) else .ub

/-- `new_label_immcope_from_id`, immc/ope.c -/
def labelOpe (id : Int) : Ope := .label (labelName id)
/-- `new_label_immc_from_id(IMMC_LABEL_NORMAL, IMMC_VIS_NONE, id)` -/
def labelAt (id : Int) : Immc := .label .normal .none (labelName id)

/-- `immcgen->label_id++` and its new value -/
def newLabel : GM Int := do
  modify fun s => { s with lab := s.lab + 1 }
  let s ← get
  pure s.lab

/-! ### util.c -/

def inst (op : IOp) (dst : Option Ope) (fst : Option Ope) (snd : Option Ope) : Immc := .inst ⟨op, dst, fst, snd⟩

/-- `new_signed_int_immcope(suffix, INTEGER_INT, value)` -/
def intOpe (sfx : Sfx) (v : Int) : Ope := .int sfx ⟨.int, v⟩

/-- `immcgen->next_reg_id++` and its new value -/
def newReg : GM Int := do
  modify fun s => { s with reg := s.reg + 1 }
  let s ← get
  pure s.reg

/-- `create_dest_reg_immcope`, util.c:187-192, for a node of type `t` -/
def destReg (t : DType) : GM Ope := do
  let r ← newReg
  pure (.reg (Sfx.get t.nbytes) r t.isUnsigned)

/-- `update_non_void_expr_register`, util.c:90-96; the operands passed are registers (`dst->reg` is NULL for others) -/
def setExpr : Ope → GM Unit
  | .reg s r u => modify fun st => { st with exprReg := some (s, r, u) }
  | .ptr r => modify fun st => { st with exprReg := some (.quad, r, false) }
  | .arg s r u => modify fun st => { st with exprReg := some (s, r, u) }
  | _ => ub

/-- `update_void_expr_register`, util.c:98-104 -/
def setVoid : GM Unit := modify fun st => { st with exprReg := none }

/-- the operand `new_reg_immcope(immcgen->expr_reg_suffix, immcreg_copy(immcgen->expr_reg))`; copying NULL is undefined -/
def exprOpe : GM Ope := do
  let s ← get
  match s.exprReg with
  | some (sf, r, u) => pure (.reg sf r u)
  | none => ub

/-- `iliteral_type_get`, iliteral.c:87-95 -/
def litTypeGet (rank : Nat) (uns : Bool) : ILType :=
  if rank < 3 then if uns then .uint else .int
  else if rank = 3 then if uns then .ulong else .long
  else if uns then .ullong else .llong

/-- conversion to `unsigned long long` -/
def toU64 (v : Int) : Int := v % 18446744073709551616
/-- conversion to `long long` -/
def toS64 (v : Int) : Int := (v + 9223372036854775808) % 18446744073709551616 - 9223372036854775808

/-- `create_dtyped_iliteral`, util.c:194-206 -/
def dtypedLit (t : DType) (l : ILit) : ILit :=
  if t.isUnsigned then ⟨litTypeGet t.scalarRank true, toU64 l.value⟩
  else ⟨litTypeGet t.scalarRank false, toS64 l.value⟩

/-- The ways in which a parent generates code for a child expression: `code` is `append_child_immcode`; `int cast` is
`gen_child_int_immcope` with the outermost cast already stripped; `ptr` is `gen_child_ptr_immcope`; `jmp` is
`append_child_jmp_cond_immcode` without the last instruction, which is returned as a function of its label. -/
structure G where
  code : GM Unit
  int : Option DType → GM Ope
  ptr : GM Ope
  jmp : Bool → GM (Name → Immc)

/-- `gen_child_reg_immcope`, util.c:150-162 -/
def G.reg (g : G) : GM Ope := do
  let o ← g.int none
  match o with
  | .reg s r u => pure (.reg s r u)
  | .int s l => do
    let r ← newReg
    emit (inst .load (some (.reg s r l.type.isUnsigned)) (some o) none)
    pure (.reg s r l.type.isUnsigned)
  | _ => ub

/-- the end of `gen_child_int_immcope` for a child that is not a literal, util.c:127-147: the child's register, converted if there was a cast -/
def castReg (cast : Option DType) : GM Ope := do
  let src ← exprOpe
  match cast with
  | none => pure src
  | some t => do
    let dst ← destReg t
    emit (inst .load (some dst) (some src) none)
    pure dst

/-- `gen_child_ptr_immcope` for a child that is not the address of an identifier, util.c:183-184 -/
def ptrOf (code : GM Unit) : GM Ope := do
  code
  let s ← get
  pure (.ptr s.reg)

/-- `append_child_jmp_cond_immcode` for a child that is not a comparison, util.c:51-58 -/
def jmpZero (reg : GM Ope) (b : Bool) : GM (Name → Immc) := do
  let src ← reg
  match src with
  | .reg s r u => pure fun n => inst (if b then .jneq else .jeq) (some (.label n)) (some (.reg s r u)) (some (intOpe s 0))
  | _ => ub

/-- child whose code is generated by `code` -/
def G.of (code : GM Unit) (int : Option DType → GM Ope) : G :=
  ⟨code, int, ptrOf code, jmpZero (G.reg ⟨code, int, ptrOf code, fun _ => ub⟩)⟩

/-- child that is not a literal, cast, address of an identifier, or comparison -/
def G.plain (code : GM Unit) : G := G.of code fun cast => do code; castReg cast

/-- `get_cjmp_inst_type`, util.c:69-88 -/
def cjmp : SBin → Bool → Option IOp
  | .equal, b => some (if b then .jeq else .jneq)
  | .nequal, b => some (if b then .jneq else .jeq)
  | .less, b => some (if b then .jlt else .jgeq)
  | .greater, b => some (if b then .jgt else .jleq)
  | .lesseq, b => some (if b then .jleq else .jgt)
  | .greatereq, b => some (if b then .jgeq else .jlt)
  | _, _ => none

/-- `append_child_jmp_cond_immcode` for a comparison, util.c:60-66 -/
def jmpCmp (op : IOp) (l r : G) : GM (Name → Immc) := do
  let f ← l.reg
  let s ← r.int none
  pure fun n => inst op (some (.label n)) (some f) (some s)

/-! ### expression.c -/

/-- the innermost entry of a name, `symboltable_search`, `tagtable_search` -/
def lookup (n : Str) : List (List (Str × α)) → Option α
  | [] => none
  | sc :: scs => (sc.lookup n).or (lookup n scs)

/-- `symboltable_search` and the operand for the symbol, e.g. expression.c:715-722; a NULL result is dereferenced -/
def symOpe (n : Str) : GM Ope := do
  let s ← get
  match lookup n s.syms with
  | none => ub
  | some ⟨.label, _⟩ => do let m ← nameOf n; pure (.label m)
  | some ⟨.mem o, _⟩ => pure (.mem o)

/-- `gen_assignment_expr_immcode`, expression.c:11-21 -/
def assignCode (l r : G) : GM Unit := do
  let src ← r.reg
  let dst ← l.ptr
  emit (inst .store (some dst) (some src) none)
  setExpr src

/-- `gen_conditional_expr_immcode`, expression.c:23-55 -/
def condCode (t : DType) (c l r : G) : GM Unit := do
  let no ← newLabel
  let done ← newLabel
  let j ← c.jmp false
  emit (j (labelName no))
  let dst ← destReg t
  let src ← l.reg
  emit (inst .load (some dst) (some src) none)
  emit (inst .jmp (some (labelOpe done)) none none)
  emit (labelAt no)
  let src ← r.reg
  emit (inst .load (some dst) (some src) none)
  emit (labelAt done)
  setExpr dst

/-- suffix of an operand -/
def sfxOf : Ope → Sfx
  | .arg s _ _ | .reg s _ _ | .int s _ => s
  | .ptr _ => .quad
  | _ => .none

/-- `gen_logical_or_expr_immcode` (`b` true), `gen_logical_and_expr_immcode` (`b` false), expression.c:57-129 -/
def logicalCode (b : Bool) (t : DType) (l r : G) : GM Unit := do
  let short ← newLabel
  let done ← newLabel
  let j ← l.jmp b
  emit (j (labelName short))
  let j ← r.jmp b
  emit (j (labelName short))
  let dst ← destReg t
  emit (inst .load (some dst) (some (intOpe (sfxOf dst) (if b then 0 else 1))) none)
  emit (inst .jmp (some (labelOpe done)) none none)
  emit (labelAt short)
  emit (inst .load (some dst) (some (intOpe (sfxOf dst) (if b then 1 else 0))) none)
  emit (labelAt done)
  setExpr dst

/-- `gen_bitwise_expr_immcode`, `gen_equality_expr_immcode`, `gen_relational_expr_immcode`, `gen_shift_expr_immcode`,
`gen_additive_expr_immcode`, `gen_multiplicative_expr_immcode`, expression.c:131-263, 322-348 -/
def arithCode (op : IOp) (t : DType) (l r : G) : GM Unit := do
  let f ← l.reg
  let s ← r.int none
  let dst ← destReg t
  emit (inst op (some dst) (some f) (some s))
  setExpr dst

/-- size of what a pointer points to; other types have no `dpointer` -/
def strideOf : DType → GM Nat
  | .ptr t => pure t.nbytes
  | _ => ub

/-- `gen_pointer_additive_expr_immcode`, expression.c:265-297; `lt` is the type of the first operand -/
def ptrAddCode (op : IOp) (t lt : DType) (l r : G) : GM Unit := do
  let f ← l.reg
  let s ← r.reg
  let dst ← destReg t
  let n ← strideOf lt
  emit (inst .mul (some s) (some s) (some (intOpe (sfxOf s) n)))
  emit (inst op (some dst) (some f) (some s))
  setExpr dst

/-- `gen_pointer_diff_expr_immcode`, expression.c:299-320 -/
def ptrDiffCode (t lt : DType) (l r : G) : GM Unit := do
  let f ← l.reg
  let s ← r.reg
  let dst ← destReg t
  let n ← strideOf lt
  emit (inst .sub (some dst) (some f) (some s))
  emit (inst .div (some dst) (some dst) (some (intOpe (sfxOf dst) n)))
  setExpr dst

/-- `gen_identifier_address_expr_immcode`, `gen_string_address_expr_immcode`, expression.c:418-455 -/
def addrCode (t : DType) (src : GM Ope) : GM Unit := do
  let src ← src
  let dst ← destReg t
  emit (inst .addr (some dst) (some src) none)
  setExpr dst

/-- members of the struct that `t` points to, expression.c:467-471; the NULL result of `tagtable_search` is dereferenced -/
def membersOf (t : DType) : GM Members :=
  match t with
  | .ptr (.ustruct ms _ _) => pure ms
  | .ptr (.nstruct n _ _) => do
    let s ← get
    match lookup n s.tags with
    | some (.ustruct ms _ _) => pure ms
    | _ => ub
  | _ => ub

/-- offset of the first member with the name, expression.c:473-482 -/
def offsetIn (m : Str) : Members → Option Nat
  | .nil => none
  | .cons n _ o ms => if n = m then some o else offsetIn m ms

/-- `gen_tomember_address_expr_immcode`, expression.c:457-492: `t` is the type of the address, `st` of the pointer to the struct; the offset of
a member that is not found is read through NULL -/
def memberAddrCode (t st : DType) (e : G) (m : Str) : GM Unit := do
  let f ← e.reg
  let ms ← membersOf st
  match offsetIn m ms with
  | none => ub
  | some o => do
    let dst ← destReg t
    emit (inst .add (some dst) (some f) (some (intOpe .quad o)))
    setExpr dst

/-- `gen_tomember_expr_immcode`, expression.c:633-648 -/
def memberCode (t st : DType) (e : G) (m : Str) : GM Unit := do
  memberAddrCode (.ptr t) st e m
  let s ← get
  match s.exprReg with
  | none => ub
  | some (_, r, _) => do
    let dst ← destReg t
    emit (inst .load (some dst) (some (.ptr r)) none)
    setExpr dst

/-- `gen_indirection_expr_immcode`, expression.c:507-517 -/
def indirCode (t : DType) (e : G) : GM Unit := do
  let src ← e.ptr
  let dst ← destReg t
  emit (inst .load (some dst) (some src) none)
  setExpr dst

/-- `gen_positive_expr_immcode`, expression.c:519-528 -/
def posCode (e : G) : GM Unit := do
  let dst ← e.reg
  setExpr dst

/-- `gen_negative_expr_immcode`, `gen_not_expr_immcode`, expression.c:530-552 -/
def unCode (op : IOp) (t : DType) (e : G) : GM Unit := do
  let src ← e.int none
  let dst ← destReg t
  emit (inst op (some dst) (some src) none)
  setExpr dst

/-- `gen_logical_not_expr_immcode`, expression.c:554-564 -/
def lnotCode (t : DType) (e : G) : GM Unit := do
  let src ← e.reg
  let dst ← destReg t
  emit (inst .seteq (some dst) (some src) (some (intOpe (sfxOf src) 0)))
  setExpr dst

/-- the operand added or subtracted, expression.c:659-668; other types have no `dpointer` -/
def incOpe (sfx : Sfx) (t : DType) : GM Ope :=
  if t.isSigned then pure (intOpe sfx 1)
  else if t.isUnsigned then pure (.int sfx ⟨.uint, 1⟩)
  else match t with
    | .ptr t => pure (intOpe sfx (if t.nbytes > 0 then t.nbytes else 1))
    | _ => ub

/-- `gen_incdec_expr_immcode`, expression.c:650-705: `post` for the postfix operators -/
def incdecCode (op : IOp) (post : Bool) (t : DType) (e : G) : GM Unit := do
  let p ← e.ptr
  let dst ← destReg t
  emit (inst .load (some dst) (some p) none)
  let one ← incOpe (sfxOf dst) t
  if post then do
    let old ← destReg t
    emit (inst .load (some old) (some dst) none)
    emit (inst op (some dst) (some dst) (some one))
    emit (inst .store (some p) (some dst) none)
    setExpr old
  else do
    emit (inst op (some dst) (some dst) (some one))
    emit (inst .store (some p) (some dst) none)
    setExpr dst

/-- `gen_primary_expr_immcode`, expression.c:707-745 -/
def primaryCode (t : DType) (src : GM Ope) : GM Unit := do
  let src ← src
  let dst ← destReg t
  emit (inst .load (some dst) (some src) none)
  setExpr dst

/-- the argument loop of `gen_call_expr_immcode`, expression.c:604-610, from the last argument to the first: `gs` are the arguments in order and
`i` is the number of the first of them -/
def argsCode : Nat → List G → GM Unit
  | _, [] => pure ()
  | i, g :: gs => do
    argsCode (i + 1) gs
    let src ← g.int none
    emit (inst .starg (some (.arg (sfxOf src) i false)) (some src) none)

/-- `dtype->type == DTYPE_VOID` decides about a destination, expression.c:616-619 -/
def callDest (t : DType) : GM (Option Ope) :=
  if t.isVoid then pure none else do let d ← destReg t; pure (some d)

/-- `gen_call_expr_immcode`, expression.c:594-631 -/
def callCode (t : DType) (f : G) (args : List G) : GM Unit := do
  emit (inst .prep none (some (intOpe .none args.length)) none)
  argsCode 0 args
  let p ← f.ptr
  let dst ← callDest t
  emit (inst .call dst (some p) (some (intOpe .none args.length)))
  emit (inst .clean none (some (intOpe .none args.length)) none)
  match dst with
  | some d => setExpr d
  | none => setVoid

/-- the instruction of a binary node -/
def binOp : SBin → IOp
  | .or => .or | .xor => .xor | .and => .and
  | .equal => .seteq | .nequal => .setneq | .less => .setlt | .greater => .setgt | .lesseq => .setleq | .greatereq => .setgeq
  | .lshift => .sal | .rshift => .sar
  | .add | .padd => .add
  | .sub | .psub => .sub
  | .mul => .mul | .div => .div | .mod => .mod
  | _ => .jmp

/-- binary nodes, immcgen.c:101-147 -/
def binCode (op : SBin) (t lt : DType) (l r : G) : GM Unit :=
  match op with
  | .assign => assignCode l r
  | .lor => logicalCode true t l r
  | .land => logicalCode false t l r
  | .padd | .psub => ptrAddCode (binOp op) t lt l r
  | .pdiff => ptrDiffCode t lt l r
  | _ => arithCode (binOp op) t l r

/-- binary nodes as children -/
def G.bin (op : SBin) (code : GM Unit) (l r : G) : G :=
  let g := G.plain code
  { g with jmp := fun b => match cjmp op b with
      | some j => jmpCmp j l r
      | none => g.jmp b }

mutual
/-- `immcgen_generate_immcode` for expressions, immcgen.c:101-169. A cast is not among its cases. -/
def expr : SExpr → G
  | .ident t n => G.plain (primaryCode t (symOpe n))
  | .str t id => G.plain (primaryCode t (pure (.label (stringName id))))
  | .ilit t l => G.of (primaryCode t (pure (.int (Sfx.get t.nbytes) l)))
      fun cast => pure (.int (Sfx.get (cast.getD t).nbytes) (dtypedLit (cast.getD t) l))
  | .bin op t l r => G.bin op (binCode op t l.dt (expr l) (expr r)) (expr l) (expr r)
  | .cond t c l r => G.plain (condCode t (expr c) (expr l) (expr r))
  | .un .cast t e => G.of fatal fun cast => (expr e).int (some (cast.getD t))
  | .un .addr t (.ident _ n) => { G.plain (addrCode t (symOpe n)) with ptr := symOpe n }
  | .un .addr t (.str _ id) => G.plain (addrCode t (pure (.label (stringName id))))
  | .un .addr t (.tomember _ e _ m) => G.plain (memberAddrCode t e.dt (expr e) m)
  | .un .addr _ (.un .indir _ e) => G.plain (expr e).code
  | .un .addr _ _ => G.plain fatal
  | .un .preinc t e => G.plain (incdecCode .add false t (expr e))
  | .un .predec t e => G.plain (incdecCode .sub false t (expr e))
  | .un .postinc t e => G.plain (incdecCode .add true t (expr e))
  | .un .postdec t e => G.plain (incdecCode .sub true t (expr e))
  | .un .indir t e => G.plain (indirCode t (expr e))
  | .un .pos _ e => G.plain (posCode (expr e))
  | .un .neg t e => G.plain (unCode .neg t (expr e))
  | .un .not t e => G.plain (unCode .not t (expr e))
  | .un .lnot t e => G.plain (lnotCode t (expr e))
  | .call t f as => G.plain (callCode t (expr f) (args as))
  | .tomember t e _ m => G.plain (memberCode t e.dt (expr e) m)
def args : SArgs → List G
  | .nil => []
  | .cons e as => expr e :: args as
end

/-! ### declaration.c -/

/-- `map_get(table->map, name) == NULL` -/
def canDefine (n : Str) : List (List (Str × α)) → Bool
  | sc :: _ => (sc.lookup n).isNone
  | [] => true
/-- new entry in the innermost scope -/
def define (n : Str) (x : α) : List (List (Str × α)) → List (List (Str × α))
  | sc :: scs => ((n, x) :: sc) :: scs
  | [] => [[(n, x)]]

/-- `symboltable_define_label`, symtab.c:31-39 -/
def defineLabel (n : Str) (t : DType) : GM Unit :=
  modify fun s => if canDefine n s.syms then { s with syms := define n ⟨.label, t⟩ s.syms } else s

/-- `symboltable_define_memory`, symtab.c:41-50 -/
def defineMem (n : Str) (t : DType) : GM Unit :=
  modify fun s => if canDefine n s.syms then
      { s with syms := define n ⟨.mem ((s.mem + t.nbytes + 3) / 4 * 4), t⟩ s.syms, mem := (s.mem + t.nbytes + 3) / 4 * 4 }
    else s

/-- `symbol_table->outer_scope == NULL` -/
def isGlobal : GM Bool := do
  let s ← get
  pure (s.syms.length ≤ 1)

/-- `gen_tag_decl_immcode`, declaration.c:17-27; `vector_copy(NULL)` is undefined -/
def tagDecl (n : Str) (t : DType) : GM Unit :=
  match t with
  | .ustruct ms _ _ => do
    let s ← get
    if canDefine n s.tags then do
      let t ← lift (DType.newUnnamedStruct ms)
      modify fun s => { s with tags := define n t s.tags }
    else pure ()
  | .nstruct _ _ _ => ub
  | _ => pure ()

/-- `gen_identifier_decl_immcode`, declaration.c:98-113, for a local declaration -/
def localIdent (n : Str) (t : DType) : GM Unit := if t.isObject then defineMem n t else defineLabel n t

/-- `gen_local_scalar_initializer_immcode`, declaration.c:294-304 -/
def localScalar (t : DType) (e : G) : GM Unit := do
  let st ← get
  let src ← e.int none
  emit (inst .store (some (.mem st.initOff)) (some src) none)
  modify fun s => { s with initOff := s.initOff - t.nbytes }

/-- `gen_local_string_initializer_immcode`, declaration.c:180-191 -/
def localString (t : DType) (b : List UInt8) : GM Unit := do
  let st ← get
  emit (inst .str (some (.mem st.initOff)) (some (.str b)) none)
  modify fun s => { s with initOff := s.initOff - t.nbytes }

/-- the struct whose members are initialised, declaration.c:136-139; the NULL result of `tagtable_search` is dereferenced -/
def structType (t : DType) : GM DType :=
  match t with
  | .nstruct n _ _ => do
    let s ← get
    match lookup n s.tags with
    | some (.ustruct ms b a) => pure (.ustruct ms b a)
    | _ => ub
  | t => pure t

/-- types and offsets of members -/
def memberList : Members → List (DType × Nat)
  | .nil => []
  | .cons _ t o ms => (t, o) :: memberList ms

/-- types that `gen_initializer_immcode` treats as scalars, declaration.c:126-144 -/
def isScalarInit : DType → Bool
  | .arr _ _ | .nstruct _ _ _ | .ustruct _ _ _ => false
  | _ => true

/-- the generators of `n` array elements of type `t`, declaration.c:162-165; `vector_at` beyond the end gives NULL, which is used -/
def arrayInit (t : DType) : Nat → List (DType → GM Unit) → GM Unit
  | 0, _ => pure ()
  | _ + 1, [] => ub
  | n + 1, g :: gs => do
    g t
    arrayInit t n gs

/-- the loop of `gen_local_struct_initializer_immcode`, declaration.c:239-245: `off` is the offset of the struct -/
def localMembers (off : Int) : List (DType × Nat) → List (DType → GM Unit) → GM Unit
  | [], _ => pure ()
  | _ :: _, [] => ub
  | (t, o) :: ms, g :: gs => do
    modify fun s => { s with initOff := off - o }
    g t
    localMembers off ms gs

/-- initialisation of a struct, declaration.c:136-140, 233-248 -/
def localStruct (t : DType) (gs : List (DType → GM Unit)) : GM Unit := do
  let t ← structType t
  let s ← get
  match t with
  | .ustruct ms _ _ => localMembers s.initOff (memberList ms) gs
  | _ => ub

mutual
/-- `gen_initializer_immcode` in a function, declaration.c:126-168. The resolver builds an expression for a scalar, a string for an array of characters
and a list for other aggregates; other combinations are not modelled (`ub`). -/
def localInit : SInit → DType → GM Unit
  | .expr e, t => if isScalarInit t then localScalar t (expr e) else ub
  | .str _ b, t => match t with
    | .arr _ _ => localString t b
    | _ => ub
  | .list is, t => match t with
    | .arr u n => arrayInit u n (localInits is)
    | .nstruct _ _ _ | .ustruct _ _ _ => localStruct t (localInits is)
    | _ => ub
def localInits : SInits → List (DType → GM Unit)
  | .nil => []
  | .cons i is => localInit i :: localInits is
end

/-- `gen_local_init_decl_immcode`, declaration.c:77-96; strings are declared in the translation unit only, others are not modelled (`ub`) -/
def localDecl (d : SDecl) : GM Unit :=
  match d.who with
  | .str _ => ub
  | .ident n => do
    localIdent n d.dt
    match d.init with
    | none => pure ()
    | some i => do
      let s ← get
      match lookup n s.syms with
      | none => ub
      | some y => do
        modify fun s => { s with initOff := y.loc.off }
        localInit i y.dt
        modify fun s => { s with initOff := -1 }

/-- `append_children_immcode` over a declaration list -/
def localDecls : List SDecl → GM Unit
  | [] => pure ()
  | d :: ds => do
    localDecl d
    localDecls ds

/-! ### statement.c -/

/-- scopes around compound and `for` statements, immcgen.c:63-69, 94-100 -/
def enter : GM Unit := modify fun s => { s with syms := [] :: s.syms, tags := [] :: s.tags }
def leave : GM Unit := modify fun s => { s with syms := s.syms.tail, tags := s.tags.tail }

/-- `case`: the label and value are remembered, statement.c:23-25; `case_label_values` is not NULL in a `switch` -/
def addCase (v : SExpr) (id : Int) : GM Unit := do
  let s ← get
  match s.cases, v with
  | some cs, .ilit _ l => modify fun s => { s with cases := some (cs ++ [(id, l)]) }
  | _, _ => ub

/-- name of the label at the end of the code, statement.c:117-118, 150-151 -/
def endLabel : List Immc → Option Name
  | [] => none
  | c => match c.getLast? with
    | some (.label _ _ n) => some n
    | _ => none

/-- `gen_if_without_else_stmt_immcode`, statement.c:106-128. The label operand of the jump is renamed if the statement's code ends with a label. -/
def iteCode (c : G) (t : GM Unit) : GM Unit := do
  let id ← newLabel
  let j ← c.jmp false
  let (_, body) ← capture t
  match endLabel body with
  | some n => do
    emit (j n)
    emits body
  | none => do
    emit (j (labelName id))
    emits body
    emit (labelAt id)

/-- `gen_if_with_else_stmt_immcode`, statement.c:130-161; the code tested for a label at its end contains the label of the second branch -/
def iteeCode (c : G) (t e : GM Unit) : GM Unit := do
  let no ← newLabel
  let id ← newLabel
  let j ← c.jmp false
  emit (j (labelName no))
  t
  let (_, body) ← capture (do emit (labelAt no); e)
  match endLabel body with
  | some n => do
    emit (inst .jmp (some (.label n)) none none)
    emits body
  | none => do
    emit (inst .jmp (some (labelOpe id)) none none)
    emits body
    emit (labelAt id)

/-- the jumps to the cases, statement.c:184-195 -/
def caseJumps (reg : Ope) (cs : List (Int × ILit)) : List Immc :=
  cs.map fun (id, l) => inst .jeq (some (labelOpe id)) (some reg) (some (.int (Sfx.get l.type.nbytes) l))

/-- `gen_switch_stmt_immcode`, statement.c:163-218 -/
def switchCode (c : G) (body : GM Unit) : GM Unit := do
  let reg ← c.reg
  let id ← newLabel
  let old ← get
  modify fun s => { s with cases := some [], dflt := -1, brk := id }
  let (_, bc) ← capture body
  let s ← get
  emits (caseJumps reg (s.cases.getD []))
  emit (inst .jmp (some (labelOpe (if s.dflt > 0 then s.dflt else id))) none none)
  modify fun s => { s with cases := old.cases, dflt := old.dflt, brk := old.brk }
  emits bc
  emit (labelAt id)

/-- a statement inside a loop: statement.c:233-240, 273-280 -/
def inLoop (cont brk : Int) (body : GM Unit) : GM Unit := do
  let old ← get
  modify fun s => { s with cont := cont, brk := brk }
  body
  modify fun s => { s with cont := old.cont, brk := old.brk }

/-- `gen_while_stmt_immcode`, statement.c:220-248 -/
def whileCode (c : G) (body : GM Unit) : GM Unit := do
  let start ← newLabel
  let done ← newLabel
  emit (labelAt start)
  let j ← c.jmp false
  emit (j (labelName done))
  inLoop start done body
  emit (inst .jmp (some (labelOpe start)) none none)
  emit (labelAt done)

/-- the condition of a `for`, statement.c:264-271: the second child is an expression statement or a null statement -/
def forCond : SStmt → Name → GM Unit
  | .expr e, n => do
    let j ← (expr e).jmp false
    emit (j n)
  | _, _ => pure ()

/-- `gen_for_stmt_immcode`, statement.c:250-292 -/
def forCode (init : GM Unit) (cond : Name → GM Unit) (next body : GM Unit) : GM Unit := do
  let start ← newLabel
  let cont ← newLabel
  let done ← newLabel
  init
  emit (labelAt start)
  cond (labelName done)
  inLoop cont done body
  emit (labelAt cont)
  next
  emit (inst .jmp (some (labelOpe start)) none none)
  emit (labelAt done)

/-- `gen_return_stmt_immcode`, statement.c:62-76 -/
def returnCode (e : Option G) : GM Unit := do
  match e with
  | none => pure ()
  | some g => do
    let v ← g.int none
    emit (inst .stret none (some v) none)
  let s ← get
  emit (inst .jmp (some (labelOpe s.ret)) none none)

mutual
/-- `immcgen_generate_immcode` for statements, immcgen.c:57-100, with the functions of statement.c -/
def stmt : SStmt → GM Unit
  | .cmpd is => do
    enter
    items is
    leave
  | .case v b => do
    let id ← newLabel
    addCase v id
    emit (labelAt id)
    stmt b
  | .dflt b => do
    let id ← newLabel
    modify fun s => { s with dflt := id }
    emit (labelAt id)
    stmt b
  | .cont => do
    let s ← get
    emit (inst .jmp (some (labelOpe s.cont)) none none)
  | .brk => do
    let s ← get
    emit (inst .jmp (some (labelOpe s.brk)) none none)
  | .ret e => returnCode (e.map expr)
  | .expr e => do
    modify fun s => { s with exprReg := none }
    (expr e).code
  | .null => pure ()
  | .ite c t => iteCode (expr c) (stmt t)
  | .itee c t e => iteeCode (expr c) (stmt t) (stmt e)
  | .switch c b => switchCode (expr c) (stmt b)
  | .while c b => whileCode (expr c) (stmt b)
  | .for i c n b => do
    enter
    forCode (item i) (forCond c) (stmt n) (stmt b)
    leave
/-- children of compound statements and the first child of a `for` -/
def item : SItem → GM Unit
  | .stmt s => stmt s
  | .decls ds => localDecls ds
  | .tag n t => tagDecl n t
/-- `append_children_immcode`, util.c:11-23 -/
def items : SItems → GM Unit
  | .nil => pure ()
  | .cons i is => do
    item i
    items is
end

/-! ### external.c and global declarations -/

/-- parameters, external.c:31-45: each is defined and loaded from its argument; the NULL results for a parameter without a name or
defined twice are used -/
def paramsCode : Nat → Params → GM Unit
  | _, .nil => pure ()
  | _, .cons none _ _ => ub
  | i, .cons (some n) t ps => do
    let s ← get
    if canDefine n s.syms then do
      defineMem n t
      let s ← get
      emit (inst .ldarg (some (.mem s.mem)) (some (.arg (Sfx.get t.nbytes) i false)) none)
      paramsCode (i + 1) ps
    else ub

/-- `gen_function_definition_immcode`, external.c:15-73 -/
def funcCode (n : Str) (t : DType) (body : SItems) : GM Unit := do
  let name ← nameOf n
  defineLabel n t
  match t with
  | .func ps _ => do
    modify fun s => { s with reg := -1 }
    let ret ← newLabel
    enter
    modify fun s => { s with mem := 0, ret := ret }
    let (_, pc) ← capture (paramsCode 0 ps)
    let (_, bc) ← capture (items body)
    let s ← get
    emit (.label .function .global name)
    emit (inst .enter none (some (intOpe .quad s.mem)) none)
    emits pc
    emits bc
    emit (labelAt ret)
    emit (inst .leave none (some (intOpe .quad s.mem)) none)
    modify fun s => { s with mem := 0 }
    leave
  | _ => ub

/-- expression without its casts -/
def stripCasts : SExpr → SExpr
  | .un .cast _ e => stripCasts e
  | e => e

/-- `gen_global_scalar_initializer_immcode`, declaration.c:261-292: the `iliteral` of another node is NULL -/
def globalScalar (t : DType) (e : SExpr) : GM Unit :=
  match stripCasts e with
  | .ilit _ l =>
    match t.nbytes with
    | 1 => emit (.data (.byte (dtypedLit t l)))
    | 2 => emit (.data (.word (dtypedLit t l)))
    | 4 => emit (.data (.long (dtypedLit t l)))
    | 8 => emit (.data (.quad (dtypedLit t l)))
    | _ => fatal
  | _ => ub

/-- `.zero n` if `n` is positive -/
def padding (n : Int) : GM Unit := if n > 0 then emit (.data (.zero ⟨.int, n⟩)) else pure ()

/-- the loop of `gen_global_struct_initializer_immcode`, declaration.c:209-228; `size` is the size of the struct -/
def globalMembers (size : Nat) : List (DType × Nat) → List (DType → GM Unit) → GM Unit
  | [], _ => pure ()
  | _ :: _, [] => ub
  | (t, o) :: ms, g :: gs => do
    g t
    padding ((match ms with | (_, o') :: _ => (o' : Int) | [] => size) - (o + t.nbytes))
    globalMembers size ms gs

/-- initialisation of a struct, declaration.c:136-140, 204-231 -/
def globalStruct (t : DType) (gs : List (DType → GM Unit)) : GM Unit := do
  let t ← structType t
  match t with
  | .ustruct ms b _ => globalMembers b (memberList ms) gs
  | _ => ub

mutual
/-- `gen_initializer_immcode` in the translation unit, declaration.c:126-178 -/
def globalInit : SInit → DType → GM Unit
  | .expr e, t => if isScalarInit t then globalScalar t e else ub
  | .str _ b, t => match t with
    | .arr _ _ => emit (.data (.str b))
    | _ => ub
  | .list is, t => match t with
    | .arr u n => arrayInit u n (globalInits is)
    | .nstruct _ _ _ | .ustruct _ _ _ => globalStruct t (globalInits is)
    | _ => ub
def globalInits : SInits → List (DType → GM Unit)
  | .nil => []
  | .cons i is => globalInit i :: globalInits is
end

/-- the label of what is declared, declaration.c:47-55 -/
def whoName : SWho → GM Name
  | .str id => pure (stringName id)
  | .ident n => nameOf n

/-- `gen_global_init_decl_immcode`, declaration.c:40-75 -/
def globalDecl (d : SDecl) : GM Unit := do
  let n ← whoName d.who
  defineLabel n.1 d.dt
  let s ← get
  match lookup n.1 s.syms with
  | none => ub
  | some y =>
    if !y.dt.isObject then pure ()
    else do
      emit (.label .variable .global n)
      match d.init with
      | none => emit (.data (.zero ⟨.int, d.dt.nbytes⟩))
      | some i => globalInit i y.dt

def globalDecls : List SDecl → GM Unit
  | [] => pure ()
  | d :: ds => do
    globalDecl d
    globalDecls ds

/-- children of the translation unit, immcgen.c:33-47 -/
def ext : SExt → GM Unit
  | .func n t b => funcCode n t b
  | .decls ds => globalDecls ds
  | .tag n t => tagDecl n t

/-- `gen_translation_unit_immcode`, external.c:9-13 -/
def unit : List SExt → GM Unit
  | [] => pure ()
  | x :: xs => do
    ext x
    unit xs

/-- `immcgen_generate_immcode` for a translation unit -/
def generate (u : List SExt) : Out (List Immc) :=
  match unit u initial with
  | .ok (_, c, _) => .ok c
  | .err => .err
  | .fatal => .fatal
  | .ub => .ub
  | .hang => .hang

end Gen
end Umlcc
