import Verif.Model.Regalloc
import Verif.Model.Literal
/-!
Model of `src/x64/*` (assembly items and how they are printed) and `src/x64gen/*` (intermediate code with allocated
registers to assembly).

Simplifications, all of them:
* pointers to operands are values; `x64_copy` and the `delete_*` functions are not modelled;
* `X64Suffix` and `ImmcSuffix` have the same enumerators in the same order, so one type `Sfx` is used;
  `x64suffix_get(immcsuffix_tonbytes(s))` is the identity on the suffixes with a size;
* every `gen_*` function ends with `liveseqs_next` and `x64gen->index++`: the driver `genItem` does it;
* `head_codes`, `body_codes`, `tail_codes` are lists (their element type `t_string` is only used to delete them,
  and they are empty by then: `vector_extend` moves the items).
-/
namespace Umlcc

/-- `X64RegisterId`, x64/register.h:6-23, in that order -/
inductive Reg where
  | ax | bx | cx | dx | sp | bp | si | di | r8 | r9 | r10 | r11 | r12 | r13 | r14 | r15
  deriving DecidableEq, Repr

namespace Reg
/-- the value of the enumerator -/
def toIdx : Reg → Nat
  | ax => 0 | bx => 1 | cx => 2 | dx => 3 | sp => 4 | bp => 5 | si => 6 | di => 7
  | r8 => 8 | r9 => 9 | r10 => 10 | r11 => 11 | r12 => 12 | r13 => 13 | r14 => 14 | r15 => 15
end Reg

/-- position of the enumerators of `X64Suffix`, x64/suffix.h -/
def Sfx.rank : Sfx → Nat
  | .none => 0 | .byte => 1 | .word => 2 | .long => 3 | .quad => 4

/-- `x64suffix_greater`, x64/suffix.c:48-50 -/
def Sfx.greater (a b : Sfx) : Sfx := if a.rank ≥ b.rank then a else b

namespace X64

/-- `ARG_REG_IDS`, x64/register.c:6 -/
def argRegs : List Reg := [.di, .si, .dx, .cx, .r8, .r9]
/-- `CALLER_SAVED_REG_IDS`, x64/register.c:9-10: what the register allocator hands out -/
def callerSaved : List Reg := [.cx, .dx, .si, .di, .r8, .r9, .r10, .r11]
/-- `CALLEE_SAVED_REG_IDS`, x64/register.c:13 -/
def calleeSaved : List Reg := [.bx, .bp, .r12, .r13, .r14]

/-- conditions of the `SET*` and `J*` instructions, x64/inst.h -/
inductive Cond where
  | e | ne | a | ae | b | be | g | ge | l | le
  deriving DecidableEq, Repr

/-- `X64InstType`, x64/inst.h:6-64 -/
inductive XOp where
  | mov | movs | movz | movabs | lea | cxtx | cxtd | cqto | push | pop
  | add | sub | imul | div | idiv | neg | and | not | or | xor | sal | sar | cmp
  | set (c : Cond) | jmp | jcc (c : Cond) | call | ret
  deriving DecidableEq, Repr

/-- `X64Ope`, x64/ope.h, by `X64OpeType` -/
inductive XOpe where
  | sfx (s : Sfx)
  | reg (s : Sfx) (r : Reg)
  | ptr (r : Reg)
  | jptr (r : Reg)
  | mem (offset : Int)
  | label (name : Name)
  | jlabel (name : Name)
  | int (s : Sfx) (lit : ILit)
  deriving DecidableEq

/-- `X64Inst`, x64/inst.h:66-70 -/
structure XInst where
  op : XOp
  src : Option XOpe
  dst : Option XOpe
  deriving DecidableEq

/-- `X64`, x64/x64.h -/
inductive Item where
  | inst (i : XInst)
  | data (d : IData)
  | label (type : LblType) (vis : Vis) (name : Name)
  deriving DecidableEq

/-! ### operands of intermediate instructions -/

/-- `immcope->suffix` (immc/ope.c: `new_base_immcope` sets `NONE`, `new_ptr_immcope` sets `QUAD`) -/
def sfxOf : Ope → Sfx
  | .arg s _ _ => s
  | .reg s _ _ => s
  | .ptr _ => .quad
  | .int s _ => s
  | .mem _ | .label _ | .str _ => .none

/-- `immcope->reg`: NULL for the other operand kinds; `new_ptr_immcope` makes a signed register -/
def regField : Ope → Option (Int × Bool)
  | .arg _ id u => some (id, u)
  | .reg _ id u => some (id, u)
  | .ptr id => some (id, false)
  | _ => none

/-- reading an operand that may be NULL -/
def deref : Option Ope → Out Ope
  | some o => .ok o
  | none => .ub

/-- `CALLER_SAVED_REG_IDS[id]` -/
def callerAt (id : Int) : Out Reg :=
  match if 0 ≤ id then callerSaved[id.toNat]? else none with
  | some r => .ok r
  | none => .ub

/-- `CALLEE_SAVED_REG_IDS[n]` -/
def calleeAt (n : Nat) : Out Reg :=
  match calleeSaved[n]? with
  | some r => .ok r
  | none => .ub

/-- `CALLER_SAVED_REG_IDS[ope->reg->reg_id]` and `ope->reg->is_unsigned` -/
def physReg (o : Ope) : Out (Reg × Bool) :=
  match regField o with
  | none => .ub
  | some (id, u) => do let r ← callerAt id; pure (r, u)

/-- `CALLER_SAVED_REG_IDS[NUM_CALLER_SAVED_REGS - 2]` -/
def tmpReg : Reg := .r10

/-- `new_inst_x64` with both operands -/
def i2 (op : XOp) (src dst : XOpe) : XInst := ⟨op, some src, some dst⟩
/-- `new_inst_x64` with a source operand only -/
def is (op : XOp) (src : XOpe) : XInst := ⟨op, some src, none⟩
/-- `new_inst_x64` with a destination operand only -/
def id1 (op : XOp) (dst : XOpe) : XInst := ⟨op, none, some dst⟩

/-- `append_mov_code_simple`, x64gen/util.c:27-35 (called with register operands only) -/
def movSimple (sr : Reg) (ds : Sfx) (dr : Reg) : List XInst :=
  if sr = dr then [] else [i2 .mov (.reg ds sr) (.reg ds dr)]

/-- `append_mov_code_unsigned`, x64gen/util.c:37-48 -/
def movUnsigned (ss : Sfx) (sr : Reg) (ds : Sfx) (dr : Reg) : List XInst :=
  if ss = .byte ∨ ss = .word then [i2 .movz (.reg ss sr) (.reg ds dr)]
  else if sr = dr then []
  else [i2 .mov (.reg ss sr) (.reg ds dr)]

/-- `append_mov_code_signed`, x64gen/util.c:50-76 -/
def movSigned (ss : Sfx) (sr : Reg) (ds : Sfx) (dr : Reg) : List XInst :=
  if ss = .byte ∨ ss = .word then [i2 .movs (.reg ss sr) (.reg ds dr)]
  else
    (if sr ≠ .ax then [i2 .mov (.reg ss sr) (.reg ss .ax)] else []) ++
    [i2 .cxtx (.sfx ss) (.sfx ds)] ++
    (if dr ≠ .ax then [i2 .mov (.reg ds .ax) (.reg ds dr)] else [])

/-- `append_mov_code`, x64gen/util.c:10-25; all calls pass two register operands -/
def appendMov (ss : Sfx) (sr : Reg) (ds : Sfx) (dr : Reg) (uns : Bool) : List XInst :=
  if ss.rank ≥ ds.rank then movSimple sr ds dr
  else if uns then movUnsigned ss sr ds dr
  else movSigned ss sr ds dr

/-! ### data transfer, x64gen/datainst.c -/

/-- `gen_load_x64code`, datainst.c:9-63 -/
def genLoad (i : Inst) : Out (List XInst) := do
  let dst ← deref i.dst
  let src ← deref i.fst
  let ds := sfxOf dst
  let (dr, _) ← physReg dst
  match src with
  | .int _ l => pure [i2 .mov (.int ds l) (.reg ds dr)]
  | .reg ss _ u => do let (sr, _) ← physReg src; pure (appendMov ss sr ds dr u)
  | .ptr _ => do let (sr, _) ← physReg src; pure [i2 .mov (.ptr sr) (.reg ds dr)]
  | .mem off => pure [i2 .mov (.mem off) (.reg ds dr)]
  | .label n => pure [i2 .mov (.label n) (.reg ds dr)]
  | _ => .fatal

/-- `gen_addr_x64code`, datainst.c:65-96 -/
def genAddr (i : Inst) : Out (List XInst) := do
  let dst ← deref i.dst
  let src ← deref i.fst
  let ds := sfxOf dst
  let (dr, _) ← physReg dst
  match src with
  | .mem off => pure [i2 .lea (.mem off) (.reg ds dr)]
  | .label n => pure [i2 .lea (.label n) (.reg ds dr)]
  | _ => .fatal

/-- `unsigned long long char_bits = value[k]` with signed `char`, then
`unit_value = (char_bits << (i * CHAR_BIT)) | unit_value` for the characters of one unit, datainst.c:113-117, 155-159 -/
def unitBits (k : Nat) (acc : BitVec 64) : List UInt8 → BitVec 64
  | [] => acc
  | c :: cs => unitBits (k + 1) ((BitVec.signExtend 64 c.toBitVec <<< (k * 8)) ||| acc) cs

/-- one 8-byte unit: `movabsq $v, %r10` and `movq %r10, -off(%rbp)`, datainst.c:119-125, 161-168 -/
def strUnit (t : ILType) (v : BitVec 64) (off : Int) : List XInst :=
  [i2 .movabs (.int .quad ⟨t, v.toNat⟩) (.reg .quad tmpReg), i2 .mov (.reg .quad tmpReg) (.mem off)]

/-- the part after the loop of `gen_str_x64code`, datainst.c:131-173: fewer than 8 characters left -/
def strRest (rest : List UInt8) (off : Int) : List XInst :=
  let v := unitBits 0 0 rest
  if rest.length = 0 then []
  else if rest.length ≤ 1 then [i2 .mov (.int .byte ⟨.uint, v.toNat⟩) (.mem off)]
  else if rest.length ≤ 2 then [i2 .mov (.int .word ⟨.uint, v.toNat⟩) (.mem off)]
  else if rest.length ≤ 4 then [i2 .mov (.int .long ⟨.uint, v.toNat⟩) (.mem off)]
  else strUnit .ulong v off

/-- the loop of `gen_str_x64code`, datainst.c:112-129: whole units first -/
def strLoop (fuel : Nat) (bs : List UInt8) (off : Int) : List XInst :=
  match fuel with
  | 0 => strRest bs off
  | f + 1 =>
    if 8 ≤ bs.length then strUnit .ullong (unitBits 0 0 (bs.take 8)) off ++ strLoop f (bs.drop 8) (off - 8)
    else strRest bs off

/-- `gen_str_x64code`, datainst.c:98-177. The destination is read as a memory operand without a check
(`mem_offset` is 0 for another kind of operand); a source without string literal would be a NULL dereference. -/
def genStr (i : Inst) : Out (List XInst) := do
  let dst ← deref i.dst
  let src ← deref i.fst
  match src with
  | .str bs => pure (strLoop bs.length bs (match dst with | .mem off => off | _ => 0))
  | _ => .ub

/-- `gen_store_x64code`, datainst.c:179-227 -/
def genStore (i : Inst) : Out (List XInst) := do
  let dst ← deref i.dst
  let src ← deref i.fst
  let d : XOpe ← (match dst with
    | .ptr _ => do let (r, _) ← physReg dst; pure (.ptr r)
    | .mem off => pure (.mem off)
    | .label n => pure (.label n)
    | _ => .fatal)
  match src with
  | .int s l => pure [i2 .mov (.int s l) d]
  | .reg s _ _ => do let (r, _) ← physReg src; pure [i2 .mov (.reg s r) d]
  | _ => .fatal

/-- `gen_ldarg_x64code`, datainst.c:229-263. The destination is read as a memory operand without a check. -/
def genLdarg (i : Inst) : Out (List XInst) := do
  let dst ← deref i.dst
  let src ← deref i.fst
  let doff : Int := match dst with | .mem off => off | _ => 0
  let s := sfxOf src
  match regField src with
  | none => .ub
  | some (id, _) =>
    if id < 6 then
      match if 0 ≤ id then argRegs[id.toNat]? else none with
      | none => .ub
      | some r => pure [i2 .mov (.reg s r) (.mem doff)]
    else pure [i2 .mov (.mem (-(id - 6 + 1) * 8 - 8)) (.reg s tmpReg), i2 .mov (.reg s tmpReg) (.mem doff)]

/-- `gen_starg_x64code`, datainst.c:265-291 -/
def genStarg (i : Inst) : Out (List XInst) := do
  let src ← deref i.fst
  match src with
  | .int _ l => pure [is .push (.int .quad l)]
  | .reg _ _ _ => do let (r, _) ← physReg src; pure [is .push (.reg .quad r)]
  | _ => .fatal

/-- `gen_stret_x64code`, datainst.c:293-325 -/
def genStret (i : Inst) : Out (List XInst) := do
  let src ← deref i.fst
  let s := sfxOf src
  match src with
  | .int _ l => pure [i2 .mov (.int s l) (.reg s .ax)]
  | .reg _ _ u => do let (r, _) ← physReg src; pure (appendMov s r s .ax u)
  | _ => .fatal

/-! ### arithmetic, x64gen/arithinst.c -/

/-- both operands brought to the common width in their own registers, then `op snd, fst`:
the switches of arithinst.c:35-68, logicinst.c:90-123, bitinst.c:73-106, ctrlinst.c:88-121 -/
def binInPlace (op : XOp) (suffix : Sfx) (fs : Sfx) (fr : Reg) (fu : Bool) (snd : Ope) : Out (List XInst) :=
  match snd with
  | .int _ l => pure (appendMov fs fr suffix fr fu ++ [i2 op (.int suffix l) (.reg suffix fr)])
  | .reg ss _ su => do
    let (sr, _) ← physReg snd
    pure (appendMov fs fr suffix fr fu ++ appendMov ss sr suffix sr su ++ [i2 op (.reg suffix sr) (.reg suffix fr)])
  | _ => .fatal

/-- `gen_additive_subtractive_common_x64code`, arithinst.c:19-79, and `gen_bitwise_binary_common_x64code`,
logicinst.c:74-134 -/
def genBin (op : XOp) (i : Inst) : Out (List XInst) := do
  let dst ← deref i.dst
  let fst ← deref i.fst
  let snd ← deref i.snd
  let (dr, du) ← physReg dst
  let (fr, fu) ← physReg fst
  let suffix := (sfxOf fst).greater (sfxOf snd)
  let cs ← binInPlace op suffix (sfxOf fst) fr fu snd
  pure (cs ++ appendMov suffix fr (sfxOf dst) dr du)

/-- `gen_mul_x64code`, arithinst.c:81-141 -/
def genMul (i : Inst) : Out (List XInst) := do
  let dst ← deref i.dst
  let fst ← deref i.fst
  let snd ← deref i.snd
  let (dr, du) ← physReg dst
  let (fr, fu) ← physReg fst
  let suffix := (sfxOf fst).greater (sfxOf snd)
  let cs ← (match snd with
    | .int _ l => pure (appendMov (sfxOf fst) fr suffix .ax fu ++ [i2 .imul (.int suffix l) (.reg suffix .ax)])
    | .reg ss _ su => do
      let (sr, _) ← physReg snd
      pure (appendMov (sfxOf fst) fr suffix .ax fu ++ appendMov ss sr suffix sr su ++
        [i2 .imul (.reg suffix sr) (.reg suffix .ax)])
    | _ => .fatal)
  pure (cs ++ appendMov suffix .ax (sfxOf dst) dr du)

/-- `create_alive_reg_induces_set`, x64gen/util.c:86-96; `i` counts `reg_index` -/
def aliveSet (s : HSet Int) (i : Nat) : List Liveseq → Out (HSet Int)
  | [] => .ok s
  | q :: qs => do
    let a ← q.isAlive
    if a then do let s ← HSet.add hashInteger s i; aliveSet s (i + 1) qs
    else aliveSet s (i + 1) qs

/-- `create_alive_regs_set`, x64gen/util.c:98-109; `CALLER_SAVED_REG_IDS[reg_index]` is read for every sequence -/
def aliveRegs (s : HSet Int) (i : Nat) : List Liveseq → Out (HSet Int)
  | [] => .ok s
  | q :: qs => do
    let r ← callerAt i
    let a ← q.isAlive
    if a then do let s ← HSet.add hashInteger s r.toIdx; aliveRegs s (i + 1) qs
    else aliveRegs s (i + 1) qs

/-- operand preparation of `gen_divisional_common_x64code`, arithinst.c:168-208: code and register of the divisor -/
def divPrep (suffix : Sfx) (fs : Sfx) (fr : Reg) (fu : Bool) (snd : Ope) : Out (List XInst × Reg) :=
  match snd with
  | .int _ l =>
    pure (appendMov fs fr suffix .ax fu ++ [i2 .mov (.int suffix l) (.reg suffix tmpReg)], tmpReg)
  | .reg ss _ su => do
    let (sr, _) ← physReg snd
    if sr ≠ .dx then pure (appendMov fs fr suffix .ax fu ++ appendMov ss sr suffix sr su, sr)
    else pure (appendMov fs fr suffix .ax fu ++ appendMov ss sr suffix fr su, fr)
  | _ => .fatal

/-- the division proper, arithinst.c:226-241 -/
def divCore (suffix : Sfx) (sr : Reg) (uns : Bool) : List XInst :=
  if uns then [i2 .mov (.int .long ⟨.int, 0⟩) (.reg .long .dx), is .div (.reg suffix sr)]
  else if suffix ≠ .quad then [is .cxtd (.sfx suffix), is .idiv (.reg suffix sr)]
  else [⟨.cqto, none, none⟩, is .idiv (.reg suffix sr)]

/-- `gen_divisional_common_x64code`, arithinst.c:151-262; `ev` is `x64gen->evacuation_count` -/
def genDiv (result : Reg) (qs : List Liveseq) (ev : Nat) (i : Inst) : Out (List XInst × Nat) := do
  let dst ← deref i.dst
  let fst ← deref i.fst
  let snd ← deref i.snd
  let (dr, du) ← physReg dst
  let (fr, fu) ← physReg fst
  let suffix := (sfxOf fst).greater (sfxOf snd)
  let (cs, sr) ← divPrep suffix (sfxOf fst) fr fu snd
  let evac ← (if fr ≠ .dx ∧ sr ≠ .dx ∧ dr ≠ .dx then do
      let s ← aliveRegs HMap.new 0 qs
      HSet.contains hashInteger s (Reg.dx.toIdx : Int)
    else pure false)
  let save := if evac then appendMov .quad .dx .quad .bx false else []
  let restore := if evac then appendMov .quad .bx .quad .dx false else []
  pure (cs ++ save ++ divCore suffix sr du ++ appendMov suffix result (sfxOf dst) dr du ++ restore,
    if evac then max ev 1 else ev)

/-- `gen_neg_x64code`, arithinst.c:264-309, and `gen_bitwise_unary_common_x64code`, logicinst.c:27-72 -/
def genUnary (op : XOp) (i : Inst) : Out (List XInst) := do
  let dst ← deref i.dst
  let src ← deref i.fst
  let (dr, _) ← physReg dst
  let ss := sfxOf src
  match src with
  | .int _ l =>
    pure ([i2 .mov (.int ss l) (.reg ss dr)] ++ [id1 op (.reg ss dr)] ++ appendMov ss dr (sfxOf dst) dr l.type.isUnsigned)
  | .reg _ _ u => do
    let (sr, _) ← physReg src
    pure ([id1 op (.reg ss sr)] ++ appendMov ss sr (sfxOf dst) dr u)
  | _ => .fatal

/-- `gen_shrot_common_x64code`, shrotinst.c:18-61: only literal counts are supported -/
def genShift (op : XOp) (i : Inst) : Out (List XInst) := do
  let dst ← deref i.dst
  let fst ← deref i.fst
  let snd ← deref i.snd
  let (fr, fu) ← physReg fst
  let suffix := (sfxOf fst).greater (sfxOf snd)
  let cs ← (match snd with
    | .int _ l => pure (appendMov (sfxOf fst) fr suffix fr fu ++ [i2 op (.int suffix l) (.reg suffix fr)])
    | _ => .fatal)
  let (dr, du) ← physReg dst
  pure (cs ++ appendMov suffix fr (sfxOf dst) dr du)

/-! ### comparisons, x64gen/bitinst.c and x64gen/ctrlinst.c -/

/-- the condition chosen by `gen_setgt_x64code` ... `gen_setleq_x64code`, bitinst.c:18-56, and
`gen_jgt_x64code` ... `gen_jleq_x64code`, ctrlinst.c:33-71 -/
def condOf (op : IOp) (uns : Bool) : Option Cond :=
  match op with
  | .seteq | .jeq => some .e
  | .setneq | .jneq => some .ne
  | .setgt | .jgt => some (if uns then .a else .g)
  | .setgeq | .jgeq => some (if uns then .ae else .ge)
  | .setlt | .jlt => some (if uns then .b else .l)
  | .setleq | .jleq => some (if uns then .be else .le)
  | _ => none

/-- `gen_setcmp_common_x64code`, bitinst.c:58-119: the final move reads the register of the first source -/
def genSet (c : Cond) (i : Inst) : Out (List XInst) := do
  let dst ← deref i.dst
  let fst ← deref i.fst
  let snd ← deref i.snd
  let (fr, fu) ← physReg fst
  let suffix := (sfxOf fst).greater (sfxOf snd)
  let cs ← binInPlace .cmp suffix (sfxOf fst) fr fu snd
  let (dr, _) ← physReg dst
  pure (cs ++ [id1 (.set c) (.reg .byte dr)] ++ appendMov .byte fr (sfxOf dst) dr true)

/-- `immc_dst->label_name` of a jump (NULL, hence a crash in `new_string`, for another kind of operand) -/
def labelOf : Ope → Out Name
  | .label n => .ok n
  | _ => .ub

/-- `gen_jmp_x64code`, ctrlinst.c:11-23 -/
def genJmp (i : Inst) : Out (List XInst) := do
  let dst ← deref i.dst
  let n ← labelOf dst
  pure [id1 .jmp (.jlabel n)]

/-- `gen_jcmp_common_x64code`, ctrlinst.c:73-128 -/
def genJcc (c : Cond) (i : Inst) : Out (List XInst) := do
  let dst ← deref i.dst
  let fst ← deref i.fst
  let snd ← deref i.snd
  let (fr, fu) ← physReg fst
  let suffix := (sfxOf fst).greater (sfxOf snd)
  let cs ← binInPlace .cmp suffix (sfxOf fst) fr fu snd
  let n ← labelOf dst
  pure (cs ++ [id1 (.jcc c) (.jlabel n)])

/-! ### calls and frames, x64gen/ctrlinst.c -/

/-- the loop of ctrlinst.c:142-154 (and 198-210) over the alive indices: the pairs (caller-saved, callee-saved) used.
`immc->inst->dst->reg->reg_id` is read for every item, also when there is no destination. -/
def evacPairs (dst : Option Ope) (n : Nat) : List Int → Out (List (Reg × Reg))
  | [] => .ok []
  | k :: ks => do
    let d ← deref dst
    match regField d with
    | none => .ub
    | some (id, _) =>
      if k = id then evacPairs dst n ks
      else do
        let callee ← calleeAt n
        let caller ← callerAt k
        let rest ← evacPairs dst (n + 1) ks
        pure ((caller, callee) :: rest)

/-- `immcope->iliteral->signed_value` of the argument count -/
def countOf : Ope → Out Int
  | .int _ l => .ok l.value
  | _ => .ub

/-- the function operand, ctrlinst.c:156-169 and 180-195: code before the pops, operand of the call.
`create_arg_regs_set` (util.c:111-118) contains the first `min(num_args, 6)` argument registers. -/
def callTarget (fst : Ope) (nargs : Int) : Out (List XInst × XOpe) :=
  match fst with
  | .ptr _ => do
    let (r, _) ← physReg fst
    if r ∈ argRegs.take nargs.toNat then pure (appendMov .quad r .quad tmpReg false, .jptr tmpReg)
    else pure ([], .jptr r)
  | .label n => pure ([], .jlabel n)
  | _ => .fatal

/-- `gen_call_x64code`, ctrlinst.c:130-228 -/
def genCall (qs : List Liveseq) (ev : Nat) (i : Inst) : Out (List XInst × Nat) := do
  let fst ← deref i.fst
  let snd ← deref i.snd
  let alive ← aliveSet HMap.new 0 qs
  let pairs ← evacPairs i.dst 0 (HSet.elems alive)
  let nargs ← countOf snd
  let (pre, target) ← callTarget fst nargs
  let pops := (argRegs.take nargs.toNat).map fun r => id1 .pop (.reg .quad r)
  let ret ← (match i.dst with
    | none => pure []
    | some d => do let (dr, du) ← physReg d; pure (appendMov (sfxOf d) .ax (sfxOf d) dr du))
  pure (pairs.flatMap (fun p => appendMov .quad p.1 .quad p.2 false) ++ pre ++ pops ++
      [i2 .mov (.int .quad ⟨.int, 0⟩) (.reg .quad .ax), is .call target] ++
      pairs.flatMap (fun p => appendMov .quad p.2 .quad p.1 false) ++ ret,
    max ev pairs.length)

/-- `min_multiple_of(n, 16)`, common/util.c:3-5, on an `int` -/
def align16 (n : Int) : Int := (n + 16 - 1).tdiv 16 * 16

def spImm (op : XOp) (n : Int) : XInst := i2 op (.int .quad ⟨.int, n⟩) (.reg .quad .sp)

/-- `gen_enter_x64code`, ctrlinst.c:230-255 -/
def genEnter (i : Inst) : Out (List XInst) := do
  let src ← deref i.fst
  let n ← countOf src
  pure ([is .push (.reg .quad .bp), i2 .mov (.reg .quad .sp) (.reg .quad .bp)] ++
    if align16 n > 0 then [spImm .sub (align16 n)] else [])

/-- `gen_leave_x64code`, ctrlinst.c:257-276 -/
def genLeave (i : Inst) : Out (List XInst) := do
  let src ← deref i.fst
  let n ← countOf src
  pure ((if align16 n > 0 then [spImm .add (align16 n)] else []) ++
    [id1 .pop (.reg .quad .bp), ⟨.ret, none, none⟩])

/-- `gen_prep_x64code`, ctrlinst.c:278-294 -/
def genPrep (i : Inst) : Out (List XInst) := do
  let src ← deref i.fst
  let n ← countOf src
  pure (if n > 6 ∧ n.tmod 2 = 1 then [spImm .sub 8] else [])

/-- `gen_clean_x64code`, ctrlinst.c:296-313 -/
def genClean (i : Inst) : Out (List XInst) := do
  let src ← deref i.fst
  let n ← countOf src
  pure (if n > 6 then [spImm .add ((n - 6 + 1).tdiv 2 * 16)] else [])

/-- keep the evacuation count -/
def keep (ev : Nat) (cs : Out (List XInst)) : Out (List XInst × Nat) := do let cs ← cs; pure (cs, ev)

/-- `immc_fst_src->reg->is_unsigned`, read by the ordered comparisons before anything else -/
def fstUnsigned (i : Inst) : Out Bool := do
  let fst ← deref i.fst
  match regField fst with
  | none => .ub
  | some (_, u) => pure u

/-- `gen_inst_x64code`, x64gen/inst.c:12-94 -/
def genInst (qs : List Liveseq) (ev : Nat) (i : Inst) : Out (List XInst × Nat) :=
  match i.op with
  | .load => keep ev (genLoad i)
  | .addr => keep ev (genAddr i)
  | .str => keep ev (genStr i)
  | .store => keep ev (genStore i)
  | .ldarg => keep ev (genLdarg i)
  | .starg => keep ev (genStarg i)
  | .stret => keep ev (genStret i)
  | .add => keep ev (genBin .add i)
  | .sub => keep ev (genBin .sub i)
  | .mul => keep ev (genMul i)
  | .div => genDiv .ax qs ev i
  | .mod => genDiv .dx qs ev i
  | .neg => keep ev (genUnary .neg i)
  | .and => keep ev (genBin .and i)
  | .not => keep ev (genUnary .not i)
  | .or => keep ev (genBin .or i)
  | .xor => keep ev (genBin .xor i)
  | .sal => keep ev (genShift .sal i)
  | .sar => keep ev (genShift .sar i)
  | .seteq => keep ev (genSet .e i)
  | .setneq => keep ev (genSet .ne i)
  | .setgt | .setgeq | .setlt | .setleq => do
    let u ← fstUnsigned i
    match condOf i.op u with
    | some c => keep ev (genSet c i)
    | none => .fatal
  | .jmp => keep ev (genJmp i)
  | .jeq => keep ev (genJcc .e i)
  | .jneq => keep ev (genJcc .ne i)
  | .jgt | .jgeq | .jlt | .jleq => do
    let u ← fstUnsigned i
    match condOf i.op u with
    | some c => keep ev (genJcc c i)
    | none => .fatal
  | .call => genCall qs ev i
  | .enter => keep ev (genEnter i)
  | .leave => keep ev (genLeave i)
  | .prep => keep ev (genPrep i)
  | .clean => keep ev (genClean i)

/-! ### the driver, x64gen/x64gen.c -/

/-- `X64gen`, x64gen/x64gen.h; the items not yet consumed stand for `immcs` and `index` -/
structure St where
  rest : List Immc
  qs : List Liveseq
  ev : Nat

/-- `liveseqs_next`, x64gen/util.c:78-84 -/
def nextAll : List Liveseq → Out (List Liveseq)
  | [] => .ok []
  | q :: qs => do let q ← q.next; let qs ← nextAll qs; pure (q :: qs)

/-- one item consumed by `gen_inst_x64code`, `gen_label_x64code` (x64gen/label.c:8-43) or
`gen_data_x64code` (x64gen/data.c:5-45) -/
def genItem (x : Immc) (st : St) : Out (List Item × St) := do
  let (cs, ev) ← (match x with
    | .inst i => do let (cs, ev) ← genInst st.qs st.ev i; pure (cs.map Item.inst, ev)
    | .label t v n => pure ([Item.label t v n], st.ev)
    | .data d => pure ([Item.data d], st.ev))
  let qs ← nextAll st.qs
  pure (cs, ⟨st.rest.tail, qs, ev⟩)

def isLeave : Immc → Bool
  | .inst i => decide (i.op = .leave)
  | _ => false

/-- the loop of `gen_function_x64code`, x64gen.c:72-92, up to the `LEAVE`; at the end of the items `vector_at`
returns NULL and `immc->type` is a NULL dereference -/
def genBody (acc : List Item) (qs : List Liveseq) (ev : Nat) : List Immc → Out (List Item × St)
  | [] => .ub
  | x :: xs =>
    if isLeave x then .ok (acc, ⟨x :: xs, qs, ev⟩)
    else match x with
      | .data _ => .fatal
      | x => do
        let (cs, st) ← genItem x ⟨x :: xs, qs, ev⟩
        genBody (acc ++ cs) st.qs st.ev xs

/-- the pushes added to the prologue, x64gen.c:94-103 -/
def savePushes (ev : Nat) : List XInst :=
  (calleeSaved.take ev).map (fun r => is .push (.reg .quad r)) ++
  if ev % 2 = 1 then [spImm .sub 8] else []

/-- the pops put before the epilogue, x64gen.c:105-113 -/
def restorePops (ev : Nat) : List XInst :=
  (if ev % 2 = 1 then [spImm .add 8] else []) ++
  ((calleeSaved.take ev).reverse).map (fun r => id1 .pop (.reg .quad r))

/-- `gen_function_x64code`, x64gen.c:54-128. More than five evacuated registers would read past
`CALLEE_SAVED_REG_IDS`, which `genCall` already reports. -/
def genFunction (st : St) : Out (List Item × St) := do
  match st.rest with
  | [] => .ub
  | lbl :: rest => do
    let (lc, st) ← genItem lbl { st with ev := 0 }
    match rest with
    | [] => .ub
    | ent :: body => do
      let (hc, st) ← genItem ent st
      let (bc, st) ← genBody [] st.qs st.ev body
      match st.rest with
      | [] => .ub
      | lv :: _ => do
        let ev := st.ev
        let (tc, st) ← genItem lv st
        pure (lc ++ hc ++ (savePushes ev).map .inst ++ bc ++ (restorePops ev).map .inst ++ tc, { st with ev := 0 })

def endsVariable : Immc → Bool
  | .label t _ _ => decide (t ≠ .normal)
  | _ => false

/-- `gen_variable_x64code`, x64gen.c:130-158: the data items after the label -/
def genVarData (acc : List Item) (qs : List Liveseq) (ev : Nat) : List Immc → Out (List Item × St)
  | [] => .ok (acc, ⟨[], qs, ev⟩)
  | x :: xs =>
    if endsVariable x then .ok (acc, ⟨x :: xs, qs, ev⟩)
    else match x with
      | .data d => do
        let (cs, st) ← genItem (.data d) ⟨x :: xs, qs, ev⟩
        genVarData (acc ++ cs) st.qs st.ev xs
      | _ => .fatal

def genVariable (st : St) : Out (List Item × St) := do
  match st.rest with
  | [] => .ub
  | lbl :: rest => do
    let (lc, st) ← genItem lbl st
    let (dc, st) ← genVarData [] st.qs st.ev rest
    pure (lc ++ dc, st)

/-- `x64gen_generate_x64code`, x64gen.c:24-52. The first item is read as a label without a check. -/
def generateLoop (acc : List Item) : Nat → St → Out (List Item)
  | 0, _ => .hang
  | fuel + 1, st =>
    match st.rest with
    | [] => .ok acc
    | .label .function _ _ :: _ => do
      let (cs, st) ← genFunction st
      generateLoop (acc ++ cs) fuel st
    | .label .variable _ _ :: _ => do
      let (cs, st) ← genVariable st
      generateLoop (acc ++ cs) fuel st
    | .label .normal _ _ :: _ => .fatal
    | _ :: _ => .ub

def generate (code : List Immc) (qs : List Liveseq) : Out (List Item) :=
  generateLoop [] (code.length + 1) ⟨code, qs, 0⟩

end X64
end Umlcc
