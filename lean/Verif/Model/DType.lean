import Verif.Model.Base
/-!
Model of `src/dtype/*.c` and of `min_multiple_of` (`src/common/util.c`).

A completed data type (no NULL `to_dtype`/`of_dtype`/`return_dtype`; the incomplete "socket" types of
declarators are treated with the declarators). Array sizes and layout numbers are natural numbers: the resolver
refuses array sizes that are not positive (declaration.c:759-765), and `int` overflow of sizes is ignored.
-/
namespace Umlcc

/-- a C string without its terminating NUL -/
abbrev Str := List UInt8

mutual
/-- `struct DType`, dtype.h:17-42; `nstruct`/`ustruct` are the named/unnamed `DStruct` (struct.h),
`nenum`/`uenum` the named/unnamed `DEnum` (enum.h). -/
inductive DType where
  | void | char | int | uint | long | ulong | llong | ullong
  | ptr (to : DType)
  | arr (of : DType) (size : Nat)
  | nstruct (name : Str) (nbytes alignment : Nat)
  | ustruct (members : Members) (nbytes alignment : Nat)
  | nenum (name : Str)
  | uenum (members : List (Str × Int))
  | func (params : Params) (ret : DType)
  | tdef (defined : DType)
/-- vector of `DStructMember` (name, dtype, memory_offset) -/
inductive Members where
  | nil
  | cons (name : Str) (dtype : DType) (offset : Nat) (rest : Members)
/-- vector of `DParam` (name or NULL, dtype) -/
inductive Params where
  | nil
  | cons (name : Option Str) (dtype : DType) (rest : Params)
end

deriving instance DecidableEq for DType, Members, Params

namespace DType

/-- `min_multiple_of`, util.c:3-5, for non-negative arguments; division by zero is undefined -/
def minMultipleOf (n base : Nat) : Out Nat :=
  if base = 0 then .ub else .ok ((n + base - 1) / base * base)

/-- `dtype_alignment`, dtype.c:320-344 -/
def alignment : DType → Nat
  | char => 1
  | int | uint => 4
  | long | ulong | llong | ullong => 8
  | ptr _ => 8
  | arr of _ => alignment of
  | nstruct _ _ a => a
  | ustruct _ _ a => a
  | nenum _ | uenum _ => 4
  | _ => 0

/-- `dtype_nbytes`, dtype.c:346-370 -/
def nbytes : DType → Nat
  | char => 1
  | int | uint => 4
  | long | ulong | llong | ullong => 8
  | ptr _ => 8
  | arr of n => n * nbytes of
  | nstruct _ b _ => b
  | ustruct _ b _ => b
  | nenum _ | uenum _ => 4
  | _ => 0

/-- loop of `new_unnamed_dstruct`, struct.c:33-44: from the running size and alignment to the members with their
offsets and the final size and alignment -/
def layoutLoop : Members → Nat → Nat → Out (Members × Nat × Nat)
  | .nil, nb, al => .ok (.nil, nb, al)
  | .cons name t _ rest, nb, al => do
    let a := alignment t
    let off ← minMultipleOf nb a
    let nb := off + nbytes t
    let al := if a > al then a else al
    let (ms, nb, al) ← layoutLoop rest nb al
    pure (.cons name t off ms, nb, al)

/-- `new_unnamed_struct_dtype` / `new_unnamed_dstruct`, dtype.c:44-48, struct.c:26-48 -/
def newUnnamedStruct (ms : Members) : Out DType := do
  let (ms, nb, al) ← layoutLoop ms 0 0
  let nb ← minMultipleOf nb al
  pure (.ustruct ms nb al)

mutual
/-- `dtype_equals` and the `*_equals` of pointer.c, array.c, struct.c, enum.c, function.c, typedef.c:
dtype.c:234-255, pointer.c:37-39, array.c:50-52, struct.c:77-100, enum.c:42-66, function.c:45-62, typedef.c:34-36.
The member loops compare the sizes first and then member by member; here both in one pass. -/
def equals : DType → DType → Bool
  | void, void | char, char | int, int | uint, uint | long, long | ulong, ulong | llong, llong
  | ullong, ullong => true
  | ptr a, ptr b => equals a b
  | arr a n, arr b m => n == m && equals a b
  | nstruct s _ _, nstruct t _ _ => s == t
  | ustruct a _ _, ustruct b _ _ => membersEquals a b
  | nenum s, nenum t => s == t
  | uenum a, uenum b => a == b
  | func ps r, func qs q => equals r q && paramsEquals ps qs
  | tdef a, tdef b => equals a b
  | _, _ => false
/-- struct.c:86-99, dstructmember_equals struct.c:127-129 -/
def membersEquals : Members → Members → Bool
  | .nil, .nil => true
  | .cons n t _ ms, .cons n' t' _ ms' => (n == n' && equals t t') && membersEquals ms ms'
  | _, _ => false
/-- function.c:49-61, dparam_equals function.c:96-98 (names are not compared) -/
def paramsEquals : Params → Params → Bool
  | .nil, .nil => true
  | .cons _ t ps, .cons _ t' ps' => equals t t' && paramsEquals ps ps'
  | _, _ => false
end

mutual
/-- `dtype_copy` and the `*_copy`: dtype.c:110-139 -/
def copy : DType → DType
  | ptr a => ptr (copy a)
  | arr a n => arr (copy a) n
  | nstruct s b a => nstruct s b a
  | ustruct ms b a => ustruct (membersCopy ms) b a
  | nenum s => nenum s
  | uenum ms => uenum ms
  | func ps r => func (paramsCopy ps) (copy r)
  | tdef a => tdef (copy a)
  | t => t
/-- vector_copy with dstructmember_copy, struct.c:119-125 -/
def membersCopy : Members → Members
  | .nil => .nil
  | .cons n t o ms => .cons n (copy t) o (membersCopy ms)
/-- vector_copy with dparam_copy, function.c:86-94 -/
def paramsCopy : Params → Params
  | .nil => .nil
  | .cons n t ps => .cons n (copy t) (paramsCopy ps)
end

/-- `dtype_scalar_rank`, dtype.c:191-210 -/
def scalarRank : DType → Nat
  | char => 1
  | int | uint => 2
  | long | ulong => 3
  | llong | ullong => 4
  | ptr _ => 3
  | _ => 0

/-- `dtype_issignedinteger`, dtype.c:285-288 -/
def isSigned : DType → Bool
  | char | int | long | llong | nenum _ | uenum _ => true
  | _ => false

/-- `dtype_isunsignedinteger`, dtype.c:290-293 -/
def isUnsigned : DType → Bool
  | uint | ulong | ullong => true
  | _ => false

/-- `dtype_isinteger`, dtype.c:295-297 -/
def isInteger : DType → Bool
  | char | int | uint | long | ulong | llong | ullong | nenum _ | uenum _ => true
  | _ => false

/-- `dtype_isarithmetic`, dtype.c:299-301 (the language has no floating types) -/
def isArithmetic : DType → Bool
  | char | int | uint | long | ulong | llong | ullong | nenum _ | uenum _ => true
  | _ => false

/-- `dtype_isscalar`, dtype.c:303-305 -/
def isScalar : DType → Bool
  | char | int | uint | long | ulong | llong | ullong | ptr _ | nenum _ | uenum _ => true
  | _ => false

/-- `dtype_isobject`, dtype.c:311-314 -/
def isObject : DType → Bool
  | char | int | uint | long | ulong | llong | ullong | ptr _ | arr _ _ | nenum _ | uenum _ => true
  | nstruct _ b _ | ustruct _ b _ => b > 0
  | _ => false

/-- `dtype_isincomplete`, dtype.c:316-318 -/
def isIncomplete : DType → Bool
  | void => true
  | nstruct _ b _ | ustruct _ b _ => b = 0
  | _ => false

/-- `->type == DTYPE_VOID` -/
def isVoid : DType → Bool
  | void => true
  | _ => false

/-- `dtype_isassignable`, dtype.c:257-283 -/
def isAssignable : DType → DType → Bool
  | ptr a, ptr b => equals a b || isVoid a || isVoid b
  | a, b => isArithmetic a && isArithmetic b

end DType
end Umlcc
