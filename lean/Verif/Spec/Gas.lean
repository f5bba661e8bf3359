/-!
How the GNU assembler reads the text of an `.ascii` directive (gas manual, "Strings"): the escapes are
`\b \f \n \r \t`, up to three octal digits, `\x` with hexadecimal digits, `\\` and `\"`;
any other escaped character stands for itself.
-/
namespace Umlcc
namespace Gas

/-- octal digit -/
def octal (b : UInt8) : Option Nat := if 0x30 ≤ b ∧ b ≤ 0x37 then some (b.toNat - 0x30) else none

/-- up to `n` octal digits -/
def octRun (v : Nat) : Nat → List UInt8 → Nat × List UInt8
  | 0, s => (v, s)
  | _, [] => (v, [])
  | n + 1, b :: s =>
    match octal b with
    | some d => octRun (v * 8 + d) n s
    | none => (v, b :: s)

/-- a character after a backslash -/
def simple : UInt8 → UInt8
  | 0x62 => 8 | 0x66 => 12 | 0x6E => 10 | 0x72 => 13 | 0x74 => 9
  | c => c

/-- the bytes denoted by the text up to the closing quote, and the text after it (`\x` is never printed by the compiler
and is left out) -/
def body : Nat → List UInt8 → Option (List UInt8 × List UInt8)
  | 0, _ => none
  | _, [] => none
  | fuel + 1, b :: s =>
    if b = 0x22 then some ([], s)
    else if b = 0x5C then
      match s with
      | [] => none
      | c :: s =>
        match octal c with
        | some _ =>
          let r := octRun 0 3 (c :: s)
          (body fuel r.2).map fun p => (UInt8.ofNat r.1 :: p.1, p.2)
        | none =>
          if c = 0x78 then none
          else
            (body fuel s).map fun p => (simple c :: p.1, p.2)
    else (body fuel s).map fun p => (b :: p.1, p.2)

/-- the bytes of a quoted string -/
def decode : List UInt8 → Option (List UInt8)
  | 0x22 :: s =>
    match body (s.length + 1) s with
    | some (bs, []) => some bs
    | _ => none
  | _ => none

end Gas
end Umlcc
