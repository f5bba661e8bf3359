import Verif.Model.Lexer
/-!
Model of `sliteral_display_string`, `src/literal/sliteral.c`: the text printed after `.ascii`.

The output buffer is a list of bytes of the allocated size; a write outside it is undefined behaviour.
Simplification: `malloc`/`realloc` succeed, `4 * size + 3` does not overflow `int`.
-/
namespace Umlcc
namespace Literal

/-- `ascii`, sliteral.c:12: the characters printed as they are (without the terminating NUL) -/
def printable : List UInt8 :=
  LSpecText " !#$%&()*+,-./0123456789:;<=>@ABCDEFGHIJKLMNOPQRSTUVWXYZ[]^_`abcdefghijklmnopqrstuvwxyz{|}~"
where
  /-- bytes of an ASCII string -/
  LSpecText (s : String) : List UInt8 := s.toList.map (fun c => UInt8.ofNat c.toNat)

/-- octal digits of an unsigned number, as `%o` prints them -/
def octDigits (fuel n : Nat) : List UInt8 :=
  match fuel with
  | 0 => []
  | fuel + 1 => (if n < 8 then [] else octDigits fuel (n / 8)) ++ [UInt8.ofNat (0x30 + n % 8)]

/-- `%03o`: at least three digits -/
def fmt03o (n : Nat) : List UInt8 :=
  let ds := octDigits 12 n
  List.replicate (3 - ds.length) 0x30 ++ ds

/-- what `sprintf` writes for the character and by how much `len` grows, sliteral.c:50-108. `c` is an `int` holding a
(signed) character; `%o` prints it as an `unsigned int`. -/
def piece (b : UInt8) : List UInt8 × Nat :=
  if b ∈ printable then ([b], 1)
  else
    match b with
    | 0x27 => ([0x5C, 0x27], 2)
    | 0x22 => ([0x5C, 0x22], 2)
    | 0x3F => ([0x5C, 0x3F], 2)
    | 0x5C => ([0x5C, 0x5C], 2)
    | 0x07 => ([0x5C, 0x61], 2)
    | 0x08 => ([0x5C, 0x62], 2)
    | 0x0C => ([0x5C, 0x66], 2)
    | 0x0A => ([0x5C, 0x6E], 2)
    | 0x0D => ([0x5C, 0x72], 2)
    | 0x09 => ([0x5C, 0x74], 2)
    | 0x0B => ([0x5C, 0x76], 2)
    | b => (0x5C :: fmt03o (charVal b % 4294967296).toNat, 4)

/-- writing bytes into the buffer at a position -/
def write (buf : List UInt8) (pos : Nat) (bs : List UInt8) : Out (List UInt8) :=
  if pos + bs.length ≤ buf.length then .ok (buf.take pos ++ bs ++ buf.drop (pos + bs.length)) else .ub

/-- loop of sliteral_display_string, sliteral.c:50-108; `sprintf` appends a NUL -/
def displayLoop : List UInt8 → List UInt8 → Nat → Out (List UInt8)
  | [], buf, _ => .ok buf
  | b :: bs, buf, len => do
    let buf ← write buf len ((piece b).1 ++ [0])
    displayLoop bs buf (len + (piece b).2)

/-- the C string in the buffer -/
def cstr (buf : List UInt8) : List UInt8 := buf.takeWhile (· ≠ 0)

/-- `strcat(buffer, "\"")` -/
def catQuote (buf : List UInt8) : Out (List UInt8) := write buf (cstr buf).length [0x22, 0]

/-- `sliteral_display_string`, sliteral.c:42-116 -/
def display (bs : List UInt8) : Out (List UInt8) := do
  let buf ← catQuote (List.replicate (4 * bs.length + 3) 0)
  let buf ← displayLoop bs buf 1
  let buf ← catQuote buf
  .ok (cstr buf)

/-- `sliteral_zero_padding_copy`, sliteral.c:29-40 -/
def zeroPad (bs : List UInt8) (size : Nat) : List UInt8 := bs.take size ++ List.replicate (size - bs.length) 0

end Literal
end Umlcc
