import Verif.Spec.X64Run
/-!
A decidable test for `Suits`: liveness, calls in preparation and lines after the return value are given as lists, one entry per line, and checked.
-/
namespace Umlcc
namespace X86

/-- lines control may go to -/
def succs (out : List Immc) (i : Nat) : List Nat :=
  match out[i]? with
  | none => []
  | some x => (match x with
      | .inst i' => if i'.op = .jmp then [] else [i + 1]
      | _ => [i + 1]) ++
    match RSpec.target x with
    | none => []
    | some n => (List.range out.length).filter fun j => match out[j]? with
      | some y => RSpec.isLabelNamed n y
      | none => false

def litFitsB (w : Sfx) : Ope → Bool
  | .int _ l => immFits w l.value
  | _ => true

def litLoadsB (w : Sfx) : Ope → Bool
  | .int _ l => if w = .quad then immFits64 l.value else immFits w l.value
  | _ => true

def widensB (u : Bool) (o : Ope) (w : Sfx) : Bool :=
  match o with
  | .reg .long _ u' => decide (w = .quad) && decide (u' = u)
  | _ => false

def inFrameB (n s : Nat) : Option Ope → Bool
  | some (.mem k) => decide ((s : Int) ≤ k) && decide (k ≤ n)
  | _ => true

def pairB (fs : Sfx) (f : Int) (fu : Bool) (o : Ope) (w : Sfx) : Bool :=
  (match o with
    | .reg _ g _ => decide (g ≠ f)
    | _ => true) && !widensB true (.reg fs f fu) w && !widensB true o w

def destB (w ds : Sfx) (du : Bool) : Bool := !(du && decide (w = .long) && decide (ds = .quad))

/-- the destination is register `u` -/
def isDst (i : Inst) (u : Int) : Bool :=
  match i.dst with
  | some (.reg _ d _) => decide (d = u)
  | _ => false

/-- `Shape`, the live registers being given as a list -/
def shapeB (live : List Int) (flags : List Bool) (ps : List Prep) (n nargs : Nat) (early : Bool) (i : Inst) : Bool :=
  match i.op with
  | .load => match i.dst, i.fst with
    | some (.reg ds _ _), some o => litLoadsB ds o && !widensB true o ds && inFrameB n ds.nbytes (some o)
    | _, _ => false
  | .addr => match i.fst with
    | some (.ptr _) => false
    | some _ => true
    | none => false
  | .store => match i.fst with
    | some o => litFitsB (IMach.width (some o)) o && inFrameB n (IMach.width (some o)).nbytes i.dst
    | none => false
  | .str => match i.dst, i.fst with
    | some (.mem k), some (.str bs) => bs.all (fun c => decide (c.toNat < 128)) &&
        (decide (bs.length % 8 = 0) || decide (bs.length % 8 = 1) || decide (bs.length % 8 = 2) || decide (bs.length % 8 = 4)) &&
        decide ((bs.length : Int) ≤ k) && decide (k ≤ n) && !live.contains 6
    | _, _ => false
  | .ldarg => early && match i.dst, i.fst with
    | some (.mem k), some (.arg s j _) => decide ((s.nbytes : Int) ≤ k) && decide (k ≤ n) && decide (j < nargs) && (decide (j < 6) || !live.contains 6)
    | _, _ => false
  | .starg => match ps, i.dst, i.fst with
    | p :: _, some (.arg _ j _), some o => decide (p.called = false) && decide (p.k < p.n) && decide (j = (p.n - 1 - p.k : Nat)) && litFitsB .quad o
    | _, _, _ => false
  | .stret => match i.dst, i.fst with
    | none, some o => litLoadsB (IMach.width (some o)) o
    | _, _ => false
  | .add | .sub | .and | .or | .xor => match i.fst, i.snd, i.dst with
    | some (.reg fs f fu), some o, some (.reg ds d du) =>
      let w := IMach.wider fs (IMach.width (some o))
      pairB fs f fu o w && destB w ds du && litFitsB w o && (decide (f = d) || !live.contains f)
    | _, _, _ => false
  | .mul => match i.fst, i.snd, i.dst with
    | some (.reg fs f fu), some o, some (.reg ds _ du) =>
      let w := IMach.wider fs (IMach.width (some o))
      pairB fs f fu o w && destB w ds du && litFitsB w o && decide (w ≠ .byte) && !widensB false o w
    | _, _, _ => false
  | .div | .mod => match i.fst, i.snd, i.dst with
    | some (.reg fs f fu), some o, some (.reg ds d du) =>
      let w := IMach.wider fs (IMach.width (some o))
      pairB fs f fu o w && destB w ds du && litLoadsB w o && decide (w ≠ .byte) && !widensB false o w &&
        (!live.contains 1 || decide (d = 1) || (decide (flags[1]? = some true) && decide (f ≠ 1))) &&
        (match o with
          | .int _ _ => decide (d = 6) || !live.contains 6
          | .reg _ r _ => decide (r ≠ 1) || decide (f = d) || !live.contains f
          | _ => true)
    | _, _, _ => false
  | .sal | .sar => match i.fst, i.snd, i.dst with
    | some (.reg fs f fu), some (.int s l), some (.reg ds d du) =>
      let w := IMach.wider fs (IMach.width (some (.int s l)))
      pairB fs f fu (.int s l) w && destB w ds du && decide (0 ≤ l.value) && decide (l.value < w.bits) && (decide (i.op ≠ .sar) || decide (fu = false)) &&
        (decide (f = d) || !live.contains f)
    | _, _, _ => false
  | .neg | .not => match i.fst, i.snd, i.dst with
    | some (.reg fs f fu), none, some (.reg ds d _) => destB fs ds fu && (decide (f = d) || !live.contains f)
    | _, _, _ => false
  | .seteq | .setneq | .setlt | .setgt | .setleq | .setgeq => match i.fst, i.snd, i.dst with
    | some (.reg fs f fu), some o, some (.reg _ d _) =>
      let w := IMach.wider fs (IMach.width (some o))
      pairB fs f fu o w && decide (d = f) && litFitsB w o
    | _, _, _ => false
  | .jmp => match i.dst with
    | some (.label _) => true
    | _ => false
  | .jeq | .jneq | .jgt | .jgeq | .jlt | .jleq => match i.fst, i.snd, i.dst with
    | some (.reg fs f fu), some o, some (.label _) =>
      let w := IMach.wider fs (IMach.width (some o))
      pairB fs f fu o w && litFitsB w o
    | _, _, _ => false
  | .call => match i.fst, i.snd, ps with
    | some _, some (.int _ l), p :: rest => decide (p.called = false) && decide (p.k = p.n) && decide (l.value = p.n) && decide (p.n < 2 ^ 27) &&
        decide (heldAll rest % 16 = 0) && (match i.dst with
          | none => true
          | some (.reg ds _ _) => decide (ds ≠ .none)
          | _ => false) &&
        live.all (fun u => isDst i u || decide (flags[u.toNat]? = some true)) &&
        (List.range flags.length).all (fun a => (List.range flags.length).all fun b =>
          !decide (flags[a]? = some true) || !decide (flags[b]? = some true) || isDst i a || isDst i b || decide (a = b))
    | _, _, _ => false
  | .prep => match i.dst, i.fst with
    | none, some (.int _ l) => decide (0 ≤ l.value)
    | _, _ => false
  | .clean => match i.dst, i.fst, ps with
    | none, some (.int _ l), p :: _ => decide (p.called = true) && decide (l.value = p.n) && decide (p.n < 2 ^ 27)
    | _, _, _ => false
  | .enter | .leave => false

/-- registers live at a line, calls in preparation, and whether the return value has been set -/
structure Line where
  live : List Int
  preps : List Prep
  done : Bool
  deriving DecidableEq, Repr

/-- what is claimed of line `i` -/
def lineAt (C : List Line) (i : Nat) : Line := C[i]?.getD ⟨[], [], true⟩

/-- the flags of the register sequences after `k` items -/
def flagsAt (qs : List Liveseq) (k : Nat) : List Bool := qs.map fun q =>
  match q.nextN k with
  | .ok q' => match q'.isAlive with
    | .ok b => b
    | _ => false
  | _ => false

def reportsB (qs : List Liveseq) (k : Nat) : Bool := qs.all fun q =>
  match q.nextN k with
  | .ok q' => match q'.isAlive with
    | .ok _ => true
    | _ => false
  | _ => false

def isData : Immc → Bool
  | .data _ => true
  | _ => false

/-- the claims about line `i` hold -/
def lineB (out : List Immc) (qs : List Liveseq) (n nargs K : Nat) (C : List Line) (i : Nat) (x : Immc) : Bool :=
  let here := lineAt C i
  let next := succs out i
  !isData x && (RSpec.reads x).all (fun u => decide (0 ≤ u) && decide (u < 8) && here.live.contains u) &&
  (match RSpec.writes x with
    | some u => decide (0 ≤ u) && decide (u < 8)
    | none => true) &&
  next.all (fun j => (decide (j = i + 1) || decide (2 ≤ j)) &&
    (lineAt C j).live.all (fun u => decide (RSpec.writes x = some u) || here.live.contains u) &&
    (decide (i < 2) || decide (out.length ≤ j) || decide ((lineAt C j).preps = prepAfter x here.preps)) &&
    (!here.done || (lineAt C j).done) &&
    (match x with
      | .inst y => decide (y.op ≠ .stret) || (lineAt C j).done
      | _ => true)) &&
  (!here.done || match x with
    | .label _ _ _ => true
    | .inst y => decide (y.op = .jmp) || decide (y.op = .leave)
    | _ => false) &&
  (decide (i < 2) || decide (K + 2 ≤ i) || match x with
    | .inst y => decide (y.op = .ldarg)
    | _ => false) &&
  (decide (i < 2) || decide (out.length ≤ i + 1) ||
    (reportsB qs i && match x with
      | .inst y => shapeB (next.flatMap fun j => (lineAt C j).live) (flagsAt qs i) here.preps n nargs (decide (i < K + 2)) y
      | _ => true))

/-- the test -/
def suitsB (out : List Immc) (qs : List Liveseq) (n nargs K : Nat) (C : List Line) : Bool :=
  (match (out[0]? : Option Immc), (out[1]? : Option Immc), (out[out.length - 1]? : Option Immc) with
    | some (.label _ _ _), some (.inst ⟨.enter, none, some (.int _ l), none⟩), some (.inst ⟨.leave, none, some (.int _ l'), none⟩) =>
      decide (l.value = (n : Int)) && decide (l'.value = (n : Int))
    | _, _, _ => false) &&
  decide (3 ≤ out.length) && decide (qs.length = 8) &&
  (List.range out.length).all (fun i => (List.range out.length).all fun j => decide (i = j) || match out[i]?, out[j]? with
    | some (.label _ _ a), some (.label _ _ b) => decide (a ≠ b)
    | _, _ => true) &&
  decide ((lineAt C 2).live = []) && decide ((lineAt C 2).preps = []) && decide ((lineAt C (out.length - 1)).preps = []) &&
  (List.range out.length).all fun i => match out[i]? with
    | some x => lineB out qs n nargs K C i x
    | none => true

/-! ### finding the claims -/

/-- one round of the usual backward propagation -/
def liveRound (out : List Immc) (L : List (List Int)) : List (List Int) :=
  (List.range out.length).map fun i => match out[i]? with
    | none => []
    | some x => (RSpec.reads x ++ ((succs out i).flatMap fun j => L[j]?.getD []).filter fun u => decide (RSpec.writes x ≠ some u)).eraseDups

def liveRounds (out : List Immc) : Nat → List (List Int)
  | 0 => out.map fun _ => []
  | n + 1 => liveRound out (liveRounds out n)

/-- one pass over the lines, passing what is known of a line on to the lines after it -/
def flowPass {α : Type} (out : List Immc) (f : Immc → α → Option α) : List Nat → List (Option α) → List (Option α)
  | [], st => st
  | i :: is, st => flowPass out f is (match out[i]?, st[i]? with
      | some x, some (some a) => match f x a with
        | some b => (succs out i).foldl (fun st j => match st[j]? with
            | some none => st.set j (some b)
            | _ => st) st
        | none => st
      | _, _ => st)

def prepsOf (out : List Immc) : List (Option (List Prep)) :=
  flowPass out (fun x a => some (prepAfter x a)) ((List.range out.length).drop 2) ((out.map fun _ => none).set 2 (some []))

def doneOf (out : List Immc) : List (Option Bool) :=
  flowPass out (fun x a => match x with
    | .inst y => if a || decide (y.op = .stret) then some true else none
    | _ => if a then some true else none) (List.range out.length) (out.map fun x => match x with
      | .inst y => if y.op = .stret then some false else none
      | _ => none)

def certify (out : List Immc) (rounds : Nat) : List Line :=
  let L := liveRounds out rounds
  let A := prepsOf out
  let Z := doneOf out
  (List.range out.length).map fun i => ⟨L[i]?.getD [], (A[i]?.getD none).getD [], decide (Z[i]?.getD none = some true)⟩

/-- bytes of local objects -/
def frameOf (out : List Immc) : Nat :=
  match out with
  | _ :: .inst ⟨.enter, none, some (.int _ l), none⟩ :: _ => l.value.toNat
  | _ => 0

def isLdarg : Immc → Bool
  | .inst y => decide (y.op = .ldarg)
  | _ => false

/-- The machine code of the function with allocated code `out` and intervals `qs` is right, as far as this test can see. -/
def checked (out : List Immc) (qs : List Liveseq) (nargs rounds : Nat) : Bool :=
  suitsB out qs (frameOf out) nargs ((out.drop 2).takeWhile isLdarg).length (certify out rounds)

end X86
end Umlcc
