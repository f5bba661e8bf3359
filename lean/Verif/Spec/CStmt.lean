import Verif.Spec.Layout
import Verif.Spec.Fragment
/-!
The C meaning of statements and functions, on top of `CSem.eval`. It is written from the C standard, without reference to generated code.

* `exec` takes a bound on the depth of the execution. If the bound is used up the result is `more` with the memory and world reached so far, so that executions
  that never end are described by their finite beginnings. `none` is undefined behaviour, as in `eval`.
* Names are in scopes. Where the objects of a function lie is not fixed by C: `Impl` says it (`frame`, `place`).
* A `switch` executes its statement from a label on (`Mode.seek`); the label may be inside of any statements but another `switch`.

With `lim` of the context the cases in which the compiler is known to be wrong are excluded (`none`): initialisers of arrays of structures with padding at their end,
and `case` labels that are not values of the type of the controlling expression.
-/
namespace Umlcc
namespace CStm
open IMach (Mem Val)
open CSem (Ctx eval rep need wrap InRange safe)
open Lay (constant leaves initialise packed)

/-- what C leaves open -/
structure Impl (W : Type) where
  /-- strings, functions by their names, and what calls do -/
  base : Ctx W
  /-- the objects of a function lie below this address -/
  frame : BitVec 64
  /-- with so many bytes in use, an object of the type lies at this distance below `frame`, which is also the number of bytes in use then -/
  place : Nat → DType → Nat

/-- names and tags in scope, innermost scope first, and the number of bytes of the frame in use -/
structure Vars where
  names : List (List (Str × BitVec 64))
  tags : List (List (Str × DType))
  used : Nat

def find (n : Str) : List (List (Str × α)) → Option α
  | [] => none
  | sc :: scs => (sc.lookup n).or (find n scs)

/-- the name is not declared in the innermost scope -/
def isNew (n : Str) : List (List (Str × α)) → Bool
  | [] => true
  | sc :: _ => (sc.lookup n).isNone

def add (n : Str) (x : α) : List (List (Str × α)) → List (List (Str × α))
  | [] => [[(n, x)]]
  | sc :: scs => ((n, x) :: sc) :: scs

/-- members of a structure type with a tag -/
def tagMembers : DType → Option Members
  | .ustruct ms _ _ => some ms
  | _ => none

/-- members and size of the structure with a tag -/
def structs (tags : List (List (Str × DType))) (n : Str) : Option (Members × Nat) :=
  match find n tags with
  | some (.ustruct ms b _) => some (ms, b)
  | _ => none

/-- what expressions refer to -/
def Vars.ctx (I : Impl W) (V : Vars) : Ctx W :=
  { I.base with addr := fun n => find n V.names, tag := fun n => (find n V.tags).bind tagMembers }

/-- a block begins -/
def Vars.enter (V : Vars) : Vars := { V with names := [] :: V.names, tags := [] :: V.tags }

/-- a name is declared: an object is created, other names are those of functions -/
def declare (I : Impl W) (n : Str) (t : DType) (V : Vars) : Option Vars := do
  need (isNew n V.names = true)
  if t.isObject then
    some { V with names := add n (I.frame - BitVec.ofNat 64 (I.place V.used t)) V.names, used := I.place V.used t }
  else do
    let a ← I.base.addr n
    some { V with names := add n a V.names }

def declareAll (I : Impl W) : List SDecl → Vars → Option Vars
  | [], V => some V
  | d :: ds, V => match d.who with
    | .ident n => do
      let V ← declare I n d.dt V
      declareAll I ds V
    | .str _ => none

/-- declaration of a tag; only structures matter -/
def declareTag (n : Str) (t : DType) (V : Vars) : Option Vars :=
  match t with
  | .ustruct _ _ _ => do
    need (isNew n V.tags = true)
    some { V with tags := add n t V.tags }
  | _ => some V

mutual
/-- What is in scope after a statement: only the number of bytes in use changes; every object has its own bytes. -/
def scope (I : Impl W) : SStmt → Vars → Option Vars
  | .cmpd is, V => do
    let V' ← scopes I is V.enter
    some { V with used := V'.used }
  | .case _ s, V | .dflt s, V | .switch _ s, V | .while _ s, V | .ite _ s, V => scope I s V
  | .itee _ t e, V => do
    let V1 ← scope I t V
    scope I e V1
  | .for i _ n b, V => do
    let V1 ← scopeItem I i V.enter
    let V2 ← scope I b V1
    let V3 ← scope I n V2
    some { V with used := V3.used }
  | .cont, V | .brk, V | .ret _, V | .expr _, V | .null, V => some V
def scopeItem (I : Impl W) : SItem → Vars → Option Vars
  | .stmt s, V => scope I s V
  | .decls ds, V => declareAll I ds V
  | .tag n t, V => declareTag n t V
def scopes (I : Impl W) : SItems → Vars → Option Vars
  | .nil, V => some V
  | .cons i is, V => do
    let V1 ← scopeItem I i V
    scopes I is V1
end

/-! ### labels -/

/-- what a `switch` looks for: a `case` with a value, after conversion to a type, or the `default` -/
inductive Label where
  | value (q : Sfx × Bool) (v : Int)
  | dflt
  deriving DecidableEq

/-- the `case` is the one looked for -/
def Label.is (T : Label) (e : SExpr) : Bool :=
  match T with
  | .value q v => decide ((constant e).map (wrap q) = some v)
  | .dflt => false

mutual
/-- the label is in the statement -/
def hits (T : Label) : SStmt → Bool
  | .cmpd is => hitsAny T is
  | .case e s => T.is e || hits T s
  | .dflt s => decide (T = .dflt) || hits T s
  | .ite _ t => hits T t
  | .itee _ t e => hits T t || hits T e
  | .while _ s => hits T s
  | .for _ _ _ b => hits T b
  | .switch _ _ | .cont | .brk | .ret _ | .expr _ | .null => false
def hitsItem (T : Label) : SItem → Bool
  | .stmt s => hits T s
  | .decls _ | .tag _ _ => false
def hitsAny (T : Label) : SItems → Bool
  | .nil => false
  | .cons i is => hitsItem T i || hitsAny T is
end

mutual
/-- number of `default` labels that belong to the same `switch` -/
def dflts : SStmt → Nat
  | .cmpd is => dfltsAll is
  | .dflt s => 1 + dflts s
  | .case _ s | .ite _ s | .while _ s | .for _ _ _ s => dflts s
  | .itee _ t e => dflts t + dflts e
  | .switch _ _ | .cont | .brk | .ret _ | .expr _ | .null => 0
def dfltsItem : SItem → Nat
  | .stmt s => dflts s
  | .decls _ | .tag _ _ => 0
def dfltsAll : SItems → Nat
  | .nil => 0
  | .cons i is => dfltsItem i + dfltsAll is
end

mutual
/-- the `case` labels are values of the type -/
def casesIn (q : Sfx × Bool) : SStmt → Bool
  | .cmpd is => casesInAll q is
  | .case e s => (match constant e with
      | some v => decide (InRange q v)
      | none => false) && casesIn q s
  | .dflt s | .ite _ s | .while _ s | .for _ _ _ s => casesIn q s
  | .itee _ t e => casesIn q t && casesIn q e
  | .switch _ _ | .cont | .brk | .ret _ | .expr _ | .null => true
def casesInItem (q : Sfx × Bool) : SItem → Bool
  | .stmt s => casesIn q s
  | .decls _ | .tag _ _ => true
def casesInAll (q : Sfx × Bool) : SItems → Bool
  | .nil => true
  | .cons i is => casesInItem q i && casesInAll q is
end

/-! ### execution -/

/-- how the execution of a statement ends -/
inductive Res where
  /-- at its end -/
  | norm
  | brk
  | cont
  | ret (v : Option Val)
  /-- the bound is used up -/
  | more
  deriving DecidableEq

/-- execution begins at the beginning, or at a label inside of the statement -/
inductive Mode where
  | run
  | seek (T : Label)
  deriving DecidableEq

/-- then -/
def Res.andThen (r : Res) (σ : Mem × W) (k : Mem × W → Option (Res × Mem × W)) : Option (Res × Mem × W) :=
  match r with
  | .norm => k σ
  | r => some (r, σ)

/-- after the body of a loop: `k` goes on -/
def Res.afterBody (r : Res) (σ : Mem × W) (k : Mem × W → Option (Res × Mem × W)) : Option (Res × Mem × W) :=
  match r with
  | .norm | .cont => k σ
  | .brk => some (.norm, σ)
  | r => some (r, σ)

/-- after the body of a `switch` -/
def Res.afterSwitch : Res → Res
  | .brk => .norm
  | r => r

/-- truth of a controlling expression -/
def test (C : Ctx W) (c : SExpr) (σ : Mem × W) : Option (Bool × Mem × W) := do
  need ((rep c.dt).isSome)
  let x ← eval C c σ
  some (decide (x.1 ≠ 0), x.2)

/-- the second expression of a `for` may be missing -/
def testFor (C : Ctx W) (c : SStmt) (σ : Mem × W) : Option (Bool × Mem × W) :=
  match c with
  | .expr c => test C c σ
  | .null => some (true, σ)
  | _ => none

/-- initialisation of one declared object, which is in scope already -/
def initObj (I : Impl W) (V : Vars) (n : Str) (t : DType) (i : Option SInit) (σ : Mem × W) : Option (Mem × W) :=
  match i with
  | none => some σ
  | some i => do
    need (t.isObject = true ∧ (I.base.lim = true → packed (structs V.tags) i t = true))
    let ls ← leaves (structs V.tags) i t 0
    let a ← find n V.names
    initialise (V.ctx I) a ls σ

/-- execution of declarations -/
def execDecls (I : Impl W) : List SDecl → Vars → Mem × W → Option (Mem × W)
  | [], _, σ => some σ
  | d :: ds, V, σ => match d.who with
    | .ident n => do
      let V ← declare I n d.dt V
      let σ ← initObj I V n d.dt d.init σ
      execDecls I ds V σ
    | .str _ => none

/-- where a `switch` with a value of its controlling expression goes on -/
def choose (q : Sfx × Bool) (v : Int) (b : SStmt) : Option Label :=
  if hits (.value q v) b then some (.value q v) else if hits .dflt b then some .dflt else none

mutual
/-- execution of a statement -/
def exec (I : Impl W) : Nat → Vars → Mode → SStmt → Mem × W → Option (Res × Mem × W)
  | 0, _, _, _, σ => some (.more, σ)
  | n + 1, V, m, .cmpd is, σ => execs I n V.enter m is σ
  | n + 1, V, .run, .case _ s, σ => exec I n V .run s σ
  | n + 1, V, .seek T, .case e s, σ => exec I n V (if T.is e then .run else .seek T) s σ
  | n + 1, V, .run, .dflt s, σ => exec I n V .run s σ
  | n + 1, V, .seek T, .dflt s, σ => exec I n V (if T = .dflt then .run else .seek T) s σ
  | _ + 1, _, .run, .cont, σ => some (.cont, σ)
  | _ + 1, _, .run, .brk, σ => some (.brk, σ)
  | _ + 1, _, .run, .ret none, σ => some (.ret none, σ)
  | _ + 1, V, .run, .ret (some e), σ => do
    let q ← rep e.dt
    let x ← eval (V.ctx I) e σ
    some (.ret (some ⟨q.1, BitVec.ofInt _ x.1⟩), x.2)
  | _ + 1, V, .run, .expr e, σ => do
    let x ← eval (V.ctx I) e σ
    some (.norm, x.2)
  | _ + 1, _, .run, .null, σ => some (.norm, σ)
  | n + 1, V, .run, .ite c t, σ => do
    let x ← test (V.ctx I) c σ
    if x.1 then exec I n V .run t x.2 else some (.norm, x.2)
  | n + 1, V, .seek T, .ite _ t, σ => exec I n V (.seek T) t σ
  | n + 1, V, .run, .itee c t e, σ => do
    let V1 ← scope I t V
    let x ← test (V.ctx I) c σ
    if x.1 then exec I n V .run t x.2 else exec I n V1 .run e x.2
  | n + 1, V, .seek T, .itee _ t e, σ => do
    let V1 ← scope I t V
    if hits T t then exec I n V (.seek T) t σ else exec I n V1 (.seek T) e σ
  | n + 1, V, .run, .switch c b, σ => do
    let q ← rep c.dt
    need (dflts b ≤ 1 ∧ (I.base.lim = true → casesIn q b = true))
    let x ← eval (V.ctx I) c σ
    match choose q x.1 b with
    | some T => do
      let y ← exec I n V (.seek T) b x.2
      some (y.1.afterSwitch, y.2)
    | none => some (.norm, x.2)
  | n + 1, V, .run, .while c b, σ => do
    let x ← test (V.ctx I) c σ
    if x.1 then do
      let y ← exec I n V .run b x.2
      y.1.afterBody y.2 (exec I n V .run (.while c b))
    else some (.norm, x.2)
  | n + 1, V, .seek T, .while c b, σ => do
    let y ← exec I n V (.seek T) b σ
    y.1.afterBody y.2 (exec I n V .run (.while c b))
  | n + 1, V, m, .for i c s b, σ => do
    let V1 ← scopeItem I i V.enter
    let V2 ← scope I b V1
    match m with
    | .run => do
      let y ← execItem I n V.enter .run i σ
      y.1.andThen y.2 (execLoop I n V1 V2 c s b)
    | .seek T => do
      let y ← exec I n V1 (.seek T) b σ
      y.1.afterBody y.2 (execNext I n V1 V2 c s b)
  | _ + 1, _, .seek _, _, _ => none
/-- the rest of a `for` from the test on; the variables are those of the body and of the third expression -/
def execLoop (I : Impl W) : Nat → Vars → Vars → SStmt → SStmt → SStmt → Mem × W → Option (Res × Mem × W)
  | 0, _, _, _, _, _, σ => some (.more, σ)
  | n + 1, V1, V2, c, s, b, σ => do
    let x ← testFor (V1.ctx I) c σ
    if x.1 then do
      let y ← exec I n V1 .run b x.2
      y.1.afterBody y.2 (execNext I n V1 V2 c s b)
    else some (.norm, x.2)
/-- the rest of a `for` from the third expression on -/
def execNext (I : Impl W) : Nat → Vars → Vars → SStmt → SStmt → SStmt → Mem × W → Option (Res × Mem × W)
  | 0, _, _, _, _, _, σ => some (.more, σ)
  | n + 1, V1, V2, c, s, b, σ => do
    let y ← exec I n V2 .run s σ
    y.1.andThen y.2 (execLoop I n V1 V2 c s b)
/-- execution of a part of a block -/
def execItem (I : Impl W) : Nat → Vars → Mode → SItem → Mem × W → Option (Res × Mem × W)
  | 0, _, _, _, σ => some (.more, σ)
  | n + 1, V, m, .stmt s, σ => exec I n V m s σ
  | _ + 1, V, .run, .decls ds, σ => do
    let σ' ← execDecls I ds V σ
    some (.norm, σ')
  | _ + 1, _, .run, .tag _ _, σ => some (.norm, σ)
  | _ + 1, _, .seek _, _, _ => none
/-- execution of the rest of a block -/
def execs (I : Impl W) : Nat → Vars → Mode → SItems → Mem × W → Option (Res × Mem × W)
  | 0, _, _, _, σ => some (.more, σ)
  | _ + 1, _, .run, .nil, σ => some (.norm, σ)
  | _ + 1, _, .seek _, .nil, _ => none
  | n + 1, V, .run, .cons i is, σ => do
    let V1 ← scopeItem I i V
    let y ← execItem I n V .run i σ
    y.1.andThen y.2 (execs I n V1 .run is)
  | n + 1, V, .seek T, .cons i is, σ => do
    let V1 ← scopeItem I i V
    if hitsItem T i then do
      let y ← execItem I n V (.seek T) i σ
      y.1.andThen y.2 (execs I n V1 .run is)
    else execs I n V1 (.seek T) is σ
end

/-! ### functions -/

/-- parameters become objects that hold the arguments -/
def bindParams (I : Impl W) : Params → List Val → Vars → Mem → Option (Vars × Mem)
  | .nil, [], V, m => some (V, m)
  | .cons (some n) t ps, v :: vs, V, m => do
    let q ← rep t
    need (q.1 = v.1)
    let V ← declare I n t V
    let a ← find n V.names
    bindParams I ps vs V (IMach.write m a v.1 v.2)
  | _, _, _, _ => none

/-- the function's own name is in scope in it, whether declared before or not -/
def withSelf (I : Impl W) (f : Str) (t : DType) (V : Vars) : Option Vars := if isNew f V.names then declare I f t V else some V

/-- A call of a function with a name, parameters, type of result and body; `V` is what is in scope outside. The result is how the body ended: `norm` or `ret` for
functions that return. -/
def execFunc (I : Impl W) (n : Nat) (V : Vars) (f : Str) (ps : Params) (rt : DType) (b : SItems) (vs : List Val) (σ : Mem × W) : Option (Res × Mem × W) := do
  let V ← withSelf I f (.func ps rt) V
  let x ← bindParams I ps vs { V.enter with used := 0 } σ.1
  execs I n x.1 .run b (x.2, σ.2)

/-! ### fragment -/

mutual
/-- values of an initialiser belong to the fragment of expressions -/
def safeInit : SInit → Bool
  | .expr e => safe none e
  | .str _ _ => true
  | .list is => safeInits is
def safeInits : SInits → Bool
  | .nil => true
  | .cons i is => safeInit i && safeInits is
end

/-- parts of a `for` that may be expressions only -/
def simple : SStmt → Bool
  | .expr e => safe none e
  | .null => true
  | _ => false

/-- the members of a structure have the offsets the layout rules say -/
def laidOut : DType → Bool
  | .ustruct ms b a => decide (DType.newUnnamedStruct ms = .ok (.ustruct ms b a))
  | _ => true

/-- no labels in the first part of a `for` -/
def hitsNothing : SItem → Bool
  | .stmt s => simple s
  | .decls _ | .tag _ _ => true

mutual
/-- all expressions belong to the fragment; a `for` has expressions or declarations in its head, as the grammar says; structures are laid out -/
def sound : SStmt → Bool
  | .cmpd is => soundAll is
  | .case _ s | .dflt s => sound s
  | .cont | .brk | .null | .ret none => true
  | .ret (some e) | .expr e => safe none e
  | .ite c t => safe none c && sound t
  | .itee c t e => safe none c && sound t && sound e
  | .switch c b | .while c b => safe none c && sound b
  | .for i c n b => soundItem i && hitsNothing i && simple c && simple n && sound b
def soundItem : SItem → Bool
  | .stmt s => sound s
  | .decls ds => ds.all fun d => d.init.all safeInit
  | .tag _ t => laidOut t
def soundAll : SItems → Bool
  | .nil => true
  | .cons i is => soundItem i && soundAll is
end

end CStm
end Umlcc
