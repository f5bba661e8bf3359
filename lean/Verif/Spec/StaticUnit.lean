import Verif.Spec.Static
import Verif.Spec.Init
/-!
Static semantics of declarations, statements and translation units, written from the standard (C11 6.2.1, 6.7, 6.8, 6.9): which units are allowed,
and the typed unit (`SExt`) of each. Continues `Spec/Static.lean`: `ok`, `bad`, `out` and `lim` mean the same.

Not described (`out` also without `lim`): struct and enum definitions inside struct definitions, type names and the head of a `for`; tags that hide others;
enumerators whose value is not given by a literal or an earlier enumerator or does not leave room for a next one; aggregates initialised with anything
but integer expressions without string literals for `char` and `int` elements, or a string for an array of characters; initialisers of objects with static
lifetime that are neither integer constant expressions nor simple addresses; `case` labels that are not literals or enumerators in the range of the controlling type.
-/
namespace Umlcc
namespace Stat
open Syn TSpec

/-- what has been seen of the translation unit -/
structure St where
  /-- declared names, innermost scope first -/
  names : List (List (Id × Name))
  tags : List (List (Id × Tag))
  /-- the labels of the innermost `switch` so far: `case` values, is there a `default` -/
  labels : Option (List Int × Bool)
  /-- number of the next string literal -/
  next : Int
  /-- external declarations so far -/
  unit : List SExt
  /-- what has been seen of the innermost block, if inside one -/
  block : Option (List SItem)

def find (n : Id) : List (List (Id × α)) → Option α
  | [] => none
  | l :: ls => match l.lookup n with
    | some a => some a
    | none => find n ls

def St.scope (σ : St) : Scope := ⟨fun n => find n σ.names, fun n => find n σ.tags⟩

def M (α : Type) := St → V (α × St)

namespace M
def pure (a : α) : M α := fun σ => .ok (a, σ)
def bind (m : M α) (f : α → M β) : M β := fun σ => V.bind (m σ) fun p => f p.1 p.2
instance : Monad M where
  pure := pure
  bind := bind
end M

def get : M St := fun σ => .ok (σ, σ)
def modify (f : St → St) : M Unit := fun σ => .ok ((), f σ)
def lift (v : V α) : M α := fun σ => V.bind v fun a => .ok (a, σ)
/-- a question about types and expressions -/
def ask (f : Scope → V α) : M α := fun σ => V.bind (f σ.scope) fun a => .ok (a, σ)
def bad : M α := fun _ => .bad
def out : M α := fun _ => .out
def forEach (f : β → M α) : List β → M (List α)
  | [] => pure []
  | x :: xs => do
    let a ← f x
    let as ← forEach f xs
    pure (a :: as)

/-- string literals become declarations -/
def strDecls (k : Int) : List (List UInt8) → List SExt
  | [] => []
  | b :: bs => .decls [⟨.str k, .arr .char b.length, some (.str (.arr .char b.length) b)⟩] :: strDecls (k + 1) bs

/-- an expression -/
def expr (lim : Bool) (e : Expr) : M SExpr := fun σ =>
  V.bind (tree lim σ.scope σ.next e) fun x =>
    .ok (x, { σ with next := σ.next + (strs e).length, unit := σ.unit ++ strDecls σ.next (strs e) })

/-! ### declaring names -/

def declare (n : Id) (a : α) : List (List (Id × α)) → List (List (Id × α))
  | [] => [[(n, a)]]
  | l :: ls => ((n, a) :: l) :: ls

/-- declared in the innermost scope -/
def declared (n : Id) : List (List (Id × α)) → Option α
  | [] => none
  | l :: _ => l.lookup n

def bindName (n : Id) (a : Name) : M Unit := modify fun σ => { σ with names := declare n a σ.names }

/-- there is a definition of the name in the unit -/
def defined (n : Id) : List SExt → Bool
  | [] => false
  | .func m _ _ :: u => m == n || defined n u
  | .decls ds :: u => ds.any (fun d => d.init.isSome && d.who == .ident n) || defined n u
  | .tag _ _ :: u => defined n u

/-- 6.7p3: a name may be declared again only if it stands for a function or, outside of blocks, an object of the same type, or a typedef name for the same type;
the compiler refuses that. `dfn`: this is a definition; 6.9p5: there is at most one. -/
def declareName (lim : Bool) (dfn : Bool) (n : Id) (a : Name) : M Unit := fun σ =>
  match declared n σ.names with
  | none => bindName n a σ
  | some old => match old, a with
    | .obj t, .obj u =>
      if σ.block.isSome && !funcTy u then .bad
      else if dfn && defined n σ.unit then .bad
      else if compat (refresh σ.scope t) (refresh σ.scope u) then differs lim (bindName n a σ) else .bad
    | .type t, .type u => if compat t u then differs lim (bindName n a σ) else .bad
    | _, _ => .bad

/-! ### struct and enum definitions -/

def roundUp (x a : Nat) : Nat := (x + a - 1) / a * a

/-- members at the next free aligned offset: the members with offsets, the end and the strictest alignment -/
def place' : Nat → Nat → List (Id × DType) → Members × Nat × Nat
  | off, al, [] => (.nil, off, al)
  | off, al, (n, t) :: ms =>
    let o := roundUp off t.alignment
    let (ms, e, al) := place' (o + t.nbytes) (max al t.alignment) ms
    (.cons n t o ms, e, al)

/-- 6.7.2.1: members, size and alignment of a struct -/
def layout (ms : List (Id × DType)) : Members × Nat × Nat :=
  let (ms, e, a) := place' 0 0 ms
  (ms, roundUp e a, a)

def namedDtors : NDtors → List (Id × Dtor)
  | .one n d => [(n, d)]
  | .cons n d ds => (n, d) :: namedDtors ds

def memberDs : MemberL → List MemberD
  | .one m => [m]
  | .cons m ms => m :: memberDs ms

/-- 6.7.2.1p3: a member has a complete object type -/
def memberTys (lim : Bool) : MemberD → M (List (Id × DType))
  | .mk ss ds => do
    let t ← ask fun Γ => specsTy lim Γ (specList ss)
    forEach (fun p => do
      let u ← ask fun Γ => do let l ← dtor lim Γ p.2; deriveV lim t l
      lift (must (!incomplete u && !funcTy u))
      pure (p.1, u)) (namedDtors ds)

def structTys (lim : Bool) (ms : MemberL) : M (Members × Nat × Nat) := do
  let l ← forEach (memberTys lim) (memberDs ms)
  lift (must (decide ((l.flatten.map (·.1)).Nodup)))
  if !l.flatten.isEmpty && l.flatten.all (fun m => decide (0 < m.2.alignment)) then pure (layout l.flatten) else out

/-- the definition of a tag becomes part of the tree -/
def noteTag (n : Id) (t : DType) : M Unit := modify fun σ => match σ.block with
  | none => { σ with unit := σ.unit ++ [.tag n t] }
  | some b => { σ with block := some (b ++ [.tag n t]) }

/-- 6.7.2.3p1 -/
def declareTag (n : Id) (t : Tag) : M Unit := fun σ =>
  match declared n σ.tags with
  | some _ => .bad
  | none => match find n σ.tags with
    | some _ => .out
    | none => .ok ((), { σ with tags := declare n t σ.tags })

def enumList : Enums → List (Id × Option Expr)
  | .one n => [(n, none)]
  | .oneV n e => [(n, some e)]
  | .cons n es => (n, none) :: enumList es
  | .consV n e es => (n, some e) :: enumList es

/-- 6.7.2.2: a given value or one more than the last -/
def enumVal (Γ : Scope) (next : Int) : Option Expr → V Int
  | none => .ok next
  | some (.int l) | some (.char l) => if l.type.isUnsigned then .out else .ok l.value
  | some (.ident n) => match Γ.names n with
    | some (.const l) => if l.type.isUnsigned then .out else .ok l.value
    | some (.type _) => .out
    | _ => .bad
  | some _ => .out

def enumors (lim : Bool) (next : Int) : List (Id × Option Expr) → M Unit
  | [] => pure ()
  | (n, e) :: es => do
    let σ ← get
    match declared n σ.names with
    | some _ => bad
    | none => do
      let v ← ask fun Γ => enumVal Γ next e
      if -2147483648 ≤ v ∧ v < 2147483647 then do
        bindName n (.const ⟨.int, v⟩)
        enumors lim (v + 1) es
      else out

/-- specifiers of a declaration -/
def declTy (lim : Bool) (l : List Spec) : M DType :=
  match l with
  | [.structDef n ms] => do
    let (ms, b, a) ← structTys lim ms
    match n with
    | none => pure (.ustruct ms b a)
    | some n => do
      declareTag n (.struct ms b a)
      noteTag n (.ustruct ms b a)
      pure (.nstruct n b a)
  | [.enumDef n es] => do
    enumors lim 0 (enumList es)
    match n with
    | none => pure .int
    | some n => do
      declareTag n .enum
      pure .int
  | l => ask fun Γ => specsTy lim Γ l

/-! ### initialisers -/

def initsList (is : Inits) : List Init := Ini.listOf is

/-- an initialiser of objects with static lifetime, 6.7.9p4, 6.6 -/
def constant : SExpr → Bool
  | .un .addr _ (.ident _ _) | .un .addr _ (.str _ _) => true
  | .un .cast (.ptr _) e => constant e
  | x => closed x

/-- scalars: a single expression, optionally in braces -/
def scalarInit (lim : Bool) (file : Bool) (t : DType) (e : Expr) : M SInit := do
  let x ← expr lim e
  let y ← lift (assignConv lim t (decay x))
  if file && !constant y then out else pure (.expr y)

/-- `k` subobjects -/
def repShape (s : Ini.Shape) : Nat → Ini.Shapes
  | 0 => .nil
  | k + 1 => .cons s (repShape s k)

def shapesOf (f : DType → V Ini.Shape) : List DType → V Ini.Shapes
  | [] => .ok .nil
  | t :: ts => do
    let s ← f t
    let l ← shapesOf f ts
    .ok (.cons s l)

def structShape (f : DType → V Ini.Shape) (ms : Members) : V Ini.Shape := do
  let l ← shapesOf f (Ini.memberTypes ms)
  .ok (.node l)

/-- the scalars an object consists of; not described for more than `n` levels -/
def shapeOf (Γ : Scope) : Nat → DType → V Ini.Shape
  | 0, _ => .out
  | n + 1, t => match t with
    | .char => .ok (.leaf .char)
    | .int => .ok (.leaf .int)
    | .arr t k => do
      let s ← shapeOf Γ n t
      .ok (.node (repShape s k))
    | .ustruct ms _ _ => structShape (shapeOf Γ n) ms
    | .nstruct m _ _ => match Γ.tags m with
      | some (.struct ms _ _) => structShape (shapeOf Γ n) ms
      | _ => .out
    | _ => .out

mutual
/-- the typed initialiser -/
def initTree (lim : Bool) (Γ : Scope) (k : Int) : Ini.Tree → V SInit
  | .val t e => do
    let x ← tree lim Γ k e
    .ok (.expr (conv t x))
  | .zero t => .ok (.expr (conv t (.ilit .int ⟨.int, 0⟩)))
  | .node ts => do
    let l ← initTrees lim Γ k ts
    .ok (.list l)
def initTrees (lim : Bool) (Γ : Scope) (k : Int) : Ini.Trees → V SInits
  | .nil => .ok .nil
  | .cons t ts => do
    let i ← initTree lim Γ k t
    let l ← initTrees lim Γ k ts
    .ok (.cons i l)
end

mutual
/-- all expressions are integers without string literals -/
def integers (lim : Bool) (Γ : Scope) (k : Int) : Init → Bool
  | .expr e => (strs e).isEmpty && (match tree lim Γ k e with | .ok x => (intOf x.dt).isSome && !enumTy x.dt | _ => false)
  | .list is => integersL lim Γ k is
def integersL (lim : Bool) (Γ : Scope) (k : Int) : Inits → Bool
  | .one i => integers lim Γ k i
  | .cons i is => integers lim Γ k i && integersL lim Γ k is
end

mutual
def constInit : SInit → Bool
  | .expr e => constant e
  | .str _ _ => true
  | .list is => constInits is
def constInits : SInits → Bool
  | .nil => true
  | .cons i is => constInit i && constInits is
end

/-- 6.7.9p13-p21: an aggregate from a list in braces -/
def listInit (lim : Bool) (file : Bool) (t : DType) (is : Inits) : M SInit := fun σ =>
  V.bind (shapeOf σ.scope 100 t) fun s =>
    if integersL lim σ.scope σ.next is then
      match Ini.object s (.list is) with
      | none => .bad
      | some tr => V.bind (initTree lim σ.scope σ.next tr) fun i =>
        if file && !constInit i then .out else .ok (i, σ)
    else .out

/-- 6.7.9p14: the bytes of the string with its terminating zero if there is room, then zeros -/
def fit (b : List UInt8) (n : Nat) : List UInt8 := (b ++ List.replicate n 0).take n

def strInit (n : Nat) (b : List UInt8) : M SInit := do
  lift (must (decide (b.length ≤ n + 1)))
  pure (.str (.arr .char n) (fit b n))

/-- 6.7.9: the initialiser of an object of type `t` -/
def init (lim : Bool) (file : Bool) (t : DType) (i : Init) : M SInit :=
  match t, i with
  | .arr .char n, .expr (.str b) | .arr .char n, .list (.one (.expr (.str b))) => strInit n b
  | t, i =>
    if scalar t then match i with
      | .expr e | .list (.one (.expr e)) => scalarInit lim file t e
      | _ => bad
    else match t, i with
      | .arr _ _, .list is | .nstruct _ _ _, .list is | .ustruct _ _ _, .list is => listInit lim file t is
      | .arr _ _, .expr _ => bad
      | _, _ => out

/-! ### declarations -/

/-- a declarator: the name with its type -/
def declarator (lim : Bool) (t : DType) (d : Dtor) : M DType :=
  ask fun Γ => do let l ← dtor lim Γ d; deriveV lim t l

/-- 6.7.8: a typedef name; the compiler refuses functions that return `void` here -/
def typedefDtor (lim : Bool) (t : DType) (d : IDtor) : M SDecl := do
  let l ← ask fun Γ => dtor lim Γ d.d
  let u ← match l with
    | .fn _ :: _ => if voidTy t then lift (differs lim (deriveV lim t l)) else lift (deriveV lim t l)
    | l => lift (deriveV lim t l)
  declareName lim false d.n (.type u)
  match d.i with
  | none => pure ⟨.ident d.n, .tdef u, none⟩
  | some _ => bad

/-- an object or function; 6.2.1p7: its scope begins before the initialiser -/
def objectDtor (lim : Bool) (file : Bool) (t : DType) (d : IDtor) : M SDecl := do
  let u ← declarator lim t d.d
  if incomplete u then
    if file && !voidTy u then out else bad
  else do
    declareName lim d.i.isSome d.n (.obj u)
    match d.i with
    | none => pure ⟨.ident d.n, u, none⟩
    | some i => do
      if funcTy u then bad else pure ()
      let i ← init lim file u i
      pure ⟨.ident d.n, u, some i⟩

def tySpecs : List DSpec → List Spec
  | [] => []
  | .td :: l => tySpecs l
  | .ty s :: l => s :: tySpecs l

/-- a declaration without declarators declares a tag or enumerators, 6.7p2 -/
def declaresTag : List Spec → Bool
  | [.structDef (some _) _] | [.enumDef _ _] => true
  | _ => false

def isStructRef : List Spec → Bool
  | [.structRef _] => true
  | _ => false

def decl (lim : Bool) (d : Decl) : M (List SDecl) := do
  let σ ← get
  let file := σ.block.isNone
  -- 6.7.1p2: at most one storage-class specifier
  if (d.ss.filter DSpec.isTd).length > 1 then lift (differs lim .bad) else pure ()
  let t ← declTy lim (tySpecs d.ss)
  match d.ds with
  | [] =>
    if d.isTd then out
    else if declaresTag (tySpecs d.ss) || (file && isStructRef (tySpecs d.ss)) then pure [] else if isStructRef (tySpecs d.ss) then out else lift (differs lim .bad)
  | ds => if d.isTd then forEach (typedefDtor lim t) ds else forEach (objectDtor lim file t) ds

/-! ### statements -/

def inScope (m : M α) : M α := do
  modify fun σ => { σ with names := [] :: σ.names, tags := [] :: σ.tags }
  let a ← m
  modify fun σ => { σ with names := σ.names.tail, tags := σ.tags.tail }
  pure a

/-- the items of a block -/
def inBlock (m : M Unit) : M (List SItem) := do
  let σ ← get
  modify fun σ => { σ with block := some [] }
  m
  let τ ← get
  modify fun τ => { τ with block := σ.block }
  match τ.block with
  | some l => pure l
  | none => out

def noteItem (i : SItem) : M Unit := modify fun σ => { σ with block := σ.block.map (· ++ [i]) }

/-- a controlling expression, 6.8.4.1p1, 6.8.5p2 -/
def condition (lim : Bool) (e : Expr) : M SExpr := do
  let x ← expr lim e
  lift (must (scalar (decay x).dt))
  pure (decay x)

def optExpr (lim : Bool) : Option Expr → M SStmt
  | none => pure .null
  | some e => do
    let x ← expr lim e
    pure (.expr (decay x))

def optCond (lim : Bool) : Option Expr → M SStmt
  | none => pure .null
  | some e => do
    let x ← condition lim e
    pure (.expr x)

/-- 6.8.4.2p3: no two labels of a `switch` have the same value -/
def addLabel (v : Int) : M Unit := fun σ =>
  match σ.labels with
  | none => .bad
  | some (vs, d) => if v ∈ vs then .bad else .ok ((), { σ with labels := some (vs ++ [v], d) })

/-- the literal a `case` label stands for -/
def labelLit : SExpr → Option ILit
  | .ilit t l => if l.type.isUnsigned || (intOf t).isNone then none else some l
  | _ => none

/-- 6.3.1.3: the value can be represented -/
def inRange (i : IntTy) (v : Int) : Bool := match i with
  | .char => decide (-128 ≤ v ∧ v < 128)
  | .int => decide (-2147483648 ≤ v ∧ v < 2147483648)
  | .uint => decide (0 ≤ v ∧ v < 4294967296)
  | .long | .llong => decide (-9223372036854775808 ≤ v ∧ v < 9223372036854775808)
  | .ulong | .ullong => decide (0 ≤ v ∧ v < 18446744073709551616)

/-- is there a struct or enum definition or a typedef -/
def definesTag (d : Decl) : Bool := d.isTd || match tySpecs d.ss with
  | [.structDef _ _] | [.enumDef _ _] => true
  | _ => false

mutual
/-- `loop`: inside a loop; `ret`: the type of the function -/
def stmt (lim : Bool) (loop : Bool) (ret : DType) : Stmt → M SStmt
  | .case e s => do
    let σ ← get
    if σ.labels.isNone then bad
    else do
      let x ← expr lim e
      match labelLit x with
      | none => out
      | some l => do
        addLabel l.value
        let y ← lift (promote lim x)
        let b ← stmt lim loop ret s
        pure (.case y b)
  | .default s => do
    let σ ← get
    match σ.labels with
    | none | some (_, true) => bad
    | some (vs, false) => do
      modify fun σ => { σ with labels := some (vs, true) }
      let b ← stmt lim loop ret s
      pure (.dflt b)
  | .block is => inScope (do
      let l ← inBlock (items lim loop ret is)
      pure (.cmpd (SItems.ofList l)))
  | .continue => if loop then pure .cont else bad
  | .break => do
    let σ ← get
    if loop || σ.labels.isSome then pure .brk else bad
  | .ret => if voidTy ret then pure (.ret none) else bad
  | .retE e => if voidTy ret then bad else do
    let x ← expr lim e
    let y ← lift (assignConv lim ret (decay x))
    pure (.ret (some y))
  | .ifS c s => do
    let c ← condition lim c
    let s ← stmt lim loop ret s
    pure (.ite c s)
  | .ifElse c s t => do
    let c ← condition lim c
    let s ← stmt lim loop ret s
    let t ← stmt lim loop ret t
    pure (.itee c s t)
  | .switch c s => do
    let x ← expr lim c
    let x ← lift (promote lim (decay x))
    let σ ← get
    modify fun τ => { τ with labels := some ([], false) }
    let b ← stmt lim loop ret s
    let τ ← get
    modify fun τ => { τ with labels := σ.labels }
    -- the labels are in the range of the type they are converted to
    match τ.labels, intOf x.dt with
    | some (vs, _), some i => if vs.all (fun v => inRange i v) then pure (.switch x b) else out
    | _, _ => out
  | .while c s => do
    let c ← condition lim c
    let s ← stmt lim true ret s
    pure (.while c s)
  | .forD d c st s => inScope (do
      if definesTag d then out else pure ()
      let σ ← get
      if σ.block.isNone then out else pure ()
      let ds ← decl lim d
      let c ← optCond lim c
      let st ← optExpr lim st
      let s ← stmt lim true ret s
      pure (.for (.decls ds) c st s))
  | .forE i c st s => inScope (do
      let i ← optExpr lim i
      let c ← optCond lim c
      let st ← optExpr lim st
      let s ← stmt lim true ret s
      pure (.for (.stmt i) c st s))
  | .expr e => do
    let x ← expr lim e
    pure (.expr (decay x))
  | .null => pure .null
def items (lim : Bool) (loop : Bool) (ret : DType) : Items → M Unit
  | .nil => pure ()
  | .decl d is => do
    let ds ← decl lim d
    noteItem (.decls ds)
    items lim loop ret is
  | .stmt s is => do
    let s ← stmt lim loop ret s
    noteItem (.stmt s)
    items lim loop ret is
end

/-! ### external declarations -/

/-- the parameters have different names by then -/
def declareParams : Params → M Unit
  | .nil => pure ()
  | .cons (some n) t ps => do
    let σ ← get
    match declared n σ.names with
    | none => do
      bindName n (.obj t)
      declareParams ps
    | some _ => out
  | .cons none _ _ => bad

def named : Params → Bool
  | .nil => true
  | .cons n _ ps => n.isSome && named ps

/-- the derivation nearest to the name is that of a function -/
def lastFn (l : List Deriv) : Bool := match l.getLast? with
  | some (.fn _) => true
  | _ => false

/-- 6.9.1 -/
def func (lim : Bool) (ss : Specs) (n : Id) (d : Dtor) (is : Items) : M SExt := do
  let t ← declTy lim (specList ss)
  let l ← ask fun Γ => dtor lim Γ d
  let u ← lift (deriveV lim t l)
  match u with
  | .func ps ret =>
    if !lastFn l then lift (differs lim .bad) else pure ()
    if named ps then do
      declareName lim true n (.obj u)
      let b ← inScope (do
        declareParams ps
        inBlock (items lim false ret is))
      pure (.func n u (SItems.ofList b))
    else bad
  | _ => bad

def ext (lim : Bool) : Ext → M SExt
  | .decl d => do
    let ds ← decl lim d
    pure (.decls ds)
  | .func ss n d is => func lim ss n d is

def exts (lim : Bool) : List Ext → M Unit
  | [] => pure ()
  | x :: xs => do
    let y ← ext lim x
    modify fun σ => { σ with unit := σ.unit ++ [y] }
    exts lim xs

def start : St := ⟨[[]], [[]], none, 0, [], none⟩

/-- 6.9: the typed translation unit -/
def unit (lim : Bool) (xs : List Ext) : V (List SExt) := V.bind (exts lim xs start) fun p => .ok p.2.unit

end Stat
end Umlcc
