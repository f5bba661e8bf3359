import Verif.Model.Srt
/-!
Which typed trees can be translated at all, said on the trees: names are declared, members exist, values exist where they are used, initialisers have enough elements,
casts are in places where the generator handles them. `Names` is what is declared at a place of the program.
-/
namespace Umlcc
namespace Tr

/-- a declared name: in the static memory (or a function), or in the frame; and its type -/
structure Sym where
  static : Bool
  dt : DType

/-- declarations that are visible, scope by scope from the innermost: names, and the members of struct tags -/
structure Names where
  syms : List (List (Str × Sym))
  tags : List (List (Str × List (Str × DType)))

/-- the innermost declaration of a name -/
def find (n : Str) : List (List (Str × α)) → Option α
  | [] => none
  | sc :: scs => match sc.lookup n with
    | some x => some x
    | none => find n scs

/-- a declaration in the innermost scope; the first declaration of a name counts -/
def add (n : Str) (x : α) : List (List (Str × α)) → List (List (Str × α))
  | [] => [[(n, x)]]
  | sc :: scs => match sc.lookup n with
    | some _ => sc :: scs
    | none => ((n, x) :: sc) :: scs

def ascii (n : Str) : Bool := n.all fun b => decide (b.toNat < 128)

/-- the name is declared; only ASCII names can be labels -/
def declared (Γ : Names) (n : Str) : Bool :=
  match find n Γ.syms with
  | some y => !y.static || ascii n
  | none => false

def isPtr : DType → Bool
  | .ptr _ => true
  | _ => false

/-- names and types of the members -/
def namesOf : Members → List (Str × DType)
  | .nil => []
  | .cons n t _ ms => (n, t) :: namesOf ms

/-- the members of a struct type, if it is complete -/
def membersIn (Γ : Names) : DType → Option (List (Str × DType))
  | .ustruct ms _ _ => some (namesOf ms)
  | .nstruct n _ _ => find n Γ.tags
  | _ => none

/-- a pointer to a struct with such a member -/
def hasMember (Γ : Names) (m : Str) : DType → Bool
  | .ptr t => match membersIn Γ t with
    | some ms => (ms.lookup m).isSome
    | none => false
  | _ => false

def isCast : SExpr → Bool
  | .un .cast _ _ => true
  | _ => false

mutual
/-- The expression can be translated where its value is used (`v`), or where it is evaluated as such: as a statement, or as the operand of `*` or of a call.
In places of the second kind there is no code for casts. In places of the first kind there must be a value: functions that return nothing do not have one. -/
def fits (Γ : Names) (v : Bool) : SExpr → Bool
  | .ident _ n => declared Γ n
  | .str _ _ | .ilit _ _ => true
  | .bin op _ l r => match op with
    | .assign => fits Γ true r && fits Γ false l
    | .padd | .psub | .pdiff => fits Γ true l && fits Γ true r && isPtr l.dt
    | _ => fits Γ true l && fits Γ true r
  | .cond _ c l r => fits Γ true c && fits Γ true l && fits Γ true r
  | .un .cast _ e => v && fits Γ true e
  | .un .addr _ (.ident _ n) => declared Γ n
  | .un .addr _ (.str _ _) => true
  | .un .addr _ (.tomember _ e _ m) => fits Γ true e && hasMember Γ m e.dt
  | .un .addr _ (.un .indir _ e) => !isCast e && fits Γ v e
  | .un .addr _ _ => false
  | .un .preinc t e | .un .predec t e | .un .postinc t e | .un .postdec t e => fits Γ false e && (t.isSigned || t.isUnsigned || isPtr t)
  | .un .indir _ e => fits Γ false e
  | .un .pos _ e | .un .neg _ e | .un .not _ e | .un .lnot _ e => fits Γ true e
  | .call t f as => (!v || !t.isVoid) && fitsArgs Γ as && fits Γ false f
  | .tomember _ e _ m => fits Γ true e && hasMember Γ m e.dt
def fitsArgs (Γ : Names) : SArgs → Bool
  | .nil => true
  | .cons e as => fits Γ true e && fitsArgs Γ as
end

/-! ### declarations -/

/-- how an object of the type is initialised if not by a list or string -/
def isSimple : DType → Bool
  | .arr _ _ | .nstruct _ _ _ | .ustruct _ _ _ => false
  | _ => true

/-- the first initialisers fit the types, and there are enough of them -/
def each : List DType → List (DType → Bool) → Bool
  | [], _ => true
  | _ :: _, [] => false
  | t :: ts, f :: fs => f t && each ts fs

mutual
/-- an initialiser can be translated for an object of a type; `leaf` says which expressions can initialise a simple object -/
def fitsInit (Γ : Names) (leaf : DType → SExpr → Bool) : SInit → DType → Bool
  | .expr e, t => isSimple t && leaf t e
  | .str _ _, t => match t with
    | .arr _ _ => true
    | _ => false
  | .list is, t => match t with
    | .arr u n => each (List.replicate n u) (fitsInits Γ leaf is)
    | _ => match membersIn Γ t with
      | some ms => each (ms.map (·.2)) (fitsInits Γ leaf is)
      | none => false
def fitsInits (Γ : Names) (leaf : DType → SExpr → Bool) : SInits → List (DType → Bool)
  | .nil => []
  | .cons i is => fitsInit Γ leaf i :: fitsInits Γ leaf is
end

/-- what a declaration in a function declares; functions and other things that are not objects are static -/
def declare (Γ : Names) (d : SDecl) : Names :=
  match d.who with
  | .ident n => { Γ with syms := add n ⟨!d.dt.isObject, d.dt⟩ Γ.syms }
  | .str _ => Γ

/-- a declaration in a function, with its initialiser for the object the name stands for -/
def fitsDecl (Γ : Names) (d : SDecl) : Bool :=
  match d.who with
  | .str _ => false
  | .ident n => match d.init with
    | none => true
    | some i => match find n (declare Γ d).syms with
      | some y => fitsInit (declare Γ d) (fun _ => fits (declare Γ d) true) i y.dt
      | none => false

def fitsDecls (Γ : Names) : List SDecl → Bool
  | [] => true
  | d :: ds => fitsDecl Γ d && fitsDecls (declare Γ d) ds

/-- a struct with a list of members declares its tag, unless the scope has it already -/
def declareTag (Γ : Names) (n : Str) : DType → Names
  | .ustruct ms _ _ => { Γ with tags := add n (namesOf ms) Γ.tags }
  | _ => Γ

/-- A tag can be declared with a list of members of complete types or again; it cannot be declared without. -/
def fitsTag (Γ : Names) (n : Str) : DType → Bool
  | .ustruct ms _ _ => (Γ.tags.head?.bind (List.lookup n)).isSome || (!(namesOf ms).isEmpty && (namesOf ms).all fun m => decide (0 < m.2.alignment))
  | .nstruct _ _ _ => false
  | _ => true

/-! ### statements -/

/-- what is visible after an item of a compound statement -/
def after (Γ : Names) : SItem → Names
  | .stmt _ => Γ
  | .decls ds => ds.foldl declare Γ
  | .tag n t => declareTag Γ n t

/-- a new scope -/
def inside (Γ : Names) : Names := ⟨[] :: Γ.syms, [] :: Γ.tags⟩

def isLit : SExpr → Bool
  | .ilit _ _ => true
  | _ => false

/-- the middle part of a `for` -/
def fitsCond (Γ : Names) : SStmt → Bool
  | .expr e => fits Γ true e
  | _ => true

mutual
/-- a statement can be translated, in a `switch` (`sw`) or not -/
def fitsStmt (Γ : Names) (sw : Bool) : SStmt → Bool
  | .cmpd is => fitsItems (inside Γ) sw is
  | .case v b => sw && isLit v && fitsStmt Γ sw b
  | .dflt b => fitsStmt Γ sw b
  | .cont | .brk | .null => true
  | .ret e => match e with
    | some e => fits Γ true e
    | none => true
  | .expr e => fits Γ false e
  | .ite c t => fits Γ true c && fitsStmt Γ sw t
  | .itee c t e => fits Γ true c && fitsStmt Γ sw t && fitsStmt Γ sw e
  | .switch c b => fits Γ true c && fitsStmt Γ true b
  | .while c b => fits Γ true c && fitsStmt Γ sw b
  | .for i c n b => fitsItem (inside Γ) sw i && fitsCond (after (inside Γ) i) c && fitsStmt (after (inside Γ) i) sw b && fitsStmt (after (inside Γ) i) sw n
def fitsItem (Γ : Names) (sw : Bool) : SItem → Bool
  | .stmt s => fitsStmt Γ sw s
  | .decls ds => fitsDecls Γ ds
  | .tag n t => fitsTag Γ n t
def fitsItems (Γ : Names) (sw : Bool) : SItems → Bool
  | .nil => true
  | .cons i is => fitsItem Γ sw i && fitsItems (after Γ i) sw is
end

/-! ### translation units -/

/-- parameters are declared in order; `none` if one has no name or one declared already -/
def declareParams (Γ : Names) : Params → Option Names
  | .nil => some Γ
  | .cons none _ _ => none
  | .cons (some n) t ps => match Γ.syms.head?.bind (List.lookup n) with
    | some _ => none
    | none => declareParams { Γ with syms := add n ⟨false, t⟩ Γ.syms } ps

/-- an expression without the casts around it -/
def uncast : SExpr → SExpr
  | .un .cast _ e => uncast e
  | e => e

/-- a static object of a simple type: the initialiser is an integer literal, possibly cast, and the type has a size the assembler has a directive for -/
def staticLeaf (t : DType) (e : SExpr) : Bool := isLit (uncast e) && (t.nbytes == 1 || t.nbytes == 2 || t.nbytes == 4 || t.nbytes == 8)

/-- name of a static object: an ASCII name, or the label of a string -/
def staticName (label : Int → Str) : SWho → Str
  | .ident n => n
  | .str id => label id

def declareStatic (label : Int → Str) (Γ : Names) (d : SDecl) : Names := { Γ with syms := add (staticName label d.who) ⟨true, d.dt⟩ Γ.syms }

/-- a declaration outside of functions -/
def fitsStatic (label : Int → Str) (Γ : Names) (d : SDecl) : Bool :=
  (match d.who with
    | .ident n => ascii n
    | .str _ => true) &&
  match find (staticName label d.who) (declareStatic label Γ d).syms with
  | none => false
  | some y => !y.dt.isObject || match d.init with
    | none => true
    | some i => fitsInit (declareStatic label Γ d) staticLeaf i y.dt

def fitsStatics (label : Int → Str) (Γ : Names) : List SDecl → Bool
  | [] => true
  | d :: ds => fitsStatic label Γ d && fitsStatics label (declareStatic label Γ d) ds

def afterExt (label : Int → Str) (Γ : Names) : SExt → Names
  | .func n t _ => { Γ with syms := add n ⟨true, t⟩ Γ.syms }
  | .decls ds => ds.foldl (declareStatic label) Γ
  | .tag n t => declareTag Γ n t

def fitsExt (label : Int → Str) (Γ : Names) : SExt → Bool
  | .func n t b => ascii n && match t with
    | .func ps _ => match declareParams (inside { Γ with syms := add n ⟨true, t⟩ Γ.syms }) ps with
      | some Γ' => fitsItems Γ' false b
      | none => false
    | _ => false
  | .decls ds => fitsStatics label Γ ds
  | .tag n t => fitsTag Γ n t

/-- a translation unit whose every part can be translated with what is declared before it; `label` gives the labels of strings -/
def fitsUnit (label : Int → Str) (Γ : Names) : List SExt → Bool
  | [] => true
  | x :: xs => fitsExt label Γ x && fitsUnit label (afterExt label Γ x) xs

/-- nothing declared -/
def nothing : Names := ⟨[[]], [[]]⟩

end Tr
end Umlcc
