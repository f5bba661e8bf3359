import Verif.Model.Ast
import Verif.Model.DType
/-!
Model of `src/srt/srt.h`, `src/srt/srt.c`: the typed tree the resolver builds.

`struct Srt` (srt.h) is one record for all nodes with a vector of children. The resolver always creates a node of a given `SrtType`
with the same number and kind of children (`new_dtyped_srt(..., 2, lhs, rhs)` and the like, cited below), so the tree is modelled by one
inductive type per syntactic class with the children as arguments.
-/
namespace Umlcc

/-- binary nodes, srt.h: SRT_ASSIGN_EXPR and SRT_LOR_EXPR ... SRT_MOD_EXPR; the children are the two operands -/
inductive SBin where
  | assign
  | lor | land | or | xor | and | equal | nequal | less | greater | lesseq | greatereq | lshift | rshift
  | add | sub | padd | psub | pdiff | mul | div | mod
  deriving DecidableEq, Repr

/-- unary nodes, srt.h: SRT_CAST_EXPR, SRT_PREINC_EXPR ... SRT_LNOT_EXPR, SRT_POSTINC_EXPR, SRT_POSTDEC_EXPR -/
inductive SUn where
  | cast | preinc | predec | addr | indir | pos | neg | not | lnot | postinc | postdec
  deriving DecidableEq, Repr

mutual
/-- expression nodes; `dt` is the node's `dtype` -/
inductive SExpr where
  /-- SRT_IDENT_EXPR with `ident_name` -/
  | ident (dt : DType) (name : Str)
  /-- SRT_STR_EXPR with `sliteral_id` -/
  | str (dt : DType) (id : Int)
  /-- SRT_ILITERAL_EXPR with `iliteral` -/
  | ilit (dt : DType) (l : ILit)
  | bin (op : SBin) (dt : DType) (l r : SExpr)
  /-- SRT_COND_EXPR -/
  | cond (dt : DType) (c l r : SExpr)
  | un (op : SUn) (dt : DType) (e : SExpr)
  /-- SRT_CALL_EXPR; the second child is an SRT_ARG_LIST -/
  | call (dt : DType) (f : SExpr) (args : SArgs)
  /-- SRT_TOMEMBER_EXPR; the second child is an SRT_IDENT_EXPR with the member's name and type -/
  | tomember (dt : DType) (e : SExpr) (mdt : DType) (member : Str)
/-- children of SRT_ARG_LIST -/
inductive SArgs where
  | nil
  | cons (e : SExpr) (rest : SArgs)
end

deriving instance DecidableEq for SExpr, SArgs

namespace SExpr
/-- `srt->dtype` -/
def dt : SExpr → DType
  | ident t _ | str t _ | ilit t _ | bin _ t _ _ | cond t _ _ _ | un _ t _ | call t _ _ | tomember t _ _ _ => t

/-- `srt_ismodifiable`, srt.c:104-109 -/
def isModifiable (e : SExpr) : Bool :=
  if !e.dt.isObject then false
  else match e.dt with
    | .arr _ _ => false
    | _ => match e with
      | ident _ _ | un .indir _ _ | tomember _ _ _ _ => true
      | _ => false
end SExpr

namespace SArgs
def toList : SArgs → List SExpr
  | nil => []
  | cons e r => e :: r.toList
def ofList : List SExpr → SArgs
  | [] => nil
  | e :: es => cons e (ofList es)
end SArgs

mutual
/-- SRT_INIT nodes: the child is an expression, an SRT_SLITERAL_EXPR with its type, or the children are the initialisers of the elements -/
inductive SInit where
  | expr (e : SExpr)
  | str (dt : DType) (bytes : List UInt8)
  | list (is : SInits)
inductive SInits where
  | nil
  | cons (i : SInit) (rest : SInits)
end

deriving instance DecidableEq for SInit, SInits

namespace SInits
def toList : SInits → List SInit
  | nil => []
  | cons e r => e :: r.toList
def ofList : List SInit → SInits
  | [] => nil
  | e :: es => cons e (ofList es)
end SInits

/-- first child of SRT_INIT_DECL: SRT_IDENT_DECL with `ident_name` or SRT_STR_DECL with `sliteral_id` -/
inductive SWho where
  | ident (name : Str)
  | str (id : Int)
  deriving DecidableEq

/-- SRT_INIT_DECL: the declared name or string with its type, and the SRT_INIT child if there is one -/
structure SDecl where
  who : SWho
  dt : DType
  init : Option SInit
  deriving DecidableEq

mutual
/-- statement nodes -/
inductive SStmt where
  | cmpd (is : SItems)
  | case (v : SExpr) (s : SStmt)
  | dflt (s : SStmt)
  | cont
  | brk
  | ret (e : Option SExpr)
  | expr (e : SExpr)
  | null
  | ite (c : SExpr) (t : SStmt)
  | itee (c : SExpr) (t e : SStmt)
  | switch (c : SExpr) (s : SStmt)
  | while (c : SExpr) (s : SStmt)
  | for (i : SItem) (c s b : SStmt)
/-- children of SRT_CMPD_STMT and first child of SRT_FOR_STMT: a statement, an SRT_DECL_LIST or an SRT_TAG_DECL -/
inductive SItem where
  | stmt (s : SStmt)
  | decls (ds : List SDecl)
  | tag (name : Str) (dt : DType)
inductive SItems where
  | nil
  | cons (i : SItem) (rest : SItems)
end

deriving instance DecidableEq for SStmt, SItem, SItems

namespace SItems
def toList : SItems → List SItem
  | nil => []
  | cons e r => e :: r.toList
def ofList : List SItem → SItems
  | [] => nil
  | e :: es => cons e (ofList es)
end SItems

/-- children of SRT_TRAS_UNIT: SRT_FUNC_DEF (SRT_IDENT_DECL and SRT_CMPD_STMT), SRT_DECL_LIST or SRT_TAG_DECL -/
inductive SExt where
  | func (name : Str) (dt : DType) (body : SItems)
  | decls (ds : List SDecl)
  | tag (name : Str) (dt : DType)
  deriving DecidableEq

end Umlcc
