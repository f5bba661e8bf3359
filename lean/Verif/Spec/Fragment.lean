import Verif.Spec.CSem
/-!
The expressions for which the generated code is proved right. The rest are those the compiler is known to get wrong (see DESIGN.md): pointers
whose register is not the one used last, and casts of casts that may not be merged into one.
-/
namespace Umlcc
namespace CSem

/-- every value of the first type is a value of the second -/
def fits (a b : Sfx × Bool) : Bool :=
  (a.2 == b.2 && decide (a.1.bits ≤ b.1.bits)) || (a.2 && !b.2 && decide (a.1.bits < b.1.bits))

/-- converting a value of type `te` to `t` and then to `t3` is the same as converting it to `t3` at once -/
def collapses (t3 t te : DType) : Bool :=
  match rep t3, rep t, rep te with
  | some q3, some q, some qe => decide (q3.1.bits ≤ q.1.bits) || fits qe q
  | _, _, _ => false

/-- the expression has a value and it is in the register allocated last -/
def fresh : SExpr → Bool
  | .bin .assign _ (.un .addr _ (.ident _ _)) r => fresh r
  | .bin .assign _ _ _ => false
  | .cond _ _ _ _ => false
  | .un .pos _ e => fresh e
  | .un .addr _ (.un .indir _ e) => fresh e
  | .call t _ _ => !t.isVoid
  | _ => true

mutual
/-- `o` is the type of the casts around the expression, if there are any -/
def safe (o : Option DType) : SExpr → Bool
  | .ident _ _ | .str _ _ | .ilit _ _ => true
  | .bin .assign _ l r => fresh l && safe none l && safe none r
  | .bin _ _ l r => safe none l && safe none r
  | .cond _ c l r => safe none c && safe none l && safe none r
  | .un .cast t e => (o.all fun t3 => collapses t3 t e.dt) && safe (some (o.getD t)) e
  | .un .addr _ (.tomember _ e _ _) => safe none e
  | .un .addr _ (.un .indir _ e) => safe none e
  | .un .addr _ _ => true
  | .un .indir _ e | .un .preinc _ e | .un .predec _ e | .un .postinc _ e | .un .postdec _ e => fresh e && safe none e
  | .un .pos _ e | .un .neg _ e | .un .not _ e | .un .lnot _ e => safe none e
  | .call _ f as => fresh f && safe none f && safeArgs as
  | .tomember _ e _ _ => safe none e
def safeArgs : SArgs → Bool
  | .nil => true
  | .cons e as => safe none e && safeArgs as
end

end CSem
end Umlcc
