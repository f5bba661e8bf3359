import Verif.Model.DType
/-! Model of `src/resolver/conversion.c`. -/
namespace Umlcc
namespace Conv
open DType

/-- `get_unsigned_corresponding_signed`, conversion.c:114-125 -/
def unsignedOf : DType → DType
  | int => uint
  | long => ulong
  | llong => ullong
  | _ => void

/-- `perform_integer_promotion`, conversion.c:102-112: the list of casts wrapped around an operand of the type -/
def promotionCasts (t : DType) : List DType :=
  match t with
  | char => [int]
  | _ => []

/-- type of an operand of type `t` after the casts (innermost first) -/
def castTo (t : DType) (cs : List DType) : DType := cs.getLastD t

/-- `perform_usual_arithmetic_conversion`, conversion.c:28-100: the casts wrapped (innermost first) around the
left and around the right operand. The trees themselves are carried along unchanged, so only types matter. -/
def usual (l r : DType) : List DType × List DType :=
  if !isArithmetic l || !isArithmetic r then ([], [])
  else
    let lc := promotionCasts l
    let rc := promotionCasts r
    let l := castTo l lc
    let r := castTo r rc
    if equals l r then (lc, rc)
    else if isSigned l && isSigned r && scalarRank l > scalarRank r then (lc, rc ++ [l])
    else if isSigned l && isSigned r && scalarRank l < scalarRank r then (lc ++ [r], rc)
    else if isUnsigned l && isUnsigned r && scalarRank l > scalarRank r then (lc, rc ++ [l])
    else if isUnsigned l && isUnsigned r && scalarRank l < scalarRank r then (lc ++ [r], rc)
    else if isUnsigned l && isSigned r && scalarRank l ≥ scalarRank r then (lc, rc ++ [l])
    else if isSigned l && isUnsigned r && scalarRank l ≤ scalarRank r then (lc ++ [r], rc)
    else if isSigned l && isUnsigned r && nbytes l > nbytes r then (lc, rc ++ [l])
    else if isUnsigned l && isSigned r && nbytes l < nbytes r then (lc ++ [r], rc)
    else if isSigned l then (lc ++ [unsignedOf l], rc ++ [unsignedOf l])
    else if isSigned r then (lc ++ [unsignedOf r], rc ++ [unsignedOf r])
    else (lc, rc)

end Conv
end Umlcc
