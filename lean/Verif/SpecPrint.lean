import Verif.SpecMem
import Verif.Model.Clients

/- The text that printing an array must produce.  Nothing here models code. -/
set_option autoImplicit false

namespace MultiArray.Spec
open MultiArray
variable {T : Type}

/-- Put `sep` between consecutive members of a list and concatenate. -/
def joinWith (sep : List (Tok T)) : List (List (Tok T)) → List (Tok T)
  | [] => []
  | [x] => x
  | x :: y :: r => x ++ sep ++ joinWith sep (y :: r)

/-- The nested bracket notation for the array of the given shape whose element at zero-based position `k` is `f k`: `[[a,b],[c,d]]`. -/
def bracketText : (extents : List Nat) → (f : List Nat → T) → List (Tok T)
  | [], f => [.elem (f [])]
  | e :: es, f => [.opn] ++ joinWith [.comma] ((List.range e).map (fun k => bracketText es (fun ks => f (k :: ks)))) ++ [.cls]

end MultiArray.Spec
