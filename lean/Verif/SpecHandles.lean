import Verif.Spec
import Verif.Model.Handles

/- Vocabulary for C53, C54, C57, C58.  Nothing here models code. -/
set_option autoImplicit false

namespace MultiArray.Spec
open MultiArray

/-- Is the operation a `reindex`? -/
def isReindex : HdrOp → Prop
  | .reindex _ | .reindexAll _ => True
  | .reshape .. => False

/-- Documented preconditions for an array of `n` dimensions and `num` elements. -/
def HdrOp.Legal (n num : Nat) : HdrOp → Prop
  | .reindex bs => bs.length = n
  | .reindexAll _ => True
  | .reshape _ es => es.length = n ∧ es.prod = num

/-- The index tuple with the same zero-based position for other index bases. -/
def relabel (old new idx : List Int) : List Int := List.zipWith (· + ·) new (List.zipWith (· - ·) idx old)

/-- Every element of `d'`, by zero-based position, is where the element of `d` at that position was. -/
def SameElements (d d' : Desc) : Prop :=
  d'.extents = d.extents ∧ ∀ k, InShape d.extents k → address d' (atPos d'.bases k) = address d (atPos d.bases k)

end MultiArray.Spec
