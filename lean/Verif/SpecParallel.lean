import Verif.SpecConc
import Verif.SpecFlat
import Verif.SpecOverlap

/- Dividing an array among threads.  Nothing here models code. -/
set_option autoImplicit false

namespace MultiArray.Spec
open MultiArray

/-- The parts have together exactly the elements of `d`, and no two of them have an element in common. -/
structure Partition (d : Desc) (parts : List Desc) : Prop where
  cover : ∀ p, PointsInto d p ↔ ∃ r ∈ parts, PointsInto r p
  disjoint : ∀ (i j : Nat) r r', i ≠ j → parts[i]? = some r → parts[j]? = some r' → NoOverlap r r'

/-- `dst` and `src` are divided in the same way: the first components partition `dst`, and corresponding elements of the two components of a part are corresponding
elements of `dst` and `src`. -/
structure CutTogether (dst src : Desc) (parts : List (Desc × Desc)) : Prop where
  partition : Partition dst (parts.map Prod.fst)
  shape : ∀ x ∈ parts, x.2.extents = x.1.extents
  same : ∀ x ∈ parts, ∀ k, InShape x.1.extents k → ∃ K, InShape dst.extents K ∧ posAddr x.1 k = posAddr dst K ∧ posAddr x.2 k = posAddr src K

end MultiArray.Spec
