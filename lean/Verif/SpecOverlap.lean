import Verif.SpecMem

/- Which elements of an array a view denotes, as a set.  Nothing here models code. -/
set_option autoImplicit false

namespace MultiArray.Spec
open MultiArray

/-- The range `r`, applied to a dimension `[b, b+e)`, selects the index `i`: it is the given integer, or it is some number of strides from the
start and before the finish. -/
def SelectsIndex (r : IndexRange) (b : Int) (e : Nat) (i : Int) : Prop :=
  if r.degenerate_ then i = rangeStart r b
  else ∃ k : Nat, i = rangeStart r b + (k : Int) * r.stride_ ∧ Before r.stride_ i (rangeFinish r b e)

/-- Every component of an index tuple is selected by the range for its dimension. -/
def Selects : (ranges : List IndexRange) → (bases : List Int) → (extents : List Nat) → (idx : List Int) → Prop
  | [], [], [], [] => True
  | r :: rs, b :: bs, e :: es, i :: is => SelectsIndex r b e i ∧ Selects rs bs es is
  | _, _, _, _ => False

/-- In some dimension no index is selected by both of two lists of ranges. -/
def SeparateDim : (ranges ranges' : List IndexRange) → (bases : List Int) → (extents : List Nat) → Prop
  | r :: rs, r' :: rs', b :: bs, e :: es => (∀ i, ¬ (SelectsIndex r b e i ∧ SelectsIndex r' b e i)) ∨ SeparateDim rs rs' bs es
  | _, _, _, _ => False

/-- The pointer `p` is the address of an element of `d`. -/
def PointsInto (d : Desc) (p : Ptr) : Prop := ∃ idx, InBox d.bases d.extents idx ∧ p = address d idx

/-- `indices[range(b+j, b+e, s)][range()]...[range()]`: every `s`-th index of the first dimension `[b, b+e)`, from the `j`-th on, and everything in
`m` further dimensions. -/
def stridedArgs (b : Int) (e s j m : Nat) : List IndexArg :=
  .range (IndexRange.mk3 (b + (j : Int)) (b + (e : Int)) (s : Int)) :: List.replicate m (.range IndexRange.all)

end MultiArray.Spec
