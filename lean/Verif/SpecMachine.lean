import Verif.Spec
import Verif.Model.Machine

/- The size conditions of C51. -/
set_option autoImplicit false

namespace MultiArray.Spec
open MultiArray

/-- `Σ |x_d * y_d|`. -/
def absDot : (xs ys : List Int) → Nat
  | x :: xs, y :: ys => (x * y).natAbs + absDot xs ys
  | _, _ => 0

/-- Product of the non-zero extents: for an array with elements this is the number of elements. -/
def sizeBound (extents : List Nat) : Nat := (extents.map (max 1)).prod

/-- The array fits the 64-bit index type: number of elements plus `Σ |base_d * stride_d|` is below 2^63. For an array with the default index bases this
is just: the number of elements (product of the non-zero extents) is below 2^63. -/
def ArrayFits (a : ARef) : Prop := sizeBound a.extents + absDot a.bases a.strides < 2 ^ 63

/-- Every index is at a representable distance from its base. -/
def DistancesFit : (bases idx : List Int) → Prop
  | b :: bs, i :: is => Machine.InIndex (i - b) ∧ DistancesFit bs is
  | _, _ => True

/-- A range in a dimension `[b, b+e)` of stride `s` involves only representable numbers: the dimension itself lies strictly inside the index type, the
distance from start to finish plus the range's stride fits, and so does the stride of the resulting view. -/
def RangeFits (b : Int) (e : Nat) (s : Int) (r : IndexRange) : Prop :=
  -(2 ^ 63) < b ∧ b + (e : Int) < 2 ^ 63 ∧ e < 2 ^ 63 ∧
  (rangeFinish r b e - rangeStart r b).natAbs + r.stride_.natAbs ≤ 2 ^ 63 ∧ (r.stride_ * s).natAbs < 2 ^ 63

/-- `RangeFits` in every dimension. -/
def RangesFit : (bases : List Int) → (extents : List Nat) → (strides : List Int) → (ranges : List IndexRange) → Prop
  | b :: bs, e :: es, s :: ss, r :: rs => RangeFits b e s r ∧ RangesFit bs es ss rs
  | _, _, _, _ => True

/-- Every dimension of an array, subarray or view fits: its indices, and one past the last, are representable, and so is index times stride
for every index in range. -/
def DimsFit : (bases : List Int) → (extents : List Nat) → (strides : List Int) → Prop
  | b :: bs, e :: es, s :: ss => -(2 ^ 63) ≤ b ∧ b + (e : Int) < 2 ^ 63 ∧ e < 2 ^ 63 ∧
      (∀ i : Int, b ≤ i → i < b + (e : Int) → Machine.InIndex (i * s)) ∧ DimsFit bs es ss
  | _, _, _ => True

/-- Every dimension lies strictly inside the index type: `-(2^63) < base` and `base + extent < 2^63`. -/
def InsideIndex : (bases : List Int) → (extents : List Nat) → Prop
  | b :: bs, e :: es => -(2 ^ 63) < b ∧ b + (e : Int) < 2 ^ 63 ∧ InsideIndex bs es
  | _, _ => True

/-- The array fits the machine: its number of elements plus `Σ |base_d * stride_d|` is below 2^63, and its indices lie inside the index type. For an
array with the default index bases the second part follows from the first. -/
def HeaderFits (a : ARef) : Prop := ArrayFits a ∧ InsideIndex a.bases a.extents

/-- The start index of every range. -/
def startsOf : (ranges : List IndexRange) → (bases : List Int) → List Int
  | r :: rs, b :: bs => rangeStart r b :: startsOf rs bs
  | _, _ => []

end MultiArray.Spec
