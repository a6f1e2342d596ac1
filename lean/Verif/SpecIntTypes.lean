import Verif.SpecMachine
import Verif.Model.IntTypes

/- Vocabulary of C94. -/
set_option autoImplicit false

namespace MultiArray.Spec
open MultiArray

/-- All the integers are values of the type. -/
def OfType (t : Machine.IntTy) (vs : List Int) : Prop := ∀ v ∈ vs, t.lo ≤ v ∧ v < t.hi

instance (t : Machine.IntTy) (vs : List Int) : Decidable (OfType t vs) := inferInstanceAs (Decidable (∀ v ∈ vs, _))

/-- The integers `vs` are the indices `idx` up to multiples of 2^64 (as when -1 is written as the largest 64-bit unsigned number). -/
def Denote : (vs idx : List Int) → Prop
  | [], [] => True
  | v :: vs, i :: is => v % 2 ^ 64 = i % 2 ^ 64 ∧ Denote vs is
  | _, _ => False

instance decDenote : (vs is : List Int) → Decidable (Denote vs is)
  | [], [] => .isTrue trivial
  | v :: vs, i :: is =>
    have := decDenote vs is
    inferInstanceAs (Decidable (v % 2 ^ 64 = i % 2 ^ 64 ∧ Denote vs is))
  | [], _ :: _ => .isFalse id
  | _ :: _, [] => .isFalse id

/-- All the numbers are representable as `index`. -/
def AllIndex (l : List Int) : Prop := ∀ x ∈ l, -(2 ^ 63) ≤ x ∧ x < 2 ^ 63

instance (l : List Int) : Decidable (AllIndex l) := inferInstanceAs (Decidable (∀ x ∈ l, _))

/-- The handle fits the machine: every dimension does (`DimsFit`), and `Σ |index_d * stride_d|` is below 2^63 for every index in range. -/
def HandleFits (d : Desc) : Prop :=
  DimsFit d.bases d.extents d.strides ∧ ∀ idx, InBox d.bases d.extents idx → absDot idx d.strides < 2 ^ 63

end MultiArray.Spec
