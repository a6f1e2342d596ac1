import Verif.Spec

/- Pointers into an array's storage.  Nothing here models code. -/
set_option autoImplicit false

namespace MultiArray.Spec
open MultiArray

/-- `p` points to an element of the array's storage, or one past the end of it. -/
def InStorage (a : ARef) (p : Ptr) : Prop :=
  p.blk = a.data.blk ∧ a.data.off ≤ p.off ∧ p.off ≤ a.data.off + (a.numElements : Int)

instance (a : ARef) (p : Ptr) : Decidable (InStorage a p) := inferInstanceAs (Decidable (_ ∧ _ ∧ _))

/-- The index tuple whose element is stored first, at `data()`: the lowest index of an ascending dimension, the highest of a
descending one (`base - 1` if that dimension is empty). -/
def firstStored : (ascending : List Bool) → (bases : List Int) → (extents : List Nat) → List Int
  | a :: as, b :: bs, e :: es => (if a then b else b + (e : Int) - 1) :: firstStored as bs es
  | _, _, _ => []

/-- `p` points to an element of the array's storage. -/
def ElementPtr (a : ARef) (p : Ptr) : Prop :=
  p.blk = a.data.blk ∧ a.data.off ≤ p.off ∧ p.off < a.data.off + (a.numElements : Int)

instance (a : ARef) (p : Ptr) : Decidable (ElementPtr a p) := inferInstanceAs (Decidable (_ ∧ _ ∧ _))

end MultiArray.Spec
