import Verif.SpecFlat

/- What a program compiled without assertions (`NDEBUG`, or `BOOST_DISABLE_ASSERTS`) does outside the contract.  Nothing here models code. -/
set_option autoImplicit false

namespace MultiArray.Spec
open MultiArray
variable {T : Type}

/-- The row-major position `((k1*e2 + k2)*e3 + k3)...` of a tuple of arbitrary integers, which need not be in range. -/
def signedRowMajor : (extents : List Nat) → (k : List Int) → Int
  | _ :: es, k :: ks => k * (es.prod : Int) + signedRowMajor es ks
  | _, _ => 0

/-- The zero-based position of an index tuple that need not be in range: `idx_d - base_d` in every dimension. -/
def offBase (idx bases : List Int) : List Int := List.zipWith (· - ·) idx bases

/-- Every extent of the first shape is at most the corresponding extent of the second. -/
def FitsIn : (es es' : List Nat) → Prop
  | [], [] => True
  | e :: es, e' :: es' => e ≤ e' ∧ FitsIn es es'
  | _, _ => False

/-- Some element of `d` has the address `p`. -/
def IsElement (d : Desc) (p : Ptr) : Prop := ∃ k, InShape d.extents k ∧ p = posAddr d k

end MultiArray.Spec
