import Verif.SpecMem

/-
Contiguous handles: what a routine that is given a pointer and a count may assume.  Nothing here models library code.
-/
set_option autoImplicit false

namespace MultiArray.Spec
open MultiArray

/-- The elements of `d`, taken with the *last* index varying fastest, lie one after another at `p`, `p+1`, `p+2`, ... -/
def ContiguousFrom (d : Desc) (p : Ptr) : Prop :=
  (positions d.extents).map (fun k => address d (atPos d.bases k)) = (List.range d.extents.prod).map (fun (i : Nat) => p.add (i : Int))

/-- The elements of `d`, taken with the *first* index varying fastest, lie one after another at `p`, `p+1`, `p+2`, ... -/
def ContiguousColFrom (d : Desc) (p : Ptr) : Prop :=
  (positions d.extents.reverse).map (fun k => address d (atPos d.bases k.reverse)) = (List.range d.extents.prod).map (fun (i : Nat) => p.add (i : Int))

/-- The elements of `d` form one gap-free run of memory in row-major order. -/
def Contiguous (d : Desc) : Prop := ∃ p, ContiguousFrom d p

/-- The elements of `d` form one gap-free run of memory in column-major order. -/
def ContiguousCol (d : Desc) : Prop := ∃ p, ContiguousColFrom d p

end MultiArray.Spec
