import Verif.Model.Res

/- Model of `include/boost/multi_array/storage_order.hpp`. -/
set_option autoImplicit false

namespace MultiArray

/-- `general_storage_order<NumDims>` (storage_order.hpp:31-77): `ordering_` and `ascending_`.
Both are `boost::array`s of length `NumDims`. -/
structure StorageOrder where
  ordering : List Nat
  ascending : List Bool
deriving DecidableEq, Repr

namespace StorageOrder

/-- `general_storage_order(OrderingIter, AscendingIter)` (storage_order.hpp:36-41). -/
def ofIters (numDims : Nat) (ordering : List Nat) (ascending : List Bool) : Res StorageOrder := do
  let o ← copyN ordering numDims
  let a ← copyN ascending numDims
  .ok ⟨o, a⟩

/-- `general_storage_order(const c_storage_order&)` (storage_order.hpp:47-52). -/
def cOrder (numDims : Nat) : StorageOrder where
  ordering := (List.range numDims).map (fun i => numDims - 1 - i)
  ascending := List.replicate numDims true

/-- `general_storage_order(const fortran_storage_order&)` (storage_order.hpp:54-59). -/
def fortranOrder (numDims : Nat) : StorageOrder where
  ordering := (List.range numDims).map (fun i => i)
  ascending := List.replicate numDims true

/-- `c_storage_order::operator general_storage_order<NumDims>()` (storage_order.hpp:86-97). -/
def convC (numDims : Nat) : Res StorageOrder :=
  ofIters numDims ((List.range numDims).map (fun i => numDims - 1 - i))
    ((List.range numDims).map (fun _ => true))

/-- `fortran_storage_order::operator general_storage_order<NumDims>()` (storage_order.hpp:108-119). -/
def convFortran (numDims : Nat) : Res StorageOrder :=
  ofIters numDims ((List.range numDims).map (fun i => i))
    ((List.range numDims).map (fun _ => true))

/-- `all_dims_ascending()` (storage_order.hpp:64-67). -/
def allDimsAscending (so : StorageOrder) : Bool := so.ascending.foldl (fun a b => a && b) true

/-- `operator==` (storage_order.hpp:69-72). -/
def eq (a b : StorageOrder) : Bool := (a.ordering == b.ordering) && (a.ascending == b.ascending)

end StorageOrder
end MultiArray
