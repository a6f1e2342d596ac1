import Verif.Model.MultiArr

/- The constructors with defaulted storage order and allocator, the remaining iterator functions, and the generic functions of the examples
that are not in the other files (`resize_from_MultiArray`, `print`). -/
set_option autoImplicit false

namespace MultiArray
variable {T : Type}

/-! ### Constructors without a storage order -/

/-- `c_storage_order()` converted to `general_storage_order<NumDims>` (storage_order.hpp:82-96), as used by the constructors without a storage
order argument. -/
def defaultOrder (numDims : Nat) : StorageOrder := StorageOrder.cOrder numDims

/-- `const_multi_array_ref(TPtr, const ExtentList&)` (multi_array_ref.hpp:89-97) and `multi_array_ref(T*, const ExtentList&)`
(multi_array_ref.hpp:444-449). -/
def ARef.ofExtentsDefault (numDims : Nat) (base : Ptr) (extents : List Nat) : Res ARef :=
  ARef.ofExtents numDims base extents (defaultOrder numDims)

/-- `const_multi_array_ref(TPtr, const extent_gen&)` (multi_array_ref.hpp:110-115) and `multi_array_ref(T*, const extent_gen&)`
(multi_array_ref.hpp:460-463). -/
def ARef.ofExtentGenDefault (base : Ptr) (g : ExtentGen) : Res ARef := ARef.ofExtentGen base g (defaultOrder g.numRanges)

/-- `multi_array(const ExtentList&, const Allocator& = Allocator())` (multi_array.hpp:159-174); `alloc` is the given or the
default-constructed allocator. -/
def MArr.mkExtentsDefault (dflt : T) (numDims : Nat) (extents : List Nat) (alloc : Nat) : Exec T MArr := do
  let ref ← Exec.lift (ARef.ofExtentsDefault numDims Ptr.null extents)
  MArr.allocateSpace dflt ref alloc

/-- `multi_array(const extent_gen&, const Allocator& = Allocator())` (multi_array.hpp:199-206). -/
def MArr.mkExtentGenDefault (dflt : T) (g : ExtentGen) (alloc : Nat) : Exec T MArr := do
  let ref ← Exec.lift (ARef.ofExtentGenDefault Ptr.null g)
  MArr.allocateSpace dflt ref alloc

/-- The converting constructors with the default `so = c_storage_order()` (multi_array.hpp:246-281, 354-417).  In particular a `multi_array` made
from a `multi_array_ref` does not inherit its storage order. -/
def MArr.mkConvertDefault (dbg : Bool) (dflt : T) (rhs : Desc) (alloc : Nat) : Exec T MArr :=
  MArr.mkConvert dbg dflt rhs (defaultOrder rhs.extents.length) alloc

/-! ### Iterators -/

/-- The converting constructor of iterators (`iterator` to `const_iterator`), member by member (iterator.hpp:101-108). -/
def It.convert (rhs : It) : It := ⟨rhs.idx, ⟨rhs.d.base, rhs.d.extents, rhs.d.strides, rhs.d.bases⟩⟩

/-- `operator->` (iterator.hpp:111-116): a proxy (iterator.hpp:34-43) that holds the reference returned by `dereference()`.  For
subarrays only: with `NumDims = 1` the proxy would need a `mutable` member of reference type, which is ill-formed. -/
def It.arrow (dbg : Bool) (it : It) : Res Desc := it.deref dbg

/-! ### Examples -/

/-- `resize_from_MultiArray(marray, other)` (example/resize_from_other.cpp:23-39): copy `other.shape()`, then `marray.resize(shape)`. -/
def resizeFromMultiArray (dbg : Bool) (dflt : T) (numDims : Nat) (other : Desc) : Member T Unit := do
  let shape ← Member.run (Exec.lift (copyN other.extents numDims))
  MArr.resizeExtents dbg dflt shape

/-- What `print` sends to the stream. -/
inductive Tok (T : Type) where
  | opn
  | cls
  | comma
  | elem (v : T)
deriving DecidableEq, Repr

/-- The loop `for (i = A.begin(); i != A.end(); ++i) { print(os, *i); if (boost::next(i) != A.end()) os << ','; }`
(example/print_array.cpp:24-28) with at most `fuel` steps; the result is what is printed, or `none` when the fuel runs out. -/
def printLoop (dbg : Bool) (inner : Desc → Exec T (Option (List (Tok T)))) : (fuel : Nat) → (i last : It) → Exec T (Option (List (Tok T)))
  | 0, i, last => if i.equal last then pure (some []) else pure none
  | fuel + 1, i, last =>
    if i.equal last then pure (some []) else do
      let x ← Exec.lift (i.deref dbg)
      let out ← inner x
      let sep : List (Tok T) := if !(i.increment.equal last) then [.comma] else []
      let rest ← printLoop dbg inner fuel i.increment last
      match out, rest with
      | some o, some r => pure (some (o ++ sep ++ r))
      | _, _ => pure none

/-- `print(std::ostream&, const Array&)` (example/print_array.cpp:19-30) and, for elements, `print(std::ostream&, const double&)`
(example/print_array.cpp:31-34). -/
def printArray (dbg : Bool) (fuel : Nat) : (n : Nat) → Desc → Exec T (Option (List (Tok T)))
  | 0, d => do
    let v ← load d.base
    pure (some [.elem v])
  | n + 1, d => do
    let first ← Exec.lift d.begin
    let last ← Exec.lift d.end
    match ← printLoop dbg (printArray dbg fuel n) fuel first last with
    | none => pure none
    | some body => pure (some ([.opn] ++ body ++ [.cls]))

end MultiArray
