import Verif.Model.Iterator
import Verif.Model.Compare

/- `const_multi_array_ref<T,NumDims,TPtr>` for an arbitrary pointer-like type `TPtr` (multi_array_ref.hpp:40-409).

The class stores a `TPtr`, but `origin()` and `data()` return `const element*` (lines 197-198) and every other member function starts from
`origin()`; subarrays, views and iterators of it hold `const T*` (base.hpp:87, 124, 213-219, 238).  So the class performs on a `TPtr` exactly two operations: one
addition `base_+origin_offset_`, and the conversion to `const T*`. -/
set_option autoImplicit false

namespace MultiArray

/-- What `const_multi_array_ref` needs of its pointer type (multi_array_ref.hpp:197-198): `operator+` with an `index` and the implicit conversion to
`const T*`.  Both may refuse (`Res.ub` or a failed assertion), as those of a bounds-checked pointer do. -/
structure PtrType (P : Type) where
  plus : P → Int → Res P
  conv : P → Res Ptr

/-- The data members of `const_multi_array_ref<T,NumDims,TPtr>` (multi_array_ref.hpp:349-356). -/
structure GRef (P : Type) where
  base : P
  storage : StorageOrder
  extents : List Nat
  strides : List Int
  bases : List Int
  originOffset : Int
  directionalOffset : Int
  numElems : Nat

namespace GRef
variable {P Q E : Type}

/-- `init_multi_array_ref` (multi_array_ref.hpp:389-408); see `ARef.init`. -/
def init (numDims : Nat) (base : P) (so : StorageOrder) (bases : List Int) (extentsIter : List Nat) : Res (GRef P) := do
  let ext ← copyN extentsIter numDims
  let numElems := product ext
  let strides ← computeStrides (List.replicate numDims 0) ext so
  let originOffset := calcOriginOffset strides ext so bases
  let directionalOffset := calcDescOffset strides ext so
  .ok ⟨base, so, ext, strides, bases, originOffset, directionalOffset, numElems⟩

/-- `const_multi_array_ref(TPtr, const ExtentList&, const general_storage_order&)` (multi_array_ref.hpp:99-108; with the C storage order also
lines 89-97). -/
def ofExtents (numDims : Nat) (base : P) (extents : List Nat) (so : StorageOrder) : Res (GRef P) :=
  init numDims base so (List.replicate numDims 0) extents

/-- `const_multi_array_ref(TPtr, const extent_gen&, const general_storage_order&)` (multi_array_ref.hpp:110-125, 362-380). -/
def ofExtentGen (base : P) (g : ExtentGen) (so : StorageOrder) : Res (GRef P) :=
  init g.numRanges base so (g.ranges.map ExtentRange.start) (g.ranges.map ExtentRange.size)

/-- The converting constructor from a `const_multi_array_ref` over another pointer type (multi_array_ref.hpp:77-87); `cvt` is the implicit
conversion of the pointers. -/
def convert (cvt : P → Res Q) (g : GRef P) : Res (GRef Q) := do
  let b ← cvt g.base
  .ok ⟨b, g.storage, g.extents, g.strides, g.bases, g.originOffset, g.directionalOffset, g.numElems⟩

/-- `reindex(const BaseList&)` (multi_array_ref.hpp:147-155). -/
def reindexList (g : GRef P) (values : List Int) : Res (GRef P) := do
  let bs ← copyN values g.extents.length
  .ok { g with bases := bs, originOffset := calcOriginOffset g.strides g.extents g.storage bs }

/-- `reindex(index)` (multi_array_ref.hpp:157-162). -/
def reindexAll (g : GRef P) (value : Int) : GRef P :=
  let bs := List.replicate g.extents.length value
  { g with bases := bs, originOffset := calcOriginOffset g.strides g.extents g.storage bs }

/-- `reshape(const SizeList&)` (multi_array_ref.hpp:164-178). -/
def reshape (dbg : Bool) (g : GRef P) (extents : List Nat) : Res (GRef P) := do
  Res.assert dbg (decide (g.numElems = product extents))
  let ext ← copyPrefix extents g.extents
  let strides ← computeStrides g.strides ext g.storage
  .ok { g with extents := ext, strides := strides,
               originOffset := calcOriginOffset strides ext g.storage g.bases }

/-- `origin()` (multi_array_ref.hpp:197): `const element* origin() const { return base_+origin_offset_; }`. -/
def origin (τ : PtrType P) (g : GRef P) : Res Ptr := do τ.conv (← τ.plus g.base g.originOffset)

/-- `data()` (multi_array_ref.hpp:198): `const element* data() const { return base_; }`. -/
def data (τ : PtrType P) (g : GRef P) : Res Ptr := τ.conv g.base

/-- The arguments `origin(), shape(), strides(), index_bases()` passed to the base class functions (multi_array_ref.hpp:215-217, 223-224). -/
def desc (τ : PtrType P) (g : GRef P) : Res Desc := do .ok ⟨← g.origin τ, g.extents, g.strides, g.bases⟩

/-- `operator()(IndexList)` (multi_array_ref.hpp:211-218). -/
def paren (τ : PtrType P) (dbg : Bool) (g : GRef P) (indices : List Int) : Res Ptr := do accessElement dbg indices (← g.desc τ)
/-- `operator[](index)` (multi_array_ref.hpp:221-225). -/
def bracket (τ : PtrType P) (dbg : Bool) (g : GRef P) (idx : Int) : Res Desc := do access dbg idx (← g.desc τ)
/-- `operator[](index_gen)` (multi_array_ref.hpp:228-241). -/
def slice (τ : PtrType P) (dbg : Bool) (g : GRef P) (indices : IndexGen) : Res View := do generateArrayView dbg indices (← g.desc τ)
/-- `begin()` (multi_array_ref.hpp:243-246). -/
def begin (τ : PtrType P) (g : GRef P) : Res It := do (← g.desc τ).begin
/-- `end()` (multi_array_ref.hpp:248-251). -/
def «end» (τ : PtrType P) (g : GRef P) : Res It := do (← g.desc τ).end

/-- `operator==` with a `const_multi_array_ref` over any pointer type (multi_array_ref.hpp:262-271): if the extents differ no pointer is touched. -/
def equal (τ : PtrType P) (σ : PtrType Q) (dbg : Bool) (eq : E → E → Bool) (s : St E) (g : GRef P) (h : GRef Q) : Res Bool := do
  if g.extents = h.extents then
    let first ← g.begin τ
    let last ← g.end τ
    let first2 ← h.begin σ
    stdEqual (fun i j => do equalRef dbg eq s (g.extents.length - 1) (← i.deref dbg) (← j.deref dbg)) (last.sub first).toNat first first2
  else .ok false

/-- `operator<` with a `const_multi_array_ref` over any pointer type (multi_array_ref.hpp:273-278). -/
def less (τ : PtrType P) (σ : PtrType Q) (dbg : Bool) (lt : E → E → Bool) (s : St E) (g : GRef P) (h : GRef Q) : Res Bool := do
  let first ← g.begin τ
  let last ← g.end τ
  let first2 ← h.begin σ
  let last2 ← h.end σ
  stdLexCompare (fun i j => do lessRef dbg lt s (g.extents.length - 1) (← i.deref dbg) (← j.deref dbg))
    (last.sub first).toNat (last2.sub first2).toNat first first2

end GRef
end MultiArray
