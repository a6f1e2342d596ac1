import Verif.Model.Base

/- Data members, constructors, queries and in-place modifiers of `const_multi_array_ref`
(multi_array_ref.hpp), `const_sub_array` (subarray.hpp) and `const_multi_array_view` (view.hpp).
The mutable classes `multi_array_ref`, `sub_array`, `multi_array_view` derive from these and add no data. -/
set_option autoImplicit false

namespace MultiArray

/-! ### const_sub_array / sub_array: `Desc` -/

namespace Desc

/-- `size()` (subarray.hpp:156). -/
def size (d : Desc) : Res Nat := Res.get d.extents 0
/-- `num_elements()` (subarray.hpp:164-167). -/
def numElements (d : Desc) : Nat := product d.extents
/-- `max_size()` (subarray.hpp:157). -/
def maxSize (d : Desc) : Nat := d.numElements
/-- `empty()` (subarray.hpp:158). -/
def empty (d : Desc) : Res Bool := do .ok ((← d.size) == 0)
/-- `num_dimensions()` (subarray.hpp:159). -/
def numDims (d : Desc) : Nat := d.extents.length
/-- `operator[](index)` (subarray.hpp:75-78, 259-263). -/
def bracket (dbg : Bool) (d : Desc) (idx : Int) : Res Desc := access dbg idx d
/-- `operator()(IndexList)` (subarray.hpp:80-87, 280-288). -/
def paren (dbg : Bool) (d : Desc) (indices : List Int) : Res Ptr := accessElement dbg indices d

end Desc

/-! ### const_multi_array_view / multi_array_view -/

/-- `const_multi_array_view` (view.hpp:250-255). -/
structure View where
  base : Ptr
  originOffset : Int
  numElems : Nat
  extents : List Nat
  strides : List Int
  bases : List Int
deriving DecidableEq, Repr

namespace View

/-- Constructor used by `generate_array_view` (view.hpp:228-245).  `extents` are `index`es converted
to `size_type`; they are never negative (theorem `viewLen_nonneg`), so the conversion is `toNat`. -/
def mkView (base : Ptr) (extents : List Int) (strides : List Int) : View :=
  let ext := extents.map Int.toNat
  { base := base, originOffset := 0, numElems := product ext, extents := ext, strides := strides,
    bases := List.replicate extents.length 0 }

/-- `origin()` (view.hpp:112, 323). -/
def origin (v : View) : Ptr := v.base.add v.originOffset
/-- The arguments `origin(), shape(), strides(), index_bases()` passed to the base class functions. -/
def desc (v : View) : Desc := ⟨v.origin, v.extents, v.strides, v.bases⟩
/-- `size()` (view.hpp:100). -/
def size (v : View) : Res Nat := Res.get v.extents 0
/-- `num_elements()` (view.hpp:114). -/
def numElements (v : View) : Nat := v.numElems
/-- `max_size()` (view.hpp:101). -/
def maxSize (v : View) : Nat := v.numElements
/-- `empty()` (view.hpp:102). -/
def empty (v : View) : Res Bool := do .ok ((← v.size) == 0)
/-- `num_dimensions()` (view.hpp:98). -/
def numDims (v : View) : Nat := v.extents.length

/-- `reindex(const BaseList&)` (view.hpp:83-90). -/
def reindexList (v : View) (values : List Int) : Res View := do
  let bs ← copyN values v.numDims
  .ok { v with bases := bs, originOffset := calcIndexingOffset v.strides bs }

/-- `reindex(index)` (view.hpp:92-96). -/
def reindexAll (v : View) (value : Int) : View :=
  let bs := List.replicate v.numDims value
  { v with bases := bs, originOffset := calcIndexingOffset v.strides bs }

/-- `operator()(IndexList)` (view.hpp:120-127, 325-333). -/
def paren (dbg : Bool) (v : View) (indices : List Int) : Res Ptr := accessElement dbg indices v.desc
/-- `operator[](index)` (view.hpp:130-135, 336-341). -/
def bracket (dbg : Bool) (v : View) (idx : Int) : Res Desc := access dbg idx v.desc

end View

/-- `generate_array_view` (base.hpp:406-491).  The type system makes the number of ranges equal to
`NumDims`; `NDims` is `indices.numDims`.  If fewer than `NDims` entries were written the view would
be built from uninitialised entries (asserted against at base.hpp:485, UB otherwise). -/
def generateArrayView (dbg : Bool) (indices : IndexGen) (d : Desc) : Res View := do
  let acc ← viewLoop dbg indices.numDims indices.ranges d.extents d.strides d.bases ⟨0, [], []⟩
  Res.assert dbg (decide (acc.newStrides.length = indices.numDims))
  if acc.newStrides.length = indices.numDims then
    .ok (View.mkView (d.base.add acc.offset) acc.newExtents acc.newStrides)
  else .ub

/-- `const_sub_array::operator[](index_gen)` (subarray.hpp:90-103, 266-278). -/
def Desc.slice (dbg : Bool) (d : Desc) (indices : IndexGen) : Res View := generateArrayView dbg indices d
/-- `const_multi_array_view::operator[](index_gen)` (view.hpp:138-151, 345-357). -/
def View.slice (dbg : Bool) (v : View) (indices : IndexGen) : Res View := generateArrayView dbg indices v.desc

/-! ### const_multi_array_ref / multi_array_ref -/

/-- `const_multi_array_ref` (multi_array_ref.hpp:349-356). -/
structure ARef where
  base : Ptr
  storage : StorageOrder
  extents : List Nat
  strides : List Int
  bases : List Int
  originOffset : Int
  directionalOffset : Int
  numElems : Nat
deriving DecidableEq, Repr

namespace ARef

/-- `init_multi_array_ref` (multi_array_ref.hpp:389-408), given the already set `base_`, `storage_` and
`index_base_list_`.  `NumDims` is explicit.  `stride_list_` starts uninitialised in C++; here it starts
as zeros (theorem `computeStrides_init_irrelevant`: for a valid storage order the start does not matter). -/
def init (numDims : Nat) (base : Ptr) (so : StorageOrder) (bases : List Int) (extentsIter : List Nat) : Res ARef := do
  let ext ← copyN extentsIter numDims
  let numElems := product ext
  let strides ← computeStrides (List.replicate numDims 0) ext so
  let originOffset := calcOriginOffset strides ext so bases
  let directionalOffset := calcDescOffset strides ext so
  .ok ⟨base, so, ext, strides, bases, originOffset, directionalOffset, numElems⟩

/-- `const_multi_array_ref(TPtr, const ExtentList&, const general_storage_order&)`
(multi_array_ref.hpp:99-108); with `StorageOrder.cOrder` also lines 89-97. -/
def ofExtents (numDims : Nat) (base : Ptr) (extents : List Nat) (so : StorageOrder) : Res ARef :=
  init numDims base so (List.replicate numDims 0) extents

/-- `init_from_extent_gen` (multi_array_ref.hpp:362-380) as called from the constructors at lines
110-125. -/
def ofExtentGen (base : Ptr) (g : ExtentGen) (so : StorageOrder) : Res ARef :=
  init g.numRanges base so (g.ranges.map ExtentRange.start) (g.ranges.map ExtentRange.size)

/-- `const_multi_array_ref(base, so, const index* index_bases, const size_type* extents)`
(multi_array_ref.hpp:324-346); `none` is a null pointer. -/
def ofShape (numDims : Nat) (base : Ptr) (so : StorageOrder) (indexBases : Option (List Int))
    (extents : Option (List Nat)) : Res ARef := do
  let bs ← match indexBases with
    | some l => copyN l numDims
    | none => .ok (List.replicate numDims 0)
  match extents with
  | some l => init numDims base so bs l
  | none => init numDims base so bs (List.replicate numDims 0)

/-- `num_dimensions()` (multi_array_ref.hpp:180). -/
def numDims (a : ARef) : Nat := a.extents.length
/-- `size()` (multi_array_ref.hpp:182). -/
def size (a : ARef) : Res Nat := Res.get a.extents 0
/-- `num_elements()` (multi_array_ref.hpp:200). -/
def numElements (a : ARef) : Nat := a.numElems
/-- `max_size()` (multi_array_ref.hpp:185). -/
def maxSize (a : ARef) : Nat := a.numElements
/-- `empty()` (multi_array_ref.hpp:187). -/
def empty (a : ARef) : Res Bool := do .ok ((← a.size) == 0)
/-- `origin()` (multi_array_ref.hpp:197, 504). -/
def origin (a : ARef) : Ptr := a.base.add a.originOffset
/-- `data()` (multi_array_ref.hpp:198, 506). -/
def data (a : ARef) : Ptr := a.base
/-- The arguments `origin(), shape(), strides(), index_bases()` passed to the base class functions. -/
def desc (a : ARef) : Desc := ⟨a.origin, a.extents, a.strides, a.bases⟩

/-- `reindex(const BaseList&)` (multi_array_ref.hpp:147-155). -/
def reindexList (a : ARef) (values : List Int) : Res ARef := do
  let bs ← copyN values a.numDims
  .ok { a with bases := bs, originOffset := calcOriginOffset a.strides a.extents a.storage bs }

/-- `reindex(index)` (multi_array_ref.hpp:157-162). -/
def reindexAll (a : ARef) (value : Int) : ARef :=
  let bs := List.replicate a.numDims value
  { a with bases := bs, originOffset := calcOriginOffset a.strides a.extents a.storage bs }

/-- `reshape(const SizeList&)` (multi_array_ref.hpp:164-178).  `directional_offset_` is not updated. -/
def reshape (dbg : Bool) (a : ARef) (extents : List Nat) : Res ARef := do
  Res.assert dbg (decide (a.numElems = product extents))
  let ext ← copyPrefix extents a.extents
  let strides ← computeStrides a.strides ext a.storage
  .ok { a with extents := ext, strides := strides,
               originOffset := calcOriginOffset strides ext a.storage a.bases }

/-- `operator()(IndexList)` (multi_array_ref.hpp:211-218, 508-516). -/
def paren (dbg : Bool) (a : ARef) (indices : List Int) : Res Ptr := accessElement dbg indices a.desc
/-- `operator[](index)` (multi_array_ref.hpp:221-225, 519-524). -/
def bracket (dbg : Bool) (a : ARef) (idx : Int) : Res Desc := access dbg idx a.desc
/-- The chained expression `a[i1]...[ik]`. -/
def chain (dbg : Bool) (a : ARef) (indices : List Int) : Res Desc := accessChain dbg indices a.desc
/-- `operator[](index_gen)` (multi_array_ref.hpp:228-241, 528-540). -/
def slice (dbg : Bool) (a : ARef) (indices : IndexGen) : Res View := generateArrayView dbg indices a.desc

end ARef
end MultiArray
