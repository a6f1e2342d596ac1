import Verif.Model.Classes

/- The arithmetic of `base.hpp`, `multi_array_ref.hpp` and `view.hpp` as a 64-bit machine performs it: `index` is `std::ptrdiff_t` (signed overflow
is undefined behaviour), `size_type` is `std::size_t` (wraps modulo 2^64), types.hpp:28-29; mixed operands are converted to `size_type`; a
`size_type` value converted back to `index` wraps.  Each definition is the machine counterpart of the ideal-integer definition of the same name in
`Base.lean` / `Classes.lean`; C51 relates the two.  Pointer offsets (`base + n`) are not range-checked, as in `Base.lean`. -/
set_option autoImplicit false

namespace MultiArray.Machine

/-- The values of `index` (types.hpp:29). -/
def InIndex (x : Int) : Prop := -(2 ^ 63) ≤ x ∧ x < 2 ^ 63

instance (x : Int) : Decidable (InIndex x) := inferInstanceAs (Decidable (_ ∧ _))

/-- The result of a signed operation: undefined behaviour unless representable (used for every `index` operation below, types.hpp:29). -/
def chk (x : Int) : Res Int := if InIndex x then .ok x else .ub

/-- Conversion `size_type` to `index`: the value congruent modulo 2^64 (used e.g. at base.hpp:345, 377, 427). -/
def toIndex (u : Nat) : Int := Int.bmod (u : Int) (2 ^ 64)

/-- `size_type` addition (types.hpp:28). -/
def uadd (a b : Nat) : Nat := (a + b) % 2 ^ 64
/-- `size_type` subtraction (types.hpp:28). -/
def usub (a b : Nat) : Nat := (a + (2 ^ 64 - b % 2 ^ 64)) % 2 ^ 64
/-- `size_type` multiplication (types.hpp:28). -/
def umul (a b : Nat) : Nat := (a * b) % 2 ^ 64

/-- `std::accumulate(..., size_type(1), std::multiplies<size_type>())` (multi_array_ref.hpp:397-398, view.hpp:243-244, subarray.hpp:165-166). -/
def product (l : List Nat) : Nat := l.foldl umul 1

/-- `access` (base.hpp:129-141, 168-180). -/
def access (dbg : Bool) (idx : Int) (d : Desc) : Res Desc :=
  match d.extents, d.strides, d.bases with
  | e :: es, s :: ss, b :: bs => do
    if dbg then
      let diff ← chk (idx - b)
      Res.assert dbg (decide (diff ≥ 0))
      Res.assert dbg (decide (toSizeT diff < e))
    let off ← chk (idx * s)
    .ok ⟨d.base.add off, es, ss, bs⟩
  | _, _, _ => .ub

/-- Repeated `operator[]` (base.hpp:129-141). -/
def accessChain (dbg : Bool) : List Int → Desc → Res Desc
  | [], d => .ok d
  | i :: is, d => do accessChain dbg is (← access dbg i d)

/-- Assertion loop of `access_element` (base.hpp:309-314). -/
def checkIndices (dbg : Bool) : (extents : List Nat) → (bases indices : List Int) → Res Unit
  | [], _, _ => .ok ()
  | e :: es, b :: bs, i :: is =>
    if dbg then do
      let diff ← chk (i - b)
      Res.assert dbg (decide (diff ≥ 0))
      Res.assert dbg (decide (toSizeT diff < e))
      checkIndices dbg es bs is
    else .ok ()
  | _ :: _, _, _ => if dbg then .ub else .ok ()

/-- Offset loop of `access_element` (base.hpp:316-325): `offset += (*i) * strides[n]`. -/
def offsetLoop : (n : Nat) → (indices strides : List Int) → (offset : Int) → Res Int
  | 0, _, _, offset => .ok offset
  | n + 1, i :: is, s :: ss, offset => do
    let prod ← chk (i * s)
    let offset ← chk (offset + prod)
    offsetLoop n is ss offset
  | _ + 1, _, _, _ => .ub

/-- `access_element` (base.hpp:298-327). -/
def accessElement (dbg : Bool) (indices : List Int) (d : Desc) : Res Ptr := do
  checkIndices dbg d.extents d.bases indices
  let off ← offsetLoop d.extents.length indices d.strides 0
  .ok (d.base.add off)

/-- Loop of `compute_strides` (base.hpp:334-346): `stride * stride_sign` is signed; `stride *= extent_list[..]` is computed in `size_type` and
converted back. -/
def computeStridesLoop (ascending : List Bool) (extents : List Nat) :
    (ordering : List Nat) → (stride : Int) → (strideList : List Int) → Res (List Int)
  | [], _, sl => .ok sl
  | d :: ds, stride, sl => do
    let asc ← Res.get ascending d
    let sign : Int := if asc then 1 else -1
    let signed ← chk (stride * sign)
    let e ← Res.get extents d
    if d < sl.length then
      computeStridesLoop ascending extents ds (toIndex (umul (toSizeT stride) e)) (sl.set d signed)
    else .ub

/-- `compute_strides` (base.hpp:329-347). -/
def computeStrides (strideList : List Int) (extents : List Nat) (so : StorageOrder) : Res (List Int) :=
  computeStridesLoop so.ascending extents so.ordering 1 strideList

/-- Loop of `calculate_descending_dimension_offset` (base.hpp:374-377): `(extent_list[n] - 1) * stride_list[n]` and the subtraction are `size_type`
operations (for extent 0 the first wraps to 2^64-1), the result is converted back to `index`. -/
def descOffsetLoop : (ascending : List Bool) → (extents : List Nat) → (strides : List Int) → (offset : Int) → Int
  | a :: as, e :: es, s :: ss, offset =>
    descOffsetLoop as es ss
      (if !a then toIndex (usub (toSizeT offset) (umul (usub e 1) (toSizeT s))) else offset)
  | _, _, _, offset => offset

/-- `calculate_descending_dimension_offset` (base.hpp:367-380). -/
def calcDescOffset (strides : List Int) (extents : List Nat) (so : StorageOrder) : Int :=
  if !so.allDimsAscending then descOffsetLoop so.ascending extents strides 0 else 0

/-- Loop of `calculate_indexing_offset` (base.hpp:391-393), signed. -/
def indexingOffsetLoop : (strides bases : List Int) → (offset : Int) → Res Int
  | s :: ss, b :: bs, offset => do
    let prod ← chk (s * b)
    let offset ← chk (offset - prod)
    indexingOffsetLoop ss bs offset
  | _, _, offset => .ok offset

/-- `calculate_indexing_offset` (base.hpp:386-395). -/
def calcIndexingOffset (strides bases : List Int) : Res Int := indexingOffsetLoop strides bases 0

/-- `calculate_origin_offset` (base.hpp:352-363). -/
def calcOriginOffset (strides : List Int) (extents : List Nat) (so : StorageOrder) (bases : List Int) : Res Int := do
  let i ← calcIndexingOffset strides bases
  chk (calcDescOffset strides extents so + i)

/-- Length computation of `generate_array_view` (base.hpp:440-450), for `stride ≠ 0`. -/
def viewLen (start finish stride : Int) : Res Int := do
  let diff ← chk (finish - start)
  let q ← chk (Int.tdiv diff stride)
  if q < 0 then .ok 0
  else
    let shrinkage : Int := if stride > 0 then 1 else -1
    let t ← chk (stride - shrinkage)
    let u ← chk (diff + t)
    chk (Int.tdiv u stride)

/-- Assertions of `generate_array_view` (base.hpp:455-467); `&&`, `||` evaluate left to right. -/
def viewAsserts (dbg : Bool) (base : Int) (extent : Nat) (start finish stride : Int) : Res Unit :=
  if dbg then
    if base ≤ start then do
      let top ← chk (base + toIndex extent)
      Res.assert dbg (decide (start ≤ top ∨ (start = base ∧ extent = 0)))
      let adj : Int := if stride < 0 then 1 else 0
      let lo ← chk (base - adj)
      if lo ≤ finish then do
        let t ← chk (base + toIndex extent)
        let hi ← chk (t - adj)
        Res.assert dbg (decide (finish ≤ hi))
      else .assertFail
    else .assertFail
  else .ok ()

/-- One iteration of `generate_array_view` (base.hpp:421-484). -/
def viewStep (dbg : Bool) (nDims : Nat) (r : IndexRange) (e : Nat) (s b : Int) (acc : ViewAcc) : Res ViewAcc := do
  let defaultFinish := toIndex (uadd (toSizeT b) e)
  let start := r.getStart b
  let finish := r.getFinish defaultFinish
  let stride := r.stride_
  Res.assert dbg (decide (stride ≠ 0))
  if stride = 0 then .ub else
  let len ← viewLen start finish stride
  viewAsserts dbg b e start finish stride
  let prod ← chk (start * s)
  let offset ← chk (acc.offset + prod)
  if !r.degenerate_ then
    if acc.newStrides.length < nDims then do
      let ns ← chk (stride * s)
      .ok ⟨offset, acc.newStrides ++ [ns], acc.newExtents ++ [len]⟩
    else if dbg then .assertFail else .ub
  else .ok { acc with offset := offset }

/-- The loop of `generate_array_view` (base.hpp:421-484). -/
def viewLoop (dbg : Bool) (nDims : Nat) :
    (ranges : List IndexRange) → (extents : List Nat) → (strides bases : List Int) → ViewAcc → Res ViewAcc
  | r :: rs, e :: es, s :: ss, b :: bs, acc => do
    viewLoop dbg nDims rs es ss bs (← viewStep dbg nDims r e s b acc)
  | _, [], [], [], acc => .ok acc
  | _, _, _, _, _ => .ub

/-- View constructor (view.hpp:228-245): the `index` extents are converted to `size_type`. -/
def mkView (base : Ptr) (extents : List Int) (strides : List Int) : View :=
  let ext := extents.map toSizeT
  { base := base, originOffset := 0, numElems := product ext, extents := ext, strides := strides,
    bases := List.replicate extents.length 0 }

/-- `generate_array_view` (base.hpp:406-491). -/
def generateArrayView (dbg : Bool) (indices : IndexGen) (d : Desc) : Res View := do
  let acc ← viewLoop dbg indices.numDims indices.ranges d.extents d.strides d.bases ⟨0, [], []⟩
  Res.assert dbg (decide (acc.newStrides.length = indices.numDims))
  if acc.newStrides.length = indices.numDims then
    .ok (mkView (d.base.add acc.offset) acc.newExtents acc.newStrides)
  else .ub

/-- `const_multi_array_view::reindex` (view.hpp:83-96). -/
def viewReindex (v : View) (values : List Int) : Res View := do
  let bs ← copyN values v.numDims
  let o ← calcIndexingOffset v.strides bs
  .ok { v with bases := bs, originOffset := o }

/-- `init_multi_array_ref` (multi_array_ref.hpp:389-408). -/
def init (numDims : Nat) (base : Ptr) (so : StorageOrder) (bases : List Int) (extentsIter : List Nat) : Res ARef := do
  let ext ← copyN extentsIter numDims
  let numElems := product ext
  let strides ← computeStrides (List.replicate numDims 0) ext so
  let originOffset ← calcOriginOffset strides ext so bases
  let directionalOffset := calcDescOffset strides ext so
  .ok ⟨base, so, ext, strides, bases, originOffset, directionalOffset, numElems⟩

/-- `const_multi_array_ref::reindex` (multi_array_ref.hpp:147-162). -/
def reindex (a : ARef) (values : List Int) : Res ARef := do
  let bs ← copyN values a.numDims
  let o ← calcOriginOffset a.strides a.extents a.storage bs
  .ok { a with bases := bs, originOffset := o }

/-- `reshape` (multi_array_ref.hpp:164-178). -/
def reshape (dbg : Bool) (a : ARef) (extents : List Nat) : Res ARef := do
  Res.assert dbg (decide (a.numElems = product extents))
  let ext ← copyPrefix extents a.extents
  let strides ← computeStrides a.strides ext a.storage
  let o ← calcOriginOffset strides ext a.storage a.bases
  .ok { a with extents := ext, strides := strides, originOffset := o }

/-- `operator()(IndexList)` of the array (multi_array_ref.hpp:211-218, 508-516); `operator[](index)` (multi_array_ref.hpp:221-225, 519-524) is `access dbg i a.desc`. -/
def paren (dbg : Bool) (a : ARef) (idx : List Int) : Res Ptr := accessElement dbg idx a.desc

end MultiArray.Machine
