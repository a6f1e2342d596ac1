import Verif.Model.StorageOrder
import Verif.Model.Ranges

/- Model of `include/boost/multi_array/base.hpp`. -/
set_option autoImplicit false

namespace MultiArray

/-- A `T*`: an allocation (block) and an offset in elements.  Pointer arithmetic is unchecked (the
library deliberately forms `origin()` pointers outside the block, see reference manual on `origin`);
dereferencing is checked in `Memory.lean`.  Block 0 is never allocated; `⟨0,0⟩` is the null pointer. -/
structure Ptr where
  blk : Nat
  off : Int
deriving DecidableEq, Repr

/-- Pointer plus integer. -/
def Ptr.add (p : Ptr) (n : Int) : Ptr := ⟨p.blk, p.off + n⟩

/-- The null pointer (`initial_base_`, multi_array.hpp:563). -/
def Ptr.null : Ptr := ⟨0, 0⟩

/-- The data of a `const_sub_array` / `sub_array` (subarray.hpp:186-189), and equally the four
arguments `base, extents, strides, index_bases` which `base.hpp` passes around: origin pointer and the
three per-dimension arrays.  A reference to an element (`T&`, the `reference` type of a 1-dimensional
array, base.hpp:164) is represented as a `Desc` with no dimensions left.
Simplification: the C++ object points into its parent's arrays; here the lists are copied.  `Handles.lean`
models the aliasing. -/
structure Desc where
  base : Ptr
  extents : List Nat
  strides : List Int
  bases : List Int
deriving DecidableEq, Repr

/-- `value_accessor_n::access` and `value_accessor_one::access` (base.hpp:129-141 and 168-180).  The
two differ only in returning a `sub_array` or a `T&`; both are `Desc` here.  `size_type(idx - base)` is
only reached when `idx - base >= 0` has been asserted, so `toNat` is exact. -/
def access (dbg : Bool) (idx : Int) (d : Desc) : Res Desc :=
  match d.extents, d.strides, d.bases with
  | e :: es, s :: ss, b :: bs => do
    Res.assert dbg (decide (idx - b ≥ 0))
    Res.assert dbg (decide ((idx - b).toNat < e))
    .ok ⟨d.base.add (idx * s), es, ss, bs⟩
  | _, _, _ => .ub

/-- The chained expression `a[i1][i2]...[ik]`: repeated `access` (multi_array_ref.hpp:221-225,
subarray.hpp:75-78, view.hpp:130-135 all forward to it). -/
def accessChain (dbg : Bool) : List Int → Desc → Res Desc
  | [], d => .ok d
  | i :: is, d => do accessChain dbg is (← access dbg i d)

/-- The assertion loop of `access_element` (base.hpp:309-314): for `i < NumDims`,
`indices[i] - index_bases[i] >= 0` and `size_type(...) < extents[i]`. -/
def checkIndices (dbg : Bool) : (extents : List Nat) → (bases indices : List Int) → Res Unit
  | [], _, _ => .ok ()
  | e :: es, b :: bs, i :: is =>
    if dbg then do
      Res.assert dbg (decide (i - b ≥ 0))
      Res.assert dbg (decide ((i - b).toNat < e))
      checkIndices dbg es bs is
    else .ok ()
  | _ :: _, _, _ => if dbg then .ub else .ok ()

/-- The offset loop of `access_element` (base.hpp:316-325): walks `indices` and `strides` for
`NumDims` steps. -/
def offsetLoop : (n : Nat) → (indices strides : List Int) → (offset : Int) → Res Int
  | 0, _, _, offset => .ok offset
  | n + 1, i :: is, s :: ss, offset => offsetLoop n is ss (offset + i * s)
  | _ + 1, _, _, _ => .ub

/-- `access_element` (base.hpp:298-327); returns the address of `base[offset]`.  `NumDims` is the
length of the extent list. -/
def accessElement (dbg : Bool) (indices : List Int) (d : Desc) : Res Ptr := do
  checkIndices dbg d.extents d.bases indices
  let off ← offsetLoop d.extents.length indices d.strides 0
  .ok (d.base.add off)

/-- The loop of `compute_strides` (base.hpp:335-346).  `ordering` is walked from entry 0 to entry
`NumDims-1`; each step reads `ascending(ordering(n))`, writes `stride_list[ordering(n)]` and multiplies
`stride` by `extent_list[ordering(n)]`.  An entry out of range is an out-of-bounds array access. -/
def computeStridesLoop (ascending : List Bool) (extents : List Nat) :
    (ordering : List Nat) → (stride : Int) → (strideList : List Int) → Res (List Int)
  | [], _, sl => .ok sl
  | d :: ds, stride, sl => do
    let asc ← Res.get ascending d
    let sign : Int := if asc then 1 else -1
    let e ← Res.get extents d
    if d < sl.length then
      computeStridesLoop ascending extents ds (stride * (e : Int)) (sl.set d (stride * sign))
    else .ub

/-- `compute_strides` (base.hpp:329-347); `strideList` is the previous (possibly uninitialised)
contents of `stride_list_`. -/
def computeStrides (strideList : List Int) (extents : List Nat) (so : StorageOrder) : Res (List Int) :=
  computeStridesLoop so.ascending extents so.ordering 1 strideList

/-- The loop of `calculate_descending_dimension_offset` (base.hpp:375-377).  `extent_list[n] - 1` is
`size_t` arithmetic in C++ (it wraps for extent 0); `Machine.lean` shows the ideal value is the right one. -/
def descOffsetLoop : (ascending : List Bool) → (extents : List Nat) → (strides : List Int) → (offset : Int) → Int
  | a :: as, e :: es, s :: ss, offset =>
    descOffsetLoop as es ss (if !a then offset - ((e : Int) - 1) * s else offset)
  | _, _, _, offset => offset

/-- `calculate_descending_dimension_offset` (base.hpp:367-380).  The three lists are `boost::array`s of
length `NumDims`. -/
def calcDescOffset (strides : List Int) (extents : List Nat) (so : StorageOrder) : Int :=
  if !so.allDimsAscending then descOffsetLoop so.ascending extents strides 0 else 0

/-- `calculate_indexing_offset` (base.hpp:386-395). -/
def indexingOffsetLoop : (strides bases : List Int) → (offset : Int) → Int
  | s :: ss, b :: bs, offset => indexingOffsetLoop ss bs (offset - s * b)
  | _, _, offset => offset

/-- `calculate_indexing_offset` (base.hpp:386-395). -/
def calcIndexingOffset (strides bases : List Int) : Int := indexingOffsetLoop strides bases 0

/-- `calculate_origin_offset` (base.hpp:352-363). -/
def calcOriginOffset (strides : List Int) (extents : List Nat) (so : StorageOrder) (bases : List Int) : Int :=
  calcDescOffset strides extents so + calcIndexingOffset strides bases

/-- The length computation of `generate_array_view` (base.hpp:440-450), for `stride ≠ 0`. -/
def viewLen (start finish stride : Int) : Int :=
  if Int.tdiv (finish - start) stride < 0 then 0
  else
    let shrinkage : Int := if stride > 0 then 1 else -1
    Int.tdiv (finish - start + (stride - shrinkage)) stride

/-- The assertions on one dimension in `generate_array_view`, after the stride check
(base.hpp:455-467). -/
def viewAsserts (dbg : Bool) (base : Int) (extent : Nat) (start finish stride : Int) : Res Unit := do
  Res.assert dbg (decide (base ≤ start ∧ (start ≤ base + (extent : Int) ∨ (start = base ∧ extent = 0))))
  let boundAdjustment : Int := if stride < 0 then 1 else 0
  Res.assert dbg (decide (base - boundAdjustment ≤ finish ∧ finish ≤ base + (extent : Int) - boundAdjustment))

/-- State of the loop of `generate_array_view` (base.hpp:416-420): `offset`, and the part of
`new_strides` / `new_extents` written so far (`dim` is their common length). -/
structure ViewAcc where
  offset : Int
  newStrides : List Int
  newExtents : List Int
deriving DecidableEq, Repr

/-- One iteration of the loop of `generate_array_view` (base.hpp:421-484) in dimension `n`, with
`extents[n]`, `strides[n]`, `index_bases[n]`, `ranges_[n]`.  Writing `new_strides[dim]` with
`dim >= NDims` is out of bounds of a `boost::array` (asserted there, UB otherwise). -/
def viewStep (dbg : Bool) (nDims : Nat) (r : IndexRange) (e : Nat) (s b : Int) (acc : ViewAcc) : Res ViewAcc := do
  let defaultStart := b
  let defaultFinish := defaultStart + (e : Int)
  let start := r.getStart defaultStart
  let finish := r.getFinish defaultFinish
  let stride := r.stride_
  Res.assert dbg (decide (stride ≠ 0))
  if stride = 0 then .ub else
  let len := viewLen start finish stride
  viewAsserts dbg b e start finish stride
  let offset := acc.offset + start * s
  if !r.degenerate_ then
    if acc.newStrides.length < nDims then
      .ok ⟨offset, acc.newStrides ++ [stride * s], acc.newExtents ++ [len]⟩
    else if dbg then .assertFail else .ub
  else .ok { acc with offset := offset }

/-- The loop of `generate_array_view` (base.hpp:421-484). -/
def viewLoop (dbg : Bool) (nDims : Nat) :
    (ranges : List IndexRange) → (extents : List Nat) → (strides bases : List Int) → ViewAcc → Res ViewAcc
  | r :: rs, e :: es, s :: ss, b :: bs, acc => do
    viewLoop dbg nDims rs es ss bs (← viewStep dbg nDims r e s b acc)
  | _, [], [], [], acc => .ok acc
  | _, _, _, _, _ => .ub

end MultiArray
