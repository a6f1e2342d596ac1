import Verif.Model.Machine

/- Element access, construction, `reindex` and `reshape` when the client's collection holds integers of a type other than `index` / `size_type`.
The library converts implicitly; the conversions below are those of an LP64 machine, where `index` is `long` and `size_type` is `unsigned long`
(types.hpp:28-29).  In a mixed expression with an `index`, every integer type other than the 64-bit unsigned one is converted to `index` without
change of value; the 64-bit unsigned type wins over `index` and the operation is carried out modulo 2^64. -/
set_option autoImplicit false

namespace MultiArray.Machine

/-- The integer types a client's collection may hold (the element type of `IndexList`, `ExtentList`, `BaseList`, `SizeList`: base.hpp:298,
multi_array_ref.hpp:89, 140, 164). -/
inductive IntTy where
  | i8 | u8 | i16 | u16 | i32 | u32 | i64 | u64
deriving DecidableEq, Repr

/-- Smallest value (fundamental type of base.hpp:298's `IndexList::value_type`). -/
def IntTy.lo : IntTy → Int
  | .i8 => -(2 ^ 7)
  | .i16 => -(2 ^ 15)
  | .i32 => -(2 ^ 31)
  | .i64 => -(2 ^ 63)
  | _ => 0

/-- One past the largest value (fundamental type of base.hpp:298's `IndexList::value_type`). -/
def IntTy.hi : IntTy → Int
  | .i8 => 2 ^ 7
  | .u8 => 2 ^ 8
  | .i16 => 2 ^ 15
  | .u16 => 2 ^ 16
  | .i32 => 2 ^ 31
  | .u32 => 2 ^ 32
  | .i64 => 2 ^ 63
  | .u64 => 2 ^ 64

/-- Conversion of an integer of any type to `index` (the parameter of `operator[](index)`, multi_array_ref.hpp:221, 519, and the stores into
`index_base_list_`, multi_array_ref.hpp:150-151): congruent modulo 2^64. -/
def intToIndex (v : Int) : Int := Int.bmod v (2 ^ 64)

/-- Assertion loop of `access_element` (base.hpp:309-314) for 64-bit unsigned indices: `indices[i] - index_bases[i]` is unsigned, so the first
assertion cannot fail. -/
def checkIndicesU (dbg : Bool) : (extents : List Nat) → (bases : List Int) → (indices : List Int) → Res Unit
  | [], _, _ => .ok ()
  | e :: es, b :: bs, u :: us =>
    if dbg then do
      let diff := usub (toSizeT u) (toSizeT b)
      Res.assert dbg (decide (diff ≥ 0))
      Res.assert dbg (decide (diff < e))
      checkIndicesU dbg es bs us
    else .ok ()
  | _ :: _, _, _ => if dbg then .ub else .ok ()

/-- `offset += (*i) * strides[n]` (base.hpp:321) for a 64-bit unsigned `*i`. -/
def offsetStepU (u s offset : Int) : Res Int := .ok (toIndex (uadd (toSizeT offset) (umul (toSizeT u) (toSizeT s))))

/-- Offset loop of `access_element` (base.hpp:316-325) for 64-bit unsigned indices: `offset += (*i) * strides[n]` is computed in the unsigned type and
converted back to `index`. -/
def offsetLoopU : (n : Nat) → (indices strides : List Int) → (offset : Int) → Res Int
  | 0, _, _, offset => .ok offset
  | n + 1, u :: us, s :: ss, offset => do
    let offset ← offsetStepU u s offset
    offsetLoopU n us ss offset
  | _ + 1, _, _, _ => .ub

/-- `access_element` (base.hpp:298-327), called with a collection of `t`s; `operator()` of arrays, subarrays and views forwards to it
(multi_array_ref.hpp:211-218, 508-516, subarray.hpp:80-88, 280-288, view.hpp:120-127, 325-332). -/
def accessElementT (dbg : Bool) (t : IntTy) (indices : List Int) (d : Desc) : Res Ptr :=
  if t = .u64 then do
    checkIndicesU dbg d.extents d.bases indices
    let off ← offsetLoopU d.extents.length indices d.strides 0
    .ok (d.base.add off)
  else accessElement dbg indices d

/-- `x[v1]...[vN]` with integers of any type (multi_array_ref.hpp:221-225, subarray.hpp:75-78, view.hpp:130-137): each is converted to the parameter type
`index`. -/
def accessChainT (dbg : Bool) (indices : List Int) (d : Desc) : Res Desc := accessChain dbg (indices.map intToIndex) d

/-- Constructor from a collection of extents of any integer type (multi_array_ref.hpp:89-108, 389-393): `copy_n` converts each to `size_type`. -/
def ofExtentsT (numDims : Nat) (base : Ptr) (extents : List Int) (so : StorageOrder) : Res ARef :=
  init numDims base so (List.replicate numDims 0) (extents.map toSizeT)

/-- `reindex(BaseList)` with integers of any type (multi_array_ref.hpp:140-155): `copy_n` converts each to `index`. -/
def reindexT (a : ARef) (values : List Int) : Res ARef := reindex a (values.map intToIndex)

/-- `reindex(BaseList)` of a view with integers of any type (view.hpp:76-91). -/
def viewReindexT (v : View) (values : List Int) : Res View := viewReindex v (values.map intToIndex)

/-- `reshape(SizeList)` with integers of any type (multi_array_ref.hpp:164-178): `std::multiplies<size_type>` and `std::copy` convert each to
`size_type`. -/
def reshapeT (dbg : Bool) (a : ARef) (extents : List Int) : Res ARef := reshape dbg a (extents.map toSizeT)

end MultiArray.Machine
