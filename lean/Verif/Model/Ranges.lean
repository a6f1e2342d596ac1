import Verif.Model.Res

/- Model of `index_range.hpp`, `extent_range.hpp`, `range_list.hpp`, `extent_gen.hpp`,
`index_gen.hpp`. -/
set_option autoImplicit false

namespace MultiArray

/-- `index_range` (index_range.hpp:32-153).  Fields in ideal integers. -/
structure IndexRange where
  start_ : Int
  finish_ : Int
  stride_ : Int
  degenerate_ : Bool
deriving DecidableEq, Repr

namespace IndexRange

/-- `from_start()` (index_range.hpp:39-40): `numeric_limits<ptrdiff_t>::min()`, 64 bits. -/
def fromStart : Int := -(2 ^ 63)

/-- `to_end()` (index_range.hpp:42-43). -/
def toEnd : Int := 2 ^ 63 - 1

/-- `index_range()` (index_range.hpp:47-53). -/
def default : IndexRange := ⟨fromStart, toEnd, 1, false⟩

/-- `explicit index_range(index pos)` (index_range.hpp:55-61). -/
def single (pos : Int) : IndexRange := ⟨pos, pos + 1, 1, true⟩

/-- `index_range(start, finish, stride=1)` (index_range.hpp:63-66). -/
def mk3 (start finish : Int) (stride : Int := 1) : IndexRange := ⟨start, finish, stride, false⟩

/-- `start(index)` (index_range.hpp:70-74). -/
def setStart (r : IndexRange) (s : Int) : IndexRange := { r with start_ := s, degenerate_ := false }

/-- `finish(index)` (index_range.hpp:76-80). -/
def setFinish (r : IndexRange) (f : Int) : IndexRange := { r with finish_ := f, degenerate_ := false }

/-- `stride(index)` (index_range.hpp:82). -/
def setStride (r : IndexRange) (s : Int) : IndexRange := { r with stride_ := s }

/-- `get_start(low)` (index_range.hpp:89-94). -/
def getStart (r : IndexRange) (low : Int := fromStart) : Int :=
  if r.start_ = fromStart then low else r.start_

/-- `get_finish(high)` (index_range.hpp:101-106). -/
def getFinish (r : IndexRange) (high : Int := toEnd) : Int :=
  if r.finish_ = toEnd then high else r.finish_

/-- `size(idx)` (index_range.hpp:110-114).  C++ division truncates; division by zero is UB; the
result is converted to `size_type`. -/
def size (r : IndexRange) (idx : Int) : Res Nat :=
  if r.start_ = fromStart ∨ r.finish_ = toEnd then .ok (toSizeT idx)
  else if r.stride_ = 0 then .ub
  else .ok (toSizeT (Int.tdiv (r.finish_ - r.start_) r.stride_))

/-- `set_index_range` (index_range.hpp:116-121); note that `degenerate_` is kept. -/
def setIndexRange (r : IndexRange) (start finish : Int) (stride : Int := 1) : IndexRange :=
  { r with start_ := start, finish_ := finish, stride_ := stride }

/-- `all()` (index_range.hpp:123-124). -/
def all : IndexRange := mk3 fromStart toEnd 1

/-- `operator-(index)` (index_range.hpp:128-131), ideal arithmetic. -/
def shiftDown (r : IndexRange) (shift : Int) : IndexRange :=
  mk3 (r.start_ - shift) (r.finish_ - shift) r.stride_

/-- `operator+(index)` (index_range.hpp:133-136), ideal arithmetic. -/
def shiftUp (r : IndexRange) (shift : Int) : IndexRange :=
  mk3 (r.start_ + shift) (r.finish_ + shift) r.stride_

/-- `operator[](unsigned)` / `operator()(unsigned)` (index_range.hpp:138-146). -/
def nth (r : IndexRange) (i : Nat) : Int := r.start_ + (i : Int) * r.stride_

/-- `operator<=(Index s, index_range)` (index_range.hpp:159-164), left closed. -/
def leftClosed (s : Int) (r : IndexRange) : IndexRange := mk3 s r.finish_ r.stride_

/-- `operator<(Index s, index_range)` (index_range.hpp:167-172), left open. -/
def leftOpen (s : Int) (r : IndexRange) : IndexRange := mk3 (s + 1) r.finish_ r.stride_

/-- `operator<(index_range, Index f)` (index_range.hpp:175-180), right open. -/
def rightOpen (r : IndexRange) (f : Int) : IndexRange := mk3 r.start_ f r.stride_

/-- `operator<=(index_range, Index f)` (index_range.hpp:183-188), right closed. -/
def rightClosed (r : IndexRange) (f : Int) : IndexRange := mk3 r.start_ (f + 1) r.stride_

end IndexRange

/-- `extent_range` (extent_range.hpp:22-42): a pair `first`,`second`. -/
structure ExtentRange where
  first : Int
  second : Int
deriving DecidableEq, Repr

namespace ExtentRange

/-- `extent_range(start, finish)` (extent_range.hpp:29-30). -/
def mk2 (start finish : Int) : ExtentRange := ⟨start, finish⟩

/-- `extent_range(finish)` (extent_range.hpp:32-33). -/
def mk1 (finish : Int) : ExtentRange := ⟨0, finish⟩

/-- `extent_range()` (extent_range.hpp:35). -/
def default : ExtentRange := ⟨0, 0⟩

/-- `start()` (extent_range.hpp:37). -/
def start (r : ExtentRange) : Int := r.first

/-- `finish()` (extent_range.hpp:39). -/
def finish (r : ExtentRange) : Int := r.second

/-- `size()` (extent_range.hpp:41): signed difference converted to `size_type`. -/
def size (r : ExtentRange) : Nat := toSizeT (r.second - r.first)

end ExtentRange

/-- `range_list_generator<range,NumRanges>::type` (range_list.hpp:29-60) default-constructed:
an array of `NumRanges` entries, but of *one* entry when `NumRanges = 0`. -/
def rangeList {α : Type} (dflt : α) (numRanges : Nat) : List α :=
  List.replicate (if numRanges = 0 then 1 else numRanges) dflt

/-- `*ranges_.rbegin() = r` (extent_gen.hpp:50, index_gen.hpp:50,58,67). -/
def setLast {α : Type} (l : List α) (a : α) : List α := l.set (l.length - 1) a

/-- `extent_gen<NumRanges>` (extent_gen.hpp:27-68). -/
structure ExtentGen where
  numRanges : Nat
  ranges : List ExtentRange
deriving DecidableEq, Repr

namespace ExtentGen

/-- `extent_gen<0>()`, the global object `extents` (extent_gen.hpp:43, base.hpp:69). -/
def empty : ExtentGen := ⟨0, rangeList ExtentRange.default 0⟩

/-- `extent_gen(const extent_gen<NumRanges-1>&, const range&)` (extent_gen.hpp:46-51) as called from
`operator[](const range&)` (extent_gen.hpp:53-57). -/
def push (g : ExtentGen) (r : ExtentRange) : Res ExtentGen := do
  let rs ← copyPrefix g.ranges (rangeList ExtentRange.default (g.numRanges + 1))
  .ok ⟨g.numRanges + 1, setLast rs r⟩

/-- `operator[](index idx)` (extent_gen.hpp:59-63). -/
def pushIdx (g : ExtentGen) (idx : Int) : Res ExtentGen := push g (ExtentRange.mk2 0 idx)

end ExtentGen

/-- `index_gen<NumRanges,NumDims>` (index_gen.hpp:28-74). -/
structure IndexGen where
  numRanges : Nat
  numDims : Nat
  ranges : List IndexRange
deriving DecidableEq, Repr

namespace IndexGen

/-- `index_gen<0,0>()`, the global object `indices` (index_gen.hpp:43, base.hpp:70). -/
def empty : IndexGen := ⟨0, 0, rangeList IndexRange.default 0⟩

/-- `operator[](const range&)` (index_gen.hpp:53-60): one more range and one more view dimension. -/
def pushRange (g : IndexGen) (r : IndexRange) : Res IndexGen := do
  let rs ← copyPrefix g.ranges (rangeList IndexRange.default (g.numRanges + 1))
  .ok ⟨g.numRanges + 1, g.numDims + 1, setLast rs r⟩

/-- `operator[](index)` (index_gen.hpp:62-69): one more range, same number of view dimensions. -/
def pushIdx (g : IndexGen) (idx : Int) : Res IndexGen := do
  let rs ← copyPrefix g.ranges (rangeList IndexRange.default (g.numRanges + 1))
  .ok ⟨g.numRanges + 1, g.numDims, setLast rs (IndexRange.single idx)⟩

end IndexGen
end MultiArray
