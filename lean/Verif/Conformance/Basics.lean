import Verif.Conformance.Generative

/- The other test programs of the library: allocators, assert, compare, constructors, idxgen1, index_bases, range1, reshape, resize, reverse_view,
stl_interaction, storage_order, storage_order_convert.  `double` values become integers (4.5 is 45).  Tests of the model, not proofs. -/
set_option autoImplicit false

namespace MultiArray.Conformance
open MultiArray

/-- `std::equal(v, v+n, ptr)` with `ptr` a pointer to elements. -/
def dataIs (p : Ptr) (vals : List Int) : Test :=
  checkAll (vals.zip (upto 0 vals.length)) fun (v, i) => do
    let x ← load (p.add i)
    pure (x == v)

/-- `int data[] = {…}`. -/
def localData (vals : List Int) : Exec Int Ptr := do
  let p ← local_ vals.length
  assignLoop vals.length p vals
  pure p

/-- `check_shape` (constructors.cpp:27-37; `test` of allocators.cpp:66-76). -/
def checkShape : (n : Nat) → (A : Desc) → (sizes : List Nat) → (strides : List Int) → (numElements : Nat) → Test
  | 0, _, _, _, _ => pure true
  | n + 1, A, sizes, strides, ne => do
    let sz ← Exec.lift A.size
    let A0 ← Exec.lift (A.bracket true 0)
    check (A.numElements == ne && sz == sizes.headD 0 && A.extents == sizes && A.strides == strides && A.numDims == n + 1)
      (checkShape n A0 sizes.tail strides.tail (ne / sz))

/-- `boost::array<size_type,3> sizes = {{3,3,3}}`. -/
def sizes : List Nat := [3, 3, 3]
/-- Row-major strides. -/
def rowStrides : List Int := [9, 3, 1]
/-- Column-major strides. -/
def colStrides : List Int := [1, 3, 9]
/-- `std::vector<double> vals(27, 4.5)`. -/
def vals : List Int := List.replicate 27 45

/-! ### constructors.cpp, allocators.cpp (with allocator 1) -/

/-- Every block of the program; to follow what a scope leaves behind, see C20 and the like. -/
def constructorsTest (al : Nat) : List Test :=
  [ -- Default multi_array constructor (constructors.cpp:66-69)
    (do let A ← MArr.mkDefault 0 3 al
        MArr.deallocateSpace A
        pure true),
    -- Constructor 1, default storage order and allocator (71-83)
    (do let A ← MArr.mkExtentsDefault 0 3 sizes al
        let a ← checkShape 3 A.ref.desc sizes rowStrides 27
        let B ← Exec.lift (ARef.ofExtentsDefault 3 Ptr.null sizes)
        let b ← checkShape 3 B.desc sizes rowStrides 27
        MArr.deallocateSpace A
        pure (a && b && A.ref.numElements == 27 && B.numElements == 27)),
    -- Constructor 1, fortran storage order and user-supplied allocator (85-106)
    (do let so ← Exec.lift (StorageOrder.convFortran 3)
        let A ← MArr.mkExtents 0 3 sizes so al
        let a ← checkShape 3 A.ref.desc sizes colStrides 27
        let B ← Exec.lift (ARef.ofExtents 3 Ptr.null sizes so)
        let b ← checkShape 3 B.desc sizes colStrides 27
        MArr.deallocateSpace A
        pure (a && b)),
    -- Constructor 2, default storage order and allocator (108-124)
    (do let g ← Exec.lift (extents [3, 3, 3])
        let A ← MArr.mkExtentGenDefault 0 g al
        let a ← checkShape 3 A.ref.desc sizes rowStrides 27
        let B ← Exec.lift (ARef.ofExtentGenDefault Ptr.null g)
        let b ← checkShape 3 B.desc sizes rowStrides 27
        MArr.deallocateSpace A
        pure (a && b)),
    -- Copy Constructors (126-150)
    (do let A ← MArr.mkExtentsDefault 0 3 sizes al
        A.ref.assign vals
        let B ← MArr.mkCopy 0 A
        let b1 ← checkShape 3 B.ref.desc sizes rowStrides 27
        let b2 ← equal 3 A.ref.desc B.ref.desc
        let p ← local_ 27
        let C ← Exec.lift (ARef.ofExtentsDefault 3 p sizes)
        let D := C
        let b3 ← checkShape 3 D.desc sizes rowStrides 27
        MArr.deallocateSpace B
        MArr.deallocateSpace A
        pure (b1 && b2 && b3 && decide (C.data = D.data) && B.alloc == al)),
    -- Conversion construction (153-175)
    (do let A ← MArr.mkExtentsDefault 0 3 sizes al
        A.ref.assign vals
        let B := A.ref
        let b1 ← checkShape 3 B.desc sizes rowStrides 27
        MArr.deallocateSpace A
        pure (b1 && decide (B.data = A.ref.data))),
    -- Assignment Operator (177-199)
    (do let A ← MArr.mkExtentsDefault 0 3 sizes al
        let B ← MArr.mkExtentsDefault 0 3 sizes al
        A.ref.assign vals
        MArr.assignFrom true false B A
        let b1 ← checkShape 3 B.ref.desc sizes rowStrides 27
        let b2 ← equal 3 A.ref.desc B.ref.desc
        let p1 ← local_ 27
        let p2 ← local_ 27
        let C ← Exec.lift (ARef.ofExtentsDefault 3 p1 sizes)
        let D ← Exec.lift (ARef.ofExtentsDefault 3 p2 sizes)
        C.assign vals
        assignOp true false D.desc C.desc
        let b3 ← checkShape 3 D.desc sizes rowStrides 27
        let b4 ← equal 3 C.desc D.desc
        pure (b1 && b2 && b3 && b4)),
    -- subarray value_type is multi_array (202-221)
    (do let A ← MArr.mkExtentsDefault 0 3 sizes al
        A.ref.assign vals
        let B ← Exec.lift (A.ref.bracket true 1)
        let C ← MArr.mkConvertDefault true 0 (← Exec.lift (B.bracket true 0)) al
        let A10 ← Exec.lift (A.ref.chain true [1, 0])
        let B0 ← Exec.lift (B.bracket true 0)
        let b1 ← equal 1 A10 C.ref.desc
        let b2 ← equal 1 B0 C.ref.desc
        pure (b1 && b2))
  ]

/-- constructors.cpp (the default allocator) -/
example : (constructorsTest 0).all passes = true := by decide +kernel
/-- allocators.cpp (a stateful allocator, `creator<double>(1)`): the same blocks -/
example : (constructorsTest 1).all passes = true := by decide +kernel

/-! ### assert.cpp -/

/-- `A = B` with different shapes stops at an assertion. -/
def assertTest : Test := do
  let A ← MArr.mkExtentGenDefault 0 (← Exec.lift (extents [2, 2])) 0
  let B ← MArr.mkExtentGenDefault 0 (← Exec.lift (extents [3, 3])) 0
  MArr.assignFrom true false A B
  pure true

example : asserts assertTest = true := by decide +kernel

/-! ### compare.cpp -/

/-- The comparison operators of handles. -/
def cmp (op : (Bool) → (Int → Int → Bool) → St Int → Nat → Desc → Desc → Res Bool) (r : Int → Int → Bool) (n : Nat) (a b : Desc) : Test := do
  let s ← state
  Exec.lift (op true r s n a b)

/-- `==` -/ def eqE : Int → Int → Bool := fun x y => x == y
/-- `<` -/ def ltE : Int → Int → Bool := fun x y => decide (x < y)

/-- `a[indices[2][range()][range()]]`. -/
def plane2 (d : Desc) : Exec Int View := slice d [.i 2, .rr IndexRange.default, .rr IndexRange.default]

/-- The blocks of compare.cpp. -/
def compareTest : List Test :=
  [ -- Copy Constructor (35-43)
    (do let A ← MArr.mkExtentsDefault 0 3 sizes 0
        A.ref.assign vals
        let B ← MArr.mkCopy 0 A
        let A0 ← Exec.lift (A.ref.bracket true 0)
        let B0 ← Exec.lift (B.ref.bracket true 0)
        let b1 ← cmp equalRef eqE 3 A.ref.desc B.ref.desc
        let b2 ← cmp equalRef eqE 3 B.ref.desc A.ref.desc
        let b3 ← cmp equalRef eqE 2 A0 B0
        pure (b1 && b2 && b3)),
    -- Assignment Operator (44-59)
    (do let A ← MArr.mkExtentsDefault 0 3 sizes 0
        let B ← MArr.mkExtentsDefault 0 3 sizes 0
        A.ref.assign vals
        MArr.assignFrom true false B A
        let A0 ← Exec.lift (A.ref.bracket true 0)
        let B0 ← Exec.lift (B.ref.bracket true 0)
        let b1 ← cmp equalRef eqE 3 A.ref.desc B.ref.desc
        let b2 ← cmp equalRef eqE 3 B.ref.desc A.ref.desc
        let b3 ← cmp equalRef eqE 2 B0 A0
        let C ← plane2 A.ref.desc
        let D ← plane2 B.ref.desc
        let b4 ← cmp equalRef eqE 2 C.desc D.desc
        pure (b1 && b2 && b3 && b4)),
    -- Different Arrays (60-77)
    (do let A ← MArr.mkExtentsDefault 0 3 sizes 0
        let B ← MArr.mkExtentsDefault 0 3 sizes 0
        A.ref.assign vals
        B.ref.assign (List.replicate 27 25)
        let A0 ← Exec.lift (A.ref.bracket true 0)
        let B0 ← Exec.lift (B.ref.bracket true 0)
        let b1 ← cmp notEqualRef eqE 3 A.ref.desc B.ref.desc
        let b2 ← cmp notEqualRef eqE 3 B.ref.desc A.ref.desc
        let b3 ← cmp notEqualRef eqE 2 A0 B0
        let C ← plane2 A.ref.desc
        let D ← plane2 B.ref.desc
        let b4 ← cmp notEqualRef eqE 2 C.desc D.desc
        pure (b1 && b2 && b3 && b4)),
    -- Comparisons galore! (80-143)
    (do let A ← MArr.mkExtentsDefault 0 3 sizes 0
        let B ← MArr.mkExtentsDefault 0 3 sizes 0
        A.ref.assign (List.replicate 9 0 ++ List.replicate 9 1 ++ List.replicate 9 2)
        B.ref.assign (List.replicate 9 0 ++ List.replicate 9 1 ++ List.replicate 8 2 ++ [1])
        let a := A.ref.desc
        let b := B.ref.desc
        let A0 ← Exec.lift (a.bracket true 0)
        let B0 ← Exec.lift (b.bracket true 0)
        let A2 ← Exec.lift (a.bracket true 2)
        let B2 ← Exec.lift (b.bracket true 2)
        let b1 ← cmp lessRef ltE 3 b a
        let b2 ← cmp greaterRef ltE 3 a b
        let b3 ← cmp lessEqRef ltE 3 b a
        let b4 ← cmp greaterEqRef ltE 3 a b
        let b5 ← cmp equalRef eqE 2 B0 A0
        let b6 ← cmp lessRef ltE 2 B2 A2
        let C ← MArr.mkCopy 0 A
        let c := C.ref.desc
        let b7 ← cmp lessEqRef ltE 3 c a
        let b8 ← cmp greaterEqRef ltE 3 c a
        let b9 ← cmp lessRef ltE 3 c a
        let b10 ← cmp greaterRef ltE 3 c a
        let D ← plane2 a
        let E ← plane2 b
        let b11 ← cmp lessRef ltE 2 E.desc D.desc
        let b12 ← cmp lessEqRef ltE 2 E.desc D.desc
        pure (b1 && b2 && b3 && b4 && b5 && b6 && b7 && b8 && !b9 && !b10 && b11 && b12))
  ]

example : compareTest.all passes = true := by decide +kernel

/-! ### idxgen1.cpp -/

/-- `check<NumRanges,NumDims>(indices[…])` (idxgen1.cpp:46-62), with `true` for `range()` and `false` for `0`. -/
def gen (l : List Bool) : Res (Nat × Nat) := do
  let g ← indices (l.map fun b => if b then .rr IndexRange.default else .i 0)
  .ok (g.numRanges, g.numDims)

/-- A result of the pure part of the model equals a value. -/
def isVal {α : Type} [DecidableEq α] (r : Res α) (a : α) : Bool :=
  match r with
  | .ok x => decide (x = a)
  | _ => false

example : (isVal (gen [true]) (1, 1) && isVal (gen [true, true]) (2, 2) && isVal (gen [true, true, true]) (3, 3)
    && isVal (gen [false]) (1, 0) && isVal (gen [false, false]) (2, 0) && isVal (gen [true, false]) (2, 1)
    && isVal (gen [false, true]) (2, 1) && isVal (gen [false, false, false]) (3, 0) && isVal (gen [true, false, false]) (3, 1)
    && isVal (gen [false, true, false]) (3, 1) && isVal (gen [false, false, true]) (3, 1) && isVal (gen [true, true, false]) (3, 2)
    && isVal (gen [true, false, true]) (3, 2) && isVal (gen [false, true, true]) (3, 2)) = true := by decide +kernel

/-- `is1.ranges_`, `is2.ranges_` (idxgen1.cpp:64-81). -/
def ranges (as : List Arg) : Res (List (Int × Int × Int × Bool)) := do
  let g ← indices as
  .ok (g.ranges.map fun r => (r.start_, r.finish_, r.stride_, r.degenerate_))

example : isVal (ranges [.r 0 1 2, .r 1 2 3, .r 2 3 4]) [(0, 1, 2, false), (1, 2, 3, false), (2, 3, 4, false)] = true := by decide +kernel
example : isVal (ranges [.r 0 1 2, .i 2, .r 2 3 4]) [(0, 1, 2, false), (2, 3, 1, true), (2, 3, 4, false)] = true := by decide +kernel

/-! ### range1.cpp -/

/-- `start()`, `finish()`, `stride()`, `size(0)`, `is_degenerate()`. -/
def rangeIs (r : IndexRange) (start finish stride : Int) (size : Nat) : Bool :=
  decide (r.start_ = start) && decide (r.finish_ = finish) && decide (r.stride_ = stride) && isVal (r.size 0) size

open IndexRange in
example : (rangeIs (mk3 (-3) 5) (-3) 5 1 8 && !(mk3 (-3) 5).degenerate_ && decide ((mk3 (-3) 5).getStart 0 = -3)
    && decide ((mk3 (-3) 5).getFinish 100 = 5)) = true := by decide +kernel
open IndexRange in
example : (rangeIs (mk3 (-3) 5 2) (-3) 5 2 4 && !(mk3 (-3) 5 2).degenerate_) = true := by decide +kernel
open IndexRange in
example : (rangeIs (single 5) 5 6 1 1 && (single 5).degenerate_) = true := by decide +kernel
open IndexRange in
example : (decide (IndexRange.default.getStart 0 = 0) && decide (IndexRange.default.getFinish 100 = 100)
    && decide (IndexRange.default.stride_ = 1) && isVal (IndexRange.default.size 0) 0) = true := by decide +kernel
open IndexRange in
example : rangeIs (((IndexRange.default.setStride 2).setStart (-3)).setFinish 7) (-3) 7 2 5 = true := by decide +kernel
open IndexRange in
example : rangeIs (rightOpen (leftClosed (-3) (IndexRange.default.setStride 2)) 7) (-3) 7 2 5 = true := by decide +kernel
open IndexRange in
example : rangeIs (rightClosed (leftOpen (-3) IndexRange.default) 7) (-2) 8 1 10 = true := by decide +kernel
open IndexRange in
example : rangeIs (shiftUp (mk3 0 5) 2) 2 7 1 5 = true := by decide +kernel
open IndexRange in
example : rangeIs (shiftDown (mk3 0 5) 2) (-2) 3 1 5 = true := by decide +kernel

/-! ### index_bases.cpp -/

/-- Compare `A[a+b₀][b+b₁][c+b₂]` with `B[a][b][c]` for all `a,b,c < 3`. -/
def sameAt (A : Desc) (bases : List Int) (B : Desc) : Test :=
  checkAll (triples 0 0 0 3 3 3) fun t => do
    let x ← readChain true A (List.zipWith (· + ·) t bases)
    let y ← readChain true B t
    pure (x == y)

/-- `A[indices[irange()][irange()][irange()]]`. -/
def whole (d : Desc) : Exec Int View := slice d [.rr IndexRange.default, .rr IndexRange.default, .rr IndexRange.default]

/-- The blocks of index_bases.cpp. -/
def indexBasesTest : List Test :=
  [ -- Construct with nonzero bases (41-75)
    (do let g ← Exec.lift (extentRanges [(1, 4), (2, 5), (3, 6)])
        let A ← MArr.mkExtentGenDefault 0 g 0
        let B ← MArr.mkExtentGenDefault 0 (← Exec.lift (extents [3, 3, 3])) 0
        let p ← local_ 27
        let C ← Exec.lift (ARef.ofExtentGenDefault p g)
        let E ← whole A.ref.desc
        A.ref.assign (upto 0 27)
        B.ref.assign (upto 0 27)
        C.assign (upto 0 27)
        let b1 ← sameAt A.ref.desc [1, 2, 3] B.ref.desc
        let b2 ← sameAt C.desc [1, 2, 3] B.ref.desc
        let b3 ← sameAt E.desc [0, 0, 0] B.ref.desc
        pure (b1 && b2 && b3)),
    -- Reindex (78-113)
    (do let A ← MArr.mkExtentGenDefault 0 (← Exec.lift (extents [3, 3, 3])) 0
        let B ← MArr.mkExtentGenDefault 0 (← Exec.lift (extents [3, 3, 3])) 0
        let p ← local_ 27
        let C ← Exec.lift (do ARef.ofExtentGenDefault p (← extents [3, 3, 3]))
        let E ← whole B.ref.desc
        A.ref.assign (upto 0 27)
        B.ref.assign (upto 0 27)
        C.assign (upto 0 27)
        let A' ← Exec.lift (A.ref.reindexList [1, 2, 3])
        let C' ← Exec.lift (C.reindexList [1, 2, 3])
        let E' ← Exec.lift (E.reindexList [1, 2, 3])
        let b1 ← sameAt A'.desc [1, 2, 3] B.ref.desc
        let b2 ← sameAt C'.desc [1, 2, 3] B.ref.desc
        let b3 ← sameAt E'.desc [1, 2, 3] B.ref.desc
        pure (b1 && b2 && b3)),
    -- Set Index Base (116-158)
    (do let A ← MArr.mkExtentGenDefault 0 (← Exec.lift (extents [3, 3, 3])) 0
        let B ← MArr.mkExtentGenDefault 0 (← Exec.lift (extents [3, 3, 3])) 0
        let p ← local_ 27
        let C ← Exec.lift (do ARef.ofExtentGenDefault p (← extents [3, 3, 3]))
        let E ← whole B.ref.desc
        A.ref.assign (upto 0 27)
        B.ref.assign (upto 0 27)
        C.assign (upto 0 27)
        let b1 ← sameAt (A.ref.reindexAll 1).desc [1, 1, 1] B.ref.desc
        let b2 ← sameAt (C.reindexAll 1).desc [1, 1, 1] B.ref.desc
        let b3 ← sameAt (E.reindexAll 1).desc [1, 1, 1] B.ref.desc
        pure (b1 && b2 && b3))
  ]

example : indexBasesTest.all passes = true := by decide +kernel

/-! ### reshape.cpp -/

/-- Both blocks (reshape.cpp:40-62, 64-93): `reshape` after an optional `reindex`; the elements read in order. -/
def reshapeTest (bases : Option (List Int)) : Test := do
  let re (a : ARef) : Exec Int ARef := match bases with
    | none => pure a
    | some b => Exec.lift (a.reindexList b)
  let p ← localData (upto 0 24)
  let A ← MArr.mkExtentsDefault 0 3 [2, 3, 4] 0
  A.ref.assign (upto 0 24)
  let B ← Exec.lift (ARef.ofExtentsDefault 3 p [2, 3, 4])
  let A1 ← re A.ref
  let B1 ← re B
  let A2 ← Exec.lift (A1.reshape true [4, 3, 2])
  let B2 ← Exec.lift (B1.reshape true [4, 3, 2])
  let b := bases.getD [0, 0, 0]
  checkAll ((triples (b.getD 0 0) (b.getD 1 0) (b.getD 2 0) 4 3 2).zip (upto 0 24)) fun (t, v) => do
    let x ← readChain true A2.desc t
    let y ← readChain true B2.desc t
    pure (x == v && y == v)

example : passes (reshapeTest none) = true := by decide +kernel
example : passes (reshapeTest (some [0, 1, -1])) = true := by decide +kernel

/-! ### resize.cpp -/

/-- `A_resize` (resize.cpp:36-52). -/
def aResize : List Int :=
  [0, 1, 4, 5, 8, 9, 12, 13, 16, 17, 20, 21, 0, 0, 0, 0, 0, 0, 0, 0, 0, 0, 0, 0]

/-- The blocks of resize.cpp. -/
def resizeTest : List Test :=
  [ -- resize through the extent_gen interface (55-60)
    (do let A ← MArr.mkExtentGenDefault 0 (← Exec.lift (extents [2, 3, 4])) 0
        A.ref.assign (upto 0 24)
        let A ← call (MArr.resize true 0 (← Exec.lift (extents [4, 3, 2]))) A
        dataIs A.ref.data aResize),
    -- resize through the Collection (63-69)
    (do let A ← MArr.mkExtentGenDefault 0 (← Exec.lift (extents [2, 3, 4])) 0
        A.ref.assign (upto 0 24)
        let A ← call (MArr.resizeExtents true 0 [4, 3, 2]) A
        dataIs A.ref.data aResize),
    -- default construct all the new elements (72-77)
    (do let A ← MArr.mkDefault 0 3 0
        let A ← call (MArr.resize true 0 (← Exec.lift (extents [2, 3, 4]))) A
        dataIs A.ref.data (List.replicate 24 0)),
    -- verify the preservation of storage order (82-114)
    (do let so ← Exec.lift (StorageOrder.ofIters 3 [2, 0, 1] [true, true, true])
        let A ← MArr.mkExtentGen 0 (← Exec.lift (extents [3, 4, 2])) so 0
        forAll (upto 0 24) fun v => assignCell (A.ref.data.add v) v
        let A ← call (MArr.resize true 0 (← Exec.lift (extents [3, 4, 2]))) A
        dataIs A.ref.data (upto 0 24)),
    -- Resizing that changes index bases too (116-122)
    (do let A ← MArr.mkDefault 0 1 0
        let A ← call (MArr.resize true 0 (← Exec.lift (extentRanges [(-3, 3)]))) A
        pure (A.ref.bases == [-3] && A.ref.extents == [6]))
  ]

example : resizeTest.all passes = true := by decide +kernel

/-! ### reverse_view.cpp -/

/-- `A[indices[range(3,-1,-1)]]` read forwards (reverse_view.cpp:27-42). -/
def reverseViewTest : Test := do
  let A ← MArr.mkExtentGenDefault 0 (← Exec.lift (extents [4])) 0
  A.ref.assign [1, 2, 3, 4]
  let B ← slice A.ref.desc [.r 3 (-1) (-1)]
  let n ← Exec.lift B.size
  check (n == 4) (checkAll ((upto 0 n).zip [4, 3, 2, 1]) fun (i, v) => do
    let x ← readChain true B.desc [i]
    pure (x == v))

example : passes reverseViewTest = true := by decide +kernel

/-! ### stl_interaction.cpp -/

/-- `std::vector<array3>` becomes a list of copies (stl_interaction.cpp:23-75). -/
def stlInteractionTest : Test := do
  let myarray ← MArr.mkExtentGenDefault 0 (← Exec.lift (extents [2, 3, 4])) 0
  myarray.ref.assign (upto 0 24)
  let v0 ← MArr.mkCopy 0 myarray
  let v1 ← MArr.mkCopy 0 myarray
  let b1 ← eqv 3 myarray.ref.desc v1.ref.desc
  let myview ← slice myarray.ref.desc [.i 1, .r 0 2, .r 1 3]
  let filler ← MArr.mkExtentGenDefault 0 (← Exec.lift (extents [2, 2])) 0
  filler.ref.assign [99, 98, 97, 96]
  assignOp true false myview.desc filler.ref.desc
  let v5 ← MArr.mkCopy 0 myarray
  let b2 ← eqv 3 myarray.ref.desc v1.ref.desc
  let b3 ← eqv 3 myarray.ref.desc v5.ref.desc
  MArr.deallocateSpace v0
  pure (b1 && !b2 && b3)

example : passes stlInteractionTest = true := by decide +kernel

/-! ### storage_order.cpp, storage_order_convert.cpp -/

/-- One block: storage order, the data in storage; the elements read in row order are 0, …, 23. -/
def storageOrderTest (so : Res StorageOrder) (data : List Int) : Test := do
  let A ← MArr.mkExtentGen 0 (← Exec.lift (extents [2, 3, 4])) (← Exec.lift so) 0
  A.ref.assign data
  checkAll ((triples 0 0 0 2 3 4).zip (upto 0 24)) fun (t, v) => do
    let x ← readChain true A.ref.desc t
    pure (x == v)

/-- `data_col` (storage_order.cpp:37-55). -/
def dataCol : List Int := [0, 12, 4, 16, 8, 20, 1, 13, 5, 17, 9, 21, 2, 14, 6, 18, 10, 22, 3, 15, 7, 19, 11, 23]

example : passes (storageOrderTest (StorageOrder.convFortran 3) dataCol) = true := by decide +kernel
example : passes (storageOrderTest (StorageOrder.ofIters 3 [0, 1, 2] [true, true, true]) dataCol) = true := by decide +kernel
example : passes (storageOrderTest (StorageOrder.ofIters 3 [2, 0, 1] [true, true, true])
    [0, 1, 2, 3, 12, 13, 14, 15, 4, 5, 6, 7, 16, 17, 18, 19, 8, 9, 10, 11, 20, 21, 22, 23]) = true := by decide +kernel
example : passes (storageOrderTest (StorageOrder.ofIters 3 [2, 0, 1] [false, true, true])
    [12, 13, 14, 15, 0, 1, 2, 3, 16, 17, 18, 19, 4, 5, 6, 7, 20, 21, 22, 23, 8, 9, 10, 11]) = true := by decide +kernel

/-- Negative control: column-major data in a row-major array does not pass. -/
example : passes (storageOrderTest (StorageOrder.convC 3) dataCol) = false := by decide +kernel

/-- storage_order_convert.cpp. -/
def convertTest : Res Bool := do
  let c ← StorageOrder.ofIters 5 [4, 3, 2, 1, 0] [true, true, true, true, true]
  let f ← StorageOrder.ofIters 5 [0, 1, 2, 3, 4] [true, true, true, true, true]
  let c' ← StorageOrder.convC 5
  let f' ← StorageOrder.convFortran 5
  .ok (c.eq c' && f.eq f')

example : isVal convertTest true = true := by decide +kernel

/-! ### vc_death.cpp (not in the Jamfile) -/

/-- vc_death.cpp:37-42 asks for the ranges `irange(1,2)` of an array whose second and third dimensions start at 2 and 3: a debug build stops at the
assertion of `generate_array_view` (base.hpp:455-458).  A release build makes the view without reading an element. -/
def vcDeathTest (dbg : Bool) : Test := do
  let A ← MArr.mkExtentGenDefault 0 (← Exec.lift (extentRanges [(1, 4), (2, 5), (3, 6)])) 0
  let g ← Exec.lift (indices [.r 1 2, .r 1 2, .r 1 2])
  let E ← Exec.lift (A.ref.slice dbg g)
  pure (E.extents == [1, 1, 1])

example : asserts (vcDeathTest true) = true := by decide +kernel
example : passes (vcDeathTest false) = true := by decide +kernel

/-! ### The examples (example/*.cpp) -/

/-- basic1.cpp, basic2.cpp, op_paren.cpp (3.14 becomes 314). -/
def basicTest : Test := do
  let A ← MArr.mkExtentGenDefault 0 (← Exec.lift (extents [3, 4, 2])) 0
  writeChain true A.ref.desc [0, 0, 0] 314
  let x ← readChain true A.ref.desc [0, 0, 0]
  let B ← MArr.mkExtentsDefault 0 3 [3, 4, 2] 0
  writeElem true B.ref.desc [0, 0, 0] 314
  let y ← readElem true B.ref.desc [0, 0, 0]
  pure (x == 314 && y == 314)

example : passes basicTest = true := by decide +kernel

/-- foreach_test.cpp and foreach_test2.cpp: `for_each(A,times_five())`. -/
def forEachTest (n : Nat) (shape : List Nat) : Test := do
  let A ← MArr.mkExtentsDefault 0 n shape 0
  A.ref.assign (upto 1 9)
  forEach true (fun v => v * 5) n A.ref.desc
  dataIs A.ref.data [5, 10, 15, 20, 25, 30, 35, 40, 45]

example : passes (forEachTest 2 [3, 3]) = true := by decide +kernel
example : passes (forEachTest 1 [9]) = true := by decide +kernel

/-- print_array.cpp: "The output is: [[0,1,2],[3,4,5]]". -/
def printTest : Test := do
  let A ← MArr.mkExtentGenDefault 0 (← Exec.lift (extents [2, 3])) 0
  A.ref.assign (upto 0 6)
  let out ← printArray true 8 2 A.ref.desc
  pure (decide (out = some [.opn, .opn, .elem 0, .comma, .elem 1, .comma, .elem 2, .cls, .comma,
    .opn, .elem 3, .comma, .elem 4, .comma, .elem 5, .cls, .cls]))

example : passes printTest = true := by decide +kernel

/-- resize_from_other.cpp: prints "5, 4". -/
def resizeFromOtherTest : Test := do
  let A ← MArr.mkExtentGenDefault 0 (← Exec.lift (extents [5, 4])) 0
  let B ← MArr.mkDefault 0 2 0
  let B ← call (resizeFromMultiArray true 0 2 A.ref.desc) B
  pure (B.ref.extents == [5, 4])

example : passes resizeFromOtherTest = true := by decide +kernel

/-- subview.cpp, subview2.cpp. -/
def subviewTest : Test := do
  let A ← MArr.mkExtentGenDefault 0 (← Exec.lift (extents [2, 3, 4])) 0
  A.ref.assign (upto 0 24)
  let V ← slice A.ref.desc [.r 0 2, .r 1 3, .r 0 4 2]
  checkAll (triples 0 0 0 2 2 2) fun t => do
    let x ← readChain true V.desc t
    let y ← readChain true A.ref.desc [t.getD 0 0, t.getD 1 0 + 1, t.getD 2 0 * 2]
    pure (x == y)

example : passes subviewTest = true := by decide +kernel

end MultiArray.Conformance
