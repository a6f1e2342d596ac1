import Verif.Conformance.Harness

/- The generative tests of the library: test/generative_tests.hpp with access.cpp, assign.cpp, assign_to_array.cpp, iterators.cpp and
slice.cpp.  Every test runs on seven kinds of array, in three storage orders, after four modifications.  Tests of the model, not proofs. -/
set_option autoImplicit false

namespace MultiArray.Conformance
open MultiArray

/-! ### The framework (generative_tests.hpp) -/

/-- `assign_if_not_const` (generative_tests.hpp:74-89): `A[i][j][k] = num++`. -/
def assign (A : Desc) : Exec Int Unit :=
  forAll ((triples (baseAt A 0) (baseAt A 1) (baseAt A 2) 2 3 4).zip (upto 0 24)) fun (t, num) => writeChain true A t num

/-- `null_modifier`, `set_index_base_modifier`, `reindex_modifier`, `reshape_modifier` (generative_tests.hpp:232-277). -/
inductive Modifier where
  | null
  | setIndexBase
  | reindex
  | reshape

/-- `modifier.modify(A)`. -/
def Modifier.modify (m : Modifier) (A : ARef) : Exec Int ARef :=
  match m with
  | .null => pure A
  | .setIndexBase => pure (A.reindexAll 1)
  | .reindex => Exec.lift (A.reindexList [1, 2, 3, 4])
  | .reshape => do
    let A' ← Exec.lift (A.reshape true A.extents.reverse)
    Exec.lift (A'.reshape true A.extents)

/-- `c_storage_order()`, `fortran_storage_order()` and the `general_storage_order` of `run_storage_tests` (generative_tests.hpp:216-230). -/
inductive Order where
  | c
  | fortran
  | general

/-- The storage order object for `n` dimensions. -/
def Order.so (o : Order) (n : Nat) : Res StorageOrder :=
  match o with
  | .c => StorageOrder.convC n
  | .fortran => StorageOrder.convFortran n
  | .general => StorageOrder.ofIters n [2, 0, 1, 3] [false, true, true, true]

/-- A test: `access(A, mutable_array_tag())` and `access(A, const_array_tag())`, where the copying constructor differs between an owning array and
other handles. -/
structure Access where
  mutableTag : Option MArr → Desc → Test
  constTag : Option MArr → Desc → Test

/-- `run_configuration` (generative_tests.hpp:105-214). -/
def runConfiguration (t : Access) (o : Order) (m : Modifier) : List Test :=
  [ -- multi_array
    (do
      let A ← MArr.mkExtentGen 0 (← Exec.lift (extents [2, 3, 4])) (← Exec.lift (o.so 3)) 0
      let A := { A with ref := ← m.modify A.ref }
      t.mutableTag (some A) A.ref.desc),
    -- multi_array_ref
    (do
      let p ← local_ 24
      let A ← Exec.lift (do ARef.ofExtentGen p (← extents [2, 3, 4]) (← o.so 3))
      let A ← m.modify A
      t.mutableTag none A.desc),
    -- const_multi_array_ref
    (do
      let p ← local_ 24
      let A ← Exec.lift (do ARef.ofExtentGen p (← extents [2, 3, 4]) (← o.so 3))
      let A ← m.modify A
      assign A.desc
      t.constTag none A.desc),
    -- sub_array
    (do
      let A ← MArr.mkExtentGen 0 (← Exec.lift (extents [2, 2, 3, 4])) (← Exec.lift (o.so 4)) 0
      let A := { A with ref := ← m.modify A.ref }
      let B ← Exec.lift (A.ref.bracket true 1)
      t.mutableTag none B),
    -- const_sub_array
    (do
      let A ← MArr.mkExtentGen 0 (← Exec.lift (extents [2, 2, 3, 4])) (← Exec.lift (o.so 4)) 0
      let A := { A with ref := ← m.modify A.ref }
      let B ← Exec.lift (A.ref.bracket true 1)
      assign B
      t.constTag none B),
    -- array_view
    (do
      let A ← MArr.mkExtentGen 0 (← Exec.lift (extents [4, 5, 6])) (← Exec.lift (o.so 3)) 0
      let A := { A with ref := ← m.modify A.ref }
      let (i0, i1, i2) := (baseAt A.ref.desc 0, baseAt A.ref.desc 1, baseAt A.ref.desc 2)
      let B ← slice A.ref.desc [.r (i0 + 1) (i0 + 3), .r (i1 + 1) (i1 + 4), .r (i2 + 1) (i2 + 5)]
      t.mutableTag none B.desc),
    -- const_array_view
    (do
      let A ← MArr.mkExtentGen 0 (← Exec.lift (extents [4, 5, 6])) (← Exec.lift (o.so 3)) 0
      let A := { A with ref := ← m.modify A.ref }
      let (i0, i1, i2) := (baseAt A.ref.desc 0, baseAt A.ref.desc 1, baseAt A.ref.desc 2)
      let B ← slice A.ref.desc [.r (i0 + 1) (i0 + 3), .r (i1 + 1) (i1 + 4), .r (i2 + 1) (i2 + 5)]
      assign B.desc
      t.constTag none B.desc)
  ]

/-- `run_generative_tests` (generative_tests.hpp:279-288): four modifiers, three storage orders. -/
def runGenerative (t : Access) : List Test :=
  [Modifier.null, .setIndexBase, .reindex, .reshape].flatMap fun m =>
    [Order.c, .fortran, .general].flatMap fun o => runConfiguration t o m

/-- The number of tests of the suite is as the framework reports it. -/
example : (runGenerative ⟨fun _ _ => pure true, fun _ _ => pure true⟩).length = 84 := by decide +kernel

/-! ### access.cpp -/

/-- `access(A, const_array_tag)` (access.cpp:30-63). -/
def accessConst (A : Desc) : Test := do
  let ts := triples (baseAt A 0) (baseAt A 1) (baseAt A 2) 2 3 4
  let b1 ← checkAll (ts.zip (upto 0 24)) fun (t, cnum) => do
    let v ← readChain true A t
    pure (v == cnum)
  let b2 ← checkAll ts fun t => do
    let v ← readElem true A t
    let w ← readChain true A t
    pure (v == w)
  pure (b1 && b2)

/-- access.cpp. -/
def accessTest : Access where
  mutableTag := fun _ A => do assign A; accessConst A
  constTag := fun _ A => accessConst A

example : (runGenerative accessTest).all passes = true := by decide +kernel

/-! ### assign.cpp and assign_to_array.cpp -/

/-- The recursive `::equal` of the two tests (assign.cpp:32-41): iterate over the first array, advancing an iterator over the second. -/
def equalLoop (inner : Desc → Desc → Test) : (fuel : Nat) → (ia last ib : It) → Test
  | 0, ia, last, _ => pure (ia.equal last)
  | fuel + 1, ia, last, ib =>
    if ia.equal last then pure true
    else do
      let x ← Exec.lift (ia.deref true)
      let y ← Exec.lift (ib.deref true)
      if ← inner x y then equalLoop inner fuel ia.increment last ib.increment else pure false

/-- `::equal(A,B)`. -/
def equal : (n : Nat) → (A B : Desc) → Test
  | 0, A, B => do
    let x ← load A.base
    let y ← load B.base
    pure (x == y)
  | n + 1, A, B => do
    let ia ← Exec.lift A.begin
    let last ← Exec.lift A.end
    let ib ← Exec.lift B.begin
    equalLoop (equal n) 8 ia last ib

/-- assign.cpp:44-66. -/
def assignTest : Access where
  mutableTag := fun _ A => do
    assign A
    let filler ← MArr.mkExtentGenDefault 0 (← Exec.lift (extents [2, 3, 4])) 0
    filler.ref.assign ((List.range 24).map fun (i : Nat) => 99 - (i : Int))
    assignOp true false A filler.ref.desc
    equal 3 A filler.ref.desc
  constTag := fun _ _ => pure true

example : (runGenerative assignTest).all passes = true := by decide +kernel

/-- `array3 acopy(A)` (assign_to_array.cpp:52-58): the copy constructor for a `multi_array`, otherwise a converting constructor. -/
def acopy (m : Option MArr) (A : Desc) : Exec Int MArr :=
  match m with
  | some a => MArr.mkCopy 0 a
  | none => MArr.mkConvertDefault true 0 A 0

/-- assign_to_array.cpp:44-58. -/
def assignToArrayTest : Access where
  mutableTag := fun m A => do
    assign A
    let c ← acopy m A
    equal 3 c.ref.desc A
  constTag := fun m A => do
    let c ← acopy m A
    equal 3 c.ref.desc A

example : (runGenerative assignToArrayTest).all passes = true := by decide +kernel

/-! ### iterators.cpp -/

/-- `int num = n; for (i = A.begin(); i != A.end(); ++i) for (ii = …) for (iii = …) *iii = num++` (iterators.cpp:26-37). -/
def assignIt (A : Desc) : Exec Int Unit := do
  match ← Exec.lift (nestedLoop true 8 3 A) with
  | none => Exec.lift .ub
  | some ps => forAll (ps.zip (upto 0 ps.length)) fun (p, num) => assignCell p num

/-- `for (i = first; i != last; ++i) body(*i)`, collecting what the body sees. -/
def collect (deref : It → Res Desc) (body : Desc → Exec Int (List Int)) : (fuel : Nat) → (i last : It) → Exec Int (List Int)
  | 0, i, last => if i.equal last then pure [] else Exec.lift .ub
  | fuel + 1, i, last =>
    if i.equal last then pure []
    else do
      let a ← body (← Exec.lift (deref i))
      let r ← collect deref body fuel i.increment last
      pure (a ++ r)

/-- The same loop over reverse iterators. -/
def rcollect (body : Desc → Exec Int (List Int)) : (fuel : Nat) → (i last : RIt) → Exec Int (List Int)
  | 0, i, last => if i.equal last then pure [] else Exec.lift .ub
  | fuel + 1, i, last =>
    if i.equal last then pure []
    else do
      let a ← body (← Exec.lift (i.deref true))
      let r ← rcollect body fuel i.increment last
      pure (a ++ r)

/-- The three nested loops of the standard iteration; the inner iterators come from `(*i)` or, with `arrow`, from `i->` (iterators.cpp:123-153). -/
def visit (arrow : Bool) : (n : Nat) → Desc → Exec Int (List Int)
  | 0, d => do pure [← load d.base]
  | n + 1, d => do
    let first ← Exec.lift d.begin
    let last ← Exec.lift d.end
    collect (fun i => if arrow && n != 0 then i.arrow true else i.deref true) (visit arrow n) 8 first last

/-- The reverse iterator hierarchy (iterators.cpp:155-168). -/
def rvisit : (n : Nat) → Desc → Exec Int (List Int)
  | 0, d => do pure [← load d.base]
  | n + 1, d => do
    let first ← Exec.lift d.rbegin
    let last ← Exec.lift d.rend
    rcollect (rvisit n) 8 first last

/-- `test_iterators` (iterators.cpp:108-170). -/
def testIterators (A : Desc) : Test := do
  let i1 ← Exec.lift A.begin
  let i2 ← Exec.lift A.end
  let fwd ← visit false 3 A
  let arr ← visit true 3 A
  let rev ← rvisit 3 A
  pure (i1.lt i2 && i2.sub i1 == 2
    && i1.convert.lt i2.convert && i2.convert.sub i1.convert == 2
    && fwd == upto 0 24 && arr == upto 0 24 && rev == (upto 0 A.numElements).reverse)

/-- iterators.cpp. -/
def iteratorsTest : Access where
  mutableTag := fun _ A => do assignIt A; testIterators A
  constTag := fun _ A => testIterators A

example : (runGenerative iteratorsTest).all passes = true := by decide +kernel

/-! ### slice.cpp -/

/-- `test_views` (slice.cpp:54-120). -/
def testViews (A : Desc) : Test := do
  let (i0, i1, i2) := (baseAt A 0, baseAt A 1, baseAt A 2)
  let B1 ← slice A [.r (i0 + 0) (i0 + 2), .r (i1 + 1) (i1 + 3), .r (i2 + 0) (i2 + 4) 2]
  let b1 ← checkAll (triples 0 0 0 2 2 2) fun t => do
    let (i, j, k) := (t.getD 0 0, t.getD 1 0, t.getD 2 0)
    let a ← readChain true A [i0 + i, i1 + j + 1, i2 + k * 2]
    let x ← readChain true B1.desc t
    let y ← readElem true B1.desc t
    pure (x == a && y == a)
  let B2 ← slice A [.r (i0 + 0) (i0 + 2), .i (i1 + 1), .r (i2 + 0) (i2 + 4) 2]
  let b2 ← checkAll (pairs 0 0 2 2) fun t => do
    let (i, j) := (t.getD 0 0, t.getD 1 0)
    let a ← readChain true A [i0 + i, i1 + 1, i2 + j * 2]
    let x ← readChain true B2.desc t
    let y ← readElem true B2.desc t
    pure (x == a && y == a)
  let B3 ← slice A [.r (i0 + 0) (i0 + 2), .r (i1 + 0) (i1 + 2), .r (i2 + 2) (i2 + 0) (-1)]
  let b3 ← checkAll (triples 0 0 0 2 2 2) fun t => do
    let (i, j, k) := (t.getD 0 0, t.getD 1 0, t.getD 2 0)
    let a ← readChain true A [i0 + i, i1 + j, i2 + 2 - k]
    let x ← readChain true B3.desc t
    let y ← readElem true B3.desc t
    pure (x == a && y == a)
  pure (B1.numDims == 3 && B2.numDims == 2 && B3.numDims == 3 && b1 && b2 && b3)

/-- slice.cpp. -/
def sliceTest : Access where
  mutableTag := fun _ A => do assign A; testViews A
  constTag := fun _ A => testViews A

example : (runGenerative sliceTest).all passes = true := by decide +kernel

end MultiArray.Conformance
