import Verif.Model.MultiArr
import Verif.Model.Compare
import Verif.Model.Clients

/- Conformance tests: the library's own test programs (/repo/test) and examples (/repo/example), transcribed as executions of the model and
evaluated by the kernel.  They are *tests of the model* - evidence that it behaves as the library's authors say the library behaves - and not
proofs of any property; no entry of MANIFEST.json rests on them.  This file holds what the transcriptions share. -/
set_option autoImplicit false

namespace MultiArray.Conformance
open MultiArray

/-- A program of the test suite, with `int` elements; the result says whether every `BOOST_TEST` held. -/
abbrev Test := Exec Int Bool

/-- The memory at the start of `main`: nothing allocated, no allocation fails. -/
def start : St Int := ⟨fun _ => none, 1, []⟩

/-- The test runs to completion without a failing assertion or undefined behaviour and all its checks hold. -/
def passes (x : Test) : Bool :=
  match x start with
  | .ok b _ => b
  | _ => false

/-- The test stops at a failing `BOOST_ASSERT`. -/
def asserts (x : Test) : Bool :=
  match x start with
  | .assertFail _ => true
  | _ => false

/-- `BOOST_TEST(c); rest`: the checks are collected, as in the library's test framework, where a failure does not stop the test. -/
def check (c : Bool) (rest : Test) : Test := do
  let b ← rest
  pure (c && b)

/-- A whole loop of checks. -/
def checkAll {α : Type} (l : List α) (f : α → Test) : Test :=
  match l with
  | [] => pure true
  | a :: as => do
    let b ← f a
    let r ← checkAll as f
    pure (b && r)

/-- A loop of statements. -/
def forAll {α : Type} (l : List α) (f : α → Exec Int Unit) : Exec Int Unit :=
  match l with
  | [] => pure ()
  | a :: as => do f a; forAll as f

/-- `for (i = b; i != b + n; ++i)`. -/
def upto (b : Int) (n : Nat) : List Int := (List.range n).map fun (i : Nat) => b + (i : Int)

/-- Three nested loops over indices. -/
def triples (b0 b1 b2 : Int) (n0 n1 n2 : Nat) : List (List Int) :=
  (upto b0 n0).flatMap fun i => (upto b1 n1).flatMap fun j => (upto b2 n2).map fun k => [i, j, k]

/-- Two nested loops over indices. -/
def pairs (b0 b1 : Int) (n0 n1 : Nat) : List (List Int) :=
  (upto b0 n0).flatMap fun i => (upto b1 n1).map fun j => [i, j]

/-- `index_bases()[k]`. -/
def baseAt (d : Desc) (k : Nat) : Int := d.bases.getD k 0

/-- `int local[n]` (with every element 0): a block of automatic storage. -/
def local_ (n : Nat) : Exec Int Ptr := do
  let p ← allocate 0 n
  constructFrom 0 p n 0
  pure p

/-- `extents[e₁]…[eₙ]`. -/
def extents (es : List Int) : Res ExtentGen :=
  es.foldl (fun g e => do (← g).pushIdx e) (.ok ExtentGen.empty)

/-- `extents[range(b₁,e₁)]…[range(bₙ,eₙ)]`. -/
def extentRanges (es : List (Int × Int)) : Res ExtentGen :=
  es.foldl (fun g e => do (← g).push (ExtentRange.mk2 e.1 e.2)) (.ok ExtentGen.empty)

/-- One argument of `indices[…]`: a range or an index. -/
inductive Arg where
  /-- `range(start,finish,stride)` -/
  | r (start finish : Int) (stride : Int := 1)
  /-- a range object -/
  | rr (x : IndexRange)
  /-- an index -/
  | i (idx : Int)

/-- `indices[a₁]…[aₙ]`. -/
def indices (as : List Arg) : Res IndexGen :=
  as.foldl (fun g a => do
    match a with
    | .r s f t => (← g).pushRange (IndexRange.mk3 s f t)
    | .rr x => (← g).pushRange x
    | .i n => (← g).pushIdx n) (.ok IndexGen.empty)

/-- `a[indices[…]]` on a subarray, array reference or view. -/
def slice (d : Desc) (as : List Arg) : Exec Int View :=
  Exec.lift (do d.slice true (← indices as))

/-- The state, for the functions that read memory without changing it. -/
def state : Exec Int (St Int) := fun s => .ok s s

/-- `a == b` on handles of `n` dimensions. -/
def eqv (n : Nat) (a b : Desc) : Test := do
  let s ← state
  Exec.lift (equalRef true (fun (x y : Int) => x == y) s n a b)

/-- Member function call on a `multi_array` variable: the variable afterwards. -/
def call (m : Member Int Unit) (a : MArr) : Exec Int MArr := fun s =>
  match m a s with
  | (.ok _ s', a') => .ok a' s'
  | (.throw s', _) => .throw s'
  | (.assertFail s', _) => .assertFail s'
  | (.ub, _) => .ub

end MultiArray.Conformance
