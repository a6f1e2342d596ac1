import Verif.SpecProg

/-
Exchanging arrays, rows and views, as client programs over the commands of SpecProg.lean, and what they should do.  Nothing here
models library code.
-/
set_option autoImplicit false

namespace MultiArray.Spec
open MultiArray
variable {T : Type}

/-- `value_type tmp = x ss; x ss = y ss'; y ss' = tmp;` where `tmp` (variable `t`) goes out of scope at the end: what `std::iter_swap` does
for iterators whose `reference` is a proxy, as the iterators of arrays of more than one dimension are. -/
def exchange (x : Nat) (ss : List Sel) (y : Nat) (ss' : List Sel) (t : Nat) (so : StorageOrder) (alloc : Nat) : List (Cmd T) :=
  [.construct t (.convert x ss so alloc), .assignPart x ss y ss', .assignPart y ss' t [], .destroy t]

/-- `std::swap(x, y)` of two whole arrays: `multi_array` declares a copy constructor and copy assignment and so has no moves. -/
def swapArrays (x y t : Nat) : List (Cmd T) := [.construct t (.copy x), .assign x y, .assign y t, .destroy t]

/-- Two parts of one array have no element in common. -/
def APart.Disjoint (p q : APart) : Prop :=
  ∀ i j, InBox p.bases p.extents i → InBox q.bases q.extents j → p.root i ≠ q.root j

/-- Index bases, extents and storage order of a variable, if it exists. -/
def AState.header (A : AState T) (x : Nat) : Option (List Int × List Nat × StorageOrder) :=
  (A x).map (fun a => (a.bases, a.extents, a.order))

/-- Indices of variable `x` that are in range. -/
def AState.InRange (A : AState T) (x : Nat) (idx : List Int) : Prop := ∃ a, A x = some a ∧ InBox a.bases a.extents idx

/-- From `A` to `A'`, the elements of part `p` of `x` and of part `q` of `y` changed places, position by position, and nothing else
changed. -/
structure Exchanged (A A' : AState T) (x : Nat) (p : APart) (y : Nat) (q : APart) : Prop where
  headers : ∀ z, A'.header z = A.header z
  left : ∀ k, InShape p.extents k → A'.get x (p.root (atPos p.bases k)) = A.get y (q.root (atPos q.bases k))
  right : ∀ k, InShape p.extents k → A'.get y (q.root (atPos q.bases k)) = A.get x (p.root (atPos p.bases k))
  others : ∀ z idx, A.InRange z idx → (z = x → ∀ i, InBox p.bases p.extents i → p.root i ≠ idx) →
    (z = y → ∀ j, InBox q.bases q.extents j → q.root j ≠ idx) → A'.get z idx = A.get z idx

/-- The index that changes places with `r` when `i` and `j` are exchanged. -/
def swapped (i j r : Int) : Int := if r = i then j else if r = j then i else r

/-- Where row `r` comes from after exchanging the given pairs of rows, first pair first. -/
def rowSource : List (Int × Int) → Int → Int
  | [], r => r
  | (i, j) :: l, r => swapped i j (rowSource l r)

/-- The program that exchanges the given pairs of rows of `x`. -/
def exchangeRows (x t : Nat) (so : StorageOrder) (alloc : Nat) (l : List (Int × Int)) : List (Cmd T) :=
  l.flatMap (fun ij => exchange x [.at ij.1] x [.at ij.2] t so alloc)

/-- The pairs `std::reverse` exchanges: first and last, second and last but one, ... -/
def reversePairs (b : Int) (e : Nat) : List (Int × Int) :=
  (List.range (e / 2)).map (fun (k : Nat) => (b + (k : Int), b + (e : Int) - 1 - (k : Int)))

end MultiArray.Spec
