import Verif.Model.Classes
import Mathlib.Algebra.BigOperators.Group.List.Basic

/-
Vocabulary for stating the properties, independent of how the library computes things.
Nothing here models code.
-/
set_option autoImplicit false

namespace MultiArray.Spec
open MultiArray

/-- `idx` is a legal index tuple for the given index bases and extents:
`base ≤ index < base + extent` in every dimension, and the right number of indices. -/
def InBox : (bases : List Int) → (extents : List Nat) → (idx : List Int) → Prop
  | [], [], [] => True
  | b :: bs, e :: es, i :: is => b ≤ i ∧ i < b + (e : Int) ∧ InBox bs es is
  | _, _, _ => False

instance decInBox : (bs : List Int) → (es : List Nat) → (is : List Int) → Decidable (InBox bs es is)
  | [], [], [] => .isTrue trivial
  | b :: bs, e :: es, i :: is =>
    have := decInBox bs es is
    inferInstanceAs (Decidable (b ≤ i ∧ i < b + (e : Int) ∧ InBox bs es is))
  | [], [], _ :: _ => .isFalse id
  | [], _ :: _, _ => .isFalse id
  | _ :: _, [], _ => .isFalse id
  | _ :: _, _ :: _, [] => .isFalse id

/-- Zero-based tuples: `k_d < extent_d` in every dimension. -/
def InShape : (extents : List Nat) → (k : List Nat) → Prop
  | [], [] => True
  | e :: es, k :: ks => k < e ∧ InShape es ks
  | _, _ => False

instance decInShape : (es ks : List Nat) → Decidable (InShape es ks)
  | [], [] => .isTrue trivial
  | e :: es, k :: ks =>
    have := decInShape es ks
    inferInstanceAs (Decidable (k < e ∧ InShape es ks))
  | [], _ :: _ => .isFalse id
  | _ :: _, [] => .isFalse id

/-- The index tuple at zero-based position `k`: `base_d + k_d` in every dimension. -/
def atPos (bases : List Int) (k : List Nat) : List Int := List.zipWith (fun b (k : Nat) => b + (k : Int)) bases k

/-- A storage order for `n` dimensions is valid when `ordering` is a permutation of `0..n-1` and
`ascending` has `n` entries.  (The documented requirement on `general_storage_order`.) -/
def ValidOrder (n : Nat) (so : StorageOrder) : Prop :=
  so.ordering.Perm (List.range n) ∧ so.ascending.length = n

instance (n : Nat) (so : StorageOrder) : Decidable (ValidOrder n so) :=
  inferInstanceAs (Decidable (_ ∧ _))

/-- `Σ index_d * stride_d`. -/
def dot : (idx strides : List Int) → Int
  | i :: is, s :: ss => i * s + dot is ss
  | _, _ => 0

/-- The documented memory model of every MultiArray (reference manual, "memory model for elements is
completely defined by 4 properties"): the element at `idx` is at `origin + Σ index*stride`. -/
def address (d : Desc) (idx : List Int) : Ptr := d.base.add (dot idx d.strides)

/-- Row-major position of a zero-based tuple: `((k1*e2 + k2)*e3 + k3)...`. -/
def rowMajor : (extents : List Nat) → (k : List Nat) → Nat
  | _ :: es, k :: ks => k * es.prod + rowMajor es ks
  | _, _ => 0

/-- Column-major position of a zero-based tuple: `k1 + e1*(k2 + e2*(k3 + ...))`. -/
def colMajor : (extents : List Nat) → (k : List Nat) → Nat
  | e :: es, k :: ks => k + e * colMajor es ks
  | _, _ => 0

/-- The rank of a zero-based tuple in the storage order `so`: the position of the tuple in an array whose dimensions are
taken in the order `so.ordering`, fastest first, counting a descending dimension from its far end. -/
def storageRank (so : StorageOrder) (extents k : List Nat) : Nat :=
  colMajor (so.ordering.map (fun d => extents.getD d 0))
    (so.ordering.map (fun d => if so.ascending.getD d true then k.getD d 0 else extents.getD d 0 - 1 - k.getD d 0))

/-- All in-range index tuples, in lexicographic order. -/
def allIdx : (bases : List Int) → (extents : List Nat) → List (List Int)
  | [], [] => [[]]
  | b :: bs, e :: es => (List.range e).flatMap (fun (k : Nat) => (allIdx bs es).map (fun is => (b + (k : Int)) :: is))
  | _, _ => []

/-- The arrays of `n` dimensions a program can obtain: any constructor, with a valid storage order, over
any block, followed by any history of `reindex` and `reshape` calls.  (A `reshape` list has one entry per
dimension and the documented precondition holds; with assertions enabled the library checks the latter.) -/
inductive Reachable (n : Nat) : ARef → Prop
  | ofExtents {p : Ptr} {exts : List Nat} {so : StorageOrder} {a : ARef} :
      ValidOrder n so → ARef.ofExtents n p exts so = .ok a → Reachable n a
  | ofExtentGen {p : Ptr} {g : ExtentGen} {so : StorageOrder} {a : ARef} :
      ValidOrder n so → g.numRanges = n → g.ranges.length = n → ARef.ofExtentGen p g so = .ok a → Reachable n a
  | ofShape {p : Ptr} {so : StorageOrder} {bs : Option (List Int)} {es : Option (List Nat)} {a : ARef} :
      ValidOrder n so → ARef.ofShape n p so bs es = .ok a → Reachable n a
  | reindexList {a a' : ARef} {bs : List Int} : Reachable n a → a.reindexList bs = .ok a' → Reachable n a'
  | reindexAll {a : ARef} {b : Int} : Reachable n a → Reachable n (a.reindexAll b)
  | reshape {a a' : ARef} {dbg : Bool} {exts : List Nat} : Reachable n a → exts.length = n →
      exts.prod = a.numElements → a.reshape dbg exts = .ok a' → Reachable n a'

/-- `a'` is the array `a` after some sequence of legal `reshape` calls (as many extents as dimensions, same number of elements) and
`reindex` calls, in any order. -/
inductive HeaderHistory (n : Nat) (a : ARef) : ARef → Prop
  | refl : HeaderHistory n a a
  | reindexList {a' a'' : ARef} {bs : List Int} : HeaderHistory n a a' → a'.reindexList bs = .ok a'' → HeaderHistory n a a''
  | reindexAll {a' : ARef} {b : Int} : HeaderHistory n a a' → HeaderHistory n a (a'.reindexAll b)
  | reshape {a' a'' : ARef} {dbg : Bool} {exts : List Nat} : HeaderHistory n a a' → exts.length = n → exts.prod = a'.numElements →
      a'.reshape dbg exts = .ok a'' → HeaderHistory n a a''

/-! ### Views -/

/-- Shape, strides and bases of a handle (array, subarray, view) have one entry per dimension. -/
def WellShaped (d : Desc) : Prop := d.strides.length = d.extents.length ∧ d.bases.length = d.extents.length

/-- Where a range starts in a dimension with index base `b`: at `b` if the start was omitted (the
library marks that with the smallest `ptrdiff_t`). -/
def rangeStart (r : IndexRange) (b : Int) : Int := if r.start_ = -(2 ^ 63) then b else r.start_

/-- Where a range ends in a dimension `[b, b+e)`: at `b+e` if the finish was omitted (marked with the largest
`ptrdiff_t`). -/
def rangeFinish (r : IndexRange) (b : Int) (e : Nat) : Int := if r.finish_ = 2 ^ 63 - 1 then b + (e : Int) else r.finish_

/-- `x` has not yet reached `f` when moving with stride `t`. -/
def Before (t x f : Int) : Prop := if 0 < t then x < f else f < x

/-- The documented legal ranges for a dimension `[b, b+e)`. -/
def LegalRange (b : Int) (e : Nat) (r : IndexRange) : Prop :=
  r.stride_ ≠ 0 ∧
  (b ≤ rangeStart r b ∧ rangeStart r b ≤ b + (e : Int)) ∧
  (if r.stride_ < 0 then b - 1 ≤ rangeFinish r b e ∧ rangeFinish r b e ≤ b + (e : Int) - 1
   else b ≤ rangeFinish r b e ∧ rangeFinish r b e ≤ b + (e : Int))

instance (b : Int) (e : Nat) (r : IndexRange) : Decidable (LegalRange b e r) :=
  inferInstanceAs (Decidable (_ ∧ _ ∧ _))

/-- One legal range per dimension. -/
def LegalRanges : (bases : List Int) → (extents : List Nat) → (ranges : List IndexRange) → Prop
  | [], [], [] => True
  | b :: bs, e :: es, r :: rs => LegalRange b e r ∧ LegalRanges bs es rs
  | _, _, _ => False

instance decLegalRanges : (bs : List Int) → (es : List Nat) → (rs : List IndexRange) → Decidable (LegalRanges bs es rs)
  | [], [], [] => .isTrue trivial
  | b :: bs, e :: es, r :: rs =>
    have := decLegalRanges bs es rs
    inferInstanceAs (Decidable (LegalRange b e r ∧ LegalRanges bs es rs))
  | [], [], _ :: _ => .isFalse id
  | [], _ :: _, _ => .isFalse id
  | _ :: _, [], _ => .isFalse id
  | _ :: _, _ :: _, [] => .isFalse id

/-- The index tuple of the viewed array selected by view position `j` (zero-based): in each ranged
dimension `start + j*stride`, in each degenerate one the given index. -/
def selected : (ranges : List IndexRange) → (bases : List Int) → (j : List Int) → List Int
  | r :: rs, b :: bs, j =>
    if r.degenerate_ then rangeStart r b :: selected rs bs j
    else match j with
      | x :: xs => (rangeStart r b + x * r.stride_) :: selected rs bs xs
      | [] => []
  | _, _, _ => []

/-- No range starts one past the end of its dimension while moving backwards.  The library's assertions
do not exclude that case although such a range selects a non-existent element (see C18). -/
def NoOverrun (bases : List Int) (extents : List Nat) (ranges : List IndexRange) : Prop :=
  match bases, extents, ranges with
  | b :: bs, e :: es, r :: rs => (r.stride_ < 0 → rangeStart r b ≠ b + (e : Int)) ∧ NoOverrun bs es rs
  | _, _, _ => True

instance decNoOverrun : (bs : List Int) → (es : List Nat) → (rs : List IndexRange) → Decidable (NoOverrun bs es rs)
  | b :: bs, e :: es, r :: rs =>
    have := decNoOverrun bs es rs
    inferInstanceAs (Decidable ((r.stride_ < 0 → rangeStart r b ≠ b + (e : Int)) ∧ NoOverrun bs es rs))
  | [], _, _ => .isTrue trivial
  | _ :: _, [], _ => .isTrue trivial
  | _ :: _, _ :: _, [] => .isTrue trivial

/-- An entry of `indices[x1][x2]...`: an `index_range` or an integer. -/
inductive IndexArg where
  | range (r : IndexRange)
  | index (i : Int)
deriving DecidableEq, Repr

/-- The range an entry stands for: an integer is the degenerate range `index_range(i)`. -/
def IndexArg.toRange : IndexArg → IndexRange
  | .range r => r
  | .index i => ⟨i, i + 1, 1, true⟩

/-- Is the entry a range (as opposed to an integer)? -/
def IndexArg.isRange : IndexArg → Bool
  | .range _ => true
  | .index _ => false

/-- The C++ expression `g[x1][x2]...[xN]` on an index generator. -/
def chainIndices (g : IndexGen) : List IndexArg → Res IndexGen
  | [] => .ok g
  | .range r :: xs => do chainIndices (← g.pushRange r) xs
  | .index i :: xs => do chainIndices (← g.pushIdx i) xs

/-- An entry of `extents[x1][x2]...`: an `extent_range` or a plain extent. -/
inductive ExtentArg where
  | range (r : ExtentRange)
  | count (n : Int)
deriving DecidableEq, Repr

/-- The range an entry stands for: a plain extent `n` is `[0,n)`. -/
def ExtentArg.toRange : ExtentArg → ExtentRange
  | .range r => r
  | .count n => ⟨0, n⟩

/-- The C++ expression `g[x1][x2]...[xN]` on an extent generator. -/
def chainExtents (g : ExtentGen) : List ExtentArg → Res ExtentGen
  | [] => .ok g
  | .range r :: xs => do chainExtents (← g.push r) xs
  | .count n :: xs => do chainExtents (← g.pushIdx n) xs

/-- The range lists a program can write: `indices[x1][x2]...` where each `xi` is an `index_range` or an
integer index.  (The two extreme integers `-2^63`, `2^63-2` are excluded: `index_range(i)` then collides with
the markers for an omitted start or finish.) -/
inductive Built : IndexGen → Prop
  | empty : Built IndexGen.empty
  | range {g g' : IndexGen} {r : IndexRange} : Built g → g.pushRange r = .ok g' → Built g'
  | index {g g' : IndexGen} {i : Int} : Built g → -(2 ^ 63) < i → i < 2 ^ 63 - 2 → g.pushIdx i = .ok g' → Built g'

/-- `exts` are the right extents of a view: one per ranged dimension, each counting exactly the `k ≥ 0` for which
`start + k*stride` is still before `finish` in the direction of the stride. -/
def ExtentsCount : (ranges : List IndexRange) → (bases : List Int) → (extents : List Nat) → (exts : List Nat) → Prop
  | r :: rs, b :: bs, e :: es, xs =>
    if r.degenerate_ then ExtentsCount rs bs es xs
    else match xs with
      | x :: xs => (∀ k : Nat, k < x ↔ Before r.stride_ (rangeStart r b + (k : Int) * r.stride_) (rangeFinish r b e)) ∧
          ExtentsCount rs bs es xs
      | [] => False
  | [], [], [], [] => True
  | _, _, _, _ => False

/-- The same range with an omitted start or finish written out for a dimension `[b, b+e)`. -/
def explicitRange (r : IndexRange) (b : Int) (e : Nat) : IndexRange :=
  ⟨rangeStart r b, rangeFinish r b e, r.stride_, r.degenerate_⟩

/-- All ranges of a list with their bounds written out. -/
def explicitRanges : (ranges : List IndexRange) → (bases : List Int) → (extents : List Nat) → List IndexRange
  | r :: rs, b :: bs, e :: es => explicitRange r b e :: explicitRanges rs bs es
  | rs, _, _ => rs

/-- Reverse the flagged dimensions, take the others whole. -/
def reverseRanges : (flags : List Bool) → (bases : List Int) → (extents : List Nat) → List IndexRange
  | f :: fs, b :: bs, e :: es =>
    (if f then IndexRange.mk3 (b + (e : Int) - 1) (b - 1) (-1) else IndexRange.default) :: reverseRanges fs bs es
  | _, _, _ => []

/-- Mirror the flagged dimensions of a zero-based position. -/
def mirror : (flags : List Bool) → (extents : List Nat) → (k : List Nat) → List Nat
  | f :: fs, e :: es, k :: ks => (if f then e - 1 - k else k) :: mirror fs es ks
  | _, _, _ => []

/-- Bases and ends of all dimensions are representable 64-bit indices (so the markers for omitted range
ends cannot be confused with real positions). -/
def Representable : (bases : List Int) → (extents : List Nat) → Prop
  | b :: bs, e :: es => -(2 ^ 63) ≤ b ∧ b + (e : Int) ≤ 2 ^ 63 - 1 ∧ Representable bs es
  | _, _ => True

instance decRepresentable : (bs : List Int) → (es : List Nat) → Decidable (Representable bs es)
  | b :: bs, e :: es =>
    have := decRepresentable bs es
    inferInstanceAs (Decidable (_ ∧ _ ∧ Representable bs es))
  | [], _ => .isTrue trivial
  | _ :: _, [] => .isTrue trivial

/-- Sign of a stride. -/
def sgn (t : Int) : Int := if 0 < t then 1 else -1

/-- The single range of the original dimension `[b, ...)` that selects what `r1` followed by `r2` selects, when the
result has `count` elements: start `s1 + s2*t1`, stride `t1*t2`, finish just after the last selected index; an
integer `r2` becomes the integer `s1 + s2*t1`; an empty selection is written as the empty interval at `b`. -/
def composeRange (r1 : IndexRange) (b : Int) (r2 : IndexRange) (count : Nat) : IndexRange :=
  let s := rangeStart r1 b + rangeStart r2 0 * r1.stride_
  let t := r1.stride_ * r2.stride_
  match count with
  | 0 => IndexRange.mk3 b b t
  | m + 1 => IndexRange.mk3 s (s + (m : Int) * t + sgn t) t

/-- Composition of two range lists: `rs1` applied to the original, `rs2` to the view, `es2` the extents of the result. -/
def composeRanges : (rs1 : List IndexRange) → (bases : List Int) → (rs2 : List IndexRange) → (es2 : List Nat) → List IndexRange
  | r1 :: rs1, b :: bs, rs2, es2 =>
    if r1.degenerate_ then r1 :: composeRanges rs1 bs rs2 es2
    else match rs2 with
      | r2 :: rs2 =>
        if r2.degenerate_ then
          IndexRange.single (rangeStart r1 b + rangeStart r2 0 * r1.stride_) :: composeRanges rs1 bs rs2 es2
        else match es2 with
          | e2 :: es2 => composeRange r1 b r2 e2 :: composeRanges rs1 bs rs2 es2
          | [] => []
      | [] => []
  | _, _, _, _ => []

/-- The same range written for a dimension whose indices start at `b'` instead of `b`: explicit start and finish, moved by
`b' - b`. -/
def shiftRange (b : Int) (e : Nat) (b' : Int) (r : IndexRange) : IndexRange :=
  ⟨rangeStart r b - b + b', rangeFinish r b e - b + b', r.stride_, r.degenerate_⟩

/-- One range per dimension. -/
def shiftRanges : (bases : List Int) → (extents : List Nat) → (bases' : List Int) → (ranges : List IndexRange) → List IndexRange
  | b :: bs, e :: es, b' :: bs', r :: rs => shiftRange b e b' r :: shiftRanges bs es bs' rs
  | _, _, _, _ => []

/-- A view object after any history of its own `reindex` calls. -/
inductive ViewHistory : View → View → Prop
  | refl {v : View} : ViewHistory v v
  | reindexList {v v' v'' : View} {bs : List Int} : ViewHistory v v' → v'.reindexList bs = .ok v'' → ViewHistory v v''
  | reindexAll {v v' : View} {b : Int} : ViewHistory v v' → ViewHistory v (v'.reindexAll b)

/-- Every in-range index of the view `v` (as created, with bases 0) selects an in-range index of the viewed handle `d`.  For a view that passes
the library's assertions this fails only if a range starts one past the end of its dimension while moving backwards (C18). -/
def StaysInside (d : Desc) (g : IndexGen) (v : View) : Prop :=
  ∀ j, InBox v.bases v.extents j → InBox d.bases d.extents (selected g.ranges d.bases j)

/-- Everything that can be derived from the array `root` without failing an assertion: the array itself,
in-range subarrays (down to element references), views, views of views, subarrays of views ... to any
depth, with any reindexing of the views on the way; except views that reach outside what they view (see C18). -/
inductive Handle (root : ARef) : Desc → Prop
  | array : Handle root root.desc
  | sub {d d' : Desc} {i : Int} : Handle root d → access true i d = .ok d' → Handle root d'
  | view {d : Desc} {g : IndexGen} {v v' : View} : Handle root d → StaysInside d g v →
      Built g → g.ranges.length = d.extents.length →
      generateArrayView true g d = .ok v → ViewHistory v v' → Handle root v'.desc

end MultiArray.Spec
