import Verif.Spec
import Verif.Model.MultiArr

/- Vocabulary for statements about memory.  Nothing here models code. -/
set_option autoImplicit false

namespace MultiArray.Spec
open MultiArray
variable {T : Type}

/-- Every element of the array's block is a live object. -/
def Live (s : St T) (a : ARef) : Prop := ∀ k : Nat, k < a.numElements → ∃ v, s.get? (a.data.add (k : Int)) = some v

/-- The value of the element at zero-based position `k` of an array, subarray or view. -/
def elemAt (s : St T) (d : Desc) (k : List Nat) : Option T := s.get? (address d (atPos d.bases k))

/-- `p` is the address of no in-range element of `d`. -/
def Outside (d : Desc) (p : Ptr) : Prop := ∀ idx, InBox d.bases d.extents idx → p ≠ address d idx

/-- Two handles share no element. -/
def NoOverlap (d d' : Desc) : Prop :=
  ∀ i j, InBox d.bases d.extents i → InBox d'.bases d'.extents j → address d i ≠ address d' j

/-- The set of live blocks, their providers and their sizes are the same. -/
def SameStorage (s s' : St T) : Prop :=
  (∀ b, (s'.heap b).map (fun k => (k.provider, k.cells.length)) = (s.heap b).map (fun k => (k.provider, k.cells.length))) ∧ s'.next = s.next

/-- `f` gives the elements of `d` by zero-based position. -/
def Contents (s : St T) (d : Desc) (f : List Nat → T) : Prop := ∀ k, InShape d.extents k → elemAt s d k = some (f k)

/-- Apply a stateful function to a list of values from left to right; the results, and the final state. -/
def applySeq {σ : Type} (f : σ → T → T × σ) : σ → List T → List T × σ
  | q, [] => ([], q)
  | q, v :: vs =>
    let r := applySeq f (f q v).2 vs
    ((f q v).1 :: r.1, r.2)

/-- All zero-based positions of a shape, in lexicographic order. -/
def positions : List Nat → List (List Nat)
  | [] => [[]]
  | e :: es => (List.range e).flatMap (fun k => (positions es).map (k :: ·))

/-! ### Ownership -/

/-- The allocator's state is sane: blocks at or beyond the allocation counter do not exist yet, and the null block (0)
is never handed out. -/
def SaneHeap (s : St T) : Prop := 0 < s.next ∧ ∀ b, s.next ≤ b → s.heap b = none

/-- `a` is a live `n`-dimensional `multi_array`: its header is that of a reachable array over its own block; that block is
a live allocation (not null), provided by the array's own allocator, of exactly `num_elements()` live objects, with values `vs` in memory order; and
the array remembers that block and that count. -/
structure OwnsVals (s : St T) (n : Nat) (a : MArr) (vs : List T) : Prop where
  reach : Reachable n a.ref
  start : a.ref.data.off = 0
  notNull : a.ref.data.blk ≠ 0
  own : a.ownBase = a.ref.data
  count : a.allocated = a.ref.numElements
  block : s.heap a.ref.data.blk = some ⟨a.alloc, vs.map .obj⟩
  len : vs.length = a.ref.numElements

/-- `a` is a live `n`-dimensional `multi_array`. -/
def Owns (s : St T) (n : Nat) (a : MArr) : Prop := ∃ vs, OwnsVals s n a vs

/-- All blocks other than `b` are as before. -/
def SameExcept (b : Nat) (s s' : St T) : Prop := ∀ c, c ≠ b → s'.heap c = s.heap c

/-- `a` is an array, subarray or view of `n` dimensions, all of whose elements are live objects in memory `s`. -/
def Readable (s : St T) (n : Nat) (a : Desc) : Prop :=
  ∃ (m : Nat) (root : ARef), Reachable m root ∧ Handle root a ∧ Live s root ∧ a.extents.length = n

/-! ### Arguments of constructors and resize -/

/-- Legal arguments of an extent generator: half-open ranges of representable indices. -/
def LegalExtents (rs : List ExtentRange) : Prop :=
  ∀ r ∈ rs, -(2 ^ 63) ≤ r.first ∧ r.first ≤ r.second ∧ r.second ≤ 2 ^ 63 - 1

instance (rs : List ExtentRange) : Decidable (LegalExtents rs) := inferInstanceAs (Decidable (∀ r ∈ rs, _))

/-- The requested index bases. -/
def reqBases (rs : List ExtentRange) : List Int := rs.map (fun r => r.first)

/-- The requested extents. -/
def reqExtents (rs : List ExtentRange) : List Nat := rs.map (fun r => (r.second - r.first).toNat)

/-- The constructors of `multi_array` (default; extent list; extent generator; copy; conversion from an array, subarray
or view). -/
inductive Ctor where
  | default (n alloc : Nat)
  | extents (n : Nat) (es : List Nat) (so : StorageOrder) (alloc : Nat)
  | gen (n : Nat) (rs : List ExtentRange) (so : StorageOrder) (alloc : Nat)
  | copy (n : Nat) (a : MArr)
  | convert (n : Nat) (src : Desc) (so : StorageOrder) (alloc : Nat)

/-- Number of dimensions of the constructed array. -/
def Ctor.dims : Ctor → Nat
  | .default n _ | .extents n .. | .gen n .. | .copy n _ | .convert n .. => n

/-- Run a constructor. -/
def Ctor.run (dbg : Bool) (dflt : T) : Ctor → Exec T MArr
  | .default n al => MArr.mkDefault dflt n al
  | .extents n es so al => MArr.mkExtents dflt n es so al
  | .gen n rs so al => MArr.mkExtentGen dflt ⟨n, rs⟩ so al
  | .copy _ a => MArr.mkCopy dflt a
  | .convert _ src so al => MArr.mkConvert dbg dflt src so al

/-- Legal constructor arguments: a valid storage order, one extent per dimension, and a readable source. -/
def Ctor.Legal (s : St T) : Ctor → Prop
  | .default _ _ => True
  | .extents n es so _ => ValidOrder n so ∧ es.length = n
  | .gen n rs so _ => ValidOrder n so ∧ rs.length = n
  | .copy n a => Owns s n a
  | .convert n src so _ => 0 < n ∧ ValidOrder n so ∧ Readable s n src

/-! ### Values of multi-dimensional arrays -/

/-- The value of an `n`-dimensional array: a list of `n-1`-dimensional values; for `n = 0` an element. -/
def Val (T : Type) : Nat → Type
  | 0 => T
  | n + 1 => List (Val T n)

/-- The value of an array of the given shape whose element at position `k` is `f k`. -/
def nested : (n : Nat) → (extents : List Nat) → (f : List Nat → T) → Val T n
  | 0, _, f => f []
  | n + 1, e :: es, f => (List.range e).map (fun x => nested n es (fun k => f (x :: k)))
  | _ + 1, [], _ => []

/-- Lexicographic comparison of two lists by a "less" relation: at the first position where the entries are not equivalent
(neither is less) the left one is less; or all entries of the left list are equivalent to those of the right one and
the left list is shorter. -/
def LexLess {α : Type} (R : α → α → Prop) (xs ys : List α) : Prop :=
  ∃ p : Nat, (∀ i x y, i < p → xs[i]? = some x → ys[i]? = some y → ¬ R x y ∧ ¬ R y x) ∧ p ≤ xs.length ∧ p ≤ ys.length ∧
    ((xs.length = p ∧ p < ys.length) ∨ ∃ x y, xs[p]? = some x ∧ ys[p]? = some y ∧ R x y)

/-- Recursive lexicographic comparison of array values. -/
def ValLess (lt : T → T → Bool) : (n : Nat) → Val T n → Val T n → Prop
  | 0, x, y => lt x y = true
  | n + 1, xs, ys => LexLess (ValLess lt n) xs ys

/-- `lt` is a strict weak order (C++ named requirement *Compare*). -/
structure StrictWeak {α : Type} (lt : α → α → Bool) : Prop where
  irrefl : ∀ x, lt x x = false
  trans : ∀ x y z, lt x y = true → lt y z = true → lt x z = true
  equivTrans : ∀ x y z, lt x y = false → lt y x = false → lt y z = false → lt z y = false → lt x z = false ∧ lt z x = false

end MultiArray.Spec
