import Verif.SpecProg
import Verif.Model.Iterator

/-
The documented MultiArray concept (doc/reference.html, "MultiArray Concept": Table 3 "Valid Expressions" and Table 4 "Invariants"), written down as a
condition on the calls of the model of the library.  The concept is recursive in two directions: the values of a MultiArray with more than one dimension and
all views of a MultiArray are again MultiArrays.
-/
set_option autoImplicit false

namespace MultiArray.Spec
open MultiArray

/-- The offset documented for `a(index_list)`: the sum of the products of indices and strides. -/
def documentedOffset (idx strides : List Int) : Int := (List.zipWith (· * ·) idx strides).foldl (· + ·) 0

/-- `a[a1][a2]...[aN]`. -/
def bracketAll (dbg : Bool) : List Int → Desc → Res Desc
  | [], d => .ok d
  | i :: is, d => do bracketAll dbg is (← d.bracket dbg i)

/-- One MultiArray object `a` (described by `d`): every documented expression, where `M` says which objects are MultiArrays. -/
structure ConceptTable (dbg : Bool) (M : Desc → Prop) (d : Desc) : Prop where
  /-- `shape()`, `strides()` and `index_bases()` are lists of `num_dimensions()` elements. -/
  lists : d.extents.length = d.numDims ∧ d.strides.length = d.numDims ∧ d.bases.length = d.numDims
  /-- `num_elements()` is `std::accumulate(shape(), shape() + num_dimensions(), size_type(1), std::multiplies<size_type>())`. -/
  num_elements : d.numElements = d.extents.foldl (· * ·) 1
  /-- `size()` is `shape()[0]`. -/
  size : ∀ e, d.extents.head? = some e → d.size = .ok e
  /-- Valid range: from `begin()`, `size()` increments and no smaller or larger number lead to `end()`. Range size: `end() - begin()` is `size()`. -/
  range : ∀ e, d.extents.head? = some e → ∃ first last, d.begin = .ok first ∧ d.end = .ok last ∧ last.sub first = (e : Int) ∧
    ∀ k : Nat, ((It.increment^[k]) first).equal last = true ↔ k = e
  /-- `a[idx]` is the (idx-i)th value, counted from zero, if `i` is the index base: the same as `*(begin() + idx - index_bases()[0])`.  With more than one
  dimension it is a MultiArray with one dimension less (with one dimension it is an element). -/
  subscript : ∀ e b i, d.extents.head? = some e → d.bases.head? = some b → b ≤ i → i < b + (e : Int) →
    ∃ d' first, d.bracket dbg i = .ok d' ∧ d.begin = .ok first ∧ (first.advance (i - b)).deref dbg = .ok d' ∧ M d' ∧
      d'.extents = d.extents.tail ∧ d'.strides = d.strides.tail ∧ d'.bases = d.bases.tail
  /-- Completeness: the loop over `[begin(), end())` produces `a[i]`, `a[i+1]`, ..., in this order, and the loop over `[rbegin(), rend())` the reverse. -/
  complete : ∀ e b fuel, d.extents.head? = some e → d.bases.head? = some b → e ≤ fuel →
    ∃ first last rfirst rlast vs, d.begin = .ok first ∧ d.end = .ok last ∧ d.rbegin = .ok rfirst ∧ d.rend = .ok rlast ∧
      iterLoop dbg fuel first last = .ok (some vs) ∧ riterLoop dbg fuel rfirst rlast = .ok (some vs.reverse) ∧
      vs.map Res.ok = (List.range e).map (fun (k : Nat) => d.bracket dbg (b + (k : Int)))
  /-- `a(index_list)` is at `origin()` plus the sum of the products of indices and strides.  Accessor equivalence: `a[a1][a2]...[aN]` is the same element. -/
  access : ∀ idx, InBox d.bases d.extents idx → d.paren dbg idx = .ok (d.base.add (documentedOffset idx d.strides)) ∧
    bracketAll dbg idx d = .ok ⟨d.base.add (documentedOffset idx d.strides), [], [], []⟩
  /-- The index list is unique. -/
  unique : ∀ idx idx' p, InBox d.bases d.extents idx → InBox d.bases d.extents idx' → d.paren dbg idx = .ok p → d.paren dbg idx' = .ok p → idx = idx'
  /-- With assertions, indices that do not exist are rejected. -/
  checked : dbg = true → ∀ idx, idx.length = d.numDims → ¬ InBox d.bases d.extents idx → d.paren dbg idx = .assertFail
  /-- `a[indices[a0]...[aN]]` is a MultiArray with one dimension for every range; also after its `reindex`.  Its element at `j` is the selected element of `a`. -/
  view : ∀ xs, LegalArgs ⟨d.bases, d.extents, id⟩ xs → ∃ g v, chainIndices IndexGen.empty xs = .ok g ∧ d.slice dbg g = .ok v ∧
    v.numDims = (xs.filter IndexArg.isRange).length ∧ v.bases = List.replicate v.numDims 0 ∧ v.extents = viewCounts (xs.map IndexArg.toRange) d.bases d.extents ∧
    ∀ v', ViewHistory v v' → M v'.desc ∧ v'.extents = v.extents ∧
      ∀ j, InBox v'.bases v'.extents j → ∃ p, v'.paren dbg j = .ok p ∧
        d.paren dbg (selected (xs.map IndexArg.toRange) d.bases (List.zipWith (· - ·) j v'.bases)) = .ok p

/-- The object models MultiArray: it belongs to a class of objects whose documented expressions behave as documented and stay inside the class. -/
def ModelsMultiArray (dbg : Bool) (d : Desc) : Prop := ∃ M : Desc → Prop, M d ∧ ∀ d', M d' → ConceptTable dbg M d'

end MultiArray.Spec
