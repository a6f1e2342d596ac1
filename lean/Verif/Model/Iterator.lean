import Verif.Model.Classes

/- Model of `include/boost/multi_array/iterator.hpp` and of `begin/end/rbegin/rend`. -/
set_option autoImplicit false

namespace MultiArray

/-- `array_iterator` (iterator.hpp:83-87): `idx_`, and `base_`, `extents_`, `strides_`, `index_base_`
collected in a `Desc`. -/
structure It where
  idx : Int
  d : Desc
deriving DecidableEq, Repr

namespace It

/-- `dereference()` (iterator.hpp:120-129). -/
def deref (dbg : Bool) (it : It) : Res Desc := access dbg it.idx it.d
/-- `increment()` (iterator.hpp:131). -/
def increment (it : It) : It := { it with idx := it.idx + 1 }
/-- `decrement()` (iterator.hpp:132). -/
def decrement (it : It) : It := { it with idx := it.idx - 1 }
/-- `advance(n)` (iterator.hpp:147-150). -/
def advance (it : It) (n : Int) : It := { it with idx := it.idx + n }
/-- `distance_to(rhs)` (iterator.hpp:152-156). -/
def distanceTo (it rhs : It) : Int := rhs.idx - it.idx
/-- `equal(rhs)` (iterator.hpp:134-145): the arrays are compared by address or, failing that, entry by
entry; equal addresses imply equal entries, so this is entry-wise comparison. -/
def equal (it rhs : It) : Bool :=
  decide (it.idx = rhs.idx) && decide (it.d.base = rhs.d.base) && decide (it.d.extents = rhs.d.extents) &&
    decide (it.d.strides = rhs.d.strides) && decide (it.d.bases = rhs.d.bases)
/-- `operator<` supplied by `boost::iterator_facade`: `0 > -(l.distance_to(r))` (external). -/
def lt (l r : It) : Bool := decide (0 > -(l.distanceTo r))
/-- `operator-` supplied by `boost::iterator_facade`: `l - r = r.distance_to(l)` (external). -/
def sub (l r : It) : Int := r.distanceTo l
/-- `operator[](n)` supplied by `boost::iterator_facade` (iterator.hpp:66-71): `*(it + n)`. -/
def index (dbg : Bool) (it : It) (n : Int) : Res Desc := (it.advance n).deref dbg

end It

/-- `begin()` (multi_array_ref.hpp:243-246, 543-546; subarray.hpp:137-140, 290-293; view.hpp:152-155,
360-364): `iterator(*index_bases(), origin(), shape(), strides(), index_bases())`. -/
def Desc.begin (d : Desc) : Res It := do .ok ⟨← Res.get d.bases 0, d⟩

/-- `end()` (multi_array_ref.hpp:248-251, 548-552; subarray.hpp:142-145, 295-298; view.hpp:157-160,
366-370): `iterator(*index_bases()+(index)*shape(), ...)`. -/
def Desc.end (d : Desc) : Res It := do .ok ⟨(← Res.get d.bases 0) + ((← Res.get d.extents 0 : Nat) : Int), d⟩

/-- `boost::reverse_iterator<iterator>` (external): holds the base iterator, dereferences its
predecessor. -/
structure RIt where
  base : It
deriving DecidableEq, Repr

namespace RIt
/-- `*rit` is `*prev(rit.base())`. -/
def deref (dbg : Bool) (r : RIt) : Res Desc := r.base.decrement.deref dbg
/-- `++rit` decrements the base. -/
def increment (r : RIt) : RIt := ⟨r.base.decrement⟩
/-- `--rit` increments the base. -/
def decrement (r : RIt) : RIt := ⟨r.base.increment⟩
/-- Equality of reverse iterators is equality of bases. -/
def equal (r s : RIt) : Bool := r.base.equal s.base
/-- `rit += n` moves the base by `-n`. -/
def advance (r : RIt) (n : Int) : RIt := ⟨r.base.advance (-n)⟩
/-- The distance between reverse iterators is the distance between the bases, the other way round. -/
def distanceTo (r s : RIt) : Int := s.base.distanceTo r.base
/-- `operator<` supplied by `boost::iterator_facade` (external). -/
def lt (l r : RIt) : Bool := decide (0 > -(l.distanceTo r))
/-- `operator-` supplied by `boost::iterator_facade` (external). -/
def sub (l r : RIt) : Int := r.distanceTo l
/-- `operator[](n)` supplied by `boost::iterator_facade`: `*(rit + n)` (external). -/
def index (dbg : Bool) (r : RIt) (n : Int) : Res Desc := (r.advance n).deref dbg
end RIt

/-- `rbegin()` (multi_array_ref.hpp:253-255, 555-558; subarray.hpp:147-149, 301-304; view.hpp:162-164,
372-374). -/
def Desc.rbegin (d : Desc) : Res RIt := do .ok ⟨← d.end⟩
/-- `rend()` (multi_array_ref.hpp:257-259, 560-563; subarray.hpp:151-153, 306-309; view.hpp:166-168,
376-378). -/
def Desc.rend (d : Desc) : Res RIt := do .ok ⟨← d.begin⟩

/-- The loop `for (it = first; it != last; ++it) visit(*it)` with at most `fuel` steps; `none` when the
fuel runs out before `last` is reached. -/
def iterLoop (dbg : Bool) : (fuel : Nat) → (first last : It) → Res (Option (List Desc))
  | 0, first, last => if first.equal last then .ok (some []) else .ok none
  | fuel + 1, first, last =>
    if first.equal last then .ok (some []) else do
      let v ← first.deref dbg
      let rest ← iterLoop dbg fuel first.increment last
      .ok (rest.map (v :: ·))

/-- The loop `for (it = rbegin(); it != rend(); ++it) visit(*it)` with at most `fuel` steps. -/
def riterLoop (dbg : Bool) : (fuel : Nat) → (first last : RIt) → Res (Option (List Desc))
  | 0, first, last => if first.equal last then .ok (some []) else .ok none
  | fuel + 1, first, last =>
    if first.equal last then .ok (some []) else do
      let v ← first.deref dbg
      let rest ← riterLoop dbg fuel first.increment last
      .ok (rest.map (v :: ·))

/-- Concatenate the visits of a list of values, `visit` being the inner loop nest. -/
def visitAll (visit : Desc → Res (Option (List Ptr))) : List Desc → Res (Option (List Ptr))
  | [] => .ok (some [])
  | v :: vs => do
    let x ← visit v
    let xs ← visitAll visit vs
    match x, xs with
    | some x, some xs => .ok (some (x ++ xs))
    | _, _ => .ok none

/-- The `n`-fold nested loop `for (auto&& x : a) for (auto&& y : x) ...` that visits the elements of an `n`-dimensional
array with iterators only, listing the element addresses in the order visited. -/
def nestedLoop (dbg : Bool) (fuel : Nat) : (n : Nat) → Desc → Res (Option (List Ptr))
  | 0, d => .ok (some [d.base])
  | n + 1, d => do
    let first ← d.begin
    let last ← d.end
    match ← iterLoop dbg fuel first last with
    | none => .ok none
    | some vs => visitAll (nestedLoop dbg fuel n) vs

end MultiArray
