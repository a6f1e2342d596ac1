import Verif.Model.Machine
import Verif.Model.Iterator

/- Iterator arithmetic (`iterator.hpp`, `begin`/`end`) as a 64-bit machine performs it; conventions as in `Machine.lean`. -/
set_option autoImplicit false

namespace MultiArray.Machine

/-- `dereference()` (iterator.hpp:120-129). -/
def deref (dbg : Bool) (it : It) : Res Desc := access dbg it.idx it.d
/-- `increment()` (iterator.hpp:131). -/
def increment (it : It) : Res It := do .ok { it with idx := ← chk (it.idx + 1) }
/-- `decrement()` (iterator.hpp:132). -/
def decrement (it : It) : Res It := do .ok { it with idx := ← chk (it.idx - 1) }
/-- `advance(n)` (iterator.hpp:147-150). -/
def advance (it : It) (n : Int) : Res It := do .ok { it with idx := ← chk (it.idx + n) }
/-- `distance_to(rhs)` (iterator.hpp:152-156). -/
def distanceTo (it rhs : It) : Res Int := chk (rhs.idx - it.idx)

/-- `begin()` (multi_array_ref.hpp:243-246; subarray.hpp:137-140; view.hpp:152-155). -/
def begin (d : Desc) : Res It := d.begin

/-- `end()` (multi_array_ref.hpp:248-251; subarray.hpp:142-145; view.hpp:157-160): `*index_bases()+(index)*shape()`. -/
def «end» (d : Desc) : Res It := do .ok ⟨← chk ((← Res.get d.bases 0) + toIndex (← Res.get d.extents 0)), d⟩

/-- The loop `for (it = first; it != last; ++it) visit(*it)` (iterator.hpp:120-145) with at most `fuel` steps. -/
def iterLoop (dbg : Bool) : (fuel : Nat) → (first last : It) → Res (Option (List Desc))
  | 0, first, last => if first.equal last then .ok (some []) else .ok none
  | fuel + 1, first, last =>
    if first.equal last then .ok (some []) else do
      let v ← deref dbg first
      let next ← increment first
      let rest ← iterLoop dbg fuel next last
      .ok (rest.map (v :: ·))

/-- The same backwards, with reverse iterators (`boost::reverse_iterator`, external; iterator.hpp:120-145). -/
def riterLoop (dbg : Bool) : (fuel : Nat) → (first last : It) → Res (Option (List Desc))
  | 0, first, last => if first.equal last then .ok (some []) else .ok none
  | fuel + 1, first, last =>
    if first.equal last then .ok (some []) else do
      let prev ← decrement first
      let v ← deref dbg prev
      let rest ← riterLoop dbg fuel prev last
      .ok (rest.map (v :: ·))

/-- The `n`-fold nested loop that visits the elements with iterators only (iterator.hpp:120-145). -/
def nestedLoop (dbg : Bool) (fuel : Nat) : (n : Nat) → Desc → Res (Option (List Ptr))
  | 0, d => .ok (some [d.base])
  | n + 1, d => do
    let first ← begin d
    let last ← «end» d
    match ← iterLoop dbg fuel first last with
    | none => .ok none
    | some vs => visitAll (nestedLoop dbg fuel n) vs

/-- `operator<` supplied by `boost::iterator_facade` (external): `0 > -(l.distance_to(r))` (iterator.hpp:66-71, 152-156). -/
def itLess (l r : It) : Res Bool := do .ok (decide (0 > (← chk (-(← distanceTo l r)))))
/-- `operator-` supplied by `boost::iterator_facade` (external): `-(l.distance_to(r))` (iterator.hpp:66-71, 152-156). -/
def itSub (l r : It) : Res Int := do chk (-(← distanceTo l r))
/-- `operator[](n)` supplied by `boost::iterator_facade` (external): `*(it + n)` (iterator.hpp:66-71, 120-129, 147-150). -/
def itIndex (dbg : Bool) (it : It) (n : Int) : Res Desc := do deref dbg (← advance it n)

/-- `*rit` of `boost::reverse_iterator` (external; iterator.hpp:120-132): `*prev(base)`. -/
def rderef (dbg : Bool) (r : RIt) : Res Desc := do deref dbg (← decrement r.base)
/-- `++rit` (external; iterator.hpp:132): `--base`. -/
def rincrement (r : RIt) : Res RIt := do .ok ⟨← decrement r.base⟩
/-- `--rit` (external; iterator.hpp:131): `++base`. -/
def rdecrement (r : RIt) : Res RIt := do .ok ⟨← increment r.base⟩
/-- `rit += n` (external; iterator.hpp:147-150): `base += -n`. -/
def radvance (r : RIt) (n : Int) : Res RIt := do .ok ⟨← advance r.base (← chk (-n))⟩
/-- `distance_to` of reverse iterators (external; iterator.hpp:152-156): the difference of the bases. -/
def rdistanceTo (r s : RIt) : Res Int := itSub r.base s.base
/-- `operator<` of reverse iterators (external; iterator.hpp:152-156). -/
def ritLess (l r : RIt) : Res Bool := do .ok (decide (0 > (← chk (-(← rdistanceTo l r)))))
/-- `operator-` of reverse iterators (external; iterator.hpp:152-156). -/
def ritSub (l r : RIt) : Res Int := do chk (-(← rdistanceTo l r))
/-- `operator[](n)` of reverse iterators (external; iterator.hpp:120-150). -/
def ritIndex (dbg : Bool) (r : RIt) (n : Int) : Res Desc := do rderef dbg (← radvance r n)
/-- `rbegin()` (multi_array_ref.hpp:253-255; subarray.hpp:147-149; view.hpp:162-164). -/
def rbegin (d : Desc) : Res RIt := do .ok ⟨← «end» d⟩
/-- `rend()` (multi_array_ref.hpp:257-259; subarray.hpp:151-153; view.hpp:166-168). -/
def rend (d : Desc) : Res RIt := do .ok ⟨← begin d⟩

end MultiArray.Machine
