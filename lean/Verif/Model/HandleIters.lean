import Verif.Model.Handles

/-
The iterators of subarray objects, with their pointers into the arrays of the owner.
-/
set_option autoImplicit false

namespace MultiArray

/-- `begin()` of a subarray (subarray.hpp:137-140, 290-293): base `origin()`, the subarray's pointers. -/
def SubObj.begin (sc : Scope) (y : SubObj) : Res ItObj := do
  let it ← (← y.desc sc).begin
  .ok ⟨it.idx, y.base, y.owner, y.depth⟩

/-- `end()` of a subarray (subarray.hpp:142-145, 295-298). -/
def SubObj.end (sc : Scope) (y : SubObj) : Res ItObj := do
  let it ← (← y.desc sc).end
  .ok ⟨it.idx, y.base, y.owner, y.depth⟩

end MultiArray
