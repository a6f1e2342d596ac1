import Verif.Model.Handles
import Verif.Model.MachineOps

/- `operator[]` on objects and on held subarrays in 64-bit arithmetic: Handles.lean with the index computations of Machine.lean. -/
set_option autoImplicit false

namespace MultiArray.Machine

/-- `x[idx]` on an array or view object (multi_array_ref.hpp:221-225, view.hpp:130-135; base.hpp:129-141). -/
def objBracket (dbg : Bool) (sc : Scope) (x : Nat) (idx : Int) : Res SubObj :=
  match sc x with
  | some o => do
    let d ← Machine.access dbg idx o.desc
    .ok ⟨d.base, x, 1⟩
  | none => .ub

/-- `s[idx]` on a held subarray (subarray.hpp:75-78; base.hpp:129-141). -/
def subBracket (dbg : Bool) (sc : Scope) (x : SubObj) (idx : Int) : Res SubObj := do
  let d ← Machine.access dbg idx (← x.desc sc)
  .ok ⟨d.base, x.owner, x.depth + 1⟩

end MultiArray.Machine
