import Verif.SpecMem

/- The cost of an operation: how many operations of the environment (allocations, element constructions, element assignments) it performs.  Nothing here models code. -/
set_option autoImplicit false

namespace MultiArray.Spec
open MultiArray
variable {T α : Type}

/-- The `i`-th of the allocations, element constructions and element assignments to come (counted from 0) throws. -/
def ThrowsAt (s : St T) (i : Nat) : Prop := ∃ junk, s.sched[i]? = some (some junk)

/-- The outcome of a computation, started in `s`, that performs exactly `k` allocations, element constructions and element assignments:
if one of them throws, the exception propagates at once and nothing more is performed; otherwise the computation completes, having performed all `k`. -/
def Performs (k : Nat) (s : St T) : Out T α → Prop
  | .ok _ s' => (∀ i, i < k → ¬ ThrowsAt s i) ∧ s'.sched = s.sched.drop k
  | .throw s' => ∃ j, j < k ∧ (∀ i, i < j → ¬ ThrowsAt s i) ∧ ThrowsAt s j ∧ s'.sched = s.sched.drop (j + 1)
  | .assertFail _ => False
  | .ub => False

/-- The number of elements a constructor call creates. -/
def Ctor.elements : Ctor → Nat
  | .default n _ => (List.replicate n 0).prod
  | .extents n es _ _ => (es.take n).prod
  | .gen _ rs _ _ => (rs.map ExtentRange.size).prod
  | .copy _ a => a.ref.extents.prod
  | .convert _ d _ _ => d.extents.prod

/-- The number of element assignments a constructor performs after creating the elements. -/
def Ctor.copies : Ctor → Nat
  | .copy _ a => a.ref.extents.prod
  | .convert _ d _ _ => d.extents.prod
  | _ => 0

end MultiArray.Spec
