import Verif.SpecMem
import Verif.Model.MultiArr

/- Doing an operation again after it has thrown.  Nothing here models code. -/
set_option autoImplicit false

namespace MultiArray.Spec
open MultiArray
variable {T : Type}

/-- The client code `for (;;) { try { op; break; } catch (...) { } }`, giving up (letting the exception propagate) after `m` caught exceptions. -/
def retry (op : Exec T Unit) : (m : Nat) → Exec T Unit
  | 0, s => op s
  | m + 1, s =>
    match op s with
    | .throw s' => retry op m s'
    | r => r

/-- The same for an operation on a `multi_array` object. -/
def retryMember (op : Member T Unit) : (m : Nat) → Member T Unit
  | 0, a, s => op a s
  | m + 1, a, s =>
    match op a s with
    | (.throw s', a') => retryMember op m a' s'
    | r => r

/-- The number of exceptions that are due: operations to come that will throw. -/
def dueThrows (due : List (Option T)) : Nat := due.countP Option.isSome

end MultiArray.Spec
