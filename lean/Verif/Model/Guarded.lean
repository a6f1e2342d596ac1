import Verif.Model.Code

/- Element types whose assignment has a precondition.  The element type of a `multi_array` may itself be a `multi_array` (or hold one), and `operator=` of `multi_array` asserts that both
sides have the same shape (multi_array_ref.hpp:481-484, used by multi_array.hpp:427-432).  Whatever the library does by assigning elements then has that precondition at every element. -/
set_option autoImplicit false

namespace MultiArray
variable {T α : Type}

/-- Run without interference (cf. `Code.exec`) when the element type's `operator=` asserts `ok old new` before it changes anything. -/
def Code.execG (ok : T → T → Bool) : Code T α → Exec T α
  | ret a => fun s => .ok a s
  | throw => fun s => .throw s
  | assertFail => fun s => .assertFail s
  | ub => fun _ => .ub
  | load p k => fun s =>
    match MultiArray.load p s with
    | .ok v s' => execG ok (k v) s'
    | .throw s' => .throw s'
    | .assertFail s' => .assertFail s'
    | .ub => .ub
  | store p v k h => fun s =>
    match s.get? p with
    | none => .ub
    | some u =>
      if ok u v = true then
        match assignCell p v s with
        | .ok _ s' => execG ok k s'
        | .throw s' => execG ok h s'
        | .assertFail s' => .assertFail s'
        | .ub => .ub
      else .assertFail s
  | construct v p k h => fun s =>
    match constructCell v p s with
    | .ok _ s' => execG ok k s'
    | .throw s' => execG ok h s'
    | .assertFail s' => .assertFail s'
    | .ub => .ub
  | destroy p k => fun s =>
    match destroyCell p s with
    | .ok _ s' => execG ok k s'
    | .throw s' => .throw s'
    | .assertFail s' => .assertFail s'
    | .ub => .ub
  | alloc al n k h => fun s =>
    match allocate al n s with
    | .ok p s' => execG ok (k p) s'
    | .throw s' => execG ok h s'
    | .assertFail s' => .assertFail s'
    | .ub => .ub
  | dealloc al p n k => fun s =>
    match deallocate al p n s with
    | .ok _ s' => execG ok k s'
    | .throw s' => .throw s'
    | .assertFail s' => .assertFail s'
    | .ub => .ub

/-- The value of a `multi_array` that is an element of another one: its shape and its elements in lexicographic order (what `operator==` compares, multi_array_ref.hpp:263-271).  Index bases and
storage order of the inner array are not part of it: assignment does not transfer them. -/
structure Inner (X : Type) where
  shape : List Nat
  elems : List X
deriving DecidableEq, Repr

/-- The assertion of `multi_array_ref::operator=` (multi_array_ref.hpp:481-484; multi_array.hpp:427-432 calls it), between two inner arrays. -/
def Inner.assignable {X : Type} (u v : Inner X) : Bool := decide (v.shape = u.shape)

/-- A default-constructed inner array of `m` dimensions (multi_array.hpp:152-157): every extent is zero. -/
def Inner.empty {X : Type} (m : Nat) : Inner X := ⟨List.replicate m 0, []⟩

end MultiArray
