import Verif.SpecHist

/-
Which allocator each variable of a client program holds.  Nothing here models library code.  An allocator is an identity;
two different identities are unequal stateful allocators, whose storage must not be mixed.
-/
set_option autoImplicit false

namespace MultiArray.Spec
open MultiArray
variable {T : Type}

/-- The allocator a variable is initialised with: the constructor's argument, or, for a copy, that of the copied array. -/
def Init.allocator (p : Nat → Option Nat) : Init → Option Nat
  | .default _ al => some al
  | .extents _ _ _ al => some al
  | .gen _ _ _ al => some al
  | .copy y => p y
  | .convert _ _ _ al => some al

/-- The allocators of all variables after an operation that completed: only construction and destruction matter; assignment,
resize, reindex and reshape do not transfer allocators. -/
def Op.allocators (p : Nat → Option Nat) : Op T → Nat → Option Nat
  | .construct x i => fun y => if y = x then i.allocator p else p y
  | .destroy x => fun y => if y = x then none else p y
  | _ => p

/-- The allocators of all variables after a program; an operation that throws changes none. -/
def World.allocatorsAfter (dbg : Bool) (dflt : T) : List (Op T) → World T → (Nat → Option Nat) → Nat → Option Nat
  | [], _, p => p
  | op :: ops, w, p =>
    match w.step dbg dflt op with
    | .ok w' => World.allocatorsAfter dbg dflt ops w' (op.allocators p)
    | .threw w' => World.allocatorsAfter dbg dflt ops w' p
    | .failed => p

end MultiArray.Spec
