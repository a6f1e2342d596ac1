import Verif.SpecProgX

/-
Which pointers, references, iterators, subarrays and views a command invalidates.  Nothing here models library code.
-/
set_option autoImplicit false

namespace MultiArray.Spec
open MultiArray
variable {T : Type}

/-- The command, if it completes, gives up the storage of variable `y`: it destroys `y` or resizes it. -/
def Cmd.Drops (y : Nat) : Cmd T → Prop
  | .destroy x => x = y
  | .on x (.resize _) => x = y
  | .on x (.resizeList _) => x = y
  | _ => False

/-- The variable a command initialises, destroys or writes to. -/
def Cmd.target : Cmd T → Option Nat
  | .construct x _ | .destroy x | .on x _ | .assign x _ | .assignPart x _ _ _ | .copyArray x _ _ _ | .write x _ _ _ | .forEach x _ _ => some x
  | _ => none

/-- The command changes the index bases or the extents of `y` in place. -/
def Cmd.Relabels (y : Nat) : Cmd T → Prop
  | .on x (.reindex _) => x = y
  | .on x (.reindexAll _) => x = y
  | .on x (.reshape _) => x = y
  | _ => False

/-- No pointer, reference or view that was obtained from `a` before is invalid in `w`: variable `y` still holds an array in the same storage, and every in-range element of `a` and of every
subarray and view of `a` - computed from the *old* header and the *old* handles - still is a live object. -/
def StillValid (a : MArr) (y : Nat) (w : World T) : Prop :=
  (∃ a', w.objs y = some a' ∧ a'.ref.data = a.ref.data ∧ a'.ref.numElements = a.ref.numElements ∧ a'.alloc = a.alloc) ∧
  ∀ d, Handle a.ref d → ∀ idx, InBox d.bases d.extents idx → ∃ v, w.st.get? (address d idx) = some v

/-- Everything that was obtained from `a` before is invalid in `s`: its storage does not exist any more; reading or writing through an old pointer is undefined. -/
def Gone (a : MArr) (s : St T) : Prop := s.heap a.ref.data.blk = none

end MultiArray.Spec
