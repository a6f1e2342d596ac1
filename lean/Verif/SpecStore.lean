import Verif.SpecMem

/- Writing the elements of an array to a sequence and reading them back.  Nothing here models code. -/
set_option autoImplicit false

namespace MultiArray.Spec
open MultiArray
variable {T : Type}

/-- A functor for `for_each` that appends each element to the sequence written so far and leaves the element as it is. -/
def saver (written : List T) (x : T) : T × List T := (x, written ++ [x])

/-- A functor for `for_each` that replaces each element by the next value of the input, and leaves it as it is once the input is exhausted. -/
def loader : (input : List T) → (x : T) → T × List T
  | [], x => (x, [])
  | v :: rest, _ => (v, rest)

/-- `image` is what `write(data(), num_elements())` would produce: the cells of the array in memory order. -/
def MemoryImage (s : St T) (a : ARef) (image : List T) : Prop :=
  image.length = a.numElements ∧ ∀ k : Nat, k < a.numElements → s.get? (a.data.add (k : Int)) = image[k]?

/-- At position `k` the left element is less, and at all positions before `k` in row-major order the elements are equivalent (neither is less). -/
def FirstLess (lt : T → T → Bool) (es : List Nat) (f g : List Nat → T) (k : List Nat) : Prop :=
  InShape es k ∧ lt (f k) (g k) = true ∧
  ∀ j, InShape es j → rowMajor es j < rowMajor es k → lt (f j) (g j) = false ∧ lt (g j) (f j) = false

end MultiArray.Spec
