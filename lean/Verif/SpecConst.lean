import Verif.Model.Const

/- What "const access" and "mutable access" mean, for C55 and C59. -/
set_option autoImplicit false

namespace MultiArray.Spec
open CxxConst

/-- The objects a user regards as read-only: a const `multi_array`, `multi_array_ref` or `array_view`; a `const_multi_array_ref`, `const_subarray` or
`const_array_view` with the default pointer type, whether the object itself is const or not; a `const_iterator`,
`const_reverse_iterator`, pointer-to-const or reference-to-const. -/
inductive ReadOnly : Ty → Prop
  | array (n : Nat) : ReadOnly (.handle .multiArray n true)
  | ref (n : Nat) : ReadOnly (.handle .multiArrayRef n true)
  | cref (n : Nat) (k : Bool) : ReadOnly (.handle (.constMultiArrayRef false) n k)
  | view (n : Nat) : ReadOnly (.handle .view n true)
  | csub (n : Nat) (k : Bool) : ReadOnly (.handle (.constSubArray false) n k)
  | cview (n : Nat) (k : Bool) : ReadOnly (.handle (.constView false) n k)
  | iter (n : Nat) : ReadOnly (.iter false n)
  | riter (n : Nat) : ReadOnly (.riter false n)
  | ptr : ReadOnly (.ptr true)
  | elem : ReadOnly (.elem true)

/-- The read-only types that do not merely wrap a mutable class in `const`: their stored pointer is `const T*`. -/
inductive DeepReadOnly : Ty → Prop
  | cref (n : Nat) (k : Bool) : DeepReadOnly (.handle (.constMultiArrayRef false) n k)
  | csub (n : Nat) (k : Bool) : DeepReadOnly (.handle (.constSubArray false) n k)
  | cview (n : Nat) (k : Bool) : DeepReadOnly (.handle (.constView false) n k)
  | iter (n : Nat) : DeepReadOnly (.iter false n)
  | riter (n : Nat) : DeepReadOnly (.riter false n)
  | ptr : DeepReadOnly (.ptr true)
  | elem : DeepReadOnly (.elem true)

/-- Element access, slicing, iteration and queries; not the construction of new handle objects by copying. -/
def Accesses (ops : List Op) : Prop := Op.copy ∉ ops ∧ Op.refCopy ∉ ops

/-- The same, and no use of a derived object as an object of its base class. -/
def MemberAccesses (ops : List Op) : Prop := Accesses ops ∧ Op.upcast ∉ ops

/-- From `t` the element can be written through, possibly after further steps (all of them permitted by `ok`). -/
def MutablyReaches (ok : List Op → Prop) (t : Ty) : Prop := ∃ ops t', ok ops ∧ chain ops t = some t' ∧ writable t' = true

end MultiArray.Spec
