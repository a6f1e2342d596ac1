import Verif.SpecFlat
import Verif.Model.Copy

/- Input sequences of `assign(first,last)`.  Nothing here models code. -/
set_option autoImplicit false

namespace MultiArray.Spec
open MultiArray
variable {T σ : Type}

/-- A pointer range `[p, last)` as input iterator. -/
def ptrIt (last : Ptr) : InputIt T Ptr where
  atEnd p := pure (decide (p = last))
  next p := do
    let v ← load p
    pure (v, p.add 1)

/-- Iterator over given values. -/
def listIt : InputIt T (List T) where
  atEnd vs := pure vs.isEmpty
  next vs := fun s =>
    match vs with
    | [] => .ub
    | v :: vs => .ok (v, vs) s

/-- Iterator over given values that never reaches its end and throws when the values are used up. -/
def failingIt : InputIt T (List T) where
  atEnd _ := pure false
  next vs := fun s =>
    match vs with
    | [] => .throw s
    | v :: vs => .ok (v, vs) s

/-- The same iterator, counting the elements taken from it. -/
def counting (it : InputIt T σ) : InputIt T (σ × Nat) where
  atEnd q := it.atEnd q.1
  next q := do
    let r ← it.next q.1
    pure (r.1, (r.2, q.2 + 1))

/-- From state `q` on, the iterator reads the elements at the addresses `ps`, one after the other, and then is at its end. -/
def ReadsFrom (it : InputIt T σ) : σ → List Ptr → Prop
  | q, [] => it.atEnd q = pure true
  | q, p :: ps => it.atEnd q = pure false ∧ ∃ q', (it.next q = do let v ← load p; pure (v, q')) ∧ ReadsFrom it q' ps

/-- `for (p in ps) *out++ = *p;` -/
def copyTo : (out : Ptr) → List Ptr → Exec T Unit
  | _, [] => pure ()
  | out, p :: ps => do
    let v ← load p
    assignCell out v
    copyTo (out.add 1) ps

end MultiArray.Spec
