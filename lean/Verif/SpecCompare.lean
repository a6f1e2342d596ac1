import Verif.SpecFlat
import Verif.SpecWork

/- Comparisons written without iterators, and the number of element comparisons they make.  Nothing here models code. -/
set_option autoImplicit false

namespace MultiArray.Spec
open MultiArray
variable {T : Type}

/-- `for (k in positions) if (!elt(a(k), b(k))) return false; return true;` -/
def flatEqual (elt : Ptr → Ptr → Exec T Bool) (a b : Desc) : List (List Nat) → Exec T Bool
  | [] => pure true
  | k :: ks => do
    if ← elt (posAddr a k) (posAddr b k) then flatEqual elt a b ks else pure false

/-- Compare two lists entry by entry: the left list is less at the first entry that is less, not less at the first entry that is greater, and otherwise less if it ends first. -/
def lexRun {α : Type} (lt : α → α → Exec T Bool) : List α → List α → Exec T Bool
  | _, [] => pure false
  | [], _ :: _ => pure true
  | x :: xs, y :: ys => do
    if ← lt x y then pure true
    else if ← lt y x then pure false
    else lexRun lt xs ys

/-- Compare two nested lists of element addresses, rows by rows. -/
def nestedLess (elt : Ptr → Ptr → Exec T Bool) : (n : Nat) → Val Ptr n → Val Ptr n → Exec T Bool
  | 0, p, q => elt p q
  | n + 1, xs, ys => lexRun (nestedLess elt n) xs ys

/-- An operation of the environment that may throw and has no other effect. -/
def mayThrow : Exec T Unit := fun s =>
  match s.sched with
  | [] => .ok () s
  | none :: fs => .ok () { s with sched := fs }
  | some _ :: fs => .throw { s with sched := fs }

/-- The comparison of two elements by a user's operator that may throw and does not modify memory. -/
def cmpElem (r : T → T → Bool) (p q : Ptr) : Exec T Bool := do
  let x ← load p
  let y ← load q
  mayThrow
  pure (r x y)

/-- `k` operations that may throw, one after the other. -/
def mayThrowTimes : Nat → Exec T Unit
  | 0 => pure ()
  | k + 1 => do mayThrow; mayThrowTimes k

/-- The number of element comparisons of `a == b`, for arrays of the shapes `es` and `es'` with contents `f` and `g`: none if the shapes differ; otherwise all
positions up to and including the first one, in lexicographic order, where the elements differ. -/
def equalCost (eq : T → T → Bool) (es es' : List Nat) (f g : List Nat → T) : Nat :=
  if es = es' then min es.prod (((positions es).takeWhile (fun k => eq (f k) (g k))).length + 1) else 0

open Classical in
/-- The number of element comparisons of `x < y` for nested lists: at each common entry, first "left less than right?"; if not, "right less than left?"; if not, the
next entry. -/
noncomputable def rowsCost {α : Type} (less : α → α → Prop) (cost : α → α → Nat) : List α → List α → Nat
  | x :: xs, y :: ys => cost x y + if less x y then 0 else cost y x + if less y x then 0 else rowsCost less cost xs ys
  | _, _ => 0

/-- The number of element comparisons of `x < y`. -/
noncomputable def lessCost (lt : T → T → Bool) : (n : Nat) → Val T n → Val T n → Nat
  | 0, _, _ => 1
  | n + 1, xs, ys => rowsCost (ValLess lt n) (lessCost lt n) xs ys

end MultiArray.Spec
