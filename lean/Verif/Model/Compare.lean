import Verif.Model.Memory

/- Comparison operators (multi_array_ref.hpp:262-306, subarray.hpp:105-135, view.hpp:171-215). -/
set_option autoImplicit false

namespace MultiArray
variable {T : Type}

/-- Reading an element of unchanging memory. -/
def loadR (s : St T) (p : Ptr) : Res T :=
  match s.get? p with
  | some v => .ok v
  | none => .ub

/-- `std::equal(first1,last1,first2)` (external), `n = last1 - first1`. -/
def stdEqual (eqv : It → It → Res Bool) : (n : Nat) → (first1 first2 : It) → Res Bool
  | 0, _, _ => .ok true
  | n + 1, i, j => do
    if ← eqv i j then stdEqual eqv n i.increment j.increment else .ok false

/-- `operator==` on values of dimension `n`: element equality for `n = 0`, otherwise
multi_array_ref.hpp:262-271, subarray.hpp:110-115, view.hpp:171-180. -/
def equalRef (dbg : Bool) (eq : T → T → Bool) (s : St T) : (n : Nat) → (a b : Desc) → Res Bool
  | 0, a, b => do .ok (eq (← loadR s a.base) (← loadR s b.base))
  | n + 1, a, b => do
    if a.extents = b.extents then
      let first ← a.begin
      let last ← a.end
      let first2 ← b.begin
      stdEqual (fun i j => do equalRef dbg eq s n (← i.deref dbg) (← j.deref dbg))
        (last.sub first).toNat first first2
    else .ok false

/-- `std::lexicographical_compare(first1,last1,first2,last2)` (external), `n`,`m` the two lengths:
`if (*i < *j) return true; if (*j < *i) return false;` until one range ends. -/
def stdLexCompare (lt : It → It → Res Bool) : (n m : Nat) → (i j : It) → Res Bool
  | _, 0, _, _ => .ok false
  | 0, _ + 1, _, _ => .ok true
  | n + 1, m + 1, i, j => do
    if ← lt i j then .ok true
    else if ← lt j i then .ok false
    else stdLexCompare lt n m i.increment j.increment

/-- `operator<` on values of dimension `n`: element comparison for `n = 0`, otherwise
multi_array_ref.hpp:273-278, subarray.hpp:105-108, view.hpp:182-187. -/
def lessRef (dbg : Bool) (lt : T → T → Bool) (s : St T) : (n : Nat) → (a b : Desc) → Res Bool
  | 0, a, b => do .ok (lt (← loadR s a.base) (← loadR s b.base))
  | n + 1, a, b => do
    let first ← a.begin
    let last ← a.end
    let first2 ← b.begin
    let last2 ← b.end
    stdLexCompare (fun i j => do lessRef dbg lt s n (← i.deref dbg) (← j.deref dbg))
      (last.sub first).toNat (last2.sub first2).toNat first first2

/-- `operator!=` (multi_array_ref.hpp:280-285, subarray.hpp:117-120, view.hpp:189-194). -/
def notEqualRef (dbg : Bool) (eq : T → T → Bool) (s : St T) (n : Nat) (a b : Desc) : Res Bool := do
  .ok (!(← equalRef dbg eq s n a b))
/-- `operator>` (multi_array_ref.hpp:287-292, subarray.hpp:122-125, view.hpp:196-201). -/
def greaterRef (dbg : Bool) (lt : T → T → Bool) (s : St T) (n : Nat) (a b : Desc) : Res Bool :=
  lessRef dbg lt s n b a
/-- `operator<=` (multi_array_ref.hpp:294-299, subarray.hpp:127-130, view.hpp:203-208). -/
def lessEqRef (dbg : Bool) (lt : T → T → Bool) (s : St T) (n : Nat) (a b : Desc) : Res Bool := do
  .ok (!(← greaterRef dbg lt s n a b))
/-- `operator>=` (multi_array_ref.hpp:301-306, subarray.hpp:132-135, view.hpp:210-215). -/
def greaterEqRef (dbg : Bool) (lt : T → T → Bool) (s : St T) (n : Nat) (a b : Desc) : Res Bool := do
  .ok (!(← lessRef dbg lt s n a b))

/-! ### The same operators with an element comparison that may have effects

The element type's `operator==` / `operator<` is the user's code: it may count its calls, log, lock, modify memory, throw.  `elt p q` is the call
`*p == *q` (or `*p < *q`).  `equalRef` and `lessRef` above are the special case of comparisons without effects. -/

/-- `std::equal(first1,last1,first2)` (external), `n = last1 - first1`; the comparisons may have effects. -/
def stdEqualX (eqv : It → It → Exec T Bool) : (n : Nat) → (first1 first2 : It) → Exec T Bool
  | 0, _, _ => pure true
  | n + 1, i, j => do
    if ← eqv i j then stdEqualX eqv n i.increment j.increment else pure false

/-- `operator==` on values of dimension `n`: the element type's `operator==` for `n = 0`, otherwise
multi_array_ref.hpp:262-271, subarray.hpp:110-115, view.hpp:171-180. -/
def equalRefX (dbg : Bool) (elt : Ptr → Ptr → Exec T Bool) : (n : Nat) → (a b : Desc) → Exec T Bool
  | 0, a, b => elt a.base b.base
  | n + 1, a, b =>
    if a.extents = b.extents then do
      let first ← Exec.lift a.begin
      let last ← Exec.lift a.end
      let first2 ← Exec.lift b.begin
      stdEqualX (fun i j => do
          let x ← Exec.lift (i.deref dbg)
          let y ← Exec.lift (j.deref dbg)
          equalRefX dbg elt n x y) (last.sub first).toNat first first2
    else pure false

/-- `std::lexicographical_compare(first1,last1,first2,last2)` (external), `n`,`m` the two lengths; the comparisons may have effects. -/
def stdLexCompareX (lt : It → It → Exec T Bool) : (n m : Nat) → (i j : It) → Exec T Bool
  | _, 0, _, _ => pure false
  | 0, _ + 1, _, _ => pure true
  | n + 1, m + 1, i, j => do
    if ← lt i j then pure true
    else if ← lt j i then pure false
    else stdLexCompareX lt n m i.increment j.increment

/-- `operator<` on values of dimension `n`: the element type's `operator<` for `n = 0`, otherwise
multi_array_ref.hpp:273-278, subarray.hpp:105-108, view.hpp:182-187. -/
def lessRefX (dbg : Bool) (elt : Ptr → Ptr → Exec T Bool) : (n : Nat) → (a b : Desc) → Exec T Bool
  | 0, a, b => elt a.base b.base
  | n + 1, a, b => do
    let first ← Exec.lift a.begin
    let last ← Exec.lift a.end
    let first2 ← Exec.lift b.begin
    let last2 ← Exec.lift b.end
    stdLexCompareX (fun i j => do
        let x ← Exec.lift (i.deref dbg)
        let y ← Exec.lift (j.deref dbg)
        lessRefX dbg elt n x y) (last.sub first).toNat (last2.sub first2).toNat first first2

/-- `operator!=` (multi_array_ref.hpp:280-285, subarray.hpp:117-120, view.hpp:189-194). -/
def notEqualRefX (dbg : Bool) (elt : Ptr → Ptr → Exec T Bool) (n : Nat) (a b : Desc) : Exec T Bool := do
  pure (!(← equalRefX dbg elt n a b))
/-- `operator>` (multi_array_ref.hpp:287-292, subarray.hpp:122-125, view.hpp:196-201). -/
def greaterRefX (dbg : Bool) (elt : Ptr → Ptr → Exec T Bool) (n : Nat) (a b : Desc) : Exec T Bool :=
  lessRefX dbg elt n b a
/-- `operator<=` (multi_array_ref.hpp:294-299, subarray.hpp:127-130, view.hpp:203-208). -/
def lessEqRefX (dbg : Bool) (elt : Ptr → Ptr → Exec T Bool) (n : Nat) (a b : Desc) : Exec T Bool := do
  pure (!(← greaterRefX dbg elt n a b))
/-- `operator>=` (multi_array_ref.hpp:301-306, subarray.hpp:132-135, view.hpp:210-215). -/
def greaterEqRefX (dbg : Bool) (elt : Ptr → Ptr → Exec T Bool) (n : Nat) (a b : Desc) : Exec T Bool := do
  pure (!(← lessRefX dbg elt n a b))

end MultiArray
