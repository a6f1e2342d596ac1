import Verif.SpecMem

/- Element-wise operations written as one flat loop over the positions of a shape.  Nothing here models code. -/
set_option autoImplicit false

namespace MultiArray.Spec
open MultiArray
variable {T : Type}

/-- The address of the element at zero-based position `k`. -/
def posAddr (d : Desc) (k : List Nat) : Ptr := address d (atPos d.bases k)

/-- `for (k in positions) dst(k) = src(k);` -/
def flatCopy (dst src : Desc) : List (List Nat) → Exec T Unit
  | [] => pure ()
  | k :: ks => do
    let v ← load (posAddr src k)
    assignCell (posAddr dst k) v
    flatCopy dst src ks

/-- `for (k in positions) elt(dst(k), src(k));` for an arbitrary operation on two elements. -/
def flatAssign (elt : Ptr → Ptr → Exec T Unit) (dst src : Desc) : List (List Nat) → Exec T Unit
  | [] => pure ()
  | k :: ks => do
    elt (posAddr dst k) (posAddr src k)
    flatAssign elt dst src ks

/-- `for (k in positions) a(k) = f(a(k));` with a functor that has state and arbitrary effects. -/
def flatForEach {σ : Type} (f : σ → T → Exec T (T × σ)) (a : Desc) : List (List Nat) → σ → Exec T σ
  | [], q => pure q
  | k :: ks, q => do
    let v ← load (posAddr a k)
    let r ← f q v
    assignCell (posAddr a k) r.1
    flatForEach f a ks r.2

/-- A functor whose call may throw (`none`). -/
def throwing {σ : Type} (f : σ → T → Option (T × σ)) (q : σ) (v : T) : Exec T (T × σ) := fun s =>
  match f q v with
  | some r => .ok r s
  | none => .throw s

/-- The results of calling `f` on a list of values from left to right, up to the first call that throws; and the final state,
`none` if a call has thrown. -/
def applyUntil {σ : Type} (f : σ → T → Option (T × σ)) : σ → List T → List T × Option σ
  | q, [] => ([], some q)
  | q, v :: vs =>
    match f q v with
    | none => ([], none)
    | some (w, q') => (w :: (applyUntil f q' vs).1, (applyUntil f q' vs).2)

end MultiArray.Spec

namespace MultiArray.Spec

/-- Two range lists select windows of the same kind (entry by entry: both an integer, or both a range with the same stride), and at the first entry where their
starts differ the second list is ahead in the direction of the stride. -/
def MovesToFront : (dst src : List IndexRange) → (bases : List Int) → Prop
  | r :: rs, q :: qs, b :: bs =>
    (r.degenerate_ = true ∧ q.degenerate_ = true ∧ (rangeStart r b = rangeStart q b → MovesToFront rs qs bs)) ∨
    (r.degenerate_ = false ∧ q.degenerate_ = false ∧ r.stride_ = q.stride_ ∧
      ((rangeStart r b = rangeStart q b ∧ MovesToFront rs qs bs) ∨ 0 < (rangeStart q b - rangeStart r b) * r.stride_))
  | [], [], [] => True
  | _, _, _ => False

/-- `indices[range(first, last)][range()]...[range()]` with `rest` default ranges: the rows `[first, last)`. -/
def rowsGen (rest : Nat) (first last : Int) : IndexGen :=
  ⟨rest + 1, rest + 1, IndexRange.mk3 first last :: List.replicate rest IndexRange.default⟩

end MultiArray.Spec
