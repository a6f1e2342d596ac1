import Verif.Lemmas.Loops

/-
Property theorems C104: the loops of the library, which go on while two iterators differ, end after exactly one step per position of each dimension, whatever the element
operations do; the rest of the model may therefore count the steps.
-/
set_option autoImplicit false

namespace MultiArray.Props
open MultiArray
variable {T : Type}

/-- `copy_array` never loops for more than the extent of a dimension: with any bound `fuel` that is at least every extent of the source every loop ends, and the whole is the copy
that counts its steps, whatever the element assignment does. -/
theorem C104_copy_array_loop (dbg : Bool) (elt : Ptr → Ptr → Exec T Unit) (fuel : Nat) (src dst : Desc) (h : ∀ e ∈ src.extents, e ≤ fuel) :
    copyArrayLoop dbg elt fuel src dst = (do let a ← copyArrayW dbg elt src dst; pure (some a)) := by
  show _ = Exec.ended (copyArrayW dbg elt src dst)
  unfold copyArrayLoop copyArrayW
  rw [ended_bind]
  exact lift_bind_congr (fun _ _ => copyDispatchLoop_eq dbg elt fuel _ src dst h)

/-- The `operator=` of arrays, sub-arrays and views. -/
theorem C104_assignment_loop (dbg sameObject : Bool) (elt : Ptr → Ptr → Exec T Unit) (fuel : Nat) (dst src : Desc) (h : ∀ e ∈ src.extents, e ≤ fuel) :
    assignOpLoop dbg sameObject elt fuel dst src = (do let a ← assignOpW dbg sameObject elt dst src; pure (some a)) := by
  show _ = Exec.ended (assignOpW dbg sameObject elt dst src)
  unfold assignOpLoop assignOpW
  cases sameObject
  · exact assignRefLoop_eq dbg elt fuel _ dst src h
  · exact (ended_pure ()).symm

/-- `for_each`, with a function object that has any state and any effects. -/
theorem C104_for_each_loop {σ : Type} (dbg : Bool) (f : σ → T → Exec T (T × σ)) (fuel : Nat) (a : Desc) (q : σ) (h : ∀ e ∈ a.extents, e ≤ fuel) :
    forEachXLoop dbg f fuel a.extents.length a q = (do let q' ← forEachX dbg f a.extents.length a q; pure (some q')) :=
  forEachXLoop_eq dbg f fuel _ a q h

/-- `operator==`, with an element comparison that has any effects. -/
theorem C104_equal_loop (dbg : Bool) (elt : Ptr → Ptr → Exec T Bool) (fuel : Nat) (a b : Desc) (h : ∀ e ∈ a.extents, e ≤ fuel) :
    equalRefLoop dbg elt fuel a.extents.length a b = (do let r ← equalRefX dbg elt a.extents.length a b; pure (some r)) :=
  equalRefLoop_eq dbg elt fuel _ a b h

/-- `operator<`, with an element comparison that has any effects; the shapes may differ. -/
theorem C104_less_loop (dbg : Bool) (elt : Ptr → Ptr → Exec T Bool) (fuel : Nat) (a b : Desc) (h : ∀ e ∈ a.extents, e ≤ fuel) (h' : ∀ e ∈ b.extents, e ≤ fuel) :
    lessRefLoop dbg elt fuel a.extents.length a b = (do let r ← lessRefX dbg elt a.extents.length a b; pure (some r)) :=
  lessRefLoop_eq dbg elt fuel _ a b h h'

/-- The converting constructors. -/
theorem C104_convert_loop (dbg : Bool) (dflt : T) (fuel : Nat) (rhs : Desc) (so : StorageOrder) (alloc : Nat) (h : ∀ e ∈ rhs.extents, e ≤ fuel) :
    mkConvertLoop dbg dflt fuel rhs so alloc = (do let a ← MArr.mkConvert dbg dflt rhs so alloc; pure (some a)) :=
  mkConvertLoop_eq dbg dflt fuel rhs so alloc h

theorem copyLoop_short {body : It → It → Exec T Unit} (d : Desc) : ∀ (fuel n : Nat) (first last out : It), fuel < n → first.d = d → last.d = d → last.idx = first.idx + (n : Int) →
    copyLoop (fun i o => Exec.ended (body i o)) fuel first last out = (do stdCopy body fuel first out; pure none)
  | 0, n, first, last, out, hn, h1, h2, h3 => by
    rw [copyLoop, stdCopy, pure_bind, loopEqual_iff (h1.trans h2.symm), if_neg (by simp; omega)]
  | fuel + 1, n, first, last, out, hn, h1, h2, h3 => by
    rw [copyLoop, stdCopy, bind_assoc, loopEqual_iff (h1.trans h2.symm), if_neg (by simp; omega), bind_ended]
    congr 1
    funext _
    exact copyLoop_short d fuel (n - 1) first.increment last out.increment (by omega) h1 h2 (by show last.idx = first.idx + 1 + ((n - 1 : Nat) : Int); omega)

/-- **A traversal from `begin()` to `end()` makes exactly as many steps as the first extent**: after fewer steps it has done exactly those and has not ended; with that many or more
it has done exactly `extent` of them and ended. -/
theorem C104_traversal_exact (d : Desc) (first last out : It) (body : It → It → Exec T Unit) (e : Nat) (es : List Nat) (he : d.extents = e :: es)
    (hb : d.begin = .ok first) (hl : d.end = .ok last) (fuel : Nat) :
    copyLoop (fun i o => do body i o; pure (some ())) fuel first last out =
      if fuel < e then (do stdCopy body fuel first out; pure none) else (do stdCopy body e first out; pure (some ())) := by
  obtain ⟨k1, bs, _⟩ := loopBegin_ok hb
  obtain ⟨k2, e', es', k3, k4⟩ := loopEnd_ok hb hl
  rw [he] at k3; cases k3
  have hbody : (fun i o => do body i o; pure (some ())) = fun i o => Exec.ended (body i o) := rfl
  rw [hbody]
  by_cases hf : fuel < e
  · rw [if_pos hf]
    exact copyLoop_short d fuel e first last out hf k1 k2 k4
  · rw [if_neg hf]
    exact copyLoop_eq (d := d) (fun _ _ _ => rfl) fuel e first last out (by omega) k1 k2 k4

/-- **Why the order of the ends matters**: a loop from an iterator to one that lies before it ends after no number of steps, whatever the body does (as long as it goes on). -/
theorem C104_reversed_range_never_ends (body : It → It → Exec T Unit) (fuel : Nat) (first last out : It) (h : last.idx < first.idx) :
    copyLoop (fun i o => do body i o; pure (some ())) fuel first last out = (do stdCopy body fuel first out; pure none) := by
  have hne : first.equal last = false := by
    have : ¬ first.idx = last.idx := by omega
    unfold It.equal
    simp [this]
  induction fuel generalizing first out with
  | zero => rw [copyLoop, stdCopy, pure_bind, hne]; rfl
  | succ fuel ih =>
    have hbody : (fun i o => do body i o; pure (some ())) = fun i o => Exec.ended (body i o) := rfl
    rw [hbody] at ih ⊢
    rw [copyLoop, stdCopy, bind_assoc, hne, if_neg (by simp), bind_ended]
    congr 1
    funext _
    have hlt : last.idx < first.increment.idx := by show last.idx < first.idx + 1; omega
    refine ih first.increment out.increment hlt ?_
    have : ¬ first.increment.idx = last.idx := by omega
    unfold It.equal
    simp [this]

/-- Non-vacuity: a 2 x 2 array in C order copied by the comparing loops to one in Fortran order with other bases; and the bound matters: with one step per loop it has not ended. -/
def loopSt : St Nat := ⟨fun b => if b = 0 then some ⟨0, [.obj 1, .obj 2, .obj 3, .obj 4]⟩ else if b = 1 then some ⟨0, [.obj 0, .obj 0, .obj 0, .obj 0]⟩ else none, 2, []⟩
def loopSrc : Desc := ⟨⟨0, 0⟩, [2, 2], [2, 1], [0, 0]⟩
def loopDst : Desc := ⟨⟨1, 2⟩, [2, 2], [1, 2], [4, -3]⟩

example : (∀ e ∈ loopSrc.extents, e ≤ 2) ∧ ∃ s', copyArrayLoop true eltCopy 2 loopSrc loopDst loopSt = .ok (some ()) s' ∧
    (List.range 4).map (fun k : Nat => s'.get? ⟨1, k⟩) = [some 1, some 3, some 2, some 4] := ⟨by decide, _, rfl, rfl⟩

example : ∃ s', copyArrayLoop true eltCopy 1 loopSrc loopDst loopSt = .ok none s' := ⟨_, rfl⟩

example : ∃ first last, loopSrc.begin = .ok first ∧ loopSrc.end = .ok last ∧ first.idx < last.idx := ⟨_, _, rfl, rfl, by decide⟩

/-! ### Instances: the theorems applied to concrete cases, whose hypotheses are thereby met -/

/-- Two descriptors of shape 2x3. -/
def loopA : Desc := ⟨⟨7, 0⟩, [2, 3], [3, 1], [0, 0]⟩
def loopB : Desc := ⟨⟨9, 0⟩, [2, 3], [1, 2], [1, 5]⟩
example := C104_copy_array_loop true (eltConv (fun x : Nat => x)) 3 loopA loopB (by decide)
example := C104_assignment_loop true false (eltConv (fun x : Nat => x)) 3 loopB loopA (by decide)
example := C104_for_each_loop true (fun (q x : Nat) => pure (x + q, q + 1)) 3 loopA 0 (by decide)
example := C104_equal_loop true (fun p q => do let x : Nat ← load p; let y ← load q; pure (decide (x = y))) 3 loopA loopB (by decide)
example := C104_less_loop true (fun p q => do let x : Nat ← load p; let y ← load q; pure (decide (x < y))) 3 loopA loopB (by decide) (by decide)
example := C104_convert_loop true (0 : Nat) 3 loopA (StorageOrder.cOrder 2) 0 (by decide)
example := C104_traversal_exact loopA _ _ ⟨0, loopB⟩ (fun _ _ => (pure () : Exec Nat Unit)) 2 [3] rfl rfl rfl 1
example := C104_reversed_range_never_ends (fun _ _ => (pure () : Exec Nat Unit)) 10 ⟨3, loopA⟩ ⟨1, loopA⟩ ⟨0, loopB⟩ (by decide)

/- end of instances -/

end MultiArray.Props
