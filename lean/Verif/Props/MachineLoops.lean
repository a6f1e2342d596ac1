import Verif.Lemmas.MachineLoops

/-
Property theorems C104, second part: the loops of the library, which go on while two iterators differ, in the arithmetic of a 64-bit machine.  If the arrays fit (`DimsFit`: indices up to
one past the last one, extents and offsets are 64-bit values) no `++` overflows, every loop ends after one step per position, and the result is that of the counted traversal over ideal
integers, whatever the element operations do.
-/
set_option autoImplicit false

namespace MultiArray.Props
open MultiArray Spec
variable {T : Type}

/-- `copy_array`, in builds with assertions for any two shapes. -/
theorem C104_copy_array_on_machine (dbg : Bool) (elt : Ptr → Ptr → Exec T Unit) (fuel : Nat) (src dst : Desc) (hs : WellShaped src) (hd : WellShaped dst)
    (fs : DimsFit src.bases src.extents src.strides) (fd : DimsFit dst.bases dst.extents dst.strides) (he : dst.extents = src.extents ∨ dbg = true)
    (h : ∀ e ∈ src.extents, e ≤ fuel) : Machine.copyArrayLoop dbg elt fuel src dst = (do let a ← copyArrayW dbg elt src dst; pure (some a)) := by
  show _ = Exec.ended (copyArrayW dbg elt src dst)
  unfold Machine.copyArrayLoop copyArrayW
  rw [ended_bind]
  by_cases hx : src.extents = dst.extents
  · exact lift_bind_congr (fun _ _ => Machine.copyDispatchLoop_eq dbg elt fuel _ dst src hd hs rfl fd fs hx.symm h)
  · rcases he with he | he
    · exact absurd he.symm hx
    · subst he
      have : (assertE true (decide (src.extents = dst.extents)) : Exec T Unit) = Exec.lift .assertFail := by
        simp [assertE, hx]
      rw [this]
      rfl

/-- The `operator=` of arrays, subarrays and views. -/
theorem C104_assignment_on_machine (dbg sameObject : Bool) (elt : Ptr → Ptr → Exec T Unit) (fuel : Nat) (dst src : Desc) (hs : WellShaped src) (hd : WellShaped dst)
    (fs : DimsFit src.bases src.extents src.strides) (fd : DimsFit dst.bases dst.extents dst.strides)
    (he : dst.extents = src.extents ∨ dbg = true ∧ dst.extents.length = src.extents.length) (h : ∀ e ∈ src.extents, e ≤ fuel) :
    Machine.assignOpLoop dbg sameObject elt fuel dst src = (do let a ← assignOpW dbg sameObject elt dst src; pure (some a)) := by
  show _ = Exec.ended (assignOpW dbg sameObject elt dst src)
  unfold Machine.assignOpLoop assignOpW
  cases sameObject
  · rcases he with he | he
    · exact Machine.assignRefLoop_eq dbg elt fuel _ dst src hd hs (by rw [he]) fd fs (Or.inl he) h
    · exact Machine.assignRefLoop_eq dbg elt fuel _ dst src hd hs he.2.symm fd fs (Or.inr he.1) h
  · exact (ended_pure ()).symm

/-- `for_each`, with a function object that has any state and any effects. -/
theorem C104_for_each_on_machine {σ : Type} (dbg : Bool) (f : σ → T → Exec T (T × σ)) (fuel : Nat) (a : Desc) (q : σ) (hw : WellShaped a)
    (fa : DimsFit a.bases a.extents a.strides) (h : ∀ e ∈ a.extents, e ≤ fuel) :
    Machine.forEachXLoop dbg f fuel a.extents.length a q = (do let q' ← forEachX dbg f a.extents.length a q; pure (some q')) :=
  Machine.forEachXLoop_eq dbg f fuel _ a q hw rfl fa h

/-- `operator==`, with an element comparison that has any effects; the shapes may differ. -/
theorem C104_equal_on_machine (dbg : Bool) (elt : Ptr → Ptr → Exec T Bool) (fuel : Nat) (a b : Desc) (ha : WellShaped a) (hb : WellShaped b)
    (fa : DimsFit a.bases a.extents a.strides) (fb : DimsFit b.bases b.extents b.strides) (h : ∀ e ∈ a.extents, e ≤ fuel) :
    Machine.equalRefLoop dbg elt fuel a.extents.length a b = (do let r ← equalRefX dbg elt a.extents.length a b; pure (some r)) :=
  Machine.equalRefLoop_eq dbg elt fuel _ a b ha hb rfl fa fb h

/-- `operator<`, with an element comparison that has any effects; the shapes may differ. -/
theorem C104_less_on_machine (dbg : Bool) (elt : Ptr → Ptr → Exec T Bool) (fuel : Nat) (a b : Desc) (ha : WellShaped a) (hb : WellShaped b)
    (hn : b.extents.length = a.extents.length) (fa : DimsFit a.bases a.extents a.strides) (fb : DimsFit b.bases b.extents b.strides)
    (h : ∀ e ∈ a.extents, e ≤ fuel) (h' : ∀ e ∈ b.extents, e ≤ fuel) :
    Machine.lessRefLoop dbg elt fuel a.extents.length a b = (do let r ← lessRefX dbg elt a.extents.length a b; pure (some r)) :=
  Machine.lessRefLoop_eq dbg elt fuel _ a b ha hb rfl hn fa fb h h'

/-- One integer each: `src` has index 0, `dst` has index `2^63 - 1`, the largest there is. -/
def lastSrc : Desc := ⟨⟨0, 0⟩, [1], [1], [0]⟩
def lastDst : Desc := ⟨⟨1, -(2 ^ 63 - 1)⟩, [1], [1], [2 ^ 63 - 1]⟩
def lastSt : St Nat := ⟨fun b => if b = 0 then some ⟨0, [.obj 5]⟩ else if b = 1 then some ⟨0, [.obj 6]⟩ else none, 2, []⟩

/-- **The limit is sharp**: `dst` fits except that one past its last index is `2^63`.  Its element can be read and written, `end()` of it is not needed for copying into it, and over
ideal integers the copy is done; but the machine's `++` after the last element overflows. -/
theorem C104_last_step_overflows :
    Machine.access true (2 ^ 63 - 1) lastDst = .ok ⟨⟨1, 0⟩, [], [], []⟩ ∧
    (∃ s', copyArrayLoop true eltCopy 2 lastSrc lastDst lastSt = .ok (some ()) s' ∧ s'.get? ⟨1, 0⟩ = some 5) ∧
    Machine.copyArrayLoop true eltCopy 2 lastSrc lastDst lastSt = .ub := ⟨rfl, ⟨_, rfl, rfl⟩, rfl⟩

/-! ### Instances: the theorems applied to concrete cases, whose hypotheses are thereby met -/

/-- Two descriptors of shape 2x3; one past the last row of the second is the largest index. -/
def mloopA : Desc := ⟨⟨7, 0⟩, [2, 3], [3, 1], [0, 0]⟩
theorem mloopA_fits : DimsFit mloopA.bases mloopA.extents mloopA.strides := by
  refine ⟨by decide, by decide, by decide, fun i h1 h2 => ?_, by decide, by decide, by decide, fun i h1 h2 => ?_, trivial⟩
  · have h1 : (0 : Int) ≤ i := h1
    have h2 : i < 0 + 2 := h2
    unfold Machine.InIndex; omega
  · have h1 : (0 : Int) ≤ i := h1
    have h2 : i < 0 + 3 := h2
    unfold Machine.InIndex; omega

def mloopC : Desc := ⟨⟨9, 0⟩, [2, 3], [1, -2], [2 ^ 63 - 3, -7]⟩
theorem mloopC_fits : DimsFit mloopC.bases mloopC.extents mloopC.strides := by
  refine ⟨by decide, by decide, by decide, fun i h1 h2 => ?_, by decide, by decide, by decide, fun i h1 h2 => ?_, trivial⟩
  · have h1 : (2 ^ 63 - 3 : Int) ≤ i := h1
    have h2 : i < 2 ^ 63 - 3 + 2 := h2
    unfold Machine.InIndex; omega
  · have h1 : (-7 : Int) ≤ i := h1
    have h2 : i < -7 + 3 := h2
    unfold Machine.InIndex; omega

example := C104_copy_array_on_machine true (eltConv (fun x : Nat => x)) 3 mloopA mloopC ⟨by decide, by decide⟩ ⟨by decide, by decide⟩ mloopA_fits mloopC_fits (Or.inl rfl) (by decide)
example := C104_assignment_on_machine false false (eltConv (fun x : Nat => x)) 3 mloopC mloopA ⟨by decide, by decide⟩ ⟨by decide, by decide⟩ mloopA_fits mloopC_fits (Or.inl rfl) (by decide)
example := C104_for_each_on_machine true (fun (q x : Nat) => pure (x + q, q + 1)) 3 mloopC 0 ⟨by decide, by decide⟩ mloopC_fits (by decide)
example := C104_equal_on_machine true (fun p q => do let x : Nat ← load p; let y ← load q; pure (decide (x = y))) 3 mloopA mloopC ⟨by decide, by decide⟩ ⟨by decide, by decide⟩
  mloopA_fits mloopC_fits (by decide)
example := C104_less_on_machine true (fun p q => do let x : Nat ← load p; let y ← load q; pure (decide (x < y))) 3 mloopA mloopC ⟨by decide, by decide⟩ ⟨by decide, by decide⟩ rfl
  mloopA_fits mloopC_fits (by decide) (by decide)

/- end of instances -/

end MultiArray.Props
