import Verif.Lemmas.MachineConvertLoop
import Verif.Props.MachineLoops

/-
Property theorem C104, third part: the loop of the converting constructors, comparing iterators, in the arithmetic of a 64-bit machine.
-/
set_option autoImplicit false

namespace MultiArray.Props
open MultiArray Spec
variable {T : Type}

/-- The converting constructors: if the source and the new array fit, the storage is allocated and constructed, and every element is assigned, as over ideal integers (whatever of this
throws), and the loop ends. -/
theorem C104_conversion_on_machine (dbg : Bool) (dflt : T) (fuel : Nat) {rhs : Desc} {so : StorageOrder} {ref : ARef} (al : Nat) (hv : ValidOrder rhs.extents.length so)
    (hw : WellShaped rhs) (fr : DimsFit rhs.bases rhs.extents rhs.strides)
    (hr : ARef.ofShape rhs.extents.length Ptr.null so (some rhs.bases) (some rhs.extents) = .ok ref) (hf : HeaderFits ref) (h : ∀ e ∈ rhs.extents, e ≤ fuel) :
    Machine.mkConvertLoop dbg dflt fuel rhs so al = (do let a ← MArr.mkConvert dbg dflt rhs so al; pure (some a)) :=
  Machine.mkConvertLoop_eq dbg dflt fuel al hv rfl hw fr hr hf h

/-- The hypotheses are met by converting the row-major `mloopA` to column-major order. -/
example := C104_conversion_on_machine true (0 : Nat) 3 (rhs := mloopA) (so := StorageOrder.fortranOrder 2) (ref := ⟨Ptr.null, StorageOrder.fortranOrder 2, [2, 3], [1, 2], [0, 0], 0, 0, 6⟩) 0
  (fortranOrder_valid 2) ⟨by decide, by decide⟩ mloopA_fits (by decide)
  ⟨by show sizeBound [2, 3] + absDot [0, 0] [1, 2] < 2 ^ 63; decide, by show InsideIndex [0, 0] [2, 3]; simp [InsideIndex]⟩ (by decide)

end MultiArray.Props
