import Verif.Lemmas.MachineLoops
import Verif.Lemmas.MachineOwn

/- The loop of the converting constructors, comparing iterators, in 64-bit arithmetic. -/
set_option autoImplicit false

namespace MultiArray
namespace Machine
open Spec Props
variable {T : Type}

theorem mkConvertLoop_eq (dbg : Bool) (dflt : T) (fuel : Nat) {n : Nat} {rhs : Desc} {so : StorageOrder} {ref : ARef} (al : Nat) (hv : ValidOrder n so)
    (hn : rhs.extents.length = n) (hw : WellShaped rhs) (fr : DimsFit rhs.bases rhs.extents rhs.strides)
    (h : ARef.ofShape n Ptr.null so (some rhs.bases) (some rhs.extents) = .ok ref) (hf : HeaderFits ref)
    (henough : Enough fuel rhs) : mkConvertLoop dbg dflt fuel rhs so al = Exec.ended (MArr.mkConvert dbg dflt rhs so al : Exec T MArr) := by
  unfold mkConvertLoop MArr.mkConvert
  rw [hn, h, ofShape_eq hv h hf.1]
  simp only [Exec.lift_ok, pure_bind]
  rw [ended_bind]
  apply Exec.bind_congr
  intro s a s' hs
  obtain ⟨p, hp⟩ := allocateSpace_ref hs
  have hr : Reachable n a.ref := by rw [hp]; exact (Reachable.ofShape hv h).setBase p
  have hfa : HeaderFits a.ref := by rw [hp]; exact hf
  have fa := dims_fit hr hfa
  have hwa := hr.wf.wellShaped
  have hea : a.ref.extents = rhs.extents := by
    rw [hp]
    show ref.extents = _
    unfold ARef.ofShape at h
    simp only at h
    cases hc : copyN rhs.bases n with
    | assertFail => rw [hc] at h; cases h
    | ub => rw [hc] at h; cases h
    | ok b =>
      obtain ⟨rfl, hle, _⟩ := copyN_ok hc
      rw [hc] at h
      simp only [Res.bind_ok] at h
      obtain ⟨_, _, _, _, e5, _⟩ := ARef.init_ok h hv (by simp [hle])
      rw [e5, List.take_of_length_le (by omega)]
  obtain ⟨p1, es, ss, bs⟩ := rhs
  obtain ⟨h1, h2⟩ := hw
  have hd : a.ref.desc = ⟨a.ref.desc.base, a.ref.extents, a.ref.strides, a.ref.bases⟩ := rfl
  rw [hd]
  simp only at hea
  have hwa1 : a.ref.strides.length = a.ref.extents.length := hwa.1
  have hwa2 : a.ref.bases.length = a.ref.extents.length := hwa.2
  revert fa hwa1 hwa2
  generalize a.ref.desc.base = p2
  generalize a.ref.strides = ss2
  generalize a.ref.bases = bs2
  rw [hea]
  intro fa hwa1 hwa2
  cases es with
  | nil =>
    match bs, h2 with
    | [], _ => rfl
  | cons e es =>
    match ss, bs, ss2, bs2, h1, h2, hwa1, hwa2, fa, fr with
    | s :: ss, b :: bs, s2 :: ss2, b2 :: bs2, h1, h2, hwa1, hwa2, fa, fr =>
      rw [end_ok fr, begin, begin, begin_cons, begin_cons, end_cons]
      simp only [Exec.lift_ok, pure_bind, It.sub, It.distanceTo, show b + (e : Int) - b = (e : Int) by omega, Int.toNat_natCast]
      rw [ended_bind, copyLoop_eq (body := fun i o => do
        let s ← Exec.lift (i.deref dbg)
        let d ← Exec.lift (o.deref dbg)
        assignRef dbg (n - 1) d s) fuel e ⟨b, ⟨p1, e :: es, s :: ss, b :: bs⟩⟩ ⟨b + (e : Int), ⟨p1, e :: es, s :: ss, b :: bs⟩⟩ ⟨b2, ⟨p2, e :: es, s2 :: ss2, b2 :: bs2⟩⟩ (henough e (by simp)) rfl rfl fr.1 fr.2.1 fa.1 fa.2.1, bind_ended]
      · simp only [ended_pure]
      · intro k hk
        simp only
        rw [mach_deref dbg p1 es ss bs fr.2.2.1 fr.2.2.2.1 hk, mach_deref dbg p2 es ss2 bs2 fa.2.2.1 fa.2.2.2.1 hk,
          It.deref_in dbg p1 e es s ss b bs k hk, It.deref_in dbg p2 e es s2 ss2 b2 bs2 k hk]
        simp only [Exec.lift_ok, pure_bind]
        exact assignRefLoop_eq dbg eltCopy _ _ _ _ ⟨by simpa [subAt] using hwa1, by simpa [subAt] using hwa2⟩
          ⟨by simpa [subAt] using h1, by simpa [subAt] using h2⟩ (by simp only [List.length_cons] at hn; show es.length = _; omega)
          fa.2.2.2.2 fr.2.2.2.2 (Or.inl rfl) (fun x hx => henough x (by simp only [subAt] at hx; simp [hx]))

end Machine
end MultiArray
