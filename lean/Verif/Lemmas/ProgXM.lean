import Verif.SpecProgXM
import Verif.Lemmas.ProgM

/- The clients of SpecProgXM.lean agree with those of SpecProgX.lean when everything fits. -/
set_option autoImplicit false

namespace MultiArray
open Spec Props
variable {T : Type}

theorem ctorX_eq {dbg : Bool} {dflt : T} {w : World T} {x : Nat} {i : Init} {c : Ctor} (hi : i.ctor w.objs = some c)
    (hc : (c.runM dbg dflt : Exec T MArr) = c.run dbg dflt) : w.ctorX dbg dflt x c = w.step dbg dflt (.construct x i) := by
  unfold World.ctorX
  simp only [World.step, hi, hc]
  cases c.run dbg dflt w.st <;> rfl

theorem mayThrowM_on (dbg : Bool) (dflt : T) {w : World T} {t : St T} {a : MArr} {x : Nat} {abs : AbsArr T} (hx : w.objs x = some a)
    (h : Represents t a abs) (op : AOp T) (hleg : abs.Legal op) (hf : abs.Fits)
    (hf' : ∀ o abs', abs.step dflt op = some (o, abs') → abs'.Fits) :
    w.mayThrowM dbg dflt (.on x op) = w.mayThrow dbg dflt (.on x op) := by
  have hr := h.owns.reach
  have hnd : a.ref.numDims = abs.extents.length := by rw [← h.extents]; rfl
  have hd := h.descFits hf
  cases op with
  | write idx v =>
    obtain ⟨k1, k2⟩ := hd.access dbg (idx := idx) ((h.inBox idx).mpr hleg)
    simp only [World.mayThrowM, World.mayThrow, hx, Machine.writeElem, MultiArray.writeElem, k1]
  | writeChain idx v =>
    obtain ⟨k1, k2⟩ := hd.access dbg (idx := idx) ((h.inBox idx).mpr hleg)
    simp only [World.mayThrowM, World.mayThrow, hx, Machine.writeChain, MultiArray.writeChain, k2]
  | assign input => simp only [World.mayThrowM, World.mayThrow, hx, World.step]
  | forEach f =>
    simp only [World.mayThrowM, World.mayThrow, hx]
    rw [Machine.forEach_eq dbg f _ a.ref.desc hr.wf.wellShaped rfl hd.dims]
  | resize rs =>
    obtain ⟨hl, hle, _⟩ := hleg
    obtain ⟨ref, hof, hrr, _, h3, h4, h5⟩ := ofExtentGen_ok Ptr.null ⟨abs.extents.length, rs⟩ rfl hl hr.wf.order
    have hfit := headerFits_of hrr (hf' _ _ rfl) (by rw [h4, legalExtents_start]) (by rw [h5, legalExtents_size hle]) (by rw [h3, h.order])
    simp only [World.mayThrowM, World.mayThrow, hx, World.step, hnd]
    rw [Machine.resize_eq dbg dflt hr (h.headerFits hf) (g := ⟨abs.extents.length, rs⟩) rfl hl hle hof hfit w.st]
  | resizeList es =>
    obtain ⟨hl, hes, hrep⟩ := hleg
    obtain ⟨ref, hof⟩ := ARef.init_succeeds (n := abs.extents.length) Ptr.null (List.replicate abs.extents.length 0) (es := es) hr.wf.order (by omega)
    obtain ⟨_, _, h3, h4, h5, _⟩ := ARef.init_ok hof hr.wf.order (by simp)
    have hfit := headerFits_of (.ofExtents hr.wf.order hof) (hf' _ _ rfl) (by rw [h4, ← hl]) (by rw [h5, List.take_of_length_le (by omega)])
      (by rw [h3, h.order])
    simp only [World.mayThrowM, World.mayThrow, hx, World.step]
    rw [Machine.resizeExtents_eq dbg dflt hr (h.headerFits hf) hof hfit w.st]
  | read idx => simp only [World.mayThrowM, World.mayThrow, hx]
  | readChain idx => simp only [World.mayThrowM, World.mayThrow, hx]
  | reindex bs => simp only [World.mayThrowM, World.mayThrow, hx]
  | reindexAll b => simp only [World.mayThrowM, World.mayThrow, hx]
  | reshape es => simp only [World.mayThrowM, World.mayThrow, hx]
  | query => simp only [World.mayThrowM, World.mayThrow, hx]

/-- One command that may throw. -/
theorem mayThrowM_eq (dbg : Bool) (dflt : T) (eq lt : T → T → Bool) {w : World T} {t : St T} {A : AState T} (h : (⟨w.objs, t⟩ : World T).Rep A)
    (hA : A.Fits) (c : Cmd T) (hleg : c.Legal A) (hv : c.ViewsFit A) (hA' : ∀ o A', A.step dflt eq lt c = some (o, A') → A'.Fits) :
    w.mayThrowM dbg dflt c = w.mayThrow dbg dflt c := by
  cases c with
  | construct x i =>
    have hc := ctorsAgree dbg dflt eq lt h hA x i hleg hv hA'
    cases i with
    | default n al => exact congrArg some (ctorX_eq (i := .default n al) rfl hc)
    | extents n es so al => exact congrArg some (ctorX_eq (i := .extents n es so al) rfl hc)
    | gen n rs so al => exact congrArg some (ctorX_eq (i := .gen n rs so al) rfl hc)
    | copy y =>
      obtain ⟨a, hy⟩ := hc
      simp only [World.mayThrowM, World.mayThrow, hy]
      exact congrArg some (ctorX_eq (by simp [Init.ctor, hy]) rfl)
    | convert y ss so al =>
      obtain ⟨a, d, hy, hd, hdm, hc⟩ := hc
      simp only [World.mayThrowM, World.mayThrow, hd, hdm]
      exact congrArg some (ctorX_eq (by simp [Init.ctor, hy]) hc)
  | destroy x => rfl
  | on x op =>
    obtain ⟨abs, hAx, hl⟩ := hleg
    obtain ⟨a, hx, hr⟩ := h.absAt hAx
    refine mayThrowM_on dbg dflt hx hr op hl (hA x abs hAx) ?_
    intro o abs' hs
    exact hA' (.basic o) (A.set x (some abs')) (by simp [AState.step, hAx, hs]) x abs' (by rw [AState.set_same])
  | assign x y =>
    obtain ⟨abs, abs', hAx, hAy, he⟩ := hleg
    obtain ⟨a, hx, hr⟩ := h.absAt hAx
    obtain ⟨a', hy, hr'⟩ := h.absAt hAy
    simp only [World.mayThrowM, World.mayThrow, World.step, hx, hy]
    have : (Machine.assignFrom dbg (decide (x = y)) a a' : Exec T Unit) = a.assignFrom dbg (decide (x = y)) a' := by
      unfold Machine.assignFrom MArr.assignFrom
      rw [Machine.assignOpW_eq dbg _ eltCopy a.ref.desc a'.ref.desc hr.owns.reach.wf.wellShaped hr'.owns.reach.wf.wellShaped
        (hr.descFits (hA x abs hAx)).dims (hr'.descFits (hA y abs' hAy)).dims (.inl (by show a.ref.extents = a'.ref.extents; rw [hr.extents, hr'.extents, he]))]
      rfl
    rw [this]
  | assignPart x ss y ss' =>
    obtain ⟨p, q, hp, hq, he⟩ := hleg
    obtain ⟨a, d, hx, hd, hdm, hpo, hw, hdf⟩ := h.partM hA dbg hp hv.1
    obtain ⟨a', d', hy, hd', hdm', hpo', hw', hdf'⟩ := h.partM hA dbg hq hv.2
    simp only [World.mayThrowM, World.mayThrow, hd, hdm, hd', hdm', World.step]
    rw [Machine.assignOpW_eq dbg false eltCopy d d' hw hw' hdf.dims hdf'.dims (.inl (by rw [hpo.extents, hpo'.extents, he]))]
    rfl
  | copyArray x ss y ss' =>
    obtain ⟨p, q, hp, hq, he⟩ := hleg
    obtain ⟨a, d, hx, hd, hdm, hpo, hw, hdf⟩ := h.partM hA dbg hp hv.1
    obtain ⟨a', d', hy, hd', hdm', hpo', hw', hdf'⟩ := h.partM hA dbg hq hv.2
    simp only [World.mayThrowM, World.mayThrow, hd, hdm, hd', hdm', World.step]
    rw [Machine.copyArrayW_eq dbg eltCopy d d' hw hw' hdf.dims hdf'.dims (.inl (by rw [hpo.extents, hpo'.extents, he]))]
    rfl
  | write x ss idx v =>
    obtain ⟨p, hp, hin⟩ := hleg
    obtain ⟨a, d, hx, hd, hdm, hpo, hw, hdf⟩ := h.partM hA dbg hp hv
    obtain ⟨k1, _⟩ := hdf.access dbg (idx := idx) (by rw [hpo.bases, hpo.extents]; exact hin)
    simp only [World.mayThrowM, World.mayThrow, hd, hdm, World.step, Machine.writeElem, MultiArray.writeElem, k1]
  | forEach x ss f =>
    obtain ⟨p, hp⟩ := hleg
    obtain ⟨a, d, hx, hd, hdm, hpo, hw, hdf⟩ := h.partM hA dbg hp hv
    simp only [World.mayThrowM, World.mayThrow, hd, hdm, World.step]
    rw [Machine.forEach_eq dbg f _ d hw rfl hdf.dims]
  | read x ss idx => rfl
  | traverse x ss => rfl
  | equal x ss y ss' => rfl
  | less x ss y ss' => rfl
  | shape x ss => rfl

/-- One command. -/
theorem execXM_eq (dbg : Bool) (dflt : T) (eq lt : T → T → Bool) {w : World T} {t : St T} {A : AState T} (h : (⟨w.objs, t⟩ : World T).Rep A)
    (hA : A.Fits) (c : Cmd T) (hleg : c.Legal A) (hv : c.ViewsFit A) (hA' : ∀ o A', A.step dflt eq lt c = some (o, A') → A'.Fits) :
    w.execXM dbg dflt eq lt c = w.execX dbg dflt eq lt c := by
  unfold World.execXM World.execX
  rw [mayThrowM_eq dbg dflt eq lt h hA c hleg hv hA', execM_eq dbg dflt eq lt h hA c hleg hv hA']
  cases w.mayThrow dbg dflt c with
  | some r => rfl
  | none => cases w.exec dbg dflt eq lt c <;> rfl

end MultiArray
