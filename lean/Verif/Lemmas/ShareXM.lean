import Verif.SpecShareXM
import Verif.Lemmas.ShareM
import Verif.Lemmas.ShareXStep
import Verif.Props.ShareX

/- The clients of SpecShareXM.lean agree with those of SpecShareX.lean when everything fits. -/
set_option autoImplicit false

namespace MultiArray
open Spec Props
variable {T : Type} {g : Ghost} {w : SWorld T} {t : St T} {A : SState T} {σ : Nat → List Int}

theorem share_mayThrowM (dbg : Bool) (dflt : T) (hF : FitInv w.vars w.st A σ) (h : RepG g (⟨w.vars, t⟩ : SWorld T) A) (c : SCmd T)
    (hleg : A.Legal c) (hfit : A.CmdFits dflt σ c) : w.mayThrowM dbg dflt c = w.mayThrow dbg dflt c := by
  cases c with
  | construct x i =>
    simp only [SWorld.mayThrowM, SWorld.mayThrow, share_ctorM dbg dflt hF h x i hleg hfit]
    match w.ctor dbg dflt i with
    | none => rfl
    | some (.ok m s) => rfl
    | some (.throw s) => rfl
    | some (.assertFail _) => rfl
    | some .ub => rfl
  | resize x rs =>
    obtain ⟨hh, hx, hl, hle, hrep⟩ := hleg
    have hfit' := hfit hh hx
    obtain ⟨a, e1, e2, _⟩ := h.owner hx
    have e1 : w.vars x = _ := e1
    have hnd : a.ref.numDims = hh.extents.length := congrArg List.length e2.extents
    obtain ⟨ref, hof, hrr, _, h3, h4, h5⟩ := ofExtentGen_ok Ptr.null ⟨hh.extents.length, rs⟩ rfl hl e2.reach.wf.order
    have hf := headerFits_of (T := T) (abs := ⟨reqBases rs, reqExtents rs, hh.order, []⟩) hrr hfit' (by rw [h4, legalExtents_start])
      (by rw [h5, legalExtents_size hle]) (by rw [h3, e2.order])
    simp only [SWorld.mayThrowM, SWorld.mayThrow, e1, hnd]
    rw [Machine.resize_eq dbg dflt e2.reach (e2.headerFits (hF.arr x hh (.inl hx))) (g := ⟨hh.extents.length, rs⟩) rfl hl hle hof hf w.st]
    match MArr.resize dbg dflt ⟨hh.extents.length, rs⟩ a w.st with
    | (.ok _ s, a') => rfl
    | (.throw s, a') => rfl
    | (.assertFail _, a') => rfl
    | (.ub, a') => rfl
  | fill x input => rfl
  | assign x ss y ss' =>
    obtain ⟨p, q, hp, hq, he⟩ := hleg
    obtain ⟨d, hd, hdm, hpo, hdf, _⟩ := hF.lookup h dbg hp hfit.1
    obtain ⟨d', hd', hdm', hpo', hdf', _⟩ := hF.lookup h dbg hq hfit.2
    simp only [SWorld.mayThrowM, SWorld.mayThrow, hd, hdm, hd', hdm']
    rw [assignOp_eq, Machine.assignOpW_eq dbg _ eltCopy d d' hpo.shaped hpo'.shaped hdf.dims hdf'.dims (.inl (by rw [hpo.extents, hpo'.extents, he]))]
  | copyArray x ss y ss' =>
    obtain ⟨p, q, hp, hq, he⟩ := hleg
    obtain ⟨d, hd, hdm, hpo, hdf, _⟩ := hF.lookup h dbg hp hfit.1
    obtain ⟨d', hd', hdm', hpo', hdf', _⟩ := hF.lookup h dbg hq hfit.2
    simp only [SWorld.mayThrowM, SWorld.mayThrow, hd, hdm, hd', hdm']
    rw [copyArray_eq, Machine.copyArrayW_eq dbg eltCopy d d' hpo.shaped hpo'.shaped hdf.dims hdf'.dims (.inl (by rw [hpo.extents, hpo'.extents, he]))]
  | write x ss idx v =>
    obtain ⟨p, hp, hin⟩ := hleg
    obtain ⟨d, hd, hdm, hpo, hdf, _⟩ := hF.lookup h dbg hp hfit
    obtain ⟨k1, _⟩ := hdf.access dbg (idx := idx) (by rw [hpo.bases, hpo.extents]; exact hin)
    simp only [SWorld.mayThrowM, SWorld.mayThrow, hd, hdm, Machine.writeElem, MultiArray.writeElem, k1]
  | forEach x ss f =>
    obtain ⟨p, hp⟩ := hleg
    obtain ⟨d, hd, hdm, hpo, hdf, _⟩ := hF.lookup h dbg hp hfit
    simp only [SWorld.mayThrowM, SWorld.mayThrow, hd, hdm]
    rw [Machine.forEach_eq dbg f _ d hpo.shaped rfl hdf.dims]
  | _ => rfl

theorem share_execXM (dbg : Bool) (dflt : T) (eq lt : T → T → Bool) (hF : FitInv w.vars w.st A σ) (h : RepG g (⟨w.vars, t⟩ : SWorld T) A) (c : SCmd T)
    (hleg : A.Legal c) (hfit : A.CmdFits dflt σ c) : w.execXM dbg dflt eq lt c = w.execX dbg dflt eq lt c := by
  unfold SWorld.execXM SWorld.execX
  rw [share_mayThrowM dbg dflt hF h c hleg hfit, share_execM dbg dflt eq lt hF h c hleg hfit]
  cases w.mayThrow dbg dflt c with
  | some r => rfl
  | none => cases w.exec dbg dflt eq lt c <;> rfl

theorem memX_exec {w' : SWorld T} {e : Exec T Unit} {o : CObs T} (h : w.memX e = .done o w') : w.mem e (fun _ => .basic .unit) = some (o, w') := by
  unfold SWorld.memX at h
  unfold SWorld.mem
  cases he : e w.st <;> rw [he] at h <;> cases h
  rfl

/-- A command that completed did what it does in a run without exceptions. -/
theorem execX_done {dbg : Bool} {dflt : T} {eq lt : T → T → Bool} {c : SCmd T} {o : CObs T} {w' : SWorld T} (h : w.execX dbg dflt eq lt c = .done o w') :
    w.exec dbg dflt eq lt c = some (o, w') := by
  unfold SWorld.execX at h
  cases c with
  | construct x i =>
    simp only [SWorld.mayThrow] at h
    simp only [SWorld.exec]
    match hc : w.ctor dbg dflt i with
    | none => rw [hc] at h; cases h
    | some (.ok m s) => rw [hc] at h; cases h; rfl
    | some (.throw s) | some (.assertFail _) | some .ub => rw [hc] at h; cases h
  | resize x rs =>
    simp only [SWorld.mayThrow] at h
    simp only [SWorld.exec]
    match hx : w.vars x with
    | some (.owner a) =>
      rw [hx] at h
      simp only at h
      match hr : MArr.resize dbg dflt ⟨a.ref.numDims, rs⟩ a w.st with
      | (.ok _ s, a') => rw [hr] at h; cases h; simp only [hr]; rfl
      | (.throw s, a') | (.assertFail _, a') | (.ub, a') => rw [hr] at h; cases h
    | none | some (.ref _) | some (.view _) | some (.sub _) | some (.buffer _ _) => rw [hx] at h; cases h
  | fill x input =>
    simp only [SWorld.mayThrow] at h
    simp only [SWorld.exec]
    match hx : w.vars x with
    | some (.owner a) => rw [hx] at h; exact memX_exec h
    | some (.ref a) => rw [hx] at h; exact memX_exec h
    | none | some (.view _) | some (.sub _) | some (.buffer _ _) => rw [hx] at h; cases h
  | assign x ss y ss' =>
    simp only [SWorld.mayThrow] at h
    simp only [SWorld.exec]
    cases hd : w.lookup dbg x ss <;> rw [hd] at h
    · cases h
    cases hd' : w.lookup dbg y ss' <;> rw [hd'] at h
    · cases h
    exact memX_exec h
  | copyArray x ss y ss' =>
    simp only [SWorld.mayThrow] at h
    simp only [SWorld.exec]
    cases hd : w.lookup dbg x ss <;> rw [hd] at h
    · cases h
    cases hd' : w.lookup dbg y ss' <;> rw [hd'] at h
    · cases h
    exact memX_exec h
  | write x ss idx v =>
    simp only [SWorld.mayThrow] at h
    simp only [SWorld.exec]
    cases hd : w.lookup dbg x ss <;> rw [hd] at h
    · cases h
    exact memX_exec h
  | forEach x ss f =>
    simp only [SWorld.mayThrow] at h
    simp only [SWorld.exec]
    cases hd : w.lookup dbg x ss <;> rw [hd] at h
    · cases h
    exact memX_exec h
  | _ =>
    simp only [SWorld.mayThrow] at h
    split at h
    · cases h; assumption
    · cases h

theorem memX_vars {w' : SWorld T} {e : Exec T Unit} (h : w.memX e = .threw w') : w'.vars = w.vars := by
  unfold SWorld.memX at h
  cases he : e w.st <;> rw [he] at h <;> cases h
  rfl

/-- A command that threw left all variables alone. -/
theorem execX_threw {L : List Nat} {dbg : Bool} {dflt : T} {eq lt : T → T → Bool} (hi : InvS L w A) {c : SCmd T} (hleg : A.Legal c) {w' : SWorld T}
    (h : w.execX dbg dflt eq lt c = .threw w') : w'.vars = w.vars := by
  unfold SWorld.execX at h
  cases c with
  | construct x i =>
    simp only [SWorld.mayThrow] at h
    match hc : w.ctor dbg dflt i with
    | none => rw [hc] at h; cases h
    | some (.ok m s) => rw [hc] at h; cases h
    | some (.throw s) => rw [hc] at h; cases h; rfl
    | some (.assertFail _) | some .ub => rw [hc] at h; cases h
  | resize x rs =>
    obtain ⟨t, g, hc, hrep⟩ := hi
    obtain ⟨hh, hx, hlen, hle, hrp⟩ := hleg
    obtain ⟨a, vs, hw, hvs, hb, hal, hr⟩ := hrep.represents hx
    have hw : w.vars x = some (.owner a) := hw
    have ho := hc.owns hr.owns
    have hd : a.ref.numDims = hh.extents.length := ho.reach.wf.ext_len
    simp only [SWorld.mayThrow, hw, hd] at h
    obtain ⟨m, s', _, _, _, _, _, h6, _, _⟩ := resize_any dbg dflt ho (hc.sane hrep.mem.sane) (by rw [hr.bases, hr.extents]; exact hrp) hlen hle
    rcases h6 with ⟨h6, _⟩ | ⟨h6, _⟩
    · simp only [h6] at h; cases h
    · simp only [h6] at h
      cases h
      funext y
      simp only [SWorld.setVar]
      split
      · rename_i hy; rw [hy, hw]
      · rfl
  | fill x input =>
    simp only [SWorld.mayThrow] at h
    match hx : w.vars x with
    | some (.owner a) => rw [hx] at h; exact memX_vars h
    | some (.ref a) => rw [hx] at h; exact memX_vars h
    | none | some (.view _) | some (.sub _) | some (.buffer _ _) => rw [hx] at h; cases h
  | assign x ss y ss' =>
    simp only [SWorld.mayThrow] at h
    cases hd : w.lookup dbg x ss <;> rw [hd] at h
    · cases h
    cases hd' : w.lookup dbg y ss' <;> rw [hd'] at h
    · cases h
    exact memX_vars h
  | copyArray x ss y ss' =>
    simp only [SWorld.mayThrow] at h
    cases hd : w.lookup dbg x ss <;> rw [hd] at h
    · cases h
    cases hd' : w.lookup dbg y ss' <;> rw [hd'] at h
    · cases h
    exact memX_vars h
  | write x ss idx v =>
    simp only [SWorld.mayThrow] at h
    cases hd : w.lookup dbg x ss <;> rw [hd] at h
    · cases h
    exact memX_vars h
  | forEach x ss f =>
    simp only [SWorld.mayThrow] at h
    cases hd : w.lookup dbg x ss <;> rw [hd] at h
    · cases h
    exact memX_vars h
  | _ =>
    simp only [SWorld.mayThrow] at h
    split at h <;> cases h

theorem mapStep_vars (p : SPart) (f : T → T) (ks : List (List Nat)) {A A' : SState T} (h : SState.map p f ks A = some A') : A'.vars = A.vars := by
  induction ks generalizing A with
  | nil => cases h; rfl
  | cons k ks ih =>
    simp only [SState.map, Option.bind_eq_some_iff] at h
    obtain ⟨v, _, A1, h2, h3⟩ := h
    exact (ih h3).trans (put_vars h2).1

theorem interrupted_vars {c : SCmd T} {A' : SState T} (h : A.Interrupted c A') : A'.vars = A.vars := by
  cases c with
  | construct x i => cases h; rfl
  | resize x rs => cases h; rfl
  | fill x input => obtain ⟨_, _, _, _, _, _, _, _, rfl⟩ := h; rfl
  | assign x ss y ss' =>
    obtain ⟨_, p, q, _, _, done, k, rest, A1, junk, _, e1, e2⟩ := h
    exact (put_vars e2).1.trans (copyStep_vars _ _ _ e1).1
  | copyArray x ss y ss' =>
    obtain ⟨p, q, _, _, done, k, rest, A1, junk, _, e1, e2⟩ := h
    exact (put_vars e2).1.trans (copyStep_vars _ _ _ e1).1
  | write x ss idx v => obtain ⟨p, junk, _, e⟩ := h; exact (put_vars e).1
  | forEach x ss f =>
    obtain ⟨p, _, done, k, rest, A1, junk, _, e1, e2⟩ := h
    exact (put_vars e2).1.trans (mapStep_vars _ _ _ e1)
  | _ => exact h.elim

theorem reachesS_reaches {dflt : T} {eq lt : T → T → Bool} {k : SClient T} {tr : STrace T} (h : k.ReachesS dflt eq lt tr A σ) : k.Reaches dflt eq lt tr A := by
  induction h with
  | start => exact .start
  | done _ hc hs ih => exact ih.done hc hs
  | threw _ hc hs ih => exact ih.threw hc hs

/-- A client run on the 64-bit library is the run on the ideal one. -/
theorem sclient_runM (dbg : Bool) (dflt : T) (eq lt : T → T → Bool) (k : SClient T) (hk : k.Legal dflt eq lt) (hf : k.Fits dflt eq lt) (n : Nat)
    {tr : STrace T} {L : List Nat} {w : SWorld T} {A : SState T} {σ : Nat → List Int} (hr : k.ReachesS dflt eq lt tr A σ) (h : InvS L w A)
    (hF : FitInv w.vars w.st A σ) : k.runM dbg dflt eq lt n tr w = k.run dbg dflt eq lt n tr w := by
  induction n generalizing tr L w A σ with
  | zero => rfl
  | succ n ih =>
    cases hc : k tr with
    | none => simp only [SClient.run, SClient.runM, hc]
    | some c =>
      have hleg := hk tr A c (reachesS_reaches hr) hc
      have hfit := hf tr A σ c hr hc
      obtain ⟨t, g, hcalm, hrep⟩ := h
      have he := share_execXM dbg dflt eq lt hF hrep c hleg hfit
      rcases scmd_x dbg dflt eq lt ⟨t, g, hcalm, hrep⟩ c hleg with ⟨o, A1, w1, e1, e2, e3⟩ | ⟨w1, L1, A1, e1, e2, e3, e4⟩
      · simp only [SClient.run, SClient.runM, hc, he, e2]
        exact ih (hr.done hc e1) e3 (share_fit_step dbg dflt eq lt hF hrep c hleg hfit e1 (execX_done e2))
      · simp only [SClient.run, SClient.runM, hc, he, e1]
        exact ih (hr.threw hc e2) e3 (hF.same (interrupted_vars e2) (execX_threw ⟨t, g, hcalm, hrep⟩ hleg e1))

end MultiArray
