import Verif.Lemmas.MachineParts

/- The programs of SpecProgM.lean agree with those of SpecProg.lean when everything fits. -/
set_option autoImplicit false

namespace MultiArray
open Spec Props
variable {T : Type}

/-- Expressions evaluate to the same descriptor, which fits again. -/
theorem resolveM_eq {n : Nat} {root : ARef} (hr : root.WF n) (dbg : Bool) (ss : List Sel) {d : Desc} {p : APart} (h : PartOf root d p)
    (hf : DescFits d) (hleg : p.LegalPath ss) (hp : p.PathFits d.strides ss) :
    ∃ d', resolveM dbg ss d = .ok d' ∧ resolve dbg ss d = .ok d' ∧ PartOf root d' (p.path ss) ∧ DescFits d' := by
  induction ss generalizing d p with
  | nil => exact ⟨d, rfl, rfl, h, hf⟩
  | cons s ss ih =>
    obtain ⟨h1, h2⟩ := hleg
    cases s with
    | «at» i =>
      obtain ⟨d', e1, e2⟩ := partOf_at hr dbg h h1
      obtain ⟨d1, e1', _⟩ := partOf_at hr true h h1
      obtain ⟨f1, f2⟩ := hf.sub e1
      have f3 := hf.access1 dbg e1'
      obtain ⟨d'', e3, e3', e4, e5⟩ := ih e2 f1 h2 (by rw [f2]; exact hp)
      refine ⟨d'', ?_, ?_, e4, e5⟩
      · simp only [resolveM, f3, e1, Res.bind_ok, e3]
      · simp only [resolve, Desc.bracket, e1, Res.bind_ok, e3']
    | view xs =>
      obtain ⟨p1, p2⟩ := hp
      obtain ⟨e1, e2, e3, e4⟩ := partOf_view hr dbg h h1
      obtain ⟨f1, f2, f3, _, _⟩ := view_fits hr dbg h hf h1 p1
      have := e4 _ .refl
      have hb : (theView (idxGen xs) d).bases = List.replicate (viewCounts (xs.map IndexArg.toRange) p.bases p.extents).length 0 := by
        rw [← e3]; simp [theView, View.mkView]
      rw [hb] at this
      have hpo : PartOf root (theView (idxGen xs) d).desc (p.sel (.view xs)) := by
        refine ⟨this.handle, this.bases, this.extents, ?_⟩
        intro idx hin
        have h' := this.root idx hin
        have hl : idx.length = (viewCounts (xs.map IndexArg.toRange) p.bases p.extents).length := hin.length.1
        simp only [relPos_replicate _ _ hl] at h'
        exact h'
      obtain ⟨d'', e5, e5', e6, e7⟩ := ih hpo f2 h2 (by show APart.PathFits _ (theView (idxGen xs) d).strides ss; rw [f3]; exact p2)
      refine ⟨d'', ?_, ?_, e6, e7⟩
      · simp only [resolveM, chainIndicesM_eq xs _ h1.2.2.2.2, e1, Res.bind_ok, f1, e5]
      · simp only [resolve, e1, Res.bind_ok, Desc.slice, e2, e5']
    | viewFrom xs bs =>
      obtain ⟨p1, p2, p3, p4⟩ := hp
      obtain ⟨hla, hlen⟩ := h1
      obtain ⟨e1, e2, e3, e4⟩ := partOf_view hr dbg h hla
      obtain ⟨f1, f2, f3, f4, f5⟩ := view_fits hr dbg h hf hla p1
      have hri : (theView (idxGen xs) d).reindexList bs = .ok { theView (idxGen xs) d with
          bases := bs, originOffset := calcIndexingOffset (theView (idxGen xs) d).strides bs } := by
        have hl : (theView (idxGen xs) d).extents.length = bs.length := by rw [e3, hlen]
        unfold View.reindexList
        simp [copyN, View.numDims, hl]
      have := e4 _ (.reindexList .refl hri)
      have hrm := C51_view_reindex hri (by show absDot bs (theView (idxGen xs) d).strides < _; rw [f3]; omega)
      have hfit : DescFits (View.desc { theView (idxGen xs) d with
          bases := bs, originOffset := calcIndexingOffset (theView (idxGen xs) d).strides bs }) := by
        refine ⟨?_, ?_, ?_⟩
        · show InsideIndex bs (theView (idxGen xs) d).extents
          rw [e3]; exact p2
        · show absDot bs (theView (idxGen xs) d).strides + span (theView (idxGen xs) d).extents (theView (idxGen xs) d).strides < _
          rw [e3, f3]; exact p3
        · show sizeBound (theView (idxGen xs) d).extents < _
          rw [e3]; exact f5
      obtain ⟨d'', e5, e5', e6, e7⟩ := ih (p := p.sel (.viewFrom xs bs)) ⟨this.handle, this.bases, this.extents, this.root⟩ hfit h2
        (by show APart.PathFits _ (theView (idxGen xs) d).strides ss; rw [f3]; exact p4)
      refine ⟨d'', ?_, ?_, e6, e7⟩
      · simp only [resolveM, chainIndicesM_eq xs _ hla.2.2.2.2, e1, Res.bind_ok, f1, hrm, e5]
      · simp only [resolve, e1, Res.bind_ok, Desc.slice, e2, hri, e5']

/-- A header with the shape, bases and order of a fitting abstract array fits. -/
theorem headerFits_of {n : Nat} {ref : ARef} (hr : Reachable n ref) {abs : AbsArr T} (hf : abs.Fits) (h1 : ref.bases = abs.bases)
    (h2 : ref.extents = abs.extents) (h3 : ref.storage = abs.order) : HeaderFits ref := by
  have hst := strides_eq_strideOf hr
  obtain ⟨f1, f2⟩ := hf
  refine ⟨?_, by rw [h1, h2]; exact f2⟩
  unfold ArrayFits
  rw [hst, h1, h2, h3]
  exact f1

theorem Spec.Represents.headerFits {s : St T} {a : MArr} {abs : AbsArr T} (h : Represents s a abs) (hf : abs.Fits) : HeaderFits a.ref :=
  headerFits_of h.owns.reach hf h.bases h.extents h.order

theorem Spec.Represents.strides {s : St T} {a : MArr} {abs : AbsArr T} (h : Represents s a abs) : a.ref.strides = abs.strides := by
  rw [strides_eq_strideOf h.owns.reach, h.extents, h.order]; rfl

theorem Spec.Represents.descFits {s : St T} {a : MArr} {abs : AbsArr T} (h : Represents s a abs) (hf : abs.Fits) : DescFits a.ref.desc :=
  .array h.owns.reach.wf (h.headerFits hf)

/-- The operations of C52 on an array that fits before and after. -/
theorem concStepM_eq (dbg : Bool) (dflt : T) {s0 s : St T} {a : MArr} {abs : AbsArr T} (h : Represents s0 a abs) (op : AOp T)
    (hleg : abs.Legal op) (hf : abs.Fits) (hf' : ∀ o abs', abs.step dflt op = some (o, abs') → abs'.Fits) :
    concStepM dbg dflt a s op = concStep dbg dflt a s op := by
  have hr := h.owns.reach
  have hnd : a.ref.numDims = abs.extents.length := by rw [← h.extents]; rfl
  have hd := h.descFits hf
  cases op with
  | read idx =>
    obtain ⟨k1, k2⟩ := hd.access dbg (idx := idx) ((h.inBox idx).mpr hleg)
    simp only [concStepM, concStep, Machine.readElem, MultiArray.readElem, k1]
  | readChain idx =>
    obtain ⟨k1, k2⟩ := hd.access dbg (idx := idx) ((h.inBox idx).mpr hleg)
    simp only [concStepM, concStep, Machine.readChain, MultiArray.readChain, k2]
  | write idx v =>
    obtain ⟨k1, k2⟩ := hd.access dbg (idx := idx) ((h.inBox idx).mpr hleg)
    simp only [concStepM, concStep, Machine.writeElem, MultiArray.writeElem, k1]
  | writeChain idx v =>
    obtain ⟨k1, k2⟩ := hd.access dbg (idx := idx) ((h.inBox idx).mpr hleg)
    simp only [concStepM, concStep, Machine.writeChain, MultiArray.writeChain, k2]
  | reindex bs =>
    obtain ⟨ref, e1, e2, e3, _, e5, e6, e7, _⟩ := C11_reindex_relabels hr bs hleg
    have hfit := headerFits_of (.reindexList hr e1) (hf' _ _ rfl) e2 (by rw [e3, h.extents]) (by rw [e5, h.order])
    simp only [concStepM, concStep, C51_reindex hr e1 hfit.1, e1]
  | reindexAll b =>
    obtain ⟨ref, e1, e2, e3, _, e5, e6, e7, _⟩ := C11_reindex_relabels hr (List.replicate abs.extents.length b) (by simp)
    have e8 := C11_reindex_all hr b
    have hfit := headerFits_of (.reindexList hr e1) (hf' _ _ rfl) e2 (by rw [e3, h.extents]) (by rw [e5, h.order])
    have := C51_reindex hr e1 hfit.1
    rw [e1] at e8
    cases e8
    simp only [concStepM, concStep, Machine.reindexAll, hnd, this]
    rfl
  | reshape es =>
    obtain ⟨hl, hp⟩ := hleg
    have hp' : es.prod = a.ref.numElements := by rw [hp, h.num]
    obtain ⟨ref, e1, e2, e3, e4, e5, e6, _⟩ := C13_reshape_preserves hr dbg es hl hp'
    have hfit := headerFits_of (.reshape hr hl hp' e1) (hf' _ _ rfl) (by rw [e5, h.bases]) e2 (by rw [e6, h.order])
    simp only [concStepM, concStep, C51_reshape hr hl e1 hfit.1, e1]
  | assign input => rfl
  | forEach f =>
    simp only [concStepM, concStep]
    rw [Machine.forEach_eq dbg f _ a.ref.desc hr.wf.wellShaped rfl hd.dims]
  | resize rs =>
    obtain ⟨hl, hle, _⟩ := hleg
    obtain ⟨ref, hof, hrr, _, h3, h4, h5⟩ := ofExtentGen_ok Ptr.null ⟨abs.extents.length, rs⟩ rfl hl hr.wf.order
    have hfit := headerFits_of hrr (hf' _ _ rfl) (by rw [h4, legalExtents_start]) (by rw [h5, legalExtents_size hle]) (by rw [h3, h.order])
    simp only [concStepM, concStep, hnd]
    rw [Machine.resize_eq dbg dflt hr (h.headerFits hf) (g := ⟨abs.extents.length, rs⟩) rfl hl hle hof hfit s]
  | resizeList es =>
    obtain ⟨hl, hes, hrep⟩ := hleg
    obtain ⟨ref, hof⟩ := ARef.init_succeeds (n := abs.extents.length) Ptr.null (List.replicate abs.extents.length 0) (es := es) hr.wf.order (by omega)
    obtain ⟨_, _, h3, h4, h5, _⟩ := ARef.init_ok hof hr.wf.order (by simp)
    have hfit := headerFits_of (.ofExtents hr.wf.order hof) (hf' _ _ rfl) (by rw [h4, ← hl]) (by rw [h5, List.take_of_length_le (by omega)])
      (by rw [h3, h.order])
    simp only [concStepM, concStep]
    rw [Machine.resizeExtents_eq dbg dflt hr (h.headerFits hf) hof hfit s]
  | query => rfl

theorem memM_eq {α : Type} {dbg : Bool} {dflt : T} {w : World T} {op : Op T} {e : Exec T α} (hop : w.step dbg dflt op = w.mem e) :
    w.memM e = w.simple dbg dflt op := by
  unfold World.memM World.simple
  rw [hop]
  unfold World.mem
  cases e w.st <;> rfl

theorem ctorM_eq {dbg : Bool} {dflt : T} {w : World T} {x : Nat} {i : Init} {c : Ctor} (hi : i.ctor w.objs = some c)
    (hc : (c.runM dbg dflt : Exec T MArr) = c.run dbg dflt) : w.ctorM dbg dflt x c = w.simple dbg dflt (.construct x i) := by
  unfold World.ctorM World.simple
  simp only [World.step, hi, hc]
  cases c.run dbg dflt w.st <;> rfl

theorem default_fits {n : Nat} {ref : ARef} (hr : Reachable n ref) (h1 : ref.bases = List.replicate n 0) (h2 : ref.extents = List.replicate n 0) :
    ArrayFits ref := by
  unfold ArrayFits
  rw [h1, absDot_zero, h2]
  have : sizeBound (List.replicate n 0) = 1 := by
    unfold sizeBound
    induction n with
    | zero => rfl
    | succ n ih => simp [List.replicate_succ]
  omega

/-- The library object of a variable. -/
theorem Spec.World.Rep.absAt {w : World T} {t : St T} {A : AState T} (h : (⟨w.objs, t⟩ : World T).Rep A) {x : Nat} {abs : AbsArr T}
    (hx : A x = some abs) : ∃ a, w.objs x = some a ∧ Represents t a abs := h.abs hx

/-- Expressions of a command. -/
theorem Spec.World.Rep.partM {w : World T} {t : St T} {A : AState T} (h : (⟨w.objs, t⟩ : World T).Rep A) (hA : A.Fits) (dbg : Bool) {x : Nat} {ss : List Sel} {p : APart}
    (hp : A.Part x ss p) (hfit : A.ExprFits x ss) :
    ∃ a d, w.objs x = some a ∧ w.lookup dbg x ss = some d ∧ w.lookupM dbg x ss = some d ∧ PartOf a.ref d p ∧ WellShaped d ∧ DescFits d := by
  obtain ⟨abs, hAx, hleg, rfl⟩ := hp
  obtain ⟨a, hx, hr⟩ := h.absAt hAx
  obtain ⟨d, e1, e2, e3, e4⟩ := resolveM_eq hr.owns.reach.wf dbg ss hr.partOf (hr.descFits (hA x abs hAx)) hleg
    (by show APart.PathFits _ a.ref.strides ss; rw [hr.strides]; exact hfit abs hAx)
  exact ⟨a, d, hx, by simp [World.lookup, hx, e2, Res.val?], by simp [World.lookupM, hx, e1, Res.val?], e3,
    partOf_wellShaped hr.owns.reach e3, e4⟩

/-- The constructor calls of an initialisation. -/
def CtorsAgree (dbg : Bool) (dflt : T) (w : World T) : CInit → Prop
  | .default n al => (Ctor.runM dbg dflt (.default n al) : Exec T MArr) = Ctor.run dbg dflt (.default n al)
  | .extents n es so al => (Ctor.runM dbg dflt (.extents n es so al) : Exec T MArr) = Ctor.run dbg dflt (.extents n es so al)
  | .gen n rs so al => (Ctor.runM dbg dflt (.gen n rs so al) : Exec T MArr) = Ctor.run dbg dflt (.gen n rs so al)
  | .copy y => ∃ a, w.objs y = some a
  | .convert y ss so al => ∃ a d, w.objs y = some a ∧ w.lookup dbg y ss = some d ∧ w.lookupM dbg y ss = some d ∧
      (Ctor.runM dbg dflt (.convert d.extents.length d so al) : Exec T MArr) = Ctor.run dbg dflt (.convert d.extents.length d so al)

theorem ctorsAgree (dbg : Bool) (dflt : T) (eq lt : T → T → Bool) {w : World T} {t : St T} {A : AState T} (h : (⟨w.objs, t⟩ : World T).Rep A) (hA : A.Fits) (x : Nat) (i : CInit)
    (hleg : (Cmd.construct x i : Cmd T).Legal A) (hv : (Cmd.construct x i : Cmd T).ViewsFit A)
    (hA' : ∀ o A', A.step dflt eq lt (.construct x i) = some (o, A') → A'.Fits) : CtorsAgree dbg dflt w i := by
  obtain ⟨hx, hi⟩ := hleg
  have hnew : ∀ abs, i.value dflt A = some abs → abs.Fits := by
    intro abs he
    exact hA' (.basic .unit) (A.set x (some abs)) (by simp [AState.step, he]) x abs (by rw [AState.set_same])
  cases i with
  | default n al =>
    obtain ⟨ref, hr⟩ := ARef.init_succeeds (n := n) Ptr.null (List.replicate n 0) (es := List.replicate n 0) (cOrder_valid n) (by simp)
    have hof : ARef.ofShape n Ptr.null (StorageOrder.cOrder n) none none = .ok ref := by simp [ARef.ofShape, hr]
    obtain ⟨_, _, h3, h4, h5, _⟩ := ARef.init_ok hr (cOrder_valid n) (by simp)
    have hf := headerFits_of (.ofShape (cOrder_valid n) hof) (hnew _ rfl) h4 (by rw [h5, List.take_of_length_le (by simp)]) h3
    simp only [CtorsAgree, Ctor.runM, Ctor.run, Machine.mkDefault, MArr.mkDefault, Machine.ofShape_eq (cOrder_valid n) hof hf.1, hof]
  | extents n es so al =>
    obtain ⟨hv', hl⟩ := hi
    obtain ⟨ref, hr⟩ := ARef.init_succeeds (n := n) Ptr.null (List.replicate n 0) (es := es) hv' (by omega)
    obtain ⟨_, _, h3, h4, h5, _⟩ := ARef.init_ok hr hv' (by simp)
    have hof : ARef.ofExtents n Ptr.null es so = .ok ref := hr
    have hf := headerFits_of (.ofExtents hv' hof) (hnew _ rfl) h4 (by rw [h5, List.take_of_length_le (by omega)]) h3
    simp only [CtorsAgree, Ctor.runM, Ctor.run, Machine.mkExtents, MArr.mkExtents, Machine.ofExtents_eq hv' hof hf.1, hof]
  | gen n rs so al =>
    obtain ⟨hv', hl, hle⟩ := hi
    obtain ⟨ref, hof, hr, _, h3, h4, h5⟩ := ofExtentGen_ok Ptr.null ⟨n, rs⟩ rfl hl hv'
    have hf := headerFits_of hr (hnew _ rfl) (by rw [h4, legalExtents_start]) (by rw [h5, legalExtents_size hle]) h3
    simp only [CtorsAgree, Ctor.runM, Ctor.run]
    exact Machine.mkExtentGen_eq al hv' rfl hl hle hof hf.1
  | copy y =>
    obtain ⟨abs, hAy⟩ := hi
    obtain ⟨a, hy, hr⟩ := h.absAt hAy
    exact ⟨a, hy⟩
  | convert y ss so al =>
    obtain ⟨p, hp, hpos, hso⟩ := hi
    obtain ⟨a, d, hy, hd, hdm, hpo, hw, hdf⟩ := h.partM hA dbg hp hv
    have hval := hnew ⟨p.bases, p.extents, so, layout dflt so p.extents (fun k => A.get y (p.root (atPos p.bases k)))⟩ (by
      obtain ⟨abs, h1, h2, rfl⟩ := hp
      simp only [CInit.value, AState.part, h1, Option.map_some])
    refine ⟨a, d, hy, hd, hdm, ?_⟩
    simp only [Ctor.runM, Ctor.run]
    have hlen : d.extents.length = p.extents.length := by rw [hpo.extents]
    obtain ⟨ref, hr⟩ := ARef.init_succeeds (n := p.extents.length) Ptr.null d.bases (es := d.extents) hso (by omega)
    have hbl : d.bases.length = p.extents.length := by rw [hw.2, hlen]
    have hof : ARef.ofShape p.extents.length Ptr.null so (some d.bases) (some d.extents) = .ok ref := by
      simp only [ARef.ofShape]
      rw [copyN_self hbl]
      exact hr
    obtain ⟨_, _, h3, h4, h5, _⟩ := ARef.init_ok hr hso hbl
    exact Machine.mkConvert_eq dbg dflt al hso hlen hw hdf.dims hof
      (headerFits_of (.ofShape hso hof) hval (by rw [h4, hpo.bases]) (by rw [h5, List.take_of_length_le (by omega), hpo.extents]) h3)

theorem ctor_step (dbg : Bool) (dflt : T) (eq lt : T → T → Bool) {w : World T} {t : St T} {A : AState T} (h : (⟨w.objs, t⟩ : World T).Rep A) (hA : A.Fits) (x : Nat) (i : CInit)
    (hleg : (Cmd.construct x i : Cmd T).Legal A) (hv : (Cmd.construct x i : Cmd T).ViewsFit A)
    (hA' : ∀ o A', A.step dflt eq lt (.construct x i) = some (o, A') → A'.Fits) :
    w.execM dbg dflt eq lt (.construct x i) = w.exec dbg dflt eq lt (.construct x i) := by
  have hc := ctorsAgree dbg dflt eq lt h hA x i hleg hv hA'
  cases i with
  | default n al => exact ctorM_eq (i := .default n al) rfl hc
  | extents n es so al => exact ctorM_eq (i := .extents n es so al) rfl hc
  | gen n rs so al => exact ctorM_eq (i := .gen n rs so al) rfl hc
  | copy y =>
    obtain ⟨a, hy⟩ := hc
    simp only [World.execM, World.exec, hy, Option.bind_some]
    exact ctorM_eq (by simp [Init.ctor, hy]) rfl
  | convert y ss so al =>
    obtain ⟨a, d, hy, hd, hdm, hc⟩ := hc
    simp only [World.execM, World.exec, hd, hdm, Option.bind_some]
    exact ctorM_eq (by simp [Init.ctor, hy]) hc

/-- One command. -/
theorem execM_eq (dbg : Bool) (dflt : T) (eq lt : T → T → Bool) {w : World T} {t : St T} {A : AState T} (h : (⟨w.objs, t⟩ : World T).Rep A) (hA : A.Fits) (c : Cmd T)
    (hleg : c.Legal A) (hv : c.ViewsFit A) (hA' : ∀ o A', A.step dflt eq lt c = some (o, A') → A'.Fits) :
    w.execM dbg dflt eq lt c = w.exec dbg dflt eq lt c := by
  cases c with
  | construct x i => exact ctor_step dbg dflt eq lt h hA x i hleg hv hA'
  | destroy x =>
    obtain ⟨abs, hAx⟩ := hleg
    obtain ⟨a, hx, hr⟩ := h.absAt hAx
    simp only [World.execM, World.exec, hx, Option.bind_some, World.simple, World.step]
    cases a.deallocateSpace w.st <;> rfl
  | on x op =>
    obtain ⟨abs, hAx, hl⟩ := hleg
    obtain ⟨a, hx, hr⟩ := h.absAt hAx
    simp only [World.execM, World.exec, hx, Option.bind_some]
    rw [concStepM_eq dbg dflt hr op hl (hA x abs hAx)]
    intro o abs' hs
    exact hA' (.basic o) (A.set x (some abs')) (by simp [AState.step, hAx, hs]) x abs' (by rw [AState.set_same])
  | assign x y =>
    obtain ⟨abs, abs', hAx, hAy, he⟩ := hleg
    obtain ⟨a, hx, hr⟩ := h.absAt hAx
    obtain ⟨a', hy, hr'⟩ := h.absAt hAy
    simp only [World.execM, World.exec, hx, hy, Option.bind_some]
    have : (Machine.assignFrom dbg (decide (x = y)) a a' : Exec T Unit) = a.assignFrom dbg (decide (x = y)) a' := by
      unfold Machine.assignFrom MArr.assignFrom
      rw [assignOp_eq, Machine.assignOpW_eq dbg _ eltCopy a.ref.desc a'.ref.desc hr.owns.reach.wf.wellShaped hr'.owns.reach.wf.wellShaped
        (hr.descFits (hA x abs hAx)).dims (hr'.descFits (hA y abs' hAy)).dims (.inl (by show a.ref.extents = a'.ref.extents; rw [hr.extents, hr'.extents, he]))]
    rw [this]
    exact memM_eq (by simp [World.step, hx, hy])
  | assignPart x ss y ss' =>
    obtain ⟨p, q, hp, hq, he⟩ := hleg
    obtain ⟨a, d, hx, hd, hdm, hpo, hw, hdf⟩ := h.partM hA dbg hp hv.1
    obtain ⟨a', d', hy, hd', hdm', hpo', hw', hdf'⟩ := h.partM hA dbg hq hv.2
    simp only [World.execM, World.exec, hd, hdm, hd', hdm', Option.bind_some]
    rw [Machine.assignOpW_eq dbg false eltCopy d d' hw hw' hdf.dims hdf'.dims (.inl (by rw [hpo.extents, hpo'.extents, he]))]
    exact memM_eq rfl
  | copyArray x ss y ss' =>
    obtain ⟨p, q, hp, hq, he⟩ := hleg
    obtain ⟨a, d, hx, hd, hdm, hpo, hw, hdf⟩ := h.partM hA dbg hp hv.1
    obtain ⟨a', d', hy, hd', hdm', hpo', hw', hdf'⟩ := h.partM hA dbg hq hv.2
    simp only [World.execM, World.exec, hd, hdm, hd', hdm', Option.bind_some]
    rw [Machine.copyArrayW_eq dbg eltCopy d d' hw hw' hdf.dims hdf'.dims (.inl (by rw [hpo.extents, hpo'.extents, he]))]
    exact memM_eq rfl
  | read x ss idx =>
    obtain ⟨p, hp, hin⟩ := hleg
    obtain ⟨a, d, hx, hd, hdm, hpo, hw, hdf⟩ := h.partM hA dbg hp hv
    simp only [World.execM, World.exec, hd, hdm, Option.bind_some]
    obtain ⟨k1, _⟩ := hdf.access dbg (idx := idx) (by rw [hpo.bases, hpo.extents]; exact hin)
    simp only [Machine.readElem, MultiArray.readElem, k1]
  | write x ss idx v =>
    obtain ⟨p, hp, hin⟩ := hleg
    obtain ⟨a, d, hx, hd, hdm, hpo, hw, hdf⟩ := h.partM hA dbg hp hv
    simp only [World.execM, World.exec, hd, hdm, Option.bind_some]
    obtain ⟨k1, _⟩ := hdf.access dbg (idx := idx) (by rw [hpo.bases, hpo.extents]; exact hin)
    have : (Machine.writeElem dbg d idx v : Exec T Unit) = MultiArray.writeElem dbg d idx v := by
      simp only [Machine.writeElem, MultiArray.writeElem, k1]
    rw [this]
    exact memM_eq rfl
  | forEach x ss f =>
    obtain ⟨p, hp⟩ := hleg
    obtain ⟨a, d, hx, hd, hdm, hpo, hw, hdf⟩ := h.partM hA dbg hp hv
    simp only [World.execM, World.exec, hd, hdm, Option.bind_some]
    rw [Machine.forEach_eq dbg f _ d hw rfl hdf.dims]
    exact memM_eq rfl
  | traverse x ss =>
    obtain ⟨p, hp⟩ := hleg
    obtain ⟨a, d, hx, hd, hdm, hpo, hw, hdf⟩ := h.partM hA dbg hp hv
    simp only [World.execM, World.exec, hd, hdm, Option.bind_some]
    rw [C51_iteration dbg _ d hw (fun e he => mem_le_sum he) hdf.dims, nestedLoop_spec dbg _ d hw (fun e he => mem_le_sum he)]
  | equal x ss y ss' =>
    obtain ⟨p, q, hp, hq, he⟩ := hleg
    obtain ⟨a, d, hx, hd, hdm, hpo, hw, hdf⟩ := h.partM hA dbg hp hv.1
    obtain ⟨a', d', hy, hd', hdm', hpo', hw', hdf'⟩ := h.partM hA dbg hq hv.2
    simp only [World.execM, World.exec, hd, hdm, hd', hdm', Option.bind_some]
    rw [Machine.equalRef_eq dbg eq w.st _ d d' hw hw' rfl hdf.dims hdf'.dims]
  | less x ss y ss' =>
    obtain ⟨p, q, hp, hq, he⟩ := hleg
    obtain ⟨a, d, hx, hd, hdm, hpo, hw, hdf⟩ := h.partM hA dbg hp hv.1
    obtain ⟨a', d', hy, hd', hdm', hpo', hw', hdf'⟩ := h.partM hA dbg hq hv.2
    simp only [World.execM, World.exec, hd, hdm, hd', hdm', Option.bind_some]
    rw [Machine.lessRef_eq dbg lt w.st _ d d' hw hw' rfl (by rw [hpo.extents, hpo'.extents, he]) hdf.dims hdf'.dims]
  | shape x ss =>
    obtain ⟨p, hp⟩ := hleg
    obtain ⟨a, d, hx, hd, hdm, hpo, hw, hdf⟩ := h.partM hA dbg hp hv
    simp only [World.execM, World.exec, hd, hdm, Option.map_some]

theorem FitRun.head {dflt : T} {eq lt : T → T → Bool} {prog : List (Cmd T)} {A : AState T} (h : AState.FitRun dflt eq lt prog A) : A.Fits := by
  cases prog with
  | nil => exact h
  | cons c cs => exact h.1

/-- A whole program. -/
theorem execAllM_eq (dbg : Bool) (dflt : T) (eq lt : T → T → Bool) (prog : List (Cmd T)) {w : World T} {A : AState T} (h : w.Rep A)
    (hleg : AState.LegalRun dflt eq lt prog A) (hfit : AState.FitRun dflt eq lt prog A) :
    World.execAllM dbg dflt eq lt prog w = World.execAll dbg dflt eq lt prog w := by
  induction prog generalizing w A with
  | nil => rfl
  | cons c cs ih =>
    obtain ⟨o, A1, w1, e1, e2, e3⟩ := cmd_ok dbg dflt eq lt h c hleg.1
    have := execM_eq dbg dflt eq lt h hfit.1 c hleg.1 hfit.2.1 (fun o' A' hs => FitRun.head (hfit.2.2 o' A' hs))
    simp only [World.execAllM, World.execAll, this, e2, Option.bind_some]
    rw [ih e3 (hleg.2 o A1 e1) (hfit.2.2 o A1 e1)]

end MultiArray
