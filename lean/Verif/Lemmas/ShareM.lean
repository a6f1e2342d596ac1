import Verif.SpecShareM
import Verif.Lemmas.ProgM
import Verif.Props.Share

/- Programs with shared storage on a 64-bit machine agree with those of SpecShare.lean when everything fits. -/
set_option autoImplicit false

namespace MultiArray
open Spec Props
variable {T : Type} {g : Ghost}

/-! ### Parts of arbitrary descriptors -/

/-- The view of a fitting handle that fits. -/
theorem partIn_view_fits (dbg : Bool) {d0 d : Desc} {p : APart} (h : PartIn d0 d p) (hf : DescFits d)
    {xs : List IndexArg} (hleg : LegalArgs p xs) (hv : ViewFits p d.strides xs) :
    Machine.generateArrayView dbg (idxGen xs) d = .ok (theView (idxGen xs) d) ∧ DescFits (theView (idxGen xs) d).desc ∧
    (theView (idxGen xs) d).strides = viewStrides (xs.map IndexArg.toRange) d.strides ∧
    sizeBound (viewCounts (xs.map IndexArg.toRange) p.bases p.extents) < 2 ^ 63 := by
  obtain ⟨_, e2, e3, _⟩ := partIn_view dbg h hleg
  obtain ⟨hne, hl, hno, hrng, hidx⟩ := hleg
  have hrs : (idxGen xs).ranges = xs.map IndexArg.toRange := by simp [idxGen, genList, hne]
  obtain ⟨s1, s2, s3⟩ := view_span hl hno (ss := d.strides) (by rw [← h.extents]; exact h.shaped.1)
  have hst : (theView (idxGen xs) d).strides = viewStrides (xs.map IndexArg.toRange) d.strides := by
    rw [viewStrides_eq, ← hrs]; rfl
  have hsz := hf.size
  have hre := hf.reach
  rw [h.extents] at hsz hre
  have hb : (theView (idxGen xs) d).bases = List.replicate (viewCounts (xs.map IndexArg.toRange) p.bases p.extents).length 0 := by
    rw [← e3]; simp [theView, View.mkView]
  refine ⟨?_, ⟨?_, ?_, ?_⟩, hst, by omega⟩
  · rw [C51_views dbg (idxGen xs) d (by rw [hrs, h.bases, h.extents]; exact hv.1) (by rw [hrs, h.bases]; exact hv.2) (fun v hv' => ?_)]
    · exact e2
    · rw [e2] at hv'
      cases hv'
      have : (theView (idxGen xs) d).numElements = MultiArray.product (theView (idxGen xs) d).extents := rfl
      rw [this, e3, product_eq]
      have := prod_le_sizeBound (viewCounts (xs.map IndexArg.toRange) p.bases p.extents)
      omega
  · show InsideIndex (theView (idxGen xs) d).bases (theView (idxGen xs) d).extents
    rw [hb, e3]
    exact inside_zero (fun e he => by have := le_sizeBound he; omega) _
  · show absDot (theView (idxGen xs) d).bases (theView (idxGen xs) d).strides + span (theView (idxGen xs) d).extents (theView (idxGen xs) d).strides < _
    rw [hb, e3, hst, absDot_zero]
    omega
  · show sizeBound (theView (idxGen xs) d).extents < _
    rw [e3]
    omega

/-- Expressions evaluate to the same descriptor, which fits again. -/
theorem resolveM_partIn (dbg : Bool) (ss : List Sel) {d0 d : Desc} {p : APart} (h : PartIn d0 d p)
    (hf : DescFits d) (hleg : p.LegalPath ss) (hp : p.PathFits d.strides ss) :
    ∃ d', resolveM dbg ss d = .ok d' ∧ resolve dbg ss d = .ok d' ∧ PartIn d0 d' (p.path ss) ∧ DescFits d' ∧ d'.strides = pathStrides d.strides ss := by
  induction ss generalizing d p with
  | nil => exact ⟨d, rfl, rfl, h, hf, rfl⟩
  | cons s ss ih =>
    obtain ⟨h1, h2⟩ := hleg
    cases s with
    | «at» i =>
      obtain ⟨d', e1, e2⟩ := partIn_at dbg h h1
      obtain ⟨d1, e1', _⟩ := partIn_at true h h1
      obtain ⟨f1, f2⟩ := hf.sub e1
      have f3 := hf.access1 dbg e1'
      obtain ⟨d'', e3, e3', e4, e5, e6⟩ := ih e2 f1 h2 (by rw [f2]; exact hp)
      refine ⟨d'', ?_, ?_, e4, e5, by rw [e6, f2]; rfl⟩
      · simp only [resolveM, f3, e1, Res.bind_ok, e3]
      · simp only [resolve, Desc.bracket, e1, Res.bind_ok, e3']
    | view xs =>
      obtain ⟨p1, p2⟩ := hp
      obtain ⟨e1, e2, _⟩ := partIn_view dbg h h1
      obtain ⟨f1, f2, f3, _⟩ := partIn_view_fits dbg h hf h1 p1
      obtain ⟨d'', e5, e5', e6, e7, e8⟩ := ih (partIn_theView dbg h h1) f2 h2
        (by show APart.PathFits _ (theView (idxGen xs) d).strides ss; rw [f3]; exact p2)
      refine ⟨d'', ?_, ?_, e6, e7, ?_⟩
      · simp only [resolveM, chainIndicesM_eq xs _ h1.2.2.2.2, e1, Res.bind_ok, f1, e5]
      · simp only [resolve, e1, Res.bind_ok, Desc.slice, e2, e5']
      · rw [e8]; show pathStrides (theView (idxGen xs) d).strides ss = _; rw [f3]; rfl
    | viewFrom xs bs =>
      obtain ⟨p1, p2, p3, p4⟩ := hp
      obtain ⟨hla, hlen⟩ := h1
      obtain ⟨e1, e2, e3, _, e4⟩ := partIn_view dbg h hla
      obtain ⟨f1, f2, f3, f5⟩ := partIn_view_fits dbg h hf hla p1
      have hri : (theView (idxGen xs) d).reindexList bs = .ok { theView (idxGen xs) d with
          bases := bs, originOffset := calcIndexingOffset (theView (idxGen xs) d).strides bs } := by
        have hl : (theView (idxGen xs) d).extents.length = bs.length := by rw [e3, hlen]
        unfold View.reindexList
        simp [copyN, View.numDims, hl]
      have := e4 _ (.reindexList .refl hri)
      have hrm := C51_view_reindex hri (by show absDot bs (theView (idxGen xs) d).strides < _; rw [f3]; omega)
      have hfit : DescFits (View.desc { theView (idxGen xs) d with
          bases := bs, originOffset := calcIndexingOffset (theView (idxGen xs) d).strides bs }) := by
        refine ⟨?_, ?_, ?_⟩
        · show InsideIndex bs (theView (idxGen xs) d).extents
          rw [e3]; exact p2
        · show absDot bs (theView (idxGen xs) d).strides + span (theView (idxGen xs) d).extents (theView (idxGen xs) d).strides < _
          rw [e3, f3]; exact p3
        · show sizeBound (theView (idxGen xs) d).extents < _
          rw [e3]; exact f5
      obtain ⟨d'', e5, e5', e6, e7, e8⟩ := ih (p := p.sel (.viewFrom xs bs)) ⟨this.shaped, this.bases, this.extents, this.root⟩ hfit h2
        (by show APart.PathFits _ (theView (idxGen xs) d).strides ss; rw [f3]; exact p4)
      refine ⟨d'', ?_, ?_, e6, e7, ?_⟩
      · simp only [resolveM, chainIndicesM_eq xs _ hla.2.2.2.2, e1, Res.bind_ok, f1, hrm, e5]
      · simp only [resolve, e1, Res.bind_ok, Desc.slice, e2, hri, e5']
      · rw [e8]; show pathStrides (theView (idxGen xs) d).strides ss = _; rw [f3]; rfl

theorem pathFits_append {p : APart} {strides : List Int} {ss : List Sel} {xs : List IndexArg} (h : p.PathFits strides (ss ++ [.view xs])) :
    p.PathFits strides ss ∧ ViewFits (p.path ss) (pathStrides strides ss) xs := by
  induction ss generalizing p strides with
  | nil => exact ⟨trivial, h.1⟩
  | cons s ss ih =>
    cases s with
    | «at» i => exact ih h
    | view ys => obtain ⟨h1, h2⟩ := h; exact ⟨⟨h1, (ih h2).1⟩, (ih h2).2⟩
    | viewFrom ys bs => obtain ⟨h1, h2, h3, h4⟩ := h; exact ⟨⟨h1, h2, h3, (ih h4).1⟩, (ih h4).2⟩

theorem viewReindex_eq {v v' : View} {bs : List Int} (h : v.reindexList bs = .ok v') : v'.strides = v.strides ∧ v'.extents = v.extents := by
  unfold View.reindexList at h
  cases hc : copyN bs v.numDims with
  | ok l => rw [hc] at h; simp at h; subst h; exact ⟨rfl, rfl⟩
  | assertFail => rw [hc] at h; cases h
  | ub => rw [hc] at h; cases h

/-! ### The invariant -/

/-- Every array fits; every held view or subarray has the remembered strides, and fits. -/
structure FitInv (vars : Nat → Option CVar) (s : St T) (A : SState T) (σ : Nat → List Int) : Prop where
  arr : ∀ x h, A.vars x = some (.owner h) ∨ A.vars x = some (.ref h) → h.Fits
  held : ∀ x p, A.vars x = some (.view p) ∨ (∃ o, A.vars x = some (.sub o p)) →
    ∃ d, (⟨vars, s⟩ : SWorld T).desc x = some d ∧ d.strides = σ x ∧ DescFits d

theorem HdrRep.headerFits {st : Nat → Option (List T)} {c : Nat} {a : ARef} {h : SArr} (hh : HdrRep g st c a h) (hf : h.Fits) : HeaderFits a :=
  headerFits_of (T := T) (abs := ⟨h.bases, h.extents, h.order, []⟩) hh.reach hf hh.bases hh.extents hh.order

theorem HdrRep.strides {st : Nat → Option (List T)} {c : Nat} {a : ARef} {h : SArr} (hh : HdrRep g st c a h) : a.strides = h.strides := by
  rw [strides_eq_strideOf hh.reach, hh.extents, hh.order]; rfl

theorem HdrRep.descFits {st : Nat → Option (List T)} {c : Nat} {a : ARef} {h : SArr} (hh : HdrRep g st c a h) (hf : h.Fits) : DescFits a.desc :=
  .array hh.reach.wf (hh.headerFits hf)

variable {w : SWorld T} {t : St T} {A : SState T} {σ : Nat → List Int}

/-- The state does not matter to what variables denote. -/
theorem FitInv.reState {vars : Nat → Option CVar} {s s' : St T} (h : FitInv vars s A σ) : FitInv vars s' A σ := ⟨h.arr, h.held⟩

/-- What a variable denotes, with its strides. -/
theorem FitInv.desc (hF : FitInv w.vars w.st A σ) (h : RepG g (⟨w.vars, t⟩ : SWorld T) A) {x : Nat} {v : SVar} {p : SPart} (hx : A.vars x = some v)
    (hp : v.part = some p) : ∃ d, w.desc x = some d ∧ PlaceRep g A.stores A.count d p ∧ d.strides = A.strides σ x ∧ DescFits d := by
  obtain ⟨d, e1, e2⟩ := h.desc hx hp
  refine ⟨d, e1, e2, ?_⟩
  match v, hx, hp with
  | .owner hh, hx, hp =>
    obtain ⟨a, f1, f2, _⟩ := h.owner hx
    have f1' : w.vars x = some (.owner a) := f1
    have : d = a.ref.desc := by
      simp only [SWorld.desc, f1'] at e1; cases e1; rfl
    subst this
    exact ⟨by simp only [SState.strides, hx]; exact f2.strides, f2.descFits (hF.arr x hh (.inl hx))⟩
  | .ref hh, hx, hp =>
    obtain ⟨a, f1, f2⟩ := h.ref hx
    have f1' : w.vars x = some (.ref a) := f1
    have : d = a.desc := by
      simp only [SWorld.desc, f1'] at e1; cases e1; rfl
    subst this
    exact ⟨by simp only [SState.strides, hx]; exact f2.strides, f2.descFits (hF.arr x hh (.inr hx))⟩
  | .view q, hx, hp =>
    obtain ⟨d', f1, f2, f3⟩ := hF.held x q (.inl hx)
    have : some d' = some d := f1.symm.trans e1
    cases this
    exact ⟨by simp only [SState.strides, hx]; exact f2, f3⟩
  | .sub o q, hx, hp =>
    obtain ⟨d', f1, f2, f3⟩ := hF.held x q (.inr ⟨o, hx⟩)
    have : some d' = some d := f1.symm.trans e1
    cases this
    exact ⟨by simp only [SState.strides, hx]; exact f2, f3⟩

/-- The expression `x ss`. -/
theorem FitInv.lookup (hF : FitInv w.vars w.st A σ) (h : RepG g (⟨w.vars, t⟩ : SWorld T) A) (dbg : Bool) {x : Nat} {ss : List Sel} {p : SPart}
    (hp : A.Part x ss p) (hfit : A.ExprFits σ x ss) :
    ∃ d, w.lookup dbg x ss = some d ∧ w.lookupM dbg x ss = some d ∧ PlaceRep g A.stores A.count d p ∧ DescFits d ∧ A.part x ss = some p ∧
      d.strides = pathStrides (A.strides σ x) ss := by
  obtain ⟨v, p0, h1, h2, h3, h4, rfl⟩ := hp
  obtain ⟨d, e1, e2, e3, e4⟩ := hF.desc h h1 h2
  obtain ⟨d', f1, f2, f3, f4, f5⟩ := resolveM_partIn dbg ss e2.self e4 h4 (by rw [e3]; exact hfit v p0 h1 h2)
  exact ⟨d', by simp [SWorld.lookup, e1, f2, Res.val?], by simp [SWorld.lookupM, e1, f1, Res.val?], e2.path f3, f4,
    by simp [SState.part, h1, h2], by rw [f5, e3]⟩

/-- Changing one variable. -/
theorem FitInv.setVar (hF : FitInv w.vars w.st A σ) (h : RepG g (⟨w.vars, t⟩ : SWorld T) A) {x : Nat} {cv : Option CVar} {v : Option SVar} {s' : St T}
    {A' : SState T} {σ' : Nat → List Int} (hA : A'.vars = (A.setVar x v).vars) (hσ : ∀ y, y ≠ x → σ' y = σ y)
    (harr : ∀ h, v = some (.owner h) ∨ v = some (.ref h) → h.Fits)
    (hheld : ∀ p, v = some (.view p) ∨ (∃ o, v = some (.sub o p)) → ∃ d, (w.setVar x cv s').desc x = some d ∧ d.strides = σ' x ∧ DescFits d) :
    FitInv (w.setVar x cv s').vars s' A' σ' := by
  have hvx : A'.vars x = v := by simp [hA, SState.setVar]
  have hvy : ∀ y, y ≠ x → A'.vars y = SState.invalidate x (A.vars y) := fun y hy => by simp [hA, SState.setVar, hy]
  constructor
  · intro y hh hy
    by_cases hyx : y = x
    · subst hyx
      rw [hvx] at hy
      exact harr hh hy
    · rw [hvy y hyx] at hy
      refine hF.arr y hh ?_
      match hv : A.vars y with
      | some (.owner _) | some (.ref _) => rw [hv] at hy; exact hy
      | some (.sub o p) =>
        rw [hv] at hy
        by_cases ho : o = x <;> simp [SState.invalidate, ho] at hy
      | none | some (.view _) | some .stale | some (.buffer _) => rw [hv] at hy; simp [SState.invalidate] at hy
  · intro y p hy
    by_cases hyx : y = x
    · subst hyx
      rw [hvx] at hy
      exact hheld p hy
    · rw [hvy y hyx] at hy
      rw [hσ y hyx]
      match hv : A.vars y with
      | some (.view q) =>
        rw [hv] at hy
        simp [SState.invalidate] at hy
        subst hy
        obtain ⟨d, e1, e2, e3⟩ := hF.held y q (.inl hv)
        refine ⟨d, ?_, e2, e3⟩
        obtain ⟨u, f1, _⟩ := h.view hv
        rw [← e1]
        simp only [SWorld.desc, SWorld.setVar, hyx, if_false]
        show _ = _
        have : w.vars y = some (.view u) := f1
        simp only [this]
      | some (.sub o q) =>
        rw [hv] at hy
        by_cases ho : o = x
        · simp [SState.invalidate, ho] at hy
        · simp [SState.invalidate, ho] at hy
          subst hy
          obtain ⟨d, e1, e2, e3⟩ := hF.held y q (.inr ⟨o, hv⟩)
          refine ⟨d, ?_, e2, e3⟩
          obtain ⟨u, f1, f2, _⟩ := h.sub hv
          have f1' : w.vars y = some (.sub u) := f1
          rw [← e1]
          have hsc : (w.setVar x cv s').scope u.owner = w.scope u.owner := scope_setVar_ne w (by rw [f2]; exact ho) cv s'
          show SWorld.desc (w.setVar x cv s') y = SWorld.desc w y
          simp only [SWorld.desc, f1']
          have : (w.setVar x cv s').vars y = some (.sub u) := by simp [SWorld.setVar, hyx, f1']
          simp only [this, SubObj.desc, hsc]
      | none | some (.owner _) | some (.ref _) | some .stale | some (.buffer _) =>
        rw [hv] at hy; simp [SState.invalidate] at hy

/-- Only memory changed. -/
theorem FitInv.same (hF : FitInv w.vars w.st A σ) {vars : Nat → Option CVar} {s' : St T} {A' : SState T} (hA : A'.vars = A.vars) (hw : vars = w.vars) :
    FitInv vars s' A' σ := by
  subst hw
  exact ⟨by rw [hA]; exact hF.arr, by rw [hA]; exact hF.held⟩

/-! ### The same result -/

theorem share_ctorM (dbg : Bool) (dflt : T) (hF : FitInv w.vars w.st A σ) (h : RepG g (⟨w.vars, t⟩ : SWorld T) A) (x : Nat) (i : CInit)
    (hleg : A.Legal (.construct x i)) (hfit : A.CmdFits dflt σ (.construct x i)) : w.ctorM dbg dflt i = w.ctor dbg dflt i := by
  obtain ⟨hx, hi⟩ := hleg
  cases i with
  | default n al =>
    obtain ⟨ref, hr⟩ := ARef.init_succeeds (n := n) Ptr.null (List.replicate n 0) (es := List.replicate n 0) (cOrder_valid n) (by simp)
    have hof : ARef.ofShape n Ptr.null (StorageOrder.cOrder n) none none = .ok ref := by simp [ARef.ofShape, hr]
    obtain ⟨_, _, h3, h4, h5, _⟩ := ARef.init_ok hr (cOrder_valid n) (by simp)
    have hf := headerFits_of (.ofShape (cOrder_valid n) hof) (hfit.2 _ rfl) h4 (by rw [h5, List.take_of_length_le (by simp)]) h3
    simp only [SWorld.ctorM, SWorld.ctor, Machine.mkDefault, MArr.mkDefault, Machine.ofShape_eq (cOrder_valid n) hof hf.1, hof]
  | extents n es so al =>
    obtain ⟨hv', hl⟩ := hi
    obtain ⟨ref, hr⟩ := ARef.init_succeeds (n := n) Ptr.null (List.replicate n 0) (es := es) hv' (by omega)
    obtain ⟨_, _, h3, h4, h5, _⟩ := ARef.init_ok hr hv' (by simp)
    have hof : ARef.ofExtents n Ptr.null es so = .ok ref := hr
    have hf := headerFits_of (.ofExtents hv' hof) (hfit.2 _ rfl) h4 (by rw [h5, List.take_of_length_le (by omega)]) h3
    simp only [SWorld.ctorM, SWorld.ctor, Machine.mkExtents, MArr.mkExtents, Machine.ofExtents_eq hv' hof hf.1, hof]
  | gen n rs so al =>
    obtain ⟨hv', hl, hle⟩ := hi
    obtain ⟨ref, hof, hr, _, h3, h4, h5⟩ := ofExtentGen_ok Ptr.null ⟨n, rs⟩ rfl hl hv'
    have hf := headerFits_of hr (hfit.2 _ rfl) (by rw [h4, legalExtents_start]) (by rw [h5, legalExtents_size hle]) h3
    simp only [SWorld.ctorM, SWorld.ctor]
    rw [Machine.mkExtentGen_eq al hv' rfl hl hle hof hf.1]
  | copy y => rfl
  | convert y ss so al =>
    obtain ⟨p, hp, hpos, hso⟩ := hi
    obtain ⟨d, hd, hdm, hpo, hdf, hA, _⟩ := hF.lookup h dbg hp (hfit.1 _ _ _ _ rfl)
    have hval := hfit.2 ⟨p.bases, p.extents, so, layout dflt so p.extents (fun k => A.get p (atPos p.bases k))⟩ (by simp [SState.initValue, hA])
    simp only [SWorld.ctorM, SWorld.ctor, hd, hdm, Option.map_some]
    have hw := hpo.shaped
    have hlen : d.extents.length = p.extents.length := by rw [hpo.extents]
    obtain ⟨ref, hr⟩ := ARef.init_succeeds (n := p.extents.length) Ptr.null d.bases (es := d.extents) hso (by omega)
    have hbl : d.bases.length = p.extents.length := by rw [hw.2, hlen]
    have hof : ARef.ofShape p.extents.length Ptr.null so (some d.bases) (some d.extents) = .ok ref := by
      simp only [ARef.ofShape]
      rw [copyN_self hbl]
      exact hr
    obtain ⟨_, _, h3, h4, h5, _⟩ := ARef.init_ok hr hso hbl
    rw [Machine.mkConvert_eq dbg dflt al hso hlen hw hdf.dims hof
      (headerFits_of (.ofShape hso hof) hval (by rw [h4, hpo.bases]) (by rw [h5, List.take_of_length_le (by omega), hpo.extents]) h3)]

theorem share_bracketM (dbg : Bool) (hF : FitInv w.vars w.st A σ) (h : RepG g (⟨w.vars, t⟩ : SWorld T) A) {y : Nat} {i : Int} {p : SPart}
    (hp : A.Part y [.at i] p) : w.bracketM dbg y i = w.bracket dbg y i := by
  obtain ⟨v, p0, h1, h2, h3, h4, rfl⟩ := hp
  obtain ⟨d, e1, e2, e3, e4⟩ := hF.desc h h1 h2
  obtain ⟨d1, f1, _⟩ := partIn_at true e2.self h4.1
  have hacc := e4.access1 dbg f1
  have obj : ∀ {o : Obj}, w.scope y = some o → w.desc y = some o.desc → (∀ s, w.vars y ≠ some (.sub s)) →
      w.bracketM dbg y i = w.bracket dbg y i := by
    intro o hsc hdsc hns
    rw [hdsc] at e1; cases e1
    unfold SWorld.bracketM SWorld.bracket
    match hw : w.vars y with
    | some (.sub s) => exact absurd hw (hns s)
    | none | some (.owner _) | some (.ref _) | some (.view _) | some (.buffer _ _) =>
      simp only [Machine.objBracket, Scope.bracket, hsc, hacc]
  match v, h1, h2 with
  | .owner hh, h1, h2 =>
    obtain ⟨a, e1, _⟩ := h.owner h1
    have e1 : w.vars y = _ := e1
    exact obj (o := .array a.ref) (by simp [SWorld.scope, e1]) (by simp [SWorld.desc, e1, Obj.desc]) (by simp [e1])
  | .ref hh, h1, h2 =>
    obtain ⟨a, e1, _⟩ := h.ref h1
    have e1 : w.vars y = _ := e1
    exact obj (o := .array a) (by simp [SWorld.scope, e1]) (by simp [SWorld.desc, e1, Obj.desc]) (by simp [e1])
  | .view q, h1, h2 =>
    obtain ⟨a, e1, _⟩ := h.view h1
    have e1 : w.vars y = _ := e1
    exact obj (o := .view a) (by simp [SWorld.scope, e1]) (by simp [SWorld.desc, e1, Obj.desc]) (by simp [e1])
  | .sub o q, h1, h2 =>
    obtain ⟨s, k1, f2, d', f3, f4⟩ := h.sub h1
    have k1 : w.vars y = some (.sub s) := k1
    have f3 : s.desc w.scope = .ok d' := f3
    have : d' = d := by
      simp only [SWorld.desc, k1, f3, Res.val?] at e1; cases e1; rfl
    subst this
    simp only [SWorld.bracketM, SWorld.bracket, k1, Machine.subBracket, SubObj.bracket, f3, Res.bind_ok, hacc]

theorem share_execM (dbg : Bool) (dflt : T) (eq lt : T → T → Bool) (hF : FitInv w.vars w.st A σ) (h : RepG g (⟨w.vars, t⟩ : SWorld T) A) (c : SCmd T)
    (hleg : A.Legal c) (hfit : A.CmdFits dflt σ c) : w.execM dbg dflt eq lt c = w.exec dbg dflt eq lt c := by
  cases c with
  | buffer x vs => rfl
  | construct x i => simp only [SWorld.execM, SWorld.exec, share_ctorM dbg dflt hF h x i hleg hfit]
  | refTo x y first n es so =>
    obtain ⟨hx, hv, hl, i, j, vs, hd, hvs, hroom⟩ := hleg
    obtain ⟨d1, d2⟩ := h.dataOf hd
    have d1 : w.dataOf y = _ := d1
    obtain ⟨ref, hr⟩ := ARef.init_succeeds (n := n) ((⟨g.blk i, (j : Int)⟩ : Ptr).add (first : Int)) (List.replicate n 0) (es := es) hv (by omega)
    have hof : ARef.ofExtents n ((⟨g.blk i, (j : Int)⟩ : Ptr).add (first : Int)) es so = .ok ref := hr
    obtain ⟨_, h2, h3, h4, h5, _⟩ := ARef.init_ok hr hv (by simp)
    rw [List.take_of_length_le (by omega)] at h5
    have hf := headerFits_of (T := T) (abs := ⟨List.replicate n 0, es, so, []⟩) (.ofExtents hv hof) hfit h4 h5 h3
    simp only [SWorld.execM, SWorld.exec, d1, Option.bind_some, Machine.ofExtents_eq hv hof hf.1, hof]
  | refGen x y first n rs so =>
    obtain ⟨hx, hv, hl, hle, i, j, vs, hd, hvs, hroom⟩ := hleg
    obtain ⟨d1, d2⟩ := h.dataOf hd
    have d1 : w.dataOf y = _ := d1
    obtain ⟨ref, hof, hr, h2, h3, h4, h5⟩ := ofExtentGen_ok ((⟨g.blk i, (j : Int)⟩ : Ptr).add (first : Int)) ⟨n, rs⟩ rfl hl hv
    rw [legalExtents_size hle] at h5
    rw [legalExtents_start] at h4
    have hf := headerFits_of (T := T) (abs := ⟨reqBases rs, reqExtents rs, so, []⟩) hr hfit h4 h5 h3
    simp only [SWorld.execM, SWorld.exec, d1, Option.bind_some, Machine.ofExtentGen_eq hv rfl hl hle hof hf.1, hof]
  | refCopy x y => rfl
  | hold x y ss xs =>
    obtain ⟨hx, p, v, p0, h1, h2, h3, h4, rfl⟩ := hleg
    obtain ⟨d0, e1, e2, e3, e4⟩ := hF.desc h h1 h2
    obtain ⟨d, f1, f2, f3, f4, f5⟩ := resolveM_partIn dbg ss e2.self e4 ((APart.legalPath_append _ _ _).mp h4).1
      (by rw [e3]; exact (pathFits_append (hfit v p0 h1 h2)).1)
    obtain ⟨_, hv⟩ := pathFits_append (hfit v p0 h1 h2)
    obtain ⟨g1, _⟩ := partIn_view_fits dbg f3 f4 ((APart.legalPath_append _ _ _).mp h4).2.1 (by rw [f5, e3]; exact hv)
    obtain ⟨c1, c2, _⟩ := partIn_view dbg f3 ((APart.legalPath_append _ _ _).mp h4).2.1
    simp only [SWorld.execM, SWorld.exec, SWorld.lookup, SWorld.lookupM, e1, Option.bind_some, f1, f2, Res.val?,
      chainIndicesM_eq xs _ ((APart.legalPath_append _ _ _).mp h4).2.1.2.2.2.2, c1, Res.bind_ok, g1, Desc.slice, c2]
  | holdCopy x y => rfl
  | holdSub x y i =>
    obtain ⟨hx, p, hp⟩ := hleg
    simp only [SWorld.execM, SWorld.exec, share_bracketM dbg hF h hp]
  | destroy x => rfl
  | reindex x bs =>
    rcases hleg with ⟨hh, hx, hl⟩ | ⟨p, hx, hl⟩
    · have hfit' := hfit.1 hh hx
      rcases hx with hx | hx
      · obtain ⟨a, e1, e2, _⟩ := h.owner hx
        have e1 : w.vars x = _ := e1
        obtain ⟨a', f1, f2, f3, f4⟩ := e2.reindex hl
        simp only [SWorld.execM, SWorld.exec, e1, C51_reindex e2.reach f1 (f4.headerFits hfit').1, f1]
      · obtain ⟨a, e1, e2⟩ := h.ref hx
        have e1 : w.vars x = _ := e1
        obtain ⟨a', f1, f2, f3, f4⟩ := e2.reindex hl
        simp only [SWorld.execM, SWorld.exec, e1, C51_reindex e2.reach f1 (f4.headerFits hfit').1, f1]
    · obtain ⟨_, hfit'⟩ := hfit.2 p hx
      obtain ⟨v, e1, e2, e3⟩ := h.view hx
      have e1 : w.vars x = _ := e1
      obtain ⟨d, k1, k2, k3⟩ := hF.held x p (.inl hx)
      have k1 : w.desc x = some d := k1
      simp only [SWorld.desc, e1] at k1
      cases k1
      obtain ⟨v', f1, f2, f3⟩ := e3.reindex e2 hl
      have hb : v'.bases = bs := f3.bases
      have hs : v'.strides = v.strides := by
        exact (viewReindex_eq f1).1
      simp only [SWorld.execM, SWorld.exec, e1, f1]
      rw [C51_view_reindex f1 (by rw [hb, hs]; have : v.strides = σ x := k2; rw [this]; omega)]
  | reshape x es =>
    obtain ⟨hh, hx, hl, hp⟩ := hleg
    have hfit' := hfit hh hx
    rcases hx with hx | hx
    · obtain ⟨a, e1, e2, _⟩ := h.owner hx
      have e1 : w.vars x = _ := e1
      obtain ⟨a', f1, f2, f3, f4⟩ := e2.reshape dbg hl hp
      simp only [SWorld.execM, SWorld.exec, e1, C51_reshape e2.reach hl f1 (f4.headerFits hfit').1, f1]
    · obtain ⟨a, e1, e2⟩ := h.ref hx
      have e1 : w.vars x = _ := e1
      obtain ⟨a', f1, f2, f3, f4⟩ := e2.reshape dbg hl hp
      simp only [SWorld.execM, SWorld.exec, e1, C51_reshape e2.reach hl f1 (f4.headerFits hfit').1, f1]
  | resize x rs =>
    obtain ⟨hh, hx, hl, hle, hrep⟩ := hleg
    have hfit' := hfit hh hx
    obtain ⟨a, e1, e2, _⟩ := h.owner hx
    have e1 : w.vars x = _ := e1
    have hnd : a.ref.numDims = hh.extents.length := congrArg List.length e2.extents
    obtain ⟨ref, hof, hrr, _, h3, h4, h5⟩ := ofExtentGen_ok Ptr.null ⟨hh.extents.length, rs⟩ rfl hl e2.reach.wf.order
    have hf := headerFits_of (T := T) (abs := ⟨reqBases rs, reqExtents rs, hh.order, []⟩) hrr hfit' (by rw [h4, legalExtents_start])
      (by rw [h5, legalExtents_size hle]) (by rw [h3, e2.order])
    simp only [SWorld.execM, SWorld.exec, e1, hnd]
    rw [Machine.resize_eq dbg dflt e2.reach (e2.headerFits (hF.arr x hh (.inl hx))) (g := ⟨hh.extents.length, rs⟩) rfl hl hle hof hf w.st]
  | fill x input => rfl
  | assign x ss y ss' =>
    obtain ⟨p, q, hp, hq, he⟩ := hleg
    obtain ⟨d, hd, hdm, hpo, hdf, _⟩ := hF.lookup h dbg hp hfit.1
    obtain ⟨d', hd', hdm', hpo', hdf', _⟩ := hF.lookup h dbg hq hfit.2
    simp only [SWorld.execM, SWorld.exec, hd, hdm, hd', hdm', Option.bind_some]
    rw [assignOp_eq, Machine.assignOpW_eq dbg _ eltCopy d d' hpo.shaped hpo'.shaped hdf.dims hdf'.dims (.inl (by rw [hpo.extents, hpo'.extents, he]))]
  | copyArray x ss y ss' =>
    obtain ⟨p, q, hp, hq, he⟩ := hleg
    obtain ⟨d, hd, hdm, hpo, hdf, _⟩ := hF.lookup h dbg hp hfit.1
    obtain ⟨d', hd', hdm', hpo', hdf', _⟩ := hF.lookup h dbg hq hfit.2
    simp only [SWorld.execM, SWorld.exec, hd, hdm, hd', hdm', Option.bind_some]
    rw [copyArray_eq, Machine.copyArrayW_eq dbg eltCopy d d' hpo.shaped hpo'.shaped hdf.dims hdf'.dims (.inl (by rw [hpo.extents, hpo'.extents, he]))]
  | read x ss idx =>
    obtain ⟨p, hp, hin⟩ := hleg
    obtain ⟨d, hd, hdm, hpo, hdf, _⟩ := hF.lookup h dbg hp hfit
    obtain ⟨k1, _⟩ := hdf.access dbg (idx := idx) (by rw [hpo.bases, hpo.extents]; exact hin)
    simp only [SWorld.execM, SWorld.exec, hd, hdm, Option.bind_some, Machine.readElem, MultiArray.readElem, k1]
  | write x ss idx v =>
    obtain ⟨p, hp, hin⟩ := hleg
    obtain ⟨d, hd, hdm, hpo, hdf, _⟩ := hF.lookup h dbg hp hfit
    obtain ⟨k1, _⟩ := hdf.access dbg (idx := idx) (by rw [hpo.bases, hpo.extents]; exact hin)
    simp only [SWorld.execM, SWorld.exec, hd, hdm, Option.bind_some, Machine.writeElem, MultiArray.writeElem, k1]
  | forEach x ss f =>
    obtain ⟨p, hp⟩ := hleg
    obtain ⟨d, hd, hdm, hpo, hdf, _⟩ := hF.lookup h dbg hp hfit
    simp only [SWorld.execM, SWorld.exec, hd, hdm, Option.bind_some]
    rw [Machine.forEach_eq dbg f _ d hpo.shaped rfl hdf.dims]
  | traverse x ss =>
    obtain ⟨p, hp⟩ := hleg
    obtain ⟨d, hd, hdm, hpo, hdf, _⟩ := hF.lookup h dbg hp hfit
    simp only [SWorld.execM, SWorld.exec, hd, hdm, Option.bind_some]
    rw [C51_iteration dbg _ d hpo.shaped (fun e he => mem_le_sum he) hdf.dims, nestedLoop_spec dbg _ d hpo.shaped (fun e he => mem_le_sum he)]
  | equal x ss y ss' =>
    obtain ⟨p, q, hp, hq, he⟩ := hleg
    obtain ⟨d, hd, hdm, hpo, hdf, _⟩ := hF.lookup h dbg hp hfit.1
    obtain ⟨d', hd', hdm', hpo', hdf', _⟩ := hF.lookup h dbg hq hfit.2
    simp only [SWorld.execM, SWorld.exec, hd, hdm, hd', hdm', Option.bind_some]
    rw [Machine.equalRef_eq dbg eq w.st _ d d' hpo.shaped hpo'.shaped rfl hdf.dims hdf'.dims]
  | less x ss y ss' =>
    obtain ⟨p, q, hp, hq, he⟩ := hleg
    obtain ⟨d, hd, hdm, hpo, hdf, _⟩ := hF.lookup h dbg hp hfit.1
    obtain ⟨d', hd', hdm', hpo', hdf', _⟩ := hF.lookup h dbg hq hfit.2
    simp only [SWorld.execM, SWorld.exec, hd, hdm, hd', hdm', Option.bind_some]
    rw [Machine.lessRef_eq dbg lt w.st _ d d' hpo.shaped hpo'.shaped rfl (by rw [hpo.extents, hpo'.extents, he]) hdf.dims hdf'.dims]
  | shape x ss =>
    obtain ⟨p, hp⟩ := hleg
    obtain ⟨d, hd, hdm, hpo, hdf, _⟩ := hF.lookup h dbg hp hfit
    simp only [SWorld.execM, SWorld.exec, hd, hdm, Option.map_some]

/-! ### The invariant is kept -/

theorem mem_vars {α : Type} {w w' : SWorld T} {e : Exec T α} {f : α → CObs T} {o : CObs T} (h : w.mem e f = some (o, w')) : w'.vars = w.vars := by
  simp only [SWorld.mem, Option.map_eq_some_iff, Prod.mk.injEq] at h
  obtain ⟨_, _, _, rfl⟩ := h
  rfl

/-- A command without a target leaves the variables alone. -/
theorem exec_keep {dbg : Bool} {dflt : T} {eq lt : T → T → Bool} {w w' : SWorld T} {c : SCmd T} {o : CObs T} (hc : shareTarget c = none)
    (h : w.exec dbg dflt eq lt c = some (o, w')) : w'.vars = w.vars := by
  cases c <;> first | cases hc | skip
  case fill x input =>
    simp only [SWorld.exec] at h
    split at h <;> first | exact mem_vars h | cases h
  case assign => simp only [SWorld.exec, Option.bind_eq_some_iff] at h; obtain ⟨_, _, _, _, h⟩ := h; exact mem_vars h
  case copyArray => simp only [SWorld.exec, Option.bind_eq_some_iff] at h; obtain ⟨_, _, _, _, h⟩ := h; exact mem_vars h
  case read => simp only [SWorld.exec, Option.bind_eq_some_iff] at h; obtain ⟨_, _, h⟩ := h; exact mem_vars h
  case write => simp only [SWorld.exec, Option.bind_eq_some_iff] at h; obtain ⟨_, _, h⟩ := h; exact mem_vars h
  case forEach => simp only [SWorld.exec, Option.bind_eq_some_iff] at h; obtain ⟨_, _, h⟩ := h; exact mem_vars h
  case traverse =>
    simp only [SWorld.exec, Option.bind_eq_some_iff, Option.map_eq_some_iff, Prod.mk.injEq] at h
    obtain ⟨_, _, _, _, _, _, _, _, _, rfl⟩ := h; rfl
  case equal =>
    simp only [SWorld.exec, Option.bind_eq_some_iff, Option.map_eq_some_iff, Prod.mk.injEq] at h
    obtain ⟨_, _, _, _, _, _, _, rfl⟩ := h; rfl
  case less =>
    simp only [SWorld.exec, Option.bind_eq_some_iff, Option.map_eq_some_iff, Prod.mk.injEq] at h
    obtain ⟨_, _, _, _, _, _, _, rfl⟩ := h; rfl
  case shape =>
    simp only [SWorld.exec, Option.map_eq_some_iff, Prod.mk.injEq] at h
    obtain ⟨_, _, _, rfl⟩ := h; rfl

/-- A command with a target changes at most that variable. -/
theorem exec_target {dbg : Bool} {dflt : T} {eq lt : T → T → Bool} {w w' : SWorld T} {c : SCmd T} {o : CObs T} {x : Nat} (hc : shareTarget c = some x)
    (h : w.exec dbg dflt eq lt c = some (o, w')) : ∃ cv, w' = w.setVar x cv w'.st := by
  cases c <;> first | cases hc | skip
  case buffer => cases h; exact ⟨_, rfl⟩
  case construct =>
    simp only [SWorld.exec, Option.bind_eq_some_iff, Option.map_eq_some_iff, Prod.mk.injEq] at h
    obtain ⟨_, _, _, _, _, rfl⟩ := h; exact ⟨_, rfl⟩
  case refTo =>
    simp only [SWorld.exec, Option.bind_eq_some_iff, Option.map_eq_some_iff, Prod.mk.injEq] at h
    obtain ⟨_, _, _, _, _, rfl⟩ := h; exact ⟨_, rfl⟩
  case refGen =>
    simp only [SWorld.exec, Option.bind_eq_some_iff, Option.map_eq_some_iff, Prod.mk.injEq] at h
    obtain ⟨_, _, _, _, _, rfl⟩ := h; exact ⟨_, rfl⟩
  case refCopy =>
    simp only [SWorld.exec] at h
    split at h <;> first | (cases h; exact ⟨_, rfl⟩) | cases h
  case hold =>
    simp only [SWorld.exec, Option.bind_eq_some_iff, Option.map_eq_some_iff, Prod.mk.injEq] at h
    obtain ⟨_, _, _, _, _, rfl⟩ := h; exact ⟨_, rfl⟩
  case holdCopy =>
    simp only [SWorld.exec] at h
    split at h <;> first | (cases h; exact ⟨_, rfl⟩) | cases h
  case holdSub =>
    simp only [SWorld.exec, Option.map_eq_some_iff, Prod.mk.injEq] at h
    obtain ⟨_, _, _, rfl⟩ := h; exact ⟨_, rfl⟩
  case destroy =>
    simp only [SWorld.exec] at h
    split at h
    · simp only [Option.map_eq_some_iff, Prod.mk.injEq] at h
      obtain ⟨_, _, _, rfl⟩ := h; exact ⟨_, rfl⟩
    · cases h; exact ⟨_, rfl⟩
    · cases h; exact ⟨_, rfl⟩
  case reindex =>
    simp only [SWorld.exec] at h
    split at h <;> first
      | (simp only [Option.map_eq_some_iff, Prod.mk.injEq] at h; obtain ⟨_, _, _, rfl⟩ := h; exact ⟨_, rfl⟩)
      | cases h
  case reshape =>
    simp only [SWorld.exec] at h
    split at h <;> first
      | (simp only [Option.map_eq_some_iff, Prod.mk.injEq] at h; obtain ⟨_, _, _, rfl⟩ := h; exact ⟨_, rfl⟩)
      | cases h
  case resize =>
    simp only [SWorld.exec] at h
    split at h <;> first
      | (simp only [Option.map_eq_some_iff, Prod.mk.injEq] at h; obtain ⟨_, _, _, rfl⟩ := h; exact ⟨_, rfl⟩)
      | cases h

/-- The target becomes an array or reference that fits. -/
theorem FitInv.setArr (hF : FitInv w.vars w.st A σ) (h : RepG g (⟨w.vars, t⟩ : SWorld T) A) {dbg : Bool} {dflt : T} {eq lt : T → T → Bool} {c : SCmd T} {o : CObs T}
    {w' : SWorld T} {x : Nat} (hc : shareTarget c = some x) (he : w.exec dbg dflt eq lt c = some (o, w')) {v : Option SVar} {A' : SState T}
    (hA : A'.vars = (A.setVar x v).vars) (harr : ∀ h, v = some (.owner h) ∨ v = some (.ref h) → h.Fits)
    (hno : ∀ p, ¬ (v = some (.view p) ∨ ∃ o, v = some (.sub o p))) : FitInv w'.vars w'.st A' σ := by
  obtain ⟨cv, e⟩ := exec_target hc he
  rw [e]
  exact (hF.setVar h hA (fun _ _ => rfl) harr (fun p hp => absurd hp (hno p))).reState

theorem share_fit_step (dbg : Bool) (dflt : T) (eq lt : T → T → Bool) (hF : FitInv w.vars w.st A σ) (h : RepG g (⟨w.vars, t⟩ : SWorld T) A) (c : SCmd T)
    (hleg : A.Legal c) (hfit : A.CmdFits dflt σ c) {o o' : CObs T} {A' : SState T} {w' : SWorld T} (hs : A.step dflt eq lt c = some (o, A'))
    (he : w.exec dbg dflt eq lt c = some (o', w')) : FitInv w'.vars w'.st A' (A.stridesAfter σ c) := by
  have keep : shareTarget c = none → A.stridesAfter σ c = σ → FitInv w'.vars w'.st A' (A.stridesAfter σ c) := by
    intro hc hσ
    rw [hσ]
    refine hF.same ?_ (exec_keep hc he)
    rcases step_vars hs with e | ⟨x, v, e, _⟩
    · exact e
    · rw [hc] at e; cases e
  cases c with
  | buffer x vs => cases hs; exact hF.setArr h rfl he rfl (by simp) (by simp)
  | construct x i =>
    have hs0 := hs
    simp only [SState.step, Option.map_eq_some_iff, Prod.mk.injEq] at hs
    obtain ⟨a, h1, _, rfl⟩ := hs
    refine hF.setArr h rfl he rfl ?_ (by simp)
    intro hh hx
    simp at hx
    subst hx
    cases i with
    | copy y =>
      simp only [SState.initValue] at h1
      split at h1
      · rename_i hy hAy
        simp only [Option.map_eq_some_iff] at h1
        obtain ⟨vs, _, rfl⟩ := h1
        exact hF.arr y hy (.inl hAy)
      · cases h1
    | default n al => exact hfit.2 a h1
    | extents n es so al => exact hfit.2 a h1
    | gen n rs so al => exact hfit.2 a h1
    | convert y ss so al => exact hfit.2 a h1
  | refTo x y first n es so =>
    simp only [SState.step, Option.map_eq_some_iff, Prod.mk.injEq] at hs
    obtain ⟨a, h1, _, rfl⟩ := hs
    refine hF.setArr h rfl he rfl ?_ (by simp)
    intro hh hx
    simp at hx
    subst hx
    exact hfit
  | refGen x y first n rs so =>
    simp only [SState.step, Option.map_eq_some_iff, Prod.mk.injEq] at hs
    obtain ⟨a, h1, _, rfl⟩ := hs
    refine hF.setArr h rfl he rfl ?_ (by simp)
    intro hh hx
    simp at hx
    subst hx
    exact hfit
  | refCopy x y =>
    simp only [SState.step] at hs
    split at hs
    · rename_i hy hAy
      cases hs
      exact hF.setArr h rfl he rfl (by intro hh hx; simp at hx; subst hx; exact hF.arr y _ (.inl hAy)) (by simp)
    · rename_i hy hAy
      cases hs
      exact hF.setArr h rfl he rfl (by intro hh hx; simp at hx; subst hx; exact hF.arr y _ (.inr hAy)) (by simp)
    · cases hs
  | hold x y ss xs =>
    obtain ⟨hx, p, v, p0, h1, h2, h3, h4, rfl⟩ := hleg
    obtain ⟨d0, e1, e2, e3, e4⟩ := hF.desc h h1 h2
    obtain ⟨d, f1, f2, f3, f4, f5⟩ := resolveM_partIn dbg ss e2.self e4 ((APart.legalPath_append _ _ _).mp h4).1
      (by rw [e3]; exact (pathFits_append (hfit v p0 h1 h2)).1)
    obtain ⟨_, hv⟩ := pathFits_append (hfit v p0 h1 h2)
    obtain ⟨g1, g2, g3, _⟩ := partIn_view_fits dbg f3 f4 ((APart.legalPath_append _ _ _).mp h4).2.1 (by rw [f5, e3]; exact hv)
    obtain ⟨c1, c2, _⟩ := partIn_view dbg f3 ((APart.legalPath_append _ _ _).mp h4).2.1
    have hw' : w' = w.setVar x (some (.view (theView (idxGen xs) d))) w.st := by
      simp [SWorld.exec, SWorld.lookup, e1, f2, Res.val?, c1, Desc.slice, c2] at he
      exact he.2.symm
    simp only [SState.step, Option.map_eq_some_iff, Prod.mk.injEq] at hs
    obtain ⟨a, k1, _, rfl⟩ := hs
    rw [hw']
    refine hF.setVar h (v := some (.view a)) rfl (fun y hy => by simp [SState.stridesAfter, hy]) (by simp) ?_
    intro q hq
    refine ⟨(theView (idxGen xs) d).desc, by simp [SWorld.desc, SWorld.setVar], ?_, g2⟩
    show (theView (idxGen xs) d).strides = _
    rw [g3, f5, e3]
    simp only [SState.stridesAfter, if_true]
    have : ∀ (ss : List Sel) (l : List Int), pathStrides l (ss ++ [.view xs]) = viewStrides (xs.map IndexArg.toRange) (pathStrides l ss) := by
      intro ss
      induction ss with
      | nil => intro l; rfl
      | cons s ss ih => intro l; cases s <;> exact ih _
    rw [this]
  | holdCopy x y =>
    obtain ⟨hx, p, hy⟩ := hleg
    obtain ⟨v, e1, e2, e3⟩ := h.view hy
    have e1 : w.vars y = some (.view v) := e1
    obtain ⟨d, k1, k2, k3⟩ := hF.held y p (.inl hy)
    have k1 : w.desc y = some d := k1
    simp only [SWorld.desc, e1] at k1
    cases k1
    simp only [SWorld.exec, e1, Option.some.injEq, Prod.mk.injEq] at he
    simp only [SState.step, hy, Option.some.injEq, Prod.mk.injEq] at hs
    obtain ⟨_, rfl⟩ := he
    obtain ⟨_, rfl⟩ := hs
    refine hF.setVar h (v := some (.view p)) rfl (fun y hy => by simp [SState.stridesAfter, hy]) (by simp) ?_
    intro q hq
    refine ⟨v.desc, by simp [SWorld.desc, SWorld.setVar], ?_, k3⟩
    simp only [SState.stridesAfter, if_true, SState.strides, hy]
    exact k2
  | holdSub x y i =>
    obtain ⟨hx, p, v, p0, h1, h2, h3, h4, rfl⟩ := hleg
    obtain ⟨d0, e1, e2, e3, e4⟩ := hF.desc h h1 h2
    have hwx : w.vars x = none := h.unset hx
    obtain ⟨d', a1, _⟩ := partIn_at dbg e2.self h4.1
    obtain ⟨b1, b2⟩ := e4.sub a1
    simp only [SState.step, Option.map_eq_some_iff, Prod.mk.injEq] at hs
    obtain ⟨a, k1, _, rfl⟩ := hs
    have main : ∀ {sub : SubObj}, sub.desc w.scope = .ok d0 → w.bracket dbg y i = sub.bracket dbg w.scope i →
        FitInv w'.vars w'.st (A.setVar x (some (.sub (A.objectOf y) a))) (A.stridesAfter σ (.holdSub x y i)) := by
      intro sub hsub hbr
      obtain ⟨s', c1, c2, c3⟩ := sub_bracket dbg hsub a1
      simp only [SWorld.exec, hbr, c1, Res.val?, Option.map_some, Option.some.injEq, Prod.mk.injEq] at he
      obtain ⟨_, rfl⟩ := he
      refine hF.setVar h (v := some (.sub (A.objectOf y) a)) rfl (fun y hy => by simp [SState.stridesAfter, hy]) (by simp) ?_
      intro q hq
      have hne : s'.owner ≠ x := by
        intro e
        unfold SubObj.desc at c3
        rw [e, show w.scope x = none by simp [SWorld.scope, hwx]] at c3
        cases c3
      refine ⟨d', ?_, ?_, b1⟩
      · have : (w.setVar x (some (.sub s')) w.st).vars x = some (.sub s') := by simp [SWorld.setVar]
        simp only [SWorld.desc, this]
        have : SubObj.desc (w.setVar x (some (.sub s')) w.st).scope s' = .ok d' := by
          rw [← c3]
          unfold SubObj.desc
          rw [scope_setVar_ne w hne]
        rw [this]; rfl
      · rw [b2, e3]
        simp only [SState.stridesAfter, if_true]
    have obj : ∀ {o : Obj}, w.scope y = some o → w.desc y = some o.desc → (∀ s, w.vars y ≠ some (.sub s)) →
        FitInv w'.vars w'.st (A.setVar x (some (.sub (A.objectOf y) a))) (A.stridesAfter σ (.holdSub x y i)) := by
      intro o hsc hdsc hns
      rw [hdsc] at e1; cases e1
      refine main (sub := ⟨o.desc.base, y, 0⟩) (by simp [SubObj.desc, hsc]) ?_
      rw [← objBracket_agrees dbg w.scope y i hsc, SWorld.bracket]
      match hw : w.vars y with
      | some (.sub s) => exact absurd hw (hns s)
      | none | some (.owner _) | some (.ref _) | some (.view _) | some (.buffer _ _) => rfl
    match v, h1, h2 with
    | .owner hh, h1, h2 =>
      obtain ⟨a, e1, _⟩ := h.owner h1
      have e1 : w.vars y = _ := e1
      exact obj (o := .array a.ref) (by simp [SWorld.scope, e1]) (by simp [SWorld.desc, e1, Obj.desc]) (by simp [e1])
    | .ref hh, h1, h2 =>
      obtain ⟨a, e1, _⟩ := h.ref h1
      have e1 : w.vars y = _ := e1
      exact obj (o := .array a) (by simp [SWorld.scope, e1]) (by simp [SWorld.desc, e1, Obj.desc]) (by simp [e1])
    | .view q, h1, h2 =>
      obtain ⟨a, e1, _⟩ := h.view h1
      have e1 : w.vars y = _ := e1
      exact obj (o := .view a) (by simp [SWorld.scope, e1]) (by simp [SWorld.desc, e1, Obj.desc]) (by simp [e1])
    | .sub o q, h1, h2 =>
      obtain ⟨s, k1, f2, d', f3, f4⟩ := h.sub h1
      have k1 : w.vars y = some (.sub s) := k1
      have f3 : s.desc w.scope = .ok d' := f3
      have : d' = d0 := by
        simp only [SWorld.desc, k1, f3, Res.val?] at e1; cases e1; rfl
      rw [this] at f3
      exact main f3 (by rw [SWorld.bracket, k1])
  | destroy x =>
    simp only [SState.step] at hs
    split at hs <;> (cases hs; exact hF.setArr h rfl he rfl (by simp) (by simp))
  | reindex x bs =>
    rcases hleg with ⟨hh, hx, hl⟩ | ⟨p, hx, hl⟩
    · have hfit' := hfit.1 hh hx
      rcases hx with hx | hx <;>
      · simp only [SState.step, hx, Option.some.injEq, Prod.mk.injEq] at hs
        obtain ⟨_, rfl⟩ := hs
        exact hF.setArr h rfl he rfl (by intro hh hx; simp at hx; subst hx; exact hfit') (by simp)
    · obtain ⟨hin, hfit'⟩ := hfit.2 p hx
      obtain ⟨v, e1, e2, e3⟩ := h.view hx
      have e1 : w.vars x = some (.view v) := e1
      obtain ⟨d, k1, k2, k3⟩ := hF.held x p (.inl hx)
      have k1 : w.desc x = some d := k1
      simp only [SWorld.desc, e1] at k1
      cases k1
      have k2 : v.strides = σ x := k2
      obtain ⟨v', f1, f2, f3⟩ := e3.reindex e2 hl
      obtain ⟨r1, r2⟩ := viewReindex_eq f1
      have hb : v'.bases = bs := f3.bases
      have hext : v'.extents = p.extents := f3.extents
      simp only [SWorld.exec, e1, f1, Res.val?, Option.map_some, Option.some.injEq, Prod.mk.injEq] at he
      simp only [SState.step, hx, Option.some.injEq, Prod.mk.injEq] at hs
      obtain ⟨_, rfl⟩ := he
      obtain ⟨_, rfl⟩ := hs
      refine hF.setVar h (v := some (.view (p.reindex bs))) rfl (fun y hy => rfl) (by simp) ?_
      intro q hq
      refine ⟨v'.desc, by simp [SWorld.desc, SWorld.setVar], ?_, ?_, ?_, ?_⟩
      · show v'.strides = σ x
        rw [r1, k2]
      · show InsideIndex v'.bases v'.extents
        rw [hb, hext]; exact hin
      · show absDot v'.bases v'.strides + span v'.extents v'.strides < _
        rw [hb, hext, r1, k2]; exact hfit'
      · show sizeBound v'.extents < _
        rw [r2]; exact k3.size
  | reshape x es =>
    obtain ⟨hh, hx, hl, hp⟩ := hleg
    have hfit' := hfit hh hx
    rcases hx with hx | hx <;>
    · simp only [SState.step, hx, Option.some.injEq, Prod.mk.injEq] at hs
      obtain ⟨_, rfl⟩ := hs
      exact hF.setArr h rfl he rfl (by intro hh hx; simp at hx; subst hx; exact hfit') (by simp)
  | resize x rs =>
    obtain ⟨hh, hx, hl, hle, hrep⟩ := hleg
    have hfit' := hfit hh hx
    simp only [SState.step, hx, Option.map_eq_some_iff, Prod.mk.injEq] at hs
    obtain ⟨vs, _, _, rfl⟩ := hs
    exact hF.setArr h rfl he rfl (by intro hh hx; simp at hx; subst hx; exact hfit') (by simp)
  | fill x input => exact keep rfl rfl
  | assign x ss y ss' => exact keep rfl rfl
  | copyArray x ss y ss' => exact keep rfl rfl
  | read x ss idx => exact keep rfl rfl
  | write x ss idx v => exact keep rfl rfl
  | forEach x ss f => exact keep rfl rfl
  | traverse x ss => exact keep rfl rfl
  | equal x ss y ss' => exact keep rfl rfl
  | less x ss y ss' => exact keep rfl rfl
  | shape x ss => exact keep rfl rfl

/-- A whole program. -/
theorem share_execAllM (dbg : Bool) (dflt : T) (eq lt : T → T → Bool) (prog : List (SCmd T)) {g : Ghost} {w : SWorld T} {A : SState T} {σ : Nat → List Int}
    (h : RepG g w A) (hF : FitInv w.vars w.st A σ) (hleg : SState.LegalRun dflt eq lt prog A) (hfit : SState.FitRun dflt eq lt prog A σ) :
    SWorld.execAllM dbg dflt eq lt prog w = SWorld.execAll dbg dflt eq lt prog w := by
  induction prog generalizing w A σ g with
  | nil => rfl
  | cons c cs ih =>
    obtain ⟨o, A1, w1, g1, e1, e2, e3⟩ := scmd_ok dbg dflt eq lt h c hleg.1
    have := share_execM dbg dflt eq lt hF (t := w.st) h c hleg.1 hfit.1
    simp only [SWorld.execAllM, SWorld.execAll, this, e2, Option.bind_some]
    rw [ih e3 (share_fit_step dbg dflt eq lt hF (t := w.st) h c hleg.1 hfit.1 e1 e2) (hleg.2 o A1 e1) (hfit.2 o A1 e1)]

end MultiArray
