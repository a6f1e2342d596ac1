import Verif.Lemmas.ProgM
import Verif.Props.Prog

/-
Property theorems C74: whole operations and whole programs on a 64-bit machine.  The rest of the development computes indices, offsets and
sizes in unbounded integers; here `size_type` arithmetic wraps modulo 2^64 and an `index` (`ptrdiff_t`) computation that leaves the type is
undefined (Machine.lean, MachineIt.lean, MachineOps.lean).  If the arrays and views fit - a condition on shapes, bases and ranges only - nothing
overflows or wraps anywhere inside assignment, `copy_array`, `for_each`, comparison, construction, conversion or `resize`, and each computes exactly
what it computes in unbounded arithmetic, whatever the memory contents and wherever it throws.
-/
set_option autoImplicit false

namespace MultiArray.Props
open MultiArray Spec
variable {T : Type}

/-- Assignment, `copy_array`, `for_each`, `==` and `<` on arrays, subarrays or views whose dimensions fit: the 64-bit computation is the ideal one, as a
function of the whole memory state (so also if an element operation throws on the way), in both build modes.  Without checks
(`dbg = false`) assignment and copying need equal shapes, as always. -/
theorem C74_element_operations (dbg : Bool) {d d' : Desc} (hd : WellShaped d) (hd' : WellShaped d') (fd : DimsFit d.bases d.extents d.strides)
    (fd' : DimsFit d'.bases d'.extents d'.strides) :
    (∀ elt : Ptr → Ptr → Exec T Unit, d.extents = d'.extents ∨ dbg = true ∧ d.extents.length = d'.extents.length →
      Machine.assignOpW dbg false elt d d' = assignOpW dbg false elt d d' ∧ Machine.copyArrayW dbg elt d' d = copyArrayW dbg elt d' d) ∧
    (∀ (σ : Type) (f : σ → T → Exec T (T × σ)) (q : σ), Machine.forEachX dbg f d.extents.length d q = forEachX dbg f d.extents.length d q) ∧
    (∀ (eq : T → T → Bool) (s : St T), Machine.equalRef dbg eq s d.extents.length d d' = equalRef dbg eq s d.extents.length d d') ∧
    (d.extents.length = d'.extents.length → ∀ (lt : T → T → Bool) (s : St T),
      Machine.lessRef dbg lt s d.extents.length d d' = lessRef dbg lt s d.extents.length d d') :=
  ⟨fun elt he => ⟨Machine.assignOpW_eq dbg false elt d d' hd hd' fd fd' he,
      Machine.copyArrayW_eq dbg elt d d' hd hd' fd fd' (he.imp id (fun h => h.1))⟩,
   fun _ f q => Machine.forEachX_eq dbg f _ d q hd rfl fd,
   fun eq s => Machine.equalRef_eq dbg eq s _ d d' hd hd' rfl fd fd',
   fun hl lt s => Machine.lessRef_eq dbg lt s _ d d' hd hd' rfl hl.symm fd fd'⟩

/-- Construction from extents (a list or `extents[..]..`, with index bases) of an array that fits. -/
theorem C74_construction (dflt : T) {n : Nat} {so : StorageOrder} (hv : ValidOrder n so) (al : Nat) :
    (∀ es ref, ARef.ofExtents n Ptr.null es so = .ok ref → ArrayFits ref → (Machine.mkExtents dflt n es so al : Exec T MArr) = MArr.mkExtents dflt n es so al) ∧
    (∀ rs ref, rs.length = n → LegalExtents rs → ARef.ofExtentGen Ptr.null ⟨n, rs⟩ so = .ok ref → ArrayFits ref →
      (Machine.mkExtentGen dflt ⟨n, rs⟩ so al : Exec T MArr) = MArr.mkExtentGen dflt ⟨n, rs⟩ so al) := by
  refine ⟨fun es ref h hf => ?_, fun rs ref hl hle h hf => Machine.mkExtentGen_eq al hv rfl hl hle h hf⟩
  simp only [Machine.mkExtents, MArr.mkExtents, Machine.ofExtents_eq hv h hf, h]

/-- Construction of an array from another array, subarray or view, possibly with another storage order: source and new array fit. -/
theorem C74_conversion (dbg : Bool) (dflt : T) {rhs : Desc} {so : StorageOrder} {ref : ARef} (al : Nat) (hv : ValidOrder rhs.extents.length so)
    (hw : WellShaped rhs) (fr : DimsFit rhs.bases rhs.extents rhs.strides)
    (h : ARef.ofShape rhs.extents.length Ptr.null so (some rhs.bases) (some rhs.extents) = .ok ref) (hf : HeaderFits ref) :
    (Machine.mkConvert dbg dflt rhs so al : Exec T MArr) = MArr.mkConvert dbg dflt rhs so al := Machine.mkConvert_eq dbg dflt al hv rfl hw fr h hf

/-- `resize`: old and new array fit.  Every inner step - the minimal extents, the index ranges `base + extent`, the two views, the element-wise
copy - stays inside the 64-bit types. -/
theorem C74_resize (dbg : Bool) (dflt : T) {n : Nat} {rs : List ExtentRange} {ref : ARef} {a : MArr} (ha : Reachable n a.ref) (fa : HeaderFits a.ref)
    (hlen : rs.length = n) (hl : LegalExtents rs) (h : ARef.ofExtentGen Ptr.null ⟨n, rs⟩ a.ref.storage = .ok ref) (hf : HeaderFits ref) (s : St T) :
    Machine.resize dbg dflt ⟨n, rs⟩ a s = MArr.resize dbg dflt ⟨n, rs⟩ a s := Machine.resize_eq dbg dflt ha fa rfl hlen hl h hf s

/-- `resize` from an extent list. -/
theorem C74_resize_list (dbg : Bool) (dflt : T) {n : Nat} {es : List Nat} {ref : ARef} {a : MArr} (ha : Reachable n a.ref) (fa : HeaderFits a.ref)
    (h : ARef.ofExtents n Ptr.null es a.ref.storage = .ok ref) (hf : HeaderFits ref) (s : St T) :
    Machine.resizeExtents dbg dflt es a s = MArr.resizeExtents dbg dflt es a s := Machine.resizeExtents_eq dbg dflt ha fa h hf s

/-- Whole programs: a program whose commands are legal for abstract arrays (C67), and whose arrays and views fit, runs on the 64-bit model of the
library exactly as on the ideal one: no overflow, no wrap-around, no exception, no failed assertion; every command returns what the abstract
machine says; at the end every variable holds its abstract array and nothing has leaked. -/
theorem C74_program (dbg : Bool) (dflt : T) (eq lt : T → T → Bool) (prog : List (Cmd T)) (hleg : AState.LegalRun dflt eq lt prog noVars)
    (hfit : AState.FitRun dflt eq lt prog noVars) :
    ∃ os A w, AState.run dflt eq lt prog noVars = some (os, A) ∧ World.execAllM dbg dflt eq lt prog (World.start []) = some (os, w) ∧
      World.execAll dbg dflt eq lt prog (World.start []) = some (os, w) ∧
      (∀ x, w.objs x = none ↔ A x = none) ∧
      (∀ x a abs, w.objs x = some a → A x = some abs → Represents w.st a abs) ∧
      (∀ b, w.st.heap b ≠ none → ∃ x a, w.objs x = some a ∧ a.ref.data.blk = b) := by
  obtain ⟨os, A, w, e1, e2, e3, e4, e5, _⟩ := C67_program_refinement dbg dflt eq lt prog hleg
  exact ⟨os, A, w, e1, by rw [execAllM_eq dbg dflt eq lt prog start_rep hleg hfit]; exact e2, e2, e3, e4, e5⟩

/-! ### What has to be checked -/

theorem fits_set {A : AState T} (h : A.Fits) {x : Nat} {a : Option (AbsArr T)} (ha : ∀ b, a = some b → b.Fits) : (A.set x a).Fits := by
  intro y b hb
  by_cases hy : y = x
  · subst hy; rw [AState.set_same] at hb; exact ha b hb
  · rw [AState.set_other A hy] at hb; exact h y b hb

theorem fits_vals {a : AbsArr T} (h : a.Fits) (vs : List T) : ({ a with vals := vs } : AbsArr T).Fits := h

theorem fits_put {A A' : AState T} (h : A.Fits) {x : Nat} {idx : List Int} {v : T} (hp : A.put x idx v = some A') : A'.Fits := by
  unfold AState.put at hp
  cases hx : A x with
  | none => rw [hx] at hp; cases hp
  | some a =>
    rw [hx] at hp
    cases hp
    exact fits_set h (fun b hb => by cases hb; exact fits_vals (h x a hx) _)

theorem fits_copy {A A' : AState T} (h : A.Fits) {x y : Nat} {p q : APart} {ks : List (List Nat)} (hc : AState.copy x p y q ks A = some A') : A'.Fits := by
  induction ks generalizing A with
  | nil => cases hc; exact h
  | cons k ks ih =>
    simp only [AState.copy, AState.move, Option.bind_eq_some_iff] at hc
    obtain ⟨A1, ⟨v, _, h2⟩, h3⟩ := hc
    exact ih (fits_put h h2) h3

theorem fits_map {A A' : AState T} (h : A.Fits) {x : Nat} {p : APart} {f : T → T} {ks : List (List Nat)} (hc : AState.map x p f ks A = some A') : A'.Fits := by
  induction ks generalizing A with
  | nil => cases hc; exact h
  | cons k ks ih =>
    simp only [AState.map, Option.bind_eq_some_iff] at hc
    obtain ⟨v, _, A1, h2, h3⟩ := hc
    exact ih (fits_put h h2) h3

/-- Fitting only has to be checked where a shape arises: for a state whose arrays fit, a command that creates or reshapes only fitting arrays (all others
create and reshape none) leads to a state whose arrays fit. -/
theorem C74_only_new_shapes (dflt : T) (eq lt : T → T → Bool) {A A' : AState T} {c : Cmd T} {o : CObs T} (h : A.Fits) (hn : NewFits dflt A c)
    (hs : A.step dflt eq lt c = some (o, A')) : A'.Fits := by
  cases c with
  | construct x i =>
    simp only [AState.step, Option.map_eq_some_iff, Prod.mk.injEq] at hs
    obtain ⟨a, h1, _, rfl⟩ := hs
    refine fits_set h (fun b hb => ?_)
    cases hb
    cases i with
    | copy y => exact h y a h1
    | default n al => exact hn a h1
    | extents n es so al => exact hn a h1
    | gen n rs so al => exact hn a h1
    | convert y ss so al => exact hn a h1
  | destroy x => cases hs; exact fits_set h (fun b hb => by cases hb)
  | on x op =>
    simp only [AState.step, Option.map_eq_some_iff, Option.bind_eq_some_iff, Prod.mk.injEq] at hs
    obtain ⟨a, hx, ⟨o', a'⟩, h1, _, rfl⟩ := hs
    refine fits_set h (fun b hb => ?_)
    cases hb
    have ha := h x a hx
    cases op with
    | read idx => simp only [AbsArr.step, Option.map_eq_some_iff] at h1; obtain ⟨_, _, h1⟩ := h1; cases h1; exact ha
    | readChain idx => simp only [AbsArr.step, Option.map_eq_some_iff] at h1; obtain ⟨_, _, h1⟩ := h1; cases h1; exact ha
    | write idx v => cases h1; exact ha
    | writeChain idx v => cases h1; exact ha
    | assign input => cases h1; exact ha
    | forEach f => cases h1; exact ha
    | query => cases h1; exact ha
    | reindex bs => cases h1; exact hn a hx
    | reindexAll b => cases h1; exact hn a hx
    | reshape es => cases h1; exact hn a hx
    | resize rs => cases h1; exact hn a hx
    | resizeList es => cases h1; exact hn a hx
  | assign x y =>
    simp only [AState.step] at hs
    split at hs
    · cases hs; exact h
    · simp only [Option.map_eq_some_iff, Option.bind_eq_some_iff, Prod.mk.injEq] at hs
      obtain ⟨p, _, q, _, A1, h1, _, rfl⟩ := hs
      exact fits_copy h h1
  | assignPart x ss y ss' =>
    simp only [AState.step, Option.map_eq_some_iff, Option.bind_eq_some_iff, Prod.mk.injEq] at hs
    obtain ⟨p, _, q, _, A1, h1, _, rfl⟩ := hs
    exact fits_copy h h1
  | copyArray x ss y ss' =>
    simp only [AState.step, Option.map_eq_some_iff, Option.bind_eq_some_iff, Prod.mk.injEq] at hs
    obtain ⟨p, _, q, _, A1, h1, _, rfl⟩ := hs
    exact fits_copy h h1
  | read x ss idx =>
    simp only [AState.step, Option.map_eq_some_iff, Option.bind_eq_some_iff, Prod.mk.injEq] at hs
    obtain ⟨_, _, _, _, _, rfl⟩ := hs
    exact h
  | write x ss idx v =>
    simp only [AState.step, Option.map_eq_some_iff, Option.bind_eq_some_iff, Prod.mk.injEq] at hs
    obtain ⟨_, _, _, h1, _, rfl⟩ := hs
    exact fits_put h h1
  | forEach x ss f =>
    simp only [AState.step, Option.map_eq_some_iff, Option.bind_eq_some_iff, Prod.mk.injEq] at hs
    obtain ⟨_, _, _, h1, _, rfl⟩ := hs
    exact fits_map h h1
  | traverse x ss =>
    simp only [AState.step, Option.map_eq_some_iff, Option.bind_eq_some_iff, Prod.mk.injEq] at hs
    obtain ⟨_, _, _, _, _, rfl⟩ := hs
    exact h
  | equal x ss y ss' =>
    simp only [AState.step, Option.map_eq_some_iff, Option.bind_eq_some_iff, Prod.mk.injEq] at hs
    obtain ⟨_, _, _, _, _, rfl⟩ := hs
    exact h
  | less x ss y ss' =>
    simp only [AState.step, Option.map_eq_some_iff, Option.bind_eq_some_iff, Prod.mk.injEq] at hs
    obtain ⟨_, _, _, _, _, rfl⟩ := hs
    exact h
  | shape x ss =>
    simp only [AState.step, Option.map_eq_some_iff, Prod.mk.injEq] at hs
    obtain ⟨_, _, _, rfl⟩ := hs
    exact h

/-- Strides of at most the extent. -/
def StridesWithin : (extents : List Nat) → (ranges : List IndexRange) → Prop
  | e :: es, r :: rs => r.stride_.natAbs ≤ e ∧ StridesWithin es rs
  | _, _ => True

theorem startsInBox_absDot {rs : List IndexRange} {bs : List Int} {es : List Nat} {ss : List Int} (hin : InBox bs es (startsOf rs bs)) :
    absDot (startsOf rs bs) ss ≤ absDot bs ss + span es ss := absDot_box hin

theorem ordinary_ranges {rs : List IndexRange} {bs : List Int} {es : List Nat} {ss : List Int} (hl : LegalRanges bs es rs)
    (hin : InBox bs es (startsOf rs bs)) (hst : StridesWithin es rs) (hins : InsideIndex bs es) (he : ∀ e ∈ es, e ≤ 2 ^ 62)
    (hs : ∀ d : Nat, ∀ e s, es[d]? = some e → ss[d]? = some s → e * s.natAbs < 2 ^ 63) : RangesFit bs es ss rs := by
  induction es generalizing bs rs ss with
  | nil => match bs, rs, hl with | [], [], _ => cases ss <;> trivial
  | cons e es ih => match bs, rs, hl, hst, hins, hin with
    | b :: bs, r :: rs, ⟨⟨l0, l1, l2⟩, l3⟩, ⟨t1, t2⟩, ⟨i1, i2, i3⟩, ⟨n1, n2, n3⟩ =>
      cases ss with
      | nil => trivial
      | cons s ss =>
        have he0 := he e (by simp)
        have hs0 := hs 0 e s rfl rfl
        refine ⟨⟨i1, i2, by omega, ?_, ?_⟩, ih l3 n3 t2 i3 (fun e he' => he e (by simp [he'])) (fun d => hs (d + 1))⟩
        · have : b - 1 ≤ rangeFinish r b e ∧ rangeFinish r b e ≤ b + (e : Int) := by split at l2 <;> omega
          have h3 : (rangeFinish r b e - rangeStart r b).natAbs ≤ e := by
            by_cases hneg : r.stride_ < 0
            · rw [if_pos hneg] at l2; omega
            · rw [if_neg hneg] at l2; omega
          omega
        · rw [Int.natAbs_mul]
          have := Nat.mul_le_mul_right s.natAbs t1
          omega

/-- Ordinary views fit: in an array that fits and has no extent above 2^62, every legal view whose ranges start at an index of the array and have
strides of at most the extent. -/
theorem C74_ordinary_views {n : Nat} {a : AbsArr T} (hv : ValidOrder n a.order) (hb : a.bases.length = n) (he : a.extents.length = n) (hf : a.Fits)
    (hsmall : ∀ e ∈ a.extents, e ≤ 2 ^ 62) {xs : List IndexArg} (hleg : LegalArgs a.whole xs)
    (hin : InBox a.bases a.extents (startsOf (xs.map IndexArg.toRange) a.bases)) (hst : StridesWithin a.extents (xs.map IndexArg.toRange)) :
    ViewFits a.whole a.strides xs := by
  obtain ⟨ref, hr⟩ := ARef.init_succeeds (n := n) Ptr.null a.bases (es := a.extents) hv (by omega)
  obtain ⟨hwf, _, h3, h4, h5, _⟩ := ARef.init_ok hr hv hb
  have hof : ARef.ofShape n Ptr.null a.order (some a.bases) (some a.extents) = .ok ref := by
    simp only [ARef.ofShape]; rw [copyN_self hb]; exact hr
  have hre : Reachable n ref := .ofShape hv hof
  have h5' : ref.extents = a.extents := by rw [h5, List.take_of_length_le (by omega)]
  have hss : ref.strides = a.strides := by rw [strides_eq_strideOf hre, h3, h5']; rfl
  have hh := headerFits_of hre hf h4 h5' h3
  have hd := DescFits.array hwf hh
  have hreach : absDot a.bases a.strides + span a.extents a.strides < 2 ^ 63 := by
    have := hd.reach
    rw [← h4, ← h5', ← hss]; exact this
  refine ⟨ordinary_ranges hleg.2.1 hin hst hf.2 hsmall ?_, ?_⟩
  · intro d e s h1 h2
    have := stride_bound hwf (d := d) (e := e) (s := s) (by rw [h5']; exact h1) (by rw [hss]; exact h2)
    have hf1 := hf.1
    rw [h5'] at this
    omega
  · have := startsInBox_absDot (ss := a.strides) hin
    show absDot (startsOf (xs.map IndexArg.toRange) a.bases) a.strides < 2 ^ 63
    omega

/-- A zero-based array fits as soon as the product of its non-zero extents is below 2^63. -/
theorem C74_zero_based_fits (es : List Nat) (so : StorageOrder) (vals : List T) (h : sizeBound es < 2 ^ 63) :
    (⟨List.replicate es.length 0, es, so, vals⟩ : AbsArr T).Fits := by
  refine ⟨?_, inside_zero (fun e (he : e ∈ es) => by have := le_sizeBound he; omega) _⟩
  show sizeBound es + absDot (List.replicate es.length 0) _ < _
  rw [absDot_zero]; omega

/-! ### A program that meets the hypotheses -/

instance decInside : (bs : List Int) → (es : List Nat) → Decidable (InsideIndex bs es)
  | _ :: bs, _ :: es =>
    haveI := decInside bs es
    inferInstanceAs (Decidable (_ ∧ _ ∧ _))
  | [], _ => isTrue trivial
  | _ :: _, [] => isTrue trivial

instance (a : AbsArr T) : Decidable a.Fits := inferInstanceAs (Decidable (_ ∧ _))

theorem fitRun_cons {dflt : T} {eq lt : T → T → Bool} {c : Cmd T} {cs : List (Cmd T)} {A A' : AState T} {o : CObs T} (h0 : A.Fits)
    (h1 : c.ViewsFit A) (h2 : A.step dflt eq lt c = some (o, A')) (h3 : AState.FitRun dflt eq lt cs A') : AState.FitRun dflt eq lt (c :: cs) A := by
  refine ⟨h0, h1, fun o' A'' h => ?_⟩
  rw [h2] at h
  cases h
  exact h3

theorem fitRun_next {dflt : T} {eq lt : T → T → Bool} {c : Cmd T} {cs : List (Cmd T)} {A A' : AState T} {o : CObs T} (h0 : A.Fits)
    (hn : NewFits dflt A c) (h1 : c.ViewsFit A) (h2 : A.step dflt eq lt c = some (o, A'))
    (h3 : A'.Fits → AState.FitRun dflt eq lt cs A') : AState.FitRun dflt eq lt (c :: cs) A :=
  fitRun_cons h0 h1 h2 (h3 (C74_only_new_shapes dflt eq lt h0 hn h2))

/-- The view in the program. -/
theorem demoView_fits (vals : List Nat) : ViewFits (AbsArr.whole ⟨[0, 0], [2, 3], StorageOrder.cOrder 2, vals⟩)
    (AbsArr.strides ⟨[0, 0], [2, 3], StorageOrder.cOrder 2, vals⟩) [.index 1, .range (IndexRange.mk3 2 (-1) (-1))] :=
  C74_ordinary_views (n := 2) (cOrder_valid 2) rfl rfl (C74_zero_based_fits [2, 3] _ vals (by decide)) (by show ∀ e ∈ [2, 3], e ≤ 2 ^ 62; decide) (demoView_legal vals).1.1
    (by show InBox [0, 0] [2, 3] (startsOf ([.index 1, .range (IndexRange.mk3 2 (-1) (-1))].map IndexArg.toRange) [0, 0]); decide)
    ⟨by decide, by decide, trivial⟩

theorem demoPath_fits (vals : List Nat) : APart.PathFits (AbsArr.whole ⟨[0, 0], [2, 3], StorageOrder.cOrder 2, vals⟩)
    (AbsArr.strides ⟨[0, 0], [2, 3], StorageOrder.cOrder 2, vals⟩) [.viewFrom [.index 1, .range (IndexRange.mk3 2 (-1) (-1))] [5]] := by
  refine ⟨demoView_fits vals, ?_, ?_, trivial⟩
  · show InsideIndex [5] (viewCounts ([.index 1, .range (IndexRange.mk3 2 (-1) (-1))].map IndexArg.toRange) [0, 0] [2, 3])
    decide
  · show absDot [5] (viewStrides ([.index 1, .range (IndexRange.mk3 2 (-1) (-1))].map IndexArg.toRange) [3, 1]) + span
      (viewCounts ([.index 1, .range (IndexRange.mk3 2 (-1) (-1))].map IndexArg.toRange) [0, 0] [2, 3])
      (viewStrides ([.index 1, .range (IndexRange.mk3 2 (-1) (-1))].map IndexArg.toRange) [3, 1]) < 2 ^ 63
    decide

theorem exprFits_of {A : AState T} {x : Nat} {ss : List Sel} {a : AbsArr T} (h : A x = some a) (hp : a.whole.PathFits a.strides ss) : A.ExprFits x ss := by
  intro a' h'
  rw [h] at h'
  cases h'
  exact hp

/-- The program of C67 fits. -/
theorem demoProg_fits : AState.FitRun 0 (fun a b => a == b) (fun a b => decide (a < b)) demoProg noVars := by
  unfold demoProg
  refine fitRun_next (fun x a h => by cases h) (fun a h => by cases h; decide) trivial rfl (fun f => ?_)
  refine fitRun_next f trivial trivial rfl (fun f => ?_)
  refine fitRun_next f (fun a h => by cases h; decide) (exprFits_of rfl (demoPath_fits _)) rfl (fun f => ?_)
  refine fitRun_next f trivial (exprFits_of rfl trivial) rfl (fun f => ?_)
  refine fitRun_next f trivial ⟨exprFits_of rfl trivial, exprFits_of rfl trivial⟩ rfl (fun f => ?_)
  refine fitRun_next f trivial ⟨exprFits_of rfl trivial, exprFits_of rfl trivial⟩ rfl (fun f => ?_)
  refine fitRun_next f trivial ⟨exprFits_of rfl trivial, exprFits_of rfl trivial⟩ rfl (fun f => ?_)
  refine fitRun_next f trivial (exprFits_of rfl trivial) rfl (fun f => ?_)
  refine fitRun_next f trivial (exprFits_of rfl (demoPath_fits _)) rfl (fun f => ?_)
  refine fitRun_next f trivial trivial rfl (fun f => ?_)
  refine fitRun_next f trivial trivial rfl (fun f => ?_)
  exact f

/-- The 64-bit library's run of the program. -/
example : (World.execAllM true 0 (fun a b => a == b) (fun a b => decide (a < b)) demoProg (World.start [])).map (fun r => r.1) =
    some [.basic .unit, .basic .unit, .basic .unit, .basic .unit, .basic .unit, .bool true, .bool false,
      .values [6, 9, 4, 4, 5, 6], .values [6, 5, 4], .basic .unit, .basic .unit] := by
  obtain ⟨os, _, w, e1, e2, e3, _⟩ := C74_program true 0 (fun a b => a == b) (fun a b => decide (a < b)) demoProg demoProg_legal demoProg_fits
  have : (World.execAll true 0 (fun a b => a == b) (fun a b => decide (a < b)) demoProg (World.start [])).map (fun r => r.1) = some
    [.basic .unit, .basic .unit, .basic .unit, .basic .unit, .basic .unit, .bool true, .bool false,
      .values [6, 9, 4, 4, 5, 6], .values [6, 5, 4], .basic .unit, .basic .unit] := by decide +kernel
  rw [e2]; rw [e3] at this; exact this

/-- Hypotheses of the single operations, with a non-trivial array: 2^20 x 2^20 elements, indices from -5 and 7. -/
example : ∃ ref, ARef.ofExtentGen Ptr.null ⟨2, [ExtentRange.mk2 (-5) (2 ^ 20 - 5), ExtentRange.mk2 7 (2 ^ 20 + 7)]⟩ (StorageOrder.cOrder 2) = .ok ref ∧
    HeaderFits ref ∧ ref.extents = [2 ^ 20, 2 ^ 20] ∧ ref.bases = [-5, 7] :=
  ⟨⟨Ptr.null, StorageOrder.cOrder 2, [2 ^ 20, 2 ^ 20], [2 ^ 20, 1], [-5, 7], 5 * 2 ^ 20 - 7, 0, 2 ^ 40⟩, by decide,
    ⟨by show sizeBound [2 ^ 20, 2 ^ 20] + absDot [-5, 7] [2 ^ 20, 1] < 2 ^ 63; decide, by show InsideIndex [-5, 7] [2 ^ 20, 2 ^ 20]; decide⟩, rfl, rfl⟩

/-- Without the size condition: an array of 2^32 x 2^32 elements is "constructed" on the 64-bit machine - its `num_elements()` wraps to 0 and no storage
is allocated - and writing to an element of it is then undefined behaviour, although the program is legal for abstract arrays. -/
theorem C74_hazard_wrapped_allocation : ∀ dbg : Bool,
    ((World.execAllM dbg 0 (fun a b => a == b) (fun a b => decide (a < b))
      [.construct 0 (.extents 2 [2 ^ 32, 2 ^ 32] (StorageOrder.cOrder 2) 0)] (World.start [])) : Option (List (CObs Nat) × World Nat)).isSome = true ∧
    ((World.execAllM dbg 0 (fun a b => a == b) (fun a b => decide (a < b))
      [.construct 0 (.extents 2 [2 ^ 32, 2 ^ 32] (StorageOrder.cOrder 2) 0), .write 0 [] [1, 0] 5] (World.start [])) :
        Option (List (CObs Nat) × World Nat)).isNone = true ∧
    AState.LegalRun 0 (fun a b => a == b) (fun a b => decide (a < b))
      [.construct 0 (.extents 2 [2 ^ 32, 2 ^ 32] (StorageOrder.cOrder 2) 0), .write 0 [] [1, 0] 5] (noVars : AState Nat) := by
  intro dbg
  refine ⟨by cases dbg <;> decide +kernel, by cases dbg <;> decide +kernel, ?_⟩
  refine legalRun_cons ⟨rfl, cOrder_valid 2, rfl⟩ rfl ?_
  refine ⟨⟨_, ⟨_, rfl, trivial, rfl⟩, by decide⟩, fun o A' _ => trivial⟩

end MultiArray.Props
