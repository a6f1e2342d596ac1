import Verif.Props.Relabel

/- Property theorems C16-C19, C21, C22, C24, C25: views. -/
set_option autoImplicit false

namespace MultiArray.Props
open MultiArray MultiArray.Spec

/-- **C16.** In a view, `v(j)` is the element `a(i)` with `i = start + j*stride` in each ranged dimension and the
given index in each degenerate one - for views of arrays, of subarrays and of views, also after the view has
been reindexed (`j` relative to the view's bases). -/
theorem C16_view_elements {n : Nat} {root : ARef} (hr : Reachable n root) {d : Desc} (h : Handle root d)
    {g : IndexGen} {v v' : View} (hno : StaysInside d g v) (hb : Built g)
    (hlen : g.ranges.length = d.extents.length) (hv : generateArrayView true g d = .ok v)
    (hh : ViewHistory v v') (dbg : Bool) (idx : List Int) (hin : InBox v'.bases v'.extents idx) :
    ∃ p, v'.paren dbg idx = .ok p ∧
      accessElement dbg (selected g.ranges d.bases (List.zipWith (· - ·) idx v'.bases)) d = .ok p := by
  have hw := handle_wellShaped hr h
  obtain ⟨hleg, hnum, rfl⟩ := genView_ok hw hlen hv
  obtain ⟨w, h1, h2, h3, _⟩ := ViewHistory_facts hh (theView_wf g d hw hleg)
  have hextlen : v'.extents.length = numRanged g.ranges := by
    rw [h2, theView_extents, List.length_map, selExtents_length _ _ _ hleg.length.1 hleg.length.2]
  refine ⟨_, accessElement_inBox dbg v'.desc idx w.wellShaped.1 hin, ?_⟩
  rw [view_address hw hleg hh idx hin.length.1]
  apply accessElement_inBox dbg d _ hw.1
  apply hno
  have hrel := inBox_relPos _ _ _ hin
  have hvb : (theView g d).bases = List.replicate (theView g d).extents.length 0 := by simp [theView, View.mkView]
  rw [hvb, ← h2]
  exact hrel

theorem checkIndices_off (es : List Nat) (bs idx : List Int) : checkIndices false es bs idx = .ok () := by
  unfold checkIndices
  split <;> simp

theorem length_selected (rs : List IndexRange) (bs j : List Int) (hb : bs.length = rs.length) (hj : j.length = numRanged rs) :
    (selected rs bs j).length = rs.length := by
  induction rs generalizing bs j with
  | nil => cases bs <;> simp [selected]
  | cons r rs ih =>
    match bs, hb with
    | b :: bs, hb =>
      simp only [List.length_cons, Nat.add_right_cancel_iff] at hb
      simp only [selected]
      by_cases hd : r.degenerate_
      · rw [if_pos hd, List.length_cons, List.length_cons, ih bs j hb (by simpa [numRanged, hd] using hj)]
      · rw [if_neg hd]
        match j, hj with
        | [], hj => simp [numRanged, hd] at hj
        | x :: xs, hj =>
          simp only [List.length_cons]
          rw [ih bs xs hb (by simpa [numRanged, hd] using hj)]

/-- **C16.** The same for *every* view the assertions accept - also one whose backward range starts one past the end, so that some
of its in-range indices select an index outside the array (C18).  The view's element at `idx` is then where the selected index
tuple is without a range check, and with the check whenever that tuple is in range. -/
theorem C16_all_accepted {n : Nat} {root : ARef} (hr : Reachable n root) {d : Desc} (h : Handle root d)
    {g : IndexGen} (hlen : g.ranges.length = d.extents.length) {v v' : View} (hv : generateArrayView true g d = .ok v)
    (hh : ViewHistory v v') (dbg : Bool) (idx : List Int) (hin : InBox v'.bases v'.extents idx) :
    ∃ p, v'.paren dbg idx = .ok p ∧
      accessElement false (selected g.ranges d.bases (List.zipWith (· - ·) idx v'.bases)) d = .ok p ∧
      (InBox d.bases d.extents (selected g.ranges d.bases (List.zipWith (· - ·) idx v'.bases)) →
        accessElement true (selected g.ranges d.bases (List.zipWith (· - ·) idx v'.bases)) d = .ok p) := by
  have hw := handle_wellShaped hr h
  obtain ⟨hleg, hnum, rfl⟩ := genView_ok hw hlen hv
  obtain ⟨w, h1, h2, h3, _⟩ := ViewHistory_facts hh (theView_wf g d hw hleg)
  have hextlen : v'.extents.length = numRanged g.ranges := by
    rw [h2, theView_extents, List.length_map, selExtents_length _ _ _ hleg.length.1 hleg.length.2]
  have hrl : (List.zipWith (· - ·) idx v'.bases).length = numRanged g.ranges := by
    have := hin.length
    simp [this, hextlen]
  have hsl : (selected g.ranges d.bases (List.zipWith (· - ·) idx v'.bases)).length = d.extents.length := by
    rw [length_selected _ _ _ (by rw [hw.2, hlen]) hrl, hlen]
  refine ⟨_, accessElement_inBox dbg v'.desc idx w.wellShaped.1 hin, ?_, ?_⟩
  · rw [view_address hw hleg hh idx hin.length.1]
    unfold accessElement
    rw [checkIndices_off, Res.bind_ok, offsetLoop_eq _ _ _ _ hsl hw.1]
    simp [address, relPos]
  · intro hi
    rw [view_address hw hleg hh idx hin.length.1]
    exact accessElement_inBox true d _ hw.1 hi

/-- **C17.** The extents of a view count the selected indices exactly. -/
theorem C17_view_extents_count {n : Nat} {root : ARef} (hr : Reachable n root) {d : Desc} (h : Handle root d)
    {g : IndexGen} (hlen : g.ranges.length = d.extents.length) {v : View}
    (hv : generateArrayView true g d = .ok v) :
    ExtentsCount g.ranges d.bases d.extents v.extents := by
  have hw := handle_wellShaped hr h
  obtain ⟨hleg, hnum, rfl⟩ := genView_ok hw hlen hv
  rw [theView_extents]
  have aux : ∀ (rs : List IndexRange) (bs : List Int) (es : List Nat), LegalRanges bs es rs →
      ExtentsCount rs bs es ((selExtents rs bs es).map Int.toNat) := by
    intro rs
    induction rs with
    | nil =>
      intro bs es hl
      obtain ⟨l1, l2⟩ := hl.length
      match es, bs, l1, l2 with
      | [], [], _, _ => simp [selExtents, ExtentsCount]
    | cons r rs ih =>
      intro bs es hl
      obtain ⟨l1, l2⟩ := hl.length
      match es, bs, l1, l2, hl with
      | e :: es, b :: bs, _, _, hl =>
        cases hd : r.degenerate_ with
        | true => simp only [selExtents, ExtentsCount, hd, if_true]; exact ih bs es hl.2
        | false =>
          simp only [selExtents, ExtentsCount, hd, Bool.false_eq_true, if_false, List.map_cons]
          refine ⟨fun k => ?_, ih bs es hl.2⟩
          rw [← viewLen_iff _ _ _ hl.1.1]
          have := viewLen_nonneg (rangeStart r b) (rangeFinish r b e) r.stride_ hl.1.1
          omega
  exact aux _ _ _ hleg

/-- **C17.** In particular an interval that is empty in the direction of the stride gives extent 0, and the extent is
the ceiling of `(finish - start) / stride` otherwise. -/
theorem C17_view_length_formula (start finish stride : Int) (hs : stride ≠ 0) :
    (¬ Before stride start finish → viewLen start finish stride = 0) ∧
    (Before stride start finish → 0 < viewLen start finish stride ∧
      Before stride (start + (viewLen start finish stride - 1) * stride) finish ∧
      ¬ Before stride (start + viewLen start finish stride * stride) finish) := by
  have hnn := viewLen_nonneg start finish stride hs
  have hiff := viewLen_iff start finish stride hs
  constructor
  · intro h
    have h0 := (hiff 0).not.mpr (by simpa using h)
    omega
  · intro h
    have h0 := (hiff 0).mpr (by simpa using h)
    refine ⟨by simpa using h0, ?_, ?_⟩
    · have := (hiff (viewLen start finish stride - 1).toNat).mp (by omega)
      rwa [show (((viewLen start finish stride - 1).toNat : Nat) : Int) = viewLen start finish stride - 1 by omega] at this
    · have := (hiff (viewLen start finish stride).toNat).not.mp (by omega)
      rwa [show (((viewLen start finish stride).toNat : Nat) : Int) = viewLen start finish stride by omega] at this

example : ∃ v, generateArrayView true exView exArr.desc = .ok v ∧ v.extents = [3, 2] ∧
    v.paren true [1, 1] = .ok ⟨7, 16⟩ ∧ selected exView.ranges exArr.bases [1, 1] = [0, 6, 2] ∧
    exArr.paren true [0, 6, 2] = .ok ⟨7, 16⟩ := ⟨_, rfl, by decide, by decide, by decide, by decide⟩

/-- **C18** is false of the code: the assertion on a range's start allows `base+extent` also for a negative stride, so
a view can be created (no assertion fails) whose element 0 lies outside the array: reversing a 4-element array
with `range(4,-1,-1)` gives a 5-element view whose element 0 is one past the end of the block. -/
theorem C18_counterexample :
    ∃ (a : ARef) (g : IndexGen) (v : View), Reachable 1 a ∧ Built g ∧ g.ranges.length = a.extents.length ∧
      a.slice true g = .ok v ∧ a.numElements = 4 ∧ InBox v.bases v.extents [0] ∧
      v.paren true [0] = .ok (a.data.add 4) :=
  ⟨_, ⟨1, 1, [IndexRange.mk3 4 (-1) (-1)]⟩, _,
    .ofExtents (p := ⟨7, 0⟩) (exts := [4]) (so := StorageOrder.cOrder 1) (by decide) rfl,
    .range (r := IndexRange.mk3 4 (-1) (-1)) .empty rfl, rfl, rfl, by decide, by decide, by decide⟩

/-- **C18** (partial; the missing hypothesis is `StaysInside` in every view creation, built into `Handle`): nested
slicing to any depth only ever denotes in-range elements of the original array. -/
theorem C18_views_contained_partial {n : Nat} {root : ARef} (hr : Reachable n root) {d : Desc} (h : Handle root d)
    (dbg : Bool) (idx : List Int) (hin : InBox d.bases d.extents idx) :
    ∃ i p, InBox root.bases root.extents i ∧ root.paren dbg i = .ok p ∧ accessElement dbg idx d = .ok p := by
  obtain ⟨hw, f, hf, _⟩ := h.embedding hr.wf
  obtain ⟨h1, h2⟩ := hf idx hin
  refine ⟨f idx, address d idx, h1, ?_, accessElement_inBox dbg d idx hw.1 hin⟩
  rw [h2]
  exact hr.wf.paren_ok dbg h1

/-- **C19.** Different in-range indices of a view (or subarray, nested to any depth) denote different elements. -/
theorem C19_views_distinct {n : Nat} {root : ARef} (hr : Reachable n root) {d : Desc} (h : Handle root d)
    (dbg : Bool) (i j : List Int) (hi : InBox d.bases d.extents i) (hj : InBox d.bases d.extents j) (hne : i ≠ j) :
    ∃ p q, accessElement dbg i d = .ok p ∧ accessElement dbg j d = .ok q ∧ p ≠ q := by
  obtain ⟨hw, f, hf, hinj⟩ := h.embedding hr.wf
  refine ⟨_, _, accessElement_inBox dbg d i hw.1 hi, accessElement_inBox dbg d j hw.1 hj, ?_⟩
  obtain ⟨h1, h2⟩ := hf i hi
  obtain ⟨h3, h4⟩ := hf j hj
  rw [h2, h4]
  obtain ⟨p, q, hp, hq, hpq⟩ := C02_distinct_elements hr dbg (f i) (f j) h1 h3 (fun h => hne (hinj i j hi hj h))
  rw [hr.wf.paren_ok dbg h1] at hp
  rw [hr.wf.paren_ok dbg h3] at hq
  cases hp; cases hq
  exact hpq

/-- **C19.** The same for *every* view the assertions accept, also one that reaches outside what it views: different in-range indices
select different index tuples there, and wherever these are in range (C18 says when that can fail) they denote different elements. -/
theorem C19_selection_injective {n : Nat} {root : ARef} (hr : Reachable n root) {d : Desc} (h : Handle root d)
    {g : IndexGen} (hlen : g.ranges.length = d.extents.length) {v v' : View} (hv : generateArrayView true g d = .ok v)
    (hh : ViewHistory v v') (dbg : Bool) (i j : List Int) (hi : InBox v'.bases v'.extents i) (hj : InBox v'.bases v'.extents j)
    (hne : i ≠ j) :
    selected g.ranges d.bases (List.zipWith (· - ·) i v'.bases) ≠ selected g.ranges d.bases (List.zipWith (· - ·) j v'.bases) ∧
    (InBox d.bases d.extents (selected g.ranges d.bases (List.zipWith (· - ·) i v'.bases)) →
      InBox d.bases d.extents (selected g.ranges d.bases (List.zipWith (· - ·) j v'.bases)) →
      ∃ p q, v'.paren dbg i = .ok p ∧ v'.paren dbg j = .ok q ∧ p ≠ q) := by
  have hw := handle_wellShaped hr h
  obtain ⟨p, hp, _, hp'⟩ := C16_all_accepted hr h hlen hv hh dbg i hi
  obtain ⟨q, hq, _, hq'⟩ := C16_all_accepted hr h hlen hv hh dbg j hj
  obtain ⟨hleg, hnum, rfl⟩ := genView_ok hw hlen hv
  obtain ⟨w, h1, h2, h3, _⟩ := ViewHistory_facts hh (theView_wf g d hw hleg)
  have hextlen : v'.extents.length = numRanged g.ranges := by
    rw [h2, theView_extents, List.length_map, selExtents_length _ _ _ hleg.length.1 hleg.length.2]
  have hl : ∀ x, InBox v'.bases v'.extents x → (List.zipWith (· - ·) x v'.bases).length = numRanged g.ranges := by
    intro x hx
    have := hx.length
    simp [this, hextlen]
  have hsel : selected g.ranges d.bases (List.zipWith (· - ·) i v'.bases) ≠ selected g.ranges d.bases (List.zipWith (· - ·) j v'.bases) := by
    intro e
    have := selected_inj _ _ _ _ (by rw [hw.2, hlen]) (legal_stride_ne_zero hleg) (hl i hi) (hl j hj) e
    have l1 := hi.length
    have l2 := hj.length
    exact hne (relPos_inj (by omega) (by omega) this)
  refine ⟨hsel, fun ci cj => ⟨p, q, hp, hq, ?_⟩⟩
  obtain ⟨p2, q2, e1, e2, e3⟩ := C19_views_distinct hr h true _ _ ci cj hsel
  rw [hp' ci] at e1; rw [hq' cj] at e2
  cases e1; cases e2
  exact e3

/-- The condition in `C19_selection_injective` is needed: on a 2x3 array the library accepts `indices[range()][range(3,-1,-1)]`, a 2x4 view
in which `(0,0)` and `(1,3)` are the same element, the array's `(1,0)`. -/
theorem C19_overrun_aliases : ∃ (root : ARef) (g : IndexGen) (v : View), Reachable 2 root ∧ Built g ∧ g.ranges.length = root.desc.extents.length ∧
    generateArrayView true g root.desc = .ok v ∧ InBox v.bases v.extents [0, 0] ∧ InBox v.bases v.extents [1, 3] ∧
    ∃ p, v.paren true [0, 0] = .ok p ∧ v.paren true [1, 3] = .ok p ∧ root.paren true [1, 0] = .ok p :=
  ⟨_, ⟨2, 2, [IndexRange.all, IndexRange.mk3 3 (-1) (-1)]⟩, _,
    .ofExtents (p := ⟨7, 0⟩) (exts := [2, 3]) (so := StorageOrder.cOrder 2) (by decide) rfl,
    .range (g := ⟨1, 1, [IndexRange.all]⟩) (.range .empty rfl) rfl, rfl, rfl, by decide, by decide, _, rfl, rfl, rfl⟩

/-- `C19_selection_injective` on the same view: `(0,1)` and `(1,3)` are two different in-range elements. -/
example : ∃ (root : ARef) (g : IndexGen) (v : View), Reachable 2 root ∧ g.ranges.length = root.desc.extents.length ∧
    generateArrayView true g root.desc = .ok v ∧ ¬ StaysInside root.desc g v ∧ InBox v.bases v.extents [0, 1] ∧ InBox v.bases v.extents [1, 3] ∧
    InBox root.desc.bases root.desc.extents (selected g.ranges root.desc.bases [0, 1]) ∧
    InBox root.desc.bases root.desc.extents (selected g.ranges root.desc.bases [1, 3]) := by
  refine ⟨_, ⟨2, 2, [IndexRange.all, IndexRange.mk3 3 (-1) (-1)]⟩, _,
    .ofExtents (p := ⟨7, 0⟩) (exts := [2, 3]) (so := StorageOrder.cOrder 2) (by decide) rfl, rfl, rfl, fun h => ?_, by decide, by decide, by decide, by decide⟩
  exact absurd (h [0, 0] (by decide)) (by decide)

/-- Hypotheses of C16-C19 are met by the two-dimensional view `exView` of `exArr`. -/
example : ∃ v, generateArrayView true exView exArr.desc = .ok v ∧ Handle exArr v.desc ∧
    NoOverrun exArr.desc.bases exArr.desc.extents exView.ranges ∧
    InBox v.desc.bases v.desc.extents [1, 1] ∧ InBox v.desc.bases v.desc.extents [2, 1] :=
  ⟨_, rfl, handle_view exArr_reachable.wf .array (by decide) exView_built rfl rfl .refl, by decide, by decide, by decide⟩

theorem legal_default (b : Int) (e : Nat) : LegalRange b e IndexRange.default := by
  refine ⟨by decide, ?_, ?_⟩
  · simp [rangeStart, IndexRange.default, IndexRange.fromStart]
  · simp [rangeFinish, IndexRange.default, IndexRange.toEnd]

/-- **C21.** Omitting a start or finish is the same as writing the dimension's base or base+extent: the two views are
the same view (same success, same elements). -/
theorem C21_omitted_bounds (dbg : Bool) (g : IndexGen) (d : Desc) :
    generateArrayView dbg { g with ranges := explicitRanges g.ranges d.bases d.extents } d =
      generateArrayView dbg g d := by
  have key : ∀ (r : IndexRange) (b : Int) (e : Nat), (explicitRange r b e).getStart b = r.getStart b ∧
      (explicitRange r b e).getFinish (b + (e : Int)) = r.getFinish (b + (e : Int)) := by
    intro r b e
    simp only [explicitRange, IndexRange.getStart, IndexRange.getFinish, rangeStart, rangeFinish, IndexRange.fromStart,
      IndexRange.toEnd]
    constructor
    · by_cases h : r.start_ = -2 ^ 63
      · simp only [h, if_true, ite_self]
      · simp only [h, if_false]
    · by_cases h : r.finish_ = 2 ^ 63 - 1
      · simp only [h, if_true, ite_self]
      · simp only [h, if_false]
  have loop : ∀ (es : List Nat) (rs : List IndexRange) (ss bs : List Int) (acc : ViewAcc),
      viewLoop dbg g.numDims (explicitRanges rs bs es) es ss bs acc = viewLoop dbg g.numDims rs es ss bs acc := by
    intro es
    induction es with
    | nil =>
      intro rs ss bs acc
      cases bs <;> cases ss <;> cases rs <;> simp [viewLoop, explicitRanges]
    | cons e es ih =>
      intro rs ss bs acc
      cases rs with
      | nil => simp [explicitRanges]
      | cons r rs => cases bs with
        | nil => simp [explicitRanges]
        | cons b bs => cases ss with
          | nil => simp [viewLoop]
          | cons s ss =>
            simp only [explicitRanges, viewLoop]
            have hstep : viewStep dbg g.numDims (explicitRange r b e) e s b acc = viewStep dbg g.numDims r e s b acc := by
              unfold viewStep
              simp only [(key r b e).1, (key r b e).2]
              rfl
            rw [hstep]
            congr 1
            funext acc'
            exact ih rs ss bs acc'
  unfold generateArrayView
  simp only [loop]

/-- **C21.** The all-default view has the array's shape and the array's elements, re-based to 0. -/
theorem C21_default_view {n : Nat} {root : ARef} (hr : Reachable n root) {d : Desc} (h : Handle root d) (dbg : Bool) :
    ∃ v, generateArrayView dbg ⟨d.extents.length, d.extents.length,
        List.replicate d.extents.length IndexRange.default⟩ d = .ok v ∧
      v.extents = d.extents ∧ v.strides = d.strides ∧ v.bases = List.replicate d.extents.length 0 ∧
      ∀ k, InShape d.extents k → v.paren dbg (atPos v.bases k) = accessElement dbg (atPos d.bases k) d := by
  have hw := handle_wellShaped hr h
  have hleg : ∀ (es : List Nat) (bs : List Int), bs.length = es.length →
      LegalRanges bs es (List.replicate es.length IndexRange.default) := by
    intro es
    induction es with
    | nil => intro bs hb; match bs, hb with | [], _ => trivial
    | cons e es ih => intro bs hb; match bs, hb with
      | b :: bs, hb => exact ⟨legal_default b e, ih bs (by simpa using hb)⟩
  have hnum : ∀ m, numRanged (List.replicate m IndexRange.default) = m := by
    intro m
    induction m with
    | zero => rfl
    | succ m ih => rw [List.replicate_succ, numRanged_cons, ih]; simp [IndexRange.default]; omega
  have hl := hleg d.extents d.bases hw.2
  let g : IndexGen := ⟨d.extents.length, d.extents.length, List.replicate d.extents.length IndexRange.default⟩
  have hok := genView_legal dbg g d hw hl (hnum _)
  have hext : (theView g d).extents = d.extents := by
    rw [theView_extents]
    have : ∀ (es : List Nat) (bs : List Int), bs.length = es.length →
        (selExtents (List.replicate es.length IndexRange.default) bs es).map Int.toNat = es := by
      intro es
      induction es with
      | nil => intro bs hb; match bs, hb with | [], _ => rfl
      | cons e es ih => intro bs hb; match bs, hb with
        | b :: bs, hb =>
          simp only [List.length_cons, List.replicate_succ, selExtents, IndexRange.default, Bool.false_eq_true, if_false,
            List.map_cons, rangeStart, rangeFinish, IndexRange.fromStart, IndexRange.toEnd, if_true]
          have hi := ih bs (by simpa using hb)
          simp only [IndexRange.default, IndexRange.fromStart, IndexRange.toEnd] at hi
          rw [hi]
          congr 1
          have h1 := viewLen_pos b (b + (e : Int)) 1 (by omega)
          have h2 := viewLen_nonneg b (b + (e : Int)) 1 (by omega)
          have h3 := h1 (viewLen b (b + (e : Int)) 1).toNat
          have h4 := h1 (viewLen b (b + (e : Int)) 1 - 1).toNat
          omega
    exact this d.extents d.bases hw.2
  have hstr : (theView g d).strides = d.strides := by
    show selStrides (List.replicate d.extents.length IndexRange.default) d.strides = d.strides
    rw [← hw.1]
    generalize d.strides = ss
    induction ss with
    | nil => rfl
    | cons s ss ih => simp only [List.length_cons, List.replicate_succ, selStrides, IndexRange.default, Bool.false_eq_true, if_false,
        Int.one_mul]; rw [← IndexRange.default, ih]
  have hbases : (theView g d).bases = List.replicate d.extents.length 0 := by
    show List.replicate (selExtents _ _ _).length (0 : Int) = _
    rw [selExtents_length _ _ _ hl.length.1 hl.length.2, hnum]
  refine ⟨theView g d, hok, hext, hstr, hbases, ?_⟩
  intro k hk
  have hkl := hk.length
  have hin : InBox (theView g d).bases (theView g d).extents (atPos (theView g d).bases k) := by
    apply inBox_atPos
    · rw [hbases, hext]; simp
    · rw [hext]; exact hk
  have hin' : InBox d.bases d.extents (atPos d.bases k) := inBox_atPos hw.2 hk
  rw [accessElement_inBox dbg d _ hw.1 hin']
  show accessElement dbg _ (theView g d).desc = _
  rw [accessElement_inBox dbg (theView g d).desc _ (theView_wf g d hw hl).wellShaped.1 hin]
  rw [view_address hw hl .refl _ hin.length.1]
  congr 2
  rw [hbases]
  have hsel : ∀ (bs : List Int) (k : List Nat), bs.length = k.length →
      selected (List.replicate k.length IndexRange.default) bs
        (relPos (atPos (List.replicate k.length 0) k) (List.replicate k.length 0)) = atPos bs k := by
    intro bs
    induction bs with
    | nil => intro k hb; match k, hb with | [], _ => rfl
    | cons b bs ih => intro k hb; match k, hb with
      | x :: k, hb =>
        simp only [List.length_cons, List.replicate_succ, atPos, relPos, List.zipWith_cons_cons, selected,
          IndexRange.default, Bool.false_eq_true, if_false, rangeStart, IndexRange.fromStart, if_true]
        have hi := ih k (by simpa using hb)
        simp only [IndexRange.default, IndexRange.fromStart, atPos, relPos] at hi
        rw [hi]
        congr 1
        omega
  show selected (List.replicate d.extents.length IndexRange.default) _ _ = _
  rw [← hkl]
  exact hsel d.bases k (by rw [hw.2, hkl])

example : ∃ v, generateArrayView true ⟨3, 3, List.replicate 3 IndexRange.default⟩ exArr.desc = .ok v ∧
    v.extents = [2, 3, 4] ∧ v.paren true [1, 1, 2] = exArr.paren true [0, 6, 2] := ⟨_, rfl, by decide, by decide⟩

/-- **C21.** The same for any mixture of default ranges and `all()`. -/
theorem C21_all_view {n : Nat} {root : ARef} (hr : Reachable n root) {d : Desc} (h : Handle root d) (dbg : Bool) (rs : List IndexRange)
    (hlen : rs.length = d.extents.length) (hrs : ∀ r ∈ rs, r = IndexRange.default ∨ r = IndexRange.all) :
    ∃ v, generateArrayView dbg ⟨d.extents.length, d.extents.length, rs⟩ d = .ok v ∧
      v.extents = d.extents ∧ v.strides = d.strides ∧ v.bases = List.replicate d.extents.length 0 ∧
      ∀ k, InShape d.extents k → v.paren dbg (atPos v.bases k) = accessElement dbg (atPos d.bases k) d := by
  have : rs = List.replicate d.extents.length IndexRange.default := by
    rw [List.eq_replicate_iff]
    exact ⟨hlen, fun r hr => by rcases hrs r hr with rfl | rfl <;> rfl⟩
  rw [this]
  exact C21_default_view hr h dbg

example : ∃ v, generateArrayView true ⟨3, 3, [IndexRange.all, IndexRange.default, IndexRange.all]⟩ exArr.desc = .ok v ∧
    v.extents = [2, 3, 4] ∧ v.paren true [1, 1, 2] = exArr.paren true [0, 6, 2] := ⟨_, rfl, by decide, by decide⟩

/-- **C22.** With assertions enabled, creating a view with one range per dimension (and as many non-degenerate ranges
as the view has dimensions) succeeds iff every range is legal, and fails an assertion otherwise. -/
theorem C22_view_accepts_exactly {n : Nat} {root : ARef} (hr : Reachable n root) {d : Desc} (h : Handle root d)
    (g : IndexGen) (hlen : g.ranges.length = d.extents.length)
    (hnum : (g.ranges.filter (fun r => !r.degenerate_)).length = g.numDims) :
    ((∃ v, generateArrayView true g d = .ok v) ↔ LegalRanges d.bases d.extents g.ranges) ∧
    (generateArrayView true g d = .assertFail ↔ ¬ LegalRanges d.bases d.extents g.ranges) := by
  have hw := handle_wellShaped hr h
  rcases Decidable.em (LegalRanges d.bases d.extents g.ranges) with hl | hl
  · rw [genView_legal true g d hw hl hnum]; simp [hl]
  · have : generateArrayView true g d = .assertFail := by
      unfold generateArrayView
      rw [viewLoop_illegal _ _ _ _ _ _ hl hw.1 hw.2 hlen]; rfl
    rw [this]; simp [hl]

/-- **C22.** A range list whose number of non-degenerate ranges differs from the view's dimension (possible only by
passing a one-index range such as `index_range(5)` where a range is expected) always fails an assertion; with
assertions disabled it is undefined behaviour. -/
theorem C22_arity_mismatch {n : Nat} {root : ARef} (hr : Reachable n root) {d : Desc} (h : Handle root d)
    (g : IndexGen) (hlen : g.ranges.length = d.extents.length)
    (hnum : (g.ranges.filter (fun r => !r.degenerate_)).length ≠ g.numDims) :
    generateArrayView true g d = .assertFail ∧
    (LegalRanges d.bases d.extents g.ranges → generateArrayView false g d = .ub) := by
  have hw := handle_wellShaped hr h
  have main : LegalRanges d.bases d.extents g.ranges →
      ∀ dbg, generateArrayView dbg g d = if dbg then .assertFail else .ub := by
    intro hl dbg
    unfold generateArrayView
    rcases Nat.lt_or_ge g.numDims (numRanged g.ranges) with hlt | hge
    · rw [viewLoop_overflow g.numDims g.ranges d.extents d.strides d.bases ⟨0, [], []⟩ hl hw.1 (by simpa using hlt) (by simp)]
      cases dbg <;> rfl
    · rw [viewLoop_legal dbg g.numDims g.ranges d.extents d.strides d.bases ⟨0, [], []⟩ hl hw.1 (by simpa using hge)]
      have hsl : (selStrides g.ranges d.strides).length = numRanged g.ranges :=
        selStrides_length _ _ (by rw [hlen, hw.1])
      have hne : ¬ numRanged g.ranges = g.numDims := hnum
      cases dbg <;> simp [hsl, hne]
  refine ⟨?_, fun hl => main hl false⟩
  rcases Decidable.em (LegalRanges d.bases d.extents g.ranges) with hl | hl
  · exact main hl true
  · unfold generateArrayView
    rw [viewLoop_illegal _ _ _ _ _ _ hl hw.1 hw.2 hlen]; rfl

example : LegalRanges exArr.desc.bases exArr.desc.extents exView.ranges ∧
    ¬ LegalRanges exArr.desc.bases exArr.desc.extents [IndexRange.single 0, IndexRange.mk3 7 3 (-1), IndexRange.default] ∧
    exArr.slice true ⟨3, 2, [IndexRange.single 0, IndexRange.mk3 7 3 (-1), IndexRange.default]⟩ = .assertFail := by
  decide

/-! ### Instances: the theorems applied to concrete cases, whose hypotheses are thereby met -/

/-- The view of `exArr` selected by `exView`. -/
theorem exView_made : generateArrayView true exView exArr.desc = .ok (theView exView exArr.desc) := rfl
theorem exView_inside : StaysInside exArr.desc exView (theView exView exArr.desc) :=
  staysInside_of_noOverrun (handle_wellShaped exArr_reachable .array) (by decide) exView_built rfl rfl
theorem exView_handle : Handle exArr (theView exView exArr.desc).desc :=
  handle_view exArr_reachable.wf .array (by decide) exView_built rfl rfl .refl
example := C16_view_elements exArr_reachable .array exView_inside exView_built rfl exView_made .refl true [1, 1] (by decide)
example := C16_all_accepted exArr_reachable .array rfl exView_made .refl true [1, 1] (by decide)
example := C17_view_extents_count exArr_reachable .array rfl exView_made
example := C18_views_contained_partial exArr_reachable exView_handle true [1, 1] (by decide)
example := C19_views_distinct exArr_reachable exView_handle true [1, 1] [2, 1] (by decide) (by decide) (by decide)
example := C19_selection_injective exArr_reachable .array rfl exView_made .refl true [1, 1] [2, 1] (by decide) (by decide) (by decide)
example := C22_view_accepts_exactly exArr_reachable .array exView rfl (by decide)

/- end of instances -/

end MultiArray.Props
