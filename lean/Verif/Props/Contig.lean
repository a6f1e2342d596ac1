import Verif.Lemmas.Contig
import Verif.Props.Duality
import Verif.Props.Gens

/- Property theorems C91: strides, and which handles are contiguous in memory. -/
set_option autoImplicit false

namespace MultiArray.Props
open MultiArray MultiArray.Spec
variable {T : Type}

private theorem dot_set (idx ss : List Int) (j : Nat) (i m : Int) (hl : idx.length = ss.length) (hj : idx[j]? = some i) :
    dot (idx.set j (i + m)) ss = dot idx ss + m * ss.getD j 0 := by
  induction idx generalizing ss j with
  | nil => simp at hj
  | cons x xs ih =>
    match ss, hl with
    | s :: ss, hl =>
      cases j with
      | zero =>
        simp only [List.getElem?_cons_zero, Option.some.injEq] at hj
        subst hj
        simp only [List.set_cons_zero, dot, List.getD_cons_zero]; ring
      | succ j =>
        have := ih ss j (by simpa using hl) (by simpa using hj)
        simp only [List.set_cons_succ, dot, List.getD_cons_succ, this]; ring

/-- **C91.** What `strides()` means, for arrays, subarrays and views alike: moving by `m` in dimension `j` (inside the range) moves the element's address by `m * strides()[j]`. -/
theorem C91_strides {n : Nat} {root : ARef} (hr : Reachable n root) {d : Desc} (h : Handle root d) (dbg : Bool) (idx : List Int) (j : Nat) (i m : Int)
    (hj : idx[j]? = some i) (h1 : InBox d.bases d.extents idx) (h2 : InBox d.bases d.extents (idx.set j (i + m))) :
    ∃ p, d.paren dbg idx = .ok p ∧ d.paren dbg (idx.set j (i + m)) = .ok (p.add (m * d.strides.getD j 0)) := by
  have hw := handle_wellShaped hr h
  refine ⟨address d idx, accessElement_inBox dbg d idx hw.1 h1, ?_⟩
  show accessElement dbg _ d = _
  rw [accessElement_inBox dbg d _ hw.1 h2]
  unfold address
  rw [dot_set idx d.strides j i m (by rw [h1.length.1, hw.1]) hj]
  simp [Ptr.add, Int.add_assoc]

/-- **C91.** Exactly when a (non-empty) array, subarray or view is contiguous in row-major order: every dimension with more than one element has as its stride the number of elements behind it -
a test on `shape()` and `strides()`.  The run of elements then starts at the first element. -/
theorem C91_contiguous_iff {n : Nat} {root : ARef} (hr : Reachable n root) {d : Desc} (h : Handle root d) (hne : d.numElements ≠ 0) :
    (Contiguous d ↔ ∀ j, 1 < d.extents.getD j 0 → d.strides.getD j 0 = ((d.extents.drop (j + 1)).prod : Int)) ∧
    (ContiguousCol d ↔ ∀ j, 1 < d.extents.getD j 0 → d.strides.getD j 0 = ((d.extents.take j).prod : Int)) ∧
    (∀ p, ContiguousFrom d p ∨ ContiguousColFrom d p → ∀ dbg, d.paren dbg d.bases = .ok p) := by
  have hw := handle_wellShaped hr h
  have hne' : d.extents.prod ≠ 0 := by
    have : d.numElements = d.extents.prod := product_eq d.extents
    rwa [this] at hne
  have hrev : d.rev.extents.prod ≠ 0 := by
    show d.extents.reverse.prod ≠ 0
    rw [List.prod_reverse]; exact hne'
  have hfirst : InBox d.bases d.extents d.bases := by
    have := inBox_atPos (by rw [hw.2]) (inShape_zeros hne') (bs := d.bases)
    rwa [← hw.2, atPos_zeros_bases] at this
  refine ⟨by rw [contiguous_dense hw hne', dense_iff _ _ hw.1], ?_, ?_⟩
  · have hcol : ContiguousCol d ↔ Contiguous d.rev := exists_congr fun p => contiguousColFrom_rev hw p
    rw [hcol, contiguous_dense (wellShaped_rev hw) hrev, dense_iff _ _ (wellShaped_rev hw).1]
    show (∀ j, 1 < d.extents.reverse.getD j 0 → d.strides.reverse.getD j 0 = _) ↔ _
    have hs := hw.1
    have hget : ∀ {α : Type} (l : List α) (x : α) (j : Nat), j < l.length → l.reverse.getD j x = l.getD (l.length - 1 - j) x := by
      intro α l x j hj
      rw [List.getD_eq_getElem?_getD, List.getD_eq_getElem?_getD, List.getElem?_reverse hj]
    constructor
    · intro hall j hj
      have hjl : j < d.extents.length := by
        by_contra g
        rw [List.getD_eq_getElem?_getD, List.getElem?_eq_none (by omega)] at hj
        simp at hj
      have h1 := hall (d.extents.length - 1 - j)
      rw [hget _ _ _ (by omega), hget _ _ _ (by omega), hs, show d.extents.length - 1 - (d.extents.length - 1 - j) = j by omega] at h1
      rw [h1 hj]
      show ((List.drop _ d.extents.reverse).prod : Int) = _
      rw [List.drop_reverse, List.prod_reverse, show d.extents.length - (d.extents.length - 1 - j + 1) = j by omega]
    · intro hall j hj
      have hjl : j < d.extents.length := by
        by_contra g
        rw [List.getD_eq_getElem?_getD, List.getElem?_eq_none (by rw [List.length_reverse]; omega)] at hj
        simp at hj
      rw [hget _ _ _ hjl] at hj
      rw [hget _ _ _ (by omega), hs, hall _ hj]
      show _ = ((List.drop _ d.extents.reverse).prod : Int)
      rw [List.drop_reverse, List.prod_reverse, show d.extents.length - (j + 1) = d.extents.length - 1 - j by omega]
  · intro p hp dbg
    show accessElement dbg _ d = _
    rw [accessElement_inBox dbg d _ hw.1 hfirst]
    rcases hp with hp | hp
    · rw [contiguousFrom_first hw hne' hp]
    · rw [contiguousColFrom_rev hw] at hp
      rw [contiguousFrom_first (wellShaped_rev hw) hrev hp]
      unfold address
      show _ = Res.ok (d.base.add (dot d.bases.reverse d.strides.reverse))
      rw [dot_reverse _ _ (by rw [hw.2, hw.1])]

/-- **C91.** Whole arrays after any `reindex`/`reshape` history: C order is contiguous in row-major order, Fortran order in column-major order, both from `data()` on; and every subarray
`a[i1]...[ik]` of a row-major contiguous array, subarray or view is contiguous in row-major order. -/
theorem C91_arrays_and_subarrays {n : Nat} {a : ARef} (ha : Reachable n a) :
    (a.storage = StorageOrder.cOrder n → ContiguousFrom a.desc a.data) ∧
    (a.storage = StorageOrder.fortranOrder n → ContiguousColFrom a.desc a.data) ∧
    (∀ d d' i, Handle a d → Contiguous d → access true i d = .ok d' → Contiguous d') := by
  have hw : WellShaped a.desc := handle_wellShaped ha .array
  refine ⟨fun hc => ?_, fun hf => ?_, fun d d' i h hc hd => ?_⟩
  · rw [contiguousFrom_iff]
    intro k hk
    have h1 := C04_c_order_row_major ha hc true k hk
    have h2 := accessElement_inBox true a.desc _ hw.1 (inBox_atPos (bs := a.desc.bases) (by rw [hw.2]) hk)
    exact Res.ok.inj (h2.symm.trans h1)
  · rw [contiguousColFrom_rev hw, contiguousFrom_iff]
    intro k hk
    have hkl := hk.length
    rw [← address_rev hw (by rw [hkl]; exact List.length_reverse)]
    have hk' : InShape a.extents k.reverse := by
      have := InShape.reverse hk
      rwa [show a.desc.rev.extents.reverse = a.extents from List.reverse_reverse a.extents] at this
    have h1 := C04_fortran_order_column_major ha hf true k.reverse hk'
    have h2 := accessElement_inBox true a.desc _ hw.1 (inBox_atPos (bs := a.desc.bases) (by rw [hw.2]) hk')
    rw [← rowMajor_reverse _ _ hk'.length, List.reverse_reverse] at h1
    exact Res.ok.inj (h2.symm.trans h1)
  · have hwd := handle_wellShaped ha h
    have hwd' := handle_wellShaped ha (Handle.sub h hd)
    by_cases hne : d'.extents.prod = 0
    · exact ⟨d'.base, contiguousFrom_empty d' _ hne⟩
    · unfold access at hd
      split at hd
      · rename_i e es s ss b bs he hs hb
        have hr : 0 ≤ i - b ∧ (i - b).toNat < e := by
          by_cases g1 : i - b ≥ 0
          · by_cases g2 : (i - b).toNat < e
            · exact ⟨g1, g2⟩
            · rw [decide_eq_true g1, decide_eq_false g2] at hd; cases hd
          · rw [decide_eq_false g1] at hd; cases hd
        rw [decide_eq_true hr.1, decide_eq_true hr.2] at hd
        cases hd
        rw [contiguous_dense hwd' hne]
        rw [contiguous_dense hwd (by rw [he, List.prod_cons, Nat.mul_ne_zero_iff]; exact ⟨by omega, hne⟩), he, hs] at hc
        exact hc.2
      · cases hd

/-- **C91.** Slices: from a row-major contiguous array, subarray or view, the view `[indices[i1]...[ik][range][all]...[all]]` - any number of integers, then one range of stride 1, then whole
dimensions - is contiguous in row-major order; from a column-major contiguous one the mirror image `[indices[all]...[all][range][i1]...[ik]]` is contiguous in column-major order.  Also after
`reindex` of the view. -/
theorem C91_slices {n : Nat} {root : ARef} (hr : Reachable n root) {d : Desc} (h : Handle root d) (is : List Int) (r : IndexRange) (m : Nat)
    (hs : r.stride_ = 1) (hd : r.degenerate_ = false) (hi : ∀ i ∈ is, -(2 ^ 63) < i ∧ i < 2 ^ 63 - 2) (hm : is.length + 1 + m = d.numDims) {g : IndexGen} {v v' : View}
    (hv : d.slice true g = .ok v) (hh : ViewHistory v v') :
    (chainIndices IndexGen.empty (is.map .index ++ .range r :: List.replicate m (.range IndexRange.default)) = .ok g → Contiguous d → Contiguous v'.desc) ∧
    (chainIndices IndexGen.empty (List.replicate m (.range IndexRange.default) ++ .range r :: is.map .index) = .ok g → ContiguousCol d → ContiguousCol v'.desc) := by
  have hw := handle_wellShaped hr h
  have hlen : d.extents.length = is.length + 1 + m := hm.symm
  constructor
  · intro hg hc
    obtain ⟨g', e1, e2, _⟩ := C43_indices_chain (is.map .index ++ .range r :: List.replicate m (.range IndexRange.default)) (by simp)
    rw [hg] at e1; cases e1
    have hrs : g.ranges = is.map (fun i => (IndexArg.index i).toRange) ++ r :: List.replicate m IndexRange.default := by
      rw [e2]; simp [IndexArg.toRange, Function.comp_def]
    obtain ⟨hleg, _, rfl⟩ := genView_ok hw (by rw [hrs]; simp; omega) hv
    obtain ⟨w, _, h2, h3, _⟩ := ViewHistory_facts hh (theView_wf g d hw hleg)
    have hw' : WellShaped v'.desc := w.wellShaped
    have hx : v'.desc.extents = (selExtents g.ranges d.bases d.extents).map Int.toNat := h2
    have hy : v'.desc.strides = selStrides g.ranges d.strides := h3
    by_cases hne : v'.desc.extents.prod = 0
    · exact ⟨v'.desc.base, contiguousFrom_empty _ _ hne⟩
    · rw [hrs] at hleg hx hy
      obtain ⟨k1, k2⟩ := dense_slice is r m d.bases d.extents d.strides hs hd hi hw.1 hleg
      rw [contiguous_dense hw' hne, hx, hy]
      exact k1 ((contiguous_dense hw (k2 (by rw [← hx]; exact hne))).mp hc)
  · intro hg hc
    obtain ⟨g', e1, e2, _⟩ := C43_indices_chain (List.replicate m (.range IndexRange.default) ++ .range r :: is.map .index) (by simp)
    rw [hg] at e1; cases e1
    have hrs : g.ranges.reverse = is.reverse.map (fun i => (IndexArg.index i).toRange) ++ r :: List.replicate m IndexRange.default := by
      rw [e2]; simp [IndexArg.toRange, Function.comp_def]
    have hgl : g.ranges.length = d.extents.length := by
      rw [← List.length_reverse, hrs]; simp; omega
    obtain ⟨hleg, _, rfl⟩ := genView_ok hw hgl hv
    obtain ⟨w, _, h2, h3, _⟩ := ViewHistory_facts hh (theView_wf g d hw hleg)
    have hw' : WellShaped v'.desc := w.wellShaped
    have hx : v'.desc.rev.extents = (selExtents g.ranges.reverse d.rev.bases d.rev.extents).map Int.toNat := by
      show v'.extents.reverse = (selExtents g.ranges.reverse d.bases.reverse d.extents.reverse).map Int.toNat
      rw [selExtents_reverse _ _ _ (by rw [hgl, hw.2]) hgl.symm, List.map_reverse, h2, theView_extents]
    have hy : v'.desc.rev.strides = selStrides g.ranges.reverse d.rev.strides := by
      show v'.strides.reverse = selStrides g.ranges.reverse d.strides.reverse
      rw [selStrides_reverse _ _ (by rw [hgl, hw.1]), h3]; rfl
    have hcol : ∀ {d : Desc}, WellShaped d → (ContiguousCol d ↔ Contiguous d.rev) := fun hw => exists_congr fun p => contiguousColFrom_rev hw p
    rw [hcol hw'] at *
    rw [hcol hw] at hc
    by_cases hne : v'.desc.rev.extents.prod = 0
    · exact ⟨v'.desc.base, contiguousFrom_empty _ _ hne⟩
    · have hleg' : LegalRanges d.rev.bases d.rev.extents g.ranges.reverse := legalRanges_reverse hleg
      rw [hrs] at hleg' hx hy
      obtain ⟨k1, k2⟩ := dense_slice is.reverse r m d.rev.bases d.rev.extents d.rev.strides hs hd (fun i hi' => hi i (List.mem_reverse.mp hi')) (wellShaped_rev hw).1 hleg'
      rw [contiguous_dense (wellShaped_rev hw') hne, hx, hy]
      exact k1 ((contiguous_dense (wellShaped_rev hw) (k2 (by rw [← hx]; exact hne))).mp hc)

/-- **C91.** What a routine that gets a pointer to the first element and the number of elements sees: reading `num_elements()` consecutive objects yields the elements in row-major order, and
overwriting them with `vs` makes `vs` the elements in row-major order. -/
theorem C91_raw_access {d : Desc} {p : Ptr} (h : ContiguousFrom d p) (s : St T) :
    (List.range d.numElements).map (fun (i : Nat) => s.get? (p.add (i : Int))) = (positions d.extents).map (elemAt s d) ∧
    ∀ (vs : List T) (s' : St T), vs.length = d.numElements → (∀ i : Nat, i < d.numElements → s'.get? (p.add (i : Int)) = vs[i]?) →
      (positions d.extents).map (elemAt s' d) = vs.map some := by
  have hn : d.numElements = d.extents.prod := product_eq d.extents
  have key : ∀ s : St T, (List.range d.numElements).map (fun (i : Nat) => s.get? (p.add (i : Int))) = (positions d.extents).map (elemAt s d) := by
    intro s
    have h2 := congrArg (List.map (fun q => s.get? q)) h
    rw [List.map_map, List.map_map, ← hn] at h2
    exact h2.symm
  refine ⟨key s, fun vs s' hl hall => ?_⟩
  rw [← key s']
  apply List.ext_getElem?
  intro i
  rw [List.getElem?_map, List.getElem?_map]
  by_cases hi : i < d.numElements
  · rw [List.getElem?_range hi, Option.map_some, hall i hi, List.getElem?_eq_getElem (by omega)]
    rfl
  · rw [List.getElem?_eq_none (by rw [List.length_range]; omega), List.getElem?_eq_none (by omega)]
    rfl

/-! ### Examples -/

/-- A 2x3x4 array in C order with bases 1, 0, -1 over block 5. -/
def ctgArr : ARef := ⟨⟨5, 0⟩, StorageOrder.cOrder 3, [2, 3, 4], [12, 4, 1], [1, 0, -1], -11, 0, 24⟩
/-- The same shape in Fortran order, bases 0. -/
def ctgArrF : ARef := ⟨⟨6, 0⟩, StorageOrder.fortranOrder 3, [2, 3, 4], [1, 2, 6], [0, 0, 0], 0, 0, 24⟩

theorem ctgArr_reachable : Reachable 3 ctgArr :=
  .ofShape (p := ⟨5, 0⟩) (so := StorageOrder.cOrder 3) (bs := some [1, 0, -1]) (es := some [2, 3, 4]) (by decide) (by decide)

theorem ctgArrF_reachable : Reachable 3 ctgArrF :=
  .ofExtents (p := ⟨6, 0⟩) (exts := [2, 3, 4]) (so := StorageOrder.fortranOrder 3) (by decide) (by decide)

/-- `a[indices[1][range(1,3)][all]]` is 2x4, contiguous from element 4 on; `a[indices[all][1][all]]` is not contiguous. -/
example : ∃ g v g2 v2, chainIndices IndexGen.empty [.index 1, .range (IndexRange.mk3 1 3), .range IndexRange.default] = .ok g ∧ ctgArr.desc.slice true g = .ok v ∧
    v.extents = [2, 4] ∧ ContiguousFrom v.desc ⟨5, 4⟩ ∧
    chainIndices IndexGen.empty [.range IndexRange.default, .index 1, .range IndexRange.default] = .ok g2 ∧ ctgArr.desc.slice true g2 = .ok v2 ∧
    v2.extents = [2, 4] ∧ ¬ ∀ j, 1 < v2.desc.extents.getD j 0 → v2.desc.strides.getD j 0 = ((v2.desc.extents.drop (j + 1)).prod : Int) :=
  ⟨_, _, _, _, rfl, rfl, by decide, by unfold ContiguousFrom; decide, rfl, rfl, by decide, fun h => absurd (h 0 (by decide)) (by decide)⟩

/-- `f[indices[all][range(0,2)][3]]` is 2x2, contiguous in column-major order from element 18 on, but not in row-major order. -/
example : ∃ g v, chainIndices IndexGen.empty [.range IndexRange.default, .range (IndexRange.mk3 0 2), .index 3] = .ok g ∧ ctgArrF.desc.slice true g = .ok v ∧
    v.extents = [2, 2] ∧ ContiguousColFrom v.desc ⟨6, 18⟩ ∧ ¬ ContiguousFrom v.desc ⟨6, 18⟩ :=
  ⟨_, _, rfl, rfl, by decide, by unfold ContiguousColFrom; decide, by unfold ContiguousFrom; decide⟩

/-! ### Instances: the theorems applied to concrete cases, whose hypotheses are thereby met -/

example := C91_strides exArr_reachable .array true [0, 6, 2] 2 2 (-1) rfl (by decide) (by decide)
example := C91_contiguous_iff exArr_reachable .array (by decide)
example := (C91_arrays_and_subarrays ctgArr_reachable).1 rfl
example := (C91_arrays_and_subarrays ctgArrF_reachable).2.1 rfl
example (g : IndexGen) (v : View) (hg : ctgArr.desc.slice true g = .ok v) :=
  C91_slices ctgArr_reachable .array [1] (IndexRange.mk3 1 3) 1 rfl rfl (by decide) (by decide) hg .refl

/- end of instances -/

end MultiArray.Props
