import Verif.Props.Views2

/-
C11, C12, C20 continued: histories of `reindex` on views, slicing relabelled arrays and views, and composition of views through
relabelled intermediate views.
-/
set_option autoImplicit false

namespace MultiArray.Props
open MultiArray MultiArray.Spec

/-- Run a sequence of `reindex` calls on a view. -/
def runViewReindex (v : View) : List Reindex → Res View
  | [] => .ok v
  | .list bs :: ops => do runViewReindex (← v.reindexList bs) ops
  | .all b :: ops => runViewReindex (v.reindexAll b) ops

theorem view_reindex_over {v v' : View} (op last : Reindex) (h : runViewReindex v [op] = .ok v') :
    runViewReindex v' [last] = runViewReindex v [last] := by
  have key : v' = { v with bases := v'.bases, originOffset := v'.originOffset } := by
    cases op with
    | list bs =>
      simp only [runViewReindex] at h
      cases hc : v.reindexList bs with
      | ok x =>
        rw [hc] at h; cases h
        obtain ⟨rfl, _⟩ := View.reindexList_ok hc
        rfl
      | assertFail => rw [hc] at h; cases h
      | ub => rw [hc] at h; cases h
    | all b => simp only [runViewReindex, Res.ok.injEq] at h; subst h; rfl
  cases last with
  | list bs => simp only [runViewReindex, View.reindexList]; rw [key]; rfl
  | all b => simp only [runViewReindex, View.reindexAll]; rw [key]; rfl

/-- **C12.** The same for views: a sequence of `reindex` calls on a view leaves it exactly as the last call alone would. -/
theorem C12_view_reindex_history_collapses {v v' : View} (ops : List Reindex) (last : Reindex)
    (h : runViewReindex v (ops ++ [last]) = .ok v') : runViewReindex v [last] = .ok v' := by
  induction ops generalizing v with
  | nil => exact h
  | cons op ops ih =>
    cases op with
    | list bs =>
      simp only [List.cons_append, runViewReindex] at h
      cases hc : v.reindexList bs with
      | ok x =>
        rw [hc, Res.bind_ok] at h
        have hx := ih h
        rw [view_reindex_over (v := v) (.list bs) last (by simp [runViewReindex, hc])] at hx
        exact hx
      | assertFail => rw [hc] at h; cases h
      | ub => rw [hc] at h; cases h
    | all b =>
      simp only [List.cons_append, runViewReindex] at h
      have hx := ih h
      rw [view_reindex_over (v := v) (.all b) last (by simp [runViewReindex])] at hx
      exact hx

/-- **C12.** Reindexing a view back to its bases, after any reindex history, restores the view exactly; the view may be of any
array, subarray or view, and may have been reindexed before. -/
theorem C12_view_reindex_restores {n : Nat} {root : ARef} (hr : Reachable n root) {d : Desc} (h : Handle root d) {g : IndexGen}
    (hlen : g.ranges.length = d.extents.length) {v0 v v' : View} (hv : generateArrayView true g d = .ok v0) (hh : ViewHistory v0 v)
    (ops : List Reindex) (hrun : runViewReindex v (ops ++ [.list v.bases]) = .ok v') : v' = v := by
  have hw := handle_wellShaped hr h
  obtain ⟨hleg, _, rfl⟩ := genView_ok hw hlen hv
  obtain ⟨w, _⟩ := ViewHistory_facts hh (theView_wf g d hw hleg)
  have hl := C12_view_reindex_history_collapses ops _ hrun
  simp only [runViewReindex, View.reindexList] at hl
  rw [show v.numDims = v.bases.length from w.bases_len.symm, copyN_self rfl] at hl
  simp only [Res.bind_ok, Res.ok.injEq] at hl
  rw [← hl, ← w.origin_eq]

example : ∃ v v', generateArrayView true exView exArr.desc = .ok v ∧
    runViewReindex v [.all 4, .list [1, -2], .list v.bases] = .ok v' ∧
    runViewReindex v [.all 4, .list [1, -2]] ≠ .ok v := ⟨_, _, rfl, rfl, by decide⟩

/-! ### Slicing after relabelling -/

theorem viewLen_shift (s f t c : Int) : viewLen (s + c) (f + c) t = viewLen s f t := by
  unfold viewLen
  rw [show f + c - (s + c) = f - s by omega]

theorem shiftRange_spec {b b' : Int} {e : Nat} {r : IndexRange} (hl : LegalRange b e r) (h1 : -(2 ^ 63) ≤ b')
    (h2 : b' + (e : Int) ≤ 2 ^ 63 - 1) :
    rangeStart (shiftRange b e b' r) b' = rangeStart r b - b + b' ∧
    rangeFinish (shiftRange b e b' r) b' e = rangeFinish r b e - b + b' ∧ LegalRange b' e (shiftRange b e b' r) := by
  obtain ⟨ht, hs, hf⟩ := hl
  have e1 : rangeStart (shiftRange b e b' r) b' = rangeStart r b - b + b' := rangeStart_of_mem h1 (by omega)
  have e2 : rangeFinish (shiftRange b e b' r) b' e = rangeFinish r b e - b + b' :=
    rangeFinish_of_le h2 (by split at hf <;> omega)
  refine ⟨e1, e2, ht, ?_, ?_⟩
  · rw [e1]; omega
  · rw [e2]
    show if r.stride_ < 0 then _ else _
    split
    · rename_i hn; rw [if_pos hn] at hf; omega
    · rename_i hn; rw [if_neg hn] at hf; omega

theorem shift_lists (rs : List IndexRange) (bs : List Int) (es : List Nat) (bs' ss : List Int) (hl : LegalRanges bs es rs)
    (hb' : bs'.length = es.length) (hs : ss.length = es.length) (hrep : Representable bs' es) :
    LegalRanges bs' es (shiftRanges bs es bs' rs) ∧ numRanged (shiftRanges bs es bs' rs) = numRanged rs ∧
    selExtents (shiftRanges bs es bs' rs) bs' es = selExtents rs bs es ∧
    selStrides (shiftRanges bs es bs' rs) ss = selStrides rs ss ∧
    selOffset (shiftRanges bs es bs' rs) bs' ss = selOffset rs bs ss - dot bs ss + dot bs' ss ∧
    (NoOverrun bs es rs → NoOverrun bs' es (shiftRanges bs es bs' rs)) := by
  induction es generalizing rs bs bs' ss with
  | nil => match bs, rs, hl, bs', hb', ss, hs with
    | [], [], _, [], _, [], _ => exact ⟨trivial, rfl, rfl, rfl, by simp [selOffset, shiftRanges, dot], fun h => h⟩
  | cons e es ih => match bs, rs, hl, bs', hb', ss, hs with
    | b :: bs, r :: rs, hl, b' :: bs', hb', s :: ss, hs =>
      obtain ⟨a1, a2, a3, a4, a5, a6⟩ := ih rs bs bs' ss hl.2 (by simpa using hb') (by simpa using hs) hrep.2.2
      obtain ⟨c1, c2, c3⟩ := shiftRange_spec hl.1 hrep.1 hrep.2.1
      have hdg : (shiftRange b e b' r).degenerate_ = r.degenerate_ := rfl
      have hst : (shiftRange b e b' r).stride_ = r.stride_ := rfl
      refine ⟨⟨c3, a1⟩, ?_, ?_, ?_, ?_, ?_⟩
      · simp only [shiftRanges, numRanged_cons, hdg, a2]
      · simp only [shiftRanges, selExtents, hdg, a3, c1, c2, hst]
        rw [show rangeStart r b - b + b' = rangeStart r b + (b' - b) by omega,
          show rangeFinish r b e - b + b' = rangeFinish r b e + (b' - b) by omega, viewLen_shift]
      · simp only [shiftRanges, selStrides, hdg, hst, a4]
      · simp only [shiftRanges, selOffset, c1, a5, dot]; ring
      · intro hno
        refine ⟨fun hn => ?_, a6 hno.2⟩
        rw [c1]
        have := hno.1 hn
        omega

theorem shift_goodDeg (rs : List IndexRange) (bs : List Int) (es : List Nat) (bs' : List Int) (hl : LegalRanges bs es rs)
    (hd : GoodDeg rs) (hb' : bs'.length = es.length)
    (hrep : ∀ d, d < es.length → -(2 ^ 63) < bs'.getD d 0 ∧ bs'.getD d 0 + (es.getD d 0 : Int) < 2 ^ 63 - 1) :
    GoodDeg (shiftRanges bs es bs' rs) := by
  induction es generalizing rs bs bs' with
  | nil => match bs, rs, hl, bs', hb' with
    | [], [], _, [], _ => intro r hr; simp [shiftRanges] at hr
  | cons e es ih => match bs, rs, hl, bs', hb' with
    | b :: bs, r :: rs, hl, b' :: bs', hb' =>
      have hi := ih rs bs bs' hl.2 (fun x hx => hd x (by simp [hx])) (by simpa using hb') (fun d hlt => by
        have := hrep (d + 1) (by simpa using hlt)
        simpa using this)
      intro x hx hdg
      rcases List.mem_cons.mp hx with rfl | hx
      · obtain ⟨i, h1, h2, hr⟩ := hd r (by simp) hdg
        subst hr
        obtain ⟨c1, c2, c3⟩ := single_mem h1 h2 hl.1
        have h0 := hrep 0 (by simp)
        simp only [List.getD_cons_zero] at h0
        refine ⟨i - b + b', by omega, by omega, ?_⟩
        have hfi : rangeFinish (IndexRange.single i) b e = i + 1 := by
          simp only [rangeFinish, IndexRange.single, show ¬ i + 1 = 2 ^ 63 - 1 by omega, if_false]
        unfold shiftRange
        rw [c1, hfi]
        simp only [IndexRange.single, IndexRange.mk.injEq, and_true, true_and]
        omega
      · exact hi x hx hdg

/-- Two handles that differ only in the labels of the indices. -/
theorem slice_relabelled {d d' : Desc} (hw : WellShaped d) (hw' : WellShaped d') (he : d'.extents = d.extents)
    (hs : d'.strides = d.strides) (hbase : d'.base = d.base.add (dot d.bases d.strides - dot d'.bases d.strides))
    (hrep : Representable d.bases d.extents) {g : IndexGen} (hlen : g.ranges.length = d.extents.length) {v : View}
    (hv : generateArrayView true g d' = .ok v) (dbg : Bool) :
    generateArrayView dbg ⟨g.numRanges, g.numDims, shiftRanges d'.bases d.extents d.bases g.ranges⟩ d = .ok v := by
  obtain ⟨hl, hn, rfl⟩ := genView_ok hw' (by rw [hlen, he]) hv
  rw [he] at hl
  obtain ⟨a1, a2, a3, a4, a5, _⟩ := shift_lists g.ranges d'.bases d.extents d.bases d.strides hl hw.2 hw.1 hrep
  rw [genView_legal dbg _ d hw a1 (by rw [a2, hn])]
  simp only [theView]
  rw [a3, a4, a5, he, hs, hbase]
  rw [Ptr.add_add]
  congr 3
  omega

/-- **C11.** Slicing a reindexed array is slicing the original with ranges moved by the difference of the bases: the same
view, member by member (so the same shape, strides and elements). -/
theorem C11_slice_after_reindex {n : Nat} {a a' : ARef} (ha : Reachable n a) {bs : List Int} (hbs : bs.length = n)
    (hre : a.reindexList bs = .ok a') (hrep : Representable a.bases a.extents) {g : IndexGen} (hlen : g.ranges.length = n)
    {v : View} (hv : a'.slice true g = .ok v) (dbg : Bool) :
    a.slice dbg ⟨g.numRanges, g.numDims, shiftRanges bs a.extents a.bases g.ranges⟩ = .ok v := by
  have ha' : Reachable n a' := .reindexList ha hre
  obtain ⟨rfl, _⟩ := ARef.reindexList_ok ha.wf hre
  have htake : bs.take n = bs := by rw [← hbs]; simp
  have := slice_relabelled (d := a.desc) ha.wf.wellShaped ha'.wf.wellShaped rfl rfl ?_ hrep
    (g := g) (by rw [hlen]; exact ha.wf.ext_len.symm) hv dbg
  · simp only [ARef.desc, htake] at this
    exact this
  · simp only [ARef.desc, ARef.origin, htake, ha.wf.origin_eq, calcOriginOffset, calcIndexingOffset_eq, Ptr.add_add]
    congr 1; omega

example : ∃ a' v, exArr.reindexList [4, 4, 4] = .ok a' ∧ Representable exArr.bases exArr.extents ∧
    a'.slice true ⟨3, 2, [IndexRange.single 5, IndexRange.mk3 4 7 2, IndexRange.mk3 7 3 (-1)]⟩ = .ok v ∧
    shiftRanges [4, 4, 4] exArr.extents exArr.bases [IndexRange.single 5, IndexRange.mk3 4 7 2, IndexRange.mk3 7 3 (-1)] =
      [IndexRange.single 0, IndexRange.mk3 5 8 2, IndexRange.mk3 3 (-1) (-1)] ∧ v.extents = [2, 4] :=
  ⟨_, _, rfl, by decide, rfl, by decide, by decide⟩

/-- **C11.** The same for a view (of any array, subarray or view) after any history of `reindex` calls on it. -/
theorem C11_view_slice_after_reindex {n : Nat} {root : ARef} (hr : Reachable n root) {d : Desc} (h : Handle root d) {g1 : IndexGen}
    (hlen1 : g1.ranges.length = d.extents.length) {v1 v1' : View} (hv1 : generateArrayView true g1 d = .ok v1)
    (hh : ViewHistory v1 v1') (hsmall : ∀ e ∈ v1.extents, e ≤ 2 ^ 63 - 1) {g : IndexGen}
    (hlen : g.ranges.length = v1.extents.length) {v : View} (hv : v1'.slice true g = .ok v) (dbg : Bool) :
    v1.slice dbg ⟨g.numRanges, g.numDims, shiftRanges v1'.bases v1.extents v1.bases g.ranges⟩ = .ok v := by
  have hw := handle_wellShaped hr h
  obtain ⟨hl1, hn1, rfl⟩ := genView_ok hw hlen1 hv1
  have hwf1 := theView_wf g1 d hw hl1
  obtain ⟨w, h1, h2, h3, _⟩ := ViewHistory_facts hh hwf1
  have hz1 : (theView g1 d).bases = List.replicate (theView g1 d).extents.length 0 := by
    simp [theView, View.mkView]
  refine slice_relabelled (d := (theView g1 d).desc) (d' := v1'.desc) hwf1.wellShaped w.wellShaped h2 h3 ?_ ?_ hlen hv dbg
  · simp only [View.desc, View.origin, w.origin_eq, hwf1.origin_eq, calcIndexingOffset_eq, Ptr.add_add, h1, h3]
    congr 1; omega
  · show Representable (theView g1 d).bases (theView g1 d).extents
    rw [hz1]
    generalize (theView g1 d).extents = es at hsmall
    clear * - hsmall
    induction es with
    | nil => trivial
    | cons e es ih =>
      have := hsmall e (by simp)
      exact ⟨by omega, by omega, ih (fun x hx => hsmall x (by simp [hx]))⟩

/-- **C20.** Composition through a reindexed view: taking a view of a view that has been reindexed (any number of times) equals
taking one view of the original, with the ranges of the second view first moved back to indices starting at 0. -/
theorem C20_views_compose_reindexed {n : Nat} {root : ARef} (hr : Reachable n root) {d : Desc} (h : Handle root d)
    (hrep : Representable d.bases d.extents)
    {g1 g2 : IndexGen} (hb1 : Built g1) (hb2 : Built g2)
    (hlen1 : g1.ranges.length = d.extents.length) (hno1 : NoOverrun d.bases d.extents g1.ranges)
    {v1 v1' v2 : View} (hv1 : generateArrayView true g1 d = .ok v1) (hh : ViewHistory v1 v1')
    (hsmall : ∀ e ∈ v1.extents, e < 2 ^ 63 - 1)
    (hlen2 : g2.ranges.length = v1'.extents.length) (hno2 : NoOverrun v1'.bases v1'.extents g2.ranges)
    (hv2 : v1'.slice true g2 = .ok v2) :
    ∃ vc, generateArrayView true ⟨d.extents.length, g2.numDims, composeRanges g1.ranges d.bases
          (shiftRanges v1'.bases v1'.extents (List.replicate v1'.extents.length 0) g2.ranges) v2.extents⟩ d = .ok vc ∧
      vc.extents = v2.extents ∧ vc.strides = v2.strides ∧
      ∀ dbg idx, InBox v2.bases v2.extents idx → vc.paren dbg idx = v2.paren dbg idx := by
  have hw := handle_wellShaped hr h
  obtain ⟨hl1, hn1, rfl⟩ := genView_ok hw hlen1 hv1
  have hwf1 := theView_wf g1 d hw hl1
  obtain ⟨w, h1, h2, h3, _⟩ := ViewHistory_facts hh hwf1
  have hz1 : (theView g1 d).bases = List.replicate (theView g1 d).extents.length 0 := by
    simp [theView, View.mkView]
  have hv0 := C11_view_slice_after_reindex hr h hlen1 hv1 hh (fun e he => Nat.le_of_lt (hsmall e he)) (by rw [hlen2, h2]) hv2 true
  obtain ⟨hl2, hn2, _⟩ := genView_ok (d := v1'.desc) w.wellShaped hlen2 hv2
  have hl2' : LegalRanges v1'.bases (theView g1 d).extents g2.ranges := by rw [← h2]; exact hl2
  have hrep1 : Representable (theView g1 d).bases (theView g1 d).extents := by
    rw [hz1]
    generalize (theView g1 d).extents = es at hsmall
    clear * - hsmall
    induction es with
    | nil => trivial
    | cons e es ih =>
      have := hsmall e (by simp)
      exact ⟨by omega, by omega, ih (fun x hx => hsmall x (by simp [hx]))⟩
  obtain ⟨a1, a2, a3, a4, a5, a6⟩ := shift_lists g2.ranges v1'.bases (theView g1 d).extents (theView g1 d).bases
    (theView g1 d).strides hl2' hwf1.bases_len hwf1.strides_len hrep1
  have hgd := shift_goodDeg g2.ranges v1'.bases (theView g1 d).extents (theView g1 d).bases hl2' (goodDeg_of_built hb2 hn2)
    hwf1.bases_len (by
      intro k hk
      have he := hsmall ((theView g1 d).extents.getD k 0) (by
        rw [List.getD_eq_getElem?_getD, List.getElem?_eq_getElem hk]; exact List.getElem_mem hk)
      rw [hz1]
      have : (List.replicate (theView g1 d).extents.length (0 : Int)).getD k 0 = 0 := by
        rw [List.getD_eq_getElem?_getD, List.getElem?_replicate]; split <;> rfl
      rw [this]
      omega)
  have hslice : v2 = theView ⟨g2.numRanges, g2.numDims,
      shiftRanges v1'.bases (theView g1 d).extents (theView g1 d).bases g2.ranges⟩ (theView g1 d).desc := by
    have hg := genView_legal true ⟨g2.numRanges, g2.numDims,
      shiftRanges v1'.bases (theView g1 d).extents (theView g1 d).bases g2.ranges⟩ (theView g1 d).desc hwf1.wellShaped a1
      (by show numRanged (shiftRanges _ _ _ _) = _; rw [a2, hn2])
    rw [View.slice, hg] at hv0
    exact (Res.ok.inj hv0).symm
  have := views_compose hw hrep hl1 (goodDeg_of_built hb1 hn1) hno1
    (g2 := ⟨g2.numRanges, g2.numDims, shiftRanges v1'.bases (theView g1 d).extents (theView g1 d).bases g2.ranges⟩)
    a1 hgd (by rw [a2, hn2]) (a6 (by rw [h2] at hno2; exact hno2)) hslice
  rw [hz1] at this
  rw [h2]
  exact this

example : ∃ v1 v1' v2, exArr.slice true exView = .ok v1 ∧ v1.reindexList [10, -3] = .ok v1' ∧
    v1'.slice true ⟨2, 2, [IndexRange.mk3 12 10 (-1), IndexRange.default]⟩ = .ok v2 ∧
    NoOverrun v1'.bases v1'.extents [IndexRange.mk3 12 10 (-1), IndexRange.default] ∧ v2.extents = [2, 2] ∧
    (∀ e ∈ v1.extents, e < 2 ^ 63 - 1) ∧
    shiftRanges v1'.bases v1'.extents [0, 0] [IndexRange.mk3 12 10 (-1), IndexRange.default] =
      [IndexRange.mk3 2 0 (-1), IndexRange.mk3 0 2 1] := ⟨_, _, _, rfl, rfl, rfl, by decide, by decide, by decide, by decide⟩

/-! ### Instances: the theorems applied to concrete cases, whose hypotheses are thereby met -/

example := C12_view_reindex_history_collapses (v := theView exView exArr.desc) [.all 4] (.list [1, -2]) rfl
example := C11_view_slice_after_reindex exArr_reachable .array (g1 := exView) rfl exView_made (.reindexList (bs := [10, -3]) .refl rfl) (by decide)
  (g := ⟨2, 2, [IndexRange.mk3 12 10 (-1), IndexRange.default]⟩) rfl rfl true

/- end of instances -/

end MultiArray.Props
