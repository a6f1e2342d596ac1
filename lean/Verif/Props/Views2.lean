import Verif.Lemmas.Special
import Verif.Props.Views

/- Property theorems C20, C24, C25: composition, reversal, subarrays. -/
set_option autoImplicit false

namespace MultiArray.Props
open MultiArray MultiArray.Spec

/-- `C20_views_compose` for any range lists whose integer entries are proper. -/
theorem views_compose {d : Desc} (hw : WellShaped d)
    (hrep : Representable d.bases d.extents) {g1 g2 : IndexGen}
    (hl1 : LegalRanges d.bases d.extents g1.ranges) (hd1 : GoodDeg g1.ranges)
    (hno1 : NoOverrun d.bases d.extents g1.ranges)
    (hl2 : LegalRanges (theView g1 d).bases (theView g1 d).extents g2.ranges) (hd2 : GoodDeg g2.ranges)
    (hn2 : numRanged g2.ranges = g2.numDims)
    (hno2 : NoOverrun (theView g1 d).bases (theView g1 d).extents g2.ranges)
    {v2 : View} (hv2e : v2 = theView g2 (theView g1 d).desc) :
    ∃ vc, generateArrayView true ⟨d.extents.length, g2.numDims, composeRanges g1.ranges d.bases g2.ranges v2.extents⟩ d
        = .ok vc ∧
      vc.extents = v2.extents ∧ vc.strides = v2.strides ∧
      ∀ dbg idx, InBox v2.bases v2.extents idx → vc.paren dbg idx = v2.paren dbg idx := by
  subst hv2e
  have hwf1 := theView_wf g1 d hw hl1
  have hz1 : (theView g1 d).bases = List.replicate (theView g1 d).extents.length 0 := by
    simp [theView, View.mkView]
  have hl2' := hl2
  rw [hz1] at hl2' hno2
  obtain ⟨c1, c2, c3, c4, c5⟩ := compose_lists g1.ranges d.bases d.extents d.strides g2.ranges hrep hl1 hno1
    hd1 hw.1 (theView g1 d).extents (theView_extents g1 d) hl2' hno2 hd2
    (theView g2 (theView g1 d).desc).extents (by rw [theView_extents]; simp only [View.desc]; rw [hz1])
  let gc : IndexGen := ⟨d.extents.length, g2.numDims,
    composeRanges g1.ranges d.bases g2.ranges (theView g2 (theView g1 d).desc).extents⟩
  have hok := genView_legal true gc d hw c1 (by rw [c2, hn2])
  have hwfc := theView_wf gc d hw c1
  have hext : (theView gc d).extents = (theView g2 (theView g1 d).desc).extents := c3
  have hstr : (theView gc d).strides = (theView g2 (theView g1 d).desc).strides := c4
  have hz2 : (theView g2 (theView g1 d).desc).bases = List.replicate (theView g2 (theView g1 d).desc).extents.length 0 := by
    simp [theView, View.mkView]
  have hzc : (theView gc d).bases = List.replicate (theView gc d).extents.length 0 := by
    simp [theView, View.mkView]
  refine ⟨_, hok, hext, hstr, ?_⟩
  intro dbg idx hin
  have hwf2 := theView_wf g2 (theView g1 d).desc hwf1.wellShaped hl2
  have hinc : InBox (theView gc d).bases (theView gc d).extents idx := by
    rw [hzc, hext, ← hz2]; exact hin
  show accessElement dbg idx (theView gc d).desc = accessElement dbg idx (theView g2 (theView g1 d).desc).desc
  rw [accessElement_inBox dbg _ _ hwfc.wellShaped.1 hinc, accessElement_inBox dbg _ _ hwf2.wellShaped.1 hin]
  rw [view_address hw c1 .refl _ hinc.length.1,
    view_address (d := (theView g1 d).desc) hwf1.wellShaped hl2 .refl _ hin.length.1]
  have hidxl := hin.length.1
  rw [hzc, hz2, hext, relPos_zero _ _ hidxl]
  rw [hz2] at hin
  -- the intermediate tuple is in range of the first view
  have hmid : InBox (theView g1 d).bases (theView g1 d).extents
      (selected g2.ranges (List.replicate (theView g1 d).extents.length 0) idx) := by
    rw [hz1]
    apply selected_inBox _ _ _ _ hl2' hno2 hd2
    have : (theView g2 (theView g1 d).desc).extents =
        (selExtents g2.ranges (List.replicate (theView g1 d).extents.length 0) (theView g1 d).extents).map Int.toNat := by
      rw [theView_extents]; simp only [View.desc]; rw [hz1]
    rw [← this]
    have hl : (theView g2 (theView g1 d).desc).extents.length = numRanged g2.ranges := by
      rw [this, List.length_map, selExtents_length _ _ _ hl2'.length.1 hl2'.length.2]
    rw [← hl]
    exact hin
  have hmidl := hmid.length.1
  have e1 := view_address hw hl1 .refl _ hmidl
  rw [hz1, relPos_zero _ _ hmidl] at e1
  have hb1 : (theView g1 d).desc.bases = List.replicate (theView g1 d).extents.length 0 := hz1
  rw [hb1, e1, c5 idx hin]

/-- **C20.** A view of a view is one view of the original with composed ranges (start `s1 + s2*t1`, stride
`t1*t2`): same shape, same strides, same element at every index. -/
theorem C20_views_compose {n : Nat} {root : ARef} (hr : Reachable n root) {d : Desc} (h : Handle root d)
    (hrep : Representable d.bases d.extents)
    {g1 g2 : IndexGen} (hb1 : Built g1) (hb2 : Built g2)
    (hlen1 : g1.ranges.length = d.extents.length) (hno1 : NoOverrun d.bases d.extents g1.ranges)
    {v1 v2 : View} (hv1 : generateArrayView true g1 d = .ok v1)
    (hlen2 : g2.ranges.length = v1.extents.length) (hno2 : NoOverrun v1.bases v1.extents g2.ranges)
    (hv2 : v1.slice true g2 = .ok v2) :
    ∃ vc, generateArrayView true ⟨d.extents.length, g2.numDims, composeRanges g1.ranges d.bases g2.ranges v2.extents⟩ d
        = .ok vc ∧
      vc.extents = v2.extents ∧ vc.strides = v2.strides ∧
      ∀ dbg idx, InBox v2.bases v2.extents idx → vc.paren dbg idx = v2.paren dbg idx := by
  have hw := handle_wellShaped hr h
  obtain ⟨hl1, hn1, rfl⟩ := genView_ok hw hlen1 hv1
  have hwf1 := theView_wf g1 d hw hl1
  have hv2' : generateArrayView true g2 (theView g1 d).desc = .ok v2 := hv2
  obtain ⟨hl2, hn2, rfl⟩ := genView_ok (d := (theView g1 d).desc) hwf1.wellShaped hlen2 hv2'
  exact views_compose hw hrep hl1 (goodDeg_of_built hb1 hn1) hno1 hl2 (goodDeg_of_built hb2 hn2) hn2 hno2 rfl

/-- A concrete view of a view and its composition. -/
def exView2 : IndexGen := ⟨2, 2, [IndexRange.mk3 2 0 (-1), IndexRange.default]⟩
example : ∃ v1 v2 vc, exArr.slice true exView = .ok v1 ∧ v1.slice true exView2 = .ok v2 ∧
    exArr.slice true ⟨3, 2, composeRanges exView.ranges exArr.bases exView2.ranges v2.extents⟩ = .ok vc ∧
    Representable exArr.desc.bases exArr.desc.extents ∧ NoOverrun v1.bases v1.extents exView2.ranges ∧
    v2.extents = [2, 2] ∧ vc.strides = v2.strides ∧ vc.paren true [1, 1] = v2.paren true [1, 1] :=
  ⟨_, _, _, rfl, rfl, rfl, by decide, by decide, by decide, by decide, by decide⟩

/-- **C24.** Viewing flagged dimensions with `range(base+ext-1, base-1, -1)` reverses exactly those: view index `k` denotes
`ext-1-k` there. -/
theorem C24_reverse {n : Nat} {root : ARef} (hr : Reachable n root) {d : Desc} (h : Handle root d) (dbg : Bool)
    (fs : List Bool) (hf : fs.length = d.extents.length)
    (hrep : Representable d.bases d.extents) (hne : ∀ e ∈ d.extents, 0 < e) :
    ∃ v, generateArrayView dbg ⟨d.extents.length, d.extents.length, reverseRanges fs d.bases d.extents⟩ d = .ok v ∧
      v.extents = d.extents ∧
      ∀ k, InShape d.extents k →
        v.paren dbg (atPos v.bases k) = accessElement dbg (atPos d.bases (mirror fs d.extents k)) d := by
  obtain ⟨a, b, _, _, e⟩ := reverse_view d (handle_wellShaped hr h) dbg fs hf hrep hne
  exact ⟨_, a, b, e⟩

/-- **C24.** Reversing the reversed view again gives back the original shape, strides and elements in order. -/
theorem C24_reverse_twice {n : Nat} {root : ARef} (hr : Reachable n root) {d : Desc} (h : Handle root d) (dbg : Bool)
    (fs : List Bool) (hf : fs.length = d.extents.length)
    (hrep : Representable d.bases d.extents) (hrep0 : Representable (List.replicate d.extents.length 0) d.extents)
    (hne : ∀ e ∈ d.extents, 0 < e) (v : View)
    (hv : generateArrayView dbg ⟨d.extents.length, d.extents.length, reverseRanges fs d.bases d.extents⟩ d = .ok v) :
    ∃ v2, v.slice dbg ⟨d.extents.length, d.extents.length, reverseRanges fs v.bases v.extents⟩ = .ok v2 ∧
      v2.extents = d.extents ∧ v2.strides = d.strides ∧
      ∀ k, InShape d.extents k → v2.paren dbg (atPos v2.bases k) = accessElement dbg (atPos d.bases k) d := by
  have hw := handle_wellShaped hr h
  obtain ⟨a1, a2, a3, a4, a5⟩ := reverse_view d hw dbg fs hf hrep hne
  rw [a1] at hv
  cases hv
  generalize hg : (⟨d.extents.length, d.extents.length, reverseRanges fs d.bases d.extents⟩ : IndexGen) = g at *
  have hbz : (theView g d).desc.bases = List.replicate d.extents.length 0 := a3
  have hez : (theView g d).desc.extents = d.extents := a2
  obtain ⟨b1, b2, b3, b4, b5⟩ := reverse_view (theView g d).desc a4.wellShaped dbg fs (by rw [hez]; exact hf)
    (by rw [hbz, hez]; exact hrep0) (by rw [hez]; exact hne)
  rw [hez] at b1 b2 b5
  refine ⟨theView ⟨d.extents.length, d.extents.length, reverseRanges fs (theView g d).desc.bases d.extents⟩ (theView g d).desc,
    ?_, b2, ?_, ?_⟩
  · show generateArrayView dbg _ (theView g d).desc = _
    rw [a2]
    exact b1
  · show selStrides (reverseRanges fs (theView g d).desc.bases d.extents) (selStrides g.ranges d.strides) = d.strides
    rw [← hg]
    simp only
    rw [hg, hbz]
    rw [selStrides_reverse_bases fs (List.replicate d.extents.length 0) d.bases d.extents _ (by simp) hw.2 hf]
    obtain ⟨_, _, _, c4, _⟩ := reverse_lists fs d.bases d.extents hw.2 hf hrep hne
    exact c4 d.strides hw.1
  · intro k hk
    rw [b5 k hk]
    have := a5 (mirror fs d.extents k) (mirror_inShape fs _ _ hf hk)
    rw [mirror_mirror fs _ _ hf hk] at this
    rw [← this]
    rfl

example : Representable exArr.desc.bases exArr.desc.extents ∧
    Representable (List.replicate exArr.desc.extents.length 0) exArr.desc.extents ∧ (∀ e ∈ exArr.desc.extents, 0 < e) ∧
    (exArr.slice true ⟨3, 3, reverseRanges [false, true, true] exArr.bases exArr.extents⟩).isOk = true := by decide

/-- The reversing idiom fails an assertion on an empty dimension (its start `base-1` is before the dimension). -/
example : ∃ a, Reachable 1 a ∧ a.slice true ⟨1, 1, reverseRanges [true] a.bases a.extents⟩ = .assertFail :=
  ⟨_, .ofExtents (p := ⟨7, 0⟩) (exts := [0]) (so := StorageOrder.cOrder 1) (by decide) rfl, by decide⟩

/-- **C25.** For an in-range `i`, `a[i]` has the shape, strides and bases of `a` without the first dimension, and
`a[i](rest)` is `a(i,rest)` - same element, same assertion failures. -/
theorem C25_subarray {n : Nat} {root : ARef} (hr : Reachable n root) {d : Desc} (h : Handle root d) (dbg : Bool) (i : Int)
    (e : Nat) (es : List Nat) (b : Int) (bs : List Int) (hext : d.extents = e :: es) (hbas : d.bases = b :: bs)
    (hi : b ≤ i ∧ i < b + (e : Int)) :
    ∃ d', access dbg i d = .ok d' ∧ d'.extents = d.extents.tail ∧ d'.strides = d.strides.tail ∧
      d'.bases = d.bases.tail ∧ Handle root d' ∧
      ∀ rest, rest.length = es.length → accessElement dbg rest d' = accessElement dbg (i :: rest) d := by
  obtain ⟨w1, w2⟩ := handle_wellShaped hr h
  obtain ⟨p, es0, ss0, bs0⟩ := d
  simp only at hext hbas w1 w2
  subst hext hbas
  match ss0, w1 with
  | s :: ss, w1 =>
    refine ⟨_, access_ok dbg i p e es s ss b bs hi.1 hi.2, rfl, rfl, rfl, ?_, ?_⟩
    · exact .sub h (access_ok true i p e es s ss b bs hi.1 hi.2)
    · intro rest hrest
      have hsl : ss.length = es.length := by simpa using w1
      unfold accessElement
      have hchk : checkIndices dbg (e :: es) (b :: bs) (i :: rest) = checkIndices dbg es bs rest := by
        cases dbg with
        | true =>
          have e1 : decide (i - b ≥ 0) = true := by simp; omega
          have e2 : decide ((i - b).toNat < e) = true := by simp; omega
          simp only [checkIndices, e1, e2, Res.assert_true, Res.bind_ok, if_true]
        | false => cases es <;> cases bs <;> cases rest <;> rfl
      simp only [hchk]
      congr 1
      funext _
      rw [offsetLoop_eq _ _ _ _ hrest hsl, offsetLoop_eq _ _ _ _ (by simp [hrest]) (by simp [hsl])]
      simp [dot, Ptr.add_add]

/-- **C25.** `a[i]` denotes the same elements as the slice `a[indices[i][range()]...[range()]]`, re-based to 0. -/
theorem C25_subarray_is_slice {n : Nat} {root : ARef} (hr : Reachable n root) {d : Desc} (h : Handle root d) (dbg : Bool)
    (i : Int) (e : Nat) (es : List Nat) (b : Int) (bs : List Int) (hext : d.extents = e :: es) (hbas : d.bases = b :: bs)
    (hi : b ≤ i ∧ i < b + (e : Int)) (hi1 : -(2 ^ 63) < i) (hi2 : i < 2 ^ 63 - 2) :
    ∃ d' v, access dbg i d = .ok d' ∧
      generateArrayView dbg ⟨es.length + 1, es.length,
        IndexRange.single i :: List.replicate es.length IndexRange.default⟩ d = .ok v ∧
      v.extents = d'.extents ∧ v.strides = d'.strides ∧
      ∀ k, InShape d'.extents k → v.paren dbg (atPos v.bases k) = accessElement dbg (atPos d'.bases k) d' := by
  obtain ⟨w1, w2⟩ := handle_wellShaped hr h
  obtain ⟨p, es0, ss0, bs0⟩ := d
  simp only at hext hbas w1 w2
  subst hext hbas
  match ss0, w1 with
  | s :: ss, w1 =>
    obtain ⟨a1, a2, a3, a4, a5⟩ := first_slice p e es s ss b bs (by simpa using w1) (by simpa using w2) dbg i hi.1 hi.2 hi1 hi2
    exact ⟨_, _, access_ok dbg i p e es s ss b bs hi.1 hi.2, a1, a2, a3, a5⟩

example : exArr.desc.extents = 2 :: [3, 4] ∧ exArr.desc.bases = -1 :: [5, 0] ∧ ((-1 : Int) ≤ 0 ∧ (0 : Int) < -1 + ((2 : Nat) : Int)) ∧
    (access true 0 exArr.desc).isOk = true := by decide

theorem rel_atPos (bs : List Int) (k : List Nat) (h : bs.length = k.length) : relPos (atPos bs k) bs = k.map (fun (x : Nat) => (x : Int)) := by
  induction bs generalizing k with
  | nil => match k, h with | [], _ => rfl
  | cons b bs ih => match k, h with
    | x :: k, h =>
      have := ih k (by simpa using h)
      simp only [relPos, atPos, List.zipWith_cons_cons, List.map_cons] at this ⊢
      rw [this]
      congr 1
      omega

/-- The same for views: `reindex` on a view (of any array, subarray or view, after any earlier reindexing of the view) changes the index bases and nothing
else, and the element formerly at `base+k` is now at `newbase+k`; both forms of `reindex` agree. -/
theorem C11_view_reindex_relabels {n : Nat} {root : ARef} (hr : Reachable n root) {d : Desc} (h : Handle root d) {g : IndexGen}
    (hlen : g.ranges.length = d.extents.length) {v v' : View} (hv : generateArrayView true g d = .ok v) (hh : ViewHistory v v')
    (bs : List Int) (hbs : bs.length = v'.extents.length) :
    (∃ v'', v'.reindexList bs = .ok v'' ∧ v''.bases = bs ∧ v''.extents = v'.extents ∧ v''.strides = v'.strides ∧ v''.base = v'.base ∧
      v''.numElems = v'.numElems ∧
      ∀ dbg k, InShape v'.extents k → ∃ p, v''.paren dbg (atPos bs k) = .ok p ∧ v'.paren dbg (atPos v'.bases k) = .ok p) ∧
    (∀ b, v'.reindexList (List.replicate v'.extents.length b) = .ok (v'.reindexAll b)) := by
  have hw := handle_wellShaped hr h
  obtain ⟨hleg, hnum, rfl⟩ := genView_ok hw hlen hv
  obtain ⟨w, h1, h2, h3, h4⟩ := ViewHistory_facts hh (theView_wf g d hw hleg)
  have hre : ∀ bs, bs.length = v'.extents.length →
      v'.reindexList bs = .ok { v' with bases := bs, originOffset := calcIndexingOffset v'.strides bs } := by
    intro bs hbs
    unfold View.reindexList
    rw [show v'.numDims = bs.length from hbs.symm, copyN_self rfl]
    rfl
  refine ⟨⟨_, hre bs hbs, rfl, rfl, rfl, rfl, rfl, ?_⟩, ?_⟩
  · intro dbg k hk
    have hkl := hk.length
    have w'' : View.WF { v' with bases := bs, originOffset := calcIndexingOffset v'.strides bs } := ⟨w.strides_len, hbs, rfl, w.num_eq⟩
    have i1 := inBox_atPos (es := v'.extents) hbs hk
    have i2 := inBox_atPos (es := v'.extents) w.bases_len hk
    refine ⟨_, accessElement_inBox dbg _ _ w''.strides_len i1, ?_⟩
    show accessElement dbg _ v'.desc = _
    rw [accessElement_inBox dbg v'.desc _ w.strides_len i2, w.address _ i2.length.1, w''.address _ i1.length.1]
    have e1 : relPos (atPos v'.bases k) v'.bases = relPos (atPos bs k) bs := by
      rw [rel_atPos _ _ (by rw [w.bases_len, hkl]), rel_atPos _ _ (by rw [hbs, hkl])]
    show Res.ok (v'.base.add (dot (relPos (atPos v'.bases k) v'.bases) v'.strides)) = Res.ok (v'.base.add (dot (relPos (atPos bs k) bs) v'.strides))
    rw [e1]
  · intro b
    rw [hre _ (by simp)]; rfl

example : ∃ v v'', generateArrayView true exView exArr.desc = .ok v ∧ v.extents = [3, 2] ∧ v.reindexList [-4, 7] = .ok v'' ∧
    v''.paren true [-3, 8] = v.paren true [1, 1] := ⟨_, _, rfl, by decide, rfl, by decide⟩

/-! ### Instances: the theorems applied to concrete cases, whose hypotheses are thereby met -/

example := C20_views_compose exArr_reachable .array (by decide) exView_built
  (show Built exView2 from .range (.range .empty (r := IndexRange.mk3 2 0 (-1)) rfl) (r := IndexRange.default) rfl) rfl (by decide) exView_made rfl
  (by decide) rfl
example := C24_reverse exArr_reachable .array true [false, true, true] rfl (by decide) (by decide)
example := C25_subarray exArr_reachable .array true 0 2 [3, 4] (-1) [5, 0] rfl rfl (by decide)

/- end of instances -/

end MultiArray.Props
