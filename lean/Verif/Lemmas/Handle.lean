import Verif.Lemmas.Gens

/- Views after reindexing, and everything derivable from an array. -/
set_option autoImplicit false

namespace MultiArray
open Spec

/-- Position relative to the bases. -/
def relPos (idx bs : List Int) : List Int := List.zipWith (· - ·) idx bs

theorem dot_relPos (idx bs ss : List Int) (h : idx.length = bs.length) :
    dot (relPos idx bs) ss = dot idx ss - dot bs ss := by
  induction idx generalizing bs ss with
  | nil => match bs, h with | [], _ => simp [relPos, dot]
  | cons i is ih => match bs, h with
    | b :: bs, h => cases ss with
      | nil => simp [dot]
      | cons s ss =>
        have := ih bs ss (by simpa using h)
        simp only [relPos] at this
        simp only [relPos, List.zipWith_cons_cons, dot, this]; ring

theorem inBox_relPos (bs : List Int) (es : List Nat) (idx : List Int) (h : InBox bs es idx) :
    InBox (List.replicate es.length 0) es (relPos idx bs) := by
  induction es generalizing bs idx with
  | nil => match bs, idx, h with | [], [], _ => trivial
  | cons e es ih => match bs, idx, h with
    | b :: bs, i :: is, h =>
      refine ⟨?_, ?_, ih bs is h.2.2⟩
      · have := h.1; show (0 : Int) ≤ i - b; omega
      · have := h.2.1; show i - b < (0 : Int) + (e : Int); omega

theorem relPos_inj {idx idx' bs : List Int} (h : idx.length = bs.length) (h' : idx'.length = bs.length)
    (heq : relPos idx bs = relPos idx' bs) : idx = idx' := by
  induction bs generalizing idx idx' with
  | nil =>
    have h1 : idx = [] := by simpa using h
    have h2 : idx' = [] := by simpa using h'
    rw [h1, h2]
  | cons b bs ih => match idx, idx', h, h' with
    | i :: is, j :: js, h, h' =>
      simp only [relPos, List.zipWith_cons_cons, List.cons.injEq] at heq
      have := ih (by simpa using h) (by simpa using h') heq.2
      rw [this, show i = j by omega]

theorem relPos_zero (n : Nat) (j : List Int) (h : j.length = n) : relPos j (List.replicate n 0) = j := by
  induction j generalizing n with
  | nil => simp [relPos]
  | cons x xs ih => cases n with
    | zero => simp at h
    | succ n =>
      have := ih n (by simpa using h)
      simp only [relPos] at this
      simp [relPos, List.replicate_succ, this]

/-! ### View objects -/

structure View.WF (v : View) : Prop where
  strides_len : v.strides.length = v.extents.length
  bases_len : v.bases.length = v.extents.length
  origin_eq : v.originOffset = calcIndexingOffset v.strides v.bases
  num_eq : v.numElems = product v.extents

theorem dot_zeros (n : Nat) (ss : List Int) : dot (List.replicate n 0) ss = 0 := by
  induction n generalizing ss with
  | zero => simp [dot]
  | succ n ih => cases ss <;> simp [dot, List.replicate_succ, ih]

theorem mkView_wf (p : Ptr) (es ss : List Int) (h : ss.length = es.length) : (View.mkView p es ss).WF := by
  refine ⟨?_, ?_, ?_, ?_⟩ <;> simp [View.mkView, h, calcIndexingOffset_eq, dot_zeros]

theorem View.reindexList_ok {v v' : View} {bs : List Int} (h : v.reindexList bs = .ok v') :
    v' = { v with bases := bs.take v.extents.length, originOffset := calcIndexingOffset v.strides (bs.take v.extents.length) } ∧
      v.extents.length ≤ bs.length := by
  unfold View.reindexList at h
  cases hc : copyN bs v.numDims with
  | assertFail => simp [hc] at h
  | ub => simp [hc] at h
  | ok b =>
    obtain ⟨hb, hle, hlen⟩ := copyN_ok hc
    simp only [View.numDims] at hb hle
    simp only [hc, Res.bind_ok, Res.ok.injEq] at h
    subst hb
    exact ⟨h.symm, hle⟩

theorem ViewHistory_facts {v v' : View} (h : ViewHistory v v') (hw : v.WF) :
    v'.WF ∧ v'.base = v.base ∧ v'.extents = v.extents ∧ v'.strides = v.strides ∧ v'.numElems = v.numElems := by
  induction h with
  | refl => exact ⟨hw, rfl, rfl, rfl, rfl⟩
  | reindexList _ hr ih =>
    obtain ⟨w, h1, h2, h3, h4⟩ := ih
    obtain ⟨rfl, hle⟩ := View.reindexList_ok hr
    exact ⟨⟨w.strides_len, by simp [hle], rfl, w.num_eq⟩, h1, h2, h3, h4⟩
  | reindexAll _ ih =>
    obtain ⟨w, h1, h2, h3, h4⟩ := ih
    exact ⟨⟨w.strides_len, by simp [View.reindexAll, View.numDims], rfl, w.num_eq⟩, h1, h2, h3, h4⟩

theorem View.WF.address {v : View} (hw : v.WF) (idx : List Int) (hl : idx.length = v.extents.length) :
    address v.desc idx = v.base.add (dot (relPos idx v.bases) v.strides) := by
  rw [dot_relPos _ _ _ (by rw [hl, hw.bases_len])]
  simp only [Spec.address, View.desc, View.origin, hw.origin_eq, calcIndexingOffset_eq, Ptr.add_add]
  congr 1; ring

theorem View.WF.wellShaped {v : View} (hw : v.WF) : WellShaped v.desc := ⟨hw.strides_len, hw.bases_len⟩

theorem theView_wf (g : IndexGen) (d : Desc) (hw : WellShaped d) (h : LegalRanges d.bases d.extents g.ranges) :
    (theView g d).WF := by
  apply mkView_wf
  rw [selStrides_length _ _ (by rw [h.length.1, hw.1]), selExtents_length _ _ _ h.length.1 h.length.2]

theorem theView_extents (g : IndexGen) (d : Desc) :
    (theView g d).extents = (selExtents g.ranges d.bases d.extents).map Int.toNat := rfl

/-- Element addresses through a (reindexed) view. -/
theorem view_address {g : IndexGen} {d : Desc} {v' : View} (hw : WellShaped d)
    (hl : LegalRanges d.bases d.extents g.ranges) (hh : ViewHistory (theView g d) v') (idx : List Int)
    (hidx : idx.length = v'.extents.length) :
    address v'.desc idx = address d (selected g.ranges d.bases (relPos idx v'.bases)) := by
  obtain ⟨w, h1, h2, h3, _⟩ := ViewHistory_facts hh (theView_wf g d hw hl)
  rw [w.address idx hidx, h1, h3]
  have hlen : (relPos idx v'.bases).length = numRanged g.ranges := by
    have : v'.extents.length = numRanged g.ranges := by
      rw [h2, theView_extents, List.length_map, selExtents_length _ _ _ hl.length.1 hl.length.2]
    simp [relPos, hidx, w.bases_len, this]
  simp only [Spec.address]
  rw [selected_dot _ _ _ _ (by rw [hw.1, hl.length.1]) (by rw [hl.length.2, hl.length.1]) hlen]
  simp [theView, View.mkView, Ptr.add_add]

theorem ARef.WF.wellShaped {n : Nat} {a : ARef} (h : a.WF n) : WellShaped a.desc :=
  ⟨by simp [ARef.desc, h.strides_len, h.ext_len], by simp [ARef.desc, h.bases_len, h.ext_len]⟩

theorem access_true_ok {i : Int} {d d' : Desc} (h : access true i d = .ok d') :
    ∃ e es s ss b bs, d = ⟨d.base, e :: es, s :: ss, b :: bs⟩ ∧ d' = ⟨d.base.add (i * s), es, ss, bs⟩ ∧
      b ≤ i ∧ i < b + (e : Int) := by
  obtain ⟨p, es, ss, bs⟩ := d
  match es, ss, bs, h with
  | e :: es, s :: ss, b :: bs, h =>
    by_cases hc : b ≤ i ∧ i < b + (e : Int)
    · rw [access_ok true i p e es s ss b bs hc.1 hc.2] at h
      cases h
      exact ⟨e, es, s, ss, b, bs, rfl, rfl, hc.1, hc.2⟩
    · rw [access_fail i p e es s ss b bs hc] at h
      cases h
  | [], _, _, h => simp [access] at h
  | _ :: _, [], _, h => simp [access] at h
  | _ :: _, _ :: _, [], h => simp [access] at h

/-- Every derived handle is an injective relabelling of a part of the root. -/
theorem Spec.Handle.embedding {n : Nat} {root : ARef} (hroot : root.WF n) {d : Desc} (h : Handle root d) :
    WellShaped d ∧ ∃ f : List Int → List Int,
      (∀ idx, InBox d.bases d.extents idx → InBox root.bases root.extents (f idx) ∧
        address d idx = address root.desc (f idx)) ∧
      (∀ i j, InBox d.bases d.extents i → InBox d.bases d.extents j → f i = f j → i = j) := by
  induction h with
  | array => exact ⟨hroot.wellShaped, id, fun idx h => ⟨h, rfl⟩, fun i j _ _ h => h⟩
  | sub hd ha ih =>
    obtain ⟨hw, f, hf, hinj⟩ := ih
    rename_i d d' i
    obtain ⟨e, es, s, ss, b, bs, hd1, rfl, hb1, hb2⟩ := access_true_ok ha
    rw [hd1] at hw hf hinj
    simp only [WellShaped, List.length_cons, Nat.add_right_cancel_iff] at hw
    refine ⟨hw, fun idx => f (i :: idx), ?_, ?_⟩
    · intro idx hin
      have := hf (i :: idx) ⟨hb1, hb2, hin⟩
      refine ⟨this.1, ?_⟩
      rw [← this.2]
      simp only [address, dot, Ptr.add_add]
    · intro x y hx hy hxy
      have := hinj (i :: x) (i :: y) ⟨hb1, hb2, hx⟩ ⟨hb1, hb2, hy⟩ hxy
      simpa using this
  | view hd hno hbuilt hlen hgen hhist ih =>
    obtain ⟨hw, f, hf, hinj⟩ := ih
    rename_i d g v v'
    obtain ⟨hleg, hnum, rfl⟩ := genView_ok hw hlen hgen
    obtain ⟨w, h1, h2, h3, _⟩ := ViewHistory_facts hhist (theView_wf g d hw hleg)
    have hextlen : v'.extents.length = numRanged g.ranges := by
      rw [h2, theView_extents, List.length_map, selExtents_length _ _ _ hleg.length.1 hleg.length.2]
    have hstr : ∀ r ∈ g.ranges, r.stride_ ≠ 0 := by
      clear hgen hhist hnum hno hlen hbuilt
      have aux : ∀ (bs : List Int) (es : List Nat) (rs : List IndexRange), LegalRanges bs es rs →
          ∀ r ∈ rs, r.stride_ ≠ 0 := by
        intro bs es rs h
        induction rs generalizing bs es with
        | nil => simp
        | cons r rs ih =>
          obtain ⟨l1, l2⟩ := h.length
          match es, bs, l1, l2, h with
          | e :: es, b :: bs, _, _, h =>
            intro r' hr'
            rcases List.mem_cons.mp hr' with rfl | hr'
            · exact h.1.1
            · exact ih bs es h.2 r' hr'
      exact aux _ _ _ hleg
    have hsel : ∀ idx, InBox v'.bases v'.extents idx →
        InBox d.bases d.extents (selected g.ranges d.bases (relPos idx v'.bases)) := by
      intro idx hin
      apply hno
      have hrel := inBox_relPos _ _ _ hin
      have hvb : (theView g d).bases = List.replicate (theView g d).extents.length 0 := by simp [theView, View.mkView]
      rw [hvb, ← h2]
      exact hrel
    refine ⟨w.wellShaped, fun idx => f (selected g.ranges d.bases (relPos idx v'.bases)), ?_, ?_⟩
    · intro idx hin
      have := hf _ (hsel idx hin)
      refine ⟨this.1, ?_⟩
      rw [← this.2]
      exact view_address hw hleg hhist idx hin.length.1
    · intro x y hx hy hxy
      have h' := hinj _ _ (hsel x hx) (hsel y hy) hxy
      have hlx : (relPos x v'.bases).length = numRanged g.ranges := by
        have := hx.length
        simp only [View.desc] at this
        simp [relPos, this, hextlen]
      have hly : (relPos y v'.bases).length = numRanged g.ranges := by
        have := hy.length
        simp only [View.desc] at this
        simp [relPos, this, hextlen]
      have := selected_inj _ _ _ _ (by rw [hleg.length.2, hleg.length.1]) hstr hlx hly h'
      have l1 := hx.length
      have l2 := hy.length
      simp only [View.desc] at l1 l2
      exact relPos_inj (by omega) (by omega) this

/-- A view accepted by the assertions none of whose ranges starts one past the end going backwards stays inside. -/
theorem staysInside_of_noOverrun {d : Desc} (hw : WellShaped d) {g : IndexGen} (hno : NoOverrun d.bases d.extents g.ranges) (hb : Built g)
    (hlen : g.ranges.length = d.extents.length) {v : View} (hv : generateArrayView true g d = .ok v) : StaysInside d g v := by
  obtain ⟨hleg, hnum, rfl⟩ := genView_ok hw hlen hv
  intro j hin
  by_cases hz : g.ranges.length = 0
  · have hr : g.ranges = [] := by simpa using hz
    have he : d.extents = [] := List.eq_nil_of_length_eq_zero (by omega)
    have hbb : d.bases = [] := List.eq_nil_of_length_eq_zero (by rw [hw.2, he]; rfl)
    rw [hr, he, hbb]
    simp [selected, InBox]
  · apply selected_inBox _ _ _ _ hleg hno (hb.degenerate hz hnum)
    have hvb : (theView g d).bases = List.replicate (theView g d).extents.length 0 := by simp [theView, View.mkView]
    rw [hvb] at hin
    have hl : (theView g d).extents.length = numRanged g.ranges := by
      rw [theView_extents, List.length_map, selExtents_length _ _ _ hleg.length.1 hleg.length.2]
    rw [hl] at hin
    exact hin

theorem handle_view {n : Nat} {root : ARef} (hroot : root.WF n) {d : Desc} (h : Handle root d) {g : IndexGen}
    (hno : NoOverrun d.bases d.extents g.ranges) (hb : Built g) (hlen : g.ranges.length = d.extents.length) {v v' : View}
    (hv : generateArrayView true g d = .ok v) (hh : ViewHistory v v') : Handle root v'.desc :=
  .view h (staysInside_of_noOverrun (h.embedding hroot).1 hno hb hlen hv) hb hlen hv hh

end MultiArray
