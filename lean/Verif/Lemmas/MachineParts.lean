import Verif.SpecProgM
import Verif.Lemmas.MachineOwn
import Verif.Lemmas.ProgStep

/- Parts of arrays in 64-bit arithmetic. -/
set_option autoImplicit false

namespace MultiArray
open Spec Props
variable {T : Type}

/-- A handle all of whose indices and element distances are representable. -/
structure DescFits (d : Desc) : Prop where
  inside : InsideIndex d.bases d.extents
  reach : absDot d.bases d.strides + span d.extents d.strides < 2 ^ 63
  size : sizeBound d.extents < 2 ^ 63

theorem dimsFit_span {bs : List Int} {es : List Nat} {ss : List Int} (h1 : InsideIndex bs es) (h2 : absDot bs ss + span es ss < 2 ^ 63)
    (h3 : ∀ e ∈ es, e < 2 ^ 63) : DimsFit bs es ss := by
  induction bs generalizing es ss with
  | nil => trivial
  | cons b bs ih => match es, ss with
    | [], _ => trivial
    | _ :: _, [] => trivial
    | e :: es, s :: ss =>
      obtain ⟨i1, i2, i3⟩ := h1
      simp only [absDot, span] at h2
      refine ⟨by omega, i2, h3 e (by simp), ?_, ih i3 (by omega) (fun e he => h3 e (by simp [he]))⟩
      intro i hi1 hi2
      apply Machine.inIndex_of_natAbs
      have hle : (i * s).natAbs ≤ (b * s).natAbs + (e - 1) * s.natAbs := by
        rw [Int.natAbs_mul, Int.natAbs_mul, ← Nat.add_mul]
        exact Nat.mul_le_mul_right _ (by omega)
      omega

theorem DescFits.dims {d : Desc} (h : DescFits d) : DimsFit d.bases d.extents d.strides :=
  dimsFit_span h.inside h.reach (fun e he => by have := le_sizeBound he; have := h.size; omega)

theorem absDot_box {bs : List Int} {es : List Nat} {ss idx : List Int} (h : InBox bs es idx) : absDot idx ss ≤ absDot bs ss + span es ss := by
  induction es generalizing bs ss idx with
  | nil => match bs, idx, h with | [], [], _ => simp [absDot]
  | cons e es ih => match bs, idx, h with
    | b :: bs, i :: idx, h =>
      obtain ⟨h1, h2, h3⟩ := h
      cases ss with
      | nil => simp [absDot]
      | cons s ss =>
        simp only [absDot, span]
        have := ih (ss := ss) h3
        have hle : (i * s).natAbs ≤ (b * s).natAbs + (e - 1) * s.natAbs := by
          rw [Int.natAbs_mul, Int.natAbs_mul, ← Nat.add_mul]
          exact Nat.mul_le_mul_right _ (by omega)
        omega

theorem DescFits.access {d : Desc} (h : DescFits d) (dbg : Bool) {idx : List Int} (hin : InBox d.bases d.extents idx) :
    Machine.accessElement dbg idx d = accessElement dbg idx d ∧ Machine.accessChain dbg idx d = accessChain dbg idx d :=
  C51_access dbg idx d (distances_inBox hin (fun e he => by have := le_sizeBound he; have := h.size; omega))
    (by have := absDot_box (ss := d.strides) hin; have := h.reach; omega)

theorem span_sum (n : Nat) (es : List Nat) (ss : List Int) (he : es.length = n) (hs : ss.length = n) :
    span es ss = ((List.range n).map (fun d => (es.getD d 0 - 1) * (ss.getD d 0).natAbs)).sum := by
  induction n generalizing es ss with
  | zero => match es, ss, he, hs with | [], [], _, _ => rfl
  | succ n ih => match es, ss, he, hs with
    | e :: es, s :: ss, he, hs =>
      rw [List.range_succ_eq_map]
      simp only [span, List.map_cons, List.sum_cons, List.map_map]
      rw [ih es ss (by simpa using he) (by simpa using hs)]
      rfl

theorem mixed_last (exts : List Nat) (ord : List Nat) :
    mixed exts (fun d => exts.getD d 0 - 1) ord + 1 ≤ ((ord.map (fun d => exts.getD d 0)).map (max 1)).prod := by
  induction ord with
  | nil => simp [mixed]
  | cons d ds ih =>
    simp only [mixed, List.map_cons, List.prod_cons]
    generalize exts.getD d 0 = e
    generalize mixed exts (fun d => exts.getD d 0 - 1) ds = M at ih ⊢
    generalize ((ds.map (fun d => exts.getD d 0)).map (max 1)).prod = P at ih ⊢
    have h1 : max 1 e * (M + 1) ≤ max 1 e * P := Nat.mul_le_mul_left _ ih
    have h2 : e * M ≤ max 1 e * M := Nat.mul_le_mul_right _ (by omega)
    have h3 : max 1 e * (M + 1) = max 1 e * M + max 1 e := by ring
    omega

/-- The elements of an array span less than its size. -/
theorem span_array {n : Nat} {a : ARef} (h : a.WF n) : span a.extents a.strides < sizeBound a.extents := by
  have key := csLoop_abs a.storage.ascending a.extents n h.order.2 h.ext_len (fun d => a.extents.getD d 0 - 1) a.storage.ordering 1
    (List.replicate n 0) a.strides (by simp) h.order.mem_lt h.order.nodup h.strides_eq
  rw [(h.order.1.map _).sum_eq, Nat.one_mul] at key
  have hl := mixed_last a.extents a.storage.ordering
  rw [Machine.sizeBound_perm h.order h.ext_len] at hl
  rw [span_sum n _ _ h.ext_len h.strides_len, key]
  omega

theorem DescFits.array {n : Nat} {a : ARef} (h : a.WF n) (hf : HeaderFits a) : DescFits a.desc := by
  obtain ⟨h1, h2⟩ := hf
  unfold ArrayFits at h1
  have := span_array h
  exact ⟨h2, by show absDot a.bases a.strides + span a.extents a.strides < _; omega, by show sizeBound a.extents < _; omega⟩

theorem DescFits.sub {dbg : Bool} {i : Int} {d d' : Desc} (h : DescFits d) (hok : MultiArray.access dbg i d = .ok d') :
    DescFits d' ∧ d'.strides = d.strides.tail := by
  obtain ⟨p, es, ss, bs⟩ := d
  obtain ⟨h1, h2, h3⟩ := h
  match es, ss, bs, hok, h1, h2, h3 with
  | e :: es, s :: ss, b :: bs, hok, h1, h2, h3 =>
    simp only [MultiArray.access] at hok
    cases hx : Res.assert dbg (decide (i - b ≥ 0)) <;> rw [hx] at hok <;> simp at hok
    cases hy : Res.assert dbg (decide ((i - b).toNat < e)) <;> rw [hy] at hok <;> simp at hok
    subst hok
    simp only [absDot, span] at h2
    refine ⟨⟨h1.2.2, by show absDot bs ss + span es ss < _; omega, ?_⟩, rfl⟩
    simp only [sizeBound, List.map_cons, List.prod_cons] at h3 ⊢
    have : 1 * (es.map (max 1)).prod ≤ max 1 e * (es.map (max 1)).prod := Nat.mul_le_mul_right _ (by omega)
    omega

theorem DescFits.access1 {d d' : Desc} (h : DescFits d) (dbg : Bool) {i : Int} (hok : MultiArray.access true i d = .ok d') :
    Machine.access dbg i d = MultiArray.access dbg i d := by
  have hd := h.dims
  obtain ⟨p, es, ss, bs⟩ := d
  match es, ss, bs, hok, hd with
  | e :: es, s :: ss, b :: bs, hok, hd =>
    obtain ⟨d1, d2, d3, d4, d5⟩ := hd
    simp only [MultiArray.access] at hok
    by_cases h1 : i - b ≥ 0
    · by_cases h2 : (i - b).toNat < e
      · simp only [Machine.access, MultiArray.access]
        rw [Machine.chk_ok (show Machine.InIndex (i - b) by unfold Machine.InIndex; omega), Machine.chk_ok (d4 i (by omega) (by omega))]
        cases dbg
        · rfl
        · simp only [Res.bind_ok, if_true]
          rw [Machine.size_check (by unfold Machine.InIndex; omega) h1]
      · exfalso
        have h2' : ¬ (i - b).toNat < e := h2
        simp [Res.assert, h2'] at hok
        split at hok <;> simp at hok
    · exfalso
      have h1' : ¬ b ≤ i := by omega
      simp [Res.assert, h1'] at hok

theorem viewStrides_eq (rs : List IndexRange) (ss : List Int) : viewStrides rs ss = selStrides rs ss := by
  induction rs generalizing ss with
  | nil => rfl
  | cons r rs ih => cases ss with
    | nil => rfl
    | cons s ss => simp only [viewStrides, selStrides, ih]

/-- A range selects few elements, close together. -/
theorem stepCount_bounds {r : IndexRange} {b : Int} {e : Nat} (h : LegalRange b e r) (hno : r.stride_ < 0 → rangeStart r b ≠ b + (e : Int)) :
    stepCount r b e ≤ e ∧ (stepCount r b e - 1) * r.stride_.natAbs ≤ e - 1 := by
  have hle : stepCount r b e ≤ e := by
    unfold stepCount
    exact Nat.le_trans (List.length_filter_le _ _) (by simp)
  refine ⟨hle, ?_⟩
  rw [stepCount_eq h hno] at hle ⊢
  obtain ⟨h0, ⟨h1, h2⟩, h3⟩ := h
  have hV := viewLen_iff (rangeStart r b) (rangeFinish r b e) r.stride_ h0
  have hnn := viewLen_nonneg (rangeStart r b) (rangeFinish r b e) r.stride_ h0
  generalize viewLen (rangeStart r b) (rangeFinish r b e) r.stride_ = V at hV hnn hle
  by_cases hz : V = 0
  · subst hz; simp
  · have hlast := (hV (V.toNat - 1)).mp (by omega)
    unfold Before at hlast
    have hc : (((V.toNat - 1 : Nat)) : Int) = V - 1 := by omega
    rw [hc] at hlast
    have : (((V.toNat - 1) * r.stride_.natAbs : Nat) : Int) < (e : Int) := by
      rw [Nat.cast_mul, hc]
      by_cases ht : 0 < r.stride_
      · rw [if_pos ht] at hlast
        rw [if_neg (by omega)] at h3
        rw [show ((r.stride_.natAbs : Nat) : Int) = r.stride_ by omega]
        omega
      · rw [if_neg ht] at hlast
        rw [if_pos (by omega)] at h3
        have := hno (by omega)
        rw [show ((r.stride_.natAbs : Nat) : Int) = -r.stride_ by omega, Int.mul_neg]
        omega
    omega

theorem view_span {rs : List IndexRange} {bs : List Int} {es : List Nat} {ss : List Int} (h : LegalRanges bs es rs) (hno : NoOverrun bs es rs)
    (hlen : ss.length = es.length) :
    span (viewCounts rs bs es) (viewStrides rs ss) ≤ span es ss ∧ sizeBound (viewCounts rs bs es) ≤ sizeBound es ∧
      (∀ c ∈ viewCounts rs bs es, ∃ e ∈ es, c ≤ e) := by
  induction es generalizing bs rs ss with
  | nil => match bs, rs, h with | [], [], _ => simp [viewCounts, viewStrides, span]
  | cons e es ih => match bs, rs, ss, h, hno, hlen with
    | b :: bs, r :: rs, s :: ss, h, hno, hlen =>
      obtain ⟨i1, i2, i3⟩ := ih h.2 hno.2 (by simpa using hlen) (ss := ss)
      obtain ⟨c1, c2⟩ := stepCount_bounds h.1 hno.1
      simp only [viewCounts, viewStrides, span]
      have hp : sizeBound (e :: es) = max 1 e * sizeBound es := by simp [sizeBound]
      have hpos : 1 * sizeBound es ≤ max 1 e * sizeBound es := Nat.mul_le_mul_right _ (by omega)
      cases hd : r.degenerate_ with
      | true =>
        simp only [if_true]
        exact ⟨by omega, by omega, fun c hc => by obtain ⟨e', h1, h2⟩ := i3 c hc; exact ⟨e', by simp [h1], h2⟩⟩
      | false =>
        simp only [Bool.false_eq_true, if_false, span]
        refine ⟨?_, ?_, ?_⟩
        · have : (stepCount r b e - 1) * (r.stride_ * s).natAbs ≤ (e - 1) * s.natAbs := by
            rw [Int.natAbs_mul, ← Nat.mul_assoc]
            exact Nat.mul_le_mul_right _ c2
          omega
        · rw [hp]
          show sizeBound (stepCount r b e :: viewCounts rs bs es) ≤ _
          rw [show sizeBound (stepCount r b e :: viewCounts rs bs es) = max 1 (stepCount r b e) * sizeBound (viewCounts rs bs es) by simp [sizeBound]]
          exact Nat.mul_le_mul (by omega) i2
        · intro c hc
          rcases List.mem_cons.mp hc with rfl | hc
          · exact ⟨e, by simp, c1⟩
          · obtain ⟨e', h1, h2⟩ := i3 c hc; exact ⟨e', by simp [h1], h2⟩

theorem inside_zero {es : List Nat} (h : ∀ e ∈ es, e < 2 ^ 63) (n : Nat) : InsideIndex (List.replicate n 0) es := by
  induction es generalizing n with
  | nil => cases n <;> trivial
  | cons e es ih => cases n with
    | zero => trivial
    | succ n =>
      have := h e (by simp)
      exact ⟨by omega, by omega, ih (fun e he => h e (by simp [he])) n⟩

theorem absDot_zero (n : Nat) (ss : List Int) : absDot (List.replicate n 0) ss = 0 := by
  induction n generalizing ss with
  | zero => simp [absDot]
  | succ n ih => cases ss with
    | nil => simp [absDot, List.replicate_succ]
    | cons s ss => simp [absDot, List.replicate_succ, ih]

theorem chainIndicesM_eq (xs : List IndexArg) (g : IndexGen) (h : ∀ i, IndexArg.index i ∈ xs → -(2 ^ 63) < i ∧ i < 2 ^ 63 - 2) :
    chainIndicesM g xs = chainIndices g xs := by
  induction xs generalizing g with
  | nil => rfl
  | cons x xs ih =>
    have hrest := fun g => ih g (fun i hi => h i (by simp [hi]))
    cases x with
    | range r => simp only [chainIndicesM, chainIndices, hrest]
    | index i =>
      have hi := h i (by simp)
      have : Machine.pushIdx g i = g.pushIdx i := by
        unfold Machine.pushIdx IndexGen.pushIdx Machine.single
        rw [Machine.chk_ok (by unfold Machine.InIndex; omega)]
        rfl
      simp only [chainIndicesM, chainIndices, hrest, this]

/-- The view of a fitting handle that fits. -/
theorem view_fits {n : Nat} {root : ARef} (hr : root.WF n) (dbg : Bool) {d : Desc} {p : APart} (h : PartOf root d p) (hf : DescFits d)
    {xs : List IndexArg} (hleg : LegalArgs p xs) (hv : ViewFits p d.strides xs) :
    Machine.generateArrayView dbg (idxGen xs) d = .ok (theView (idxGen xs) d) ∧ DescFits (theView (idxGen xs) d).desc ∧
    (theView (idxGen xs) d).strides = viewStrides (xs.map IndexArg.toRange) d.strides ∧
    span (viewCounts (xs.map IndexArg.toRange) p.bases p.extents) (viewStrides (xs.map IndexArg.toRange) d.strides) < 2 ^ 63 ∧
    sizeBound (viewCounts (xs.map IndexArg.toRange) p.bases p.extents) < 2 ^ 63 := by
  obtain ⟨_, e2, e3, _⟩ := partOf_view hr dbg h hleg
  obtain ⟨hne, hl, hno, hrng, hidx⟩ := hleg
  obtain ⟨hw, _⟩ := h.handle.embedding hr
  have hrs : (idxGen xs).ranges = xs.map IndexArg.toRange := by simp [idxGen, genList, hne]
  obtain ⟨s1, s2, s3⟩ := view_span hl hno (ss := d.strides) (by rw [← h.extents]; exact hw.1)
  have hst : (theView (idxGen xs) d).strides = viewStrides (xs.map IndexArg.toRange) d.strides := by
    rw [viewStrides_eq, ← hrs]; rfl
  have hsz := hf.size
  have hre := hf.reach
  rw [h.extents] at hsz hre
  have hb : (theView (idxGen xs) d).bases = List.replicate (viewCounts (xs.map IndexArg.toRange) p.bases p.extents).length 0 := by
    rw [← e3]; simp [theView, View.mkView]
  refine ⟨?_, ⟨?_, ?_, ?_⟩, hst, by omega, by omega⟩
  · rw [C51_views dbg (idxGen xs) d (by rw [hrs, h.bases, h.extents]; exact hv.1) (by rw [hrs, h.bases]; exact hv.2) (fun v hv' => ?_)]
    · exact e2
    · rw [e2] at hv'
      cases hv'
      have : (theView (idxGen xs) d).numElements = MultiArray.product (theView (idxGen xs) d).extents := rfl
      rw [this, e3, product_eq]
      have := prod_le_sizeBound (viewCounts (xs.map IndexArg.toRange) p.bases p.extents)
      omega
  · show InsideIndex (theView (idxGen xs) d).bases (theView (idxGen xs) d).extents
    rw [hb, e3]
    exact inside_zero (fun e he => by have := le_sizeBound he; omega) _
  · show absDot (theView (idxGen xs) d).bases (theView (idxGen xs) d).strides + span (theView (idxGen xs) d).extents (theView (idxGen xs) d).strides < _
    rw [hb, e3, hst, absDot_zero]
    omega
  · show sizeBound (theView (idxGen xs) d).extents < _
    rw [e3]
    omega

end MultiArray
