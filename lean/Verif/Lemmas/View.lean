import Verif.Lemmas.ViewLen
import Verif.Lemmas.Access

/- Loop analysis of `generate_array_view`. -/
set_option autoImplicit false

namespace MultiArray
open Spec

/-- Number of non-degenerate ranges. -/
def numRanged (rs : List IndexRange) : Nat := (rs.filter (fun r => !r.degenerate_)).length

/-- Strides of the view. -/
def selStrides : List IndexRange → List Int → List Int
  | r :: rs, s :: ss => if r.degenerate_ then selStrides rs ss else (r.stride_ * s) :: selStrides rs ss
  | _, _ => []

/-- Extents of the view. -/
def selExtents : List IndexRange → List Int → List Nat → List Int
  | r :: rs, b :: bs, e :: es =>
    if r.degenerate_ then selExtents rs bs es
    else viewLen (rangeStart r b) (rangeFinish r b e) r.stride_ :: selExtents rs bs es
  | _, _, _ => []

/-- Offset of the view's base. -/
def selOffset : List IndexRange → List Int → List Int → Int
  | r :: rs, b :: bs, s :: ss => rangeStart r b * s + selOffset rs bs ss
  | _, _, _ => 0

theorem getStart_eq (r : IndexRange) (b : Int) : r.getStart b = rangeStart r b := rfl
theorem getFinish_eq (r : IndexRange) (b : Int) (e : Nat) : r.getFinish (b + (e : Int)) = rangeFinish r b e := rfl

theorem viewAsserts_legal (dbg : Bool) (b : Int) (e : Nat) (r : IndexRange) (h : LegalRange b e r) :
    viewAsserts dbg b e (rangeStart r b) (rangeFinish r b e) r.stride_ = .ok () := by
  obtain ⟨_, ⟨h1, h2⟩, h3⟩ := h
  have e1 : decide (b ≤ rangeStart r b ∧ (rangeStart r b ≤ b + (e : Int) ∨ (rangeStart r b = b ∧ e = 0))) = true := by
    rw [decide_eq_true_iff]; exact ⟨h1, .inl h2⟩
  have e2 : decide (b - (if r.stride_ < 0 then 1 else 0) ≤ rangeFinish r b e ∧
      rangeFinish r b e ≤ b + (e : Int) - (if r.stride_ < 0 then 1 else 0)) = true := by
    rw [decide_eq_true_iff]
    by_cases hneg : r.stride_ < 0
    · simp only [hneg, if_true] at h3 ⊢; omega
    · simp only [hneg, if_false] at h3 ⊢; omega
  unfold viewAsserts
  rw [e1, Res.assert_true, Res.bind_ok]
  simp only [e2, Res.assert_true]

theorem viewAsserts_illegal (b : Int) (e : Nat) (r : IndexRange) (hs : r.stride_ ≠ 0) (h : ¬ LegalRange b e r) :
    viewAsserts true b e (rangeStart r b) (rangeFinish r b e) r.stride_ = .assertFail := by
  unfold viewAsserts
  by_cases c1 : b ≤ rangeStart r b ∧ (rangeStart r b ≤ b + (e : Int) ∨ (rangeStart r b = b ∧ e = 0))
  · have e1 := decide_eq_true c1
    rw [e1, Res.assert_true, Res.bind_ok]
    have c2 : ¬ (b - (if r.stride_ < 0 then 1 else 0) ≤ rangeFinish r b e ∧
        rangeFinish r b e ≤ b + (e : Int) - (if r.stride_ < 0 then 1 else 0)) := by
      intro c2
      apply h
      refine ⟨hs, ⟨c1.1, ?_⟩, ?_⟩
      · rcases c1.2 with h | h
        · exact h
        · omega
      · by_cases hneg : r.stride_ < 0
        · simp only [hneg, if_true] at c2 ⊢; omega
        · simp only [hneg, if_false] at c2 ⊢; omega
    have e2 := decide_eq_false c2
    simp only [e2, Res.assert_true_false]
  · have e1 := decide_eq_false c1
    simp only [e1, Res.assert_true_false, Res.bind_assertFail]

theorem viewStep_legal (dbg : Bool) (nd : Nat) (r : IndexRange) (e : Nat) (s b : Int) (acc : ViewAcc)
    (h : LegalRange b e r) :
    viewStep dbg nd r e s b acc =
      if r.degenerate_ then .ok { acc with offset := acc.offset + rangeStart r b * s }
      else if acc.newStrides.length < nd then
        .ok ⟨acc.offset + rangeStart r b * s, acc.newStrides ++ [r.stride_ * s],
          acc.newExtents ++ [viewLen (rangeStart r b) (rangeFinish r b e) r.stride_]⟩
      else if dbg then .assertFail else .ub := by
  have hs : r.stride_ ≠ 0 := h.1
  unfold viewStep
  simp only [getStart_eq, getFinish_eq, hs, not_false_eq_true, ne_eq, decide_true, Res.assert_true, Res.bind_ok, if_false,
    viewAsserts_legal dbg b e r h]
  cases r.degenerate_ <;> simp

theorem viewStep_illegal (nd : Nat) (r : IndexRange) (e : Nat) (s b : Int) (acc : ViewAcc)
    (h : ¬ LegalRange b e r) : viewStep true nd r e s b acc = .assertFail := by
  unfold viewStep
  simp only [getStart_eq, getFinish_eq]
  by_cases hs : r.stride_ = 0
  · simp [hs]
  · simp only [hs, not_false_eq_true, ne_eq, decide_true, Res.assert_true, Res.bind_ok, if_false,
      viewAsserts_illegal b e r hs h, Res.bind_assertFail]

theorem numRanged_cons (r : IndexRange) (rs : List IndexRange) :
    numRanged (r :: rs) = (if r.degenerate_ then 0 else 1) + numRanged rs := by
  unfold numRanged
  cases h : r.degenerate_ <;> simp [h]
  omega

/-- Successful run of the loop. -/
theorem viewLoop_legal (dbg : Bool) (nd : Nat) (rs : List IndexRange) (es : List Nat) (ss bs : List Int)
    (acc : ViewAcc) (h : LegalRanges bs es rs) (hs : ss.length = es.length)
    (hn : acc.newStrides.length + numRanged rs ≤ nd) :
    viewLoop dbg nd rs es ss bs acc = .ok ⟨acc.offset + selOffset rs bs ss, acc.newStrides ++ selStrides rs ss,
      acc.newExtents ++ selExtents rs bs es⟩ := by
  induction es generalizing bs rs ss acc with
  | nil => match bs, rs, ss, h, hs with
    | [], [], [], _, _ => simp [viewLoop, selOffset, selStrides, selExtents]
  | cons e es ih => match bs, rs, ss, h, hs with
    | b :: bs, r :: rs, s :: ss, h, hs =>
      simp only [viewLoop]
      rw [viewStep_legal dbg nd r e s b acc h.1]
      rw [numRanged_cons] at hn
      cases hd : r.degenerate_ with
      | true =>
        simp only [if_true, Res.bind_ok]
        rw [hd] at hn
        simp only [if_true] at hn
        rw [ih rs ss bs _ h.2 (by simpa using hs) (by simpa using hn)]
        simp [selOffset, selStrides, selExtents, hd, Int.add_assoc]
      | false =>
        rw [hd] at hn
        simp only [Bool.false_eq_true, if_false] at hn
        have hlt : acc.newStrides.length < nd := by omega
        simp only [hlt, if_true, Bool.false_eq_true, if_false, Res.bind_ok]
        rw [ih rs ss bs _ h.2 (by simpa using hs) (by simp; omega)]
        simp [selOffset, selStrides, selExtents, hd, Int.add_assoc]

theorem viewLoop_illegal (nd : Nat) (rs : List IndexRange) (es : List Nat) (ss bs : List Int)
    (acc : ViewAcc) (h : ¬ LegalRanges bs es rs) (hs : ss.length = es.length) (hb : bs.length = es.length)
    (hr : rs.length = es.length) :
    viewLoop true nd rs es ss bs acc = .assertFail := by
  induction es generalizing bs rs ss acc with
  | nil => match bs, rs, hb, hr with
    | [], [], _, _ => exact absurd trivial h
  | cons e es ih => match bs, rs, ss, hb, hr, hs with
    | b :: bs, r :: rs, s :: ss, hb, hr, hs =>
      simp only [viewLoop]
      by_cases hl : LegalRange b e r
      · have hrest : ¬ LegalRanges bs es rs := fun h' => h ⟨hl, h'⟩
        have ih' := fun acc => ih rs ss bs acc hrest (by simpa using hs) (by simpa using hb) (by simpa using hr)
        rw [viewStep_legal true nd r e s b acc hl]
        cases r.degenerate_ with
        | true => simp only [if_true, Res.bind_ok]; exact ih' _
        | false =>
          simp only [Bool.false_eq_true, if_false]
          split
          · simp only [Res.bind_ok]; exact ih' _
          · rfl
      · rw [viewStep_illegal nd r e s b acc hl]; rfl

theorem viewLoop_overflow (nd : Nat) (rs : List IndexRange) (es : List Nat) (ss bs : List Int)
    (acc : ViewAcc) (h : LegalRanges bs es rs) (hs : ss.length = es.length)
    (hn : nd < acc.newStrides.length + numRanged rs) (hacc : acc.newStrides.length ≤ nd) (dbg : Bool) :
    viewLoop dbg nd rs es ss bs acc = if dbg then .assertFail else .ub := by
  induction es generalizing bs rs ss acc with
  | nil => match bs, rs, ss, h, hs with
    | [], [], [], _, _ => simp [numRanged] at hn; omega
  | cons e es ih => match bs, rs, ss, h, hs with
    | b :: bs, r :: rs, s :: ss, h, hs =>
      simp only [viewLoop]
      rw [viewStep_legal dbg nd r e s b acc h.1]
      rw [numRanged_cons] at hn
      cases hd : r.degenerate_ with
      | true =>
        simp only [if_true, Res.bind_ok]
        rw [hd] at hn
        simp only [if_true] at hn
        exact ih rs ss bs _ h.2 (by simpa using hs) (by simpa using hn) (by simpa using hacc)
      | false =>
        rw [hd] at hn
        simp only [Bool.false_eq_true, if_false] at hn
        simp only [Bool.false_eq_true, if_false]
        by_cases hlt : acc.newStrides.length < nd
        · simp only [hlt, if_true, Res.bind_ok]
          exact ih rs ss bs _ h.2 (by simpa using hs) (by simp; omega) (by simp; omega)
        · simp only [hlt, if_false]
          cases dbg <;> rfl

theorem selStrides_length (rs : List IndexRange) (ss : List Int) (h : rs.length = ss.length) :
    (selStrides rs ss).length = numRanged rs := by
  induction rs generalizing ss with
  | nil => cases ss <;> simp [selStrides, numRanged]
  | cons r rs ih => match ss, h with
    | s :: ss, h =>
      have := ih ss (by simpa using h)
      rw [numRanged_cons]
      cases hd : r.degenerate_ <;> simp [selStrides, hd, this]
      omega

theorem selExtents_length (rs : List IndexRange) (bs : List Int) (es : List Nat) (h : rs.length = es.length)
    (hb : bs.length = es.length) : (selExtents rs bs es).length = numRanged rs := by
  induction rs generalizing bs es with
  | nil => cases bs <;> cases es <;> simp [selExtents, numRanged]
  | cons r rs ih => match es, bs, h, hb with
    | e :: es, b :: bs, h, hb =>
      have := ih bs es (by simpa using h) (by simpa using hb)
      rw [numRanged_cons]
      cases hd : r.degenerate_ <;> simp [selExtents, hd, this]
      omega

theorem Spec.LegalRanges.length {bs : List Int} {es : List Nat} {rs : List IndexRange} (h : LegalRanges bs es rs) :
    rs.length = es.length ∧ bs.length = es.length := by
  induction es generalizing bs rs with
  | nil => match bs, rs, h with | [], [], _ => simp
  | cons e es ih => match bs, rs, h with
    | b :: bs, r :: rs, h => have := ih h.2; simp [this.1, this.2]

/-- The view created from legal ranges. -/
def theView (g : IndexGen) (d : Desc) : View :=
  View.mkView (d.base.add (selOffset g.ranges d.bases d.strides)) (selExtents g.ranges d.bases d.extents)
    (selStrides g.ranges d.strides)

theorem genView_legal (dbg : Bool) (g : IndexGen) (d : Desc) (hw : WellShaped d)
    (h : LegalRanges d.bases d.extents g.ranges) (hn : numRanged g.ranges = g.numDims) :
    generateArrayView dbg g d = .ok (theView g d) := by
  unfold generateArrayView
  rw [viewLoop_legal dbg g.numDims g.ranges d.extents d.strides d.bases ⟨0, [], []⟩ h hw.1 (by simp [hn])]
  have hl : (selStrides g.ranges d.strides).length = g.numDims := by
    rw [selStrides_length _ _ (by rw [h.length.1, hw.1]), hn]
  simp [hl, theView]

/-- With assertions on, success means the ranges were legal and as many as the view has dimensions. -/
theorem genView_ok {g : IndexGen} {d : Desc} {v : View} (hw : WellShaped d)
    (hr : g.ranges.length = d.extents.length) (h : generateArrayView true g d = .ok v) :
    LegalRanges d.bases d.extents g.ranges ∧ numRanged g.ranges = g.numDims ∧ v = theView g d := by
  have hleg : LegalRanges d.bases d.extents g.ranges := by
    rcases Decidable.em (LegalRanges d.bases d.extents g.ranges) with h' | h'
    · exact h'
    · unfold generateArrayView at h
      rw [viewLoop_illegal _ _ _ _ _ _ h' hw.1 hw.2 hr] at h
      cases h
  have hn : numRanged g.ranges = g.numDims := by
    unfold generateArrayView at h
    rcases Nat.lt_trichotomy (numRanged g.ranges) g.numDims with hlt | heq | hgt
    · rw [viewLoop_legal true g.numDims g.ranges d.extents d.strides d.bases ⟨0, [], []⟩ hleg hw.1 (by simp; omega)] at h
      have hl : (selStrides g.ranges d.strides).length = numRanged g.ranges := by
        rw [selStrides_length _ _ (by rw [hr, hw.1])]
      have : ¬ numRanged g.ranges = g.numDims := by omega
      simp [hl, this] at h
    · exact heq
    · rw [viewLoop_overflow g.numDims g.ranges d.extents d.strides d.bases ⟨0, [], []⟩ hleg hw.1 (by simpa using hgt)
        (by simp)] at h
      cases h
  refine ⟨hleg, hn, ?_⟩
  rw [genView_legal true g d hw hleg hn] at h
  cases h; rfl

/-! ### Addresses through a view -/

/-- The view's address of zero-based `j` is the array's address of the selected tuple. -/
theorem selected_dot (rs : List IndexRange) (bs ss j : List Int) (hs : ss.length = rs.length)
    (hb : bs.length = rs.length) (hj : j.length = numRanged rs) :
    dot (selected rs bs j) ss = selOffset rs bs ss + dot j (selStrides rs ss) := by
  induction rs generalizing bs ss j with
  | nil =>
    have : j = [] := by simpa [numRanged] using hj
    subst this
    cases bs <;> simp [selected, selOffset, dot]
  | cons r rs ih => match bs, ss, hs, hb with
    | b :: bs, s :: ss, hs, hb =>
      rw [numRanged_cons] at hj
      cases hd : r.degenerate_ with
      | true =>
        rw [hd] at hj
        have := ih bs ss j (by simpa using hs) (by simpa using hb) (by simpa using hj)
        simp only [selected, hd, if_true, dot, selOffset, selStrides, this]; ring
      | false =>
        rw [hd] at hj
        match j, hj with
        | x :: xs, hj =>
          have := ih bs ss xs (by simpa using hs) (by simpa using hb) (by simp at hj; omega)
          simp only [selected, hd, Bool.false_eq_true, if_false, dot, selOffset, selStrides, this]; ring
        | [], hj => simp at hj; omega

/-- In-range view positions select in-range tuples, provided no range overruns. -/
theorem selected_inBox (rs : List IndexRange) (bs : List Int) (es : List Nat) (j : List Int)
    (hl : LegalRanges bs es rs) (hno : NoOverrun bs es rs)
    (hdeg : ∀ r ∈ rs, r.degenerate_ = true → ∃ i : Int, -(2 ^ 63) < i ∧ i < 2 ^ 63 - 2 ∧ r = IndexRange.single i)
    (hj : InBox (List.replicate (numRanged rs) 0) ((selExtents rs bs es).map Int.toNat) j) :
    InBox bs es (selected rs bs j) := by
  induction rs generalizing bs es j with
  | nil =>
    obtain ⟨l1, l2⟩ := hl.length
    match es, bs, l1, l2 with | [], [], _, _ => simp [selected, InBox]
  | cons r rs ih =>
    obtain ⟨l1, l2⟩ := hl.length
    match es, bs, l1, l2, hl, hno with
    | e :: es, b :: bs, _, _, hl, hno =>
      rw [numRanged_cons] at hj
      obtain ⟨⟨h0, ⟨h1, h2⟩, h3⟩, hl2⟩ := hl
      cases hd : r.degenerate_ with
      | true =>
        simp only [hd, if_true, selExtents, Nat.zero_add] at hj
        simp only [selected, hd, if_true]
        obtain ⟨i, d1, d2, rfl⟩ := hdeg r (by simp) hd
        refine ⟨h1, ?_, ih bs es j hl2 hno.2 (fun r' hr' => hdeg r' (by simp [hr'])) hj⟩
        simp only [IndexRange.single, show ¬ (1 : Int) < 0 by omega, if_false, rangeFinish,
          show ¬ (i + 1 = 2 ^ 63 - 1) by omega] at h3
        simp only [rangeStart, IndexRange.single, show ¬ (i = -(2 ^ 63)) by omega, if_false]
        omega
      | false =>
        simp only [hd, Bool.false_eq_true, if_false, selExtents, List.map_cons, Nat.add_comm 1, List.replicate_succ] at hj
        match j, hj with
        | x :: xs, hj =>
          obtain ⟨j1, j2, j3⟩ := hj
          simp only [selected, hd, Bool.false_eq_true, if_false]
          have hlen := viewLen_nonneg (rangeStart r b) (rangeFinish r b e) r.stride_ h0
          have hb' := (viewLen_iff (rangeStart r b) (rangeFinish r b e) r.stride_ h0 x.toNat).mp (by omega)
          have hx : (x.toNat : Int) = x := by omega
          rw [hx] at hb'
          unfold Before at hb'
          have key : b ≤ rangeStart r b + x * r.stride_ ∧ rangeStart r b + x * r.stride_ < b + (e : Int) := by
            by_cases hp : 0 < r.stride_
            · simp only [hp, if_true] at hb'
              simp only [show ¬ r.stride_ < 0 by omega, if_false] at h3
              have : 0 ≤ x * r.stride_ := Int.mul_nonneg j1 (by omega)
              omega
            · simp only [hp, if_false] at hb'
              have hn : r.stride_ < 0 := by omega
              simp only [hn, if_true] at h3
              have : x * r.stride_ ≤ 0 := Int.mul_nonpos_of_nonneg_of_nonpos j1 (by omega)
              have := hno.1 hn
              omega
          exact ⟨key.1, key.2, ih bs es xs hl2 hno.2 (fun r' hr' => hdeg r' (by simp [hr'])) j3⟩

theorem selected_inj (rs : List IndexRange) (bs : List Int) (j j' : List Int) (hb : bs.length = rs.length)
    (hs : ∀ r ∈ rs, r.stride_ ≠ 0) (hj : j.length = numRanged rs) (hj' : j'.length = numRanged rs)
    (h : selected rs bs j = selected rs bs j') : j = j' := by
  induction rs generalizing bs j j' with
  | nil =>
    have h1 : j = [] := by simpa [numRanged] using hj
    have h2 : j' = [] := by simpa [numRanged] using hj'
    rw [h1, h2]
  | cons r rs ih => match bs, hb with
    | b :: bs, hb =>
      rw [numRanged_cons] at hj hj'
      have ih' := fun j j' => ih bs j j' (by simpa using hb) (fun r' hr' => hs r' (by simp [hr']))
      cases hd : r.degenerate_ with
      | true =>
        rw [hd] at hj hj'
        simp only [selected, hd, if_true, List.cons.injEq, true_and] at h
        exact ih' j j' (by simpa using hj) (by simpa using hj') h
      | false =>
        rw [hd] at hj hj'
        match j, hj, j', hj' with
        | x :: xs, hj, y :: ys, hj' =>
          simp only [selected, hd, Bool.false_eq_true, if_false, List.cons.injEq] at h
          have h1 : x * r.stride_ = y * r.stride_ := by omega
          have h2 := Int.eq_of_mul_eq_mul_right (hs r (by simp)) h1
          rw [h2, ih' xs ys (by simp at hj; omega) (by simp at hj'; omega) h.2]
        | [], hj, _, _ => simp at hj; omega
        | _, _, [], hj' => simp at hj'; omega

theorem legal_stride_ne_zero {bs : List Int} {es : List Nat} {rs : List IndexRange} (h : LegalRanges bs es rs) : ∀ r ∈ rs, r.stride_ ≠ 0 := by
  induction rs generalizing bs es with
  | nil => simp
  | cons r rs ih =>
    match bs, es, h with
    | [], [], h => exact h.elim
    | [], _ :: _, h => exact h.elim
    | _ :: _, [], h => exact h.elim
    | b :: bs, e :: es, h =>
      intro q hq
      rcases List.mem_cons.mp hq with rfl | hq
      · exact h.1.1
      · exact ih h.2 q hq

end MultiArray
