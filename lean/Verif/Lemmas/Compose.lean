import Verif.Lemmas.Handle

/- Lists of default ranges, reversal, and composition of views. -/
set_option autoImplicit false

namespace MultiArray
open Spec

/-- One-dimensional containment. -/
theorem range_contained {b : Int} {e : Nat} {r : IndexRange} (hl : LegalRange b e r)
    (hno : r.stride_ < 0 → rangeStart r b ≠ b + (e : Int)) (x : Int) (h0 : 0 ≤ x)
    (hx : x < viewLen (rangeStart r b) (rangeFinish r b e) r.stride_) :
    b ≤ rangeStart r b + x * r.stride_ ∧ rangeStart r b + x * r.stride_ < b + (e : Int) := by
  obtain ⟨hs, ⟨h1, h2⟩, h3⟩ := hl
  have hb' := (viewLen_iff (rangeStart r b) (rangeFinish r b e) r.stride_ hs x.toNat).mp (by omega)
  rw [show ((x.toNat : Nat) : Int) = x by omega] at hb'
  unfold Before at hb'
  by_cases hp : 0 < r.stride_
  · simp only [hp, if_true] at hb'
    simp only [show ¬ r.stride_ < 0 by omega, if_false] at h3
    have : 0 ≤ x * r.stride_ := Int.mul_nonneg h0 (by omega)
    omega
  · simp only [hp, if_false] at hb'
    have hn : r.stride_ < 0 := by omega
    simp only [hn, if_true] at h3
    have : x * r.stride_ ≤ 0 := Int.mul_nonpos_of_nonneg_of_nonpos h0 (by omega)
    have := hno hn
    omega

/-- A range from `s` to just after `s + m*t` selects `m+1` indices. -/
theorem viewLen_exact (s t : Int) (ht : t ≠ 0) (m : Nat) : viewLen s (s + (m : Int) * t + sgn t) t = (m : Int) + 1 := by
  have hnn := viewLen_nonneg s (s + (m : Int) * t + sgn t) t ht
  have hiff := viewLen_iff s (s + (m : Int) * t + sgn t) t ht
  have hin := (hiff m).mpr (by
    unfold Before sgn
    by_cases h : 0 < t
    · simp only [h, if_true]; omega
    · simp only [h, if_false]; omega)
  have hout := (hiff (m + 1)).not.mpr (by
    unfold Before sgn
    have : ((m + 1 : Nat) : Int) * t = (m : Int) * t + t := by push_cast; ring
    rw [this]
    by_cases h : 0 < t
    · simp only [h, if_true]; omega
    · simp only [h, if_false]; omega)
  push_cast at hout
  omega

theorem viewLen_self (b t : Int) (ht : t ≠ 0) : viewLen b b t = 0 := by
  have hnn := viewLen_nonneg b b t ht
  have := (viewLen_iff b b t ht 0).not.mpr (by unfold Before; split <;> simp)
  push_cast at this
  omega

theorem rangeStart_of_mem {b : Int} (hb : -(2 ^ 63) ≤ b) {s f t : Int} {dg : Bool} (hs : b ≤ s) :
    rangeStart ⟨s, f, t, dg⟩ b = s := by
  unfold rangeStart
  by_cases h : s = -(2 ^ 63)
  · simp only [h, if_true]; omega
  · simp only [h, if_false]

theorem rangeFinish_of_le {b : Int} {e : Nat} (hb : b + (e : Int) ≤ 2 ^ 63 - 1) {s f t : Int} {dg : Bool}
    (hf : f ≤ b + (e : Int)) : rangeFinish ⟨s, f, t, dg⟩ b e = f := by
  unfold rangeFinish
  by_cases h : f = 2 ^ 63 - 1
  · simp only [h, if_true]; omega
  · simp only [h, if_false]

section ComposeOne
variable {b : Int} {e : Nat} {r1 r2 : IndexRange}

/-- Composition in one dimension where both ranges are non-degenerate. -/
theorem composeRange_spec (hb1 : -(2 ^ 63) ≤ b) (hb2 : b + (e : Int) ≤ 2 ^ 63 - 1)
    (hl1 : LegalRange b e r1) (hno1 : r1.stride_ < 0 → rangeStart r1 b ≠ b + (e : Int))
    (e1 : Nat) (he1 : (e1 : Int) = viewLen (rangeStart r1 b) (rangeFinish r1 b e) r1.stride_)
    (hl2 : LegalRange 0 e1 r2) (hno2 : r2.stride_ < 0 → rangeStart r2 0 ≠ 0 + (e1 : Int))
    (e2 : Nat) (he2 : (e2 : Int) = viewLen (rangeStart r2 0) (rangeFinish r2 0 e1) r2.stride_) :
    LegalRange b e (composeRange r1 b r2 e2) ∧
    (composeRange r1 b r2 e2).degenerate_ = false ∧
    (composeRange r1 b r2 e2).stride_ = r1.stride_ * r2.stride_ ∧
    viewLen (rangeStart (composeRange r1 b r2 e2) b) (rangeFinish (composeRange r1 b r2 e2) b e)
      (composeRange r1 b r2 e2).stride_ = (e2 : Int) ∧
    (0 < e2 → rangeStart (composeRange r1 b r2 e2) b = rangeStart r1 b + rangeStart r2 0 * r1.stride_) := by
  have ht1 := hl1.1
  have ht2 := hl2.1
  have ht : r1.stride_ * r2.stride_ ≠ 0 := Int.mul_ne_zero ht1 ht2
  cases e2 with
  | zero =>
    simp only [composeRange, IndexRange.mk3]
    have hpos : r1.stride_ * r2.stride_ < 0 → 0 < e := by
      intro hneg
      rcases Nat.eq_zero_or_pos e with h0 | h0
      · exfalso
        subst h0
        have p1 : 0 < r1.stride_ := by
          rcases Int.lt_or_lt_of_ne ht1 with h | h
          · have h2 := hno1 h; have h3 := hl1.2.1; simp only [Int.add_zero, Nat.cast_zero] at h2 h3; omega
          · exact h
        have e10 : e1 = 0 := by
          have h3 := hl1.2.1
          have h4 := hl1.2.2
          simp only [show ¬ r1.stride_ < 0 by omega, if_false, Nat.cast_zero, Int.add_zero] at h3 h4
          rw [show rangeStart r1 b = b by omega, show rangeFinish r1 b 0 = b by omega, viewLen_self b _ ht1] at he1
          omega
        subst e10
        have p2 : 0 < r2.stride_ := by
          rcases Int.lt_or_lt_of_ne ht2 with h | h
          · have h2 := hno2 h; have h3 := hl2.2.1; simp only [Int.add_zero, Nat.cast_zero] at h2 h3; omega
          · exact h
        have := Int.mul_pos p1 p2
        omega
      · exact h0
    have hst : rangeStart ⟨b, b, r1.stride_ * r2.stride_, false⟩ b = b := rangeStart_of_mem hb1 (by omega)
    have hfi : rangeFinish ⟨b, b, r1.stride_ * r2.stride_, false⟩ b e = b := rangeFinish_of_le hb2 (by omega)
    refine ⟨⟨ht, ?_, ?_⟩, trivial, trivial, ?_, by omega⟩
    · rw [hst]; omega
    · rw [hfi]
      by_cases hneg : r1.stride_ * r2.stride_ < 0
      · have := hpos hneg; simp only [hneg, if_true]; omega
      · simp only [hneg, if_false]; omega
    · rw [hst, hfi, viewLen_self b _ ht]; rfl
  | succ m =>
    simp only [composeRange, IndexRange.mk3]
    -- the first and the last selected index are in range
    have mem : ∀ k : Int, 0 ≤ k → k ≤ (m : Int) →
        b ≤ rangeStart r1 b + (rangeStart r2 0 + k * r2.stride_) * r1.stride_ ∧
        rangeStart r1 b + (rangeStart r2 0 + k * r2.stride_) * r1.stride_ < b + (e : Int) := by
      intro k h0 hk
      have h1 := range_contained hl2 hno2 k h0 (by rw [← he2]; push_cast; omega)
      exact range_contained hl1 hno1 _ (by omega) (by rw [← he1]; omega)
    have hfirst := mem 0 (by omega) (by omega)
    have hlast := mem m (by omega) (by omega)
    simp only [Int.zero_mul, Int.add_zero] at hfirst
    have hlast_eq : rangeStart r1 b + (rangeStart r2 0 + (m : Int) * r2.stride_) * r1.stride_ =
        rangeStart r1 b + rangeStart r2 0 * r1.stride_ + (m : Int) * (r1.stride_ * r2.stride_) := by ring
    rw [hlast_eq] at hlast
    generalize hS : rangeStart r1 b + rangeStart r2 0 * r1.stride_ = S at *
    generalize hT : r1.stride_ * r2.stride_ = T at *
    have hsg : sgn T = 1 ∧ 0 < T ∨ sgn T = -1 ∧ T < 0 := by
      unfold sgn
      by_cases h : 0 < T
      · simp [h]
      · right; simp only [h, if_false, true_and]; omega
    have hst : rangeStart ⟨S, S + (m : Int) * T + sgn T, T, false⟩ b = S := rangeStart_of_mem hb1 hfirst.1
    have hfi : rangeFinish ⟨S, S + (m : Int) * T + sgn T, T, false⟩ b e = S + (m : Int) * T + sgn T :=
      rangeFinish_of_le hb2 (by rcases hsg with h | h <;> rw [h.1] <;> omega)
    refine ⟨⟨ht, ?_, ?_⟩, trivial, trivial, ?_, fun _ => hst⟩
    · rw [hst]; omega
    · rw [hfi]
      rcases hsg with h | h
      · rw [h.1]; simp only [show ¬ T < 0 by omega, if_false]; omega
      · rw [h.1]; simp only [h.2, if_true]; omega
    · rw [hst, hfi, viewLen_exact S T ht m]; push_cast; rfl

theorem single_spec (hb1 : -(2 ^ 63) ≤ b) (hb2 : b + (e : Int) ≤ 2 ^ 63 - 1) (s : Int) (h1 : b ≤ s)
    (h2 : s < b + (e : Int)) : LegalRange b e (IndexRange.single s) ∧ rangeStart (IndexRange.single s) b = s := by
  have hst : rangeStart (IndexRange.single s) b = s := rangeStart_of_mem hb1 h1
  have hfi : rangeFinish (IndexRange.single s) b e = s + 1 := rangeFinish_of_le hb2 (by omega)
  refine ⟨⟨by simp [IndexRange.single], ?_, ?_⟩, hst⟩
  · rw [hst]; omega
  · rw [hfi]; simp only [IndexRange.single, show ¬ (1 : Int) < 0 by omega, if_false]; omega

/-- A legal integer index is in range. -/
theorem single_mem {i : Int} (hi1 : -(2 ^ 63) < i) (hi2 : i < 2 ^ 63 - 2) (hl : LegalRange b e (IndexRange.single i)) :
    rangeStart (IndexRange.single i) b = i ∧ b ≤ i ∧ i < b + (e : Int) := by
  obtain ⟨_, h1, h2⟩ := hl
  have hst : rangeStart (IndexRange.single i) b = i := by
    simp only [rangeStart, IndexRange.single, show ¬ i = -(2 ^ 63) by omega, if_false]
  have hfi : rangeFinish (IndexRange.single i) b e = i + 1 := by
    simp only [rangeFinish, IndexRange.single, show ¬ i + 1 = 2 ^ 63 - 1 by omega, if_false]
  rw [hst] at h1
  rw [hfi] at h2
  simp only [IndexRange.single, show ¬ (1 : Int) < 0 by omega, if_false] at h2
  exact ⟨hst, by omega, by omega⟩

end ComposeOne

/-- Integer entries within the 64-bit markers. -/
def GoodDeg (rs : List IndexRange) : Prop :=
  ∀ r ∈ rs, r.degenerate_ = true → ∃ i : Int, -(2 ^ 63) < i ∧ i < 2 ^ 63 - 2 ∧ r = IndexRange.single i

theorem compose_lists (rs1 : List IndexRange) (bs : List Int) (es : List Nat) (ss : List Int) (rs2 : List IndexRange)
    (hrep : Representable bs es) (hl1 : LegalRanges bs es rs1) (hno1 : NoOverrun bs es rs1) (hd1 : GoodDeg rs1)
    (hs : ss.length = es.length)
    (es1 : List Nat) (hes1 : es1 = (selExtents rs1 bs es).map Int.toNat)
    (hl2 : LegalRanges (List.replicate es1.length 0) es1 rs2) (hno2 : NoOverrun (List.replicate es1.length 0) es1 rs2)
    (hd2 : GoodDeg rs2)
    (es2 : List Nat) (hes2 : es2 = (selExtents rs2 (List.replicate es1.length 0) es1).map Int.toNat) :
    LegalRanges bs es (composeRanges rs1 bs rs2 es2) ∧
    numRanged (composeRanges rs1 bs rs2 es2) = numRanged rs2 ∧
    (selExtents (composeRanges rs1 bs rs2 es2) bs es).map Int.toNat = es2 ∧
    selStrides (composeRanges rs1 bs rs2 es2) ss = selStrides rs2 (selStrides rs1 ss) ∧
    ∀ j, InBox (List.replicate es2.length 0) es2 j →
      selected (composeRanges rs1 bs rs2 es2) bs j =
        selected rs1 bs (selected rs2 (List.replicate es1.length 0) j) := by
  induction rs1 generalizing bs es ss rs2 es1 es2 with
  | nil =>
    obtain ⟨l1, l2⟩ := hl1.length
    match es, bs, l1, l2, ss, hs with
    | [], [], _, _, [], _ =>
      simp [selExtents] at hes1
      subst hes1
      obtain ⟨l3, _⟩ := hl2.length
      match rs2, l3 with
      | [], _ =>
        simp [selExtents] at hes2
        subst hes2
        simp [composeRanges, LegalRanges, selExtents, selStrides, selected]
  | cons r1 rs1 ih =>
    obtain ⟨l1, l2⟩ := hl1.length
    match es, bs, l1, l2, ss, hs, hl1, hno1, hrep with
    | e :: es, b :: bs, _, _, s :: ss, hs, hl1, hno1, hrep =>
      have hd1' : GoodDeg rs1 := fun r hr => hd1 r (by simp [hr])
      have ih' := ih bs es ss
      cases hdeg1 : r1.degenerate_ with
      | true =>
        simp only [selExtents, hdeg1, if_true] at hes1
        obtain ⟨a1, a2, a3, a4, a5⟩ := ih' rs2 hrep.2.2 hl1.2 hno1.2 hd1' (by simpa using hs) es1 hes1 hl2 hno2 hd2 es2 hes2
        refine ⟨?_, ?_, ?_, ?_, ?_⟩
        · simp only [composeRanges, hdeg1, if_true, LegalRanges]; exact ⟨hl1.1, a1⟩
        · simp only [composeRanges, hdeg1, if_true, numRanged_cons, a2, Nat.zero_add]
        · simp only [composeRanges, hdeg1, if_true, selExtents]; exact a3
        · simp only [composeRanges, hdeg1, if_true, selStrides]; exact a4
        · intro j hj
          simp only [composeRanges, hdeg1, if_true, selected]
          rw [a5 j hj]
      | false =>
        simp only [selExtents, hdeg1, Bool.false_eq_true, if_false, List.map_cons] at hes1
        obtain ⟨e1, es1', rfl⟩ : ∃ x xs, es1 = x :: xs := ⟨_, _, hes1⟩
        simp only [List.cons.injEq] at hes1
        obtain ⟨he1, hes1'⟩ := hes1
        have he1' : (e1 : Int) = viewLen (rangeStart r1 b) (rangeFinish r1 b e) r1.stride_ := by
          have := viewLen_nonneg (rangeStart r1 b) (rangeFinish r1 b e) r1.stride_ hl1.1.1
          omega
        obtain ⟨l3, _⟩ := hl2.length
        match rs2, l3, hl2, hno2 with
        | r2 :: rs2, _, hl2, hno2 =>
          simp only [List.length_cons, List.replicate_succ, LegalRanges, NoOverrun] at hl2 hno2
          have hd2' : GoodDeg rs2 := fun r hr => hd2 r (by simp [hr])
          cases hdeg2 : r2.degenerate_ with
          | true =>
            simp only [List.length_cons, List.replicate_succ, selExtents, hdeg2, if_true] at hes2
            obtain ⟨a1, a2, a3, a4, a5⟩ := ih' rs2 hrep.2.2 hl1.2 hno1.2 hd1' (by simpa using hs) es1' hes1' hl2.2 hno2.2
              hd2' es2 hes2
            obtain ⟨i, hi1, hi2, rfl⟩ := hd2 r2 (by simp) hdeg2
            obtain ⟨b1, b2, b3⟩ := single_mem hi1 hi2 hl2.1
            have hmem := range_contained hl1.1 hno1.1 i b2 (by rw [← he1']; omega)
            obtain ⟨c1, c2⟩ := single_spec hrep.1 hrep.2.1 _ hmem.1 hmem.2
            refine ⟨?_, ?_, ?_, ?_, ?_⟩
            · simp only [composeRanges, hdeg1, hdeg2, Bool.false_eq_true, if_false, if_true, LegalRanges, b1]
              exact ⟨c1, a1⟩
            · simp only [composeRanges, hdeg1, hdeg2, Bool.false_eq_true, if_false, if_true, numRanged_cons, a2,
                show ∀ s, (IndexRange.single s).degenerate_ = true from fun _ => rfl]
            · simp only [composeRanges, hdeg1, hdeg2, Bool.false_eq_true, if_false, if_true, selExtents,
                show ∀ s, (IndexRange.single s).degenerate_ = true from fun _ => rfl]; exact a3
            · simp only [composeRanges, hdeg1, hdeg2, Bool.false_eq_true, if_false, if_true, selStrides,
                show ∀ s, (IndexRange.single s).degenerate_ = true from fun _ => rfl]; exact a4
            · intro j hj
              simp only [composeRanges, hdeg1, hdeg2, Bool.false_eq_true, if_false, if_true, selected,
                List.length_cons, List.replicate_succ,
                show ∀ s, (IndexRange.single s).degenerate_ = true from fun _ => rfl]
              rw [a5 j hj, b1]
              rw [c2]
          | false =>
            simp only [List.length_cons, List.replicate_succ, selExtents, hdeg2, Bool.false_eq_true, if_false,
              List.map_cons] at hes2
            obtain ⟨e2, es2', rfl⟩ : ∃ x xs, es2 = x :: xs := ⟨_, _, hes2⟩
            simp only [List.cons.injEq] at hes2
            obtain ⟨he2, hes2'⟩ := hes2
            have he2' : (e2 : Int) = viewLen (rangeStart r2 0) (rangeFinish r2 0 e1) r2.stride_ := by
              have := viewLen_nonneg (rangeStart r2 0) (rangeFinish r2 0 e1) r2.stride_ hl2.1.1
              omega
            obtain ⟨a1, a2, a3, a4, a5⟩ := ih' rs2 hrep.2.2 hl1.2 hno1.2 hd1' (by simpa using hs) es1' hes1' hl2.2 hno2.2
              hd2' es2' hes2'
            obtain ⟨c1, c2, c3, c4, c5⟩ := composeRange_spec hrep.1 hrep.2.1 hl1.1 hno1.1 e1 he1' hl2.1 hno2.1 e2 he2'
            refine ⟨?_, ?_, ?_, ?_, ?_⟩
            · simp only [composeRanges, hdeg1, hdeg2, Bool.false_eq_true, if_false, LegalRanges]
              exact ⟨c1, a1⟩
            · simp only [composeRanges, hdeg1, hdeg2, Bool.false_eq_true, if_false, numRanged_cons, a2, c2]
            · simp only [composeRanges, hdeg1, hdeg2, Bool.false_eq_true, if_false, selExtents, c2, List.map_cons, a3, c4]
              simp
            · simp only [composeRanges, hdeg1, hdeg2, Bool.false_eq_true, if_false, selStrides, c2, c3, a4]
              congr 1
              ring
            · intro j hj
              match j, hj with
              | x :: xs, hj =>
                obtain ⟨j1, j2, j3⟩ := hj
                simp only [composeRanges, hdeg1, hdeg2, Bool.false_eq_true, if_false, selected, c2,
                  List.length_cons, List.replicate_succ]
                rw [a5 xs j3, c5 (by omega), c3]
                congr 1
                ring

end MultiArray
