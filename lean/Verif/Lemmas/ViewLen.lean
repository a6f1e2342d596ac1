import Verif.Lemmas.Basic

/- The extent of a view dimension (base.hpp:440-450). -/
set_option autoImplicit false

namespace MultiArray
open Spec

theorem viewLen_pos (s f t : Int) (ht : 0 < t) (k : Nat) : (k : Int) < viewLen s f t ↔ s + (k : Int) * t < f := by
  unfold viewLen
  have hk : 0 ≤ (k : Int) * t := Int.mul_nonneg (by omega) (by omega)
  by_cases hneg : Int.tdiv (f - s) t < 0
  · simp only [hneg, if_true]
    have : f - s < 0 := by
      rcases Int.lt_or_le (f - s) 0 with h | h
      · exact h
      · have := Int.tdiv_nonneg h (by omega : 0 ≤ t); omega
    constructor <;> intro h <;> omega
  · simp only [hneg, if_false, ht, if_true]
    have hge : 0 ≤ f - s + (t - 1) := by
      rcases Int.lt_or_le (f - s + (t - 1)) 0 with h | h
      · exfalso
        apply hneg
        have h1 : Int.tdiv (f - s) t = -(Int.tdiv (-(f - s)) t) := by rw [Int.neg_tdiv]; omega
        rw [h1, Int.tdiv_eq_ediv_of_nonneg (by omega)]
        have : 1 ≤ -(f - s) / t := by rw [Int.le_ediv_iff_mul_le ht]; omega
        omega
      · exact h
    rw [Int.tdiv_eq_ediv_of_nonneg hge]
    have : (k : Int) < (f - s + (t - 1)) / t ↔ (k : Int) + 1 ≤ (f - s + (t - 1)) / t := by omega
    rw [this, Int.le_ediv_iff_mul_le ht, Int.add_mul]
    constructor <;> intro h <;> omega

theorem viewLen_neg_eq (s f t : Int) (ht : t < 0) : viewLen s f t = viewLen (-s) (-f) (-t) := by
  unfold viewLen
  have h1 : Int.tdiv (f - s) t = Int.tdiv (-f - -s) (-t) := by
    rw [Int.tdiv_neg, ← Int.neg_tdiv]; congr 1; ring
  rw [h1]
  by_cases hneg : Int.tdiv (-f - -s) (-t) < 0
  · simp only [hneg, if_true]
  · have a1 : ¬ t > 0 := by omega
    have a2 : -t > 0 := by omega
    simp only [hneg, if_false, a1, a2, if_true]
    rw [Int.tdiv_neg, ← Int.neg_tdiv]; congr 1; ring

/-- The view length counts exactly the `k ≥ 0` with `s + k*t` before `f`. -/
theorem viewLen_iff (s f t : Int) (ht : t ≠ 0) (k : Nat) :
    (k : Int) < viewLen s f t ↔ Before t (s + (k : Int) * t) f := by
  unfold Before
  by_cases h : 0 < t
  · simp only [h, if_true]; exact viewLen_pos s f t h k
  · simp only [h, if_false]
    rw [viewLen_neg_eq s f t (by omega), viewLen_pos _ _ _ (by omega), Int.mul_neg]
    constructor <;> intro h <;> omega

theorem viewLen_nonneg (s f t : Int) (ht : t ≠ 0) : 0 ≤ viewLen s f t := by
  unfold viewLen
  split
  · omega
  · rename_i hneg
    by_cases h : 0 < t
    · simp only [h, if_true]
      rcases Int.lt_or_le (f - s + (t - 1)) 0 with hlt | hle
      · exfalso
        apply hneg
        have h1 : Int.tdiv (f - s) t = -(Int.tdiv (-(f - s)) t) := by rw [Int.neg_tdiv]; omega
        rw [h1, Int.tdiv_eq_ediv_of_nonneg (by omega)]
        have : 1 ≤ -(f - s) / t := by rw [Int.le_ediv_iff_mul_le h]; omega
        omega
      · exact Int.tdiv_nonneg hle (by omega)
    · have h' : ¬ t > 0 := by omega
      simp only [h', if_false]
      have e : Int.tdiv (f - s + (t - -1)) t = Int.tdiv (-(f - s + (t - -1))) (-t) := by
        rw [Int.tdiv_neg, Int.neg_tdiv]; omega
      rw [e]
      rcases Int.lt_or_le (-(f - s + (t - -1))) 0 with hlt | hle
      · exfalso
        apply hneg
        have h1 : Int.tdiv (f - s) t = -(Int.tdiv (f - s) (-t)) := by rw [Int.tdiv_neg]; omega
        rw [h1, Int.tdiv_eq_ediv_of_nonneg (by omega)]
        have : 1 ≤ (f - s) / (-t) := by rw [Int.le_ediv_iff_mul_le (by omega)]; omega
        omega
      · exact Int.tdiv_nonneg hle (by omega)

end MultiArray
