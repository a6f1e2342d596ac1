import Verif.Spec
import Mathlib.Tactic.Ring
import Mathlib.Algebra.BigOperators.Group.List.Basic

set_option autoImplicit false

namespace MultiArray
open Spec

theorem foldl_mul (l : List Nat) (a : Nat) : l.foldl (· * ·) a = a * l.prod := by
  induction l generalizing a with
  | nil => simp
  | cons x xs ih => simp [ih, Nat.mul_assoc]

theorem product_eq (l : List Nat) : product l = l.prod := by
  simp [product, foldl_mul]

theorem dot_eq_sum (n : Nat) (a b : List Int) (ha : a.length = n) (hb : b.length = n) :
    dot a b = ((List.range n).map (fun d => a.getD d 0 * b.getD d 0)).sum := by
  induction n generalizing a b with
  | zero =>
    have : a = [] := by simpa using ha
    subst this; simp [dot]
  | succ n ih =>
    match a, b, ha, hb with
    | x :: xs, y :: ys, ha, hb =>
      rw [List.range_succ_eq_map]
      simp only [dot, List.map_cons, List.map_map, List.sum_cons, List.getD_cons_zero]
      rw [ih xs ys (by simpa using ha) (by simpa using hb)]
      rfl

theorem Spec.InBox.length {bs : List Int} {es : List Nat} {is : List Int} (h : InBox bs es is) :
    is.length = es.length ∧ bs.length = es.length := by
  induction bs generalizing es is with
  | nil => match es, is, h with
    | [], [], _ => simp
  | cons b bs ih => match es, is, h with
    | e :: es, i :: is, h => have := ih h.2.2; simp [this.1, this.2]

theorem Spec.InBox.get {bs : List Int} {es : List Nat} {is : List Int} (h : InBox bs es is) (d : Nat)
    (hd : d < es.length) :
    bs.getD d 0 ≤ is.getD d 0 ∧ is.getD d 0 < bs.getD d 0 + (es.getD d 0 : Int) := by
  induction bs generalizing es is d with
  | nil => match es, is, h with
    | [], [], _ => simp at hd
  | cons b bs ih => match es, is, h with
    | e :: es, i :: is, h =>
      cases d with
      | zero => simpa using ⟨h.1, h.2.1⟩
      | succ d => simpa using ih h.2.2 d (by simpa using hd)

theorem inBox_of_get {bs : List Int} {es : List Nat} {is : List Int} (hb : bs.length = es.length)
    (hi : is.length = es.length)
    (h : ∀ d, d < es.length → bs.getD d 0 ≤ is.getD d 0 ∧ is.getD d 0 < bs.getD d 0 + (es.getD d 0 : Int)) :
    InBox bs es is := by
  induction bs generalizing es is with
  | nil => match es, is, hb, hi with
    | [], [], _, _ => trivial
  | cons b bs ih => match es, is, hb, hi with
    | e :: es, i :: is, hb, hi =>
      refine ⟨by simpa using (h 0 (by simp)).1, by simpa using (h 0 (by simp)).2, ?_⟩
      apply ih (by simpa using hb) (by simpa using hi)
      intro d hd
      simpa using h (d+1) (by simpa using hd)

end MultiArray
