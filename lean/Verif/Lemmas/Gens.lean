import Verif.Lemmas.View

/- Chaining of the generators. -/
set_option autoImplicit false

namespace MultiArray
open Spec

/-- The generator state: `numRanges` entries, but one dummy entry when there are none. -/
def genList {α : Type} (dflt : α) (l : List α) : List α := if l = [] then [dflt] else l

theorem push_spec {α : Type} (dflt : α) (l : List α) (r : α) :
    copyPrefix (genList dflt l) (rangeList dflt (l.length + 1)) >>= (fun rs => Res.ok (setLast rs r)) =
      .ok (l ++ [r]) := by
  unfold copyPrefix rangeList genList
  cases l with
  | nil => simp [setLast]
  | cons x xs =>
    have : (x :: xs).length ≤ (x :: xs).length + 1 := by omega
    simp only [List.cons_ne_nil, ↓reduceIte, List.length_cons, Nat.add_eq_zero_iff, one_ne_zero, and_false,
      List.length_replicate, setLast, List.drop_replicate]
    rw [if_pos (by omega), show xs.length + 1 + 1 - (xs.length + 1) = 1 by omega]
    simp only [Res.bind_ok, Res.ok.injEq, List.replicate_one]
    rw [show (x :: xs ++ [dflt]).length - 1 = (x :: xs).length by simp, List.set_append_right _ _ (by simp)]
    simp

/-- The index generator holding `xs`. -/
def idxGen (xs : List IndexArg) : IndexGen :=
  ⟨xs.length, (xs.filter IndexArg.isRange).length, genList IndexRange.default (xs.map IndexArg.toRange)⟩

theorem genList_append {α : Type} (dflt : α) (l : List α) (r : α) : genList dflt (l ++ [r]) = l ++ [r] := by
  simp [genList]

theorem idxGen_pushRange (xs : List IndexArg) (r : IndexRange) :
    (idxGen xs).pushRange r = .ok (idxGen (xs ++ [.range r])) := by
  have := push_spec IndexRange.default (xs.map IndexArg.toRange) r
  unfold IndexGen.pushRange idxGen
  simp only [List.length_map] at this
  cases hc : copyPrefix (genList IndexRange.default (List.map IndexArg.toRange xs))
    (rangeList IndexRange.default (xs.length + 1)) with
  | ok rs =>
    rw [hc] at this
    simp only [Res.bind_ok, Res.ok.injEq] at this
    simp [this, genList_append, IndexArg.toRange, List.filter, IndexArg.isRange]
  | assertFail => rw [hc] at this; cases this
  | ub => rw [hc] at this; cases this

theorem idxGen_pushIdx (xs : List IndexArg) (i : Int) :
    (idxGen xs).pushIdx i = .ok (idxGen (xs ++ [.index i])) := by
  have := push_spec IndexRange.default (xs.map IndexArg.toRange) (IndexRange.single i)
  unfold IndexGen.pushIdx idxGen
  simp only [List.length_map] at this
  cases hc : copyPrefix (genList IndexRange.default (List.map IndexArg.toRange xs))
    (rangeList IndexRange.default (xs.length + 1)) with
  | ok rs =>
    rw [hc] at this
    simp only [Res.bind_ok, Res.ok.injEq] at this
    simp only [IndexRange.single] at this
    simp [this, genList_append, IndexArg.toRange, IndexArg.isRange, IndexRange.single]
  | assertFail => rw [hc] at this; cases this
  | ub => rw [hc] at this; cases this

theorem chainIndices_eq (ys xs : List IndexArg) : chainIndices (idxGen ys) xs = .ok (idxGen (ys ++ xs)) := by
  induction xs generalizing ys with
  | nil => simp [chainIndices]
  | cons x xs ih =>
    cases x with
    | range r => simp only [chainIndices, idxGen_pushRange, Res.bind_ok, ih]; simp
    | index i => simp only [chainIndices, idxGen_pushIdx, Res.bind_ok, ih]; simp

/-- The extent generator holding `xs`. -/
def extGen (xs : List ExtentArg) : ExtentGen :=
  ⟨xs.length, genList ExtentRange.default (xs.map ExtentArg.toRange)⟩

theorem extGen_push (xs : List ExtentArg) (r : ExtentRange) (x : ExtentArg) (hx : x.toRange = r) :
    (extGen xs).push r = .ok (extGen (xs ++ [x])) := by
  have := push_spec ExtentRange.default (xs.map ExtentArg.toRange) r
  unfold ExtentGen.push extGen
  simp only [List.length_map] at this
  cases hc : copyPrefix (genList ExtentRange.default (List.map ExtentArg.toRange xs))
    (rangeList ExtentRange.default (xs.length + 1)) with
  | ok rs =>
    rw [hc] at this
    simp only [Res.bind_ok, Res.ok.injEq] at this
    simp [this, genList_append, hx]
  | assertFail => rw [hc] at this; cases this
  | ub => rw [hc] at this; cases this

theorem chainExtents_eq (ys xs : List ExtentArg) : chainExtents (extGen ys) xs = .ok (extGen (ys ++ xs)) := by
  induction xs generalizing ys with
  | nil => simp [chainExtents]
  | cons x xs ih =>
    cases x with
    | range r => simp only [chainExtents, extGen_push _ r (.range r) rfl, Res.bind_ok, ih]; simp
    | count n =>
      simp only [chainExtents, ExtentGen.pushIdx, ExtentRange.mk2, extGen_push _ ⟨0, n⟩ (.count n) rfl, Res.bind_ok, ih]
      simp

/-- Every generator a program can write is the chain of its arguments. -/
theorem Spec.Built.exists_args {g : IndexGen} (h : Built g) :
    ∃ xs : List IndexArg, g = idxGen xs ∧ ∀ i, .index i ∈ xs → -(2 ^ 63) < i ∧ i < 2 ^ 63 - 2 := by
  induction h with
  | empty => exact ⟨[], rfl, by simp⟩
  | range _ hp ih =>
    obtain ⟨xs, rfl, hx⟩ := ih
    rw [idxGen_pushRange] at hp
    cases hp
    refine ⟨_, rfl, ?_⟩
    intro i hi
    simp at hi
    exact hx i hi
  | index _ h1 h2 hp ih =>
    obtain ⟨xs, rfl, hx⟩ := ih
    rw [idxGen_pushIdx] at hp
    cases hp
    refine ⟨_, rfl, ?_⟩
    intro i hi
    simp at hi
    rcases hi with hi | rfl
    · exact hx i hi
    · exact ⟨h1, h2⟩

theorem numRanged_args (xs : List IndexArg) :
    numRanged (xs.map IndexArg.toRange) ≤ (xs.filter IndexArg.isRange).length ∧
    (numRanged (xs.map IndexArg.toRange) = (xs.filter IndexArg.isRange).length →
      ∀ r, IndexArg.range r ∈ xs → r.degenerate_ = false) := by
  induction xs with
  | nil => simp [numRanged]
  | cons x xs ih =>
    rw [List.map_cons]
    cases x with
    | index i =>
      rw [numRanged_cons]
      simp only [IndexArg.toRange, IndexArg.isRange, Bool.false_eq_true, not_false_eq_true, List.filter_cons_of_neg,
        if_true, Nat.zero_add]
      refine ⟨ih.1, fun h r hr => ?_⟩
      simp at hr
      exact ih.2 h r hr
    | range r =>
      have hf : (List.filter IndexArg.isRange (IndexArg.range r :: xs)).length =
          (List.filter IndexArg.isRange xs).length + 1 := by simp [List.filter, IndexArg.isRange]
      rw [hf, show IndexArg.toRange (.range r) = r from rfl, numRanged_cons]
      by_cases hd : r.degenerate_ = true
      · rw [if_pos hd]
        exact ⟨by omega, fun h => by omega⟩
      · rw [if_neg hd]
        refine ⟨by omega, fun h r' hr' => ?_⟩
        simp at hr'
        rcases hr' with rfl | hr'
        · simpa using hd
        · exact ih.2 (by omega) r' hr'

theorem Spec.Built.degenerate {g : IndexGen} (h : Built g) (hlen : g.ranges.length ≠ 0)
    (hn : numRanged g.ranges = g.numDims) :
    ∀ r ∈ g.ranges, r.degenerate_ = true → ∃ i : Int, -(2 ^ 63) < i ∧ i < 2 ^ 63 - 2 ∧ r = IndexRange.single i := by
  obtain ⟨xs, rfl, hx⟩ := h.exists_args
  intro r hr hdeg
  simp only [idxGen, genList] at hr hn
  by_cases hxs : List.map IndexArg.toRange xs = []
  · rw [if_pos hxs] at hr
    simp only [List.mem_singleton] at hr
    subst hr
    simp [IndexRange.default] at hdeg
  · rw [if_neg hxs] at hr hn
    have := (numRanged_args xs).2 hn
    obtain ⟨x, hxm, rfl⟩ := List.mem_map.mp hr
    cases x with
    | range r' => simp only [IndexArg.toRange] at hdeg; rw [this r' hxm] at hdeg; cases hdeg
    | index i => exact ⟨i, (hx i hxm).1, (hx i hxm).2, rfl⟩

end MultiArray
