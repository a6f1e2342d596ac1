import Verif.Props.Access
import Verif.Lemmas.ViewLen

/- Property theorems C43-C46: generators, index_range syntax, storage order objects; C09 for views. -/
set_option autoImplicit false

namespace MultiArray.Props
open MultiArray MultiArray.Spec

/-! ### C43 -/

/-- **C43.** `indices[x1]...[xN]` (N ≥ 1) holds exactly the ranges `x1..xN`, an integer `i` being the degenerate range
of just `i`, and creates a view whose dimension is the number of non-integer entries. -/
theorem C43_indices_chain (xs : List IndexArg) (hne : xs ≠ []) :
    ∃ g, chainIndices IndexGen.empty xs = .ok g ∧ g.ranges = xs.map IndexArg.toRange ∧
      g.numRanges = xs.length ∧ g.numDims = (xs.filter IndexArg.isRange).length := by
  have h := chainIndices_eq [] xs
  refine ⟨idxGen xs, h, ?_, rfl, rfl⟩
  simp [idxGen, genList, hne]

/-- **C43.** An intermediate generator can be stored and extended in two different ways: each extension holds the
prefix followed by its own entries. -/
theorem C43_indices_prefix_reusable (xs ys zs : List IndexArg) (g : IndexGen)
    (hg : chainIndices IndexGen.empty xs = .ok g) :
    chainIndices g ys = chainIndices IndexGen.empty (xs ++ ys) ∧
    chainIndices g zs = chainIndices IndexGen.empty (xs ++ zs) := by
  have h := chainIndices_eq [] xs
  rw [show idxGen [] = IndexGen.empty from rfl, hg] at h
  cases h
  have e : ∀ l, chainIndices IndexGen.empty l = .ok (idxGen l) := fun l => chainIndices_eq [] l
  simp only [List.nil_append]
  rw [chainIndices_eq, chainIndices_eq, e, e]
  exact ⟨rfl, rfl⟩

/-- **C43.** `extents[x1]...[xN]` (N ≥ 1) holds exactly the ranges `x1..xN`, a plain extent `n` being `[0,n)`. -/
theorem C43_extents_chain (xs : List ExtentArg) (hne : xs ≠ []) :
    ∃ g, chainExtents ExtentGen.empty xs = .ok g ∧ g.ranges = xs.map ExtentArg.toRange ∧
      g.numRanges = xs.length := by
  have h := chainExtents_eq [] xs
  refine ⟨extGen xs, h, ?_, rfl⟩
  simp [extGen, genList, hne]

/-- **C43.** `extent_range(n)`, `extent_range(0, n)` and the plain extent `n` are the same entry. -/
theorem C43_extent_range_forms (g : ExtentGen) (n : Int) :
    g.push (ExtentRange.mk1 n) = g.pushIdx n ∧ g.push (ExtentRange.mk2 0 n) = g.pushIdx n ∧
    (ExtentRange.mk1 n).start = 0 ∧ (ExtentRange.mk1 n).finish = n := ⟨rfl, rfl, rfl, rfl⟩

/-- **C43.** The same reuse law for extent generators. -/
theorem C43_extents_prefix_reusable (xs ys zs : List ExtentArg) (g : ExtentGen)
    (hg : chainExtents ExtentGen.empty xs = .ok g) :
    chainExtents g ys = chainExtents ExtentGen.empty (xs ++ ys) ∧
    chainExtents g zs = chainExtents ExtentGen.empty (xs ++ zs) := by
  have h := chainExtents_eq [] xs
  rw [show extGen [] = ExtentGen.empty from rfl, hg] at h
  cases h
  have e : ∀ l, chainExtents ExtentGen.empty l = .ok (extGen l) := fun l => chainExtents_eq [] l
  simp only [List.nil_append]
  rw [chainExtents_eq, chainExtents_eq, e, e]
  exact ⟨rfl, rfl⟩

/-- Start and length written in an `extents[...]` entry. -/
def entryStart : ExtentArg → Int
  | .range r => r.first
  | .count _ => 0
def entryLength : ExtentArg → Int
  | .range r => r.second - r.first
  | .count n => n

/-- **C43.** An array constructed with `extents[x1]...[xN]` has exactly the written index bases and extents. -/
theorem C43_extents_array (xs : List ExtentArg) (hne : xs ≠ [])
    (hlen : ∀ x ∈ xs, 0 ≤ entryLength x ∧ entryLength x < 2 ^ 64)
    (p : Ptr) (so : StorageOrder) (hso : ValidOrder xs.length so) :
    ∃ g a, chainExtents ExtentGen.empty xs = .ok g ∧ ARef.ofExtentGen p g so = .ok a ∧
      a.bases = xs.map entryStart ∧ a.extents.map (fun (e : Nat) => (e : Int)) = xs.map entryLength ∧ a.storage = so ∧
      a.data = p := by
  obtain ⟨g, hg, hr, hn⟩ := C43_extents_chain xs hne
  have hl : (g.ranges.map ExtentRange.size).length = g.numRanges := by rw [hr, hn]; simp
  obtain ⟨a, ha, h1, h2, h3, h4⟩ : ∃ a, ARef.ofExtentGen p g so = .ok a ∧ a.bases = g.ranges.map ExtentRange.start ∧
      a.extents = g.ranges.map ExtentRange.size ∧ a.storage = so ∧ a.base = p := by
    unfold ARef.ofExtentGen ARef.init
    rw [copyN_self hl, Res.bind_ok]
    obtain ⟨sl, hsl, _⟩ := csLoop_ok so.ascending (g.ranges.map ExtentRange.size) g.numRanges
      (by rw [hn]; exact hso.2) hl so.ordering 1 (List.replicate g.numRanges 0) (by simp)
      (fun d hd => by have := hso.1.mem_iff.mp hd; rw [hn]; simpa using this)
    simp only [computeStrides, hsl, Res.bind_ok]
    exact ⟨_, rfl, rfl, rfl, rfl, rfl⟩
  refine ⟨g, a, hg, ha, ?_, ?_, h3, h4⟩
  · rw [h1, hr, List.map_map]
    apply List.map_congr_left
    intro x _
    cases x <;> rfl
  · rw [h2, hr, List.map_map, List.map_map]
    apply List.map_congr_left
    intro x hx
    have := hlen x hx
    cases x <;>
      simp only [entryLength, Function.comp, ExtentArg.toRange, ExtentRange.size, toSizeT] at this ⊢ <;> omega

example : ∃ g, chainExtents ExtentGen.empty [.range ⟨-1, 3⟩, .count 5] = .ok g ∧ g.ranges = [⟨-1, 3⟩, ⟨0, 5⟩] :=
  ⟨_, rfl, rfl⟩
example : ∃ g, chainIndices IndexGen.empty [.index 2, .range IndexRange.default] = .ok g ∧ g.numDims = 1 ∧
    g.ranges = [⟨2, 3, 1, true⟩, ⟨-2^63, 2^63-1, 1, false⟩] := ⟨_, rfl, rfl, rfl⟩

/-! ### C44 -/

/-- The indices a range denotes: those reached from `start` in steps of `stride`, before `finish`. -/
def Denotes (r : IndexRange) (x : Int) : Prop :=
  (∃ k : Nat, x = r.start_ + (k : Int) * r.stride_) ∧ Before r.stride_ x r.finish_

/-- **C44.** The four inequality forms `s <= r < f`, `s < r < f`, `s <= r <= f`, `s < r <= f` (parsed from the left, as in
C++) set the documented endpoints and keep the stride; the range is not degenerate. -/
theorem C44_inequality_endpoints (r : IndexRange) (s f : Int) :
    (IndexRange.leftClosed s r).rightOpen f = ⟨s, f, r.stride_, false⟩ ∧
    (IndexRange.leftOpen s r).rightOpen f = ⟨s + 1, f, r.stride_, false⟩ ∧
    (IndexRange.leftClosed s r).rightClosed f = ⟨s, f + 1, r.stride_, false⟩ ∧
    (IndexRange.leftOpen s r).rightClosed f = ⟨s + 1, f + 1, r.stride_, false⟩ ∧
    -- parenthesised the other way
    IndexRange.leftClosed s (r.rightOpen f) = ⟨s, f, r.stride_, false⟩ ∧
    IndexRange.leftOpen s (r.rightClosed f) = ⟨s + 1, f + 1, r.stride_, false⟩ ∧
    -- one-sided forms keep the other end
    IndexRange.leftClosed s r = ⟨s, r.finish_, r.stride_, false⟩ ∧
    r.rightOpen f = ⟨r.start_, f, r.stride_, false⟩ ∧
    IndexRange.leftOpen s r = ⟨s + 1, r.finish_, r.stride_, false⟩ ∧
    r.rightClosed f = ⟨r.start_, f + 1, r.stride_, false⟩ :=
  ⟨rfl, rfl, rfl, rfl, rfl, rfl, rfl, rfl, rfl, rfl⟩

/-- **C44.** The setters `start(s)`, `finish(f)`, `stride(t)` give the same range in all six orders, and it is
`index_range(s,f,t)`. -/
theorem C44_setters_commute (r : IndexRange) (s f t : Int) :
    ((r.setStart s).setFinish f).setStride t = IndexRange.mk3 s f t ∧
    ((r.setStart s).setStride t).setFinish f = IndexRange.mk3 s f t ∧
    ((r.setFinish f).setStart s).setStride t = IndexRange.mk3 s f t ∧
    ((r.setFinish f).setStride t).setStart s = IndexRange.mk3 s f t ∧
    ((r.setStride t).setStart s).setFinish f = IndexRange.mk3 s f t ∧
    ((r.setStride t).setFinish f).setStart s = IndexRange.mk3 s f t :=
  ⟨rfl, rfl, rfl, rfl, rfl, rfl⟩

theorem denotes_unit (a b : Int) (x : Int) : Denotes ⟨a, b, 1, false⟩ x ↔ a ≤ x ∧ x < b := by
  simp only [Denotes, Before, Int.zero_lt_one, ↓reduceIte, Int.mul_one]
  constructor
  · rintro ⟨⟨k, rfl⟩, h⟩; exact ⟨by omega, h⟩
  · rintro ⟨h1, h2⟩; exact ⟨⟨(x - a).toNat, by omega⟩, h2⟩

/-- **C44.** For a stride-1 range (such as `index_range()`) the inequality syntax means what it says: exactly the `x`
satisfying the inequalities are denoted. -/
theorem C44_inequality_meaning (r : IndexRange) (hr : r.stride_ = 1) (s f x : Int) :
    (Denotes ((IndexRange.leftClosed s r).rightOpen f) x ↔ s ≤ x ∧ x < f) ∧
    (Denotes ((IndexRange.leftOpen s r).rightOpen f) x ↔ s < x ∧ x < f) ∧
    (Denotes ((IndexRange.leftClosed s r).rightClosed f) x ↔ s ≤ x ∧ x ≤ f) ∧
    (Denotes ((IndexRange.leftOpen s r).rightClosed f) x ↔ s < x ∧ x ≤ f) := by
  simp only [IndexRange.leftClosed, IndexRange.leftOpen, IndexRange.rightOpen, IndexRange.rightClosed, IndexRange.mk3, hr,
    denotes_unit]
  refine ⟨trivial, ?_, ?_, ?_⟩ <;> constructor <;> rintro ⟨h1, h2⟩ <;> constructor <;> omega

/-- **C44.** Each setter alone: `start` and `finish` set their end, keep the other one and the stride, and turn a degenerate range (built from
an integer) into an interval; `stride` changes only the stride. -/
theorem C44_single_setters (r : IndexRange) (x : Int) :
    r.setStart x = ⟨x, r.finish_, r.stride_, false⟩ ∧ r.setFinish x = ⟨r.start_, x, r.stride_, false⟩ ∧
    r.setStride x = ⟨r.start_, r.finish_, x, r.degenerate_⟩ := ⟨rfl, rfl, rfl⟩

/-- **C44.** `set_index_range(s, f, t)` on an interval gives the range `[s, f)` with stride `t` (default 1), whatever the interval was; and
`range::all()` is the default range. -/
theorem C44_set_index_range (r : IndexRange) (hr : r.degenerate_ = false) (s f t : Int) :
    r.setIndexRange s f t = IndexRange.mk3 s f t ∧ r.setIndexRange s f = IndexRange.mk3 s f 1 ∧ IndexRange.all = IndexRange.default := by
  refine ⟨?_, ?_, rfl⟩ <;> simp [IndexRange.setIndexRange, IndexRange.mk3, hr]

/-- The same call on a range object made from an integer leaves it marked as an integer: `range r(1); r.set_index_range(0,3);` then
`a[indices[r]]` fails an assertion (the view type has a dimension that the range does not provide) instead of selecting three
elements, unlike `range(1).start(0).finish(3)`. -/
theorem C44_set_index_range_hazard :
    ∃ a : ARef, Reachable 1 a ∧
      (∃ g, IndexGen.empty.pushRange ((IndexRange.single 1).setIndexRange 0 3) = .ok g ∧ a.slice true g = .assertFail) ∧
      (∃ g v, IndexGen.empty.pushRange (((IndexRange.single 1).setStart 0).setFinish 3) = .ok g ∧ a.slice true g = .ok v ∧ v.extents = [3]) :=
  ⟨_, .ofExtents (n := 1) (p := ⟨1, 0⟩) (exts := [5]) (cOrder_valid 1) rfl, ⟨_, rfl, by decide⟩, _, _, rfl, rfl, by decide⟩

example : (IndexRange.mk3 5 9 2).degenerate_ = false := rfl

/-- **C44.** With any stride: `s <= r < f` denotes, for a positive stride, exactly the `x` with `s ≤ x < f` a whole number of strides from `s`; for
a negative stride, those counted down from `s` and still above `f`. -/
theorem C44_strided_meaning (r : IndexRange) (s f x : Int) :
    (0 < r.stride_ → (Denotes ((IndexRange.leftClosed s r).rightOpen f) x ↔ s ≤ x ∧ x < f ∧ r.stride_ ∣ x - s)) ∧
    (r.stride_ < 0 → (Denotes ((IndexRange.leftClosed s r).rightOpen f) x ↔ x ≤ s ∧ f < x ∧ r.stride_ ∣ x - s)) := by
  have hu : Denotes ((IndexRange.leftClosed s r).rightOpen f) x ↔
      (∃ k : Nat, x = s + (k : Int) * r.stride_) ∧ (if 0 < r.stride_ then x < f else f < x) := Iff.rfl
  rw [hu]
  constructor
  · intro ht
    rw [if_pos ht]
    constructor
    · rintro ⟨⟨k, rfl⟩, h⟩
      have : 0 ≤ (k : Int) * r.stride_ := Int.mul_nonneg (by omega) (by omega)
      exact ⟨by omega, h, ⟨k, by rw [Int.mul_comm]; omega⟩⟩
    · rintro ⟨h1, h2, ⟨c, hc⟩⟩
      have hc0 : 0 ≤ c := by
        by_contra hneg
        have : r.stride_ * c < 0 := Int.mul_neg_of_pos_of_neg ht (by omega)
        omega
      refine ⟨⟨c.toNat, ?_⟩, h2⟩
      rw [Int.toNat_of_nonneg hc0, Int.mul_comm]; omega
  · intro ht
    rw [if_neg (by omega)]
    constructor
    · rintro ⟨⟨k, rfl⟩, h⟩
      have : (k : Int) * r.stride_ ≤ 0 := Int.mul_nonpos_of_nonneg_of_nonpos (by omega) (by omega)
      exact ⟨by omega, h, ⟨k, by rw [Int.mul_comm]; omega⟩⟩
    · rintro ⟨h1, h2, ⟨c, hc⟩⟩
      have hc0 : 0 ≤ c := by
        by_contra hneg
        have : 0 < r.stride_ * c := Int.mul_pos_of_neg_of_neg ht (by omega)
        omega
      refine ⟨⟨c.toNat, ?_⟩, h2⟩
      rw [Int.toNat_of_nonneg hc0, Int.mul_comm]; omega

/-- **C44.** `operator+`/`operator-` translate a range with explicit ends (and make it an interval), and `operator[]`/`operator()` enumerate it. -/
theorem C44_shift (r : IndexRange) (c x : Int) (i : Nat) :
    (Denotes (r.shiftUp c) x ↔ Denotes r (x - c)) ∧ (Denotes (r.shiftDown c) x ↔ Denotes r (x + c)) ∧
    ((r.shiftUp c).stride_ = r.stride_ ∧ (r.shiftUp c).degenerate_ = false ∧ (r.shiftDown c).stride_ = r.stride_ ∧
      (r.shiftDown c).degenerate_ = false) ∧
    (r.nth i = r.start_ + (i : Int) * r.stride_) := by
  refine ⟨?_, ?_, ⟨rfl, rfl, rfl, rfl⟩, rfl⟩ <;>
  · simp only [Denotes, IndexRange.shiftUp, IndexRange.shiftDown, IndexRange.mk3, Before]
    by_cases ht : 0 < r.stride_ <;> simp only [ht, if_true, if_false] <;>
      constructor <;> rintro ⟨⟨k, hk⟩, h⟩ <;> exact ⟨⟨k, by omega⟩, by omega⟩

example : Denotes ((IndexRange.leftOpen 2 IndexRange.default).rightClosed 5) 5 ∧
    ¬ Denotes ((IndexRange.leftOpen 2 IndexRange.default).rightClosed 5) 2 := by
  rw [(C44_inequality_meaning _ rfl 2 5 5).2.2.2, (C44_inequality_meaning _ rfl 2 5 2).2.2.2]; decide

/-- **C44, hazard.** Shifting a range with an omitted end does not keep it omitted: `index_range() + 1` is no longer "the
whole dimension" (its marker values have been shifted away). -/
theorem C44_shift_default_hazard :
    (IndexRange.default.shiftUp 1).getStart 0 ≠ 0 ∧ IndexRange.default.getStart 0 = 0 := by decide

/-! ### C45 -/

/-- **C45 is false in general:** `index_range(0,5,2).size()` is 2, but the view dimension it selects has extent 3. -/
theorem C45_counterexample :
    ∃ (a : ARef) (r : IndexRange) (v : View), Reachable 1 a ∧ r.start_ = 0 ∧ r.finish_ = 5 ∧ r.stride_ = 2 ∧
      a.slice true ⟨1, 1, [r]⟩ = .ok v ∧ r.size 0 = .ok 2 ∧ v.extents = [3] := by
  refine ⟨_, IndexRange.mk3 0 5 2, _, .ofExtents (n := 1) (p := ⟨1, 0⟩) (exts := [5]) (cOrder_valid 1) rfl, rfl, rfl, rfl,
    rfl, by decide, by decide⟩

/-- **C45, the part that holds:** when the stride divides `finish - start` and points from start towards finish,
`size()` is the number of indices the range denotes (for every value of the unused argument).
Missing from the full property: strides that do not divide the length, for which it is false. -/
theorem C45_size_exact_partial (r : IndexRange) (idx : Int) (q : Nat) (ht : r.stride_ ≠ 0)
    (hs : r.start_ ≠ -(2 ^ 63)) (hf : r.finish_ ≠ 2 ^ 63 - 1) (hq : (q : Int) < 2 ^ 64)
    (hdiv : r.finish_ - r.start_ = (q : Int) * r.stride_) :
    r.size idx = .ok q ∧ ∀ k : Nat, k < q ↔ Before r.stride_ (r.start_ + (k : Int) * r.stride_) r.finish_ := by
  have h1 : Int.tdiv (r.finish_ - r.start_) r.stride_ = q := by
    rw [hdiv]; exact Int.mul_tdiv_cancel _ ht
  constructor
  · unfold IndexRange.size
    rw [if_neg (by intro h; rcases h with h | h
                   · exact hs h
                   · exact hf h), if_neg ht, h1]
    simp only [toSizeT, Res.ok.injEq]; omega
  · intro k
    have : r.finish_ = r.start_ + (q : Int) * r.stride_ := by omega
    rw [this]
    unfold Before
    split
    · rename_i hp
      rw [Int.add_lt_add_iff_left, Int.mul_lt_mul_right hp]; omega
    · rename_i hp
      have hn : r.stride_ < 0 := by omega
      rw [Int.add_lt_add_iff_left, Int.mul_lt_mul_right_of_neg hn]; omega

/-- **C45.** In the remaining forward-pointing cases `size()` is exactly one too small. -/
theorem C45_size_off_by_one_partial (r : IndexRange) (idx : Int) (q : Nat) (rem : Int)
    (hs : r.start_ ≠ -(2 ^ 63)) (hf : r.finish_ ≠ 2 ^ 63 - 1) (hq : (q : Int) < 2 ^ 64) (ht : 0 < r.stride_)
    (hrem : 0 < rem ∧ rem < r.stride_) (hdiv : r.finish_ - r.start_ = (q : Int) * r.stride_ + rem) :
    r.size idx = .ok q ∧ ∀ k : Nat, k < q + 1 ↔ Before r.stride_ (r.start_ + (k : Int) * r.stride_) r.finish_ := by
  have h1 : Int.tdiv (r.finish_ - r.start_) r.stride_ = q := by
    have hnn : 0 ≤ (q : Int) * r.stride_ := Int.mul_nonneg (by omega) (by omega)
    rw [hdiv, Int.tdiv_eq_ediv_of_nonneg (by omega), Int.add_comm, Int.add_mul_ediv_right _ _ (by omega),
      Int.ediv_eq_zero_of_lt (by omega) hrem.2]
    omega
  constructor
  · unfold IndexRange.size
    rw [if_neg (by intro h; rcases h with h | h
                   · exact hs h
                   · exact hf h), if_neg (by omega), h1]
    simp only [toSizeT, Res.ok.injEq]; omega
  · intro k
    have : r.finish_ = r.start_ + ((q : Int) * r.stride_ + rem) := by omega
    rw [this]
    unfold Before
    rw [if_pos ht, Int.add_lt_add_iff_left]
    constructor
    · intro h
      have : (k : Int) * r.stride_ ≤ (q : Int) * r.stride_ := Int.mul_le_mul_of_nonneg_right (by omega) (by omega)
      omega
    · intro h
      by_contra hc
      have : ((q : Int) + 1) * r.stride_ ≤ (k : Int) * r.stride_ := Int.mul_le_mul_of_nonneg_right (by omega) (by omega)
      rw [Int.add_mul] at this
      omega

example : (IndexRange.mk3 8 2 (-2)).size 0 = .ok 3 := by decide

/-! ### C46 -/

/-- **C46.** `general_storage_order` built from `c_storage_order` or `fortran_storage_order`, by constructor or by the
conversion operator, is a valid order (a permutation) of every dimension count; both routes agree; the C order
lists the last dimension first, the Fortran order the first dimension first; all dimensions ascend. -/
theorem C46_standard_orders (n : Nat) :
    ValidOrder n (StorageOrder.cOrder n) ∧ ValidOrder n (StorageOrder.fortranOrder n) ∧
    StorageOrder.convC n = .ok (StorageOrder.cOrder n) ∧ StorageOrder.convFortran n = .ok (StorageOrder.fortranOrder n) ∧
    (∀ i, i < n → (StorageOrder.cOrder n).ordering[i]? = some (n - 1 - i) ∧
      (StorageOrder.fortranOrder n).ordering[i]? = some i) ∧
    (StorageOrder.cOrder n).allDimsAscending = true ∧ (StorageOrder.fortranOrder n).allDimsAscending = true := by
  have hrep : (List.range n).map (fun _ => true) = List.replicate n true := by
    rw [List.map_const']; simp
  refine ⟨cOrder_valid n, fortranOrder_valid n, ?_, ?_, ?_, ?_, ?_⟩
  · unfold StorageOrder.convC StorageOrder.ofIters
    rw [copyN_self (by simp), copyN_self (by simp), hrep]; rfl
  · unfold StorageOrder.convFortran StorageOrder.ofIters
    rw [copyN_self (by simp), copyN_self (by simp), hrep]; rfl
  · intro i hi
    simp [StorageOrder.cOrder, StorageOrder.fortranOrder, hi]
  · simp [StorageOrder.allDimsAscending, StorageOrder.cOrder, foldl_and]
  · simp [StorageOrder.allDimsAscending, StorageOrder.fortranOrder, foldl_and]

/-- **C46.** `general_storage_order(ordering, ascending)` holds exactly the first `n` entries of the given sequences. -/
theorem C46_general_order (n : Nat) (ord : List Nat) (asc : List Bool) (ho : ord.length = n) (ha : asc.length = n) :
    StorageOrder.ofIters n ord asc = .ok ⟨ord, asc⟩ := by
  unfold StorageOrder.ofIters
  rw [copyN_self ho, copyN_self ha]; rfl

/-- **C46.** Two storage orders compare equal iff all their entries agree. -/
theorem C46_equality (a b : StorageOrder) : a.eq b = true ↔ a.ordering = b.ordering ∧ a.ascending = b.ascending := by
  simp [StorageOrder.eq]

/-- **C46.** `all_dims_ascending()` is true iff every dimension ascends. -/
theorem C46_all_dims_ascending (a : StorageOrder) : a.allDimsAscending = true ↔ ∀ x ∈ a.ascending, x = true := by
  simp [StorageOrder.allDimsAscending, foldl_and]

example : exOrder.allDimsAscending = false ∧ exOrder.eq exOrder = true ∧ ValidOrder 3 exOrder := by decide

/-! ### C09 for views -/

/-- **C09.** Shape queries of views (after any reindexing of the view) agree with each other and with the number of
in-range index tuples. -/
theorem C09_view_queries {n : Nat} {root : ARef} (hr : Reachable n root) {d : Desc} (h : Handle root d)
    {g : IndexGen} {v v' : View} (hlen : g.ranges.length = d.extents.length)
    (hv : generateArrayView true g d = .ok v) (hh : ViewHistory v v') :
    v'.numElements = v'.extents.prod ∧ v'.maxSize = v'.numElements ∧
    (∀ e es, v'.extents = e :: es → v'.size = .ok e ∧ v'.empty = .ok (decide (e = 0))) ∧
    v'.numDims = g.numDims ∧ v'.extents.length = g.numDims ∧ v'.strides.length = g.numDims ∧ v'.bases.length = g.numDims ∧
    ∃ l : List (List Int), l.Nodup ∧ l.length = v'.numElements ∧ ∀ idx, idx ∈ l ↔ InBox v'.bases v'.extents idx := by
  have hw := handle_wellShaped hr h
  obtain ⟨hl, hn, rfl⟩ := genView_ok hw hlen hv
  obtain ⟨w, h1, h2, h3, h4⟩ := ViewHistory_facts hh (theView_wf g d hw hl)
  have hel : v'.extents.length = g.numDims := by
    rw [h2, theView_extents, List.length_map, selExtents_length _ _ _ hl.length.1 hl.length.2, hn]
  refine ⟨by simp [View.numElements, w.num_eq, product_eq], rfl, ?_, hel, hel, ?_, ?_, allIdx v'.bases v'.extents,
    allIdx_nodup _ _, ?_, fun idx => mem_allIdx _ _ idx⟩
  · intro e es he
    have h1 : v'.size = .ok e := by simp [View.size, he, Res.get]
    refine ⟨h1, ?_⟩
    simp only [View.empty, h1, Res.bind_ok]
    congr 1
  · rw [w.strides_len, hel]
  · rw [w.bases_len, hel]
  · rw [allIdx_length _ _ w.bases_len]; simp [View.numElements, w.num_eq, product_eq]

example : ∃ v, exArr.slice true exView = .ok v ∧ v.numElements = 6 ∧ v.size = .ok 3 := ⟨_, rfl, rfl, rfl⟩

/-! ### Instances: the theorems applied to concrete cases, whose hypotheses are thereby met -/

example := C43_indices_chain [.index 3, .range (IndexRange.mk3 1 9 2)] (by decide)
example := C43_indices_prefix_reusable [.index 3] [.range IndexRange.default] [.index 4] _ rfl
example := C43_extents_chain [.count 3, .range ⟨-1, 4⟩] (by decide)
example := C43_extents_prefix_reusable [.count 3] [.range ⟨-1, 4⟩] [.count 5] _ rfl
example := C44_set_index_range (IndexRange.mk3 1 2 3) rfl 4 9 2
example := C45_size_exact_partial (IndexRange.mk3 9 3 (-2)) 0 3 (by decide) (by decide) (by decide) (by decide) (by decide)
example := C46_general_order 3 [1, 2, 0] [true, false, true] rfl rfl

/- end of instances -/

end MultiArray.Props
