import Verif.Lemmas.Handle
import Verif.Props.Layout

/-
Property theorems C06-C08: accessors, range checking, assertions.
`Handle root d`: `d` was derived from the array `root` by any nesting of subarrays and views.
-/
set_option autoImplicit false

namespace MultiArray.Props
open MultiArray MultiArray.Spec

/-- Arrays, subarrays and views of every nesting depth have one stride and one base per dimension. -/
theorem handle_wellShaped {n : Nat} {root : ARef} (hr : Reachable n root) {d : Desc} (h : Handle root d) :
    WellShaped d := (h.embedding hr.wf).1

/-- A two-level handle for the examples: a view of `exArr` reversing dimension 1, fixing dimension 0 at 0 and
taking every second index of dimension 2. -/
def exView : IndexGen := ⟨3, 2, [IndexRange.single 0, IndexRange.mk3 7 4 (-1), IndexRange.default.setStride 2]⟩

theorem exView_built : Built exView :=
  .range (g := ⟨2, 1, [IndexRange.single 0, IndexRange.mk3 7 4 (-1)]⟩) (r := IndexRange.default.setStride 2)
    (.range (g := ⟨1, 0, [IndexRange.single 0]⟩) (r := IndexRange.mk3 7 4 (-1))
      (.index (i := 0) .empty (by decide) (by decide) rfl) rfl) rfl

theorem exHandle : ∃ v, generateArrayView true exView exArr.desc = .ok v ∧ v.extents = [3, 2] ∧ Handle exArr v.desc := by
  refine ⟨_, rfl, by decide, handle_view exArr_reachable.wf .array ?_ exView_built rfl rfl .refl⟩
  decide

/-- **C06.** `a[i1]...[iN]` and `a({i1,...,iN})` agree: they succeed on the same tuples, denote the same
element, and fail an assertion on the same tuples - for every array, subarray or view, and with assertions
on or off. -/
theorem C06_accessor_equivalence {n : Nat} {root : ARef} (hr : Reachable n root) {d : Desc} (h : Handle root d)
    (dbg : Bool) (idx : List Int) (hlen : idx.length = d.extents.length) :
    (∀ p, accessElement dbg idx d = .ok p ↔ accessChain dbg idx d = .ok ⟨p, [], [], []⟩) ∧
    (accessElement dbg idx d = .assertFail ↔ accessChain dbg idx d = .assertFail) ∧
    accessElement dbg idx d ≠ .ub := by
  have hw := handle_wellShaped hr h
  rcases Decidable.em (InBox d.bases d.extents idx) with hin | hin
  · rw [accessElement_inBox dbg d idx hw.1 hin, accessChain_full dbg d idx hw.1 hin]
    simp
  · cases dbg with
    | true =>
      rw [accessElement_not_inBox d idx hw.2 hlen hin, accessChain_fail d idx hw.1 hw.2 hlen hin]
      simp
    | false =>
      -- without assertions both compute the same pointer even out of range
      obtain ⟨h1, h2⟩ := hw
      have hc : ∀ (es : List Nat) (p : Ptr) (ss bs is : List Int), ss.length = es.length → bs.length = es.length →
          is.length = es.length → accessChain false is ⟨p, es, ss, bs⟩ = .ok ⟨p.add (dot is ss), [], [], []⟩ := by
        intro es
        induction es with
        | nil =>
          intro p ss bs is a b c
          match ss, bs, is, a, b, c with
          | [], [], [], _, _, _ => simp [accessChain, dot]
        | cons e es ih =>
          intro p ss bs is a b c
          match ss, bs, is, a, b, c with
          | s :: ss, b' :: bs, i :: is, a, b, c =>
            simp only [accessChain, access, Res.assert_false, Res.bind_ok]
            rw [ih _ ss bs is (by simpa using a) (by simpa using b) (by simpa using c), Ptr.add_add]
            rfl
      have hnc : ∀ (es : List Nat) (bs is : List Int), checkIndices false es bs is = .ok () := by
        intro es bs is
        cases es with
        | nil => rfl
        | cons e es => cases bs <;> cases is <;> rfl
      have he : accessElement false idx d = .ok (address d idx) := by
        unfold accessElement
        rw [hnc, Res.bind_ok, offsetLoop_eq _ _ _ _ hlen h1]
        simp [address]
      have hcd : accessChain false idx d = .ok ⟨address d idx, [], [], []⟩ :=
        hc d.extents d.base d.strides d.bases idx h1 h2 hlen
      rw [he, hcd]
      simp

example : ∃ v, Handle exArr v ∧ ([1, 1] : List Int).length = v.extents.length ∧
    accessElement true [1, 1] v = .ok ⟨7, 16⟩ ∧ accessChain true [1, 1] v = .ok ⟨⟨7, 16⟩, [], [], []⟩ := by
  obtain ⟨v, h, _, hh⟩ := exHandle
  have : v = theView exView exArr.desc := (genView_ok (exArr_reachable.wf.wellShaped) rfl h).2.2
  subst this
  exact ⟨_, hh, by decide, by decide, by decide⟩

/-- **C07.** Range checking is exact: with assertions enabled, access with the right number of indices succeeds
iff every index is in `[base, base+extent)`, and otherwise an assertion fails. -/
theorem C07_range_check_exact {n : Nat} {root : ARef} (hr : Reachable n root) {d : Desc} (h : Handle root d)
    (idx : List Int) (hlen : idx.length = d.extents.length) :
    ((∃ p, accessElement true idx d = .ok p) ↔ InBox d.bases d.extents idx) ∧
    (accessElement true idx d = .assertFail ↔ ¬ InBox d.bases d.extents idx) ∧
    ((∃ r, accessChain true idx d = .ok r) ↔ InBox d.bases d.extents idx) ∧
    (accessChain true idx d = .assertFail ↔ ¬ InBox d.bases d.extents idx) := by
  have hw := handle_wellShaped hr h
  rcases Decidable.em (InBox d.bases d.extents idx) with hin | hin
  · rw [accessElement_inBox true d idx hw.1 hin, accessChain_full true d idx hw.1 hin]
    simp [hin]
  · rw [accessElement_not_inBox d idx hw.2 hlen hin, accessChain_fail d idx hw.1 hw.2 hlen hin]
    simp [hin]

/-- **C07.** Memory safety: whatever handle and whatever indices are used, a checked access that succeeds denotes
an element of the root array's block, at an offset below its `num_elements()`. -/
theorem C07_checked_access_in_block {n : Nat} {root : ARef} (hr : Reachable n root) {d : Desc} (h : Handle root d)
    (idx : List Int) (hlen : idx.length = d.extents.length) (p : Ptr) (hp : accessElement true idx d = .ok p) :
    ∃ k : Nat, k < root.numElements ∧ p = root.data.add k := by
  have hin := ((C07_range_check_exact hr h idx hlen).1).mp ⟨p, hp⟩
  obtain ⟨hw, f, hf, _⟩ := h.embedding hr.wf
  rw [accessElement_inBox true d idx hw.1 hin] at hp
  cases hp
  obtain ⟨hin', haddr⟩ := hf idx hin
  obtain ⟨k, hk, hpk⟩ := C01_addressing_in_block hr true (f idx) hin'
  rw [hr.wf.paren_ok true hin'] at hpk
  refine ⟨k, hk, ?_⟩
  rw [haddr]
  simpa [address, ARef.desc] using hpk

example : InBox exArr.bases exArr.extents [0, 7, 3] ∧ ¬ InBox exArr.bases exArr.extents [0, 8, 3] ∧
    exArr.paren true [0, 7, 3] = .ok ⟨7, 14⟩ ∧ exArr.paren true [0, 8, 3] = .assertFail := by decide

/-- **C08.** Whatever element access succeeds with assertions gives the same element without them ... -/
theorem C08_access (idx : List Int) (d : Desc) :
    (∀ p, accessElement true idx d = .ok p → accessElement false idx d = .ok p) ∧
    (∀ r, accessChain true idx d = .ok r → accessChain false idx d = .ok r) := by
  constructor
  · intro p hp
    unfold accessElement at hp ⊢
    have hnc : ∀ (es : List Nat) (bs is : List Int), checkIndices false es bs is = .ok () := by
      intro es bs is
      cases es with
      | nil => rfl
      | cons e es => cases bs <;> cases is <;> rfl
    rw [hnc]
    cases hc : checkIndices true d.extents d.bases idx with
    | ok u => rw [hc] at hp; exact hp
    | assertFail => rw [hc] at hp; cases hp
    | ub => rw [hc] at hp; cases hp
  · intro r hr
    induction idx generalizing d with
    | nil => exact hr
    | cons i is ih =>
      simp only [accessChain] at hr ⊢
      cases hc : access true i d with
      | ok d' =>
        rw [hc, Res.bind_ok] at hr
        obtain ⟨e, es, s, ss, b, bs, h1, h2, h3, h4⟩ := access_true_ok hc
        rw [h1, access_ok false i _ e es s ss b bs h3 h4, Res.bind_ok, ← h2]
        exact ih d' hr
      | assertFail => rw [hc] at hr; cases hr
      | ub => rw [hc] at hr; cases hr

theorem viewStep_dbg {nd : Nat} {r : IndexRange} {e : Nat} {s b : Int} {acc acc' : ViewAcc}
    (h : viewStep true nd r e s b acc = .ok acc') : viewStep false nd r e s b acc = .ok acc' := by
  by_cases hl : LegalRange b e r
  · rw [viewStep_legal true nd r e s b acc hl] at h
    rw [viewStep_legal false nd r e s b acc hl]
    cases hd : r.degenerate_ with
    | true => simp only [hd, if_true] at h ⊢; exact h
    | false =>
      simp only [hd, Bool.false_eq_true, if_false] at h ⊢
      split at h
      · rename_i hlt; simp only [hlt, if_true]; exact h
      · cases h
  · rw [viewStep_illegal nd r e s b acc hl] at h; cases h

theorem viewLoop_dbg {nd : Nat} {rs : List IndexRange} {es : List Nat} {ss bs : List Int} {acc acc' : ViewAcc}
    (h : viewLoop true nd rs es ss bs acc = .ok acc') : viewLoop false nd rs es ss bs acc = .ok acc' := by
  induction es generalizing rs ss bs acc with
  | nil =>
    cases ss <;> cases bs <;> cases rs <;> simp only [viewLoop] at h ⊢ <;> exact h
  | cons e es ih => match rs, ss, bs with
    | r :: rs, s :: ss, b :: bs =>
      simp only [viewLoop] at h ⊢
      cases hc : viewStep true nd r e s b acc with
      | ok a =>
        rw [hc, Res.bind_ok] at h
        rw [viewStep_dbg hc, Res.bind_ok]
        exact ih h
      | assertFail => rw [hc] at h; cases h
      | ub => rw [hc] at h; cases h
    | [], _, _ => simp [viewLoop] at h
    | _ :: _, [], _ => simp [viewLoop] at h
    | _ :: _, _ :: _, [] => simp [viewLoop] at h

/-- **C08.** ... every view that is created with assertions enabled is created, identical, without them ... -/
theorem C08_view (g : IndexGen) (d : Desc) (v : View) (h : generateArrayView true g d = .ok v) :
    generateArrayView false g d = .ok v := by
  unfold generateArrayView at h ⊢
  cases hc : viewLoop true g.numDims g.ranges d.extents d.strides d.bases ⟨0, [], []⟩ with
  | ok acc =>
    rw [hc, Res.bind_ok] at h
    rw [viewLoop_dbg hc, Res.bind_ok]
    by_cases hn : acc.newStrides.length = g.numDims
    · simpa [hn] using h
    · simp [hn] at h
  | assertFail => rw [hc] at h; cases h
  | ub => rw [hc] at h; cases h

/-- **C08.** ... and so is every reshape. -/
theorem C08_reshape (a a' : ARef) (exts : List Nat) (h : a.reshape true exts = .ok a') :
    a.reshape false exts = .ok a' := by
  unfold ARef.reshape at h ⊢
  cases hc : Res.assert true (decide (a.numElems = product exts)) with
  | ok u => rw [hc] at h; exact h
  | assertFail => rw [hc] at h; cases h
  | ub => rw [hc] at h; cases h

example : exArr.paren false [0, 7, 3] = .ok ⟨7, 14⟩ ∧ (generateArrayView true exView exArr.desc).isOk = true ∧
    (exArr.reshape true [4, 1, 6]).isOk = true := by decide

/-! ### C01, C02, C03, C10 for both accessors and for subarrays and views -/

/-- **C10.** For every array, subarray and view: `x(i1,...,iN)` and `x[i1]...[iN]` are both the element at `origin() + Σ index*stride`. -/
theorem C10_handle_address {n : Nat} {root : ARef} (hr : Reachable n root) {d : Desc} (h : Handle root d) (dbg : Bool) (idx : List Int)
    (hidx : InBox d.bases d.extents idx) :
    accessElement dbg idx d = .ok (d.base.add (dot idx d.strides)) ∧
      accessChain dbg idx d = .ok ⟨d.base.add (dot idx d.strides), [], [], []⟩ := by
  have hw := handle_wellShaped hr h
  exact ⟨accessElement_inBox dbg d idx hw.1 hidx, accessChain_full dbg d idx hw.1 hidx⟩

/-- **C01, C02, C03** for chained brackets: `a[i1]...[iN]` with in-range indices is an element of the block, distinct tuples give distinct elements, and
every element is reached by exactly one tuple. -/
theorem C01_brackets_in_block {n : Nat} {a : ARef} (ha : Reachable n a) (dbg : Bool) (idx : List Int)
    (hidx : InBox a.bases a.extents idx) :
    ∃ k : Nat, k < a.numElements ∧ accessChain dbg idx a.desc = .ok ⟨a.data.add k, [], [], []⟩ := by
  obtain ⟨k, hk, h⟩ := C01_addressing_in_block ha dbg idx hidx
  exact ⟨k, hk, ((C06_accessor_equivalence ha .array dbg idx hidx.length.1).1 _).mp h⟩

/-- **C02** for chained brackets. -/
theorem C02_brackets_distinct {n : Nat} {a : ARef} (ha : Reachable n a) (dbg : Bool) (i j : List Int)
    (hi : InBox a.bases a.extents i) (hj : InBox a.bases a.extents j) (hne : i ≠ j) :
    ∃ p q, accessChain dbg i a.desc = .ok ⟨p, [], [], []⟩ ∧ accessChain dbg j a.desc = .ok ⟨q, [], [], []⟩ ∧ p ≠ q := by
  obtain ⟨p, q, h1, h2, h3⟩ := C02_distinct_elements ha dbg i j hi hj hne
  exact ⟨p, q, ((C06_accessor_equivalence ha .array dbg i hi.length.1).1 _).mp h1,
    ((C06_accessor_equivalence ha .array dbg j hj.length.1).1 _).mp h2, h3⟩

/-- **C03** for chained brackets. -/
theorem C03_brackets_every_element {n : Nat} {a : ARef} (ha : Reachable n a) (dbg : Bool) (k : Nat) (hk : k < a.numElements) :
    ∃ idx, (InBox a.bases a.extents idx ∧ accessChain dbg idx a.desc = .ok ⟨a.data.add k, [], [], []⟩) ∧
      ∀ idx', InBox a.bases a.extents idx' → accessChain dbg idx' a.desc = .ok ⟨a.data.add k, [], [], []⟩ → idx' = idx := by
  obtain ⟨idx, ⟨h1, h2⟩, h3⟩ := C03_every_element_addressable ha dbg k hk
  refine ⟨idx, ⟨h1, ((C06_accessor_equivalence ha .array dbg idx h1.length.1).1 _).mp h2⟩, fun idx' h4 h5 => h3 idx' h4 ?_⟩
  exact ((C06_accessor_equivalence ha .array dbg idx' h4.length.1).1 _).mpr h5

example : InBox exArr.bases exArr.extents [0, 6, 2] ∧ accessChain true [0, 6, 2] exArr.desc = .ok ⟨exArr.data.add 16, [], [], []⟩ := by decide

/-! ### Instances: the theorems applied to concrete cases, whose hypotheses are thereby met -/

example : ∃ v : View, InBox v.desc.bases v.desc.extents [2, 1] ∧ accessElement true [2, 1] v.desc = .ok (v.desc.base.add (dot [2, 1] v.desc.strides)) := by
  obtain ⟨v, hv, he, hh⟩ := exHandle
  have hin : InBox v.desc.bases v.desc.extents [2, 1] := by cases hv; decide
  exact ⟨v, hin, (C10_handle_address exArr_reachable hh true _ hin).1⟩
example := fun (v : View) (hh : Handle exArr v.desc) (he : v.extents = [3, 2]) => C07_range_check_exact exArr_reachable hh [2, 5] (by simp [View.desc, he])
example := (C08_access [0, 7, 3] exArr.desc).1 ⟨7, 14⟩ (by decide)
example := C08_view exView exArr.desc _ rfl
example := C01_brackets_in_block exArr_reachable true [0, 6, 2] (by decide)
example := C02_brackets_distinct exArr_reachable true [0, 6, 2] [-1, 6, 2] (by decide) (by decide) (by decide)

/- end of instances -/

end MultiArray.Props
