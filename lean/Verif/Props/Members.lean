import Verif.Props.Relabel2

/-
C06, C07 and C16 spelled with the members a program calls on each class: `a(i1,...,iN)`, `a[i1]...[iN]` and
`a[indices[..]..]` of `multi_array_ref`, of `multi_array_view` and of `sub_array`.
-/
set_option autoImplicit false

namespace MultiArray.Props
open MultiArray MultiArray.Spec

/-- `d[i1]...[ik]` on a subarray. -/
def brackets (dbg : Bool) : List Int → Desc → Res Desc
  | [], d => .ok d
  | i :: is, d => do brackets dbg is (← d.bracket dbg i)

theorem brackets_eq (dbg : Bool) (is : List Int) (d : Desc) : brackets dbg is d = accessChain dbg is d := by
  induction is generalizing d with
  | nil => rfl
  | cons i is ih =>
    simp only [brackets, accessChain, Desc.bracket]
    cases access dbg i d with
    | ok x => simp only [Res.bind_ok]; exact ih x
    | assertFail => rfl
    | ub => rfl

/-- The three ways of writing an access agree: they succeed on the same tuples with the same element, fail an assertion on the
same tuples, and neither has undefined behaviour of its own. -/
def SameAccess (call : Res Ptr) (chained : Res Desc) : Prop :=
  (∀ p, call = .ok p ↔ chained = .ok ⟨p, [], [], []⟩) ∧ (call = .assertFail ↔ chained = .assertFail) ∧ call ≠ .ub

/-- **C06.** On an array: `a(i1,...,iN)` and `a[i1]...[iN]`, the first bracket being the array's own `operator[]`, the others
those of the subarrays. -/
theorem C06_array_members {n : Nat} {a : ARef} (ha : Reachable n a) (dbg : Bool) (i : Int) (is : List Int)
    (hlen : (i :: is).length = n) :
    SameAccess (a.paren dbg (i :: is)) (do brackets dbg is (← a.bracket dbg i)) := by
  have := C06_accessor_equivalence ha .array dbg (i :: is) (by rw [hlen]; exact ha.wf.ext_len.symm)
  rw [← brackets_eq] at this
  exact this

example : Reachable 3 exArr ∧ exArr.paren true [0, 6, 2] = .ok ⟨7, 16⟩ ∧
    (do brackets true [6, 2] (← exArr.bracket true 0)) = .ok ⟨⟨7, 16⟩, [], [], []⟩ :=
  ⟨exArr_reachable, by decide, by decide⟩

/-- **C06.** On a view of anything derived from an array, after any reindexing of the view. -/
theorem C06_view_members {n : Nat} {root : ARef} (hr : Reachable n root) {d : Desc} (h : Handle root d) {g : IndexGen}
    {v v' : View} (hno : StaysInside d g v) (hb : Built g) (hglen : g.ranges.length = d.extents.length)
    (hv : generateArrayView true g d = .ok v) (hh : ViewHistory v v')
    (dbg : Bool) (i : Int) (is : List Int) (hlen : (i :: is).length = v'.extents.length) :
    SameAccess (v'.paren dbg (i :: is)) (do brackets dbg is (← v'.bracket dbg i)) := by
  have := C06_accessor_equivalence hr (.view h hno hb hglen hv hh) dbg (i :: is) hlen
  rw [← brackets_eq] at this
  exact this

/-- **C06.** On a subarray of anything derived from an array. -/
theorem C06_subarray_members {n : Nat} {root : ARef} (hr : Reachable n root) {d : Desc} (h : Handle root d)
    (dbg : Bool) (i : Int) (is : List Int) (hlen : (i :: is).length = d.extents.length) :
    SameAccess (d.paren dbg (i :: is)) (do brackets dbg is (← d.bracket dbg i)) := by
  have := C06_accessor_equivalence hr h dbg (i :: is) hlen
  rw [← brackets_eq] at this
  exact this

example : ∃ v v', generateArrayView true exView exArr.desc = .ok v ∧ v.reindexList [5, -1] = .ok v' ∧
    v'.paren true [6, 0] = .ok ⟨7, 16⟩ ∧ (do brackets true [0] (← v'.bracket true 6)) = .ok ⟨⟨7, 16⟩, [], [], []⟩ ∧
    v'.paren true [6, 1] = .assertFail :=
  ⟨_, _, rfl, rfl, by decide, by decide, by decide⟩

/-- **C07.** The range check of the members themselves: `operator()` of arrays, views and subarrays accepts exactly the in-range
tuples. -/
theorem C07_members_checked {n : Nat} {root : ARef} (hr : Reachable n root) {d : Desc} (h : Handle root d) {g : IndexGen}
    {v v' : View} (hno : StaysInside d g v) (hb : Built g) (hglen : g.ranges.length = d.extents.length)
    (hv : generateArrayView true g d = .ok v) (hh : ViewHistory v v') (idx : List Int) :
    (idx.length = n → ((∃ p, root.paren true idx = .ok p) ↔ InBox root.bases root.extents idx) ∧
      (root.paren true idx = .assertFail ↔ ¬ InBox root.bases root.extents idx)) ∧
    (idx.length = d.extents.length → ((∃ p, d.paren true idx = .ok p) ↔ InBox d.bases d.extents idx) ∧
      (d.paren true idx = .assertFail ↔ ¬ InBox d.bases d.extents idx)) ∧
    (idx.length = v'.extents.length → ((∃ p, v'.paren true idx = .ok p) ↔ InBox v'.bases v'.extents idx) ∧
      (v'.paren true idx = .assertFail ↔ ¬ InBox v'.bases v'.extents idx)) := by
  refine ⟨fun hl => ?_, fun hl => ?_, fun hl => ?_⟩
  · obtain ⟨h1, h2, _⟩ := C07_range_check_exact hr .array idx (by rw [hl]; exact hr.wf.ext_len.symm)
    exact ⟨h1, h2⟩
  · obtain ⟨h1, h2, _⟩ := C07_range_check_exact hr h idx hl
    exact ⟨h1, h2⟩
  · obtain ⟨h1, h2, _⟩ := C07_range_check_exact hr (.view h hno hb hglen hv hh) idx hl
    exact ⟨h1, h2⟩

/-- **C16.** Slicing with the members: `a[indices[..]..]` on an array, on a subarray and on a view.  The element of the view at
`j` is the element of what was sliced, read through its own `operator()`, at the selected index tuple. -/
theorem C16_slice_members {n : Nat} {root : ARef} (hr : Reachable n root) (dbg : Bool) {g2 : IndexGen} (hb2 : Built g2)
    {w : View} (j : List Int) (hin : InBox w.bases w.extents j) :
    (g2.ranges.length = n → StaysInside root.desc g2 w → root.slice true g2 = .ok w →
      ∃ p, w.paren dbg j = .ok p ∧ root.paren dbg (selected g2.ranges root.bases j) = .ok p) ∧
    (∀ d, Handle root d → g2.ranges.length = d.extents.length → StaysInside d g2 w →
      d.slice true g2 = .ok w → ∃ p, w.paren dbg j = .ok p ∧ d.paren dbg (selected g2.ranges d.bases j) = .ok p) ∧
    (∀ (d : Desc) (g : IndexGen) (v v' : View), Handle root d → StaysInside d g v → Built g →
      g.ranges.length = d.extents.length → generateArrayView true g d = .ok v → ViewHistory v v' →
      g2.ranges.length = v'.extents.length → StaysInside v'.desc g2 w → v'.slice true g2 = .ok w →
      ∃ p, w.paren dbg j = .ok p ∧ v'.paren dbg (selected g2.ranges v'.bases j) = .ok p) := by
  have key : ∀ d, Handle root d → g2.ranges.length = d.extents.length → StaysInside d g2 w →
      generateArrayView true g2 d = .ok w →
      ∃ p, w.paren dbg j = .ok p ∧ accessElement dbg (selected g2.ranges d.bases j) d = .ok p := by
    intro d hd hl hno hw
    obtain ⟨p, h1, h2⟩ := C16_view_elements hr hd hno hb2 hl hw .refl dbg j hin
    refine ⟨p, h1, ?_⟩
    obtain ⟨hleg, _, rfl⟩ := genView_ok (handle_wellShaped hr hd) hl hw
    have hz : (theView g2 d).bases = List.replicate (theView g2 d).extents.length 0 := by
      simp [theView, View.mkView]
    rw [hz] at h2
    have := relPos_zero _ j hin.length.1
    unfold relPos at this
    rw [this] at h2
    exact h2
  refine ⟨fun hl hno hw => ?_, fun d hd hl hno hw => key d hd hl hno hw, ?_⟩
  · exact key root.desc .array (by rw [hl]; exact hr.wf.ext_len.symm) hno hw
  · intro d g v v' hd hno1 hb1 hl1 hv hh hl hno hw
    exact key v'.desc (.view hd hno1 hb1 hl1 hv hh) hl hno hw

example : ∃ v v' w, exArr.slice true exView = .ok v ∧ v.reindexList [10, -3] = .ok v' ∧
    v'.slice true ⟨2, 1, [IndexRange.mk3 12 10 (-1), IndexRange.single (-2)]⟩ = .ok w ∧ InBox w.bases w.extents [1] ∧
    w.paren true [1] = .ok ⟨7, 16⟩ ∧ v'.paren true [11, -2] = .ok ⟨7, 16⟩ ∧
    selected [IndexRange.mk3 12 10 (-1), IndexRange.single (-2)] v'.bases [1] = [11, -2] :=
  ⟨_, _, _, rfl, rfl, rfl, by decide, by decide, by decide, by decide⟩

end MultiArray.Props
