import Verif.Props.Layout
import Verif.Props.Views
import Verif.SpecPtr
import Mathlib.Algebra.BigOperators.Group.List.Lemmas
import Mathlib.Algebra.BigOperators.Ring.List

/-
C68: which pointers the library computes on the way to an element lie in the array's storage.

Forming a pointer outside an allocated block (other than one past its end) is undefined behaviour in C++ even if it is never dereferenced.  `origin()` is
such a pointer in general (the documentation says so: "there is no guarantee that the origin element exists"), and every access starts from it.
-/
set_option autoImplicit false

namespace MultiArray.Props
open MultiArray Spec

theorem elementPtr_inStorage {a : ARef} {p : Ptr} (h : ElementPtr a p) : InStorage a p := ⟨h.1, h.2.1, by have := h.2.2; omega⟩

theorem handle_elementPtr {n : Nat} {root : ARef} (hr : Reachable n root) {d : Desc} (h : Handle root d) {idx : List Int}
    (hin : InBox d.bases d.extents idx) : ElementPtr root (address d idx) := by
  obtain ⟨i, p, h1, h2, h3⟩ := C18_views_contained_partial hr h false idx hin
  obtain ⟨k, hk, h4⟩ := C01_addressing_in_block hr false i h1
  obtain ⟨hw, _⟩ := h.embedding hr.wf
  rw [accessElement_inBox false d idx hw.1 hin] at h3
  rw [h2] at h4
  cases h3
  injection h4 with h4
  rw [h4]
  exact ⟨rfl, by simp [Ptr.add], by simp only [Ptr.add]; omega⟩

theorem inBox_mix {bs : List Int} {es : List Nat} {idx z : List Int} (h : InBox bs es idx) (hz : InBox bs es z) (k : Nat) :
    InBox bs es (idx.take k ++ z.drop k) := by
  induction es generalizing bs idx z k with
  | nil => match bs, idx, z, h, hz with
    | [], [], [], _, _ => cases k <;> exact trivial
  | cons e es ih => match bs, idx, z, h, hz with
    | b :: bs, i :: is, z :: zs, h, hz =>
      cases k with
      | zero => exact hz
      | succ k => exact ⟨h.1, h.2.1, ih h.2.2 hz.2.2 k⟩

theorem dot_mix (idx ss : List Int) (k m : Nat) (h : idx.length = ss.length) :
    dot (idx.take k ++ (List.replicate m 0).drop k) ss = dot (idx.take k) (ss.take k) := by
  induction idx generalizing ss k m with
  | nil => match ss, h with
    | [], _ => simp [dot]
  | cons i is ih => match ss, h with
    | s :: ss, h =>
      cases k with
      | zero => simp [dot, dot_replicate_zero]
      | succ k =>
        cases m with
        | zero => simpa [dot] using ih ss k 0 (by simpa using h)
        | succ m => simpa [dot, List.replicate_succ] using ih ss k m (by simpa using h)

theorem inBox_take {bs : List Int} {es : List Nat} {idx : List Int} (h : InBox bs es idx) (k : Nat) :
    InBox (bs.take k) (es.take k) (idx.take k) := by
  induction es generalizing bs idx k with
  | nil => match bs, idx, h with
    | [], [], _ => cases k <;> exact trivial
  | cons e es ih => match bs, idx, h with
    | b :: bs, i :: is, h =>
      cases k with
      | zero => exact trivial
      | succ k => exact ⟨h.1, h.2.1, ih h.2.2 k⟩

theorem accessChain_prefix (dbg : Bool) {d : Desc} (hw : WellShaped d) {k : Nat} {idx : List Int}
    (h : InBox (d.bases.take k) (d.extents.take k) idx) :
    accessChain dbg idx d = .ok ⟨d.base.add (dot idx (d.strides.take k)), d.extents.drop k, d.strides.drop k, d.bases.drop k⟩ := by
  have := accessChain_inBox dbg d.base idx (d.extents.take k) (d.extents.drop k) (d.strides.take k) (d.strides.drop k) (d.bases.take k)
    (d.bases.drop k) (by have := hw.1; simp only [List.length_take]; omega) h
  simpa only [List.take_append_drop] using this

/-- **C68** (partial: `0` must be an index in every dimension).  For an array, subarray or view whose index ranges all contain 0, every pointer computed
while `a[i0][i1]...` descends to an element - `origin()` first, then the base pointer of every intermediate subarray - points to an element of the
storage of the underlying array. -/
theorem C68_pointers_in_storage_partial {n : Nat} {root : ARef} (hr : Reachable n root) {d : Desc} (h : Handle root d) (dbg : Bool)
    (hz : InBox d.bases d.extents (List.replicate d.extents.length 0)) (idx : List Int) (hidx : InBox d.bases d.extents idx) (k : Nat) :
    ∃ d', accessChain dbg (idx.take k) d = .ok d' ∧ ElementPtr root d'.base := by
  obtain ⟨hw, _⟩ := h.embedding hr.wf
  refine ⟨_, accessChain_prefix dbg hw (inBox_take hidx k), ?_⟩
  have := handle_elementPtr hr h (inBox_mix hidx hz k)
  rwa [address, dot_mix _ _ _ _ (by rw [hidx.length.1, hw.1])] at this

/-- **C68** (partial) for `origin()` itself. -/
theorem C68_origin_in_storage_partial {n : Nat} {root : ARef} (hr : Reachable n root) {d : Desc} (h : Handle root d)
    (hz : InBox d.bases d.extents (List.replicate d.extents.length 0)) : ElementPtr root d.base := by
  obtain ⟨d', h1, h2⟩ := C68_pointers_in_storage_partial hr h false hz _ hz 0
  simp only [List.take_zero, accessChain] at h1
  injection h1 with h1
  rwa [h1]

example : ∃ a : ARef, Reachable 2 a ∧ a.bases = [-1, -2] ∧ InBox a.bases a.extents (List.replicate a.extents.length 0) ∧
    InBox a.bases a.extents [2, -2] ∧ a.origin = a.data.add 6 ∧ ElementPtr a (a.origin.add (2 * 4)) :=
  ⟨_, .ofExtentGen (p := ⟨7, 0⟩) (g := ⟨2, [⟨-1, 3⟩, ⟨-2, 2⟩]⟩) (so := StorageOrder.cOrder 2) (by decide) rfl rfl rfl,
    by decide, by decide, by decide, by decide, by decide⟩

/-- **C68** (partial: the view must not be empty).  The pointer computed when a view is created - by whatever ranges, from an array, subarray or view with
whatever index bases - points to an element. -/
theorem C68_new_view_in_storage_partial {n : Nat} {root : ARef} (hr : Reachable n root) {d : Desc} (h : Handle root d) {g : IndexGen}
    (hno : NoOverrun d.bases d.extents g.ranges) (hb : Built g) (hlen : g.ranges.length = d.extents.length) {v : View}
    (hv : generateArrayView true g d = .ok v) (hne : ∀ e ∈ v.extents, 0 < e) : ElementPtr root v.origin := by
  have hw := handle_wellShaped hr h
  obtain ⟨hleg, hnum, hve⟩ := genView_ok hw hlen hv
  have hvb : v.bases = List.replicate v.extents.length 0 := by subst hve; simp [theView, View.mkView]
  have hz : ∀ es : List Nat, (∀ e ∈ es, 0 < e) → InBox (List.replicate es.length 0) es (List.replicate es.length 0) := by
    intro es h
    induction es with
    | nil => exact trivial
    | cons e es ih =>
      rw [List.length_cons, List.replicate_succ]
      have := h e (by simp)
      exact ⟨le_refl _, by omega, ih (fun x hx => h x (by simp [hx]))⟩
  have := C68_origin_in_storage_partial hr (handle_view hr.wf h hno hb hlen hv .refl) (by
    show InBox v.bases v.extents (List.replicate v.extents.length 0)
    rw [hvb]; exact hz _ hne)
  exact this

/-- A view of a one-based array: the array's `origin()` is before the storage, the view's is inside. -/
example : ∃ (a : ARef) (v : View), Reachable 1 a ∧ ¬ InStorage a a.origin ∧
    generateArrayView true ⟨1, 1, [IndexRange.mk3 4 1 (-2)]⟩ a.desc = .ok v ∧ v.extents = [2] ∧ v.origin = a.data.add 3 :=
  ⟨_, _, .ofExtentGen (p := ⟨7, 0⟩) (g := ⟨1, [⟨1, 5⟩]⟩) (so := StorageOrder.cOrder 1) (by decide) rfl rfl rfl,
    by decide, rfl, by decide, by decide⟩

/-- **C68** for zero-based arrays in C order, empty ones included: no pointer outside the storage (or its end) is computed. -/
theorem C68_c_order {n : Nat} {a : ARef} (ha : Reachable n a) (hc : a.storage = StorageOrder.cOrder n) (hb : ∀ b ∈ a.bases, b = 0)
    (dbg : Bool) (k : Nat) (idx : List Int) (hidx : InBox (a.bases.take k) (a.extents.take k) idx) :
    ∃ d', accessChain dbg idx a.desc = .ok d' ∧ InStorage a d'.base := by
  have hbr : a.bases = List.replicate a.extents.length 0 := by
    rw [List.eq_replicate_iff]; exact ⟨by rw [ha.wf.bases_len, ha.wf.ext_len], hb⟩
  have hw := ha.wf.wellShaped
  refine ⟨_, accessChain_prefix dbg hw hidx, ?_⟩
  by_cases h0 : 0 ∈ a.extents
  · -- empty array: all strides used so far are zero
    have hor : a.data = a.origin := C10_data_eq_origin ha hb (by rw [hc]; intro x hx; simpa [StorageOrder.cOrder] using (List.mem_replicate.mp hx).2)
    have hdot : dot idx (a.strides.take k) = 0 := by
      obtain ⟨z, hz, hz0⟩ := List.getElem_of_mem h0
      have hkz : (a.extents.take k).length ≤ z := by
        by_contra hlt
        have hlt : z < (a.extents.take k).length := by omega
        have := hidx.get z hlt
        rw [List.getD_eq_getElem?_getD (l := a.extents.take k), List.getElem?_eq_getElem hlt, List.getElem_take, hz0] at this
        simp at this
        omega
      have hs0 : ∀ s ∈ a.strides.take k, s = 0 := by
        intro s hs
        obtain ⟨j, hj, hjs⟩ := List.getElem_of_mem hs
        have hlen : (a.strides.take k).length = (a.extents.take k).length := by
          simp only [List.length_take, ha.wf.strides_len, ha.wf.ext_len]
        have hjz : j < z := by omega
        have hn : z < n := by have := ha.wf.ext_len; omega
        have hm : a.storage.ordering[n - 1 - j]? = some j := by
          rw [hc]
          simp only [StorageOrder.cOrder, List.getElem?_map]
          rw [List.getElem?_range (by omega)]
          simp only [Option.map_some]
          congr 1; omega
        have hf := C05_stride_formula ha _ _ hm
        have hzm : (0 : Int) ∈ (a.storage.ordering.take (n - 1 - j)).map (fun d => (a.extents.getD d 0 : Int)) := by
          rw [List.mem_map]
          refine ⟨z, ?_, by rw [List.getD_eq_getElem?_getD, List.getElem?_eq_getElem hz, hz0]; rfl⟩
          rw [List.mem_take_iff_getElem]
          refine ⟨n - 1 - z, ?_, ?_⟩
          · rw [hc]; simp only [StorageOrder.cOrder, List.length_map, List.length_range]; omega
          · simp only [hc, StorageOrder.cOrder, List.getElem_map, List.getElem_range]; omega
        rw [List.prod_eq_zero_iff.mpr hzm, Int.mul_zero] at hf
        rw [List.getElem_take] at hjs
        have hj' : j < a.strides.length := by simp only [List.length_take] at hj; omega
        rw [List.getElem?_eq_getElem hj'] at hf
        injection hf with hf
        rw [← hjs, hf]
      have aux : ∀ (is ss : List Int), (∀ s ∈ ss, s = 0) → dot is ss = 0 := by
        intro is ss hss
        induction is generalizing ss with
        | nil => rfl
        | cons i is ih => cases ss with
          | nil => rfl
          | cons s ss => simp [dot, hss s (by simp), ih ss (fun x hx => hss x (by simp [hx]))]
      exact aux _ _ hs0
    show InStorage a (a.origin.add (dot idx (a.strides.take k)))
    rw [hdot, ← hor, Ptr.add_zero]
    exact ⟨rfl, le_refl _, by omega⟩
  · have hz : InBox a.bases a.extents (List.replicate a.extents.length 0) := by
      rw [hbr]
      have : ∀ es : List Nat, 0 ∉ es → InBox (List.replicate es.length 0) es (List.replicate es.length 0) := by
        intro es h
        induction es with
        | nil => exact trivial
        | cons e es ih =>
          rw [List.mem_cons, not_or] at h
          rw [List.length_cons, List.replicate_succ]
          exact ⟨le_refl _, by omega, ih h.2⟩
      exact this _ h0
    have hfull : ∀ (bs : List Int) (es : List Nat) (z is : List Int) (k : Nat), InBox bs es z → InBox (bs.take k) (es.take k) is →
        InBox bs es (is ++ z.drop k) ∧ is = (is ++ z.drop k).take k := by
      intro bs es z is k hz his
      induction es generalizing bs z is k with
      | nil =>
        match bs, z, hz with
        | [], [], _ =>
          have : is = [] := by have := his.length.1; simpa using this
          subst this
          cases k <;> exact ⟨trivial, rfl⟩
      | cons e es ih =>
        match bs, z, hz with
        | b :: bs, y :: zs, hz =>
          cases k with
          | zero =>
            have : is = [] := by have := his.length.1; simpa using this
            subst this
            simpa using hz
          | succ k =>
            match is, his with
            | i :: is, his =>
              obtain ⟨h1, h2⟩ := ih bs zs is k hz.2.2 his.2.2
              refine ⟨⟨his.1, his.2.1, h1⟩, ?_⟩
              simp only [List.cons_append, List.drop_succ_cons, List.take_succ_cons]
              rw [← h2]
    obtain ⟨h1, h2⟩ := hfull _ _ _ idx k hz hidx
    obtain ⟨d', h3, h4⟩ := C68_pointers_in_storage_partial ha .array dbg hz _ h1 k
    rw [← h2] at h3
    have h3' := (accessChain_prefix dbg hw hidx).symm.trans h3
    injection h3' with h3'
    rw [h3']
    exact elementPtr_inStorage h4

/-- An empty array in C order; two of its subarrays are reachable. -/
example : ∃ a : ARef, Reachable 3 a ∧ a.storage = StorageOrder.cOrder 3 ∧ (∀ b ∈ a.bases, b = 0) ∧
    InBox (a.bases.take 1) (a.extents.take 1) [2] ∧ a.numElements = 0 :=
  ⟨_, .ofExtents (p := ⟨7, 0⟩) (exts := [3, 0, 5]) (so := StorageOrder.cOrder 3) (by decide) rfl, by decide, by decide, by decide, by decide⟩

theorem descOffsetLoop_first (as : List Bool) (bs : List Int) (es : List Nat) (ss : List Int) (o : Int)
    (hb : bs.length = as.length) (he : es.length = as.length) (hs : ss.length = as.length) :
    descOffsetLoop as es ss o = o + dot bs ss - dot (firstStored as bs es) ss := by
  induction as generalizing bs es ss o with
  | nil => match bs, es, ss, hb, he, hs with
    | [], [], [], _, _, _ => simp [descOffsetLoop, firstStored, dot]
  | cons a as ih => match bs, es, ss, hb, he, hs with
    | b :: bs, e :: es, s :: ss, hb, he, hs =>
      simp only [descOffsetLoop, firstStored, dot]
      rw [ih bs es ss _ (by simpa using hb) (by simpa using he) (by simpa using hs)]
      cases a <;> simp <;> ring

theorem originOffset_first {n : Nat} {a : ARef} (ha : Reachable n a) :
    a.originOffset = -dot (firstStored a.storage.ascending a.bases a.extents) a.strides := by
  have l1 := ha.wf.order.2
  have l2 := ha.wf.bases_len
  have l3 := ha.wf.ext_len
  have l4 := ha.wf.strides_len
  rw [ha.wf.origin_eq, calcOriginOffset, calcIndexingOffset_eq]
  have hd : calcDescOffset a.strides a.extents a.storage = descOffsetLoop a.storage.ascending a.extents a.strides 0 := by
    unfold calcDescOffset
    split
    · rfl
    · rename_i h
      have hall : a.storage.allDimsAscending = true := by simpa using h
      rw [descOffsetLoop_eq n _ _ _ _ l1 l3 l4]
      have hz : ∀ d, a.storage.ascending.getD d true = true := by
        intro d
        rw [List.getD_eq_getElem?_getD]
        cases hx : a.storage.ascending[d]? with
        | none => rfl
        | some x => exact (allDimsAscending_iff _).mp hall x (List.mem_of_getElem? hx)
      simp only [hz, if_true]
      simp
  rw [hd, descOffsetLoop_first _ a.bases _ _ _ (by omega) (by omega) (by omega)]
  omega

/-- **C68, exactly**, for `origin()` of every array: it lies in the storage, or at its end, precisely when the offset `-Σ i*stride` of the tuple `i` stored
first is between 0 and `num_elements()`. -/
theorem C68_origin_exact {n : Nat} {a : ARef} (ha : Reachable n a) :
    InStorage a a.origin ↔ 0 ≤ -dot (firstStored a.storage.ascending a.bases a.extents) a.strides ∧
      -dot (firstStored a.storage.ascending a.bases a.extents) a.strides ≤ (a.numElements : Int) := by
  have h := originOffset_first ha
  simp only [InStorage, ARef.origin, ARef.data, Ptr.add, h]
  constructor
  · rintro ⟨_, h1, h2⟩; omega
  · rintro ⟨h1, h2⟩; exact ⟨trivial, by omega, by omega⟩

/-- What `firstStored` is: unless the array is empty, an in-range tuple whose element is at `data()`. -/
theorem C68_first_stored {n : Nat} {a : ARef} (ha : Reachable n a) (hne : ∀ e ∈ a.extents, 0 < e) (dbg : Bool) :
    InBox a.bases a.extents (firstStored a.storage.ascending a.bases a.extents) ∧
    a.paren dbg (firstStored a.storage.ascending a.bases a.extents) = .ok a.data := by
  have l1 := ha.wf.order.2
  have l2 := ha.wf.bases_len
  have l3 := ha.wf.ext_len
  have hin : InBox a.bases a.extents (firstStored a.storage.ascending a.bases a.extents) := by
    have aux : ∀ (as : List Bool) (bs : List Int) (es : List Nat), bs.length = as.length → es.length = as.length →
        (∀ e ∈ es, 0 < e) → InBox bs es (firstStored as bs es) := by
      intro as
      induction as with
      | nil =>
        intro bs es h1 h2 _
        match bs, es, h1, h2 with
        | [], [], _, _ => exact trivial
      | cons x as ih =>
        intro bs es h1 h2 h3
        match bs, es, h1, h2 with
        | b :: bs, e :: es, h1, h2 =>
          have := h3 e (by simp)
          refine ⟨?_, ?_, ih bs es (by simpa using h1) (by simpa using h2) (fun e he => h3 e (by simp [he]))⟩
          · cases x <;> simp <;> omega
          · cases x <;> simp <;> omega
    exact aux _ _ _ (by omega) (by omega) hne
  refine ⟨hin, ?_⟩
  rw [ha.wf.paren_ok dbg hin]
  simp only [ARef.origin, ARef.data, Ptr.add_add, originOffset_first ha]
  congr 1
  simp [Ptr.add]

example : Reachable 3 exArr ∧ firstStored exArr.storage.ascending exArr.bases exArr.extents = [-1, 5, 3] ∧
    exArr.paren true [-1, 5, 3] = .ok exArr.data ∧ InStorage exArr exArr.origin := ⟨exArr_reachable, by decide, by decide, by decide⟩

/-- **C68 is false in general (1).**  A one-based array: `origin()` lies before its storage, and `a(i)` adds the index to that pointer. -/
theorem C68_counterexample_one_based :
    ∃ a : ARef, Reachable 1 a ∧ a.bases = [1] ∧ a.extents = [5] ∧ a.origin = a.data.add (-1) ∧ ¬ InStorage a a.origin ∧
      accessElement true [1] a.desc = .ok a.data :=
  ⟨_, .ofExtentGen (p := ⟨7, 0⟩) (g := ⟨1, [⟨1, 6⟩]⟩) (so := StorageOrder.cOrder 1) (by decide) rfl rfl rfl,
    by decide, by decide, by decide, by decide, by decide⟩

/-- **C68 is false in general (2).**  A zero-based array in Fortran order with no elements: the subarray `a[2]` is created from a pointer past the end of
the empty storage. -/
theorem C68_counterexample_empty_fortran :
    ∃ a : ARef, Reachable 2 a ∧ a.bases = [0, 0] ∧ a.extents = [3, 0] ∧ a.numElements = 0 ∧
      ∃ d', access true 2 a.desc = .ok d' ∧ d'.base = a.data.add 2 ∧ ¬ InStorage a d'.base :=
  ⟨_, .ofExtents (p := ⟨7, 0⟩) (exts := [3, 0]) (so := StorageOrder.fortranOrder 2) (by decide) rfl,
    by decide, by decide, by decide, _, rfl, by decide, by decide⟩

/-! ### Instances: the theorems applied to concrete cases, whose hypotheses are thereby met -/

example := C68_pointers_in_storage_partial (Reachable.ofExtents (n := 2) (p := ⟨7, 0⟩) (exts := [3, 4]) (cOrder_valid 2) rfl) .array true (by decide) [1, 2]
  (by decide) 1

/- end of instances -/

end MultiArray.Props
