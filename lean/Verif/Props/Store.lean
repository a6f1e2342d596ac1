import Verif.SpecStore
import Verif.Props.Duality
import Verif.Props.Compare

/-
Property theorems C106: saving the elements of an array and loading them into another one.
-/
set_option autoImplicit false

namespace MultiArray.Props
open MultiArray MultiArray.Spec
variable {T : Type}

/-! ### By memory order: `data()`, `num_elements()` and `assign` -/

theorem elemAt_flat {n : Nat} {a : ARef} (ha : Reachable n a) (s : St T) {k : List Nat} (hk : InShape a.extents k) :
    elemAt s a.desc k = s.get? (a.data.add (storageRank a.storage a.extents k : Nat)) ∧
    storageRank a.storage a.extents k < a.numElements := by
  have hb : a.bases.length = a.extents.length := by rw [ha.wf.bases_len, ha.wf.ext_len]
  have hp := C05_layout_formula ha true k hk
  have h1 := hp.1
  rw [C10_array_address ha true _ (inBox_atPos hb hk)] at h1
  refine ⟨?_, hp.2⟩
  unfold elemAt
  rw [← Res.ok.inj h1]
  rfl

theorem elemAt_row {n : Nat} {a : ARef} (ha : Reachable n a) (ho : a.storage = StorageOrder.cOrder n) (s : St T) {k : List Nat}
    (hk : InShape a.extents k) : elemAt s a.desc k = s.get? (a.data.add (rowMajor a.extents k : Nat)) := by
  have hb : a.bases.length = a.extents.length := by rw [ha.wf.bases_len, ha.wf.ext_len]
  have h1 := C04_c_order_row_major ha ho true k hk
  rw [C10_array_address ha true _ (inBox_atPos hb hk)] at h1
  unfold elemAt
  rw [← Res.ok.inj h1]
  rfl

/-- Every array whose elements are alive has a memory image. -/
theorem memoryImage_exists {a : ARef} {s : St T} (hl : Live s a) : ∃ image, MemoryImage s a image := by
  classical
  choose f hf using hl
  refine ⟨(List.range a.numElements).attach.map (fun k => f k.1 (List.mem_range.mp k.2)), by simp, fun k hk => ?_⟩
  rw [List.getElem?_map, List.getElem?_attach]
  simp [hk, hf]

/-- **C106.** Writing the block `[data(), data()+num_elements())` of `a` to a sequence, and later, in whatever state, giving that sequence to
`assign` of an array `b` of the same extents and storage order (its index bases, its place in memory and the history that led to it may differ):
the elements of `b` at every position are those `a` had when it was written, and nothing else changes. -/
theorem C106_memory_image_round_trip {n : Nat} {a b : ARef} (ha : Reachable n a) (hb : Reachable n b) (hext : a.extents = b.extents)
    (hord : a.storage = b.storage) (s : St T) (image : List T) (hi : MemoryImage s a image) (t : St T) (hl : Live t b) (hsched : t.sched = []) :
    ∃ t', b.assign image t = .ok () t' ∧ (∀ k, InShape a.extents k → elemAt t' b.desc k = elemAt s a.desc k) ∧
      (∀ q, (∀ k, InShape b.extents k → q ≠ address b.desc (atPos b.desc.bases k)) → t'.cell? q = t.cell? q) := by
  obtain ⟨t', h1, h2, h3⟩ := C33_assign_in_storage_order hb image t hl hsched
  refine ⟨t', h1, fun k hk => ?_, h3⟩
  obtain ⟨e1, e2⟩ := elemAt_flat ha s hk
  rw [h2 k (by rw [← hext]; exact hk), ← hext, ← hord, if_pos (by rw [hi.1]; exact e2), e1, hi.2 _ e2]

/-- **C106.** Between C order and Fortran order the memory image is the transpose: the image of a C-order array, assigned to a Fortran-order array whose extents
are reversed, gives `b(k_n,...,k_1) = a(k_1,...,k_n)`. -/
theorem C106_memory_image_transposes {n : Nat} {a b : ARef} (ha : Reachable n a) (hb : Reachable n b) (hext : b.extents = a.extents.reverse)
    (hao : a.storage = StorageOrder.cOrder n) (hbo : b.storage = StorageOrder.fortranOrder n) (s : St T) (image : List T)
    (hi : MemoryImage s a image) (t : St T) (hl : Live t b) (hsched : t.sched = []) :
    ∃ t', b.assign image t = .ok () t' ∧ ∀ k, InShape a.extents k → elemAt t' b.desc k.reverse = elemAt s a.desc k := by
  have hna := (C09_array_queries ha).1
  have hnb := (C09_array_queries hb).1
  obtain ⟨t', h1, h2⟩ := C33_assign_in_index_terms hb image t hl hsched (by
    rw [hi.1, hna, hnb, hext, List.prod_reverse])
  refine ⟨t', h1, fun k hk => ?_⟩
  have hk' : InShape b.extents k.reverse := by rw [hext]; exact InShape.reverse hk
  rw [(h2 k.reverse hk').2 hbo, elemAt_row ha hao s hk, hi.2 _ (by rw [hna]; exact rowMajor_lt _ _ hk), hext,
    ← rowMajor_reverse _ _ (by simp [hk.length]), List.reverse_reverse, List.reverse_reverse]

/-! ### By index order: `for_each` -/

theorem applySeq_saver (xs w : List T) : applySeq saver w xs = (xs, w ++ xs) := by
  induction xs generalizing w with
  | nil => simp [applySeq]
  | cons x xs ih => simp [applySeq, saver, ih]

theorem applySeq_loader (input xs : List T) :
    applySeq loader input xs = (input.take xs.length ++ xs.drop input.length, input.drop xs.length) := by
  induction xs generalizing input with
  | nil => simp [applySeq]
  | cons x xs ih =>
    cases input with
    | nil => simp [applySeq, loader, ih]
    | cons v vs => simp [applySeq, loader, ih]

/-- Every array, subarray or view whose elements are alive has a list of its elements by row-major rank. -/
theorem elements_exist {n : Nat} {root : ARef} (hr : Reachable n root) {d : Desc} (h : Handle root d) {s : St T} (hl : Live s root) :
    ∃ xs : List T, xs.length = d.extents.prod ∧ ∀ k, InShape d.extents k → elemAt s d k = xs[rowMajor d.extents k]? := by
  classical
  have hw := handle_wellShaped hr h
  have hv : ∀ k, InShape d.extents k → ∃ v, elemAt s d k = some v := fun k hk => hl.handle hr.wf h (inBox_atPos hw.2 hk)
  choose f hf using hv
  refine ⟨(allPos d.extents).attach.map (fun k => f k.1 ((mem_allPos _ _).mp k.2)), by simp [allPos_length], fun k hk => ?_⟩
  rw [List.getElem?_map, List.getElem?_attach]
  have hg := allPos_rank_get _ _ hk
  rw [hf k hk]
  have : rowMajor d.extents k < (allPos d.extents).length := by rw [allPos_length]; exact rowMajor_lt _ _ hk
  rw [List.getElem?_eq_getElem this, Option.some_inj] at hg
  simp [List.getElem?_eq_getElem this, hg]

/-- **C106.** Saving with `for_each`: what is written is the list of the elements by row-major rank of their position, whatever the storage order, the strides and the
bases, after what had been written before; the array is unchanged. -/
theorem C106_save {n : Nat} {root : ARef} (hr : Reachable n root) {d : Desc} (h : Handle root d) (dbg : Bool) (s : St T) (hl : Live s root)
    (hsched : s.sched = []) (before : List T) :
    ∃ xs s', forEachAcc dbg saver d.extents.length d before s = .ok (before ++ xs) s' ∧ xs.length = d.extents.prod ∧
      (∀ k, InShape d.extents k → xs[rowMajor d.extents k]? = elemAt s d k ∧ elemAt s' d k = elemAt s d k) ∧
      (∀ p, Outside d p → s'.cell? p = s.cell? p) := by
  obtain ⟨xs, h1, h2⟩ := elements_exist hr h hl
  obtain ⟨s', e1, e2, e3, _⟩ := C56_for_each_order hr h dbg saver before s hl hsched xs h1 h2
  rw [applySeq_saver] at e1 e2
  exact ⟨xs, s', e1, h1, fun k hk => ⟨(h2 k hk).symm, (e2 k hk).trans (h2 k hk).symm⟩, e3⟩

/-- **C106.** Loading with `for_each`: the element of row-major rank `r` becomes `input[r]` if the input has that many values and is unchanged otherwise; exactly
`min(length, number of elements)` values are consumed. -/
theorem C106_load {n : Nat} {root : ARef} (hr : Reachable n root) {d : Desc} (h : Handle root d) (dbg : Bool) (s : St T) (hl : Live s root)
    (hsched : s.sched = []) (input : List T) :
    ∃ s', forEachAcc dbg loader d.extents.length d input s = .ok (input.drop d.extents.prod) s' ∧
      (∀ k, InShape d.extents k → elemAt s' d k =
        if rowMajor d.extents k < input.length then input[rowMajor d.extents k]? else elemAt s d k) ∧
      (∀ p, Outside d p → s'.cell? p = s.cell? p) := by
  obtain ⟨xs, h1, h2⟩ := elements_exist hr h hl
  obtain ⟨s', e1, e2, e3, _⟩ := C56_for_each_order hr h dbg loader input s hl hsched xs h1 h2
  rw [applySeq_loader] at e1 e2
  rw [h1] at e1 e2
  refine ⟨s', e1, fun k hk => ?_, e3⟩
  have hlt := rowMajor_lt _ _ hk
  rw [e2 k hk, h2 k hk]
  split
  · rename_i hr
    rw [List.getElem?_append_left (by rw [List.length_take]; omega), List.getElem?_take_of_lt hlt]
  · rename_i hr
    rw [List.getElem?_append_right (by rw [List.length_take]; omega), List.length_take, List.getElem?_drop]
    congr 1; omega

/-- **C106.** Saved with `for_each` from any array, subarray or view and loaded with `for_each` into any other of the same extents, whatever the two storage orders, bases
and strides: the elements come back at the same positions, what follows in the input is left for the next reader, and nothing else changes.  Were the two compared at that
moment (`a` still having its elements), `==` would say they are equal. -/
theorem C106_for_each_round_trip [Nonempty T] {n m : Nat} {ra rb : ARef} (hra : Reachable n ra) (hrb : Reachable m rb) {a b : Desc} (ha : Handle ra a)
    (hb : Handle rb b) (hext : a.extents = b.extents) (dbg dbg' : Bool) (s : St T) (hla : Live s ra) (hs : s.sched = []) :
    ∃ xs s', forEachAcc dbg saver a.extents.length a [] s = .ok xs s' ∧
      ∀ (t : St T) (rest : List T), Live t rb → t.sched = [] →
        ∃ t', forEachAcc dbg' loader b.extents.length b (xs ++ rest) t = .ok rest t' ∧
          (∀ k, InShape a.extents k → elemAt t' b k = elemAt s a k) ∧ (∀ p, Outside b p → t'.cell? p = t.cell? p) ∧
          ((∀ k, InShape a.extents k → elemAt t' a k = elemAt s a k) → Live t' ra → Live t' rb →
            ∀ (eq : T → T → Bool), (∀ x, eq x x = true) → equalRef dbg eq t' a.extents.length a b = .ok true) := by
  obtain ⟨xs, s', e1, e2, e3, _⟩ := C106_save hra ha dbg s hla hs []
  rw [List.nil_append] at e1
  refine ⟨xs, s', e1, fun t rest hlb ht => ?_⟩
  obtain ⟨t', f1, f2, f3⟩ := C106_load hrb hb dbg' t hlb ht (xs ++ rest)
  have hlen : b.extents.prod = xs.length := by rw [e2, hext]
  rw [hlen, List.drop_left] at f1
  have hpos : ∀ k, InShape a.extents k → elemAt t' b k = elemAt s a k := by
    intro k hk
    have hlt : rowMajor a.extents k < xs.length := by rw [e2]; exact rowMajor_lt _ _ hk
    rw [f2 k (by rw [← hext]; exact hk), ← hext, if_pos (by rw [List.length_append]; omega),
      List.getElem?_append_left hlt, (e3 k hk).1]
  refine ⟨t', f1, hpos, f3, fun hsame hla' hlb' eq hrefl => ?_⟩
  have hca : Readable t' a.extents.length a := ⟨n, ra, hra, ha, hla', rfl⟩
  have hcb : Readable t' a.extents.length b := ⟨m, rb, hrb, hb, hlb', by rw [hext]⟩
  obtain ⟨r, g1, _, g2⟩ := C40_equality t' a.extents.length a b hca hcb dbg eq
  rw [g1, Res.ok.injEq, g2]
  refine ⟨hext, fun k hk => ?_⟩
  obtain ⟨f, hf⟩ := hca.contents
  exact ⟨f k, f k, hf k hk, by rw [hpos k hk, ← hsame k hk]; exact hf k hk, hrefl _⟩

/-! ### Instances -/

/-- The 2x3x4 array of the other examples (a permuted storage order, bases 0, 5, 2) and the Fortran-order array of the same shape. -/
example := C106_for_each_round_trip exArr_reachable exArr2_reachable .array .array rfl true true exSt2 exSt2_live rfl
/-- Into the same array after `reindex(3)`. -/
example := C106_memory_image_round_trip exArr_reachable (.reindexAll (b := 3) exArr_reachable) rfl rfl exSt2 (List.range 24)
  ⟨by decide, fun k hk => by change k < 24 at hk; interval_cases k <;> rfl⟩ exSt2 exSt2_live rfl

/-- Loading the memory image into an array of another storage order does not restore the elements. -/
theorem C106_memory_image_needs_same_order :
    ∃ t', exArr2.assign (List.range 24) exSt2 = .ok () t' ∧ MemoryImage exSt2 exArr (List.range 24) ∧ exArr.extents = exArr2.extents ∧
      elemAt t' exArr2.desc [1, 1, 2] ≠ elemAt exSt2 exArr.desc [1, 1, 2] :=
  ⟨_, rfl, ⟨by decide, fun k hk => by change k < 24 at hk; interval_cases k <;> rfl⟩, rfl, by decide⟩

/-- A 4x3x2 Fortran-order array and a 2x3x4 C-order array, 24 elements each. -/
def tpC : ARef :=
  { base := ⟨7, 0⟩, storage := StorageOrder.cOrder 3, extents := [2, 3, 4], strides := [12, 4, 1], bases := [0, 0, 0],
    originOffset := 0, directionalOffset := 0, numElems := 24 }
theorem tpC_reachable : Reachable 3 tpC :=
  .ofExtents (p := ⟨7, 0⟩) (exts := [2, 3, 4]) (so := StorageOrder.cOrder 3) (by decide) (by decide)
def tpF : ARef :=
  { base := ⟨9, 0⟩, storage := StorageOrder.fortranOrder 3, extents := [4, 3, 2], strides := [1, 4, 12], bases := [0, 0, 0],
    originOffset := 0, directionalOffset := 0, numElems := 24 }
theorem tpF_reachable : Reachable 3 tpF :=
  .ofExtents (p := ⟨9, 0⟩) (exts := [4, 3, 2]) (fortranOrder_valid 3) (by decide)

example := C106_memory_image_transposes tpC_reachable tpF_reachable rfl rfl rfl exSt2 (List.range 24)
  ⟨by decide, fun k hk => by change k < 24 at hk; interval_cases k <;> rfl⟩ exSt2
  (fun k hk => by change k < 24 at hk; refine ⟨99, ?_⟩; interval_cases k <;> rfl) rfl

/-- Loading three values of a longer input into `ovArr` (three elements): the fourth value is left. -/
example : ∃ s', forEachAcc true loader 1 ovArr.desc [7, 8, 9, 10] ovSt = .ok [10] s' ∧
    (List.range 3).map (fun k => elemAt s' ovArr.desc [k]) = [some 7, some 8, some 9] := ⟨_, rfl, rfl⟩

end MultiArray.Props
