import Verif.Lemmas.Orders

/-
Property theorems C01-C05, C09, C10: element addressing of arrays.
`Reachable n a`: `a` is the result of any constructor followed by any history of reindex/reshape.
-/
set_option autoImplicit false

namespace MultiArray.Props
open MultiArray MultiArray.Spec

/-- A non-trivial array used to show that the hypotheses below can be met: 3 dimensions, stored in the
order 1,2,0 with dimension 2 descending, bases -1,5,0, over block 7. -/
def exOrder : StorageOrder := ⟨[1, 2, 0], [true, true, false]⟩
def exGen : ExtentGen := ⟨3, [⟨-1, 1⟩, ⟨5, 8⟩, ⟨0, 4⟩]⟩
def exArr : ARef :=
  { base := ⟨7, 0⟩, storage := exOrder, extents := [2, 3, 4], strides := [12, 1, -3], bases := [-1, 5, 0],
    originOffset := 16, directionalOffset := 9, numElems := 24 }

theorem exArr_reachable : Reachable 3 exArr := by
  refine .ofExtentGen (p := ⟨7, 0⟩) (g := exGen) (so := exOrder) (by decide) rfl rfl ?_
  decide

/-- **C01.** Every in-range index tuple addresses an element at offset `0 ≤ k < num_elements()` of
`data()`. -/
theorem C01_addressing_in_block {n : Nat} {a : ARef} (ha : Reachable n a) (dbg : Bool) (idx : List Int)
    (hidx : InBox a.bases a.extents idx) :
    ∃ k : Nat, k < a.numElements ∧ a.paren dbg idx = .ok (a.data.add k) :=
  ⟨_, ha.wf.flat_lt _ (hidx.posOf_lt ha.wf.ext_len), ha.wf.paren_flat dbg hidx⟩

example : Reachable 3 exArr ∧ InBox exArr.bases exArr.extents [0, 6, 2] ∧
    exArr.paren true [0, 6, 2] = .ok (exArr.data.add 16) :=
  ⟨exArr_reachable, by decide, by decide⟩

/-- **C02.** Different in-range tuples address different elements. -/
theorem C02_distinct_elements {n : Nat} {a : ARef} (ha : Reachable n a) (dbg : Bool) (i j : List Int)
    (hi : InBox a.bases a.extents i) (hj : InBox a.bases a.extents j) (hne : i ≠ j) :
    ∃ p q, a.paren dbg i = .ok p ∧ a.paren dbg j = .ok q ∧ p ≠ q := by
  refine ⟨_, _, ha.wf.paren_flat dbg hi, ha.wf.paren_flat dbg hj, ?_⟩
  intro he
  rw [Ptr.add_inj] at he
  apply hne
  apply hi.ext_posOf hj
  have := ha.wf.flat_inj _ _ (hi.posOf_lt ha.wf.ext_len) (hj.posOf_lt ha.wf.ext_len) (by exact_mod_cast he)
  rw [ha.wf.ext_len]
  exact this

example : InBox exArr.bases exArr.extents [0, 6, 2] ∧ InBox exArr.bases exArr.extents [-1, 6, 2] ∧
    ([0, 6, 2] : List Int) ≠ [-1, 6, 2] := by decide

/-- **C03.** Every position of the block is the element of exactly one in-range tuple. -/
theorem C03_every_element_addressable {n : Nat} {a : ARef} (ha : Reachable n a) (dbg : Bool) (k : Nat)
    (hk : k < a.numElements) :
    ∃ idx, (InBox a.bases a.extents idx ∧ a.paren dbg idx = .ok (a.data.add k)) ∧
      ∀ idx', InBox a.bases a.extents idx' → a.paren dbg idx' = .ok (a.data.add k) → idx' = idx := by
  obtain ⟨f, hf, hflat⟩ := ha.wf.flat_surj k hk
  obtain ⟨idx, hin, hpos⟩ := exists_idx a.bases a.extents f (by rw [ha.wf.bases_len, ha.wf.ext_len])
    (by rw [ha.wf.ext_len]; exact hf)
  have hval : a.paren dbg idx = .ok (a.data.add k) := by
    rw [ha.wf.paren_flat dbg hin, ARef.flat_congr ha.wf _ f (by rw [ha.wf.ext_len] at hpos; exact hpos), hflat]
  refine ⟨idx, ⟨hin, hval⟩, ?_⟩
  intro idx' hin' hval'
  rcases Decidable.em (idx' = idx) with h | h
  · exact h
  · obtain ⟨p, q, h1, h2, h3⟩ := C02_distinct_elements ha dbg idx' idx hin' hin h
    rw [hval'] at h1; rw [hval] at h2
    cases h1; cases h2
    exact absurd rfl h3

example : (16 : Nat) < exArr.numElements := by decide

/-- **C04.** `c_storage_order` is row-major ... -/
theorem C04_c_order_row_major {n : Nat} {a : ARef} (ha : Reachable n a)
    (hc : a.storage = StorageOrder.cOrder n) (dbg : Bool) (k : List Nat) (hk : InShape a.extents k) :
    a.paren dbg (atPos a.bases k) = .ok (a.data.add (rowMajor a.extents k : Nat)) := by
  have hb : a.bases.length = a.extents.length := by rw [ha.wf.bases_len, ha.wf.ext_len]
  have hin := inBox_atPos hb hk
  rw [ha.wf.paren_flat dbg hin]
  have hkl := hk.length
  rw [ARef.flat_congr ha.wf _ (fun d => k.getD d 0) (by
    intro d hd
    exact posOf_atPos (by omega) d (by rw [hkl, ha.wf.ext_len]; exact hd))]
  rw [ARef.flat, hc]
  simp only [StorageOrder.cOrder, rev_range]
  rw [← mixed_rowMajor a.extents k hkl, ha.wf.ext_len]
  rw [mixed_congr _ _ _ _ (fun d _ => digit_replicate_true n a.extents (fun d => k.getD d 0) d)]

/-- **C04.** ... and `fortran_storage_order` is column-major. -/
theorem C04_fortran_order_column_major {n : Nat} {a : ARef} (ha : Reachable n a)
    (hc : a.storage = StorageOrder.fortranOrder n) (dbg : Bool) (k : List Nat) (hk : InShape a.extents k) :
    a.paren dbg (atPos a.bases k) = .ok (a.data.add (colMajor a.extents k : Nat)) := by
  have hb : a.bases.length = a.extents.length := by rw [ha.wf.bases_len, ha.wf.ext_len]
  have hin := inBox_atPos hb hk
  rw [ha.wf.paren_flat dbg hin]
  have hkl := hk.length
  rw [ARef.flat_congr ha.wf _ (fun d => k.getD d 0) (by
    intro d hd
    exact posOf_atPos (by omega) d (by rw [hkl, ha.wf.ext_len]; exact hd))]
  rw [ARef.flat, hc]
  simp only [StorageOrder.fortranOrder, List.map_id']
  rw [← mixed_colMajor a.extents k hkl, ha.wf.ext_len]
  rw [mixed_congr _ _ _ _ (fun d _ => digit_replicate_true n a.extents (fun d => k.getD d 0) d)]

/-- The defaults: both orders are valid for every number of dimensions, so such arrays exist. -/
example : ∃ a, Reachable 3 a ∧ a.storage = StorageOrder.cOrder 3 ∧ InShape a.extents [1, 2, 3] ∧
    a.paren true [1, 2, 3] = .ok (a.data.add 23) :=
  ⟨_, .ofExtents (p := ⟨7, 0⟩) (exts := [2, 3, 4]) (so := StorageOrder.cOrder 3) (by decide) rfl, by decide, by decide,
    by decide⟩
example : ∃ a, Reachable 3 a ∧ a.storage = StorageOrder.fortranOrder 3 ∧ InShape a.extents [1, 2, 2] ∧
    a.paren true [1, 2, 2] = .ok (a.data.add 17) :=
  ⟨_, .ofExtents (p := ⟨7, 0⟩) (exts := [2, 3, 4]) (so := StorageOrder.fortranOrder 3) (by decide) rfl, by decide,
    by decide, by decide⟩

/-- **C05.** The stride of dimension `ordering[m]` is the product of the extents of
`ordering[0..m-1]`, negated when that dimension is descending. -/
theorem C05_stride_formula {n : Nat} {a : ARef} (ha : Reachable n a) (m d : Nat)
    (hm : a.storage.ordering[m]? = some d) :
    a.strides[d]? = some ((if a.storage.ascending.getD d true then 1 else -1) *
      (((a.storage.ordering.take m).map (fun d => (a.extents.getD d 0 : Int))).prod)) := by
  have hd : d < a.strides.length := by
    rw [ha.wf.strides_len]
    exact ha.wf.order.mem_lt d (List.mem_of_getElem? hm)
  have := ha.wf.stride_at m d hm
  rw [Int.mul_comm] at this
  rw [← this]
  simp [List.getD_eq_getElem?_getD, hd]

/-- **C05.** Every dimension occurs in `ordering`, so the previous theorem covers all of them. -/
theorem C05_every_dimension {n : Nat} {a : ARef} (ha : Reachable n a) (d : Nat) (hd : d < n) :
    ∃ m : Nat, a.storage.ordering[m]? = some d := by
  obtain ⟨m, hm, h⟩ := List.getElem_of_mem ((ha.wf.order.mem_iff d).mpr hd)
  exact ⟨m, by rw [List.getElem?_eq_getElem hm, h]⟩

/-- **C05.** Mirroring: two arrays over the same block with the same shape and the same `ordering`, but
whose ascending flags may differ: the element at zero-based `k` in one is the element of the other at `k`
with `extent-1-k_d` in exactly the dimensions whose flags differ. -/
theorem C05_descending_mirrors {n : Nat} {a a' : ARef} (ha : Reachable n a) (ha' : Reachable n a')
    (hdata : a.data = a'.data) (hext : a.extents = a'.extents) (hord : a.storage.ordering = a'.storage.ordering)
    (dbg : Bool) (k k' : List Nat) (hk : InShape a.extents k) (hk' : InShape a.extents k')
    (hmir : ∀ d, d < n → k'.getD d 0 =
      if a.storage.ascending.getD d true = a'.storage.ascending.getD d true then k.getD d 0
      else a.extents.getD d 0 - 1 - k.getD d 0) :
    a.paren dbg (atPos a.bases k) = a'.paren dbg (atPos a'.bases k') := by
  have hb : a.bases.length = a.extents.length := by rw [ha.wf.bases_len, ha.wf.ext_len]
  have hb' : a'.bases.length = a'.extents.length := by rw [ha'.wf.bases_len, ha'.wf.ext_len]
  have hin := inBox_atPos hb hk
  have hin' := inBox_atPos hb' (hext ▸ hk')
  rw [ha.wf.paren_flat dbg hin, ha'.wf.paren_flat dbg hin', hdata]
  congr 2
  have hkl := hk.length
  have hkl' := hk'.length
  have hext_len := ha.wf.ext_len
  have hext_len' := ha'.wf.ext_len
  rw [ARef.flat_congr ha.wf _ (fun d => k.getD d 0) (by
    intro d hd; exact posOf_atPos (by omega) d (by omega))]
  rw [ARef.flat_congr ha'.wf _ (fun d => k'.getD d 0) (by
    intro d hd; exact posOf_atPos (by omega) d (by omega))]
  unfold ARef.flat
  rw [← hext, ← hord]
  congr 1
  apply mixed_congr
  intro d hd
  have hdn := ha.wf.order.mem_lt d hd
  have hlt := hin.posOf_lt hext_len d hdn
  rw [posOf_atPos (by omega) d (by omega)] at hlt
  have := hmir d hdn
  simp only [digit]
  rw [this]
  generalize k.getD d 0 = x at hlt
  generalize a.extents.getD d 0 = y at hlt
  cases a.storage.ascending.getD d true <;> cases a'.storage.ascending.getD d true <;> simp
  omega

/-- A mirrored pair: `exArr` and the same array with dimension 2 ascending. -/
def exArr' : ARef := { exArr with
  storage := ⟨[1, 2, 0], [true, true, true]⟩, strides := [12, 1, 3], originOffset := 7, directionalOffset := 0 }
example : Reachable 3 exArr' ∧ exArr.data = exArr'.data ∧ exArr.extents = exArr'.extents ∧
    exArr.storage.ordering = exArr'.storage.ordering ∧
    exArr.paren true (atPos exArr.bases [1, 1, 2]) = .ok (exArr.data.add 16) ∧
    exArr'.paren true (atPos exArr'.bases [1, 1, 1]) = .ok (exArr.data.add 16) :=
  ⟨.ofExtentGen (p := ⟨7, 0⟩) (g := exGen) (so := ⟨[1, 2, 0], [true, true, true]⟩) (by decide) rfl rfl (by decide),
    by decide, by decide, by decide, by decide, by decide⟩

theorem mixed_map_colMajor (exts : List Nat) (dig : Nat → Nat) (ord : List Nat) :
    mixed exts dig ord = colMajor (ord.map (fun d => exts.getD d 0)) (ord.map dig) := by
  induction ord with
  | nil => rfl
  | cons d ds ih => simp only [List.map_cons, mixed, colMajor, ih]

/-- **C05.** Where every element is, for every storage order: the element at zero-based `k` is the one `storageRank` says,
counted from `data()`, and that rank is below `num_elements()`. -/
theorem C05_layout_formula {n : Nat} {a : ARef} (ha : Reachable n a) (dbg : Bool) (k : List Nat)
    (hk : InShape a.extents k) :
    a.paren dbg (atPos a.bases k) = .ok (a.data.add (storageRank a.storage a.extents k : Nat)) ∧
    storageRank a.storage a.extents k < a.numElements := by
  have hb : a.bases.length = a.extents.length := by rw [ha.wf.bases_len, ha.wf.ext_len]
  have hin := inBox_atPos hb hk
  have hkl := hk.length
  have hel := ha.wf.ext_len
  have hc := ARef.flat_congr ha.wf (fun d => ((atPos a.bases k).getD d 0 - a.bases.getD d 0).toNat)
    (fun d => k.getD d 0) (by
      intro d hd
      exact posOf_atPos (by omega) d (by omega))
  have hr : a.flat (fun d => k.getD d 0) = storageRank a.storage a.extents k := by
    rw [ARef.flat, mixed_map_colMajor]; rfl
  have hlt := ha.wf.flat_lt _ (hin.posOf_lt ha.wf.ext_len)
  constructor
  · rw [ha.wf.paren_flat dbg hin, ← hr, ← hc]; rfl
  · rw [← hr, ← hc]; exact hlt

example : Reachable 3 exArr ∧ InShape exArr.extents [1, 1, 2] ∧
    storageRank exArr.storage exArr.extents [1, 1, 2] = 16 := ⟨exArr_reachable, by decide, by decide⟩

/-- **C09.** Shape queries of arrays agree with each other, and `num_elements()` counts the in-range index
tuples. -/
theorem C09_array_queries {n : Nat} {a : ARef} (ha : Reachable n a) :
    a.numElements = a.extents.prod ∧ a.maxSize = a.numElements ∧
    (∀ e es, a.extents = e :: es → a.size = .ok e ∧ a.empty = .ok (decide (e = 0))) ∧
    a.numDims = n ∧ a.extents.length = n ∧ a.strides.length = n ∧ a.bases.length = n ∧
    ∃ l : List (List Int), l.Nodup ∧ l.length = a.numElements ∧ ∀ idx, idx ∈ l ↔ InBox a.bases a.extents idx := by
  have hb : a.bases.length = a.extents.length := by rw [ha.wf.bases_len, ha.wf.ext_len]
  refine ⟨by simp [ARef.numElements, ha.wf.num_eq, product_eq], rfl, ?_, ha.wf.ext_len, ha.wf.ext_len,
    ha.wf.strides_len, ha.wf.bases_len, allIdx a.bases a.extents, allIdx_nodup _ _, ?_, fun idx => mem_allIdx _ _ idx⟩
  · intro e es he
    have h1 : a.size = .ok e := by simp [ARef.size, he, Res.get]
    refine ⟨h1, ?_⟩
    simp only [ARef.empty, h1, Res.bind_ok]
    congr 1
  · rw [allIdx_length _ _ hb]; simp [ARef.numElements, ha.wf.num_eq, product_eq]

/-- **C09.** The same for subarrays. -/
theorem C09_subarray_queries {d : Desc} (hb : d.bases.length = d.extents.length) :
    d.numElements = d.extents.prod ∧ d.maxSize = d.numElements ∧
    (∀ e es, d.extents = e :: es → d.size = .ok e ∧ d.empty = .ok (decide (e = 0))) ∧
    d.numDims = d.extents.length ∧
    ∃ l : List (List Int), l.Nodup ∧ l.length = d.numElements ∧ ∀ idx, idx ∈ l ↔ InBox d.bases d.extents idx := by
  refine ⟨by simp [Desc.numElements, product_eq], rfl, ?_, rfl, allIdx d.bases d.extents, allIdx_nodup _ _, ?_,
    fun idx => mem_allIdx _ _ idx⟩
  · intro e es he
    have h1 : d.size = .ok e := by simp [Desc.size, he, Res.get]
    refine ⟨h1, ?_⟩
    simp only [Desc.empty, h1, Res.bind_ok]
    congr 1
  · rw [allIdx_length _ _ hb]; simp [Desc.numElements, product_eq]

/-- **C10.** An element's address is `origin() + Σ index*stride`, for arrays ... -/
theorem C10_array_address {n : Nat} {a : ARef} (ha : Reachable n a) (dbg : Bool) (idx : List Int)
    (hidx : InBox a.bases a.extents idx) : a.paren dbg idx = .ok (a.origin.add (dot idx a.strides)) :=
  ha.wf.paren_ok dbg hidx

theorem dot_replicate_zero (n : Nat) (ss : List Int) : dot (List.replicate n 0) ss = 0 := by
  induction n generalizing ss with
  | zero => simp [dot]
  | succ n ih => cases ss <;> simp [dot, List.replicate_succ, ih]

/-- **C10.** `data() == origin()` when all bases are 0 and all dimensions ascend. -/
theorem C10_data_eq_origin {n : Nat} {a : ARef} (ha : Reachable n a) (hbases : ∀ b ∈ a.bases, b = 0)
    (hasc : ∀ x ∈ a.storage.ascending, x = true) : a.data = a.origin := by
  have hb : a.bases = List.replicate n 0 := by
    rw [List.eq_replicate_iff]; exact ⟨ha.wf.bases_len, hbases⟩
  have h : a.originOffset = 0 := by
    rw [ha.wf.origin_eq, calcOriginOffset, calcIndexingOffset_eq, hb, dot_replicate_zero]
    have : a.storage.allDimsAscending = true := (allDimsAscending_iff _).mpr hasc
    simp [calcDescOffset, this]
  simp [ARef.origin, ARef.data, h]

/-- **C10.** With all bases 0, `origin()` is the address of `a[0]...[0]` (if the array is not empty). -/
theorem C10_origin_is_element_zero {n : Nat} {a : ARef} (ha : Reachable n a) (hbases : ∀ b ∈ a.bases, b = 0)
    (hne : ∀ e ∈ a.extents, 0 < e) (dbg : Bool) : a.paren dbg (List.replicate n 0) = .ok a.origin := by
  have hb : a.bases = List.replicate n 0 := by
    rw [List.eq_replicate_iff]; exact ⟨ha.wf.bases_len, hbases⟩
  have hin : InBox a.bases a.extents (List.replicate n 0) := by
    apply inBox_of_get
    · rw [ha.wf.bases_len, ha.wf.ext_len]
    · simp [ha.wf.ext_len]
    · intro d hd
      have hz : (List.replicate n (0 : Int)).getD d 0 = 0 := by
        rw [List.getD_eq_getElem?_getD, List.getElem?_replicate]; split <;> rfl
      have := hne a.extents[d] (List.getElem_mem hd)
      rw [hb, hz]
      simp only [List.getD_eq_getElem?_getD, List.getElem?_eq_getElem hd, Option.getD_some]
      omega
  rw [ha.wf.paren_ok dbg hin, dot_replicate_zero, Ptr.add_zero]

/-- **C10.** `data()` is the address of the first element in memory: some in-range tuple is there (if the
array is not empty), and every element is at `data()` or later. -/
theorem C10_data_is_first {n : Nat} {a : ARef} (ha : Reachable n a) (dbg : Bool) (hne : 0 < a.numElements) :
    (∃ idx, InBox a.bases a.extents idx ∧ a.paren dbg idx = .ok a.data) ∧
    ∀ idx p, InBox a.bases a.extents idx → a.paren dbg idx = .ok p → p.blk = a.data.blk ∧ a.data.off ≤ p.off := by
  constructor
  · obtain ⟨idx, ⟨h1, h2⟩, _⟩ := C03_every_element_addressable ha dbg 0 hne
    exact ⟨idx, h1, by simpa using h2⟩
  · intro idx p hin hp
    obtain ⟨k, _, hk⟩ := C01_addressing_in_block ha dbg idx hin
    rw [hp] at hk
    cases hk
    simp [Ptr.add]

example : 0 < exArr.numElements ∧ exArr.paren true [-1, 5, 3] = .ok exArr.data := by decide
/-- A C-order array with zero bases meets the hypotheses of the `origin` theorems. -/
example : ∃ a, Reachable 2 a ∧ (∀ b ∈ a.bases, b = 0) ∧ (∀ x ∈ a.storage.ascending, x = true) ∧
    (∀ e ∈ a.extents, 0 < e) :=
  ⟨_, .ofExtents (p := ⟨7, 0⟩) (exts := [2, 3]) (so := StorageOrder.cOrder 2) (by decide) rfl, by decide, by decide,
    by decide⟩

/-! ### Instances: the theorems applied to concrete cases, whose hypotheses are thereby met -/

/-- `boost::multi_array<T,3>` with extents 2, 3, 4 in C order. -/
theorem exC_reachable : Reachable 3 (⟨⟨7, 0⟩, StorageOrder.cOrder 3, [2, 3, 4], [12, 4, 1], [0, 0, 0], 0, 0, 24⟩ : ARef) :=
  .ofExtents (p := ⟨7, 0⟩) (exts := [2, 3, 4]) (so := StorageOrder.cOrder 3) (by decide) rfl
example := C04_c_order_row_major exC_reachable rfl true [1, 2, 3] (by decide)
example := C05_stride_formula exArr_reachable 2 0 rfl
example := C05_every_dimension exArr_reachable 2 (by decide)
example := C09_array_queries exArr_reachable
example := C09_subarray_queries (d := ⟨⟨7, 20⟩, [3, 4], [1, -3], [5, 0]⟩) rfl
example := C10_array_address exArr_reachable true [0, 6, 2] (by decide)
example := C10_data_eq_origin exC_reachable (by decide) (by decide)
example := C10_origin_is_element_zero exC_reachable (by decide) (by decide) true

/- end of instances -/

end MultiArray.Props
