import Verif.Lemmas.Machine
import Verif.Props.Views

/- Property theorems C51: 64-bit arithmetic. -/
set_option autoImplicit false

namespace MultiArray.Props
open MultiArray Spec

theorem prod_le_sizeBound (l : List Nat) : l.prod ≤ sizeBound l := by
  unfold sizeBound
  induction l with
  | nil => exact Nat.le_refl _
  | cons x xs ih =>
    simp only [List.map_cons, List.prod_cons]
    exact Nat.mul_le_mul (by omega) ih

theorem prod_eq_sizeBound {l : List Nat} (h : ∀ e ∈ l, 0 < e) : sizeBound l = l.prod := by
  unfold sizeBound
  congr 1
  conv => rhs; rw [← List.map_id l]
  apply List.map_congr_left
  intro x hx
  have := h x hx
  simp only [id]; omega

/-- **C51**, construction: for every shape, storage order and index bases whose array fits, the constructor's 64-bit computation (wrapping `size_type`,
checked `ptrdiff_t`) has no overflow and produces exactly the ideal header: same number of elements, strides, origin offset. -/
theorem C51_construction {n : Nat} {p : Ptr} {so : StorageOrder} {bs : List Int} {exts : List Nat} {a : ARef} (hv : ValidOrder n so)
    (hb : bs.length = n) (h : ARef.init n p so bs exts = .ok a) (hfit : ArrayFits a) : Machine.init n p so bs exts = .ok a := by
  obtain ⟨hwf, _, e3, e4, e5, hle⟩ := ARef.init_ok h hv hb
  have hlen : (exts.take n).length = n := by simp [hle]
  have hss := hwf.strides_eq
  unfold ArrayFits at hfit
  rw [e3, e5] at hss
  rw [e4, e5] at hfit
  unfold ARef.init at h
  unfold Machine.init
  cases hc : copyN exts n with
  | assertFail => rw [hc] at h; cases h
  | ub => rw [hc] at h; cases h
  | ok ext =>
    obtain ⟨rfl, _, _⟩ := copyN_ok hc
    rw [hc] at h
    simp only [Res.bind_ok] at h ⊢
    rw [hss] at h
    rw [Machine.computeStrides_eq _ hv hlen (by omega), hss]
    simp only [Res.bind_ok] at h ⊢
    rw [Machine.calcOriginOffset_ok hv hlen hfit hss, Res.bind_ok, Machine.calcDescOffset_eq' hv hlen (by omega) hss,
      Machine.product_eq' (by
        rw [product_eq]
        have := prod_le_sizeBound (exts.take n)
        omega)]
    exact h

/-- **C51**, `reindex`: the same, whenever the reindexed array fits. -/
theorem C51_reindex {n : Nat} {a a' : ARef} (ha : Reachable n a) {bs : List Int} (h : a.reindexList bs = .ok a') (hfit : ArrayFits a') :
    Machine.reindex a bs = .ok a' := by
  obtain ⟨e, hle⟩ := ARef.reindexList_ok ha.wf h
  unfold ArrayFits at hfit
  rw [e] at hfit
  simp only at hfit
  unfold ARef.reindexList at h
  unfold Machine.reindex
  cases hc : copyN bs a.numDims with
  | assertFail => rw [hc] at h; cases h
  | ub => rw [hc] at h; cases h
  | ok b =>
    obtain ⟨hb, _, _⟩ := copyN_ok hc
    simp only [ARef.numDims, ha.wf.ext_len] at hb
    rw [hc] at h
    simp only [Res.bind_ok] at h ⊢
    rw [Machine.calcOriginOffset_ok ha.wf.order ha.wf.ext_len (by rw [hb]; exact hfit) ha.wf.strides_eq, Res.bind_ok]
    exact h

/-- **C51**, `reshape`: the same, whenever the reshaped array fits (the assertion that the number of elements is unchanged is decided correctly too). -/
theorem C51_reshape {n : Nat} {a a' : ARef} (ha : Reachable n a) {dbg : Bool} {es : List Nat} (hlen : es.length = n)
    (h : a.reshape dbg es = .ok a') (hfit : ArrayFits a') : Machine.reshape dbg a es = .ok a' := by
  obtain ⟨ss, hss, e⟩ := ARef.reshape_ok ha.wf hlen h
  unfold ArrayFits at hfit
  rw [e] at hfit
  simp only at hfit
  have hss' : computeStrides a.strides es a.storage = .ok ss := by
    rw [computeStrides_init_irrelevant ha.wf.order es a.strides (List.replicate n 0) ha.wf.strides_len (by simp)]
    exact hss
  have hp : Machine.product es = product es := Machine.product_eq' (by
    rw [product_eq]; have := prod_le_sizeBound es; omega)
  unfold ARef.reshape at h
  unfold Machine.reshape
  rw [hp]
  cases hx : Res.assert dbg (decide (a.numElems = product es)) with
  | assertFail => rw [hx] at h; cases h
  | ub => rw [hx] at h; cases h
  | ok u =>
    have hcp : copyPrefix es a.extents = .ok es := by simp [copyPrefix, hlen, ha.wf.ext_len]
    rw [hx, hcp] at h
    rw [hcp]
    simp only [Res.bind_ok] at h ⊢
    rw [hss'] at h
    rw [Machine.computeStrides_eq _ ha.wf.order hlen (by omega), hss']
    simp only [Res.bind_ok] at h ⊢
    rw [Machine.calcOriginOffset_ok ha.wf.order hlen hfit hss, Res.bind_ok]
    exact h

/-- **C51**, element access through any handle (array, subarray, view): with assertions on or off, for any index tuple, in range or not, whose
distances to the bases and whose `Σ |index_d * stride_d|` are representable, `x(idx)` and `x[i]...[j]` compute exactly what the ideal
computation does (including which assertion fails). -/
theorem C51_access (dbg : Bool) (idx : List Int) (d : Desc) (h1 : DistancesFit d.bases idx) (h2 : absDot idx d.strides < 2 ^ 63) :
    Machine.accessElement dbg idx d = accessElement dbg idx d ∧ Machine.accessChain dbg idx d = accessChain dbg idx d :=
  ⟨Machine.accessElement_eq dbg idx d h1 h2, Machine.accessChain_eq dbg idx d h1 h2⟩

/-- Strides without their signs are mixed-radix weights. -/
theorem csLoop_abs (asc : List Bool) (exts : List Nat) (n : Nat) (ha : asc.length = n) (he : exts.length = n)
    (k : Nat → Nat) (ord : List Nat) (stride : Nat) (sl sl' : List Int) (hsl : sl.length = n)
    (hord : ∀ d ∈ ord, d < n) (hnd : ord.Nodup)
    (hok : computeStridesLoop asc exts ord stride sl = .ok sl') :
    (ord.map (fun d => k d * (sl'.getD d 0).natAbs)).sum = stride * mixed exts k ord := by
  induction ord generalizing stride sl with
  | nil => simp [mixed]
  | cons d ds ih =>
    have hdn := hord d (by simp)
    have h1 : Res.get asc d = .ok asc[d] := by simp [Res.get, ha, hdn]
    have h2 : Res.get exts d = .ok exts[d] := by simp [Res.get, he, hdn]
    simp only [computeStridesLoop, h1, h2, Res.bind_ok, hsl, hdn, if_true] at hok
    have hnd' := List.nodup_cons.mp hnd
    have hrest := ih (stride * exts[d]) (sl.set d ((stride : Int) * (if asc[d] then 1 else -1))) (by simpa using hsl)
      (fun d' hd' => hord d' (by simp [hd'])) hnd'.2 (by push_cast; exact hok)
    obtain ⟨sl'', hok'', hlen'', hkeep⟩ := csLoop_ok asc exts n ha he ds ((stride : Int) * (exts[d] : Int))
      (sl.set d ((stride : Int) * (if asc[d] then 1 else -1))) (by simpa using hsl) (fun d' hd' => hord d' (by simp [hd']))
    rw [hok] at hok''
    cases hok''
    have hval : (sl'.getD d 0).natAbs = stride := by
      rw [hkeep d hnd'.1]
      simp only [List.getD_eq_getElem?_getD, List.getElem?_set_self (by omega : d < sl.length), Option.getD_some]
      split <;> omega
    have hea : exts.getD d 0 = exts[d] := by simp [List.getD_eq_getElem?_getD, he, hdn]
    simp only [List.map_cons, List.sum_cons, hrest, mixed, hval, hea]
    ring

theorem absDot_sum (n : Nat) (xs ys : List Int) (hx : xs.length = n) (hy : ys.length = n) :
    absDot xs ys = ((List.range n).map (fun d => (xs.getD d 0 * ys.getD d 0).natAbs)).sum := by
  induction n generalizing xs ys with
  | zero => match xs, ys, hx, hy with | [], [], _, _ => rfl
  | succ n ih => match xs, ys, hx, hy with
    | x :: xs, y :: ys, hx, hy =>
      rw [List.range_succ_eq_map]
      simp only [absDot, List.map_cons, List.sum_cons, List.map_map]
      rw [ih xs ys (by simpa using hx) (by simpa using hy)]
      rfl

/-- In-range indices stay within the array's own bound. -/
theorem absDot_inBox {n : Nat} {a : ARef} (hwf : a.WF n) {idx : List Int} (hin : InBox a.bases a.extents idx) :
    absDot idx a.strides < a.numElems + absDot a.bases a.strides := by
  have hlen := hin.length
  have hil : idx.length = n := by rw [hlen.1, hwf.ext_len]
  have hsl := hwf.strides_len
  have hkb : ∀ d, d < n → 0 ≤ idx.getD d 0 - a.bases.getD d 0 ∧ posOf a.bases idx d < a.extents.getD d 0 := by
    intro d hd
    have := hin.get d (by rw [hwf.ext_len]; exact hd)
    unfold posOf; omega
  have key := csLoop_abs a.storage.ascending a.extents n hwf.order.2 hwf.ext_len (posOf a.bases idx) a.storage.ordering 1
    (List.replicate n 0) a.strides (by simp) hwf.order.mem_lt hwf.order.nodup hwf.strides_eq
  rw [(hwf.order.1.map _).sum_eq, Nat.one_mul] at key
  have hlt := mixed_lt a.extents (posOf a.bases idx) a.storage.ordering (fun d hd => (hkb d (hwf.order.mem_lt d hd)).2)
  rw [prod_perm_range n a.extents hwf.ext_len a.storage.ordering hwf.order.1, ← key] at hlt
  rw [hwf.num_eq, product_eq, absDot_sum n _ _ hil hsl, absDot_sum n _ _ hwf.bases_len hsl]
  have hsum : ∀ (l : List Nat), (∀ d ∈ l, d < n) →
      (l.map (fun d => (idx.getD d 0 * a.strides.getD d 0).natAbs)).sum ≤
        (l.map (fun d => posOf a.bases idx d * (a.strides.getD d 0).natAbs)).sum +
        (l.map (fun d => (a.bases.getD d 0 * a.strides.getD d 0).natAbs)).sum := by
    intro l hl
    induction l with
    | nil => simp
    | cons d ds ih =>
      have h1 := ih (fun x hx => hl x (by simp [hx]))
      have h2 := hkb d (hl d (by simp))
      simp only [List.map_cons, List.sum_cons]
      have h3 : (idx.getD d 0 * a.strides.getD d 0).natAbs ≤
          posOf a.bases idx d * (a.strides.getD d 0).natAbs + (a.bases.getD d 0 * a.strides.getD d 0).natAbs := by
        rw [Int.natAbs_mul, Int.natAbs_mul, ← Nat.add_mul]
        apply Nat.mul_le_mul_right
        unfold posOf
        omega
      omega
  have := hsum (List.range n) (fun d hd => by simpa using hd)
  omega

theorem distances_inBox {bs idx : List Int} {es : List Nat} (h : InBox bs es idx) (he : ∀ e ∈ es, e < 2 ^ 63) : DistancesFit bs idx := by
  induction es generalizing bs idx with
  | nil => match bs, idx, h with | [], [], _ => trivial
  | cons e es ih => match bs, idx, h with
    | b :: bs, i :: idx, h =>
      obtain ⟨h1, h2, h3⟩ := h
      have := he e (by simp)
      exact ⟨by unfold Machine.InIndex; omega, ih h3 (fun x hx => he x (by simp [hx]))⟩

theorem le_sizeBound {l : List Nat} {e : Nat} (h : e ∈ l) : e ≤ sizeBound l := by
  unfold sizeBound
  induction l with
  | nil => cases h
  | cons x xs ih =>
    simp only [List.map_cons, List.prod_cons]
    have hp := Machine.prod_max_pos xs
    rcases List.mem_cons.mp h with rfl | h
    · have : max 1 e * 1 ≤ max 1 e * (xs.map (max 1)).prod := Nat.mul_le_mul_left _ hp
      omega
    · have h1 := ih h
      have : 1 * (xs.map (max 1)).prod ≤ max 1 x * (xs.map (max 1)).prod := Nat.mul_le_mul_right _ (by omega)
      omega

/-- **C51**, the array itself: if an array fits, *every* in-range element access, by `a(idx)` or `a[i]...[j]`, with assertions on or off, is computed
without overflow and yields the ideal address. -/
theorem C51_in_range_access {n : Nat} {a : ARef} (ha : Reachable n a) (hfit : ArrayFits a) (dbg : Bool) {idx : List Int}
    (hin : InBox a.bases a.extents idx) :
    Machine.paren dbg a idx = a.paren dbg idx ∧ Machine.accessChain dbg idx a.desc = a.chain dbg idx ∧
    ∃ k, Machine.paren dbg a idx = .ok (a.data.add k) ∧ 0 ≤ k ∧ k < (a.numElements : Int) := by
  have hsum := absDot_inBox ha.wf hin
  unfold ArrayFits at hfit
  have hnum : a.numElems ≤ sizeBound a.extents := by rw [ha.wf.num_eq, product_eq]; exact prod_le_sizeBound _
  have hd : DistancesFit a.desc.bases idx := distances_inBox hin (fun e he => by have := le_sizeBound he; omega)
  obtain ⟨h1, h2⟩ := C51_access dbg idx a.desc hd (by show absDot idx a.strides < _; omega)
  refine ⟨h1, h2, ?_⟩
  have h3 : Machine.paren dbg a idx = a.paren dbg idx := h1
  rw [h3, ha.wf.paren_flat dbg hin]
  refine ⟨_, rfl, by omega, ?_⟩
  have := ha.wf.flat_lt (posOf a.bases idx) (fun d hd => by
    have := hin.get d (by rw [ha.wf.ext_len]; exact hd)
    unfold posOf; omega)
  simp only [ARef.numElements]
  omega

/-- **C51**, default index bases: an array with non-zero extents whose number of elements is at most `PTRDIFF_MAX` fits; nothing else is needed. -/
theorem C51_zero_based_fits {n : Nat} {p : Ptr} {so : StorageOrder} {exts : List Nat} {a : ARef} (hv : ValidOrder n so)
    (h : ARef.ofExtents n p exts so = .ok a) (hpos : ∀ e ∈ a.extents, 0 < e) (hsize : a.numElements < 2 ^ 63) : ArrayFits a := by
  obtain ⟨hwf, _, _, e4, _, _⟩ := ARef.init_ok (bs := List.replicate n 0) h hv (by simp)
  unfold ArrayFits
  have hz : ∀ (m : Nat) (ss : List Int), absDot (List.replicate m 0) ss = 0 := by
    intro m
    induction m with
    | zero => intro ss; simp [absDot]
    | succ m ih =>
      intro ss
      cases ss with
      | nil => simp [absDot]
      | cons s ss => rw [List.replicate_succ]; simp [absDot, ih]
  rw [e4, hz, prod_eq_sizeBound hpos, ← product_eq, ← hwf.num_eq]
  exact hsize

/-- **C51**, slicing: for ranges that fit, `x[indices...]` computes exactly the ideal view - lengths, strides, offset and number of elements - with the
same assertion outcome. -/
theorem C51_views (dbg : Bool) (g : IndexGen) (d : Desc) (h : RangesFit d.bases d.extents d.strides g.ranges)
    (ho : absDot (startsOf g.ranges d.bases) d.strides < 2 ^ 63)
    (hp : ∀ v, generateArrayView dbg g d = .ok v → v.numElements < 2 ^ 64) :
    Machine.generateArrayView dbg g d = generateArrayView dbg g d := Machine.generateArrayView_eq dbg g d h ho hp

/-- **C51**, `reindex` of a view. -/
theorem C51_view_reindex {v v' : View} {bs : List Int} (h : v.reindexList bs = .ok v') (hfit : absDot v'.bases v'.strides < 2 ^ 63) :
    Machine.viewReindex v bs = .ok v' := by
  unfold View.reindexList at h
  unfold Machine.viewReindex
  cases hc : copyN bs v.numDims with
  | assertFail => rw [hc] at h; cases h
  | ub => rw [hc] at h; cases h
  | ok b =>
    rw [hc] at h
    simp only [Res.bind_ok, Res.ok.injEq] at h ⊢
    subst h
    rw [Machine.calcIndexingOffset_ok hfit, Res.bind_ok]

/-- Hypotheses met at the edge: 2^31 x 2^31 x 1 elements, a reversed middle dimension, and an empty dimension in another array (where the `size_type`
expression `extent - 1` wraps). -/
example : ∃ a b, ValidOrder 3 ⟨[0, 2, 1], [true, false, true]⟩ ∧
    ARef.init 3 ⟨7, 0⟩ ⟨[0, 2, 1], [true, false, true]⟩ [-3, 5, 0] [2 ^ 31, 2 ^ 31, 1] = .ok a ∧ ArrayFits a ∧
    a.numElements = 2 ^ 62 ∧ InBox a.bases a.extents [-3, 2 ^ 31 + 4, 0] ∧
    ARef.init 3 ⟨7, 0⟩ ⟨[0, 2, 1], [true, false, false]⟩ [-3, 5, 0] [4, 2, 0] = .ok b ∧ ArrayFits b ∧ b.originOffset = -1 :=
  ⟨_, _, by decide, rfl, by unfold ArrayFits; decide, by decide, by decide, rfl, by unfold ArrayFits; decide, by decide⟩

/-- `C51_views` applies: a reversed strided slice of `exArr`. -/
example : RangesFit exArr.desc.bases exArr.desc.extents exArr.desc.strides
      [IndexRange.default, IndexRange.single 6, IndexRange.mk3 3 (-1) (-2)] ∧
    absDot (startsOf [IndexRange.default, IndexRange.single 6, IndexRange.mk3 3 (-1) (-2)] exArr.desc.bases) exArr.desc.strides < 2 ^ 63 ∧
    Machine.generateArrayView true ⟨3, 2, [IndexRange.default, IndexRange.single 6, IndexRange.mk3 3 (-1) (-2)]⟩ exArr.desc =
      generateArrayView true ⟨3, 2, [IndexRange.default, IndexRange.single 6, IndexRange.mk3 3 (-1) (-2)]⟩ exArr.desc := by
  refine ⟨?_, by decide, by decide⟩
  refine ⟨?_, ?_, ?_, trivial⟩ <;> (unfold RangeFits; decide)

/-- The size condition matters: the library does not check it.  With extents 2^32 x 2^32 the element count wraps: `num_elements()` is 0 (so a
`multi_array` of this shape allocates nothing) while `a[1][0]` passes all assertions and addresses `data() + 2^32`. -/
theorem C51_hazard_size_wraps : ∃ a, Machine.init 2 ⟨7, 0⟩ (StorageOrder.cOrder 2) [0, 0] [2 ^ 32, 2 ^ 32] = .ok a ∧ a.numElements = 0 ∧
    a.extents = [2 ^ 32, 2 ^ 32] ∧ Machine.paren true a [1, 0] = .ok (a.data.add (2 ^ 32)) :=
  ⟨⟨⟨7, 0⟩, StorageOrder.cOrder 2, [2 ^ 32, 2 ^ 32], [2 ^ 32, 1], [0, 0], 0, 0, 0⟩, by decide, rfl, rfl, by decide⟩

/-! ### Instances: the theorems applied to concrete cases, whose hypotheses are thereby met -/

example := C51_construction (n := 3) (p := ⟨7, 0⟩) (so := ⟨[0, 2, 1], [true, false, true]⟩) (bs := [-3, 5, 0]) (exts := [4, 2, 3])
  (by decide) rfl rfl (by unfold ArrayFits; decide)
example := C51_reindex exArr_reachable (bs := [3, -2, 0]) rfl (by unfold ArrayFits; decide)
example := C51_reshape exArr_reachable (dbg := true) (es := [4, 1, 6]) rfl rfl (by unfold ArrayFits; decide)
example := C51_access true [0, 6, 2] exArr.desc ⟨by decide, by decide, by decide, trivial⟩ (by decide)
example := C51_in_range_access exArr_reachable (by unfold ArrayFits; decide) true (idx := [0, 6, 2]) (by decide)
example := C51_zero_based_fits (n := 2) (p := ⟨7, 0⟩) (exts := [3, 4]) (fortranOrder_valid 2) rfl (by decide) (by decide)

/- end of instances -/

end MultiArray.Props
