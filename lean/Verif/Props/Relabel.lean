import Verif.Props.Access

/- Property theorems C11-C15: reindex and reshape. -/
set_option autoImplicit false

namespace MultiArray.Props
open MultiArray MultiArray.Spec

/-- **C11.** `reindex(list)`: sets the bases, changes nothing else observable, and the element formerly at
`base+k` is now at `newbase+k`. -/
theorem C11_reindex_relabels {n : Nat} {a : ARef} (ha : Reachable n a) (bs : List Int) (hbs : bs.length = n) :
    ∃ a', a.reindexList bs = .ok a' ∧ a'.bases = bs ∧ a'.extents = a.extents ∧ a'.strides = a.strides ∧
      a'.storage = a.storage ∧ a'.data = a.data ∧ a'.numElements = a.numElements ∧
      ∀ dbg k, InShape a.extents k → a'.paren dbg (atPos bs k) = a.paren dbg (atPos a.bases k) := by
  have hok := ARef.reindexList_succeeds bs ha.wf (by omega)
  refine ⟨_, hok, by simp [← hbs], rfl, rfl, rfl, rfl, rfl, ?_⟩
  intro dbg k hk
  have ha' : Reachable n _ := .reindexList ha hok
  have htake : bs.take n = bs := by simp [← hbs]
  have hin : InBox a.bases a.extents (atPos a.bases k) :=
    inBox_atPos (by rw [ha.wf.bases_len, ha.wf.ext_len]) hk
  have hin' : InBox bs a.extents (atPos bs k) := inBox_atPos (by rw [hbs, ha.wf.ext_len]) hk
  rw [ha.wf.paren_flat dbg hin]
  rw [ha'.wf.paren_flat dbg (idx := atPos bs k) (by simpa [htake] using hin')]
  simp only [ARef.data, htake, ARef.flat]
  congr 3
  have hkl := hk.length
  have e1 := ha.wf.bases_len
  have e2 := ha.wf.ext_len
  apply mixed_congr
  intro d hd
  have hdn := ha.wf.order.mem_lt d hd
  simp only [digit]
  rw [posOf_atPos (by omega) d (by omega), posOf_atPos (by omega) d (by omega)]

/-- **C11.** `reindex(index)` is `reindex` with that base in every dimension. -/
theorem C11_reindex_all {n : Nat} {a : ARef} (ha : Reachable n a) (b : Int) :
    a.reindexList (List.replicate n b) = .ok (a.reindexAll b) := by
  rw [ARef.reindexList_succeeds _ ha.wf (by simp)]
  simp [ARef.reindexAll, ARef.numDims, ha.wf.ext_len]

example : ∃ a', exArr.reindexList [3, -2, 0] = .ok a' ∧ a'.paren true [4, -1, 2] = exArr.paren true [0, 6, 2] :=
  ⟨_, rfl, by decide⟩

/-- The `reindex` calls. -/
inductive Reindex where
  | list (bs : List Int)
  | all (b : Int)

/-- Run a sequence of `reindex` calls. -/
def runReindex (a : ARef) : List Reindex → Res ARef
  | [] => .ok a
  | .list bs :: ops => do runReindex (← a.reindexList bs) ops
  | .all b :: ops => runReindex (a.reindexAll b) ops

theorem reindex_over {n : Nat} {a a' : ARef} (ha : Reachable n a) (op last : Reindex)
    (h : runReindex a [op] = .ok a') : runReindex a' [last] = runReindex a [last] := by
  have key : a' = { a with bases := a'.bases, originOffset := a'.originOffset } := by
    cases op with
    | list bs =>
      simp only [runReindex] at h
      cases hc : a.reindexList bs with
      | ok x =>
        rw [hc] at h; cases h
        obtain ⟨rfl, _⟩ := ARef.reindexList_ok ha.wf hc
        rfl
      | assertFail => rw [hc] at h; cases h
      | ub => rw [hc] at h; cases h
    | all b => simp only [runReindex, Res.ok.injEq] at h; subst h; rfl
  cases last with
  | list bs =>
    simp only [runReindex, ARef.reindexList]
    rw [key]
    rfl
  | all b =>
    simp only [runReindex, ARef.reindexAll]
    rw [key]
    rfl

/-- **C12.** A sequence of reindex calls leaves the array exactly as the last call alone would. -/
theorem C12_reindex_history_collapses {n : Nat} {a a' : ARef} (ha : Reachable n a) (ops : List Reindex)
    (last : Reindex) (h : runReindex a (ops ++ [last]) = .ok a') : runReindex a [last] = .ok a' := by
  induction ops generalizing a with
  | nil => exact h
  | cons op ops ih =>
    cases op with
    | list bs =>
      simp only [List.cons_append, runReindex] at h
      cases hc : a.reindexList bs with
      | ok x =>
        rw [hc, Res.bind_ok] at h
        have hx := ih (.reindexList ha hc) h
        rw [reindex_over ha (.list bs) last (by simp [runReindex, hc])] at hx
        exact hx
      | assertFail => rw [hc] at h; cases h
      | ub => rw [hc] at h; cases h
    | all b =>
      simp only [List.cons_append, runReindex] at h
      have hx := ih (.reindexAll ha) h
      rw [reindex_over ha (.all b) last (by simp [runReindex])] at hx
      exact hx

/-- **C12.** Reindexing back to the original bases, after any reindex history, restores the original array
exactly. -/
theorem C12_reindex_restores {n : Nat} {a a' : ARef} (ha : Reachable n a) (ops : List Reindex)
    (h : runReindex a (ops ++ [.list a.bases]) = .ok a') : a' = a := by
  have hl := C12_reindex_history_collapses ha ops _ h
  simp only [runReindex] at hl
  rw [ARef.reindexList_succeeds a.bases ha.wf (by rw [ha.wf.bases_len])] at hl
  have htake : a.bases.take n = a.bases := by rw [← ha.wf.bases_len]; simp
  simp only [Res.bind_ok, Res.ok.injEq] at hl
  rw [← hl, htake, ← ha.wf.origin_eq]

example : ∃ a', runReindex exArr [.all 4, .list [1, 2, 3], .list exArr.bases] = .ok a' := ⟨_, rfl⟩

/-- **C13.** `reshape` to extents with the same product: requested shape, everything else unchanged, and the
tuples of the new shape address exactly the elements the old ones did. -/
theorem C13_reshape_preserves {n : Nat} {a : ARef} (ha : Reachable n a) (dbg : Bool) (exts : List Nat)
    (hlen : exts.length = n) (hprod : exts.prod = a.numElements) :
    ∃ a', a.reshape dbg exts = .ok a' ∧ a'.extents = exts ∧ a'.data = a.data ∧ a'.numElements = a.numElements ∧
      a'.bases = a.bases ∧ a'.storage = a.storage ∧
      ∀ p, (∃ idx, InBox a'.bases a'.extents idx ∧ a'.paren dbg idx = .ok p) ↔
           (∃ idx, InBox a.bases a.extents idx ∧ a.paren dbg idx = .ok p) := by
  obtain ⟨a', hok⟩ := ARef.reshape_succeeds dbg ha.wf hlen hprod
  have ha' : Reachable n a' := .reshape ha hlen hprod hok
  obtain ⟨ss, hss, heq⟩ := ARef.reshape_ok ha.wf hlen hok
  refine ⟨a', hok, by rw [heq], by rw [heq]; rfl, by rw [heq]; rfl, by rw [heq], by rw [heq], ?_⟩
  have hdata : a'.data = a.data := by rw [heq]; rfl
  have hnum : a'.numElements = a.numElements := by rw [heq]; rfl
  intro p
  constructor
  · rintro ⟨idx, hin, hp⟩
    obtain ⟨k, hk, hpk⟩ := C01_addressing_in_block ha' dbg idx hin
    rw [hp] at hpk; cases hpk
    obtain ⟨i, ⟨h1, h2⟩, _⟩ := C03_every_element_addressable ha dbg k (hnum ▸ hk)
    exact ⟨i, h1, hdata ▸ h2⟩
  · rintro ⟨idx, hin, hp⟩
    obtain ⟨k, hk, hpk⟩ := C01_addressing_in_block ha dbg idx hin
    rw [hp] at hpk; cases hpk
    obtain ⟨i, ⟨h1, h2⟩, _⟩ := C03_every_element_addressable ha' dbg k (hnum ▸ hk)
    exact ⟨i, h1, hdata ▸ h2⟩

/-- **C13.** For the C storage order: the `r`-th element in row-major order of the new shape is the `r`-th in
row-major order of the old one. -/
theorem C13_reshape_keeps_sequence {n : Nat} {a a' : ARef} (ha : Reachable n a) (dbg : Bool) (exts : List Nat)
    (hlen : exts.length = n) (hprod : exts.prod = a.numElements) (hok : a.reshape dbg exts = .ok a')
    (hc : a.storage = StorageOrder.cOrder n) (k k' : List Nat) (hk : InShape a.extents k) (hk' : InShape exts k')
    (hsame : rowMajor a.extents k = rowMajor exts k') :
    a'.paren dbg (atPos a'.bases k') = a.paren dbg (atPos a.bases k) := by
  have ha' : Reachable n a' := .reshape ha hlen hprod hok
  obtain ⟨ss, hss, heq⟩ := ARef.reshape_ok ha.wf hlen hok
  have he : a'.extents = exts := by rw [heq]
  rw [C04_c_order_row_major ha hc dbg k hk,
    C04_c_order_row_major ha' (by rw [heq]; exact hc) dbg k' (he ▸ hk'), he, hsame]
  rw [heq]; rfl

/-- **C13.** The same for every storage order: the `r`-th element in storage order before is the `r`-th after. -/
theorem C13_reshape_keeps_storage_sequence {n : Nat} {a a' : ARef} (ha : Reachable n a) (dbg : Bool) (exts : List Nat)
    (hlen : exts.length = n) (hprod : exts.prod = a.numElements) (hok : a.reshape dbg exts = .ok a')
    (k k' : List Nat) (hk : InShape a.extents k) (hk' : InShape exts k')
    (hsame : storageRank a.storage a.extents k = storageRank a.storage exts k') :
    a'.paren dbg (atPos a'.bases k') = a.paren dbg (atPos a.bases k) := by
  have ha' : Reachable n a' := .reshape ha hlen hprod hok
  obtain ⟨ss, hss, heq⟩ := ARef.reshape_ok ha.wf hlen hok
  have he : a'.extents = exts := by rw [heq]
  have hs : a'.storage = a.storage := by rw [heq]
  rw [(C05_layout_formula ha dbg k hk).1, (C05_layout_formula ha' dbg k' (he ▸ hk')).1, he, hs, hsame]
  rw [heq]; rfl

example : InShape exArr.extents [1, 1, 2] ∧ InShape [4, 1, 6] [2, 0, 1] ∧
    storageRank exArr.storage exArr.extents [1, 1, 2] = storageRank exArr.storage [4, 1, 6] [2, 0, 1] := by decide

example : ∃ a', exArr.reshape true [4, 1, 6] = .ok a' ∧ ([4, 1, 6] : List Nat).prod = exArr.numElements := ⟨_, rfl, by decide⟩

/-- **C14.** Reshaping and reshaping back restores the array exactly: shape, strides, origin, and hence the
element at every index. -/
theorem C14_reshape_round_trip {n : Nat} {a a1 a2 : ARef} (ha : Reachable n a) (dbg dbg' : Bool) (exts : List Nat)
    (hlen : exts.length = n) (hprod : exts.prod = a.numElements)
    (h1 : a.reshape dbg exts = .ok a1) (h2 : a1.reshape dbg' a.extents = .ok a2) : a2 = a := by
  have ha1 : Reachable n a1 := .reshape ha hlen hprod h1
  obtain ⟨ss, hss, heq⟩ := ARef.reshape_ok ha.wf hlen h1
  obtain ⟨ss', hss', heq'⟩ := ARef.reshape_ok ha1.wf ha.wf.ext_len h2
  rw [heq] at hss'
  simp only at hss'
  rw [ha.wf.strides_eq] at hss'
  cases hss'
  rw [heq', heq]
  simp only
  rw [← ha.wf.origin_eq]

example : ∃ a1 a2, exArr.reshape true [4, 1, 6] = .ok a1 ∧ a1.reshape true exArr.extents = .ok a2 := ⟨_, _, rfl, rfl⟩

/-- **C14.** Any sequence of reshapes, with any reindexing in between, that ends in the original shape and index bases restores the
array exactly: every member, hence the element at every index. -/
theorem C14_reshape_history {n : Nat} {a a' : ARef} (ha : Reachable n a) (h : HeaderHistory n a a') (he : a'.extents = a.extents)
    (hb : a'.bases = a.bases) : a' = a := by
  have key : Reachable n a' ∧ a'.base = a.base ∧ a'.storage = a.storage ∧ a'.directionalOffset = a.directionalOffset := by
    clear he hb
    induction h with
    | refl => exact ⟨ha, rfl, rfl, rfl⟩
    | reindexList _ hr ih =>
      obtain ⟨i1, i2, i3, i4⟩ := ih
      refine ⟨.reindexList i1 hr, ?_⟩
      unfold ARef.reindexList at hr
      cases hc : copyN _ _ with
      | ok x => rw [hc] at hr; cases hr; exact ⟨i2, i3, i4⟩
      | assertFail => rw [hc] at hr; cases hr
      | ub => rw [hc] at hr; cases hr
    | reindexAll _ ih =>
      obtain ⟨i1, i2, i3, i4⟩ := ih
      exact ⟨.reindexAll i1, i2, i3, i4⟩
    | reshape _ hl hp hr ih =>
      obtain ⟨i1, i2, i3, i4⟩ := ih
      refine ⟨.reshape i1 hl hp hr, ?_⟩
      obtain ⟨ss, hss, heq⟩ := ARef.reshape_ok i1.wf hl hr
      rw [heq]
      exact ⟨i2, i3, i4⟩
  obtain ⟨hr, h1, h2, h3⟩ := key
  have e1 := hr.wf.strides_eq
  rw [he, h2, ha.wf.strides_eq] at e1
  have e2 := hr.wf.num_eq
  rw [he, ← ha.wf.num_eq] at e2
  have e3 := hr.wf.origin_eq
  injection e1 with e1
  rw [← e1, he, h2, hb, ← ha.wf.origin_eq] at e3
  cases a; cases a'
  simp_all

/-- Non-vacuity: reshape, reindex, reshape back, reindex back. -/
example : ∃ a1 a2 a3 a4, exArr.reshape true [4, 1, 6] = .ok a1 ∧ a1.reindexList [3, 0, -2] = .ok a2 ∧ a2.reshape true [2, 3, 4] = .ok a3 ∧
    a3.reindexList [-1, 5, 0] = .ok a4 ∧ HeaderHistory 3 exArr a4 ∧ a4.extents = exArr.extents ∧ a4.bases = exArr.bases ∧ a2 ≠ exArr :=
  ⟨_, _, _, _, rfl, rfl, rfl, rfl,
    .reindexList (bs := [-1, 5, 0]) (.reshape (dbg := true) (exts := [2, 3, 4])
      (.reindexList (bs := [3, 0, -2]) (.reshape (dbg := true) (exts := [4, 1, 6]) .refl rfl rfl rfl) rfl) rfl rfl rfl) rfl,
    by decide, by decide, by decide⟩

/-- **C15.** With assertions enabled, `reshape` with one extent per dimension succeeds iff the product of the
extents is `num_elements()`, and otherwise fails an assertion. -/
theorem C15_reshape_rejects_exactly {n : Nat} {a : ARef} (ha : Reachable n a) (exts : List Nat)
    (hlen : exts.length = n) :
    ((∃ a', a.reshape true exts = .ok a') ↔ exts.prod = a.numElements) ∧
    (a.reshape true exts = .assertFail ↔ exts.prod ≠ a.numElements) := by
  by_cases hp : exts.prod = a.numElements
  · obtain ⟨a', hok⟩ := ARef.reshape_succeeds true ha.wf hlen hp
    rw [hok]; simp [hp]
  · have : a.reshape true exts = .assertFail := by
      unfold ARef.reshape
      rw [decide_eq_false (by rw [product_eq]; exact fun h => hp h.symm)]
      rfl
    rw [this]; simp [hp]

example : (exArr.reshape true [4, 1, 6]).isOk = true ∧ exArr.reshape true [4, 1, 5] = .assertFail := by decide

/-- Finding (outside C15's hypothesis): a *shorter* list whose product happens to match passes the assertion but
leaves `num_elements()` out of step with the shape: reshaping a 2x3 array with the one-element list `{6}` gives
shape 6x3 while `num_elements()` stays 6, so in-range tuples address memory outside the block. -/
theorem C15_short_list_hazard :
    ∃ a a', Reachable 2 a ∧ a.reshape true [6] = .ok a' ∧ a'.extents = [6, 3] ∧ a'.numElements = 6 ∧
      a'.paren true [5, 2] = .ok (a'.data.add 17) :=
  ⟨_, _, .ofExtents (p := ⟨7, 0⟩) (exts := [2, 3]) (so := StorageOrder.cOrder 2) (by decide) rfl, rfl, by decide,
    by decide, by decide⟩

/-! ### Instances: the theorems applied to concrete cases, whose hypotheses are thereby met -/

example := C11_reindex_relabels exArr_reachable [3, -2, 0] rfl
example := C12_reindex_history_collapses exArr_reachable [.all 4, .list [1, 2, 3]] (.list [0, 0, 7]) rfl
example := C13_reshape_preserves exArr_reachable true [4, 1, 6] rfl rfl
example := C13_reshape_keeps_sequence (a := ⟨⟨7, 0⟩, StorageOrder.cOrder 2, [2, 3], [3, 1], [0, 0], 0, 0, 6⟩)
  (.ofExtents (p := ⟨7, 0⟩) (exts := [2, 3]) (cOrder_valid 2) rfl) true [3, 2] rfl rfl rfl rfl [1, 1] [2, 0] (by decide) (by decide) (by decide)

/- end of instances -/

end MultiArray.Props
