import Verif.Props.Views2
import Verif.Props.Copy

/-
Property theorems C60, C61 (relations between storage orders, and between storage orders and views) and the row-major and column-major form of C33.
-/
set_option autoImplicit false

namespace MultiArray.Props
open MultiArray MultiArray.Spec
variable {T : Type}

/-! ### C60 -/

theorem rowMajor_append (es ks : List Nat) (e k : Nat) (h : ks.length = es.length) :
    rowMajor (es ++ [e]) (ks ++ [k]) = rowMajor es ks * e + k := by
  induction es generalizing ks with
  | nil => match ks, h with | [], _ => simp [rowMajor]
  | cons x es ih =>
    match ks, h with
    | y :: ks, h =>
      simp only [List.cons_append, rowMajor, ih ks (by simpa using h), List.prod_append, List.prod_singleton]
      ring

theorem rowMajor_reverse (es ks : List Nat) (h : ks.length = es.length) :
    rowMajor es.reverse ks.reverse = colMajor es ks := by
  induction es generalizing ks with
  | nil => match ks, h with | [], _ => rfl
  | cons e es ih =>
    match ks, h with
    | k :: ks, h =>
      simp only [List.reverse_cons, colMajor]
      rw [rowMajor_append _ _ _ _ (by simpa using h), ih ks (by simpa using h)]
      ring

theorem inShape_append {es ks : List Nat} {e k : Nat} (h : InShape es ks) (hk : k < e) : InShape (es ++ [e]) (ks ++ [k]) := by
  induction es generalizing ks with
  | nil => match ks, h with | [], _ => exact ⟨hk, trivial⟩
  | cons x es ih => match ks, h with | y :: ks, h => exact ⟨h.1, ih h.2⟩

theorem InShape.reverse {es ks : List Nat} (h : InShape es ks) : InShape es.reverse ks.reverse := by
  induction es generalizing ks with
  | nil => match ks, h with | [], _ => trivial
  | cons e es ih =>
    match ks, h with
    | k :: ks, h =>
      rw [List.reverse_cons, List.reverse_cons]
      exact inShape_append (ih h.2) h.1

/-- **C60.** An array in Fortran order is the transpose of the array in C order with the reversed shape over the same data: the element at
zero-based position `(k1,...,kN)` of one is the element at `(kN,...,k1)` of the other. -/
theorem C60_fortran_is_transposed_c {n : Nat} {f c : ARef} (hf : Reachable n f) (hc : Reachable n c)
    (hfo : f.storage = StorageOrder.fortranOrder n) (hco : c.storage = StorageOrder.cOrder n) (hdata : f.data = c.data)
    (hext : c.extents = f.extents.reverse) (dbg : Bool) (k : List Nat) (hk : InShape f.extents k) :
    f.paren dbg (atPos f.bases k) = c.paren dbg (atPos c.bases k.reverse) ∧
      ∃ p, f.paren dbg (atPos f.bases k) = .ok p := by
  have h1 := C04_fortran_order_column_major hf hfo dbg k hk
  have h2 := C04_c_order_row_major hc hco dbg k.reverse (by rw [hext]; exact InShape.reverse hk)
  rw [hext, rowMajor_reverse _ _ hk.length, ← hdata] at h2
  exact ⟨h1.trans h2.symm, _, h1⟩

example : ∃ f c, Reachable 3 f ∧ Reachable 3 c ∧ f.storage = StorageOrder.fortranOrder 3 ∧ c.storage = StorageOrder.cOrder 3 ∧
    f.data = c.data ∧ c.extents = f.extents.reverse ∧ f.extents = [2, 3, 4] ∧
    f.paren true [1, 2, 0] = .ok ⟨7, 5⟩ ∧ c.paren true [0, 2, 1] = .ok ⟨7, 5⟩ :=
  ⟨_, _, .ofExtents (p := ⟨7, 0⟩) (exts := [2, 3, 4]) (so := StorageOrder.fortranOrder 3) (by decide) rfl,
    .ofExtents (p := ⟨7, 0⟩) (exts := [4, 3, 2]) (so := StorageOrder.cOrder 3) (by decide) rfl, by decide, by decide, by decide, by decide,
    by decide, by decide, by decide⟩

/-! ### C61 -/

theorem inShape_mirror {fs : List Bool} {es k : List Nat} (hl : fs.length = es.length) (h : InShape es k) : InShape es (mirror fs es k) := by
  induction es generalizing fs k with
  | nil => match fs, k, hl, h with | [], [], _, _ => trivial
  | cons e es ih =>
    match fs, k, hl, h with
    | f :: fs, x :: k, hl, h =>
      refine ⟨?_, ih (by simpa using hl) h.2⟩
      have := h.1
      split <;> omega

theorem mirror_getD {fs : List Bool} {es k : List Nat} (hl : fs.length = es.length) (h : InShape es k) (d : Nat) :
    (mirror fs es k).getD d 0 = if fs.getD d false then es.getD d 0 - 1 - k.getD d 0 else k.getD d 0 := by
  induction es generalizing fs k d with
  | nil => match fs, k, hl, h with | [], [], _, _ => simp [mirror]
  | cons e es ih =>
    match fs, k, hl, h with
    | f :: fs, x :: k, hl, h =>
      cases d with
      | zero => simp [mirror]
      | succ d => simpa [mirror] using ih (fs := fs) (by simpa using hl) h.2 d

/-- **C61.** Storing dimensions in descending order is the same as viewing an ascending array in reverse: if `a` and `b` lie over the same data with
the same shape and the same `ordering`, and `b` ascends in all dimensions, then reversing in `b` exactly the dimensions in which `a` descends gives a view
whose elements are those of `a`, position by position. -/
theorem C61_descending_is_reversed_view {n : Nat} {a b : ARef} (ha : Reachable n a) (hb : Reachable n b) (hdata : a.data = b.data)
    (hext : a.extents = b.extents) (hord : a.storage.ordering = b.storage.ordering) (hasc : b.storage.ascending = List.replicate n true)
    (hrep : Representable b.bases b.extents) (hne : ∀ e ∈ b.extents, 0 < e) (dbg : Bool) :
    ∃ v, b.slice dbg ⟨n, n, reverseRanges (a.storage.ascending.map (!·)) b.bases b.extents⟩ = .ok v ∧ v.extents = a.extents ∧
      ∀ k, InShape a.extents k → v.paren dbg (atPos v.bases k) = a.paren dbg (atPos a.bases k) := by
  have hbl := hb.wf.ext_len
  have hal : a.storage.ascending.length = n := ha.wf.order.2
  obtain ⟨v, h1, h2, h3⟩ := C24_reverse hb .array dbg (a.storage.ascending.map (!·))
    (by show (a.storage.ascending.map (!·)).length = b.extents.length; rw [List.length_map, hal, hbl]) hrep hne
  have hbl' : b.desc.extents.length = n := hbl
  rw [hbl'] at h1
  refine ⟨v, h1, h2.trans hext.symm, ?_⟩
  intro k hk
  have hfl : (a.storage.ascending.map (!·)).length = b.extents.length := by rw [List.length_map, hal, hbl]
  have hk' : InShape b.extents k := by rw [← hext]; exact hk
  rw [h3 k hk']
  have := C05_descending_mirrors ha hb hdata hext hord dbg k (mirror (a.storage.ascending.map (!·)) b.extents k) hk
    (by rw [hext]; exact inShape_mirror hfl hk') (by
      intro d hd
      rw [mirror_getD hfl hk' d, hext]
      have e1 : (a.storage.ascending.map (!·)).getD d false = !(a.storage.ascending.getD d true) := by
        rw [List.getD_eq_getElem?_getD, List.getD_eq_getElem?_getD, List.getElem?_map]
        have : d < a.storage.ascending.length := by omega
        rw [List.getElem?_eq_getElem this]; rfl
      have e2 : b.storage.ascending.getD d true = true := by
        rw [hasc, List.getD_eq_getElem?_getD, List.getElem?_replicate]
        split <;> rfl
      rw [e1, e2]
      cases a.storage.ascending.getD d true <;> simp)
  exact this.symm

/-- `exArr` (descending in its last dimension) against the all-ascending `exArr'`. -/
example : exArr.data = exArr'.data ∧ exArr.extents = exArr'.extents ∧ exArr.storage.ordering = exArr'.storage.ordering ∧
    exArr'.storage.ascending = List.replicate 3 true ∧ Representable exArr'.bases exArr'.extents ∧ (∀ e ∈ exArr'.extents, 0 < e) ∧
    exArr.storage.ascending ≠ exArr'.storage.ascending := by decide

/-! ### C33 in index terms -/

theorem colMajor_lt {es k : List Nat} (h : InShape es k) : colMajor es k < es.prod := by
  rw [← rowMajor_reverse _ _ h.length, ← List.prod_reverse]
  exact rowMajor_lt _ _ (InShape.reverse h)

/-- **C33.** In index terms: after assigning a sequence of at least `num_elements()` values, `a(k)` of a C-order array is the value of row-major rank
`k`, and of a Fortran-order array the one of column-major rank `k`. -/
theorem C33_assign_in_index_terms {n : Nat} {a : ARef} (ha : Reachable n a) (input : List T) (s : St T) (hl : Live s a) (hsched : s.sched = [])
    (hlen : a.numElements ≤ input.length) :
    ∃ s', a.assign input s = .ok () s' ∧ ∀ k, InShape a.extents k →
      (a.storage = StorageOrder.cOrder n → elemAt s' a.desc k = input[rowMajor a.extents k]?) ∧
      (a.storage = StorageOrder.fortranOrder n → elemAt s' a.desc k = input[colMajor a.extents k]?) := by
  obtain ⟨s', h1, h2, _⟩ := C33_assign_fills_in_memory_order ha input s hl hsched
  have hnum := (C09_array_queries ha).1
  have hb : a.bases.length = a.extents.length := by rw [ha.wf.bases_len, ha.wf.ext_len]
  refine ⟨s', h1, fun k hk => ?_⟩
  have haddr : ∀ p, a.paren true (atPos a.bases k) = .ok p → address a.desc (atPos a.desc.bases k) = p := by
    intro p hp
    rw [C10_array_address ha true _ (inBox_atPos hb hk)] at hp
    cases hp; rfl
  constructor
  · intro ho
    have := haddr _ (C04_c_order_row_major ha ho true k hk)
    unfold elemAt
    rw [this]
    have hlt := rowMajor_lt _ _ hk
    exact h2 _ (by rw [Nat.min_eq_right hlen, hnum]; exact hlt)
  · intro ho
    have := haddr _ (C04_fortran_order_column_major ha ho true k hk)
    unfold elemAt
    rw [this]
    have hlt := colMajor_lt hk
    exact h2 _ (by rw [Nat.min_eq_right hlen, hnum]; exact hlt)

example : ∃ s', ovArr.assign [5, 6, 7, 8] ovSt = .ok () s' ∧ elemAt s' ovArr.desc [2] = some 7 := ⟨_, rfl, rfl⟩

/-- **C33.** In index terms for every storage order and any length of input: the element whose rank in storage order is `r`
gets `input[r]` if there is one and keeps its value otherwise; nothing outside the array changes. -/
theorem C33_assign_in_storage_order {n : Nat} {a : ARef} (ha : Reachable n a) (input : List T) (s : St T) (hl : Live s a)
    (hsched : s.sched = []) :
    ∃ s', a.assign input s = .ok () s' ∧
      (∀ k, InShape a.extents k → elemAt s' a.desc k =
        if storageRank a.storage a.extents k < input.length then input[storageRank a.storage a.extents k]?
        else elemAt s a.desc k) ∧
      (∀ q, (∀ k, InShape a.extents k → q ≠ address a.desc (atPos a.desc.bases k)) → s'.cell? q = s.cell? q) := by
  obtain ⟨s', h1, h2, h3, _⟩ := C33_assign_fills_in_memory_order ha input s hl hsched
  have hb : a.bases.length = a.extents.length := by rw [ha.wf.bases_len, ha.wf.ext_len]
  have haddr : ∀ k, InShape a.extents k →
      address a.desc (atPos a.desc.bases k) = a.data.add (storageRank a.storage a.extents k : Nat) := by
    intro k hk
    have hp := (C05_layout_formula ha true k hk).1
    rw [C10_array_address ha true _ (inBox_atPos hb hk)] at hp
    exact Res.ok.inj hp
  refine ⟨s', h1, fun k hk => ?_, fun q hq => ?_⟩
  · unfold elemAt
    rw [haddr k hk]
    have hlt := (C05_layout_formula ha true k hk).2
    split
    · rename_i hr
      exact h2 _ (Nat.lt_min.mpr ⟨hr, hlt⟩)
    · rename_i hr
      have := h3 (a.data.add (storageRank a.storage a.extents k : Nat)) (by
        intro j hj he
        have hj' := (Nat.lt_min.mp hj).1
        rw [Ptr.add_inj] at he
        have : storageRank a.storage a.extents k = j := by exact_mod_cast he
        omega)
      unfold St.get?
      rw [this]
  · refine h3 q (fun j hj he => ?_)
    obtain ⟨idx, ⟨hin, hval⟩, _⟩ := C03_every_element_addressable ha true j (Nat.lt_min.mp hj).2
    obtain ⟨k, hk, rfl⟩ := (inBox_iff_atPos hb).mp hin
    have := haddr k hk
    have hp := (C05_layout_formula ha true k hk).1
    rw [hval] at hp
    exact hq k hk (by rw [he, this]; exact Res.ok.inj hp)

example : Reachable 3 exArr ∧ Live exSt exArr ∧ exSt.sched = [] ∧
    ∃ s', exArr.assign (List.range 20) exSt = .ok () s' ∧ elemAt s' exArr.desc [1, 1, 2] = some 16 := by
  refine ⟨exArr_reachable, exSt_live, rfl, _, rfl, rfl⟩


end MultiArray.Props
