import Verif.SpecContig
import Verif.Lemmas.Exchange
import Verif.Lemmas.Handles
import Verif.Lemmas.HandleMem
import Verif.Lemmas.CopyList

/- Lemmas for C91: contiguous handles. -/
set_option autoImplicit false

namespace MultiArray
open MultiArray.Spec

/-- Every dimension with more than one element has the stride a dense row-major array would have. -/
def Dense : List Nat → List Int → Prop
  | e :: es, s :: ss => (1 < e → s = (es.prod : Int)) ∧ Dense es ss
  | _, _ => True

theorem dense_iff (es : List Nat) (ss : List Int) (h : ss.length = es.length) :
    Dense es ss ↔ ∀ j, 1 < es.getD j 0 → ss.getD j 0 = ((es.drop (j + 1)).prod : Int) := by
  induction es generalizing ss with
  | nil => simp [Dense]
  | cons e es ih =>
    match ss, h with
    | s :: ss, h =>
      have ih := ih ss (by simpa using h)
      simp only [Dense, ih]
      constructor
      · rintro ⟨h1, h2⟩ j hj
        cases j with
        | zero => simpa using h1 (by simpa using hj)
        | succ j => simpa using h2 j (by simpa using hj)
      · intro hall
        refine ⟨fun he => by simpa using hall 0 (by simpa using he), fun j hj => by simpa using hall (j + 1) (by simpa using hj)⟩

theorem inShape_zeros {es : List Nat} (h : es.prod ≠ 0) : InShape es (List.replicate es.length 0) := by
  induction es with
  | nil => trivial
  | cons e es ih =>
    rw [List.prod_cons] at h
    exact ⟨Nat.pos_of_ne_zero (fun g => h (by rw [g, Nat.zero_mul])), ih (fun g => h (by rw [g, Nat.mul_zero]))⟩

theorem rowMajor_zeros (es : List Nat) (n : Nat) : rowMajor es (List.replicate n 0) = 0 := by
  induction es generalizing n with
  | nil => cases n <;> rfl
  | cons e es ih => cases n with
    | zero => rfl
    | succ n => simp [List.replicate_succ, rowMajor, ih]

theorem dot_nat_zeros (n : Nat) (ss : List Int) : dot ((List.replicate n 0).map (fun (x : Nat) => (x : Int))) ss = 0 := by
  rw [List.map_replicate]; exact dot_zeros n ss

/-- The strides make the offsets of all positions row-major ranks iff they are dense. -/
theorem dense_offsets (es : List Nat) (ss : List Int) (hl : ss.length = es.length) (hne : es.prod ≠ 0) :
    (∀ k, InShape es k → dot (k.map (fun (x : Nat) => (x : Int))) ss = (rowMajor es k : Int)) ↔ Dense es ss := by
  induction es generalizing ss with
  | nil =>
    refine ⟨fun _ => by cases ss <;> trivial, fun _ k hk => ?_⟩
    match k, hk with
    | [], _ => rfl
  | cons e es ih =>
    match ss, hl with
    | s :: ss, hl =>
      rw [List.prod_cons] at hne
      have he : 0 < e := Nat.pos_of_ne_zero (fun g => hne (by rw [g, Nat.zero_mul]))
      have hne' : es.prod ≠ 0 := fun g => hne (by rw [g, Nat.mul_zero])
      have ih := ih ss (by simpa using hl) hne'
      constructor
      · intro h
        refine ⟨fun h1 => ?_, ih.mp (fun k hk => ?_)⟩
        · have := h (1 :: List.replicate es.length 0) ⟨h1, inShape_zeros hne'⟩
          simp only [List.map_cons, dot, rowMajor, rowMajor_zeros, dot_nat_zeros] at this
          simpa using this
        · have := h (0 :: k) ⟨he, hk⟩
          simpa [dot, rowMajor] using this
      · rintro ⟨h1, h2⟩ k hk
        match k, hk with
        | x :: k, hk =>
          have h3 := ih.mpr h2 k hk.2
          simp only [List.map_cons, dot, rowMajor, h3]
          push_cast
          by_cases g : 1 < e
          · rw [h1 g]
          · have : x = 0 := by have := hk.1; omega
            subst this; simp

/-- The addresses as a list of ranks. -/
theorem contiguousFrom_iff (d : Desc) (p : Ptr) :
    ContiguousFrom d p ↔ ∀ k, InShape d.extents k → address d (atPos d.bases k) = p.add (rowMajor d.extents k : Nat) := by
  unfold ContiguousFrom
  rw [positions_eq, ← allPos_rank, List.map_map, List.map_inj_left]
  simp only [mem_allPos, Function.comp]

theorem contiguousFrom_empty (d : Desc) (p : Ptr) (h : d.extents.prod = 0) : ContiguousFrom d p := by
  rw [contiguousFrom_iff]
  intro k hk
  have := rowMajor_lt _ _ hk
  omega

theorem address_atPos {d : Desc} (hw : WellShaped d) {k : List Nat} (hk : InShape d.extents k) :
    address d (atPos d.bases k) = (address d d.bases).add (dot (k.map (fun (x : Nat) => (x : Int))) d.strides) := by
  unfold address
  rw [dot_atPos _ _ _ (by rw [hw.2, hk.length])]
  simp [Ptr.add, Int.add_assoc]

theorem atPos_zeros_bases (bs : List Int) : atPos bs (List.replicate bs.length 0) = bs := by
  induction bs with
  | nil => rfl
  | cons b bs ih =>
    simp only [atPos] at ih
    simp only [atPos, List.length_cons, List.replicate_succ, List.zipWith_cons_cons, ih]
    simp

theorem contiguousFrom_first {d : Desc} (hw : WellShaped d) (hne : d.extents.prod ≠ 0) {p : Ptr} (h : ContiguousFrom d p) : p = address d d.bases := by
  rw [contiguousFrom_iff] at h
  have h0 := h _ (inShape_zeros hne)
  rw [← hw.2, atPos_zeros_bases, rowMajor_zeros] at h0
  rw [h0]; simp [Ptr.add]

theorem contiguousFrom_dense {d : Desc} (hw : WellShaped d) (hne : d.extents.prod ≠ 0) :
    ContiguousFrom d (address d d.bases) ↔ Dense d.extents d.strides := by
  rw [contiguousFrom_iff, ← dense_offsets _ _ hw.1 hne]
  refine forall_congr' fun k => forall_congr' fun hk => ?_
  rw [address_atPos hw hk]
  unfold Ptr.add
  simp

theorem contiguous_dense {d : Desc} (hw : WellShaped d) (hne : d.extents.prod ≠ 0) : Contiguous d ↔ Dense d.extents d.strides := by
  rw [← contiguousFrom_dense hw hne]
  exact ⟨fun ⟨p, h⟩ => contiguousFrom_first hw hne h ▸ h, fun h => ⟨_, h⟩⟩

/-! ### Slices -/

theorem legalRanges_cons {bs : List Int} {es : List Nat} {r : IndexRange} {rs : List IndexRange} (h : LegalRanges bs es (r :: rs)) :
    ∃ b bs' e es', bs = b :: bs' ∧ es = e :: es' ∧ LegalRange b e r ∧ LegalRanges bs' es' rs := by
  cases bs with
  | nil => cases es <;> exact h.elim
  | cons b bs => cases es with
    | nil => exact h.elim
    | cons e es => exact ⟨b, bs, e, es, rfl, rfl, h.1, h.2⟩

theorem legalRanges_nil {bs : List Int} {es : List Nat} (h : LegalRanges bs es []) : bs = [] ∧ es = [] := by
  cases bs <;> cases es <;> first | exact ⟨rfl, rfl⟩ | exact h.elim


theorem prod_ne_zero_iff (es : List Nat) : es.prod ≠ 0 ↔ ∀ e ∈ es, 0 < e := by
  induction es with
  | nil => simp
  | cons e es ih =>
    rw [List.prod_cons, Nat.mul_ne_zero_iff, ih]
    simp [Nat.pos_iff_ne_zero]

theorem sel_defaults_extents (m : Nat) (bs : List Int) (es : List Nat) (hb : bs.length = m) (he : es.length = m) :
    (selExtents (List.replicate m IndexRange.default) bs es).map Int.toNat = es := by
  induction m generalizing bs es with
  | zero => match bs, es, hb, he with | [], [], _, _ => rfl
  | succ m ih =>
    match bs, es, hb, he with
    | b :: bs, e :: es, hb, he =>
      have h1 : rangeStart IndexRange.default b = b := by simp [rangeStart, IndexRange.default, IndexRange.fromStart]
      have h2 : rangeFinish IndexRange.default b e = b + (e : Int) := by simp [rangeFinish, IndexRange.default, IndexRange.toEnd]
      have h3 : IndexRange.default.stride_ = 1 := rfl
      have h4 : IndexRange.default.degenerate_ = false := rfl
      rw [List.replicate_succ, selExtents, h4, h1, h2, h3]
      simp only [Bool.false_eq_true, if_false, List.map_cons, ih bs es (by simpa using hb) (by simpa using he)]
      congr 1
      simp only [viewLen, Int.tdiv_one]
      split <;> simp_all <;> omega

theorem sel_defaults_strides (m : Nat) (ss : List Int) (hs : ss.length = m) :
    selStrides (List.replicate m IndexRange.default) ss = ss := by
  induction m generalizing ss with
  | zero => match ss, hs with | [], _ => rfl
  | succ m ih =>
    match ss, hs with
    | s :: ss, hs =>
      rw [List.replicate_succ, selStrides, ih ss (by simpa using hs)]
      simp [IndexRange.default]

theorem unit_len {b : Int} {e : Nat} {r : IndexRange} (hs : r.stride_ = 1) (hl : LegalRange b e r) : (viewLen (rangeStart r b) (rangeFinish r b e) r.stride_).toNat ≤ e := by
  obtain ⟨_, ⟨h1, _⟩, h3⟩ := hl
  rw [if_neg (by rw [hs]; decide)] at h3
  rw [hs]
  simp only [viewLen, Int.tdiv_one]
  split
  · simp
  · simp; omega

/-- Integers, then one range of stride 1, then whole dimensions, of a dense handle. -/
theorem dense_slice (is : List Int) (r : IndexRange) (m : Nat) (bs : List Int) (es : List Nat) (ss : List Int) (hs : r.stride_ = 1) (hd : r.degenerate_ = false)
    (hi : ∀ i ∈ is, -(2 ^ 63) < i ∧ i < 2 ^ 63 - 2) (hss : ss.length = es.length)
    (hl : LegalRanges bs es (is.map (fun i => (IndexArg.index i).toRange) ++ r :: List.replicate m IndexRange.default)) :
    (Dense es ss → Dense ((selExtents (is.map (fun i => (IndexArg.index i).toRange) ++ r :: List.replicate m IndexRange.default) bs es).map Int.toNat)
      (selStrides (is.map (fun i => (IndexArg.index i).toRange) ++ r :: List.replicate m IndexRange.default) ss)) ∧
    (((selExtents (is.map (fun i => (IndexArg.index i).toRange) ++ r :: List.replicate m IndexRange.default) bs es).map Int.toNat).prod ≠ 0 → es.prod ≠ 0) := by
  induction is generalizing bs es ss with
  | nil =>
    simp only [List.map_nil, List.nil_append] at hl ⊢
    obtain ⟨b, bs, e, es, rfl, rfl, l1, l2⟩ := legalRanges_cons hl
    match ss, hss with
    | s :: ss, hss =>
      have hlen := l2.length
      have hu := unit_len hs l1
      rw [selExtents, selStrides, hd]
      simp only [Bool.false_eq_true, if_false, List.map_cons]
      rw [sel_defaults_extents m bs es (by rw [hlen.2]; simpa using hlen.1.symm) (by simpa using hlen.1.symm),
        sel_defaults_strides m ss (by rw [show ss.length = es.length by simpa using hss]; simpa using hlen.1.symm)]
      rw [hs] at hu ⊢
      rw [Int.one_mul]
      constructor
      · rintro ⟨h1, h2⟩
        exact ⟨fun h => h1 (by omega), h2⟩
      · rw [List.prod_cons, List.prod_cons]
        intro h
        rw [Nat.mul_ne_zero_iff] at h ⊢
        exact ⟨by omega, h.2⟩
  | cons i is ih =>
    simp only [List.map_cons, List.cons_append] at hl ⊢
    obtain ⟨b, bs, e, es, rfl, rfl, l1, l2⟩ := legalRanges_cons hl
    match ss, hss with
    | s :: ss, hss =>
      have ih := ih bs es ss (fun j hj => hi j (by simp [hj])) (by simpa using hss) l2
      have hdeg : (IndexArg.index i).toRange.degenerate_ = true := rfl
      rw [selExtents, selStrides, hdeg]
      simp only [if_true]
      refine ⟨fun h => ih.1 h.2, fun h => ?_⟩
      rw [List.prod_cons, Nat.mul_ne_zero_iff]
      refine ⟨?_, ih.2 h⟩
      obtain ⟨g1, g2, g3⟩ := l1
      have gi := hi i (by simp)
      have e1 : rangeStart (IndexArg.index i).toRange b = i := by
        exact if_neg (show ¬ i = -(2 ^ 63) by omega)
      have e2 : rangeFinish (IndexArg.index i).toRange b e = i + 1 := by
        exact if_neg (show ¬ i + 1 = 2 ^ 63 - 1 by omega)
      rw [if_neg (by simp [IndexArg.toRange]), e2] at g3
      rw [e1] at g2
      omega

/-! ### Reversal -/

/-- The handle with its dimensions in reverse order. -/
def Desc.rev (d : Desc) : Desc := ⟨d.base, d.extents.reverse, d.strides.reverse, d.bases.reverse⟩

theorem dot_append (a b : List Int) (x y : Int) (h : a.length = b.length) : dot (a ++ [x]) (b ++ [y]) = dot a b + x * y := by
  induction a generalizing b with
  | nil => match b, h with | [], _ => simp [dot]
  | cons i is ih => match b, h with
    | s :: ss, h =>
      simp only [List.cons_append, dot, ih ss (by simpa using h)]; ring

theorem dot_reverse (a b : List Int) (h : a.length = b.length) : dot a.reverse b.reverse = dot a b := by
  induction a generalizing b with
  | nil => match b, h with | [], _ => rfl
  | cons i is ih => match b, h with
    | s :: ss, h =>
      have hl : is.length = ss.length := by simpa using h
      rw [List.reverse_cons, List.reverse_cons, dot_append _ _ _ _ (by simpa using hl), ih ss hl]
      simp only [dot]; ring

theorem atPos_reverse (bs : List Int) (k : List Nat) (h : bs.length = k.length) : atPos bs.reverse k.reverse = (atPos bs k).reverse := by
  unfold atPos
  rw [List.reverse_zipWith h]

theorem atPos_length (bs : List Int) (k : List Nat) (h : bs.length = k.length) : (atPos bs k).length = k.length := by
  unfold atPos; rw [List.length_zipWith]; omega

theorem address_rev {d : Desc} (hw : WellShaped d) {k : List Nat} (hk : k.length = d.extents.length) :
    address d (atPos d.bases k.reverse) = address d.rev (atPos d.rev.bases k) := by
  unfold address
  have h1 : d.bases.length = k.reverse.length := by rw [List.length_reverse, hk, hw.2]
  have h2 := atPos_reverse d.bases k.reverse h1
  rw [List.reverse_reverse] at h2
  show _ = d.base.add (dot (atPos d.bases.reverse k) d.strides.reverse)
  rw [h2, dot_reverse _ _ (by rw [atPos_length _ _ h1, List.length_reverse, hk, hw.1])]

theorem contiguousColFrom_rev {d : Desc} (hw : WellShaped d) (p : Ptr) : ContiguousColFrom d p ↔ ContiguousFrom d.rev p := by
  unfold ContiguousColFrom ContiguousFrom
  have h1 : d.rev.extents.prod = d.extents.prod := List.prod_reverse d.extents
  rw [h1]
  have h2 : (positions d.extents.reverse).map (fun k => address d (atPos d.bases k.reverse)) =
      (positions d.rev.extents).map (fun k => address d.rev (atPos d.rev.bases k)) := by
    apply List.map_congr_left
    intro k hk
    have := (mem_positions.mp hk).length
    exact address_rev hw (by rw [this, List.length_reverse])
  rw [h2]

theorem wellShaped_rev {d : Desc} (hw : WellShaped d) : WellShaped d.rev := by
  constructor
  · show d.strides.reverse.length = d.extents.reverse.length
    rw [List.length_reverse, List.length_reverse, hw.1]
  · show d.bases.reverse.length = d.extents.reverse.length
    rw [List.length_reverse, List.length_reverse, hw.2]

theorem selExtents_append (rs : List IndexRange) (bs : List Int) (es : List Nat) (r : IndexRange) (b : Int) (e : Nat) (h1 : bs.length = rs.length) (h2 : es.length = rs.length) :
    selExtents (rs ++ [r]) (bs ++ [b]) (es ++ [e]) = selExtents rs bs es ++ selExtents [r] [b] [e] := by
  induction rs generalizing bs es with
  | nil => match bs, es, h1, h2 with | [], [], _, _ => simp [selExtents]
  | cons q rs ih =>
    match bs, es, h1, h2 with
    | c :: bs, f :: es, h1, h2 =>
      have ih := ih bs es (by simpa using h1) (by simpa using h2)
      simp only [List.cons_append]
      rw [selExtents, ih]
      conv_rhs => rw [selExtents]
      split <;> simp

theorem selExtents_reverse (rs : List IndexRange) (bs : List Int) (es : List Nat) (h1 : bs.length = rs.length) (h2 : es.length = rs.length) :
    selExtents rs.reverse bs.reverse es.reverse = (selExtents rs bs es).reverse := by
  induction rs generalizing bs es with
  | nil => match bs, es, h1, h2 with | [], [], _, _ => rfl
  | cons r rs ih =>
    match bs, es, h1, h2 with
    | b :: bs, e :: es, h1, h2 =>
      have g1 : bs.length = rs.length := by simpa using h1
      have g2 : es.length = rs.length := by simpa using h2
      rw [List.reverse_cons, List.reverse_cons, List.reverse_cons, selExtents_append _ _ _ _ _ _ (by simpa using g1) (by simpa using g2), ih bs es g1 g2]
      simp only [selExtents]
      split <;> simp

theorem selStrides_append (rs : List IndexRange) (ss : List Int) (r : IndexRange) (s : Int) (h1 : ss.length = rs.length) :
    selStrides (rs ++ [r]) (ss ++ [s]) = selStrides rs ss ++ selStrides [r] [s] := by
  induction rs generalizing ss with
  | nil => match ss, h1 with | [], _ => simp [selStrides]
  | cons q rs ih =>
    match ss, h1 with
    | c :: ss, h1 =>
      have ih := ih ss (by simpa using h1)
      simp only [List.cons_append]
      rw [selStrides, ih]
      conv_rhs => rw [selStrides]
      split <;> simp

theorem selStrides_reverse (rs : List IndexRange) (ss : List Int) (h1 : ss.length = rs.length) :
    selStrides rs.reverse ss.reverse = (selStrides rs ss).reverse := by
  induction rs generalizing ss with
  | nil => match ss, h1 with | [], _ => rfl
  | cons r rs ih =>
    match ss, h1 with
    | s :: ss, h1 =>
      have g1 : ss.length = rs.length := by simpa using h1
      rw [List.reverse_cons, List.reverse_cons, selStrides_append _ _ _ _ (by simpa using g1), ih ss g1]
      simp only [selStrides]
      split <;> simp

theorem legalRanges_append {bs : List Int} {es : List Nat} {rs : List IndexRange} {b : Int} {e : Nat} {r : IndexRange} (h : LegalRanges bs es rs) (hr : LegalRange b e r) :
    LegalRanges (bs ++ [b]) (es ++ [e]) (rs ++ [r]) := by
  induction rs generalizing bs es with
  | nil => obtain ⟨rfl, rfl⟩ := legalRanges_nil h; exact ⟨hr, trivial⟩
  | cons q rs ih => obtain ⟨b, bs, e, es, rfl, rfl, l1, l2⟩ := legalRanges_cons h; exact ⟨l1, ih l2⟩

theorem legalRanges_reverse {bs : List Int} {es : List Nat} {rs : List IndexRange} (h : LegalRanges bs es rs) : LegalRanges bs.reverse es.reverse rs.reverse := by
  induction rs generalizing bs es with
  | nil => obtain ⟨rfl, rfl⟩ := legalRanges_nil h; trivial
  | cons q rs ih =>
    obtain ⟨b, bs, e, es, rfl, rfl, l1, l2⟩ := legalRanges_cons h
    rw [List.reverse_cons, List.reverse_cons, List.reverse_cons]
    exact legalRanges_append (ih l2) l1

end MultiArray
