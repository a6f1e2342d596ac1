import Verif.Lemmas.Compose

/- Reversal and slicing with default ranges, for well-shaped handles. -/
set_option autoImplicit false

namespace MultiArray
open Spec

theorem goodDeg_of_built {g : IndexGen} (hb : Built g) (hn : numRanged g.ranges = g.numDims) : GoodDeg g.ranges := by
  by_cases hz : g.ranges.length = 0
  · have : g.ranges = [] := List.eq_nil_of_length_eq_zero hz
    rw [this]; intro r hr; simp at hr
  · exact hb.degenerate hz hn

/-! ### Reversal -/

theorem reverse_lists (fs : List Bool) (bs : List Int) (es : List Nat) (hb : bs.length = es.length)
    (hf : fs.length = es.length) (hrep : Representable bs es) (hne : ∀ e ∈ es, 0 < e) :
    LegalRanges bs es (reverseRanges fs bs es) ∧
    numRanged (reverseRanges fs bs es) = es.length ∧
    (selExtents (reverseRanges fs bs es) bs es).map Int.toNat = es ∧
    (∀ ss : List Int, ss.length = es.length → selStrides (reverseRanges fs bs es) (selStrides (reverseRanges fs bs es) ss) = ss) ∧
    ∀ k, InShape es k → selected (reverseRanges fs bs es) bs (atPos (List.replicate es.length 0) k) =
      atPos bs (mirror fs es k) := by
  induction es generalizing fs bs with
  | nil => match bs, fs, hb, hf with
    | [], [], _, _ =>
      refine ⟨trivial, rfl, rfl, ?_, ?_⟩
      · intro ss hs; match ss, hs with | [], _ => rfl
      · intro k hk; match k, hk with | [], _ => rfl
  | cons e es ih => match bs, fs, hb, hf with
    | b :: bs, f :: fs, hb, hf =>
      obtain ⟨a1, a2, a3, a4, a5⟩ := ih fs bs (by simpa using hb) (by simpa using hf) hrep.2.2 (fun x hx => hne x (by simp [hx]))
      have he := hne e (by simp)
      obtain ⟨r1, r2, _⟩ := hrep
      cases f with
      | true =>
        simp only [reverseRanges, if_true, IndexRange.mk3]
        have hst : rangeStart ⟨b + (e : Int) - 1, b - 1, -1, false⟩ b = b + (e : Int) - 1 := rangeStart_of_mem r1 (by omega)
        have hfi : rangeFinish ⟨b + (e : Int) - 1, b - 1, -1, false⟩ b e = b - 1 := rangeFinish_of_le r2 (by omega)
        refine ⟨⟨⟨by simp, by rw [hst]; omega, ?_⟩, a1⟩, ?_, ?_, ?_, ?_⟩
        · rw [hfi]; simp only [show ((-1 : Int) < 0) by omega, if_true]; omega
        · rw [numRanged_cons, a2]; simp; omega
        · simp only [selExtents, Bool.false_eq_true, if_false, List.map_cons, a3, hst, hfi]
          congr 1
          have := viewLen_exact (b + (e : Int) - 1) (-1) (by omega) (e - 1)
          rw [show b + (e : Int) - 1 + ((e - 1 : Nat) : Int) * -1 + sgn (-1) = b - 1 by simp [sgn]; omega] at this
          rw [this]; omega
        · intro ss hs
          match ss, hs with
          | s :: ss, hs =>
            simp only [selStrides, Bool.false_eq_true, if_false]
            rw [a4 ss (by simpa using hs)]
            congr 1; ring
        · intro k hk
          match k, hk with
          | x :: k, hk =>
            have := a5 k hk.2
            simp only [atPos] at this
            simp only [atPos, List.length_cons, List.replicate_succ, List.zipWith_cons_cons, selected, Bool.false_eq_true,
              if_false, hst, mirror, if_true, this]
            congr 1
            have := hk.1
            omega
      | false =>
        simp only [reverseRanges, Bool.false_eq_true, if_false]
        have hst : rangeStart IndexRange.default b = b := by
          simp [rangeStart, IndexRange.default, IndexRange.fromStart]
        have hfi : rangeFinish IndexRange.default b e = b + (e : Int) := by
          simp [rangeFinish, IndexRange.default, IndexRange.toEnd]
        have hdd : IndexRange.default.degenerate_ = false := rfl
        have hds : IndexRange.default.stride_ = 1 := rfl
        refine ⟨⟨⟨by simp [hds], by rw [hst]; omega, ?_⟩, a1⟩, ?_, ?_, ?_, ?_⟩
        · rw [hfi, hds]; simp
        · rw [numRanged_cons, a2, hdd]; simp; omega
        · simp only [selExtents, hdd, Bool.false_eq_true, if_false, List.map_cons, a3, hst, hfi, hds]
          congr 1
          have := viewLen_exact b 1 (by omega) (e - 1)
          rw [show b + ((e - 1 : Nat) : Int) * 1 + sgn 1 = b + (e : Int) by simp [sgn]; omega] at this
          rw [this]; omega
        · intro ss hs
          match ss, hs with
          | s :: ss, hs =>
            simp only [selStrides, hdd, Bool.false_eq_true, if_false]
            rw [a4 ss (by simpa using hs)]
            congr 1; rw [hds]; ring
        · intro k hk
          match k, hk with
          | x :: k, hk =>
            have := a5 k hk.2
            simp only [atPos] at this
            simp only [atPos, List.length_cons, List.replicate_succ, List.zipWith_cons_cons, selected, Bool.false_eq_true,
              if_false, hst, mirror, this, hdd, hds]
            congr 1
            omega

theorem selStrides_reverse_bases (fs : List Bool) (bs bs' : List Int) (es : List Nat) (ss : List Int)
    (hb : bs.length = es.length) (hb' : bs'.length = es.length) (hf : fs.length = es.length) :
    selStrides (reverseRanges fs bs es) ss = selStrides (reverseRanges fs bs' es) ss := by
  induction es generalizing fs bs bs' ss with
  | nil => match bs, bs', fs, hb, hb', hf with
    | [], [], [], _, _, _ => rfl
  | cons e es ih => match bs, bs', fs, hb, hb', hf with
    | b :: bs, b' :: bs', f :: fs, hb, hb', hf =>
      cases ss with
      | nil => simp [selStrides, reverseRanges]
      | cons s ss =>
        have := ih fs bs bs' ss (by simpa using hb) (by simpa using hb') (by simpa using hf)
        cases f <;> simp [reverseRanges, selStrides, this, IndexRange.mk3, IndexRange.default]

theorem mirror_inShape (fs : List Bool) (es k : List Nat) (hf : fs.length = es.length) (hk : InShape es k) :
    InShape es (mirror fs es k) := by
  induction es generalizing fs k with
  | nil => match fs, k, hf, hk with | [], [], _, _ => trivial
  | cons e es ih => match fs, k, hf, hk with
    | f :: fs, x :: k, hf, hk =>
      refine ⟨?_, ih fs k (by simpa using hf) hk.2⟩
      have := hk.1
      cases f <;> simp <;> omega

theorem mirror_mirror (fs : List Bool) (es k : List Nat) (hf : fs.length = es.length) (hk : InShape es k) :
    mirror fs es (mirror fs es k) = k := by
  induction es generalizing fs k with
  | nil => match fs, k, hf, hk with | [], [], _, _ => rfl
  | cons e es ih => match fs, k, hf, hk with
    | f :: fs, x :: k, hf, hk =>
      simp only [mirror, ih fs k (by simpa using hf) hk.2]
      have := hk.1
      cases f <;> simp
      omega

theorem inShape_pos {es k : List Nat} (h : InShape es k) : ∀ e ∈ es, 0 < e := by
  induction es generalizing k with
  | nil => simp
  | cons e es ih => match k, h with
    | x :: k, h =>
      intro y hy
      rcases List.mem_cons.mp hy with rfl | hy
      · have := h.1; omega
      · exact ih h.2 y hy

/-- Reversing the flagged dimensions of a well-shaped handle. -/
theorem reverse_view (d : Desc) (hw : WellShaped d) (dbg : Bool) (fs : List Bool) (hf : fs.length = d.extents.length)
    (hrep : Representable d.bases d.extents) (hne : ∀ e ∈ d.extents, 0 < e) :
    let g : IndexGen := ⟨d.extents.length, d.extents.length, reverseRanges fs d.bases d.extents⟩
    generateArrayView dbg g d = .ok (theView g d) ∧ (theView g d).extents = d.extents ∧
      (theView g d).bases = List.replicate d.extents.length 0 ∧ (theView g d).WF ∧
      ∀ k, InShape d.extents k → (theView g d).paren dbg (atPos (theView g d).bases k) =
        accessElement dbg (atPos d.bases (mirror fs d.extents k)) d := by
  intro g
  obtain ⟨a1, a2, a3, _, a5⟩ := reverse_lists fs d.bases d.extents hw.2 hf hrep hne
  have hok := genView_legal dbg g d hw a1 a2
  have hwf := theView_wf g d hw a1
  have hext : (theView g d).extents = d.extents := a3
  have hbases : (theView g d).bases = List.replicate d.extents.length 0 := by
    show List.replicate (selExtents _ _ _).length (0 : Int) = _
    rw [selExtents_length _ _ _ a1.length.1 a1.length.2]
    show List.replicate (numRanged (reverseRanges fs d.bases d.extents)) (0 : Int) = _
    rw [a2]
  refine ⟨hok, hext, hbases, hwf, ?_⟩
  intro k hk
  have hkl := hk.length
  have hin : InBox (theView g d).bases (theView g d).extents (atPos (theView g d).bases k) := by
    apply inBox_atPos
    · rw [hbases, hext]; simp
    · rw [hext]; exact hk
  have hin' : InBox d.bases d.extents (atPos d.bases (mirror fs d.extents k)) :=
    inBox_atPos hw.2 (mirror_inShape fs _ _ hf hk)
  rw [accessElement_inBox dbg d _ hw.1 hin']
  show accessElement dbg _ (theView g d).desc = _
  rw [accessElement_inBox dbg (theView g d).desc _ hwf.wellShaped.1 hin]
  rw [view_address hw a1 .refl _ hin.length.1]
  congr 2
  rw [hbases, relPos_zero _ _ (by simp [atPos, hkl])]
  exact a5 k hk

/-! ### Defaults -/

theorem default_lists (es : List Nat) (bs : List Int) (hb : bs.length = es.length) :
    LegalRanges bs es (List.replicate es.length IndexRange.default) ∧
    numRanged (List.replicate es.length IndexRange.default) = es.length ∧
    (selExtents (List.replicate es.length IndexRange.default) bs es).map Int.toNat = es ∧
    (∀ ss : List Int, ss.length = es.length → selStrides (List.replicate es.length IndexRange.default) ss = ss) ∧
    ∀ k, InShape es k → selected (List.replicate es.length IndexRange.default) bs (k.map Int.ofNat) = atPos bs k := by
  induction es generalizing bs with
  | nil => match bs, hb with
    | [], _ =>
      refine ⟨trivial, rfl, rfl, ?_, ?_⟩
      · intro ss hs; match ss, hs with | [], _ => rfl
      · intro k hk; match k, hk with | [], _ => rfl
  | cons e es ih => match bs, hb with
    | b :: bs, hb =>
      obtain ⟨a1, a2, a3, a4, a5⟩ := ih bs (by simpa using hb)
      have hst : rangeStart IndexRange.default b = b := by
        simp [rangeStart, IndexRange.default, IndexRange.fromStart]
      have hfi : rangeFinish IndexRange.default b e = b + (e : Int) := by
        simp [rangeFinish, IndexRange.default, IndexRange.toEnd]
      have hdd : IndexRange.default.degenerate_ = false := rfl
      have hds : IndexRange.default.stride_ = 1 := rfl
      simp only [List.length_cons, List.replicate_succ]
      refine ⟨⟨⟨by simp [hds], by rw [hst]; omega, ?_⟩, a1⟩, ?_, ?_, ?_, ?_⟩
      · rw [hfi, hds]; simp
      · rw [numRanged_cons, a2, hdd]; simp; omega
      · simp only [selExtents, hdd, Bool.false_eq_true, if_false, List.map_cons, a3, hst, hfi, hds]
        congr 1
        have h1 := viewLen_pos b (b + (e : Int)) 1 (by omega)
        have h2 := viewLen_nonneg b (b + (e : Int)) 1 (by omega)
        have h3 := h1 (viewLen b (b + (e : Int)) 1).toNat
        have h4 := h1 (viewLen b (b + (e : Int)) 1 - 1).toNat
        omega
      · intro ss hs
        match ss, hs with
        | s :: ss, hs =>
          simp only [selStrides, hdd, Bool.false_eq_true, if_false]
          rw [a4 ss (by simpa using hs), hds, Int.one_mul]
      · intro k hk
        match k, hk with
        | x :: k, hk =>
          simp only [atPos, List.map_cons, selected, hdd, Bool.false_eq_true, if_false, hst, hds, Int.mul_one,
            List.zipWith_cons_cons]
          rw [a5 k hk.2]
          rfl

/-- The slice `indices[i][range()]...[range()]`. -/
theorem first_slice (p : Ptr) (e : Nat) (es : List Nat) (s : Int) (ss : List Int) (b : Int) (bs : List Int)
    (hs : ss.length = es.length) (hb : bs.length = es.length) (dbg : Bool) (i : Int)
    (h1 : b ≤ i) (h2 : i < b + (e : Int)) (hi1 : -(2 ^ 63) < i) (hi2 : i < 2 ^ 63 - 2) :
    let d : Desc := ⟨p, e :: es, s :: ss, b :: bs⟩
    let d' : Desc := ⟨p.add (i * s), es, ss, bs⟩
    let g : IndexGen := ⟨es.length + 1, es.length, IndexRange.single i :: List.replicate es.length IndexRange.default⟩
    generateArrayView dbg g d = .ok (theView g d) ∧ (theView g d).extents = es ∧ (theView g d).strides = ss ∧
      (theView g d).bases = List.replicate es.length 0 ∧
      ∀ k, InShape es k → (theView g d).paren dbg (atPos (theView g d).bases k) = accessElement dbg (atPos bs k) d' := by
  intro d d' g
  obtain ⟨a1, a2, a3, a4, a5⟩ := default_lists es bs hb
  have hst : rangeStart (IndexRange.single i) b = i := by
    simp only [rangeStart, IndexRange.single, show ¬ i = -(2 ^ 63) by omega, if_false]
  have hfi : rangeFinish (IndexRange.single i) b e = i + 1 := by
    simp only [rangeFinish, IndexRange.single, show ¬ i + 1 = 2 ^ 63 - 1 by omega, if_false]
  have hdd : (IndexRange.single i).degenerate_ = true := rfl
  have hds : (IndexRange.single i).stride_ = 1 := rfl
  have hw : WellShaped d := ⟨by simp [d, hs], by simp [d, hb]⟩
  have hleg : LegalRanges d.bases d.extents g.ranges := by
    refine ⟨⟨by simp [hds], by rw [hst]; omega, ?_⟩, a1⟩
    rw [hfi, hds]; simp only [show ¬ (1 : Int) < 0 by omega, if_false]; omega
  have hnum : numRanged g.ranges = g.numDims := by
    show numRanged (IndexRange.single i :: List.replicate es.length IndexRange.default) = es.length
    rw [numRanged_cons, a2, hdd]; simp
  have hok := genView_legal dbg g d hw hleg hnum
  have hwf := theView_wf g d hw hleg
  have hext : (theView g d).extents = es := by
    rw [theView_extents]
    show (selExtents (IndexRange.single i :: List.replicate es.length IndexRange.default) (b :: bs) (e :: es)).map Int.toNat = es
    simp only [selExtents, hdd, if_true, a3]
  have hstr : (theView g d).strides = ss := by
    show selStrides (IndexRange.single i :: List.replicate es.length IndexRange.default) (s :: ss) = ss
    simp only [selStrides, hdd, if_true]
    exact a4 ss hs
  have hbases : (theView g d).bases = List.replicate es.length 0 := by
    show List.replicate (selExtents _ _ _).length (0 : Int) = _
    rw [selExtents_length _ _ _ hleg.length.1 hleg.length.2, hnum]
  refine ⟨hok, hext, hstr, hbases, ?_⟩
  intro k hk
  have hkl := hk.length
  have hin : InBox (theView g d).bases (theView g d).extents (atPos (theView g d).bases k) := by
    apply inBox_atPos
    · rw [hbases, hext]; simp
    · rw [hext]; exact hk
  have hin' : InBox d'.bases d'.extents (atPos bs k) := inBox_atPos hb hk
  rw [accessElement_inBox dbg d' _ hs hin']
  show accessElement dbg _ (theView g d).desc = _
  rw [accessElement_inBox dbg (theView g d).desc _ hwf.wellShaped.1 hin]
  rw [view_address hw hleg .refl _ hin.length.1]
  congr 1
  rw [hbases, relPos_zero _ _ (by simp [atPos, hkl])]
  have hz : atPos (List.replicate es.length 0) k = k.map Int.ofNat := by
    apply List.ext_getElem
    · simp [atPos, hkl]
    · intro m m1 m2; simp [atPos]
  rw [hz]
  show (Ptr.add p (dot (selected (IndexRange.single i :: List.replicate es.length IndexRange.default) (b :: bs) (k.map Int.ofNat)) (s :: ss))) = _
  simp only [selected, hdd, if_true, hst]
  rw [a5 k hk]
  simp only [dot, address, d', Ptr.add_add]

end MultiArray
