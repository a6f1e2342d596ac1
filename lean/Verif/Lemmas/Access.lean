import Verif.Lemmas.Reach

/- Outcomes of `access`, chained `access` and `access_element`. -/
set_option autoImplicit false

namespace MultiArray
open Spec

theorem Ptr.add_add (p : Ptr) (a b : Int) : (p.add a).add b = p.add (a + b) := by
  simp [Ptr.add, Int.add_assoc]

@[simp] theorem Ptr.add_zero (p : Ptr) : p.add 0 = p := by simp [Ptr.add]

theorem Ptr.add_inj (p : Ptr) (a b : Int) : p.add a = p.add b ↔ a = b := by
  simp [Ptr.add]

theorem checkIndices_inBox (dbg : Bool) (es : List Nat) (bs is : List Int) (h : InBox bs es is) :
    checkIndices dbg es bs is = .ok () := by
  induction es generalizing bs is with
  | nil => rfl
  | cons e es ih => match bs, is, h with
    | b :: bs, i :: is, h =>
      obtain ⟨h1, h2, h3⟩ := h
      cases dbg with
      | false => rfl
      | true =>
        have e1 : decide (i - b ≥ 0) = true := by simp; omega
        have e2 : decide ((i - b).toNat < e) = true := by simp; omega
        simp only [checkIndices, e1, e2, Res.assert_true, Res.bind_ok, if_true]
        exact ih bs is h3

theorem checkIndices_not_inBox (es : List Nat) (bs is : List Int) (hb : bs.length = es.length)
    (hi : is.length = es.length) (h : ¬ InBox bs es is) : checkIndices true es bs is = .assertFail := by
  induction es generalizing bs is with
  | nil =>
    have h1 : bs = [] := by simpa using hb
    have h2 : is = [] := by simpa using hi
    subst h1 h2
    exact absurd trivial h
  | cons e es ih => match bs, is, hb, hi with
    | b :: bs, i :: is, hb, hi =>
      simp only [checkIndices, if_true]
      by_cases h1 : i - b ≥ 0
      · by_cases h2 : (i - b).toNat < e
        · have e1 : decide (i - b ≥ 0) = true := by simpa using h1
          have e2 : decide ((i - b).toNat < e) = true := by simpa using h2
          simp only [e1, e2, Res.assert_true, Res.bind_ok]
          apply ih bs is (by simpa using hb) (by simpa using hi)
          intro hin
          exact h ⟨by omega, by omega, hin⟩
        · have e1 : decide (i - b ≥ 0) = true := by simpa using h1
          have e2 : decide ((i - b).toNat < e) = false := by simpa using h2
          simp only [e1, e2, Res.assert_true, Res.bind_ok, Res.assert_true_false, Res.bind_assertFail]
      · have e1 : decide (i - b ≥ 0) = false := by simpa using h1
        simp only [e1, Res.assert_true_false, Res.bind_assertFail]

theorem offsetLoop_eq (n : Nat) (is ss : List Int) (o : Int) (hi : is.length = n) (hs : ss.length = n) :
    offsetLoop n is ss o = .ok (o + dot is ss) := by
  induction n generalizing is ss o with
  | zero =>
    have h1 : is = [] := by simpa using hi
    subst h1; simp [offsetLoop, dot]
  | succ n ih => match is, ss, hi, hs with
    | i :: is, s :: ss, hi, hs =>
      simp only [offsetLoop, dot]
      rw [ih is ss _ (by simpa using hi) (by simpa using hs)]
      congr 1; ring

theorem accessElement_inBox (dbg : Bool) (d : Desc) (idx : List Int) (hs : d.strides.length = d.extents.length)
    (h : InBox d.bases d.extents idx) : accessElement dbg idx d = .ok (address d idx) := by
  unfold accessElement
  rw [checkIndices_inBox dbg _ _ _ h, Res.bind_ok, offsetLoop_eq _ _ _ _ h.length.1 hs]
  simp [address]

theorem accessElement_not_inBox (d : Desc) (idx : List Int) (hb : d.bases.length = d.extents.length)
    (hi : idx.length = d.extents.length) (h : ¬ InBox d.bases d.extents idx) :
    accessElement true idx d = .assertFail := by
  unfold accessElement
  rw [checkIndices_not_inBox _ _ _ hb hi h]; rfl

/-- One-step access succeeds on a first index in range. -/
theorem access_ok (dbg : Bool) (i : Int) (p : Ptr) (e : Nat) (es : List Nat) (s : Int) (ss : List Int) (b : Int)
    (bs : List Int) (h1 : b ≤ i) (h2 : i < b + (e : Int)) :
    access dbg i ⟨p, e :: es, s :: ss, b :: bs⟩ = .ok ⟨p.add (i * s), es, ss, bs⟩ := by
  have e1 : decide (i - b ≥ 0) = true := by simp; omega
  have e2 : decide ((i - b).toNat < e) = true := by simp; omega
  simp only [access, e1, e2, Res.assert_true, Res.bind_ok]

theorem access_fail (i : Int) (p : Ptr) (e : Nat) (es : List Nat) (s : Int) (ss : List Int) (b : Int)
    (bs : List Int) (h : ¬ (b ≤ i ∧ i < b + (e : Int))) :
    access true i ⟨p, e :: es, s :: ss, b :: bs⟩ = .assertFail := by
  by_cases h1 : i - b ≥ 0
  · have e1 : decide (i - b ≥ 0) = true := by simpa using h1
    have e2 : decide ((i - b).toNat < e) = false := by simp; omega
    simp only [access, e1, e2, Res.assert_true, Res.bind_ok, Res.assert_true_false, Res.bind_assertFail]
  · have e1 : decide (i - b ≥ 0) = false := by simpa using h1
    simp only [access, e1, Res.assert_true_false, Res.bind_assertFail]

/-- Chained access over a prefix of the dimensions. -/
theorem accessChain_inBox (dbg : Bool) (p : Ptr) (is : List Int) (es es' : List Nat) (ss ss' bs bs' : List Int)
    (hs : ss.length = es.length) (h : InBox bs es is) :
    accessChain dbg is ⟨p, es ++ es', ss ++ ss', bs ++ bs'⟩ = .ok ⟨p.add (dot is ss), es', ss', bs'⟩ := by
  induction is generalizing p es ss bs with
  | nil =>
    obtain ⟨l1, l2⟩ := h.length
    match es, bs, ss, l1, l2, hs, h with
    | [], [], [], _, _, _, _ => simp [accessChain, dot]
  | cons i is ih =>
    obtain ⟨l1, l2⟩ := h.length
    match es, bs, ss, l1, l2, hs, h with
    | e :: es, b :: bs, s :: ss, _, _, hs, h =>
      simp only [accessChain, List.cons_append]
      rw [access_ok dbg i p e (es ++ es') s (ss ++ ss') b (bs ++ bs') h.1 h.2.1, Res.bind_ok,
        ih _ es ss bs (by simpa using hs) h.2.2, Ptr.add_add]
      rfl

theorem accessChain_full (dbg : Bool) (d : Desc) (idx : List Int) (hs : d.strides.length = d.extents.length)
    (h : InBox d.bases d.extents idx) : accessChain dbg idx d = .ok ⟨address d idx, [], [], []⟩ := by
  have := accessChain_inBox dbg d.base idx d.extents [] d.strides [] d.bases [] hs h
  simpa [address] using this

theorem accessChain_fail (d : Desc) (idx : List Int) (hs : d.strides.length = d.extents.length)
    (hb : d.bases.length = d.extents.length) (hi : idx.length = d.extents.length)
    (h : ¬ InBox d.bases d.extents idx) : accessChain true idx d = .assertFail := by
  obtain ⟨p, es, ss, bs⟩ := d
  simp only at hs hb hi h
  induction es generalizing p ss bs idx with
  | nil =>
    have h1 : bs = [] := by simpa using hb
    have h2 : idx = [] := by simpa using hi
    subst h1 h2
    exact absurd trivial h
  | cons e es ih => match bs, idx, ss, hb, hi, hs with
    | b :: bs, i :: is, s :: ss, hb, hi, hs =>
      simp only [accessChain]
      by_cases hc : b ≤ i ∧ i < b + (e : Int)
      · rw [access_ok true i p e es s ss b bs hc.1 hc.2, Res.bind_ok]
        exact ih is _ ss bs (by simpa using hs) (by simpa using hb) (by simpa using hi)
          (fun hin => h ⟨hc.1, hc.2, hin⟩)
      · rw [access_fail i p e es s ss b bs hc]; rfl

/-! Arrays -/

theorem ARef.WF.paren_ok {n : Nat} {a : ARef} (h : a.WF n) (dbg : Bool) {idx : List Int}
    (hin : InBox a.bases a.extents idx) : a.paren dbg idx = .ok (a.origin.add (dot idx a.strides)) := by
  have : a.desc.strides.length = a.desc.extents.length := by
    simp [ARef.desc, h.strides_len, h.ext_len]
  exact accessElement_inBox dbg a.desc idx this hin

/-- Zero-based position of an index tuple, as a function of the dimension. -/
def posOf (bs idx : List Int) (d : Nat) : Nat := (idx.getD d 0 - bs.getD d 0).toNat

theorem ARef.WF.paren_flat {n : Nat} {a : ARef} (h : a.WF n) (dbg : Bool) {idx : List Int}
    (hin : InBox a.bases a.extents idx) :
    a.paren dbg idx = .ok (a.data.add (a.flat (posOf a.bases idx) : Nat)) := by
  rw [h.paren_ok dbg hin]
  simp only [ARef.origin, ARef.data, Ptr.add_add]
  rw [h.offset_eq idx hin]
  rfl

theorem Spec.InBox.posOf_lt {n : Nat} {bs : List Int} {es : List Nat} {idx : List Int} (h : InBox bs es idx)
    (he : es.length = n) : ∀ d, d < n → posOf bs idx d < es.getD d 0 := by
  intro d hd
  have := h.get d (by omega)
  unfold posOf; omega

theorem Spec.InBox.ext_posOf {bs : List Int} {es : List Nat} {i j : List Int} (hi : InBox bs es i)
    (hj : InBox bs es j) (h : ∀ d, d < es.length → posOf bs i d = posOf bs j d) : i = j := by
  apply List.ext_getElem
  · rw [hi.length.1, hj.length.1]
  · intro d h1 h2
    have hd : d < es.length := by rw [← hi.length.1]; exact h1
    have e := h d hd
    have g1 := hi.get d hd
    have g2 := hj.get d hd
    unfold posOf at e
    simp only [List.getD_eq_getElem?_getD, List.getElem?_eq_getElem h1, List.getElem?_eq_getElem h2,
      Option.getD_some] at e g1 g2
    omega

/-- The index tuple with zero-based position `k`. -/
theorem exists_idx (bs : List Int) (es : List Nat) (k : Nat → Nat) (hb : bs.length = es.length)
    (hk : ∀ d, d < es.length → k d < es.getD d 0) :
    ∃ idx, InBox bs es idx ∧ ∀ d, d < es.length → posOf bs idx d = k d := by
  have hget : ∀ d, d < es.length →
      ((List.range es.length).map (fun d => bs.getD d 0 + (k d : Int))).getD d 0 = bs.getD d 0 + (k d : Int) := by
    intro d hd
    simp [List.getD_eq_getElem?_getD, hd]
  refine ⟨(List.range es.length).map (fun d => bs.getD d 0 + (k d : Int)), ?_, ?_⟩
  · apply inBox_of_get hb (by simp)
    intro d hd
    rw [hget d hd]
    have := hk d hd
    omega
  · intro d hd
    unfold posOf
    rw [hget d hd]
    omega

theorem ARef.flat_congr {n : Nat} {a : ARef} (h : a.WF n) (k k' : Nat → Nat) (hk : ∀ d, d < n → k d = k' d) :
    a.flat k = a.flat k' := by
  apply mixed_congr
  intro d hd
  simp [digit, hk d (h.order.mem_lt d hd)]

theorem atPos_getD (bs : List Int) (k : List Nat) (d : Nat) (h1 : d < bs.length) (h2 : d < k.length) :
    (atPos bs k).getD d 0 = bs.getD d 0 + (k.getD d 0 : Int) := by
  simp [atPos, List.getD_eq_getElem?_getD, h1, h2]

theorem Spec.InShape.length {es k : List Nat} (h : InShape es k) : k.length = es.length := by
  induction es generalizing k with
  | nil => match k, h with | [], _ => rfl
  | cons e es ih => match k, h with | x :: k, h => simp [ih h.2]

theorem inBox_atPos {bs : List Int} {es k : List Nat} (hb : bs.length = es.length) (h : InShape es k) :
    InBox bs es (atPos bs k) := by
  induction es generalizing bs k with
  | nil => match bs, k, hb, h with | [], [], _, _ => trivial
  | cons e es ih => match bs, k, hb, h with
    | b :: bs, x :: k, hb, h =>
      have := h.1
      refine ⟨by show b ≤ b + (x : Int); omega, by show b + (x : Int) < b + (e : Int); omega, ?_⟩
      exact ih (by simpa using hb) h.2

theorem inBox_iff_atPos {bs : List Int} {es : List Nat} {idx : List Int} (hb : bs.length = es.length) :
    InBox bs es idx ↔ ∃ k, InShape es k ∧ idx = atPos bs k := by
  constructor
  · intro h
    induction es generalizing bs idx with
    | nil => match bs, idx, hb, h with | [], [], _, _ => exact ⟨[], trivial, rfl⟩
    | cons e es ih => match bs, idx, hb, h with
      | b :: bs, i :: is, hb, h =>
        obtain ⟨k, hk, rfl⟩ := ih (by simpa using hb) h.2.2
        refine ⟨(i - b).toNat :: k, ⟨by have := h.1; have := h.2.1; omega, hk⟩, ?_⟩
        have := h.1
        simp only [atPos, List.zipWith_cons_cons, List.cons.injEq, and_true]
        omega
  · rintro ⟨k, hk, rfl⟩; exact inBox_atPos hb hk

theorem posOf_atPos {bs : List Int} {k : List Nat} (h : bs.length = k.length) (d : Nat) (hd : d < k.length) :
    posOf bs (atPos bs k) d = k.getD d 0 := by
  unfold posOf
  rw [atPos_getD bs k d (by omega) hd]; omega

end MultiArray
