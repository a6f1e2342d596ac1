import Verif.SpecIntTypes
import Verif.Props.Machine
import Verif.Lemmas.Access
import Verif.Lemmas.MachineParts

/- Property theorems C94: collections of any integer type. -/
set_option autoImplicit false

namespace MultiArray.Props
open MultiArray Spec

namespace IntTypes

theorem intToIndex_mod (v : Int) : Machine.intToIndex v % 2 ^ 64 = v % 2 ^ 64 := by
  unfold Machine.intToIndex; exact Int.bmod_emod

theorem intToIndex_in (v : Int) : Machine.InIndex (Machine.intToIndex v) := by
  unfold Machine.intToIndex Machine.InIndex
  have h1 := Int.le_bmod (x := v) (m := 2 ^ 64) (by decide)
  have h2 := Int.bmod_lt (x := v) (m := 2 ^ 64) (by decide)
  omega

theorem intToIndex_eq {v x : Int} (h : v % 2 ^ 64 = x % 2 ^ 64) (hx : Machine.InIndex x) : Machine.intToIndex v = x :=
  Machine.eq_of_mod (intToIndex_in v) hx (by rw [intToIndex_mod, h])

theorem map_denote {vs is : List Int} (h : Denote vs is) (hi : AllIndex is) : vs.map Machine.intToIndex = is := by
  induction vs generalizing is with
  | nil => match is, h with | [], _ => rfl
  | cons v vs ih => match is, h with
    | i :: is, h =>
      rw [List.map_cons, intToIndex_eq h.1 (hi i (by simp)), ih h.2 (fun x hx => hi x (by simp [hx]))]

theorem denote_map (vs : List Int) : Denote vs (vs.map Machine.intToIndex) := by
  induction vs with
  | nil => trivial
  | cons v vs ih => exact ⟨(intToIndex_mod v).symm, ih⟩

theorem denote_length {vs is : List Int} (h : Denote vs is) : vs.length = is.length := by
  induction vs generalizing is with
  | nil => match is, h with | [], _ => rfl
  | cons v vs ih => match is, h with
    | i :: is, h => simp [ih h.2]

theorem inBox_allIndex {bs : List Int} {es : List Nat} {is : List Int} (h : InBox bs es is) {ss : List Int} (hl : ss.length = es.length) (hf : DimsFit bs es ss) : AllIndex is := by
  induction es generalizing bs is ss with
  | nil => match bs, is, h with | [], [], _ => intro x hx; cases hx
  | cons e es ih => match bs, is, ss, h, hl with
    | b :: bs, i :: is, s :: ss, h, hl =>
      obtain ⟨h1, h2, h3⟩ := h
      obtain ⟨f1, f2, f3, f4, f5⟩ := hf
      intro x hx
      rcases List.mem_cons.mp hx with rfl | hx
      · omega
      · exact ih h3 (by simpa using hl) f5 x hx

theorem inside_small {bs ss : List Int} {es : List Nat} (hl : bs.length = es.length) (hs : ss.length = es.length) (hf : DimsFit bs es ss) :
    ∀ e ∈ es, e < 2 ^ 63 := by
  induction es generalizing bs ss with
  | nil => intro e he; cases he
  | cons e es ih => match bs, ss, hl, hs with
    | b :: bs, s :: ss, hl, hs =>
      obtain ⟨f1, f2, f3, f4, f5⟩ := hf
      intro x hx
      rcases List.mem_cons.mp hx with rfl | hx
      · omega
      · exact ih (by simpa using hl) (by simpa using hs) f5 x hx

theorem check_ok (dbg : Bool) {es : List Nat} {bs vs is : List Int} (h : InBox bs es is) (hf : ∀ e ∈ es, e < 2 ^ 63) (hd : Denote vs is) :
    Machine.checkIndicesU dbg es bs vs = .ok () := by
  induction es generalizing bs vs is with
  | nil => rfl
  | cons e es ih => match bs, is, vs, h, hd with
    | b :: bs, i :: is, v :: vs, h, hd =>
      obtain ⟨h1, h2, h3⟩ := h
      have f2 := hf e (by simp)
      have f3 : ∀ x ∈ es, x < 2 ^ 63 := fun x hx => hf x (by simp [hx])
      obtain ⟨d1, d2⟩ := hd
      simp only [Machine.checkIndicesU]
      cases dbg
      · rfl
      · have hm : Machine.usub (toSizeT v) (toSizeT b) < e := by
          have h4 := Machine.usub_mod (toSizeT v) (toSizeT b)
          rw [Machine.toSizeT_cast, Machine.toSizeT_cast] at h4
          have h5 : Machine.usub (toSizeT v) (toSizeT b) < 2 ^ 64 := Nat.mod_lt _ (by decide)
          omega
        simp only [if_true, ge_iff_le, Nat.zero_le, decide_true, Res.assert_true, Res.bind_ok, hm]
        exact ih h3 f3 d2

theorem check_fail {es : List Nat} {bs vs : List Int} (hb : bs.length = es.length) (hv : vs.length = es.length)
    (h : ¬ ∃ is, InBox bs es is ∧ Denote vs is) : Machine.checkIndicesU true es bs vs = .assertFail := by
  induction es generalizing bs vs with
  | nil => match bs, vs, hb, hv with
    | [], [], _, _ => exact absurd ⟨[], trivial, trivial⟩ h
  | cons e es ih => match bs, vs, hb, hv with
    | b :: bs, v :: vs, hb, hv =>
      simp only [Machine.checkIndicesU, if_true, ge_iff_le, Nat.zero_le, decide_true, Res.assert_true, Res.bind_ok]
      have h4 := Machine.usub_mod (toSizeT v) (toSizeT b)
      rw [Machine.toSizeT_cast, Machine.toSizeT_cast] at h4
      have h5 : Machine.usub (toSizeT v) (toSizeT b) < 2 ^ 64 := Nat.mod_lt _ (by decide)
      by_cases hm : Machine.usub (toSizeT v) (toSizeT b) < e
      · simp only [hm, decide_true, Res.assert_true, Res.bind_ok]
        refine ih (by simpa using hb) (by simpa using hv) ?_
        rintro ⟨is, h1, h2⟩
        refine h ⟨(b + (Machine.usub (toSizeT v) (toSizeT b) : Nat)) :: is, ⟨by omega, by omega, h1⟩, ⟨by omega, h2⟩⟩
      · simp only [hm, decide_false, Res.assert_true_false, Res.bind_assertFail]

theorem step_mod {v i s o o' : Int} (d1 : v % 2 ^ 64 = i % 2 ^ 64) (ho : o' % 2 ^ 64 = o % 2 ^ 64) :
    Machine.toIndex (Machine.uadd (toSizeT o') (Machine.umul (toSizeT v) (toSizeT s))) % 2 ^ 64 = (o + i * s) % 2 ^ 64 := by
  rw [Machine.toIndex_mod, Machine.uadd_mod]
  have h1 := Machine.umul_mod (toSizeT v) (toSizeT s)
  have h2 : ((toSizeT v : Nat) : Int) * ((toSizeT s : Nat) : Int) % 2 ^ 64 = (i * s) % 2 ^ 64 := by
    rw [Machine.toSizeT_cast, Machine.toSizeT_cast]
    exact Machine.mul_mod_congr ((Int.emod_emod_of_dvd v (dvd_refl (2 ^ 64 : Int))).trans d1) (Int.emod_emod_of_dvd s (dvd_refl (2 ^ 64 : Int)))
  rw [h2] at h1
  rw [Machine.toSizeT_cast]
  generalize i * s = x at h1 ⊢
  generalize ((Machine.umul (toSizeT v) (toSizeT s) : Nat) : Int) = y at h1 ⊢
  omega

theorem offset_ok (n : Nat) {vs is ss : List Int} (hi : is.length = n) (hs : ss.length = n) (hd : Denote vs is) (o o' : Int)
    (hin : Machine.InIndex (o + dot is ss)) (ho : o' % 2 ^ 64 = o % 2 ^ 64) (ho' : Machine.InIndex o') :
    Machine.offsetLoopU n vs ss o' = .ok (o + dot is ss) := by
  induction n generalizing vs is ss o o' with
  | zero =>
    have e1 : is = [] := by simpa using hi
    subst e1
    have h0 : o + dot [] ss = o := Int.add_zero o
    rw [h0] at hin ⊢
    have e2 := Machine.eq_of_mod ho' hin ho
    subst e2
    exact Machine.offsetLoopU.eq_1 _ _ _
  | succ n ih =>
    cases is with
    | nil => simp at hi
    | cons i is => cases ss with
      | nil => simp at hs
      | cons s ss => cases vs with
        | nil => exact hd.elim
        | cons v vs =>
          obtain ⟨d1, d2⟩ := hd
          have e1 : o + dot (i :: is) (s :: ss) = (o + i * s) + dot is ss := by
            show o + (i * s + dot is ss) = _
            omega
          rw [e1] at hin ⊢
          rw [Machine.offsetLoopU, Machine.offsetStepU, Res.bind_ok]
          exact ih (by simpa using hi) (by simpa using hs) d2 (o + i * s) _ hin (step_mod d1 ho) (Machine.toIndex_in _)

theorem denote_eq {vs is : List Int} (h : Denote vs is) (hv : AllIndex vs) (hi : AllIndex is) : vs = is := by
  induction vs generalizing is with
  | nil => match is, h with | [], _ => rfl
  | cons v vs ih => match is, h with
    | i :: is, h =>
      rw [Machine.eq_of_mod (hv v (by simp)) (hi i (by simp)) h.1, ih h.2 (fun x hx => hv x (by simp [hx])) (fun x hx => hi x (by simp [hx]))]

theorem denote_refl (vs : List Int) : Denote vs vs := by
  induction vs with
  | nil => trivial
  | cons v vs ih => exact ⟨rfl, ih⟩

theorem ofType_allIndex {t : Machine.IntTy} (ht : t ≠ .u64) {vs : List Int} (h : OfType t vs) : AllIndex vs := by
  intro v hv
  have := h v hv
  cases t <;> simp only [Machine.IntTy.lo, Machine.IntTy.hi] at this <;> first | omega | exact absurd rfl ht

theorem map_toSizeT {t : Machine.IntTy} {vs : List Int} (h : OfType t vs) (h0 : ∀ v ∈ vs, 0 ≤ v) : vs.map toSizeT = vs.map Int.toNat := by
  apply List.map_congr_left
  intro v hv
  have h1 := h v hv
  refine Machine.toSizeT_nonneg (h0 v hv) ?_
  have h2 : t.hi ≤ 2 ^ 64 := by cases t <;> decide
  omega

theorem chain_fail (p : Ptr) {es : List Nat} {bs ss is : List Int} (hb : bs.length = es.length) (hs : ss.length = es.length)
    (hi : is.length = es.length) (hf : DimsFit bs es ss) (hd : DistancesFit bs is) (h : ¬ InBox bs es is) :
    Machine.accessChain true is ⟨p, es, ss, bs⟩ = .assertFail := by
  induction es generalizing bs ss is p with
  | nil => match bs, is, hb, hi with
    | [], [], _, _ => exact absurd trivial h
  | cons e es ih => match bs, ss, is, hb, hs, hi with
    | b :: bs, s :: ss, i :: is, hb, hs, hi =>
      obtain ⟨f1, f2, f3, f4, f5⟩ := hf
      obtain ⟨d1, d2⟩ := hd
      simp only [Machine.accessChain, Machine.access, if_true]
      rw [Machine.chk_ok d1, Res.bind_ok]
      by_cases h0 : i - b ≥ 0
      · rw [Machine.size_check d1 h0]
        by_cases h1 : (i - b).toNat < e
        · have hin : Machine.InIndex (i * s) := f4 i (by omega) (by omega)
          rw [Machine.chk_ok hin]
          simp only [h0, h1, decide_true, Res.assert_true, Res.bind_ok]
          exact ih _ (by simpa using hb) (by simpa using hs) (by simpa using hi) f5 d2 (fun hx => h ⟨by omega, by omega, hx⟩)
        · simp only [h0, h1, decide_true, decide_false, Res.assert_true, Res.bind_ok, Res.assert_true_false, Res.bind_assertFail]
      · simp only [h0, decide_false, Res.assert_true_false, Res.bind_assertFail]

end IntTypes

open IntTypes

/-- **C94**, `x(indices)` of any array, subarray or view that fits the machine, with a collection of any integer type: if the collection denotes an index
tuple in range (entry by entry equal to it up to a multiple of 2^64, so e.g. `std::size_t(-1)` denotes -1), the call succeeds and yields the element with
that index, with assertions on or off; if it denotes none, a debug build stops at an assertion. The only condition on out-of-range entries is that a
*signed* (or narrower than 64-bit) entry is at a representable distance from the index base; 64-bit unsigned entries are unrestricted. -/
theorem C94_parens {d : Desc} (hw : WellShaped d) (hfit : HandleFits d) (t : Machine.IntTy) {vs : List Int} (hty : OfType t vs)
    (hlen : vs.length = d.extents.length) (hdist : t ≠ .u64 → DistancesFit d.bases vs) :
    (∀ idx, InBox d.bases d.extents idx → Denote vs idx → ∀ dbg, Machine.accessElementT dbg t vs d = .ok (address d idx)) ∧
    ((¬ ∃ idx, InBox d.bases d.extents idx ∧ Denote vs idx) → Machine.accessElementT true t vs d = .assertFail) := by
  obtain ⟨hf1, hf2⟩ := hfit
  have hsm := inside_small hw.2 hw.1 hf1
  by_cases ht : t = .u64
  · unfold Machine.accessElementT
    simp only [ht, if_true]
    constructor
    · intro idx hin hd dbg
      have hab := hf2 idx hin
      have hdb := Machine.absDot_bound idx d.strides
      rw [check_ok dbg hin hsm hd, Res.bind_ok,
        offset_ok _ hin.length.1 hw.1 hd 0 0 (by unfold Machine.InIndex; omega) rfl (by decide), Res.bind_ok, Int.zero_add]
      rfl
    · intro h
      rw [check_fail hw.2 hlen h]; rfl
  · have hvi := ofType_allIndex ht hty
    have hdist := hdist ht
    unfold Machine.accessElementT
    simp only [ht, if_false]
    constructor
    · intro idx hin hd dbg
      have := denote_eq hd hvi (inBox_allIndex hin hw.1 hf1)
      subst this
      rw [Machine.accessElement_eq dbg vs d hdist (hf2 vs hin), accessElement_inBox dbg d vs hw.1 hin]
    · intro h
      unfold Machine.accessElement
      rw [Machine.checkIndices_eq true _ _ _ hdist,
        checkIndices_not_inBox _ _ _ hw.2 hlen (fun hin => h ⟨vs, hin, denote_refl vs⟩)]
      rfl

/-- **C94**, `x[v1]...[vN]`: the same, with each integer converted to the parameter type `index` first (so that the distance from the base has to be
representable for every type). -/
theorem C94_brackets {d : Desc} (hw : WellShaped d) (hfit : HandleFits d) {vs : List Int}
    (hlen : vs.length = d.extents.length) (hdist : ∀ ws, Denote vs ws → AllIndex ws → DistancesFit d.bases ws) :
    (∀ idx, InBox d.bases d.extents idx → Denote vs idx → ∀ dbg, Machine.accessChainT dbg vs d = .ok ⟨address d idx, [], [], []⟩) ∧
    ((¬ ∃ idx, InBox d.bases d.extents idx ∧ Denote vs idx) → Machine.accessChainT true vs d = .assertFail) := by
  obtain ⟨hf1, hf2⟩ := hfit
  unfold Machine.accessChainT
  constructor
  · intro idx hin hd dbg
    have hai := inBox_allIndex hin hw.1 hf1
    rw [map_denote hd hai, Machine.accessChain_eq dbg idx d (hdist idx hd hai) (hf2 idx hin), accessChain_full dbg d idx hw.1 hin]
  · intro h
    have hai : AllIndex (vs.map Machine.intToIndex) := by
      intro x hx
      obtain ⟨v, _, rfl⟩ := List.mem_map.mp hx
      exact intToIndex_in v
    exact chain_fail d.base hw.2 hw.1 (by simpa using hlen) hf1 (hdist _ (denote_map vs) hai) (fun hin => h ⟨_, hin, denote_map vs⟩)

/-- **C94**, construction: an extent list of any integer type with non-negative entries gives the same array as the list of those numbers. -/
theorem C94_construction {n : Nat} {p : Ptr} {so : StorageOrder} {a : ARef} (hv : ValidOrder n so) (t : Machine.IntTy) {vs : List Int} (hty : OfType t vs)
    (h0 : ∀ v ∈ vs, 0 ≤ v) (h : ARef.ofExtents n p (vs.map Int.toNat) so = .ok a) (hfit : ArrayFits a) : Machine.ofExtentsT n p vs so = .ok a := by
  unfold Machine.ofExtentsT
  rw [map_toSizeT hty h0]
  exact C51_construction hv (by simp) h hfit

/-- **C94**, `reindex`: a list of any integer type that denotes the bases `bs` does what `reindex(bs)` does. -/
theorem C94_reindex {n : Nat} {a a' : ARef} (ha : Reachable n a) {vs bs : List Int} (hd : Denote vs bs) (hbs : AllIndex bs)
    (h : a.reindexList bs = .ok a') (hfit : ArrayFits a') : Machine.reindexT a vs = .ok a' := by
  unfold Machine.reindexT
  rw [map_denote hd hbs]
  exact C51_reindex ha h hfit

/-- **C94**, `reindex` of a view. -/
theorem C94_view_reindex {v v' : View} {vs bs : List Int} (hd : Denote vs bs) (hbs : AllIndex bs) (h : v.reindexList bs = .ok v')
    (hfit : absDot v'.bases v'.strides < 2 ^ 63) : Machine.viewReindexT v vs = .ok v' := by
  unfold Machine.viewReindexT
  rw [map_denote hd hbs]
  exact C51_view_reindex h hfit

/-- **C94**, `reshape`: a list of any integer type with non-negative entries does what the list of those numbers does. -/
theorem C94_reshape {n : Nat} {a a' : ARef} (ha : Reachable n a) {dbg : Bool} (t : Machine.IntTy) {vs : List Int} (hty : OfType t vs)
    (h0 : ∀ v ∈ vs, 0 ≤ v) (hlen : vs.length = n) (h : a.reshape dbg (vs.map Int.toNat) = .ok a') (hfit : ArrayFits a') :
    Machine.reshapeT dbg a vs = .ok a' := by
  unfold Machine.reshapeT
  rw [map_toSizeT hty h0]
  exact C51_reshape ha (by simpa using hlen) h hfit

/-- **C94**: every array that fits the machine (`HeaderFits`: with the default index bases, fewer than 2^63 elements) meets the hypotheses on the
handle in `C94_parens` and `C94_brackets`, and so does every subarray of it. -/
theorem C94_arrays_fit {n : Nat} {a : ARef} (ha : Reachable n a) (hfit : HeaderFits a) :
    WellShaped a.desc ∧ HandleFits a.desc ∧
    ∀ dbg is d, accessChain dbg is a.desc = .ok d → WellShaped d ∧ HandleFits d := by
  have key : ∀ {d : Desc}, DescFits d → HandleFits d := fun {d} h =>
    ⟨h.dims, fun idx hin => by have := absDot_box (ss := d.strides) hin; have := h.reach; omega⟩
  have hw : WellShaped a.desc := ⟨by rw [show a.desc.strides = a.strides from rfl, ha.wf.strides_len]; exact ha.wf.ext_len.symm,
    by rw [show a.desc.bases = a.bases from rfl, ha.wf.bases_len]; exact ha.wf.ext_len.symm⟩
  have hd := DescFits.array ha.wf hfit
  refine ⟨hw, key hd, ?_⟩
  intro dbg is
  generalize a.desc = d0 at hw hd
  induction is generalizing d0 with
  | nil => intro d h; cases h; exact ⟨hw, key hd⟩
  | cons i is ih =>
    intro d h
    simp only [accessChain] at h
    cases hx : access dbg i d0 with
    | assertFail => rw [hx] at h; cases h
    | ub => rw [hx] at h; cases h
    | ok d1 =>
      rw [hx, Res.bind_ok] at h
      refine ih d1 ?_ (hd.sub hx).1 d h
      obtain ⟨p, es, ss, bs⟩ := d0
      obtain ⟨w1, w2⟩ := hw
      match es, ss, bs, hx, w1, w2 with
      | e :: es, s :: ss, b :: bs, hx, w1, w2 =>
        simp only [access] at hx
        cases hy : Res.assert dbg (decide (i - b ≥ 0)) <;> rw [hy] at hx <;> simp at hx
        cases hz : Res.assert dbg (decide ((i - b).toNat < e)) <;> rw [hz] at hx <;> simp at hx
        subst hx
        exact ⟨by simpa using w1, by simpa using w2⟩

/-- A 3 x 4 Fortran-order array whose indices run from -1 and from 10: `x(size_t(-1), size_t(12))` is the element with index (-1, 12); so is
`x(short(-1), short(12))`; `x(size_t(5), size_t(12))` stops at an assertion, as does `x(unsigned(-1), unsigned(12))`. -/
example : ∃ a, Machine.ofExtentsT 2 ⟨7, 0⟩ [3, 4] (StorageOrder.fortranOrder 2) = .ok a ∧
    ∃ a', Machine.reindexT a [2 ^ 64 - 1, 10] = .ok a' ∧ a'.bases = [-1, 10] ∧
      Denote [2 ^ 64 - 1, 12] [-1, 12] ∧ OfType .u64 [2 ^ 64 - 1, 12] ∧
      Machine.accessElementT true .u64 [2 ^ 64 - 1, 12] a'.desc = .ok (a'.data.add 6) ∧
      Machine.accessElementT true .i16 [-1, 12] a'.desc = .ok (a'.data.add 6) ∧
      Machine.accessChainT true [2 ^ 64 - 1, 12] a'.desc = .ok ⟨a'.data.add 6, [], [], []⟩ ∧
      Machine.accessElementT true .u64 [5, 12] a'.desc = .assertFail ∧
      Machine.accessElementT true .u32 [2 ^ 32 - 1, 12] a'.desc = .assertFail :=
  ⟨⟨⟨7, 0⟩, StorageOrder.fortranOrder 2, [3, 4], [1, 3], [0, 0], 0, 0, 12⟩, by decide +kernel,
   ⟨⟨7, 0⟩, StorageOrder.fortranOrder 2, [3, 4], [1, 3], [-1, 10], -29, 0, 12⟩, by decide +kernel, rfl, by decide +kernel, by decide +kernel,
   by decide +kernel, by decide +kernel, by decide +kernel, by decide +kernel, by decide +kernel⟩

/-- **C94**, the hazard: a negative extent is not detected; it becomes a huge one, here 2^64 - 1, and the number of elements wraps (2 * (2^64 - 1) mod 2^64). -/
theorem C94_hazard_negative_extent : ∃ a, Machine.ofExtentsT 2 ⟨7, 0⟩ [2, -1] (StorageOrder.cOrder 2) = .ok a ∧ a.extents = [2, 2 ^ 64 - 1] ∧
    a.numElements = 2 ^ 64 - 2 ∧ a.strides = [-1, 1] :=
  ⟨⟨⟨7, 0⟩, StorageOrder.cOrder 2, [2, 2 ^ 64 - 1], [-1, 1], [0, 0], 0, 0, 2 ^ 64 - 2⟩, by decide +kernel, rfl, rfl, rfl⟩

/-! ### Instances: the theorems applied to concrete cases, whose hypotheses are thereby met -/

/-- A one-dimensional handle: indices 5,6,7, stride -2. -/
def exHdl : Desc := ⟨⟨7, 4⟩, [3], [-2], [5]⟩
theorem exHdl_fits : HandleFits exHdl := by
  refine ⟨⟨by decide, by decide, by decide, fun i h1 h2 => ?_, trivial⟩, fun idx h => ?_⟩
  · have h1 : (5 : Int) ≤ i := h1
    have h2 : i < 5 + 3 := h2
    unfold Machine.InIndex; omega
  · match idx, h with
    | [i], h =>
      obtain ⟨h1, h2, _⟩ := h
      have h1 : (5 : Int) ≤ i := h1
      have h2 : i < 5 + 3 := h2
      change (i * (-2)).natAbs + 0 < 2 ^ 63
      omega
example := C94_parens (d := exHdl) ⟨rfl, rfl⟩ exHdl_fits .i16 (vs := [6]) (by decide) rfl (fun _ => ⟨by decide, trivial⟩)
example := C94_construction (n := 2) (p := ⟨7, 0⟩) (fortranOrder_valid 2) .u64 (vs := [3, 4]) (by decide) (by decide) rfl (by unfold ArrayFits; decide)
example := C94_reindex exArr_reachable (vs := [2 ^ 64 - 1, 10, 0]) (bs := [-1, 10, 0]) (by decide) (by decide) rfl (by unfold ArrayFits; decide)
example := C94_view_reindex (v := ⟨⟨7, 0⟩, 0, 6, [2, 3], [3, 1], [0, 0]⟩) (vs := [2 ^ 64 - 1, 10]) (bs := [-1, 10]) (by decide) (by decide) rfl (by decide)
example := C94_reshape exArr_reachable (dbg := true) .i32 (vs := [4, 1, 6]) (by decide) (by decide) rfl rfl (by unfold ArrayFits; decide)

/- end of instances -/

end MultiArray.Props
