import Verif.Model.MachineIt
import Verif.Props.Machine
import Verif.Lemmas.Iter
import Verif.Lemmas.Compose

/-
C51 continued: iterators in 64-bit arithmetic.
-/
set_option autoImplicit false

namespace MultiArray.Props
open MultiArray Spec

theorem mach_deref (dbg : Bool) (p : Ptr) {e : Nat} (es : List Nat) {s : Int} (ss : List Int) {b : Int} (bs : List Int)
    (he : e < 2 ^ 63) (hs : ∀ i : Int, b ≤ i → i < b + (e : Int) → Machine.InIndex (i * s)) {k : Nat} (hk : k < e) :
    Machine.deref dbg ⟨b + (k : Int), ⟨p, e :: es, s :: ss, b :: bs⟩⟩ = .ok (subAt p es s ss b bs k) := by
  rw [← It.deref_in dbg p e es s ss b bs k hk]
  simp only [Machine.deref, It.deref, Machine.access, access]
  have h1 := hs (b + (k : Int)) (by omega) (by omega)
  have h2 : Machine.InIndex (b + (k : Int) - b) := by unfold Machine.InIndex; omega
  rw [Machine.chk_ok h1, Machine.chk_ok h2]
  cases dbg
  · rfl
  · simp only [if_true, Res.bind_ok]
    rw [Machine.size_check h2 (by omega)]

theorem mach_iterLoop (dbg : Bool) (p : Ptr) {e : Nat} (es : List Nat) {s : Int} (ss : List Int) {b : Int} (bs : List Int)
    (hb : -(2 ^ 63) ≤ b) (hbe : b + (e : Int) < 2 ^ 63) (he : e < 2 ^ 63)
    (hs : ∀ i : Int, b ≤ i → i < b + (e : Int) → Machine.InIndex (i * s)) (fuel j : Nat) (hj : j ≤ e) (hf : e - j ≤ fuel) :
    Machine.iterLoop dbg fuel ⟨b + (j : Int), ⟨p, e :: es, s :: ss, b :: bs⟩⟩ ⟨b + (e : Int), ⟨p, e :: es, s :: ss, b :: bs⟩⟩ =
      iterLoop dbg fuel ⟨b + (j : Int), ⟨p, e :: es, s :: ss, b :: bs⟩⟩ ⟨b + (e : Int), ⟨p, e :: es, s :: ss, b :: bs⟩⟩ := by
  induction fuel generalizing j with
  | zero => rfl
  | succ fuel ih =>
    unfold Machine.iterLoop iterLoop
    by_cases h : j = e
    · subst h; simp [It.equal_iff]
    · have hne : ¬ ((⟨b + (j : Int), ⟨p, e :: es, s :: ss, b :: bs⟩⟩ : It).equal
          ⟨b + (e : Int), ⟨p, e :: es, s :: ss, b :: bs⟩⟩ = true) := by
        rw [It.equal_iff]; intro h'; injection h' with h1; omega
      rw [if_neg hne, if_neg hne, mach_deref dbg p es ss bs he hs (by omega), It.deref_in dbg p e es s ss b bs j (by omega)]
      simp only [Res.bind_ok, Machine.increment, It.increment]
      rw [Machine.chk_ok (by unfold Machine.InIndex; omega)]
      simp only [Res.bind_ok]
      have := ih (j + 1) (by omega) (by omega)
      rw [show b + ((j + 1 : Nat) : Int) = b + (j : Int) + 1 by push_cast; ring] at this
      rw [this]

theorem mach_riterLoop (dbg : Bool) (p : Ptr) {e : Nat} (es : List Nat) {s : Int} (ss : List Int) {b : Int} (bs : List Int)
    (hb : -(2 ^ 63) ≤ b) (hbe : b + (e : Int) < 2 ^ 63) (he : e < 2 ^ 63)
    (hs : ∀ i : Int, b ≤ i → i < b + (e : Int) → Machine.InIndex (i * s)) (fuel j : Nat) (hj : j ≤ e) (hf : j ≤ fuel) :
    Machine.riterLoop dbg fuel ⟨b + (j : Int), ⟨p, e :: es, s :: ss, b :: bs⟩⟩ ⟨b, ⟨p, e :: es, s :: ss, b :: bs⟩⟩ =
      riterLoop dbg fuel ⟨⟨b + (j : Int), ⟨p, e :: es, s :: ss, b :: bs⟩⟩⟩ ⟨⟨b, ⟨p, e :: es, s :: ss, b :: bs⟩⟩⟩ := by
  induction fuel generalizing j with
  | zero => rfl
  | succ fuel ih =>
    unfold Machine.riterLoop riterLoop
    cases j with
    | zero => simp [RIt.equal, It.equal_iff]
    | succ j =>
      have hne : ¬ ((⟨b + ((j + 1 : Nat) : Int), ⟨p, e :: es, s :: ss, b :: bs⟩⟩ : It).equal
          ⟨b, ⟨p, e :: es, s :: ss, b :: bs⟩⟩ = true) := by
        rw [It.equal_iff]; intro h'; injection h' with h1; omega
      rw [if_neg hne, RIt.equal, if_neg hne]
      simp only [RIt.deref, RIt.increment, It.decrement, Machine.decrement]
      rw [Machine.chk_ok (by unfold Machine.InIndex; omega)]
      simp only [Res.bind_ok]
      rw [show b + ((j + 1 : Nat) : Int) - 1 = b + (j : Int) by push_cast; ring,
        mach_deref dbg p es ss bs he hs (by omega), It.deref_in dbg p e es s ss b bs j (by omega)]
      simp only [Res.bind_ok]
      rw [ih j (by omega) (by omega)]

/-- **C51**, iteration: over any array, subarray or view whose dimensions fit, the nested iterator loops - `begin()`, `end()`, `++`, `!=`, `*` at every
level - are computed without overflow and visit exactly the elements of the ideal loops. -/
theorem C51_iteration (dbg : Bool) (fuel : Nat) (d : Desc) (hw : WellShaped d) (hf : ∀ e ∈ d.extents, e ≤ fuel)
    (hfit : DimsFit d.bases d.extents d.strides) :
    Machine.nestedLoop dbg fuel d.extents.length d = .ok (some ((allIdx d.bases d.extents).map (address d))) := by
  rw [← nestedLoop_spec dbg fuel d hw hf]
  obtain ⟨p, es, ss, bs⟩ := d
  induction es generalizing p ss bs with
  | nil => rfl
  | cons e es ih =>
    obtain ⟨h1, h2⟩ := hw
    match ss, bs, h1, h2, hfit with
    | s :: ss, b :: bs, h1, h2, ⟨f1, f2, f3, f4, f5⟩ =>
      have hloop := mach_iterLoop dbg p es ss bs f1 f2 f3 f4 fuel 0 (by omega) (by have := hf e (by simp); omega)
      simp only [Nat.cast_zero, add_zero] at hloop
      have hend : Machine.«end» ⟨p, e :: es, s :: ss, b :: bs⟩ = .ok ⟨b + (e : Int), ⟨p, e :: es, s :: ss, b :: bs⟩⟩ := by
        simp only [Machine.«end», Res.get, List.getElem?_cons_zero, Res.bind_ok]
        rw [Machine.toIndex_nat f3, Machine.chk_ok (by unfold Machine.InIndex; omega)]
        rfl
      simp only [List.length_cons, Machine.nestedLoop, nestedLoop]
      rw [hend, end_cons, Machine.begin, begin_cons]
      simp only [Res.bind_ok]
      have hsp := iterLoop_spec dbg p e es s ss b bs fuel 0 (by omega) (by have := hf e (by simp); omega)
      simp only [Nat.cast_zero, add_zero, Nat.sub_zero] at hsp
      rw [hloop, hsp]
      simp only [Res.bind_ok]
      have key : ∀ vs : List Desc, (∀ v ∈ vs, ∃ k : Nat, v = subAt p es s ss b bs k) →
          visitAll (Machine.nestedLoop dbg fuel es.length) vs = visitAll (nestedLoop dbg fuel es.length) vs := by
        intro vs
        induction vs with
        | nil => intro _; rfl
        | cons v vs ihv =>
          intro hv
          obtain ⟨k, rfl⟩ := hv v (by simp)
          unfold visitAll
          rw [ihv (fun v hv' => hv v (by simp [hv']))]
          have := ih (p.add ((b + (k : Int)) * s)) ss bs ⟨by simpa using h1, by simpa using h2⟩ (fun e' he' => hf e' (by simp [he'])) f5
          simp only at this
          unfold subAt
          rw [this]
      exact key _ (fun v hv => by
        obtain ⟨k, _, rfl⟩ := List.mem_map.mp hv
        exact ⟨k, rfl⟩)

/-- **C51**, reverse iteration over the first dimension. -/
theorem C51_reverse_iteration (dbg : Bool) (fuel : Nat) (p : Ptr) (e : Nat) (es : List Nat) (s : Int) (ss : List Int) (b : Int) (bs : List Int)
    (hf : e ≤ fuel) (hfit : DimsFit (b :: bs) (e :: es) (s :: ss)) :
    (do Machine.riterLoop dbg fuel (← Machine.«end» ⟨p, e :: es, s :: ss, b :: bs⟩) (← Machine.begin ⟨p, e :: es, s :: ss, b :: bs⟩)) =
    (do riterLoop dbg fuel (← Desc.rbegin ⟨p, e :: es, s :: ss, b :: bs⟩) (← Desc.rend ⟨p, e :: es, s :: ss, b :: bs⟩)) := by
  obtain ⟨f1, f2, f3, f4, _⟩ := hfit
  have hend : Machine.«end» ⟨p, e :: es, s :: ss, b :: bs⟩ = .ok ⟨b + (e : Int), ⟨p, e :: es, s :: ss, b :: bs⟩⟩ := by
    simp only [Machine.«end», Res.get, List.getElem?_cons_zero, Res.bind_ok]
    rw [Machine.toIndex_nat f3, Machine.chk_ok (by unfold Machine.InIndex; omega)]
    rfl
  rw [hend]
  simp only [Machine.begin, Desc.rbegin, Desc.rend, begin_cons, end_cons, Res.bind_ok]
  exact mach_riterLoop dbg p es ss bs f1 f2 f3 f4 fuel e (Nat.le_refl e) hf

/-- **C51**, random access: moving an iterator by any number of steps, the distance and the difference of two iterators, and which of them comes
first, as long as they stay between `begin()` and `end()`: the 64-bit computation gives the mathematical result. -/
theorem C51_random_access (d : Desc) (b : Int) (bs : List Int) (e : Nat) (es : List Nat) (hb : d.bases = b :: bs) (he : d.extents = e :: es)
    (hfit : DimsFit d.bases d.extents d.strides) (hs : d.strides ≠ []) (i j : Int) (hi : b ≤ i ∧ i ≤ b + (e : Int)) (hj : b ≤ j ∧ j ≤ b + (e : Int)) :
    Machine.advance ⟨i, d⟩ (j - i) = .ok ((⟨i, d⟩ : It).advance (j - i)) ∧ Machine.distanceTo ⟨i, d⟩ ⟨j, d⟩ = .ok (j - i) ∧
    Machine.itSub ⟨i, d⟩ ⟨j, d⟩ = .ok (i - j) ∧ Machine.itLess ⟨i, d⟩ ⟨j, d⟩ = .ok (decide (i < j)) := by
  match hss : d.strides, hs with
  | s :: ss, _ =>
    rw [hb, he, hss] at hfit
    obtain ⟨f1, f2, f3, _, _⟩ := hfit
    simp only [Machine.advance, Machine.itSub, Machine.itLess, Machine.distanceTo, It.advance]
    rw [Machine.chk_ok (by unfold Machine.InIndex; omega), Machine.chk_ok (by unfold Machine.InIndex; omega)]
    simp only [Res.bind_ok]
    rw [Machine.chk_ok (by unfold Machine.InIndex; omega)]
    simp only [Res.bind_ok]
    refine ⟨trivial, trivial, ?_, ?_⟩
    · congr 1; omega
    · congr 1; rw [Bool.eq_iff_iff]; simp only [decide_eq_true_eq]; omega

theorem dimsFit_of {bs : List Int} {es : List Nat} {ss : List Int} (h1 : Representable bs es) (h2 : ∀ e ∈ es, e < 2 ^ 63)
    (h3 : ∀ d : Nat, ∀ b e s, bs[d]? = some b → es[d]? = some e → ss[d]? = some s → (b * s).natAbs + e * s.natAbs < 2 ^ 63) :
    DimsFit bs es ss := by
  induction bs generalizing es ss with
  | nil => trivial
  | cons b bs ih => match es, ss, h1 with
    | [], _, _ => trivial
    | _ :: _, [], _ => trivial
    | e :: es, s :: ss, h1 =>
      obtain ⟨r1, r2, r3⟩ := h1
      refine ⟨r1, by omega, h2 e (by simp), ?_, ih r3 (fun x hx => h2 x (by simp [hx])) (fun d => h3 (d + 1))⟩
      intro i hi1 hi2
      have := h3 0 b e s rfl rfl rfl
      have hk : i * s = b * s + (i - b) * s := by ring
      have hle : ((i - b) * s).natAbs ≤ e * s.natAbs := by
        rw [Int.natAbs_mul]; exact Nat.mul_le_mul_right _ (by omega)
      apply Machine.inIndex_of_natAbs
      rw [hk]
      generalize (i - b) * s = t at hle ⊢
      generalize b * s = u at this ⊢
      omega

theorem absDot_get (xs ys : List Int) (d : Nat) {x y : Int} (hx : xs[d]? = some x) (hy : ys[d]? = some y) : (x * y).natAbs ≤ absDot xs ys := by
  induction xs generalizing ys d with
  | nil => simp at hx
  | cons a xs ih => cases ys with
    | nil => simp at hy
    | cons c ys => cases d with
      | zero => simp at hx hy; subst hx hy; simp only [absDot]; omega
      | succ d => have := ih ys d (by simpa using hx) (by simpa using hy); simp only [absDot]; omega

theorem csLoop_stride_bound (asc : List Bool) (exts : List Nat) (n : Nat) (ha : asc.length = n) (he : exts.length = n)
    (ord : List Nat) (stride : Nat) (sl sl' : List Int) (hsl : sl.length = n) (hord : ∀ d ∈ ord, d < n) (hnd : ord.Nodup)
    (hok : MultiArray.computeStridesLoop asc exts ord stride sl = .ok sl') (d : Nat) (hd : d ∈ ord) :
    (sl'.getD d 0).natAbs * max 1 (exts.getD d 0) ≤ stride * ((ord.map (fun d => exts.getD d 0)).map (max 1)).prod := by
  induction ord generalizing stride sl with
  | nil => cases hd
  | cons c ds ih =>
    have hcn := hord c (by simp)
    have h1 : Res.get asc c = .ok asc[c] := by simp [Res.get, ha, hcn]
    have h2 : Res.get exts c = .ok exts[c] := by simp [Res.get, he, hcn]
    simp only [MultiArray.computeStridesLoop, h1, h2, Res.bind_ok, hsl, hcn, if_true] at hok
    have hnd' := List.nodup_cons.mp hnd
    obtain ⟨sl'', hok'', hlen'', hkeep⟩ := csLoop_ok asc exts n ha he ds ((stride : Int) * (exts[c] : Int))
      (sl.set c ((stride : Int) * (if asc[c] then 1 else -1))) (by simpa using hsl) (fun d' hd' => hord d' (by simp [hd']))
    have hea : exts.getD c 0 = exts[c] := by simp [List.getD_eq_getElem?_getD, he, hcn]
    have hp := Machine.prod_max_pos (ds.map (fun d => exts.getD d 0))
    simp only [List.map_cons, List.prod_cons]
    rcases List.mem_cons.mp hd with rfl | hd
    · rw [hok] at hok''
      cases hok''
      have hval : sl'.getD d 0 = (stride : Int) * (if asc[d] then 1 else -1) := by
        rw [hkeep d hnd'.1]
        simp [List.getD_eq_getElem?_getD, hsl, hcn]
      have hab : (sl'.getD d 0).natAbs = stride := by
        rw [hval]; split <;> simp
      rw [hab]
      apply Nat.mul_le_mul_left
      generalize max 1 (exts.getD d 0) = m
      exact Nat.le_mul_of_pos_right m hp
    · have := ih (stride * exts[c]) (sl.set c ((stride : Int) * (if asc[c] then 1 else -1))) (by simpa using hsl)
        (fun d' hd' => hord d' (by simp [hd'])) hnd'.2 (by push_cast; exact hok) hd
      refine Nat.le_trans this ?_
      rw [Nat.mul_assoc, hea]
      apply Nat.mul_le_mul_left
      exact Nat.mul_le_mul_right _ (by omega)

theorem stride_bound {n : Nat} {a : ARef} (h : a.WF n) {d : Nat} {e : Nat} {s : Int} (he : a.extents[d]? = some e) (hs : a.strides[d]? = some s) :
    e * s.natAbs ≤ sizeBound a.extents := by
  have hd : d < n := by
    rw [← h.ext_len]
    exact (List.getElem?_eq_some_iff.mp he).1
  have := csLoop_stride_bound a.storage.ascending a.extents n h.order.2 h.ext_len a.storage.ordering 1 (List.replicate n 0) a.strides (by simp)
    h.order.mem_lt h.order.nodup h.strides_eq d (h.order.1.mem_iff.mpr (by simpa using hd))
  rw [Machine.sizeBound_perm h.order h.ext_len, Nat.one_mul] at this
  rw [List.getD_eq_getElem?_getD, hs, List.getD_eq_getElem?_getD, he] at this
  simp only [Option.getD_some] at this
  have h2 : s.natAbs * e ≤ s.natAbs * max 1 e := Nat.mul_le_mul_left _ (by omega)
  rw [Nat.mul_comm]
  omega

/-- **C51**: every dimension of an array that fits fits. -/
theorem C51_array_dims_fit {n : Nat} {a : ARef} (ha : Reachable n a) (hfit : ArrayFits a) (hrep : Representable a.bases a.extents) :
    DimsFit a.bases a.extents a.strides := by
  unfold ArrayFits at hfit
  refine dimsFit_of hrep (fun e he => by have := le_sizeBound he; omega) (fun d b e s h1 h2 h3 => ?_)
  have := absDot_get _ _ d h1 h3
  have := stride_bound ha.wf h2 h3
  omega

/-- **C51**: so does every dimension of its subarrays. -/
theorem C51_subarray_dims_fit {d d' : Desc} {dbg : Bool} {i : Int} (h : access dbg i d = .ok d') (hfit : DimsFit d.bases d.extents d.strides) :
    DimsFit d'.bases d'.extents d'.strides := by
  obtain ⟨p, es, ss, bs⟩ := d
  match es, ss, bs, h, hfit with
  | e :: es, s :: ss, b :: bs, h, ⟨_, _, _, _, f5⟩ =>
    simp only [access] at h
    cases hx : Res.assert dbg (decide (i - b ≥ 0)) <;> rw [hx] at h <;> simp at h
    cases hy : Res.assert dbg (decide ((i - b).toNat < e)) <;> rw [hy] at h <;> simp at h
    subst h
    exact f5

/-- The dimensions of a view, from the dimensions of what it views. -/
theorem view_dims_fit {rs : List IndexRange} {bs : List Int} {es : List Nat} {ss : List Int} (hl : LegalRanges bs es rs) (hno : NoOverrun bs es rs)
    (hrep : ∀ d : Nat, ∀ e s, es[d]? = some e → ss[d]? = some s → e < 2 ^ 63 ∧ e * s.natAbs < 2 ^ 63) (hlen : ss.length = es.length) :
    DimsFit (List.replicate (numRanged rs) 0) ((selExtents rs bs es).map Int.toNat) (selStrides rs ss) := by
  induction es generalizing bs rs ss with
  | nil => match bs, rs, hl with | [], [], _ => trivial
  | cons e es ih => match bs, rs, ss, hl, hno, hlen with
    | b :: bs, r :: rs, s :: ss, hl, hno, hlen =>
      have hrest := ih hl.2 hno.2 (fun d => hrep (d + 1)) (by simpa using hlen)
      simp only [selExtents, selStrides]
      cases hd : r.degenerate_ with
      | true => rw [numRanged_cons]; simpa [hd] using hrest
      | false =>
        rw [numRanged_cons, hd]
        obtain ⟨he, hes⟩ := hrep 0 e s rfl rfl
        have hV := viewLen_iff (rangeStart r b) (rangeFinish r b e) r.stride_ hl.1.1
        have hnn := viewLen_nonneg (rangeStart r b) (rangeFinish r b e) r.stride_ hl.1.1
        obtain ⟨h0, ⟨h1, h2⟩, h3⟩ := hl.1
        have hno1 := hno.1
        simp only [Bool.false_eq_true, if_false, List.map_cons, show (1 + numRanged rs) = numRanged rs + 1 from Nat.add_comm _ _,
          List.replicate_succ]
        generalize viewLen (rangeStart r b) (rangeFinish r b e) r.stride_ = V at hV hnn
        have hstep : ∀ k : Int, 0 ≤ k → k < V → k * r.stride_.natAbs < e := by
          intro k hk0 hk
          obtain ⟨k, rfl⟩ := Int.eq_ofNat_of_zero_le hk0
          have := (hV k).mp hk
          unfold Before at this
          by_cases ht : 0 < r.stride_
          · rw [if_pos ht] at this
            rw [if_neg (by omega)] at h3
            rw [show ((r.stride_.natAbs : Nat) : Int) = r.stride_ by omega]
            omega
          · rw [if_neg ht] at this
            rw [if_pos (by omega)] at h3
            have := hno1 (by omega)
            rw [show ((r.stride_.natAbs : Nat) : Int) = -r.stride_ by omega, Int.mul_neg]
            omega
        have hVe : V ≤ e := by
          by_contra hc
          have := hstep e (by omega) (by omega)
          have h4 : (e : Int) * 1 ≤ (e : Int) * (r.stride_.natAbs : Int) := Int.mul_le_mul_of_nonneg_left (by omega) (by omega)
          omega
        refine ⟨by omega, by omega, by omega, ?_, hrest⟩
        intro i hi1 hi2
        have hs := hstep i hi1 (by omega)
        apply Machine.inIndex_of_natAbs
        rw [← Int.mul_assoc, Int.natAbs_mul, Int.natAbs_mul]
        have : i.natAbs * r.stride_.natAbs ≤ e := by
          have : ((i.natAbs * r.stride_.natAbs : Nat) : Int) = i * r.stride_.natAbs := by
            rw [Nat.cast_mul, Int.natAbs_of_nonneg hi1]
          omega
        have := Nat.mul_le_mul_right s.natAbs this
        omega

/-- **C51**: so does every dimension of a view of an array that fits, for every legal view expression. -/
theorem C51_view_dims_fit {n : Nat} {a : ARef} (ha : Reachable n a) (hfit : ArrayFits a) {g : IndexGen}
    (hl : LegalRanges a.bases a.extents g.ranges) (hno : NoOverrun a.bases a.extents g.ranges) {dbg : Bool} {v : View}
    (hn : numRanged g.ranges = g.numDims) (hv : a.slice dbg g = .ok v) : DimsFit v.bases v.extents v.strides := by
  have hw := ha.wf.wellShaped
  have : generateArrayView dbg g a.desc = .ok (theView g a.desc) := genView_legal dbg g a.desc hw hl hn
  have hv' : generateArrayView dbg g a.desc = .ok v := hv
  rw [this] at hv'
  cases hv'
  unfold ArrayFits at hfit
  have h1 := view_dims_fit hl hno (ss := a.strides) (fun d e s he hs => by
    have := stride_bound ha.wf he hs
    have := le_sizeBound (List.mem_of_getElem? he)
    omega) hw.1
  have h2 : (theView g a.desc).bases = List.replicate (numRanged g.ranges) 0 := by
    show List.replicate (selExtents g.ranges a.bases a.extents).length 0 = _
    rw [selExtents_length _ _ _ hl.length.1 hl.length.2]
  rw [h2]
  exact h1

/-- Hypotheses met: a 2^31 x 2^31 array with base -5, its second row, and a reversed view of every third column. -/
example : ∃ a d v, Reachable 2 a ∧ ArrayFits a ∧ Representable a.bases a.extents ∧ a.bracket true 7 = .ok d ∧
    a.slice true ⟨2, 2, [IndexRange.mk3 2 100 1, IndexRange.mk3 90 9 (-3)]⟩ = .ok v ∧
    LegalRanges a.bases a.extents [IndexRange.mk3 2 100 1, IndexRange.mk3 90 9 (-3)] ∧ v.extents = [98, 27] ∧ v.strides = [2 ^ 31, -3] :=
  ⟨⟨⟨7, 0⟩, StorageOrder.cOrder 2, [2 ^ 31, 2 ^ 31], [2 ^ 31, 1], [-5, 8], 5 * 2 ^ 31 - 8, 0, 2 ^ 62⟩, _, _,
    .ofShape (p := ⟨7, 0⟩) (so := StorageOrder.cOrder 2) (bs := some [-5, 8]) (es := some [2 ^ 31, 2 ^ 31]) (cOrder_valid 2) (by decide),
    by unfold ArrayFits; decide, by decide, rfl, rfl, by decide, by decide, by decide⟩

/-- Hazard: an array may use the index 2^63-1 (every element access is in range and computed exactly), but then `end()` overflows: such an array cannot be
iterated or copied. -/
theorem C51_hazard_end_overflows : ∃ a : ARef, Machine.init 1 ⟨7, 0⟩ (StorageOrder.cOrder 1) [2 ^ 63 - 3] [3] = .ok a ∧ a.bases = [2 ^ 63 - 3] ∧ a.extents = [3] ∧
    Machine.paren true a [2 ^ 63 - 1] = .ok (a.data.add 2) ∧ Machine.«end» a.desc = .ub :=
  ⟨⟨⟨7, 0⟩, StorageOrder.cOrder 1, [3], [1], [2 ^ 63 - 3], -(2 ^ 63 - 3), 0, 3⟩,
    by decide, rfl, rfl, by decide, by decide⟩

/-! ### Instances: the theorems applied to concrete cases, whose hypotheses are thereby met -/

example := C51_iteration true 4 exArr.desc ⟨rfl, rfl⟩ (by decide)
  (C51_array_dims_fit exArr_reachable (by unfold ArrayFits; decide) (by decide))
example := C51_reverse_iteration true 3 ⟨7, 0⟩ 3 [] (-2) [] 5 [] (by decide)
  ⟨by decide, by decide, by decide, fun i h1 h2 => by unfold Machine.InIndex; omega, trivial⟩
example := C51_random_access exArr.desc (-1) [5, 0] 2 [3, 4] rfl rfl
  (C51_array_dims_fit exArr_reachable (by unfold ArrayFits; decide) (by decide)) (by decide) (-1) 1 (by decide) (by decide)
example := C51_subarray_dims_fit (d := exArr.desc) (dbg := true) (i := 0) rfl
  (C51_array_dims_fit exArr_reachable (by unfold ArrayFits; decide) (by decide))

/- end of instances -/

end MultiArray.Props
