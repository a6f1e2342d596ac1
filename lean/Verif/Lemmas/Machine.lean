import Verif.SpecMachine
import Verif.Lemmas.Layout
import Verif.Lemmas.ViewLen
import Verif.Lemmas.Reach
import Verif.Lemmas.View

/- 64-bit arithmetic agrees with ideal arithmetic when the numbers fit. -/
set_option autoImplicit false

namespace MultiArray
open Spec

namespace Machine

theorem chk_ok {x : Int} (h : InIndex x) : chk x = .ok x := by simp [chk, h]

theorem inIndex_of_natAbs {x : Int} (h : x.natAbs < 2 ^ 63) : InIndex x := by unfold InIndex; omega

theorem toSizeT_cast (x : Int) : ((toSizeT x : Nat) : Int) = x % 2 ^ 64 := by
  unfold toSizeT; omega

theorem toSizeT_nonneg {x : Int} (h0 : 0 ≤ x) (h : x < 2 ^ 64) : toSizeT x = x.toNat := by
  unfold toSizeT; omega

theorem toIndex_mod (u : Nat) : toIndex u % 2 ^ 64 = (u : Int) % 2 ^ 64 := by
  unfold toIndex; exact Int.bmod_emod

theorem toIndex_in (u : Nat) : InIndex (toIndex u) := by
  unfold toIndex InIndex
  have h1 := Int.le_bmod (x := (u : Int)) (m := 2 ^ 64) (by decide)
  have h2 := Int.bmod_lt (x := (u : Int)) (m := 2 ^ 64) (by decide)
  omega

theorem eq_of_mod {x y : Int} (hx : InIndex x) (hy : InIndex y) (h : x % 2 ^ 64 = y % 2 ^ 64) : x = y := by
  unfold InIndex at hx hy; omega

theorem toIndex_eq {u : Nat} {x : Int} (h : (u : Int) % 2 ^ 64 = x % 2 ^ 64) (hx : InIndex x) : toIndex u = x :=
  eq_of_mod (toIndex_in u) hx (by rw [toIndex_mod, h])

theorem umul_mod (a b : Nat) : ((umul a b : Nat) : Int) % 2 ^ 64 = ((a : Int) * (b : Int)) % 2 ^ 64 := by
  unfold umul; push_cast; simp [Int.emod_emod_of_dvd]

theorem usub_mod (a b : Nat) : ((usub a b : Nat) : Int) % 2 ^ 64 = ((a : Int) - (b : Int)) % 2 ^ 64 := by
  unfold usub; omega

theorem mul_mod_congr {a b c d : Int} (h1 : a % 2 ^ 64 = b % 2 ^ 64) (h2 : c % 2 ^ 64 = d % 2 ^ 64) :
    (a * c) % 2 ^ 64 = (b * d) % 2 ^ 64 := by rw [Int.mul_emod, h1, h2, ← Int.mul_emod]

theorem uadd_mod (a b : Nat) : ((uadd a b : Nat) : Int) % 2 ^ 64 = ((a : Int) + (b : Int)) % 2 ^ 64 := by
  unfold uadd; omega

theorem stride_mul {stride : Int} {e : Nat} (h : InIndex (stride * (e : Int))) :
    toIndex (umul (toSizeT stride) e) = stride * (e : Int) := by
  apply toIndex_eq _ h
  rw [umul_mod]
  exact mul_mod_congr (by rw [toSizeT_cast]; omega) rfl

/-! ### product -/

theorem product_mod (l : List Nat) (a b : Nat) (h : a % 2 ^ 64 = b % 2 ^ 64) (ha : a < 2 ^ 64) :
    l.foldl umul a % 2 ^ 64 = l.foldl (· * ·) b % 2 ^ 64 ∧ l.foldl umul a < 2 ^ 64 := by
  induction l generalizing a b with
  | nil => exact ⟨h, ha⟩
  | cons x xs ih =>
    simp only [List.foldl_cons]
    apply ih
    · unfold umul; rw [Nat.mod_mod, Nat.mul_mod, h, ← Nat.mul_mod]
    · exact Nat.mod_lt _ (by decide)

theorem product_eq' {l : List Nat} (h : MultiArray.product l < 2 ^ 64) : product l = MultiArray.product l := by
  obtain ⟨h1, h2⟩ := product_mod l 1 1 rfl (by decide)
  unfold product
  unfold MultiArray.product at h ⊢
  rw [Nat.mod_eq_of_lt h2, Nat.mod_eq_of_lt h] at h1
  exact h1

/-! ### strides -/

theorem prod_max_pos (l : List Nat) : 0 < (l.map (max 1)).prod := by
  induction l with
  | nil => decide
  | cons x xs ih =>
    simp only [List.map_cons, List.prod_cons]
    exact Nat.mul_pos (by omega) ih

theorem csLoop_eq (asc : List Bool) (exts : List Nat) (ord : List Nat) (stride : Nat) (sl : List Int)
    (h : stride * ((ord.map (fun d => exts.getD d 0)).map (max 1)).prod < 2 ^ 63) :
    computeStridesLoop asc exts ord stride sl = MultiArray.computeStridesLoop asc exts ord stride sl := by
  induction ord generalizing stride sl with
  | nil => rfl
  | cons d ds ih =>
    simp only [computeStridesLoop, MultiArray.computeStridesLoop]
    cases h1 : Res.get asc d with
    | assertFail => rfl
    | ub => rfl
    | ok a =>
      simp only [Res.bind_ok]
      have hp := prod_max_pos (ds.map (fun d => exts.getD d 0))
      simp only [List.map_cons, List.prod_cons] at h
      generalize hM : ((ds.map (fun d => exts.getD d 0)).map (max 1)).prod = M at h hp
      have hs : stride < 2 ^ 63 := by
        have : stride * 1 ≤ stride * (max 1 (exts.getD d 0) * M) :=
          Nat.mul_le_mul_left _ (Nat.mul_pos (by omega) hp)
        omega
      have hc : chk ((stride : Int) * (if a then 1 else -1)) = .ok ((stride : Int) * (if a then 1 else -1)) := by
        apply chk_ok; unfold InIndex; split <;> omega
      rw [hc, Res.bind_ok]
      cases h2 : Res.get exts d with
      | assertFail => rfl
      | ub => rfl
      | ok e =>
        simp only [Res.bind_ok]
        have he : exts.getD d 0 = e := by
          unfold Res.get at h2
          rw [List.getD_eq_getElem?_getD]
          split at h2
          · rename_i x hx; cases h2; rw [hx]; rfl
          · cases h2
        rw [he] at h
        have hb : stride * e * M < 2 ^ 63 := by
          have : stride * e * M ≤ stride * (max 1 e * M) := by
            rw [Nat.mul_assoc]
            exact Nat.mul_le_mul_left _ (Nat.mul_le_mul_right _ (by omega))
          omega
        have hse : stride * e < 2 ^ 63 := by
          have : stride * e * 1 ≤ stride * e * M := Nat.mul_le_mul_left _ hp
          omega
        have hm : toIndex (umul (toSizeT (stride : Int)) e) = ((stride * e : Nat) : Int) := by
          rw [stride_mul]
          · push_cast; rfl
          · unfold InIndex; rw [← Nat.cast_mul]; omega
        rw [hm]
        split
        · have := ih (stride * e) (sl.set d ((stride : Int) * (if a then 1 else -1))) (by rw [hM]; exact hb)
          rw [this]; push_cast; rfl
        · rfl

theorem sizeBound_perm {n : Nat} {so : StorageOrder} {exts : List Nat} (hv : ValidOrder n so) (he : exts.length = n) :
    ((so.ordering.map (fun d => exts.getD d 0)).map (max 1)).prod = sizeBound exts := by
  have hmap : (List.range n).map (fun d => exts.getD d 0) = exts := by
    apply List.ext_getElem
    · simp [he]
    · intro i h1 h2; simp [List.getD_eq_getElem?_getD, h2]
  have hp : (so.ordering.map (fun d => exts.getD d 0)).Perm exts := by
    have := hv.1.map (fun d => exts.getD d 0)
    rwa [hmap] at this
  exact (hp.map (max 1)).prod_eq

theorem computeStrides_eq {n : Nat} {so : StorageOrder} {exts : List Nat} (sl : List Int) (hv : ValidOrder n so) (he : exts.length = n)
    (hs : sizeBound exts < 2 ^ 63) : computeStrides sl exts so = MultiArray.computeStrides sl exts so := by
  have := csLoop_eq so.ascending exts so.ordering 1 sl (by rw [sizeBound_perm hv he]; omega)
  exact this

/-! ### descending offset -/

theorem desc_mod (as : List Bool) (es : List Nat) (ss : List Int) (o o' : Int) (h : o' % 2 ^ 64 = o % 2 ^ 64) (hin : InIndex o') :
    descOffsetLoop as es ss o' % 2 ^ 64 = MultiArray.descOffsetLoop as es ss o % 2 ^ 64 ∧ InIndex (descOffsetLoop as es ss o') := by
  induction as generalizing es ss o o' with
  | nil => exact ⟨h, hin⟩
  | cons a as ih =>
    match es, ss with
    | [], _ => exact ⟨h, hin⟩
    | _ :: _, [] => exact ⟨h, hin⟩
    | e :: es, s :: ss =>
      simp only [descOffsetLoop, MultiArray.descOffsetLoop]
      apply ih
      · cases a
        · simp only [Bool.not_false, if_true]
          rw [toIndex_mod, usub_mod, Int.sub_emod, toSizeT_cast, umul_mod]
          have h1 : ((usub e 1 : Nat) : Int) % 2 ^ 64 = ((e : Int) - 1) % 2 ^ 64 := by rw [usub_mod]; rfl
          rw [mul_mod_congr h1 (show ((toSizeT s : Nat) : Int) % 2 ^ 64 = s % 2 ^ 64 by rw [toSizeT_cast]; omega)]
          rw [Int.emod_emod_of_dvd _ (dvd_refl _), h, ← Int.sub_emod]
        · simpa using h
      · cases a
        · simp only [Bool.not_false, if_true]; exact toIndex_in _
        · simpa using hin

/-- Sum of the contributions of the descending dimensions among `ord`. -/
def descSum (asc : List Bool) (exts : List Nat) (sl : List Int) (ord : List Nat) : Int :=
  (ord.map (fun d => if asc.getD d true then (0 : Int) else -(((exts.getD d 0 : Int) - 1) * sl.getD d 0))).sum

/-- Contributions of descending dimensions, for any extents including zero. -/
theorem csLoop_desc_bound (asc : List Bool) (exts : List Nat) (n : Nat) (ha : asc.length = n) (he : exts.length = n)
    (ord : List Nat) (stride : Nat) (sl sl' : List Int) (hsl : sl.length = n) (hord : ∀ d ∈ ord, d < n) (hnd : ord.Nodup)
    (hok : MultiArray.computeStridesLoop asc exts ord stride sl = .ok sl') :
    -((stride : Int) * ((((ord.map (fun d => exts.getD d 0)).map (max 1)).prod : Nat) : Int)) ≤ descSum asc exts sl' ord ∧
    descSum asc exts sl' ord ≤ (stride : Int) * ((((ord.map (fun d => exts.getD d 0)).map (max 1)).prod : Nat) : Int) - (stride : Int) := by
  induction ord generalizing stride sl with
  | nil => simp [descSum]
  | cons d ds ih =>
    have hdn := hord d (by simp)
    have h1 : Res.get asc d = .ok asc[d] := by simp [Res.get, ha, hdn]
    have h2 : Res.get exts d = .ok exts[d] := by simp [Res.get, he, hdn]
    simp only [MultiArray.computeStridesLoop, h1, h2, Res.bind_ok, hsl, hdn, if_true] at hok
    have hnd' := List.nodup_cons.mp hnd
    have hrest := ih (stride * exts[d]) (sl.set d ((stride : Int) * (if asc[d] then 1 else -1))) (by simpa using hsl) (fun d' hd' => hord d' (by simp [hd'])) hnd'.2 (by push_cast; exact hok)
    obtain ⟨sl'', hok'', hlen'', hkeep⟩ := csLoop_ok asc exts n ha he ds ((stride : Int) * (exts[d] : Int))
      (sl.set d ((stride : Int) * (if asc[d] then 1 else -1))) (by simpa using hsl) (fun d' hd' => hord d' (by simp [hd']))
    rw [hok] at hok''
    cases hok''
    have hval : sl'.getD d 0 = (stride : Int) * (if asc[d] then 1 else -1) := by
      rw [hkeep d hnd'.1]
      simp [List.getD_eq_getElem?_getD, hsl, hdn]
    have hea : exts.getD d 0 = exts[d] := by simp [List.getD_eq_getElem?_getD, he, hdn]
    have haa : asc.getD d true = asc[d] := by simp [List.getD_eq_getElem?_getD, ha, hdn]
    unfold descSum at hrest ⊢
    simp only [List.map_cons, List.sum_cons, List.prod_cons]
    rw [hval, haa, hea]
    have hp := prod_max_pos (ds.map (fun d => exts.getD d 0))
    generalize ((ds.map (fun d => exts.getD d 0)).map (max 1)).prod = M at hrest hp ⊢
    generalize (ds.map (fun d => if asc.getD d true then (0 : Int) else -(((exts.getD d 0 : Int) - 1) * sl'.getD d 0))).sum = S at hrest ⊢
    generalize exts[d] = e at hrest ⊢
    obtain ⟨r1, r2⟩ := hrest
    push_cast at r1 r2 ⊢
    have hM : (1 : Int) ≤ (M : Int) := by omega
    have hst : (0 : Int) ≤ (stride : Int) := by omega
    rcases Nat.eq_zero_or_pos e with h0 | h0
    · subst h0
      simp only [Nat.cast_zero, mul_zero, zero_mul, neg_zero, sub_zero] at r1 r2
      have hS : S = 0 := by omega
      subst hS
      have hmul : (stride : Int) * 1 ≤ (stride : Int) * (M : Int) := Int.mul_le_mul_of_nonneg_left hM hst
      have hmax : max 1 0 = 1 := by decide
      rw [hmax]
      simp only [Nat.cast_zero, Nat.cast_one, one_mul]
      generalize (stride : Int) * (M : Int) = X at hmul ⊢
      cases asc[d] <;> simp <;> omega
    · have hmax : max 1 e = e := by omega
      rw [hmax]
      have hassoc : (stride : Int) * ((e : Int) * (M : Int)) = (stride : Int) * (e : Int) * (M : Int) := by ring
      rw [hassoc]
      generalize (stride : Int) * (e : Int) * (M : Int) = X at r1 r2 ⊢
      have hse : (stride : Int) * 1 ≤ (stride : Int) * (e : Int) := Int.mul_le_mul_of_nonneg_left (by omega) hst
      cases asc[d]
      · simp only [Bool.false_eq_true, if_false]
        have : -(((e : Int) - 1) * ((stride : Int) * -1)) = (stride : Int) * (e : Int) - (stride : Int) := by ring
        rw [this]
        omega
      · simp only [if_true]; omega

theorem desc_bound {n : Nat} {so : StorageOrder} {exts : List Nat} {ss : List Int} (hv : ValidOrder n so) (he : exts.length = n)
    (hss : MultiArray.computeStrides (List.replicate n 0) exts so = .ok ss) :
    -(sizeBound exts : Int) ≤ MultiArray.calcDescOffset ss exts so ∧ MultiArray.calcDescOffset ss exts so ≤ (sizeBound exts : Int) - 1 := by
  have hlen : ss.length = n := by
    obtain ⟨ss', h, hl⟩ := computeStrides_ok hv exts he (List.replicate n 0) (by simp)
    rw [hss] at h; cases h; exact hl
  have := csLoop_desc_bound so.ascending exts n hv.2 he so.ordering 1 (List.replicate n 0) ss (by simp) hv.mem_lt hv.nodup hss
  unfold descSum at this
  rw [sizeBound_perm hv he] at this
  rw [calcDescOffset_eq n so exts ss hv.2 he hlen, ← (hv.1.map _).sum_eq]
  simpa using this

theorem calcDescOffset_eq' {n : Nat} {so : StorageOrder} {exts : List Nat} {ss : List Int} (hv : ValidOrder n so) (he : exts.length = n)
    (hs : sizeBound exts < 2 ^ 63) (hss : MultiArray.computeStrides (List.replicate n 0) exts so = .ok ss) :
    calcDescOffset ss exts so = MultiArray.calcDescOffset ss exts so := by
  obtain ⟨h1, h2⟩ := desc_bound hv he hss
  obtain ⟨m1, m2⟩ := desc_mod so.ascending exts ss 0 0 rfl (by decide)
  unfold calcDescOffset
  unfold MultiArray.calcDescOffset at h1 h2 ⊢
  split
  · rename_i h
    rw [if_pos h] at h1 h2
    exact eq_of_mod m2 (by unfold InIndex; omega) m1
  · rfl

/-! ### indexing offset -/

theorem indexingLoop_eq (ss bs : List Int) (o : Int) (h : o.natAbs + absDot bs ss < 2 ^ 63) :
    indexingOffsetLoop ss bs o = .ok (MultiArray.indexingOffsetLoop ss bs o) := by
  induction ss generalizing bs o with
  | nil => cases bs <;> rfl
  | cons s ss ih =>
    cases bs with
    | nil => rfl
    | cons b bs =>
      simp only [absDot] at h
      rw [mul_comm b s] at h
      simp only [indexingOffsetLoop, MultiArray.indexingOffsetLoop]
      rw [chk_ok (inIndex_of_natAbs (by omega)), Res.bind_ok, chk_ok (inIndex_of_natAbs (by omega)), Res.bind_ok]
      exact ih _ _ (by omega)

theorem absDot_bound (bs ss : List Int) : (dot bs ss).natAbs ≤ absDot bs ss := by
  induction bs generalizing ss with
  | nil => simp [dot]
  | cons b bs ih =>
    cases ss with
    | nil => simp [dot]
    | cons s ss =>
      simp only [dot, absDot]
      have := ih ss
      omega

theorem calcIndexingOffset_ok {ss bs : List Int} (h : absDot bs ss < 2 ^ 63) :
    calcIndexingOffset ss bs = .ok (MultiArray.calcIndexingOffset ss bs) := by
  unfold calcIndexingOffset MultiArray.calcIndexingOffset
  exact indexingLoop_eq ss bs 0 (by simpa using h)

theorem calcOriginOffset_ok {n : Nat} {so : StorageOrder} {exts : List Nat} {ss bs : List Int} (hv : ValidOrder n so) (he : exts.length = n)
    (hs : sizeBound exts + absDot bs ss < 2 ^ 63) (hss : MultiArray.computeStrides (List.replicate n 0) exts so = .ok ss) :
    calcOriginOffset ss exts so bs = .ok (MultiArray.calcOriginOffset ss exts so bs) := by
  unfold calcOriginOffset MultiArray.calcOriginOffset
  rw [calcIndexingOffset_ok (by omega), Res.bind_ok, calcDescOffset_eq' hv he (by omega) hss]
  obtain ⟨h1, h2⟩ := desc_bound hv he hss
  apply chk_ok
  have h3 := calcIndexingOffset_eq ss bs
  have h4 := absDot_bound bs ss
  unfold InIndex
  omega

/-! ### element access -/

theorem offsetLoop_eq (n : Nat) (is ss : List Int) (o : Int) (h : o.natAbs + absDot is ss < 2 ^ 63) :
    offsetLoop n is ss o = MultiArray.offsetLoop n is ss o := by
  induction n generalizing is ss o with
  | zero => rfl
  | succ n ih =>
    match is, ss with
    | [], _ => rfl
    | _ :: _, [] => rfl
    | i :: is, s :: ss =>
      simp only [absDot] at h
      simp only [offsetLoop, MultiArray.offsetLoop]
      rw [chk_ok (inIndex_of_natAbs (by omega)), Res.bind_ok, chk_ok (inIndex_of_natAbs (by omega)), Res.bind_ok]
      exact ih _ _ _ (by omega)

theorem size_check {diff : Int} (h : InIndex diff) (h0 : 0 ≤ diff) : toSizeT diff = diff.toNat := by
  unfold InIndex at h
  exact toSizeT_nonneg h0 (by omega)

theorem checkIndices_eq (dbg : Bool) (es : List Nat) (bs is : List Int) (h : DistancesFit bs is) :
    checkIndices dbg es bs is = MultiArray.checkIndices dbg es bs is := by
  induction es generalizing bs is with
  | nil => rfl
  | cons e es ih =>
    match bs, is with
    | [], _ => rfl
    | _ :: _, [] => rfl
    | b :: bs, i :: is =>
      obtain ⟨h1, h2⟩ := h
      simp only [checkIndices, MultiArray.checkIndices]
      cases dbg
      · rfl
      · simp only [if_true]
        rw [chk_ok h1, Res.bind_ok]
        by_cases h0 : i - b ≥ 0
        · rw [size_check h1 h0]
          have := ih bs is h2
          rw [this]
        · have hf : decide (i - b ≥ 0) = false := by simpa using h0
          rw [hf]; rfl

theorem accessElement_eq (dbg : Bool) (idx : List Int) (d : Desc) (h1 : DistancesFit d.bases idx) (h2 : absDot idx d.strides < 2 ^ 63) :
    accessElement dbg idx d = MultiArray.accessElement dbg idx d := by
  unfold accessElement MultiArray.accessElement
  rw [checkIndices_eq dbg _ _ _ h1, offsetLoop_eq _ _ _ _ (by simpa using h2)]

theorem access_eq (dbg : Bool) (i : Int) (d : Desc) (h1 : ∀ b bs, d.bases = b :: bs → InIndex (i - b))
    (h2 : ∀ s ss, d.strides = s :: ss → (i * s).natAbs < 2 ^ 63) : access dbg i d = MultiArray.access dbg i d := by
  rcases d with ⟨p, es, ss, bs⟩
  match es, ss, bs with
  | [], _, _ => rfl
  | _ :: _, [], _ => rfl
  | _ :: _, _ :: _, [] => rfl
  | e :: es, s :: ss, b :: bs =>
    have h1 := h1 b bs rfl
    have h2 := h2 s ss rfl
    simp only [access, MultiArray.access]
    rw [chk_ok (inIndex_of_natAbs h2)]
    cases dbg
    · rfl
    · rw [chk_ok h1]
      simp only [if_true, Res.bind_ok]
      by_cases h0 : i - b ≥ 0
      · rw [size_check h1 h0]
      · have hf : decide (i - b ≥ 0) = false := by simpa using h0
        rw [hf]; rfl

theorem accessChain_eq (dbg : Bool) (is : List Int) (d : Desc) (h1 : DistancesFit d.bases is) (h2 : absDot is d.strides < 2 ^ 63) :
    accessChain dbg is d = MultiArray.accessChain dbg is d := by
  induction is generalizing d with
  | nil => rfl
  | cons i is ih =>
    simp only [accessChain, MultiArray.accessChain]
    have ha : access dbg i d = MultiArray.access dbg i d := by
      apply access_eq
      · intro b bs hb; rw [hb] at h1; exact h1.1
      · intro s ss hs; rw [hs] at h2; simp only [absDot] at h2; omega
    rw [ha]
    cases hr : MultiArray.access dbg i d with
    | assertFail => rfl
    | ub => rfl
    | ok d' =>
      simp only [Res.bind_ok]
      have : d.bases.tail = d'.bases ∧ d.strides.tail = d'.strides ∧ d.bases ≠ [] ∧ d.strides ≠ [] := by
        rcases d with ⟨p, es, ss, bs⟩
        match es, ss, bs, hr with
        | e :: es, s :: ss, b :: bs, hr =>
          simp only [MultiArray.access] at hr
          cases hx : Res.assert dbg (decide (i - b ≥ 0)) <;> rw [hx] at hr <;> simp at hr
          cases hy : Res.assert dbg (decide ((i - b).toNat < e)) <;> rw [hy] at hr <;> simp at hr
          subst hr
          simp
      obtain ⟨t1, t2, t3, t4⟩ := this
      apply ih
      · rw [← t1]
        cases hb : d.bases with
        | nil => exact absurd hb t3
        | cons b bs => rw [hb] at h1; exact h1.2
      · rw [← t2]
        cases hb : d.strides with
        | nil => exact absurd hb t4
        | cons s ss => rw [hb] at h2; simp only [absDot] at h2; simp; omega

/-! ### views -/

theorem tdiv_natAbs_le (a b : Int) : (Int.tdiv a b).natAbs ≤ a.natAbs := by
  rw [Int.natAbs_tdiv]; exact Nat.div_le_self _ _

theorem viewLen_eq {start finish stride : Int} (hs : stride ≠ 0) (h : (finish - start).natAbs + stride.natAbs ≤ 2 ^ 63) :
    viewLen start finish stride = .ok (MultiArray.viewLen start finish stride) ∧ (MultiArray.viewLen start finish stride).natAbs < 2 ^ 63 := by
  unfold viewLen MultiArray.viewLen
  have t1 := tdiv_natAbs_le (finish - start) stride
  rw [chk_ok (inIndex_of_natAbs (by omega)), Res.bind_ok, chk_ok (inIndex_of_natAbs (by omega)), Res.bind_ok]
  by_cases hneg : Int.tdiv (finish - start) stride < 0
  · simp [hneg]
  · simp only [hneg, if_false]
    have hsh : (stride - (if stride > 0 then 1 else -1)).natAbs + 1 = stride.natAbs := by split <;> omega
    generalize stride - (if stride > 0 then 1 else -1) = t at hsh ⊢
    have t2 := tdiv_natAbs_le (finish - start + t) stride
    rw [chk_ok (inIndex_of_natAbs (by omega)), Res.bind_ok, chk_ok (inIndex_of_natAbs (by omega)), Res.bind_ok,
      chk_ok (inIndex_of_natAbs (by omega))]
    exact ⟨rfl, by omega⟩

theorem toIndex_nat {e : Nat} (h : e < 2 ^ 63) : toIndex e = (e : Int) :=
  toIndex_eq rfl (by unfold InIndex; omega)

theorem viewAsserts_eq (dbg : Bool) {b : Int} {e : Nat} (start finish stride : Int) (h1 : -(2 ^ 63) < b) (h2 : b + (e : Int) < 2 ^ 63) (h3 : e < 2 ^ 63) :
    viewAsserts dbg b e start finish stride = MultiArray.viewAsserts dbg b e start finish stride := by
  unfold viewAsserts MultiArray.viewAsserts
  cases dbg
  · rfl
  · simp only [if_true]
    rw [toIndex_nat h3, chk_ok (show InIndex (b + (e : Int)) by unfold InIndex; omega)]
    simp only [Res.bind_ok]
    rw [chk_ok (show InIndex (b - (if stride < 0 then 1 else 0)) by unfold InIndex; split <;> omega),
      chk_ok (show InIndex (b + (e : Int) - (if stride < 0 then 1 else 0)) by unfold InIndex; split <;> omega)]
    generalize (if stride < 0 then (1 : Int) else 0) = adj
    simp only [Res.bind_ok]
    by_cases c1 : b ≤ start
    · simp only [c1, if_true, true_and]
      cases hx : Res.assert true (decide (start ≤ b + (e : Int) ∨ start = b ∧ e = 0)) with
      | assertFail => rfl
      | ub => rfl
      | ok u =>
        simp only [Res.bind_ok]
        by_cases c2 : b - adj ≤ finish
        · simp only [c2, if_true, true_and]
        · simp only [c2, if_false, false_and]; rfl
    · simp only [c1, if_false, false_and]; rfl

theorem viewStep_eq (dbg : Bool) (nd : Nat) {r : IndexRange} {e : Nat} {s b : Int} {acc : ViewAcc} (h : RangeFits b e s r)
    (ho : acc.offset.natAbs + (rangeStart r b * s).natAbs < 2 ^ 63) :
    viewStep dbg nd r e s b acc = MultiArray.viewStep dbg nd r e s b acc := by
  obtain ⟨h1, h2, h3, h4, h5⟩ := h
  have hdf : toIndex (uadd (toSizeT b) e) = b + (e : Int) := by
    apply toIndex_eq
    · rw [uadd_mod, Int.add_emod, toSizeT_cast, Int.emod_emod_of_dvd _ (dvd_refl _), ← Int.add_emod]
    · unfold InIndex; omega
  have hst : r.getStart b = rangeStart r b := rfl
  have hfi : r.getFinish (b + (e : Int)) = rangeFinish r b e := rfl
  simp only [viewStep, MultiArray.viewStep, hdf, hst, hfi]
  cases hx : Res.assert dbg (decide (r.stride_ ≠ 0)) with
  | assertFail => rfl
  | ub => rfl
  | ok u =>
    simp only [Res.bind_ok]
    by_cases h0 : r.stride_ = 0
    · simp [h0]
    · simp only [h0, if_false]
      rw [(viewLen_eq h0 h4).1, Res.bind_ok, viewAsserts_eq dbg _ _ _ h1 h2 h3]
      cases hy : MultiArray.viewAsserts dbg b e (rangeStart r b) (rangeFinish r b e) r.stride_ with
      | assertFail => rfl
      | ub => rfl
      | ok u =>
        simp only [Res.bind_ok]
        rw [chk_ok (inIndex_of_natAbs (by omega)), Res.bind_ok, chk_ok (inIndex_of_natAbs (by omega)), Res.bind_ok,
          chk_ok (inIndex_of_natAbs h5)]
        simp only [Res.bind_ok]

/-- What a step of the view loop does to the accumulated offset and extents. -/
theorem viewStep_acc {dbg : Bool} {nd : Nat} {r : IndexRange} {e : Nat} {s b : Int} {acc acc' : ViewAcc} (h : RangeFits b e s r)
    (hok : MultiArray.viewStep dbg nd r e s b acc = .ok acc') :
    acc'.offset = acc.offset + rangeStart r b * s ∧
    ((∀ x ∈ acc.newExtents, 0 ≤ x ∧ x < 2 ^ 63) → ∀ x ∈ acc'.newExtents, 0 ≤ x ∧ x < 2 ^ 63) := by
  obtain ⟨h1, h2, h3, h4, h5⟩ := h
  have hst : r.getStart b = rangeStart r b := rfl
  have hfi : r.getFinish (b + (e : Int)) = rangeFinish r b e := rfl
  simp only [MultiArray.viewStep, hst, hfi] at hok
  cases hx : Res.assert dbg (decide (r.stride_ ≠ 0)) with
  | assertFail => rw [hx] at hok; cases hok
  | ub => rw [hx] at hok; cases hok
  | ok u =>
    rw [hx] at hok
    simp only [Res.bind_ok] at hok
    by_cases h0 : r.stride_ = 0
    · simp [h0] at hok
    · simp only [h0, if_false] at hok
      cases hy : MultiArray.viewAsserts dbg b e (rangeStart r b) (rangeFinish r b e) r.stride_ with
      | assertFail => rw [hy] at hok; cases hok
      | ub => rw [hy] at hok; cases hok
      | ok u =>
        rw [hy] at hok
        simp only [Res.bind_ok] at hok
        split at hok
        · split at hok
          · cases hok
            refine ⟨rfl, ?_⟩
            intro hall x hmem
            simp only [List.mem_append, List.mem_singleton] at hmem
            rcases hmem with hm | hm
            · exact hall x hm
            · subst hm
              have hl := (viewLen_eq h0 h4).2
              have hn := viewLen_nonneg (rangeStart r b) (rangeFinish r b e) r.stride_ h0
              omega
          · cases dbg <;> cases hok
        · cases hok; exact ⟨rfl, id⟩

theorem viewLoop_eq (dbg : Bool) (nd : Nat) (rs : List IndexRange) (es : List Nat) (ss bs : List Int) (acc : ViewAcc)
    (h : RangesFit bs es ss rs) (ho : acc.offset.natAbs + absDot (startsOf rs bs) ss < 2 ^ 63)
    (hx : ∀ x ∈ acc.newExtents, 0 ≤ x ∧ x < 2 ^ 63) :
    viewLoop dbg nd rs es ss bs acc = MultiArray.viewLoop dbg nd rs es ss bs acc ∧
    ∀ acc', MultiArray.viewLoop dbg nd rs es ss bs acc = .ok acc' → ∀ x ∈ acc'.newExtents, 0 ≤ x ∧ x < 2 ^ 63 := by
  induction rs generalizing es ss bs acc with
  | nil =>
    match es, ss, bs with
    | [], [], [] => exact ⟨rfl, by rintro acc' h; cases h; exact hx⟩
    | [], [], _ :: _ => exact ⟨rfl, by rintro acc' h; cases h⟩
    | [], _ :: _, _ => exact ⟨rfl, by rintro acc' h; cases h⟩
    | _ :: _, _, _ => exact ⟨rfl, by rintro acc' h; cases h⟩
  | cons r rs ih =>
    match es, ss, bs, h with
    | [], [], [], _ => exact ⟨rfl, by rintro acc' h; cases h; exact hx⟩
    | [], [], _ :: _, _ => exact ⟨rfl, by rintro acc' h; cases h⟩
    | [], _ :: _, _, _ => exact ⟨rfl, by rintro acc' h; cases h⟩
    | _ :: _, [], _, _ => exact ⟨rfl, by rintro acc' h; cases h⟩
    | _ :: _, _ :: _, [], _ => exact ⟨rfl, by rintro acc' h; cases h⟩
    | e :: es, s :: ss, b :: bs, h =>
      obtain ⟨hr, hrs⟩ := h
      simp only [startsOf, absDot] at ho
      simp only [viewLoop, MultiArray.viewLoop]
      rw [viewStep_eq dbg nd hr (by omega)]
      cases hst : MultiArray.viewStep dbg nd r e s b acc with
      | assertFail => exact ⟨rfl, by rintro acc' h; cases h⟩
      | ub => exact ⟨rfl, by rintro acc' h; cases h⟩
      | ok acc1 =>
        simp only [Res.bind_ok]
        obtain ⟨a1, a2⟩ := viewStep_acc hr hst
        exact ih es ss bs acc1 hrs (by omega) (a2 hx)

theorem mkView_eq {p : Ptr} {es ss : List Int} (h : ∀ x ∈ es, 0 ≤ x ∧ x < 2 ^ 63) (hp : (View.mkView p es ss).numElems < 2 ^ 64) :
    mkView p es ss = View.mkView p es ss := by
  have he : es.map toSizeT = es.map Int.toNat := by
    apply List.map_congr_left
    intro x hx
    have := h x hx
    exact toSizeT_nonneg this.1 (by omega)
  unfold mkView
  unfold View.mkView at hp ⊢
  simp only at hp ⊢
  rw [he, product_eq' hp]

theorem generateArrayView_eq (dbg : Bool) (g : IndexGen) (d : Desc) (h : RangesFit d.bases d.extents d.strides g.ranges)
    (ho : absDot (startsOf g.ranges d.bases) d.strides < 2 ^ 63)
    (hp : ∀ v, MultiArray.generateArrayView dbg g d = .ok v → v.numElements < 2 ^ 64) :
    generateArrayView dbg g d = MultiArray.generateArrayView dbg g d := by
  obtain ⟨h1, h2⟩ := viewLoop_eq dbg g.numDims g.ranges d.extents d.strides d.bases ⟨0, [], []⟩ h (by simpa using ho) (by simp)
  unfold generateArrayView
  unfold MultiArray.generateArrayView at hp ⊢
  rw [h1]
  cases hl : MultiArray.viewLoop dbg g.numDims g.ranges d.extents d.strides d.bases ⟨0, [], []⟩ with
  | assertFail => rfl
  | ub => rfl
  | ok acc =>
    rw [hl] at hp
    simp only [Res.bind_ok] at hp ⊢
    cases hx : Res.assert dbg (decide (acc.newStrides.length = g.numDims)) with
    | assertFail => rfl
    | ub => rfl
    | ok u =>
      rw [hx] at hp
      simp only [Res.bind_ok] at hp ⊢
      split
      · rename_i hlen
        rw [if_pos hlen] at hp
        rw [mkView_eq (h2 acc hl) (hp _ rfl)]
      · rfl

end Machine
end MultiArray
