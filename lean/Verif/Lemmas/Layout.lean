import Verif.Lemmas.Basic
import Mathlib.Algebra.BigOperators.Group.List.Lemmas

/- Mixed-radix analysis of `compute_strides` and the origin offset. -/
set_option autoImplicit false

namespace MultiArray
open Spec

/-! ### Outcome of the loop -/

/-- Everything about a successful run of the stride loop over `ord`. -/
theorem csLoop_ok (asc : List Bool) (exts : List Nat) (n : Nat) (ha : asc.length = n) (he : exts.length = n)
    (ord : List Nat) (stride : Int) (sl : List Int) (hsl : sl.length = n)
    (hord : ∀ d ∈ ord, d < n) :
    ∃ sl', computeStridesLoop asc exts ord stride sl = .ok sl' ∧ sl'.length = n ∧
      (∀ d, d ∉ ord → sl'.getD d 0 = sl.getD d 0) := by
  induction ord generalizing stride sl with
  | nil => exact ⟨sl, rfl, hsl, fun _ _ => rfl⟩
  | cons d ds ih =>
    have hd : d < n := hord d (by simp)
    have h1 : Res.get asc d = .ok asc[d] := by
      simp [Res.get, ha, hd]
    have h2 : Res.get exts d = .ok exts[d] := by
      simp [Res.get, he, hd]
    obtain ⟨sl', hok, hlen, hrest⟩ := ih (stride * (exts[d] : Int)) (sl.set d (stride * (if asc[d] then 1 else -1)))
      (by simpa using hsl) (fun d' hd' => hord d' (by simp [hd']))
    refine ⟨sl', ?_, hlen, ?_⟩
    · simp only [computeStridesLoop, h1, h2, Res.bind_ok, hsl, hd, if_true]
      exact hok
    · intro d' hd'
      simp only [List.mem_cons, not_or] at hd'
      rw [hrest d' hd'.2]
      simp only [List.getD_eq_getElem?_getD]
      rw [List.getElem?_set_ne (by omega)]

/-- The loop's result does not depend on the previous contents at the positions in `ord`. -/
theorem csLoop_congr (asc : List Bool) (exts : List Nat) (ord : List Nat) (stride : Int) (sl1 sl2 : List Int)
    (hlen : sl1.length = sl2.length) (hagree : ∀ d, d ∉ ord → sl1.getD d 0 = sl2.getD d 0) :
    computeStridesLoop asc exts ord stride sl1 = computeStridesLoop asc exts ord stride sl2 := by
  induction ord generalizing stride sl1 sl2 with
  | nil =>
    simp only [computeStridesLoop]
    congr 1
    apply List.ext_getElem hlen
    intro i h1 h2
    have := hagree i (by simp)
    simpa [List.getD_eq_getElem?_getD, h1, h2] using this
  | cons d ds ih =>
    simp only [computeStridesLoop, hlen]
    cases Res.get asc d with
    | assertFail => rfl
    | ub => rfl
    | ok a =>
      cases Res.get exts d with
      | assertFail => rfl
      | ub => rfl
      | ok e =>
        simp only [Res.bind_ok]
        split
        · rename_i hd
          apply ih
          · simpa using hlen
          · intro d' hd'
            simp only [List.getD_eq_getElem?_getD, List.getElem?_set]
            by_cases hdd : d = d'
            · subst hdd; simp [hd, hlen]
            · simp only [hdd, if_false]
              have := hagree d' (by simp [hd', Ne.symm hdd])
              simpa [List.getD_eq_getElem?_getD] using this
        · rfl

/-- The digit contributed by dimension `d`: mirrored when the dimension is descending. -/
def digit (asc : List Bool) (exts : List Nat) (k : Nat → Nat) (d : Nat) : Nat :=
  if asc.getD d true then k d else exts.getD d 0 - 1 - k d

/-- Mixed-radix numeral along `ord`, least significant first. -/
def mixed (exts : List Nat) (dig : Nat → Nat) : List Nat → Nat
  | [] => 0
  | d :: ds => dig d + exts.getD d 0 * mixed exts dig ds

/-- Contribution of dimension `d` to the distance from `data()` of the element at zero-based `k`. -/
def contrib (asc : List Bool) (exts : List Nat) (sl : List Int) (k : Nat → Nat) (d : Nat) : Int :=
  (k d : Int) * sl.getD d 0 + (if asc.getD d true then 0 else -(((exts.getD d 0 : Int) - 1) * sl.getD d 0))

theorem csLoop_contrib (asc : List Bool) (exts : List Nat) (n : Nat) (ha : asc.length = n) (he : exts.length = n)
    (k : Nat → Nat) (ord : List Nat) (stride : Int) (sl sl' : List Int) (hsl : sl.length = n)
    (hord : ∀ d ∈ ord, d < n ∧ k d < exts.getD d 0) (hnd : ord.Nodup)
    (hok : computeStridesLoop asc exts ord stride sl = .ok sl') :
    (ord.map (contrib asc exts sl' k)).sum = stride * (mixed exts (digit asc exts k) ord : Int) := by
  induction ord generalizing stride sl with
  | nil => simp [mixed]
  | cons d ds ih =>
    have hd := hord d (by simp)
    have hdn := hd.1
    have h1 : Res.get asc d = .ok asc[d] := by simp [Res.get, ha, hdn]
    have h2 : Res.get exts d = .ok exts[d] := by simp [Res.get, he, hdn]
    simp only [computeStridesLoop, h1, h2, Res.bind_ok, hsl, hdn, if_true] at hok
    have hnd' := List.nodup_cons.mp hnd
    have hrest := ih (stride * (exts[d] : Int)) _ (by simpa using hsl)
      (fun d' hd' => hord d' (by simp [hd'])) hnd'.2 hok
    obtain ⟨sl'', hok'', hlen'', hkeep⟩ := csLoop_ok asc exts n ha he ds (stride * (exts[d] : Int))
      (sl.set d (stride * (if asc[d] then 1 else -1))) (by simpa using hsl) (fun d' hd' => (hord d' (by simp [hd'])).1)
    rw [hok] at hok''
    cases hok''
    have hval : sl'.getD d 0 = stride * (if asc[d] then 1 else -1) := by
      rw [hkeep d hnd'.1]
      simp [List.getD_eq_getElem?_getD, hsl, hdn]
    have hea : exts.getD d 0 = exts[d] := by simp [List.getD_eq_getElem?_getD, he, hdn]
    have haa : asc.getD d true = asc[d] := by simp [List.getD_eq_getElem?_getD, ha, hdn]
    simp only [List.map_cons, List.sum_cons, hrest, mixed]
    simp only [contrib, digit, hval, haa, hea]
    have hk := hd.2
    rw [hea] at hk
    cases hasc : asc[d]
    · simp only [Bool.false_eq_true, if_false]
      have : ((exts[d] - 1 - k d : Nat) : Int) = (exts[d] : Int) - 1 - (k d : Int) := by omega
      push_cast [this]
      ring
    · simp only [if_true]
      push_cast
      ring

/-! ### The mixed-radix numeral is a bijection -/

theorem mixed_lt (exts : List Nat) (dig : Nat → Nat) (ord : List Nat) (h : ∀ d ∈ ord, dig d < exts.getD d 0) :
    mixed exts dig ord < (ord.map (fun d => exts.getD d 0)).prod := by
  induction ord with
  | nil => simp [mixed]
  | cons d ds ih =>
    have h1 := h d (by simp)
    have h2 := ih (fun d' hd' => h d' (by simp [hd']))
    simp only [mixed, List.map_cons, List.prod_cons]
    calc dig d + exts.getD d 0 * mixed exts dig ds
        < exts.getD d 0 + exts.getD d 0 * mixed exts dig ds := by omega
      _ = exts.getD d 0 * (mixed exts dig ds + 1) := by ring
      _ ≤ _ := Nat.mul_le_mul_left _ h2

theorem mixed_inj (exts : List Nat) (dig dig' : Nat → Nat) (ord : List Nat)
    (h : ∀ d ∈ ord, dig d < exts.getD d 0) (h' : ∀ d ∈ ord, dig' d < exts.getD d 0)
    (heq : mixed exts dig ord = mixed exts dig' ord) : ∀ d ∈ ord, dig d = dig' d := by
  induction ord with
  | nil => simp
  | cons d ds ih =>
    have h1 := h d (by simp)
    have h1' := h' d (by simp)
    simp only [mixed] at heq
    have hd : dig d = dig' d := by
      have := congrArg (· % exts.getD d 0) heq
      simp only [Nat.add_mul_mod_self_left] at this
      rwa [Nat.mod_eq_of_lt h1, Nat.mod_eq_of_lt h1'] at this
    have hm : mixed exts dig ds = mixed exts dig' ds := by
      rw [hd] at heq
      have := Nat.add_left_cancel heq
      exact Nat.eq_of_mul_eq_mul_left (by omega) this
    intro d' hd'
    rcases List.mem_cons.mp hd' with rfl | hd'
    · exact hd
    · exact ih (fun x hx => h x (by simp [hx])) (fun x hx => h' x (by simp [hx])) hm d' hd'

/-- Digits of `v` along `ord`. -/
def digitsOf (exts : List Nat) : List Nat → Nat → Nat → Nat
  | [], _ => fun _ => 0
  | d :: ds, v => fun x => if x = d then v % exts.getD d 0 else digitsOf exts ds (v / exts.getD d 0) x

theorem mixed_congr (exts : List Nat) (dig dig' : Nat → Nat) (ord : List Nat) (h : ∀ d ∈ ord, dig d = dig' d) :
    mixed exts dig ord = mixed exts dig' ord := by
  induction ord with
  | nil => rfl
  | cons d ds ih =>
    simp only [mixed, h d (by simp), ih (fun x hx => h x (by simp [hx]))]

theorem mixed_digitsOf (exts : List Nat) (ord : List Nat) (hnd : ord.Nodup) (v : Nat)
    (hv : v < (ord.map (fun d => exts.getD d 0)).prod) :
    mixed exts (digitsOf exts ord v) ord = v ∧ ∀ d ∈ ord, digitsOf exts ord v d < exts.getD d 0 := by
  induction ord generalizing v with
  | nil => simp at hv; simp [mixed, hv]
  | cons d ds ih =>
    have hnd' := List.nodup_cons.mp hnd
    simp only [List.map_cons, List.prod_cons] at hv
    have hpos : 0 < exts.getD d 0 := by
      rcases Nat.eq_zero_or_pos (exts.getD d 0) with h | h
      · rw [h] at hv; simp at hv
      · exact h
    have hq : v / exts.getD d 0 < (ds.map (fun d => exts.getD d 0)).prod :=
      Nat.div_lt_of_lt_mul hv
    obtain ⟨h1, h2⟩ := ih hnd'.2 _ hq
    have hcong : ∀ x ∈ ds, digitsOf exts (d :: ds) v x = digitsOf exts ds (v / exts.getD d 0) x := by
      intro x hx
      have : x ≠ d := fun h => hnd'.1 (h ▸ hx)
      simp [digitsOf, this]
    constructor
    · simp only [mixed]
      rw [mixed_congr exts _ _ ds hcong, h1]
      simp only [digitsOf, if_true]
      exact Nat.mod_add_div v _
    · intro x hx
      rcases List.mem_cons.mp hx with rfl | hx
      · simp only [digitsOf, if_true]; exact Nat.mod_lt _ hpos
      · rw [hcong x hx]; exact h2 x hx

/-! ### Offsets as sums -/

theorem indexingOffsetLoop_eq (ss bs : List Int) (o : Int) : indexingOffsetLoop ss bs o = o - dot bs ss := by
  induction ss generalizing bs o with
  | nil => cases bs <;> simp [indexingOffsetLoop, dot]
  | cons s ss ih =>
    cases bs with
    | nil => simp [indexingOffsetLoop, dot]
    | cons b bs => simp only [indexingOffsetLoop, ih, dot]; ring

theorem calcIndexingOffset_eq (ss bs : List Int) : calcIndexingOffset ss bs = - dot bs ss := by
  simp [calcIndexingOffset, indexingOffsetLoop_eq]

theorem foldl_and (l : List Bool) (a : Bool) : l.foldl (fun a b => a && b) a = (a && l.all id) := by
  induction l generalizing a with
  | nil => simp
  | cons x xs ih => simp [ih, Bool.and_assoc]

theorem allDimsAscending_iff (so : StorageOrder) : so.allDimsAscending = true ↔ ∀ b ∈ so.ascending, b = true := by
  simp [StorageOrder.allDimsAscending, foldl_and]

theorem descOffsetLoop_eq (n : Nat) (as : List Bool) (es : List Nat) (ss : List Int) (o : Int)
    (ha : as.length = n) (he : es.length = n) (hs : ss.length = n) :
    descOffsetLoop as es ss o = o + ((List.range n).map (fun d =>
      if as.getD d true then (0 : Int) else -(((es.getD d 0 : Int) - 1) * ss.getD d 0))).sum := by
  induction n generalizing as es ss o with
  | zero =>
    have : as = [] := by simpa using ha
    subst this; simp [descOffsetLoop]
  | succ n ih =>
    match as, es, ss, ha, he, hs with
    | a :: as, e :: es, s :: ss, ha, he, hs =>
      rw [List.range_succ_eq_map]
      simp only [descOffsetLoop, List.map_cons, List.map_map, List.sum_cons, List.getD_cons_zero]
      rw [ih as es ss _ (by simpa using ha) (by simpa using he) (by simpa using hs)]
      have : ∀ d, ((fun d => if (a :: as).getD d true = true then (0 : Int) else
          -((((e :: es).getD d 0 : Int) - 1) * (s :: ss).getD d 0)) ∘ Nat.succ) d =
          (fun d => if as.getD d true = true then (0 : Int) else -(((es.getD d 0 : Int) - 1) * ss.getD d 0)) d := by
        intro d; simp
      rw [List.map_congr_left (fun d _ => this d)]
      cases a <;> simp <;> ring

theorem calcDescOffset_eq (n : Nat) (so : StorageOrder) (es : List Nat) (ss : List Int)
    (ha : so.ascending.length = n) (he : es.length = n) (hs : ss.length = n) :
    calcDescOffset ss es so = ((List.range n).map (fun d =>
      if so.ascending.getD d true then (0 : Int) else -(((es.getD d 0 : Int) - 1) * ss.getD d 0))).sum := by
  unfold calcDescOffset
  by_cases h : so.allDimsAscending = true
  · simp only [h, Bool.not_true, Bool.false_eq_true, if_false]
    symm
    apply List.sum_eq_zero
    intro x hx
    obtain ⟨d, hd, rfl⟩ := List.mem_map.mp hx
    have hd' : d < so.ascending.length := by rw [ha]; simpa using hd
    have : so.ascending.getD d true = true := by
      have := (allDimsAscending_iff so).mp h so.ascending[d] (List.getElem_mem hd')
      simpa [List.getD_eq_getElem?_getD, hd'] using this
    rw [if_pos this]
  · simp only [h, Bool.not_false, if_true]
    rw [descOffsetLoop_eq n _ _ _ 0 ha he hs, Int.zero_add]

/-! ### Well-formed array headers -/

/-- Internal consistency of an array header of `n` dimensions (established by every constructor and kept
by `reindex` and `reshape`). -/
structure ARef.WF (n : Nat) (a : ARef) : Prop where
  order : ValidOrder n a.storage
  ext_len : a.extents.length = n
  bases_len : a.bases.length = n
  strides_eq : computeStrides (List.replicate n 0) a.extents a.storage = .ok a.strides
  num_eq : a.numElems = product a.extents
  origin_eq : a.originOffset = calcOriginOffset a.strides a.extents a.storage a.bases

theorem Spec.ValidOrder.mem_lt {n : Nat} {so : StorageOrder} (h : ValidOrder n so) : ∀ d ∈ so.ordering, d < n := by
  intro d hd
  have := h.1.mem_iff.mp hd
  simpa using this

theorem Spec.ValidOrder.nodup {n : Nat} {so : StorageOrder} (h : ValidOrder n so) : so.ordering.Nodup :=
  h.1.nodup_iff.mpr List.nodup_range

theorem Spec.ValidOrder.mem_iff {n : Nat} {so : StorageOrder} (h : ValidOrder n so) (d : Nat) :
    d ∈ so.ordering ↔ d < n := by
  rw [h.1.mem_iff]; simp

/-- For a valid order, `compute_strides` succeeds whatever the previous contents, and they do not matter. -/
theorem computeStrides_init_irrelevant {n : Nat} {so : StorageOrder} (h : ValidOrder n so) (exts : List Nat)
    (sl1 sl2 : List Int) (h1 : sl1.length = n) (h2 : sl2.length = n) :
    computeStrides sl1 exts so = computeStrides sl2 exts so := by
  apply csLoop_congr
  · rw [h1, h2]
  · intro d hd
    have hd' : n ≤ d := by
      rcases Nat.lt_or_ge d n with hlt | hge
      · exact absurd ((h.mem_iff d).mpr hlt) hd
      · exact hge
    simp [List.getD_eq_getElem?_getD, List.getElem?_eq_none (h1 ▸ hd'), List.getElem?_eq_none (h2 ▸ hd')]

theorem computeStrides_ok {n : Nat} {so : StorageOrder} (h : ValidOrder n so) (exts : List Nat)
    (he : exts.length = n) (sl : List Int) (h1 : sl.length = n) :
    ∃ ss, computeStrides sl exts so = .ok ss ∧ ss.length = n := by
  obtain ⟨ss, hok, hlen, _⟩ := csLoop_ok so.ascending exts n h.2 he so.ordering 1 sl h1 h.mem_lt
  exact ⟨ss, hok, hlen⟩

theorem ARef.WF.strides_len {n : Nat} {a : ARef} (h : a.WF n) : a.strides.length = n := by
  obtain ⟨ss, hok, hlen⟩ := computeStrides_ok h.order a.extents h.ext_len (List.replicate n 0) (by simp)
  rw [h.strides_eq] at hok
  cases hok
  exact hlen

theorem prod_perm_range (n : Nat) (exts : List Nat) (he : exts.length = n) (ord : List Nat)
    (hp : ord.Perm (List.range n)) : (ord.map (fun d => exts.getD d 0)).prod = exts.prod := by
  rw [(hp.map _).prod_eq]
  congr 1
  apply List.ext_getElem
  · simp [he]
  · intro i h1 h2
    simp [List.getD_eq_getElem?_getD, h2]

/-- Distance of the element at zero-based position `k` from `data()`. -/
def ARef.flat (a : ARef) (k : Nat → Nat) : Nat :=
  mixed a.extents (digit a.storage.ascending a.extents k) a.storage.ordering

/-- The fundamental layout equation: origin offset plus index·stride is the mixed-radix numeral. -/
theorem ARef.WF.offset_eq {n : Nat} {a : ARef} (h : a.WF n) (idx : List Int) (hin : InBox a.bases a.extents idx) :
    a.originOffset + dot idx a.strides =
      (a.flat (fun d => (idx.getD d 0 - a.bases.getD d 0).toNat) : Int) := by
  have hlen := hin.length
  have hidx : idx.length = n := by rw [hlen.1, h.ext_len]
  have hsl := h.strides_len
  have hk : ∀ d, d < n → 0 ≤ idx.getD d 0 - a.bases.getD d 0 ∧
      (idx.getD d 0 - a.bases.getD d 0).toNat < a.extents.getD d 0 := by
    intro d hd
    have := hin.get d (by rw [h.ext_len]; exact hd)
    omega
  have key := csLoop_contrib a.storage.ascending a.extents n h.order.2 h.ext_len
    (fun d => (idx.getD d 0 - a.bases.getD d 0).toNat) a.storage.ordering 1 (List.replicate n 0) a.strides
    (by simp) (fun d hd => ⟨h.order.mem_lt d hd, (hk d (h.order.mem_lt d hd)).2⟩) h.order.nodup h.strides_eq
  rw [(h.order.1.map _).sum_eq, Int.one_mul] at key
  rw [ARef.flat, ← key, h.origin_eq, calcOriginOffset, calcIndexingOffset_eq,
    calcDescOffset_eq n a.storage a.extents a.strides h.order.2 h.ext_len hsl,
    dot_eq_sum n idx a.strides hidx hsl, dot_eq_sum n a.bases a.strides h.bases_len hsl]
  have : ∀ (f g q p : Nat → Int) (l : List Nat), (∀ d ∈ l, p d = f d + (q d - g d)) →
      (l.map f).sum + -(l.map g).sum + (l.map q).sum = (l.map p).sum := by
    intro f g q p l hl
    induction l with
    | nil => simp
    | cons x xs ih =>
      have h1 := hl x (by simp)
      have h2 := ih (fun d hd => hl d (by simp [hd]))
      simp only [List.map_cons, List.sum_cons]
      rw [← h2, h1]; ring
  apply this
  intro d hd
  have hd' : d < n := by simpa using hd
  simp only [contrib]
  rw [Int.toNat_of_nonneg (hk d hd').1]
  ring

theorem digit_lt (asc : List Bool) (exts : List Nat) (k : Nat → Nat) (d : Nat) (h : k d < exts.getD d 0) :
    digit asc exts k d < exts.getD d 0 := by
  unfold digit; split <;> omega

theorem ARef.WF.flat_lt {n : Nat} {a : ARef} (h : a.WF n) (k : Nat → Nat) (hk : ∀ d, d < n → k d < a.extents.getD d 0) :
    a.flat k < a.numElems := by
  rw [h.num_eq, product_eq, ← prod_perm_range n a.extents h.ext_len a.storage.ordering h.order.1]
  apply mixed_lt
  intro d hd
  exact digit_lt _ _ _ _ (hk d (h.order.mem_lt d hd))

theorem ARef.WF.flat_inj {n : Nat} {a : ARef} (h : a.WF n) (k k' : Nat → Nat)
    (hk : ∀ d, d < n → k d < a.extents.getD d 0) (hk' : ∀ d, d < n → k' d < a.extents.getD d 0)
    (heq : a.flat k = a.flat k') : ∀ d, d < n → k d = k' d := by
  have := mixed_inj a.extents _ _ a.storage.ordering
    (fun d hd => digit_lt a.storage.ascending a.extents k d (hk d (h.order.mem_lt d hd)))
    (fun d hd => digit_lt a.storage.ascending a.extents k' d (hk' d (h.order.mem_lt d hd))) heq
  intro d hd
  have h1 := this d ((h.order.mem_iff d).mpr hd)
  have h2 := hk d hd
  have h3 := hk' d hd
  unfold digit at h1
  split at h1 <;> omega

theorem ARef.WF.flat_surj {n : Nat} {a : ARef} (h : a.WF n) (v : Nat) (hv : v < a.numElems) :
    ∃ k : Nat → Nat, (∀ d, d < n → k d < a.extents.getD d 0) ∧ a.flat k = v := by
  rw [h.num_eq, product_eq, ← prod_perm_range n a.extents h.ext_len a.storage.ordering h.order.1] at hv
  obtain ⟨h1, h2⟩ := mixed_digitsOf a.extents a.storage.ordering h.order.nodup v hv
  refine ⟨digit a.storage.ascending a.extents (digitsOf a.extents a.storage.ordering v), ?_, ?_⟩
  · intro d hd
    exact digit_lt _ _ _ _ (h2 d ((h.order.mem_iff d).mpr hd))
  · rw [ARef.flat, ← h1]
    rw [h1]
    conv => rhs; rw [← h1]
    apply mixed_congr
    intro d hd
    have := h2 d hd
    unfold digit
    split
    · rfl
    · omega

end MultiArray
