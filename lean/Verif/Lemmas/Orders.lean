import Verif.Lemmas.Access

/- The C and Fortran storage orders, and enumeration of index tuples. -/
set_option autoImplicit false

namespace MultiArray
open Spec

theorem rev_range (n : Nat) : (List.range n).map (fun i => n - 1 - i) = (List.range n).reverse := by
  apply List.ext_getElem
  · simp
  · intro i h1 h2
    simp at h1 ⊢

theorem cOrder_valid (n : Nat) : ValidOrder n (StorageOrder.cOrder n) := by
  constructor
  · simp only [StorageOrder.cOrder, rev_range]
    exact List.reverse_perm _
  · simp [StorageOrder.cOrder]

theorem fortranOrder_valid (n : Nat) : ValidOrder n (StorageOrder.fortranOrder n) := by
  constructor
  · simp [StorageOrder.fortranOrder]
  · simp [StorageOrder.fortranOrder]

theorem mixed_append (exts : List Nat) (dig : Nat → Nat) (l1 l2 : List Nat) :
    mixed exts dig (l1 ++ l2) =
      mixed exts dig l1 + (l1.map (fun d => exts.getD d 0)).prod * mixed exts dig l2 := by
  induction l1 with
  | nil => simp [mixed]
  | cons d ds ih =>
    simp only [List.cons_append, mixed, ih, List.map_cons, List.prod_cons]; ring

theorem mixed_shift (e : Nat) (exts : List Nat) (dig : Nat → Nat) (l : List Nat) :
    mixed (e :: exts) dig (l.map (· + 1)) = mixed exts (fun d => dig (d + 1)) l := by
  induction l with
  | nil => rfl
  | cons d ds ih => simp only [List.map_cons, mixed, ih, List.getD_cons_succ]

theorem map_getD_range (exts : List Nat) : (List.range exts.length).map (fun d => exts.getD d 0) = exts := by
  apply List.ext_getElem
  · simp
  · intro i h1 h2
    simp [List.getD_eq_getElem?_getD, h2]

theorem mixed_rowMajor (exts k : List Nat) (h : k.length = exts.length) :
    mixed exts (fun d => k.getD d 0) (List.range exts.length).reverse = rowMajor exts k := by
  induction exts generalizing k with
  | nil => match k, h with | [], _ => rfl
  | cons e es ih => match k, h with
    | x :: ks, h =>
      rw [List.length_cons, List.range_succ_eq_map, List.reverse_cons, mixed_append]
      rw [show (List.map Nat.succ (List.range es.length)).reverse = ((List.range es.length).reverse).map (· + 1) by
        rw [List.map_reverse]]
      rw [mixed_shift]
      simp only [List.getD_cons_succ, mixed, List.getD_cons_zero, Nat.mul_zero, Nat.add_zero, rowMajor]
      rw [ih ks (by simpa using h), List.map_map]
      have : ((List.range es.length).reverse.map ((fun d => (e :: es).getD d 0) ∘ (· + 1))).prod = es.prod := by
        rw [List.map_reverse, List.prod_reverse]
        congr 1
        conv => rhs; rw [← map_getD_range es]
        apply List.map_congr_left
        intro d _
        simp
      rw [this]; ring

theorem mixed_colMajor (exts k : List Nat) (h : k.length = exts.length) :
    mixed exts (fun d => k.getD d 0) (List.range exts.length) = colMajor exts k := by
  induction exts generalizing k with
  | nil => match k, h with | [], _ => rfl
  | cons e es ih => match k, h with
    | x :: ks, h =>
      rw [List.length_cons, List.range_succ_eq_map]
      simp only [mixed, List.getD_cons_zero, colMajor]
      rw [show List.map Nat.succ (List.range es.length) = (List.range es.length).map (· + 1) from rfl, mixed_shift]
      simp only [List.getD_cons_succ]
      rw [ih ks (by simpa using h)]

theorem digit_replicate_true (n : Nat) (exts : List Nat) (k : Nat → Nat) (d : Nat) :
    digit (List.replicate n true) exts k d = k d := by
  have : (List.replicate n true).getD d true = true := by
    rw [List.getD_eq_getElem?_getD, List.getElem?_replicate]
    split <;> rfl
  simp only [digit, this, if_true]

/-! ### Enumeration -/

theorem mem_allIdx (bs : List Int) (es : List Nat) (idx : List Int) : idx ∈ allIdx bs es ↔ InBox bs es idx := by
  induction bs generalizing es idx with
  | nil =>
    cases es with
    | nil => cases idx <;> simp [allIdx, InBox]
    | cons e es => simp [allIdx, InBox]
  | cons b bs ih =>
    cases es with
    | nil => simp [allIdx, InBox]
    | cons e es =>
      simp only [allIdx, List.mem_flatMap, List.mem_range, List.mem_map]
      constructor
      · rintro ⟨k, hk, is, his, rfl⟩
        exact ⟨by omega, by omega, (ih es is).mp his⟩
      · intro h
        match idx, h with
        | i :: is, h =>
          obtain ⟨h1, h2, h3⟩ := h
          exact ⟨(i - b).toNat, by omega, is, (ih es is).mpr h3, by congr 1; omega⟩

theorem allIdx_length (bs : List Int) (es : List Nat) (h : bs.length = es.length) :
    (allIdx bs es).length = es.prod := by
  induction bs generalizing es with
  | nil => match es, h with | [], _ => rfl
  | cons b bs ih => match es, h with
    | e :: es, h =>
      simp only [allIdx, List.length_flatMap, List.length_map, ih es (by simpa using h), List.prod_cons]
      simp

theorem allIdx_nodup (bs : List Int) (es : List Nat) : (allIdx bs es).Nodup := by
  induction bs generalizing es with
  | nil => cases es <;> simp [allIdx]
  | cons b bs ih => cases es with
    | nil => simp [allIdx]
    | cons e es =>
      simp only [allIdx]
      rw [List.nodup_flatMap]
      constructor
      · intro k _
        exact List.Nodup.map (fun x y h => by simpa using h) (ih es)
      · apply List.Pairwise.imp _ List.pairwise_lt_range
        intro x y hxy
        simp only [Function.onFun, List.disjoint_left, List.mem_map]
        rintro _ ⟨is, _, rfl⟩ ⟨is', _, h⟩
        simp at h
        omega

end MultiArray

namespace MultiArray
open Spec

/-- Strides along the ordering are running products. -/
theorem csLoop_strides (asc : List Bool) (exts : List Nat) (n : Nat) (ha : asc.length = n) (he : exts.length = n)
    (ord : List Nat) (stride : Int) (sl sl' : List Int) (hsl : sl.length = n)
    (hord : ∀ d ∈ ord, d < n) (hnd : ord.Nodup)
    (hok : computeStridesLoop asc exts ord stride sl = .ok sl') (m d : Nat) (hm : ord[m]? = some d) :
    sl'.getD d 0 = stride * ((ord.take m).map (fun d => (exts.getD d 0 : Int))).prod *
      (if asc.getD d true then 1 else -1) := by
  induction ord generalizing stride sl m with
  | nil => simp at hm
  | cons x xs ih =>
    have hdn := hord x (by simp)
    have h1 : Res.get asc x = .ok asc[x] := by simp [Res.get, ha, hdn]
    have h2 : Res.get exts x = .ok exts[x] := by simp [Res.get, he, hdn]
    simp only [computeStridesLoop, h1, h2, Res.bind_ok, hsl, hdn, if_true] at hok
    have hnd' := List.nodup_cons.mp hnd
    have hea : exts.getD x 0 = exts[x] := by simp [List.getD_eq_getElem?_getD, he, hdn]
    have haa : asc.getD x true = asc[x] := by simp [List.getD_eq_getElem?_getD, ha, hdn]
    cases m with
    | zero =>
      simp only [List.getElem?_cons_zero, Option.some.injEq] at hm
      subst hm
      obtain ⟨sl'', hok'', hlen'', hkeep⟩ := csLoop_ok asc exts n ha he xs (stride * (exts[x] : Int))
        (sl.set x (stride * (if asc[x] then 1 else -1))) (by simpa using hsl) (fun d' hd' => hord d' (by simp [hd']))
      rw [hok] at hok''
      cases hok''
      rw [hkeep x hnd'.1, haa]
      simp [List.getD_eq_getElem?_getD, hsl, hdn]
    | succ m =>
      have := ih (stride * (exts[x] : Int)) _ (by simpa using hsl) (fun d' hd' => hord d' (by simp [hd'])) hnd'.2 hok m
        (by simpa using hm)
      rw [this, List.take_succ_cons, List.map_cons, List.prod_cons, hea]
      ring

theorem ARef.WF.stride_at {n : Nat} {a : ARef} (h : a.WF n) (m d : Nat) (hm : a.storage.ordering[m]? = some d) :
    a.strides.getD d 0 = ((a.storage.ordering.take m).map (fun d => (a.extents.getD d 0 : Int))).prod *
      (if a.storage.ascending.getD d true then 1 else -1) := by
  have := csLoop_strides a.storage.ascending a.extents n h.order.2 h.ext_len a.storage.ordering 1 _ _ (by simp)
    h.order.mem_lt h.order.nodup h.strides_eq m d hm
  rw [this, Int.one_mul]

end MultiArray
