import Verif.SpecRelease
import Verif.Lemmas.Flat
import Verif.Lemmas.Orders
import Verif.Lemmas.Special
import Verif.Lemmas.Own
import Verif.Props.Layout

/- Lemmas for C87 (behaviour without assertions outside the contract). -/
set_option autoImplicit false

namespace MultiArray
open Spec
variable {T : Type}

theorem checkIndices_false (es : List Nat) (bs is : List Int) : checkIndices false es bs is = .ok () := by
  cases es with
  | nil => rfl
  | cons e es => cases bs <;> cases is <;> rfl

theorem accessElement_false (d : Desc) (hw : WellShaped d) (idx : List Int) (hlen : idx.length = d.extents.length) :
    accessElement false idx d = .ok (address d idx) := by
  unfold accessElement
  rw [checkIndices_false, Res.bind_ok, offsetLoop_eq _ _ _ _ hlen hw.1]
  simp [address]

theorem accessChain_false (d : Desc) (hw : WellShaped d) (idx : List Int) (hlen : idx.length = d.extents.length) :
    accessChain false idx d = .ok ⟨address d idx, [], [], []⟩ := by
  obtain ⟨p, es, ss, bs⟩ := d
  obtain ⟨h1, h2⟩ := hw
  simp only at h1 h2 hlen
  induction es generalizing p ss bs idx with
  | nil =>
    match ss, bs, idx, h1, h2, hlen with
    | [], [], [], _, _, _ => simp [accessChain, address, dot]
  | cons e es ih =>
    match ss, bs, idx, h1, h2, hlen with
    | s :: ss, b' :: bs, i :: is, a, b, c =>
      simp only [accessChain, access, Res.assert_false, Res.bind_ok]
      rw [ih is _ ss bs (by simpa using c) (by simpa using a) (by simpa using b)]
      simp [address, Ptr.add_add, dot]

/-! ### Row-major formula for arbitrary integers -/

/-- Row-major strides. -/
def rowStrides : List Nat → List Int
  | [] => []
  | _ :: es => (es.prod : Int) :: rowStrides es

theorem rowStrides_length (es : List Nat) : (rowStrides es).length = es.length := by
  induction es with
  | nil => rfl
  | cons e es ih => simp [rowStrides, ih]

theorem rowStrides_get (es : List Nat) (d : Nat) (h : d < es.length) : (rowStrides es)[d]? = some (((es.drop (d + 1)).prod : Nat) : Int) := by
  induction es generalizing d with
  | nil => simp at h
  | cons e es ih =>
    cases d with
    | zero => simp [rowStrides]
    | succ d => simpa [rowStrides] using ih d (by simpa using h)

theorem dot_rowStrides (es : List Nat) (k : List Int) : dot k (rowStrides es) = signedRowMajor es k := by
  induction es generalizing k with
  | nil => cases k <;> rfl
  | cons e es ih =>
    cases k with
    | nil => rfl
    | cons x xs => simp [rowStrides, dot, signedRowMajor, ih]

theorem strides_cOrder {n : Nat} {a : ARef} (ha : Reachable n a) (hc : a.storage = StorageOrder.cOrder n) : a.strides = rowStrides a.extents := by
  have hel := ha.wf.ext_len
  apply List.ext_getElem?
  intro d
  by_cases hd : d < n
  · rw [rowStrides_get _ _ (by omega)]
    have hm : a.storage.ordering[n - 1 - d]? = some d := by
      rw [hc]
      simp only [StorageOrder.cOrder]
      rw [List.getElem?_map, List.getElem?_range (by omega)]
      simp; omega
    rw [Props.C05_stride_formula ha _ _ hm]
    have hasc : a.storage.ascending.getD d true = true := by
      rw [hc]; simp only [StorageOrder.cOrder]
      simp [List.getD_eq_getElem?_getD, List.getElem?_replicate, hd]
    rw [hasc]
    simp only [if_true, one_mul]
    congr 1
    have : (a.storage.ordering.take (n - 1 - d)).map (fun d => (a.extents.getD d 0 : Int)) =
        ((a.extents.drop (d + 1)).reverse).map (fun (x : Nat) => (x : Int)) := by
      apply List.ext_getElem
      · rw [hc]; simp [StorageOrder.cOrder, hel]; omega
      · intro i h1 h2
        have hi : i < n - 1 - d := by
          rw [List.length_map, List.length_take] at h1; omega
        simp only [List.getElem_map, List.getElem_take, List.getElem_reverse, List.getElem_drop]
        have ho : a.storage.ordering[i]? = some (n - 1 - i) := by
          rw [hc]; simp only [StorageOrder.cOrder]
          rw [List.getElem?_map, List.getElem?_range (by omega)]; rfl
        have ho' := (List.getElem?_eq_some_iff.mp ho).2
        rw [ho']
        have hlt : n - 1 - i < a.extents.length := by omega
        rw [List.getD_eq_getElem?_getD, List.getElem?_eq_getElem hlt]
        simp only [Option.getD_some, List.length_drop]
        congr 2
        omega
    rw [this, List.map_reverse, List.prod_reverse]
    generalize a.extents.drop (d + 1) = l
    induction l with
    | nil => rfl
    | cons x l ih => simp [ih]
  · rw [List.getElem?_eq_none (by rw [ha.wf.strides_len]; omega), List.getElem?_eq_none (by rw [rowStrides_length]; omega)]

theorem address_cOrder {n : Nat} {a : ARef} (ha : Reachable n a) (hc : a.storage = StorageOrder.cOrder n) (idx : List Int) (hlen : idx.length = n) :
    address a.desc idx = a.data.add (signedRowMajor a.extents (offBase idx a.bases)) := by
  have hs := strides_cOrder ha hc
  have ho : a.originOffset = - dot a.bases a.strides := by
    rw [ha.wf.origin_eq, calcOriginOffset, calcIndexingOffset_eq]
    have : a.storage.allDimsAscending = true := by
      rw [allDimsAscending_iff, hc]; simp [StorageOrder.cOrder]
    simp [calcDescOffset, this]
  have hd := dot_relPos idx a.bases a.strides (by rw [hlen, ha.wf.bases_len])
  rw [← dot_rowStrides, ← hs]
  show (a.base.add a.originOffset).add (dot idx a.strides) = a.base.add (dot (relPos idx a.bases) a.strides)
  rw [hd, ho, Ptr.add_add]
  congr 1; ring

/-! ### Assignment with different shapes -/

/-- Without assertions the destination's extents are not looked at. -/
theorem assignRefW_false_extents (elt : Ptr → Ptr → Exec T Unit) (n : Nat) (dst src : Desc) (es' : List Nat) (h1 : dst.extents.length = n)
    (h2 : es'.length = n) (hw : WellShaped dst) (hs : WellShaped src) (hn : src.extents.length = n) :
    assignRefW false elt n dst src = assignRefW false elt n { dst with extents := es' } src := by
  induction n generalizing dst src es' with
  | zero => rfl
  | succ n ih =>
    obtain ⟨p, es, ss, bs⟩ := dst
    obtain ⟨q, fs, ts, cs⟩ := src
    obtain ⟨w1, w2⟩ := hw
    obtain ⟨w3, w4⟩ := hs
    simp only at h1 w1 w2 w3 w4 hn
    match es, ss, bs, es', fs, ts, cs, h1, w1, w2, h2, hn, w3, w4 with
    | e :: es, s :: ss, b :: bs, e' :: es', f :: fs, t :: ts, c :: cs, h1, w1, w2, h2, hn, w3, w4 =>
      simp only [assignRefW, assertE, Res.assert_false, begin_cons, end_cons, Exec.lift_ok, pure_bind]
      rw [show (It.sub ⟨c + (f : Int), (⟨q, f :: fs, t :: ts, c :: cs⟩ : Desc)⟩ ⟨c, ⟨q, f :: fs, t :: ts, c :: cs⟩⟩).toNat = f
        by simp [It.sub, It.distanceTo]]
      have key : ∀ (m : Nat) (i j : Int),
          stdCopy (fun i o => do
              let s ← Exec.lift (i.deref false)
              let d ← Exec.lift (o.deref false)
              assignRefW false elt n d s) m ⟨i, ⟨q, f :: fs, t :: ts, c :: cs⟩⟩ ⟨j, ⟨p, e :: es, s :: ss, b :: bs⟩⟩ =
          stdCopy (fun i o => do
              let s ← Exec.lift (i.deref false)
              let d ← Exec.lift (o.deref false)
              assignRefW false elt n d s) m ⟨i, ⟨q, f :: fs, t :: ts, c :: cs⟩⟩ ⟨j, ⟨p, e' :: es', s :: ss, b :: bs⟩⟩ := by
        intro m
        induction m with
        | zero => intro i j; rfl
        | succ m ihm =>
          intro i j
          simp only [stdCopy, It.increment]
          rw [ihm]
          congr 1
          simp only [It.deref, access, Res.assert_false, Res.bind_ok, Exec.lift_ok, pure_bind]
          rw [ih ⟨p.add (j * s), es, ss, bs⟩ ⟨q.add (i * t), fs, ts, cs⟩ es' (by simpa using h1) (by simpa using h2)
            ⟨by simpa using w1, by simpa using w2⟩ ⟨by simpa using w3, by simpa using w4⟩ (by simpa using hn)]
      exact key f c b

theorem copyDispatchW_false_extents (elt : Ptr → Ptr → Exec T Unit) (n : Nat) (dst src : Desc) (es' : List Nat) (h1 : dst.extents.length = n)
    (h2 : es'.length = n) (hw : WellShaped dst) (hs : WellShaped src) (hn : src.extents.length = n) :
    copyDispatchW false elt n src dst = copyDispatchW false elt n src { dst with extents := es' } := by
  induction n generalizing dst src es' with
  | zero => rfl
  | succ n ih =>
    obtain ⟨p, es, ss, bs⟩ := dst
    obtain ⟨q, fs, ts, cs⟩ := src
    obtain ⟨w1, w2⟩ := hw
    obtain ⟨w3, w4⟩ := hs
    simp only at h1 w1 w2 w3 w4 hn
    match es, ss, bs, es', fs, ts, cs, h1, w1, w2, h2, hn, w3, w4 with
    | e :: es, s :: ss, b :: bs, e' :: es', f :: fs, t :: ts, c :: cs, h1, w1, w2, h2, hn, w3, w4 =>
      simp only [copyDispatchW, begin_cons, end_cons, Exec.lift_ok, pure_bind]
      rw [show (It.sub ⟨c + (f : Int), (⟨q, f :: fs, t :: ts, c :: cs⟩ : Desc)⟩ ⟨c, ⟨q, f :: fs, t :: ts, c :: cs⟩⟩).toNat = f
        by simp [It.sub, It.distanceTo]]
      have key : ∀ (m : Nat) (i j : Int),
          stdCopy (fun i o => do
              let s ← Exec.lift (i.deref false)
              let d ← Exec.lift (o.deref false)
              copyDispatchW false elt n s d) m ⟨i, ⟨q, f :: fs, t :: ts, c :: cs⟩⟩ ⟨j, ⟨p, e :: es, s :: ss, b :: bs⟩⟩ =
          stdCopy (fun i o => do
              let s ← Exec.lift (i.deref false)
              let d ← Exec.lift (o.deref false)
              copyDispatchW false elt n s d) m ⟨i, ⟨q, f :: fs, t :: ts, c :: cs⟩⟩ ⟨j, ⟨p, e' :: es', s :: ss, b :: bs⟩⟩ := by
        intro m
        induction m with
        | zero => intro i j; rfl
        | succ m ihm =>
          intro i j
          simp only [stdCopy, It.increment]
          rw [ihm]
          congr 1
          simp only [It.deref, access, Res.assert_false, Res.bind_ok, Exec.lift_ok, pure_bind]
          rw [ih ⟨p.add (j * s), es, ss, bs⟩ ⟨q.add (i * t), fs, ts, cs⟩ es' (by simpa using h1) (by simpa using h2)
            ⟨by simpa using w1, by simpa using w2⟩ ⟨by simpa using w3, by simpa using w4⟩ (by simpa using hn)]
      exact key f c b

/-- The part of a handle with the leading positions of another shape. -/
def clip (d : Desc) (es : List Nat) : Desc := { d with extents := es }

theorem clip_wellShaped {d : Desc} (hw : WellShaped d) {es : List Nat} (h : es.length = d.extents.length) : WellShaped (clip d es) := by
  refine ⟨?_, ?_⟩
  · show d.strides.length = es.length
    rw [hw.1, h]
  · show d.bases.length = es.length
    rw [hw.2, h]

theorem flatCopy_clip (dst src : Desc) (es : List Nat) (ks : List (List Nat)) :
    (flatCopy (clip dst es) src ks : Exec T Unit) = flatCopy dst src ks := by
  induction ks with
  | nil => rfl
  | cons k ks ih => simp only [flatCopy, ih]; rfl

theorem assignOp_false_flat (dst src : Desc) (hd : WellShaped dst) (hs : WellShaped src) (hn : src.extents.length = dst.extents.length) :
    (assignOp false false dst src : Exec T Unit) = flatCopy dst src (positions src.extents) ∧
      (copyArray false src dst : Exec T Unit) = flatCopy dst src (positions src.extents) ∧
      (assignOp false false dst src : Exec T Unit) = copySeq (copyPairs src (clip dst src.extents)) := by
  have hc := clip_wellShaped hd hn
  have e0 : (copySeq (copyPairs src (clip dst src.extents)) : Exec T Unit) = flatCopy dst src (positions src.extents) := by
    rw [copyPairs_positions src (clip dst src.extents) hs hc rfl, flatCopy_clip]
    rfl
  have e1 : (assignOp false false dst src : Exec T Unit) = copySeq (copyPairs src (clip dst src.extents)) := by
    have := assignRef_eq (T := T) false (clip dst src.extents) src hc hs rfl
    rw [← this]
    show assignRefW false eltCopy dst.extents.length dst src = assignRefW false eltCopy src.extents.length (clip dst src.extents) src
    rw [assignRefW_false_extents eltCopy _ dst src src.extents rfl hn hd hs hn, hn]
    rfl
  refine ⟨by rw [e1, e0], ?_, e1⟩
  have := copyDispatch_eq (T := T) false (clip dst src.extents) src hc hs rfl
  rw [← e0, ← this]
  show (do assertE false _; copyDispatchW false eltCopy src.extents.length src dst) =
    copyDispatchW false eltCopy src.extents.length src (clip dst src.extents)
  rw [copyDispatchW_false_extents eltCopy _ dst src src.extents hn.symm rfl hd hs rfl]
  simp only [assertE, Res.assert_false, Exec.lift_ok, pure_bind]
  rfl

theorem fitsIn_length {es es' : List Nat} (h : FitsIn es es') : es.length = es'.length := by
  induction es generalizing es' with
  | nil => match es', h with | [], _ => rfl
  | cons e es ih => match es', h with | e' :: es', h => simp [ih h.2]

theorem fitsIn_inBox {es es' : List Nat} (h : FitsIn es es') {bs idx : List Int} (hi : InBox bs es idx) : InBox bs es' idx := by
  induction es generalizing es' bs idx with
  | nil => match es', h, bs, idx, hi with | [], _, [], [], _ => trivial
  | cons e es ih => match es', h, bs, idx, hi with
    | e' :: es', h, b :: bs, i :: is, hi => exact ⟨hi.1, by have := hi.2.1; have := h.1; omega, ih h.2 hi.2.2⟩

theorem fitsIn_inShape {es es' : List Nat} (h : FitsIn es es') {k : List Nat} (hi : InShape es k) : InShape es' k := by
  induction es generalizing es' k with
  | nil => match es', h, k, hi with | [], _, [], _ => trivial
  | cons e es ih => match es', h, k, hi with
    | e' :: es', h, x :: xs, hi => exact ⟨by have := hi.1; have := h.1; omega, ih h.2 hi.2⟩

/-- One element copy without exceptions. -/
theorem eltCopy_cases (p q : Ptr) (s : St T) (hs : s.sched = []) (hq : (s.get? q).isSome) :
    ((s.get? p).isSome ∧ ∃ s', eltCopy p q s = .ok () s' ∧ s'.sched = [] ∧ ∀ r, (s'.get? r).isSome = (s.get? r).isSome) ∨
      ((s.get? p).isNone ∧ eltCopy p q s = .ub) := by
  obtain ⟨v, hv⟩ := Option.isSome_iff_exists.mp hq
  have hl : load q s = .ok v s := by simp [load, hv]
  have he : eltCopy p q s = assignCell p v s := by
    show Exec.bind (load q) (fun v => assignCell p v) s = _
    simp only [Exec.bind, hl]
  cases hp : s.get? p with
  | none => right; exact ⟨rfl, by rw [he]; simp [assignCell, hp]⟩
  | some w =>
    left
    obtain ⟨s', h1, h2, _, h4⟩ := assignCell_ok hp v (.inl hs)
    refine ⟨rfl, s', by rw [he, h1], by rw [h4, hs]; rfl, fun r => ?_⟩
    by_cases hr : r = p
    · subst hr
      rw [hp, St.get?, h2 r, if_pos rfl]; rfl
    · rw [St.get?, h2 r, if_neg hr]; rfl

theorem flatCopy_cases (dst src : Desc) (ks : List (List Nat)) (s : St T) (hs : s.sched = []) (hq : ∀ k ∈ ks, (s.get? (posAddr src k)).isSome) :
    ((∀ k ∈ ks, (s.get? (posAddr dst k)).isSome) → ∃ s', flatCopy dst src ks s = .ok () s') ∧
      (¬ (∀ k ∈ ks, (s.get? (posAddr dst k)).isSome) → flatCopy dst src ks s = .ub) := by
  induction ks generalizing s with
  | nil => exact ⟨fun _ => ⟨s, rfl⟩, fun h => absurd (by simp) h⟩
  | cons k ks ih =>
    have hun : flatCopy dst src (k :: ks) s = Exec.bind (eltCopy (posAddr dst k) (posAddr src k)) (fun _ => flatCopy dst src ks) s := by
      have : (flatCopy dst src (k :: ks) : Exec T Unit) = (do eltCopy (posAddr dst k) (posAddr src k); flatCopy dst src ks) := by
        simp only [flatCopy, eltCopy, bind_assoc]
      rw [this]; rfl
    rcases eltCopy_cases (posAddr dst k) (posAddr src k) s hs (hq k (by simp)) with ⟨h1, s', h2, h3, h4⟩ | ⟨h1, h2⟩
    · obtain ⟨i1, i2⟩ := ih s' h3 (fun j hj => by rw [h4]; exact hq j (by simp [hj]))
      simp only [Exec.bind, h2] at hun
      rw [hun]
      constructor
      · intro h
        exact i1 (fun j hj => by rw [h4]; exact h j (by simp [hj]))
      · intro h
        apply i2
        intro h'
        apply h
        intro j hj
        rcases List.mem_cons.mp hj with rfl | hj
        · exact h1
        · rw [← h4]; exact h' j hj
    · simp only [Exec.bind, h2] at hun
      rw [hun]
      refine ⟨fun h => ?_, fun _ => rfl⟩
      have := h k (by simp)
      rw [Option.isNone_iff_eq_none] at h1
      rw [h1] at this
      cases this

/-! ### Views -/

theorem viewStep_release (nd : Nat) (r : IndexRange) (e : Nat) (s b : Int) (acc : ViewAcc) (hs : r.stride_ ≠ 0) :
    viewStep false nd r e s b acc =
      if r.degenerate_ then .ok { acc with offset := acc.offset + rangeStart r b * s }
      else if acc.newStrides.length < nd then
        .ok ⟨acc.offset + rangeStart r b * s, acc.newStrides ++ [r.stride_ * s],
          acc.newExtents ++ [viewLen (rangeStart r b) (rangeFinish r b e) r.stride_]⟩
      else .ub := by
  unfold viewStep
  simp only [getStart_eq, getFinish_eq, hs, viewAsserts, Res.assert_false, Res.bind_ok, if_false]
  cases r.degenerate_ <;> simp

theorem viewLoop_release (nd : Nat) (rs : List IndexRange) (es : List Nat) (ss bs : List Int)
    (acc : ViewAcc) (h : ∀ r ∈ rs, r.stride_ ≠ 0) (hs : ss.length = es.length) (hb : bs.length = es.length) (hr : rs.length = es.length)
    (hn : acc.newStrides.length + numRanged rs ≤ nd) :
    viewLoop false nd rs es ss bs acc = .ok ⟨acc.offset + selOffset rs bs ss, acc.newStrides ++ selStrides rs ss,
      acc.newExtents ++ selExtents rs bs es⟩ := by
  induction es generalizing bs rs ss acc with
  | nil => match bs, rs, ss, hb, hr, hs with
    | [], [], [], _, _, _ => simp [viewLoop, selOffset, selStrides, selExtents]
  | cons e es ih => match bs, rs, ss, hb, hr, hs with
    | b :: bs, r :: rs, s :: ss, hb, hr, hs =>
      simp only [viewLoop]
      rw [viewStep_release nd r e s b acc (h r (by simp))]
      rw [numRanged_cons] at hn
      have h' : ∀ r ∈ rs, r.stride_ ≠ 0 := fun x hx => h x (by simp [hx])
      cases hd : r.degenerate_ with
      | true =>
        simp only [if_true, Res.bind_ok]
        rw [hd] at hn
        simp only [if_true] at hn
        rw [ih rs ss bs _ h' (by simpa using hs) (by simpa using hb) (by simpa using hr) (by simpa using hn)]
        simp [selOffset, selStrides, selExtents, hd, Int.add_assoc]
      | false =>
        rw [hd] at hn
        simp only [Bool.false_eq_true, if_false] at hn
        have hlt : acc.newStrides.length < nd := by omega
        simp only [hlt, if_true, Bool.false_eq_true, if_false, Res.bind_ok]
        rw [ih rs ss bs _ h' (by simpa using hs) (by simpa using hb) (by simpa using hr) (by simp; omega)]
        simp [selOffset, selStrides, selExtents, hd, Int.add_assoc]

theorem viewLoop_release_zero (nd : Nat) (rs : List IndexRange) (es : List Nat) (ss bs : List Int)
    (acc : ViewAcc) (h : ∃ r ∈ rs, r.stride_ = 0) (hs : ss.length = es.length) (hb : bs.length = es.length) (hr : rs.length = es.length) :
    viewLoop false nd rs es ss bs acc = .ub := by
  induction es generalizing bs rs ss acc with
  | nil => match rs, hr with
    | [], _ => obtain ⟨r, hr, _⟩ := h; cases hr
  | cons e es ih => match bs, rs, ss, hb, hr, hs with
    | b :: bs, r :: rs, s :: ss, hb, hr, hs =>
      simp only [viewLoop]
      by_cases h0 : r.stride_ = 0
      · have : viewStep false nd r e s b acc = .ub := by
          unfold viewStep
          simp only [h0, Res.assert_false, Res.bind_ok, if_true]
        rw [this]; rfl
      · have h' : ∃ r ∈ rs, r.stride_ = 0 := by
          obtain ⟨x, hx, hx0⟩ := h
          rcases List.mem_cons.mp hx with rfl | hx
          · exact absurd hx0 h0
          · exact ⟨x, hx, hx0⟩
        have ih' := fun acc => ih rs ss bs acc h' (by simpa using hs) (by simpa using hb) (by simpa using hr)
        rw [viewStep_release nd r e s b acc h0]
        cases r.degenerate_ with
        | true => simp only [if_true, Res.bind_ok]; exact ih' _
        | false =>
          simp only [Bool.false_eq_true, if_false]
          split
          · simp only [Res.bind_ok]; exact ih' _
          · rfl

theorem genView_release (g : IndexGen) (d : Desc) (hw : WellShaped d) (hr : g.ranges.length = d.extents.length)
    (h : ∀ r ∈ g.ranges, r.stride_ ≠ 0) (hn : numRanged g.ranges = g.numDims) :
    generateArrayView false g d = .ok (theView g d) := by
  unfold generateArrayView
  rw [viewLoop_release g.numDims g.ranges d.extents d.strides d.bases ⟨0, [], []⟩ h hw.1 hw.2 hr (by simp [hn])]
  have hl : (selStrides g.ranges d.strides).length = g.numDims := by
    rw [selStrides_length _ _ (by rw [hr, hw.1]), hn]
  simp [hl, theView]

theorem theView_wf' (g : IndexGen) (d : Desc) (hw : WellShaped d) (hr : g.ranges.length = d.extents.length) : (theView g d).WF := by
  apply mkView_wf
  rw [selStrides_length _ _ (by rw [hr, hw.1]), selExtents_length _ _ _ hr hw.2]

theorem view_address' {g : IndexGen} {d : Desc} {v' : View} (hw : WellShaped d) (hr : g.ranges.length = d.extents.length)
    (hh : ViewHistory (theView g d) v') (idx : List Int) (hidx : idx.length = v'.extents.length) :
    address v'.desc idx = address d (selected g.ranges d.bases (relPos idx v'.bases)) := by
  obtain ⟨w, h1, h2, h3, _⟩ := ViewHistory_facts hh (theView_wf' g d hw hr)
  rw [w.address idx hidx, h1, h3]
  have hlen : (relPos idx v'.bases).length = numRanged g.ranges := by
    have : v'.extents.length = numRanged g.ranges := by
      rw [h2, theView_extents, List.length_map, selExtents_length _ _ _ hr hw.2]
    simp [relPos, hidx, w.bases_len, this]
  simp only [Spec.address]
  rw [selected_dot _ _ _ _ (by rw [hw.1, hr]) (by rw [hw.2, hr]) hlen]
  simp [theView, View.mkView, Ptr.add_add]

theorem selExtents_count (rs : List IndexRange) (bs : List Int) (es : List Nat) (h1 : rs.length = es.length) (h2 : bs.length = es.length)
    (hs : ∀ r ∈ rs, r.stride_ ≠ 0) : ExtentsCount rs bs es ((selExtents rs bs es).map Int.toNat) := by
  induction rs generalizing bs es with
  | nil =>
    match es, bs, h1, h2 with
    | [], [], _, _ => simp [selExtents, ExtentsCount]
  | cons r rs ih =>
    match es, bs, h1, h2 with
    | e :: es, b :: bs, h1, h2 =>
      have ih' := ih bs es (by simpa using h1) (by simpa using h2) (fun x hx => hs x (by simp [hx]))
      cases hd : r.degenerate_ with
      | true => simp only [selExtents, ExtentsCount, hd, if_true]; exact ih'
      | false =>
        simp only [selExtents, ExtentsCount, hd, Bool.false_eq_true, if_false, List.map_cons]
        refine ⟨fun k => ?_, ih'⟩
        rw [← viewLen_iff _ _ _ (hs r (by simp))]
        have := viewLen_nonneg (rangeStart r b) (rangeFinish r b e) r.stride_ (hs r (by simp))
        omega

/-! ### reshape -/

/-- The header left by an unchecked `reshape` addresses elements like a fresh array of the new shape over the same storage. -/
theorem reshape_release {n : Nat} {a : ARef} (ha : Reachable n a) (exts : List Nat) (hlen : exts.length = n) :
    ∃ a' b, a.reshape false exts = .ok a' ∧ Reachable n b ∧ b.desc = a'.desc ∧ b.data = a.data ∧ b.storage = a.storage ∧ b.bases = a.bases ∧
      b.extents = exts ∧ b.numElements = exts.prod ∧ a'.extents = exts ∧ a'.bases = a.bases ∧ a'.storage = a.storage ∧ a'.data = a.data ∧
      a'.numElements = a.numElements := by
  have hwf := ha.wf
  obtain ⟨ss, hss, hsl⟩ := computeStrides_ok hwf.order exts hlen a.strides hwf.strides_len
  have hcp : copyPrefix exts a.extents = .ok exts := by simp [copyPrefix, hlen, hwf.ext_len]
  have h1 : a.reshape false exts = .ok { a with extents := exts, strides := ss, originOffset := calcOriginOffset ss exts a.storage a.bases } := by
    unfold ARef.reshape
    simp [hcp, hss]
  obtain ⟨b, hb⟩ := ARef.init_succeeds (n := n) a.data a.bases (es := exts) hwf.order (by omega)
  obtain ⟨w, e1, e2, e3, e4, _⟩ := ARef.init_ok hb hwf.order hwf.bases_len
  have hof : ARef.ofShape n a.data a.storage (some a.bases) (some exts) = .ok b := by
    simp [ARef.ofShape, copyN_self hwf.bases_len, hb]
  have e4' : b.extents = exts := by rw [e4, List.take_of_length_le (by omega)]
  have hst : b.strides = ss := by
    have h2 := w.strides_eq
    rw [e4', e2, computeStrides_init_irrelevant hwf.order exts (List.replicate n 0) a.strides (by simp) hwf.strides_len, hss] at h2
    injection h2 with h2
    exact h2.symm
  refine ⟨_, b, h1, .ofShape hwf.order hof, ?_, e1, e2, e3, e4', ?_, rfl, rfl, rfl, rfl, rfl⟩
  · have ho := w.origin_eq
    rw [e4', e2, e3, hst] at ho
    simp only [ARef.desc, ARef.origin, e1, ho, e4', hst, e3]
    rfl
  · show b.numElems = exts.prod
    rw [w.num_eq, product_eq, e4']

end MultiArray
