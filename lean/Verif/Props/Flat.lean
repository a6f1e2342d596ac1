import Verif.Lemmas.Flat
import Verif.Props.Copy

/- Property theorems C64 (element-wise operations are flat loops; interrupted operations) and C65 (overlapping copies). -/
set_option autoImplicit false

namespace MultiArray.Props
open MultiArray MultiArray.Spec
variable {T : Type}

/-! ### C64 -/

/-- **C64.** What `positions` lists: every position of the shape, exactly once, in lexicographic order (entry number `i` has row-major rank `i`). -/
theorem C64_positions (es : List Nat) :
    (∀ k, k ∈ positions es ↔ InShape es k) ∧ (positions es).map (rowMajor es) = List.range es.prod := by
  rw [positions_eq]
  exact ⟨fun k => mem_allPos es k, allPos_rank es⟩

/-- **C64.** `dst = src` and `copy_array(src, dst)` on arrays, subarrays or views of equal shape are the flat loop over all positions in lexicographic order -
in every memory state, for every pattern of exceptions, overlapping or not, with or without assertions. -/
theorem C64_copy_is_flat_loop {n1 n2 : Nat} {r1 r2 : ARef} (h1 : Reachable n1 r1) (h2 : Reachable n2 r2)
    {dst src : Desc} (hd : Handle r1 dst) (hs : Handle r2 src) (he : src.extents = dst.extents) (dbg : Bool) (s : St T) :
    assignOp dbg false dst src s = flatCopy dst src (positions dst.extents) s ∧
      copyArray dbg src dst s = flatCopy dst src (positions dst.extents) s := by
  have w1 := handle_wellShaped h1 hd
  have w2 := handle_wellShaped h2 hs
  have e1 : assignOp dbg false dst src s = flatCopy dst src (positions dst.extents) s := by
    show assignRef dbg dst.extents.length dst src s = _
    rw [assignRef_eq dbg dst src w1 w2 he, copyPairs_positions src dst w2 w1 he]
  exact ⟨e1, by rw [C36_copy_array_eq_assignment h1 h2 hd hs he, e1]⟩

/-- **C64.** `for_each(a, f)` is the flat loop over all positions in lexicographic order, for every functor: it may have state, read and write memory, throw. -/
theorem C64_for_each_is_flat_loop {n : Nat} {root : ARef} (hr : Reachable n root) {d : Desc} (h : Handle root d) (dbg : Bool) {σ : Type}
    (f : σ → T → Exec T (T × σ)) (q : σ) (s : St T) :
    forEachX dbg f d.extents.length d q s = flatForEach f d (positions d.extents) q s := by
  have hw := handle_wellShaped hr h
  rw [forEachX_eq dbg f d hw, flatForEach_eq, positions_eq, addrs_eq_map d hw]
  rfl

/-- **C64.** An interrupted `for_each`: let `xs` be the elements by row-major rank and `ys` the results of the calls before the first one that throws (all
calls, if none does).  Then the elements of rank below `ys.length` hold their results, all later elements and all other memory are
unchanged, and the exception propagates (if there is one; otherwise `for_each` returns normally). -/
theorem C64_interrupted_for_each {n : Nat} {root : ARef} (hr : Reachable n root) {d : Desc} (h : Handle root d) (dbg : Bool) {σ : Type}
    (f : σ → T → Option (T × σ)) (q : σ) (s : St T) (hl : Live s root) (hsched : s.sched = []) (xs : List T) (hlen : xs.length = d.extents.prod)
    (hxs : ∀ k, InShape d.extents k → elemAt s d k = xs[rowMajor d.extents k]?) :
    ∃ s', forEachX dbg (throwing f) d.extents.length d q s =
        (match (applyUntil f q xs).2 with
          | some q' => Out.ok q' s'
          | none => Out.throw s') ∧
      (∀ k, InShape d.extents k →
        (rowMajor d.extents k < (applyUntil f q xs).1.length → elemAt s' d k = (applyUntil f q xs).1[rowMajor d.extents k]?) ∧
        ((applyUntil f q xs).1.length ≤ rowMajor d.extents k → elemAt s' d k = elemAt s d k)) ∧
      (∀ p, Outside d p → s'.cell? p = s.cell? p) ∧ SameStorage s s' := by
  have hw := handle_wellShaped hr h
  have haddr : ∀ (i : Nat) p, (addrs d)[i]? = some p → ∃ k, InShape d.extents k ∧ i = rowMajor d.extents k ∧ p = address d (atPos d.bases k) := by
    intro i p hi
    rw [addrs_eq_map d hw, List.getElem?_map] at hi
    obtain ⟨k, hk, rfl⟩ := Option.map_eq_some_iff.mp hi
    obtain ⟨h1, h2⟩ := allPos_getElem? _ _ _ hk
    exact ⟨k, h1, h2.symm, rfl⟩
  have hget : ∀ k, InShape d.extents k → (addrs d)[rowMajor d.extents k]? = some (address d (atPos d.bases k)) := by
    intro k hk
    rw [addrs_eq_map d hw, List.getElem?_map, allPos_rank_get _ _ hk]; rfl
  obtain ⟨s', e1, e2, e3, e4, e5, _⟩ := mapXSeq_throwing f (addrs d) xs q s (by rw [addrs_length d hw, hlen])
    (by
      intro i p v hp hv
      obtain ⟨k, hk, rfl, rfl⟩ := haddr i p hp
      have := hxs k hk
      rw [hv] at this
      exact this) (addrs_nodup hr.wf h) hsched
  refine ⟨s', by rw [forEachX_eq dbg _ d hw]; exact e1, ?_, ?_, e5.sameStorage⟩
  · intro k hk
    exact ⟨fun hlt => e2 _ _ (hget k hk) hlt, fun hle => e3 _ _ (hget k hk) hle⟩
  · intro p hp
    exact e4 p ((outside_iff d p).mp hp)

/-- Non-vacuity: on the three-element array 10,20,30, a functor that throws on 30 leaves 11,21,30. -/
example : ∃ s', forEachX true (throwing (fun (q x : Nat) => if x = 30 then none else some (x + 1, q + 1))) 1 ovArr.desc 0 ovSt = .throw s' ∧
    (List.range 3).map (fun k => elemAt s' ovArr.desc [k]) = [some 11, some 21, some 30] := ⟨_, rfl, rfl⟩

/-- **C64.** An interrupted `copy_array`: if the element assignment of rank `m` throws, the exception propagates; elements of lower rank have the source's
values, the one being assigned has what its assignment operator left, everything else is unchanged. -/
theorem C64_interrupted_copy_array {n1 n2 : Nat} {r1 r2 : ARef} (h1 : Reachable n1 r1) (h2 : Reachable n2 r2)
    {dst src : Desc} (hd : Handle r1 dst) (hs : Handle r2 src) (he : src.extents = dst.extents) (s : St T)
    (l1 : Live s r1) (l2 : Live s r2) (hno : NoOverlap dst src) (dbg : Bool) (m : Nat) (hm : m < dst.extents.prod)
    (junk : T) (rest : List (Option T)) (hsched : s.sched = List.replicate m none ++ some junk :: rest) :
    ∃ s', copyArray dbg src dst s = .throw s' ∧
      (∀ k, InShape dst.extents k →
        (rowMajor dst.extents k < m → elemAt s' dst k = elemAt s src k) ∧
        (rowMajor dst.extents k = m → elemAt s' dst k = some junk) ∧
        (m < rowMajor dst.extents k → elemAt s' dst k = elemAt s dst k)) ∧
      (∀ p, Outside dst p → s'.cell? p = s.cell? p) ∧ SameStorage s s' := by
  rw [C36_copy_array_eq_assignment h1 h2 hd hs he]
  exact C49_interrupted_assignment h1 h2 hd hs he s l1 l2 hno dbg m hm junk rest hsched

private theorem assignLoop_throw (input : List T) (count : Nat) (p : Ptr) (s : St T) (m : Nat) (junk : T) (rest : List (Option T))
    (hl : ∀ k : Nat, k < count → ∃ v, s.get? (p.add (k : Int)) = some v) (hm1 : m < count) (hm2 : m < input.length)
    (hsched : s.sched = List.replicate m none ++ some junk :: rest) :
    ∃ s', assignLoop count p input s = .throw s' ∧
      (∀ k : Nat, k < m → s'.get? (p.add (k : Int)) = input[k]?) ∧ s'.get? (p.add (m : Int)) = some junk ∧
      (∀ q, (∀ k : Nat, k ≤ m → q ≠ p.add (k : Int)) → s'.cell? q = s.cell? q) ∧ SameBlocks s s' := by
  induction m generalizing input count p s with
  | zero =>
    match count, input, hm1, hm2 with
    | n + 1, v :: vs, _, _ =>
      obtain ⟨old, ho⟩ := hl 0 (by omega)
      simp only [Nat.cast_zero, Ptr.add_zero] at ho
      obtain ⟨s1, h1, h2, h3, h4⟩ := assignCell_throw ho v junk (by simpa using hsched)
      refine ⟨s1, ?_, by simp, ?_, ?_, h3⟩
      · simp only [assignLoop]
        rw [Exec.bind_throw h1]
      · simp only [Nat.cast_zero, Ptr.add_zero]
        rw [St.get?_eq_some, h2, if_pos rfl]
      · intro q hq
        have := hq 0 (by omega)
        simp only [Nat.cast_zero, Ptr.add_zero] at this
        rw [h2, if_neg this]
  | succ m ih =>
    match count, input, hm1, hm2 with
    | n + 1, v :: vs, hm1, hm2 =>
      obtain ⟨old, ho⟩ := hl 0 (by omega)
      simp only [Nat.cast_zero, Ptr.add_zero] at ho
      obtain ⟨s1, h1, h2, h3, h4⟩ := assignCell_ok ho v (.inr ⟨List.replicate m none ++ some junk :: rest, by rw [hsched]; rfl⟩)
      have hne : ∀ k : Nat, (p.add 1).add (k : Int) ≠ p := by
        intro k; rw [Ptr.add_add]; intro he
        have he' : p.add (1 + (k : Int)) = p.add 0 := by rw [he, Ptr.add_zero]
        rw [Ptr.add_inj] at he'; omega
      have hadd : ∀ k : Nat, (p.add 1).add (k : Int) = p.add ((k + 1 : Nat) : Int) := by
        intro k; rw [Ptr.add_add]; congr 1; push_cast; ring
      obtain ⟨s', e1, e2, e3, e4, e5⟩ := ih vs n (p.add 1) s1
        (fun k hk => by
          obtain ⟨x, hx⟩ := hl (k + 1) (by omega)
          refine ⟨x, ?_⟩
          rw [St.get?_eq_some, h2, if_neg (hne k), hadd]
          exact St.get?_eq_some.mp hx)
        (by omega) (by simpa using hm2) (by rw [h4, hsched]; rfl)
      refine ⟨s', ?_, ?_, ?_, ?_, h3.trans e5⟩
      · simp only [assignLoop]
        rw [Exec.bind_ok h1, e1]
      · intro k hk
        cases k with
        | zero =>
          simp only [Nat.cast_zero, Ptr.add_zero, List.getElem?_cons_zero]
          rw [St.get?_eq_some, e4 p (fun k _ => (hne k).symm), h2, if_pos rfl]
        | succ k =>
          rw [← hadd, e2 k (by omega)]; rfl
      · rw [← hadd, e3]
      · intro q hq
        rw [e4 q, h2, if_neg]
        · have := hq 0 (by omega)
          simpa using this
        · intro k hk
          rw [hadd]; exact hq (k + 1) (by omega)

/-- **C64.** An interrupted `assign(first,last)`: if storing the input value number `m` throws, `data()[0..m)` hold the first `m` input values, `data()[m]` what its
assignment operator left, and everything else is unchanged. -/
theorem C64_interrupted_assign {n : Nat} {a : ARef} (_ha : Reachable n a) (input : List T) (s : St T)
    (hl : Live s a) (m : Nat) (hm : m < min input.length a.numElements) (junk : T) (rest : List (Option T))
    (hsched : s.sched = List.replicate m none ++ some junk :: rest) :
    ∃ s', a.assign input s = .throw s' ∧
      (∀ k : Nat, k < m → s'.get? (a.data.add (k : Int)) = input[k]?) ∧ s'.get? (a.data.add (m : Int)) = some junk ∧
      (∀ q, (∀ k : Nat, k ≤ m → q ≠ a.data.add (k : Int)) → s'.cell? q = s.cell? q) ∧ SameStorage s s' := by
  obtain ⟨s', e1, e2, e3, e4, e5⟩ := assignLoop_throw input a.numElems a.base s m junk rest hl (lt_of_lt_of_le hm (min_le_right _ _))
    (lt_of_lt_of_le hm (min_le_left _ _)) hsched
  exact ⟨s', e1, e2, e3, e4, e5.sameStorage⟩

/-- Non-vacuity: the second store throws; 10,20,30 becomes 1,99,30. -/
example : ∃ s', ovArr.assign [1, 2, 3] { ovSt with sched := [none, some 99] } = .throw s' ∧
    (List.range 3).map (fun k => elemAt s' ovArr.desc [k]) = [some 1, some 99, some 30] := ⟨_, rfl, rfl⟩

/-! ### C65 -/

/-- **C65.** `dst = src` copies correctly even when the two overlap, provided no element is written at a position of lower rank than the one at which it is read: every
destination element ends with the *original* value of the source element at its position; elements outside the destination are unchanged. -/
theorem C65_ordered_overlap {n1 n2 : Nat} {r1 r2 : ARef} (h1 : Reachable n1 r1) (h2 : Reachable n2 r2)
    {dst src : Desc} (hd : Handle r1 dst) (hs : Handle r2 src) (he : src.extents = dst.extents) (s : St T)
    (l1 : Live s r1) (l2 : Live s r2) (hsched : s.sched = []) (dbg : Bool)
    (hsafe : ∀ j k, InShape dst.extents j → InShape dst.extents k → rowMajor dst.extents j < rowMajor dst.extents k →
      posAddr dst j ≠ posAddr src k) :
    ∃ s', assignOp dbg false dst src s = .ok () s' ∧ (∀ k, InShape dst.extents k → elemAt s' dst k = elemAt s src k) ∧
      (∀ p, Outside dst p → s'.cell? p = s.cell? p) ∧ SameStorage s s' := by
  have hc := copySetup h1 h2 hd hs he l1 l2
  obtain ⟨s', e1, e2, e3, e4, _⟩ := copy_fwd hc hsafe (by rw [hsched]; exact NoThrow.nil _)
  refine ⟨s', ?_, e2, e3, e4.sameStorage⟩
  show assignRef dbg dst.extents.length dst src s = _
  rw [assignRef_eq dbg dst src (handle_wellShaped h1 hd) (handle_wellShaped h2 hs) he, e1]

/-- **C65.** What assignment does when destination and source overlap in any way: a destination element gets the original value of
the source element at its position, unless that source element is itself a destination element of lower rank; then it gets what
that one got.  (Ranks decrease, so this determines every destination element.) -/
theorem C65_overlap_semantics {n1 n2 : Nat} {r1 r2 : ARef} (h1 : Reachable n1 r1) (h2 : Reachable n2 r2)
    {dst src : Desc} (hd : Handle r1 dst) (hs : Handle r2 src) (he : src.extents = dst.extents) (s : St T)
    (l1 : Live s r1) (l2 : Live s r2) (hsched : s.sched = []) (dbg : Bool) :
    ∃ s', assignOp dbg false dst src s = .ok () s' ∧ copyArray dbg src dst s = .ok () s' ∧
      (∀ k, InShape dst.extents k →
        (∀ j, InShape dst.extents j → rowMajor dst.extents j < rowMajor dst.extents k → posAddr dst j ≠ posAddr src k) →
        elemAt s' dst k = elemAt s src k) ∧
      (∀ j k, InShape dst.extents j → InShape dst.extents k → rowMajor dst.extents j < rowMajor dst.extents k →
        posAddr dst j = posAddr src k → elemAt s' dst k = elemAt s' dst j) ∧
      (∀ p, Outside dst p → s'.cell? p = s.cell? p) ∧ SameStorage s s' := by
  have hc := copySetup h1 h2 hd hs he l1 l2
  obtain ⟨s', e1, e2, e3, e4, e5⟩ := copy_overlap hc (by rw [hsched]; exact NoThrow.nil _)
  have ha : assignOp dbg false dst src s = .ok () s' := by
    show assignRef dbg dst.extents.length dst src s = _
    rw [assignRef_eq dbg dst src (handle_wellShaped h1 hd) (handle_wellShaped h2 hs) he, e1]
  exact ⟨s', ha, by rw [C36_copy_array_eq_assignment h1 h2 hd hs he, ha], e2, e3, e4, e5.sameStorage⟩

/-- **C65.** The condition of `C65_ordered_overlap` is necessary: if the elements of the source have different values, the
destination ends up with the original values of the source precisely if no element is written at a lower rank than the one at
which it is read. -/
theorem C65_exact {n1 n2 : Nat} {r1 r2 : ARef} (h1 : Reachable n1 r1) (h2 : Reachable n2 r2)
    {dst src : Desc} (hd : Handle r1 dst) (hs : Handle r2 src) (he : src.extents = dst.extents) (s : St T)
    (l1 : Live s r1) (l2 : Live s r2) (hsched : s.sched = []) (dbg : Bool)
    (hdist : ∀ j k, InShape dst.extents j → InShape dst.extents k → elemAt s src j = elemAt s src k → j = k) :
    (∃ s', assignOp dbg false dst src s = .ok () s' ∧ ∀ k, InShape dst.extents k → elemAt s' dst k = elemAt s src k) ↔
    ∀ j k, InShape dst.extents j → InShape dst.extents k → rowMajor dst.extents j < rowMajor dst.extents k →
      posAddr dst j ≠ posAddr src k := by
  constructor
  · rintro ⟨s', hok, hval⟩ j k hj hk hlt hhit
    obtain ⟨s'', hok', _, _, e3, _⟩ := C65_overlap_semantics h1 h2 hd hs he s l1 l2 hsched dbg
    rw [hok] at hok'
    cases hok'
    have := e3 j k hj hk hlt hhit
    rw [hval j hj, hval k hk] at this
    rw [hdist k j hk hj this] at hlt
    omega
  · intro hsafe
    obtain ⟨s', a, b, _⟩ := C65_ordered_overlap h1 h2 hd hs he s l1 l2 hsched dbg hsafe
    exact ⟨s', a, b⟩

/-- Non-vacuity: `a[indices[range(1,4)]] = a[indices[range(0,3)]]` on 10,20,30,... moves backwards and smears the first value. -/
example : ∃ dst src s', ovArr.slice true ⟨1, 1, [IndexRange.mk3 1 3]⟩ = .ok dst ∧ ovArr.slice true ⟨1, 1, [IndexRange.mk3 0 2]⟩ = .ok src ∧
    Handle ovArr dst.desc ∧ Handle ovArr src.desc ∧
    posAddr dst.desc [0] = posAddr src.desc [1] ∧ rowMajor dst.extents [0] < rowMajor dst.extents [1] ∧
    assignOp true false dst.desc src.desc ovSt = .ok () s' ∧
    (List.range 3).map (fun k => elemAt s' ovArr.desc [k]) = [some 10, some 10, some 10] :=
  ⟨_, _, _, rfl, rfl, handle_view (Reachable.ofExtents (n := 1) (p := ⟨1, 0⟩) (exts := [3]) (so := StorageOrder.cOrder 1) (by decide) rfl : Reachable 1 ovArr).wf (g := ⟨1, 1, [IndexRange.mk3 1 3]⟩) .array (by decide) (.range (r := IndexRange.mk3 1 3) .empty rfl) rfl rfl .refl,
    handle_view (Reachable.ofExtents (n := 1) (p := ⟨1, 0⟩) (exts := [3]) (so := StorageOrder.cOrder 1) (by decide) rfl : Reachable 1 ovArr).wf (g := ⟨1, 1, [IndexRange.mk3 0 2]⟩) .array (by decide) (.range (r := IndexRange.mk3 0 2) .empty rfl) rfl rfl .refl,
    by decide, by decide, rfl, rfl⟩

/-- **C65.** Moving a window of an array (subarray, view) over another window of the same array works when the source window is ahead of the destination window
(`MovesToFront`) - in any dimension, with any strides, also backwards through reversed ranges: afterwards the destination
window holds the original contents of the source window, and elements outside the destination window are unchanged. -/
theorem C65_move_window {n : Nat} {root : ARef} (hr : Reachable n root) {d : Desc} (h : Handle root d)
    {g1 g2 : IndexGen} (hb1 : Built g1) (hb2 : Built g2)
    (hlen1 : g1.ranges.length = d.extents.length) (hlen2 : g2.ranges.length = d.extents.length)
    {dst src : View} (hno1 : StaysInside d g1 dst) (hno2 : StaysInside d g2 src) (hv1 : generateArrayView true g1 d = .ok dst) (hv2 : generateArrayView true g2 d = .ok src)
    (he : src.extents = dst.extents) (hm : MovesToFront g1.ranges g2.ranges d.bases)
    (s : St T) (hl : Live s root) (hsched : s.sched = []) (dbg : Bool) :
    ∃ s', assignOp dbg false dst.desc src.desc s = .ok () s' ∧
      (∀ k, InShape dst.extents k → elemAt s' dst.desc k = elemAt s src.desc k) ∧
      (∀ p, Outside dst.desc p → s'.cell? p = s.cell? p) ∧ SameStorage s s' := by
  have hw := handle_wellShaped hr h
  have hd1 : Handle root dst.desc := .view h hno1 hb1 hlen1 hv1 .refl
  have hd2 : Handle root src.desc := .view h hno2 hb2 hlen2 hv2 .refl
  apply C65_ordered_overlap hr hr hd1 hd2 he s hl hl hsched dbg
  intro j k hj hk hjk heq
  change InShape dst.extents j at hj
  change InShape dst.extents k at hk
  change rowMajor dst.extents j < rowMajor dst.extents k at hjk
  have hk' : InShape src.extents k := by rw [he]; exact hk
  rw [posAddr_view hw hlen1 hv1 .refl j hj, posAddr_view hw hlen2 hv2 .refl k hk'] at heq
  obtain ⟨hleg1, hn1, _⟩ := genView_ok hw hlen1 hv1
  obtain ⟨hleg2, hn2, _⟩ := genView_ok hw hlen2 hv2
  have hin1 := view_selected_inBox hr h hlen1 hno1 hv1 j hj
  have hin2 := view_selected_inBox hr h hlen2 hno2 hv2 k hk'
  have hsel := h.address_inj hr.wf hin1 hin2 heq
  have := movesToFront_rank g1.ranges g2.ranges d.bases hm dst.extents j k (numRanged_of_view hw hlen1 hv1 .refl)
    (legal_stride_ne_zero hleg1) hj hk hsel
  omega

/-- **C65.** Erasing the first `m` rows by moving the others forward: `a[indices[range(b, b+e-m)][range()]...] = a[indices[range(b+m, b+e)][range()]...]` makes the
row at position `x` hold what the row at `x+m` held, for every `x` with `x + m < e`, and leaves the last `m` rows and all other memory unchanged. -/
theorem C65_shift_rows {n : Nat} {root : ARef} (hr : Reachable n root) {d : Desc} (h : Handle root d) (e : Nat) (es : List Nat) (b : Int) (bs : List Int)
    (hext : d.extents = e :: es) (hbas : d.bases = b :: bs) (hrep : Representable d.bases d.extents) (m : Nat) (hm : m ≤ e)
    (s : St T) (hl : Live s root) (hsched : s.sched = []) (dbg : Bool) :
    ∃ dst src, d.slice true (rowsGen es.length b (b + (e : Int) - (m : Int))) = .ok dst ∧
      d.slice true (rowsGen es.length (b + (m : Int)) (b + (e : Int))) = .ok src ∧
      ∃ s', assignOp dbg false dst.desc src.desc s = .ok () s' ∧
        (∀ x k, InShape d.extents (x :: k) → elemAt s' d (x :: k) = if x + m < e then elemAt s d ((x + m) :: k) else elemAt s d (x :: k)) ∧
        (∀ p, Outside d p → s'.cell? p = s.cell? p) ∧ SameStorage s s' := by
  have hw := handle_wellShaped hr h
  rw [hext, hbas] at hrep
  obtain ⟨hrep1, hrep2, _⟩ := hrep
  obtain ⟨g1, g2, g3, g4, g5⟩ := rows_view hw hext hbas b (b + (e : Int) - (m : Int)) (le_refl _) (by omega) (by omega) hrep1 hrep2
  obtain ⟨k1, k2, k3, k4, k5⟩ := rows_view hw hext hbas (b + (m : Int)) (b + (e : Int)) (by omega) (by omega) (by omega) hrep1 hrep2
  refine ⟨_, _, g1, k1, ?_⟩
  have hshape : (theView (rowsGen es.length b (b + (e : Int) - (m : Int))) d).extents = (e - m) :: es := by
    rw [g2]; congr 1; omega
  have hshape' : (theView (rowsGen es.length (b + (m : Int)) (b + (e : Int))) d).extents = (e - m) :: es := by
    rw [k2]; congr 1; omega
  have hstart : ∀ s f : Int, b ≤ s → s ≤ f → f ≤ b + (e : Int) → rangeStart (IndexRange.mk3 s f) b = s := by
    intro s f h1 h2 h3
    show (if s = -(2 ^ 63) then b else s) = s
    split <;> omega
  have hmoves : m ≠ 0 → MovesToFront (rowsGen es.length b (b + (e : Int) - (m : Int))).ranges (rowsGen es.length (b + (m : Int)) (b + (e : Int))).ranges d.bases := by
    intro hm0
    rw [hbas]
    refine .inr ⟨rfl, rfl, rfl, .inr ?_⟩
    rw [hstart _ _ (by omega) (by omega) (by omega), hstart _ _ (by omega) (by omega) (by omega)]
    show 0 < (b + (m : Int) - b) * 1
    omega
  have hmoves0 : m = 0 → MovesToFront (rowsGen es.length b (b + (e : Int) - (m : Int))).ranges (rowsGen es.length (b + (m : Int)) (b + (e : Int))).ranges d.bases := by
    rintro rfl
    have : rowsGen es.length (b + ((0 : Nat) : Int)) (b + (e : Int)) = rowsGen es.length b (b + (e : Int) - ((0 : Nat) : Int)) := by simp
    rw [this]
    apply movesToFront_refl
    rw [hw.2]; simp [rowsGen, hext]
  obtain ⟨s', e1, e2, e3, e4⟩ := C65_move_window hr h g3 k3 (by simp [rowsGen, hext]) (by simp [rowsGen, hext]) (staysInside_of_noOverrun hw g4 g3 (by simp [rowsGen, hext]) g1)
    (staysInside_of_noOverrun hw k4 k3 (by simp [rowsGen, hext]) k1) g1 k1 (by rw [hshape, hshape'])
    (by by_cases hm0 : m = 0; exacts [hmoves0 hm0, hmoves hm0]) s hl hsched dbg
  refine ⟨s', e1, ?_, ?_, e4⟩
  · intro x k hk
    rw [hext] at hk
    have hx : x < e := hk.1
    by_cases hxm : x + m < e
    · rw [if_pos hxm]
      have hin : InShape ((e - m) :: es) (x :: k) := ⟨by omega, hk.2⟩
      have := e2 (x :: k) (by rw [hshape]; exact hin)
      rw [elemAt_eq_posAddr, elemAt_eq_posAddr, g5 x k (by rw [hshape]; exact hin), k5 x k (by rw [hshape']; exact hin)] at this
      rw [elemAt_eq_posAddr, elemAt_eq_posAddr]
      have e5 : posAddr d (x :: k) = address d ((b + (x : Int)) :: atPos bs k) := by rw [posAddr, hbas]; rfl
      have e6 : posAddr d ((x + m) :: k) = address d ((b + (m : Int) + (x : Int)) :: atPos bs k) := by
        rw [posAddr, hbas]
        show address d ((b + ((x + m : Nat) : Int)) :: atPos bs k) = _
        congr 2
        push_cast; ring
      rw [e5, e6]
      exact this
    · rw [if_neg hxm]
      unfold elemAt St.get?
      rw [e3]
      intro i hi heq
      obtain ⟨j, hj, rfl⟩ := (inBox_iff_atPos (by
        have := (handle_view hr.wf h g4 g3 (by simp [rowsGen, hext]) g1 .refl)
        exact (handle_wellShaped hr this).2)).mp hi
      change InShape (theView (rowsGen es.length b (b + (e : Int) - (m : Int))) d).extents j at hj
      match j, hj with
      | [], hj => rw [hshape] at hj; exact hj
      | y :: j, hj =>
        have hj' := hj
        rw [hshape] at hj'
        have hy : y < e - m := hj'.1
        change address d (atPos d.bases (x :: k)) = posAddr _ (y :: j) at heq
        rw [g5 y j hj, hbas] at heq
        have hinx : InBox d.bases d.extents (atPos (b :: bs) (x :: k)) := by
          rw [hbas, hext]; exact inBox_atPos (by have := hw.2; rw [hext, hbas] at this; exact this) hk
        have hiny : InBox d.bases d.extents ((b + (y : Int)) :: atPos bs j) := by
          rw [hbas, hext]
          exact inBox_atPos (bs := b :: bs) (k := y :: j) (by have := hw.2; rw [hext, hbas] at this; exact this) ⟨by omega, hj'.2⟩
        have := h.address_inj hr.wf hinx hiny heq
        simp only [atPos, List.zipWith_cons_cons, List.cons.injEq] at this
        omega
  · intro p hp
    apply e3
    intro i hi heq
    obtain ⟨j, hj, rfl⟩ := (inBox_iff_atPos (by
        have := (handle_view hr.wf h g4 g3 (by simp [rowsGen, hext]) g1 .refl)
        exact (handle_wellShaped hr this).2)).mp hi
    change InShape (theView (rowsGen es.length b (b + (e : Int) - (m : Int))) d).extents j at hj
    match j, hj with
    | [], hj => rw [hshape] at hj; exact hj
    | y :: j, hj =>
      have hj' := hj
      rw [hshape] at hj'
      have hy : y < e - m := hj'.1
      change p = posAddr _ (y :: j) at heq
      rw [g5 y j hj] at heq
      refine hp _ ?_ heq
      rw [hbas, hext]
      exact inBox_atPos (bs := b :: bs) (k := y :: j) (by have := hw.2; rw [hext, hbas] at this; exact this) ⟨by omega, hj'.2⟩

/-- Non-vacuity: on 10,20,30 shifting by one gives 20,30,30. -/
example : ∃ dst src s', ovArr.desc.slice true (rowsGen 0 0 2) = .ok dst ∧ ovArr.desc.slice true (rowsGen 0 1 3) = .ok src ∧
    MovesToFront (rowsGen 0 0 2).ranges (rowsGen 0 1 3).ranges [0] ∧ Representable ovArr.desc.bases ovArr.desc.extents ∧
    assignOp true false dst.desc src.desc ovSt = .ok () s' ∧
    (List.range 3).map (fun k => elemAt s' ovArr.desc [k]) = [some 20, some 30, some 30] :=
  ⟨_, _, _, rfl, rfl, .inr ⟨rfl, rfl, rfl, .inr (by decide)⟩, by decide, rfl, rfl⟩

/-! ### Instances: the theorems applied to concrete cases, whose hypotheses are thereby met -/

example := C64_copy_is_flat_loop exArr2_reachable exArr_reachable .array .array rfl true exSt2
example := C64_for_each_is_flat_loop exArr_reachable .array true (fun (q x : Nat) => pure (x + q, q + 1)) 0 exSt
example := C64_interrupted_copy_array exArr2_reachable exArr_reachable .array .array rfl
  { exSt2 with sched := [none, none, some 5] } exSt2_live2 exSt2_live ex_noOverlap true 2 (by decide) 5 [] rfl
theorem ovArr_reachable : Reachable 1 ovArr :=
  .ofExtents (p := ⟨1, 0⟩) (exts := [3]) (so := StorageOrder.cOrder 1) (by decide) rfl
theorem ovSt_live : Live ovSt ovArr := by
  intro k hk
  change k < 3 at hk
  interval_cases k <;> exact ⟨_, rfl⟩
/-- The windows `[0,2)` and `[1,3)` of the array 10,20,30. -/
def ovFront : View := ⟨⟨1, 0⟩, 0, 2, [2], [1], [0]⟩
def ovBack : View := ⟨⟨1, 1⟩, 0, 2, [2], [1], [0]⟩
theorem ovFront_handle : Handle ovArr ovFront.desc :=
  handle_view ovArr_reachable.wf (g := ⟨1, 1, [IndexRange.mk3 0 2]⟩) .array (by decide) (.range (r := IndexRange.mk3 0 2) .empty rfl) rfl rfl .refl
theorem ovBack_handle : Handle ovArr ovBack.desc :=
  handle_view ovArr_reachable.wf (g := ⟨1, 1, [IndexRange.mk3 1 3]⟩) .array (by decide) (.range (r := IndexRange.mk3 1 3) .empty rfl) rfl rfl .refl
example := C65_ordered_overlap ovArr_reachable ovArr_reachable ovFront_handle ovBack_handle rfl ovSt ovSt_live ovSt_live rfl true
  (fun j k hj hk hlt he => by
    match j, k, hj, hk with
    | [j], [k], ⟨hj, _⟩, ⟨hk, _⟩ =>
      change j < 2 at hj; change k < 2 at hk
      interval_cases j <;> interval_cases k <;> revert hlt he <;> decide)
example := C65_overlap_semantics ovArr_reachable ovArr_reachable ovBack_handle ovFront_handle rfl ovSt ovSt_live ovSt_live rfl true
example := C65_move_window ovArr_reachable .array (g1 := rowsGen 0 0 2) (g2 := rowsGen 0 1 3) (dst := ovFront) (src := ovBack)
  (.range (r := IndexRange.mk3 0 2) .empty rfl) (.range (r := IndexRange.mk3 1 3) .empty rfl)
  rfl rfl
  (staysInside_of_noOverrun (handle_wellShaped ovArr_reachable .array) (by decide) (.range (r := IndexRange.mk3 0 2) .empty rfl) rfl rfl)
  (staysInside_of_noOverrun (handle_wellShaped ovArr_reachable .array) (by decide) (.range (r := IndexRange.mk3 1 3) .empty rfl) rfl rfl)
  rfl rfl rfl (.inr ⟨rfl, rfl, rfl, .inr (by decide)⟩) ovSt ovSt_live rfl true

/- end of instances -/

end MultiArray.Props
