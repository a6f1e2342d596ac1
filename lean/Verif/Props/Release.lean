import Verif.Lemmas.Release
import Verif.Props.Copy
import Verif.Props.Assign

/- Property theorems C87: what a build without assertions does outside the contract. -/
set_option autoImplicit false

namespace MultiArray.Props
open MultiArray MultiArray.Spec
variable {T : Type}

/-! ### C87 -/

/-- **C87.** Without assertions, any index tuple with the right number of entries - in range or not - denotes the place `origin + Σ index*stride`, through
`operator()` and through chained brackets, on arrays, subarrays and views. -/
theorem C87_access_unchecked {n : Nat} {root : ARef} (hr : Reachable n root) {d : Desc} (h : Handle root d) (idx : List Int)
    (hlen : idx.length = d.extents.length) :
    accessElement false idx d = .ok (address d idx) ∧ accessChain false idx d = .ok ⟨address d idx, [], [], []⟩ :=
  have hw := handle_wellShaped hr h
  ⟨accessElement_false d hw idx hlen, accessChain_false d hw idx hlen⟩

/-- **C87.** For C storage order that place is the row-major position computed with the given integers: an index that runs over the end of a row continues
in the next row. -/
theorem C87_c_order_runs_on {n : Nat} {a : ARef} (ha : Reachable n a) (hc : a.storage = StorageOrder.cOrder n) (idx : List Int)
    (hlen : idx.length = n) :
    a.paren false idx = .ok (a.data.add (signedRowMajor a.extents (offBase idx a.bases))) := by
  rw [← address_cOrder ha hc idx hlen]
  exact accessElement_false a.desc ha.wf.wellShaped idx (by rw [hlen]; exact ha.wf.ext_len.symm)

/-- **C87.** Reading and writing a `multi_array` with any index tuple in a build without assertions: either the tuple denotes an element of the array
(possibly a different one than intended) and reading and writing act on that element, or the place lies outside the array's storage and
both are undefined.  There is no third outcome. -/
theorem C87_unchecked_element {s : St T} {n : Nat} {a : MArr} (ha : Owns s n a) (idx : List Int) (hlen : idx.length = n) :
    (∃ k v, InShape a.ref.extents k ∧ a.ref.paren false idx = a.ref.paren true (atPos a.ref.bases k) ∧ elemAt s a.ref.desc k = some v ∧
        readElem false a.ref.desc idx s = .ok v s ∧
        ∀ w, writeElem false a.ref.desc idx w s = writeElem true a.ref.desc (atPos a.ref.bases k) w s) ∨
    (∃ q : Int, a.ref.paren false idx = .ok (a.ref.data.add q) ∧ (q < 0 ∨ (a.ref.numElements : Int) ≤ q) ∧
        readElem false a.ref.desc idx s = .ub ∧ ∀ w, writeElem false a.ref.desc idx w s = .ub) := by
  obtain ⟨vs, ho⟩ := ha
  have hwf := ho.reach.wf
  have hacc : accessElement false idx a.ref.desc = .ok (address a.ref.desc idx) :=
    accessElement_false _ hwf.wellShaped idx (by rw [hlen]; exact hwf.ext_len.symm)
  have hq : address a.ref.desc idx = a.ref.data.add (a.ref.originOffset + dot idx a.ref.strides) := by
    show (a.ref.base.add _).add _ = a.ref.base.add _
    rw [Ptr.add_add]; rfl
  generalize hqd : a.ref.originOffset + dot idx a.ref.strides = q at hq
  by_cases hin : 0 ≤ q ∧ q < (a.ref.numElements : Int)
  · left
    obtain ⟨i, ⟨h1, h2⟩, _⟩ := C03_every_element_addressable ho.reach true q.toNat (by omega)
    rw [Int.toNat_of_nonneg hin.1] at h2
    obtain ⟨v, hv⟩ := ho.live q.toNat (by omega)
    rw [Int.toNat_of_nonneg hin.1] at hv
    have hk : ∃ k, InShape a.ref.extents k ∧ i = atPos a.ref.bases k := by
      have := (mem_allIdx a.ref.bases a.ref.extents i).mpr h1
      rw [allIdx_eq_map _ _ (by rw [hwf.bases_len, hwf.ext_len])] at this
      obtain ⟨k, hk, rfl⟩ := List.mem_map.mp this
      exact ⟨k, (mem_allPos _ _).mp hk, rfl⟩
    obtain ⟨k, hk, rfl⟩ := hk
    have hadr : address a.ref.desc (atPos a.ref.bases k) = a.ref.data.add q := by
      have := hwf.paren_ok true h1
      rw [h2] at this
      injection this with this
      exact this.symm
    refine ⟨k, v, hk, ?_, ?_, ?_, ?_⟩
    · rw [h2, ← hq]; exact hacc
    · show s.get? (address a.ref.desc (atPos a.ref.bases k)) = some v
      rw [hadr, hv]
    · show Exec.bind (Exec.lift (accessElement false idx a.ref.desc)) load s = _
      rw [hacc, hq]
      simp [Exec.bind, Exec.lift, load, hv]
    · intro w
      show Exec.bind (Exec.lift (accessElement false idx a.ref.desc)) _ s =
        Exec.bind (Exec.lift (accessElement true (atPos a.ref.bases k) a.ref.desc)) _ s
      rw [hacc, hq, show accessElement true (atPos a.ref.bases k) a.ref.desc = .ok (a.ref.data.add q) from h2]
  · right
    have hnone : s.get? (a.ref.data.add q) = none := by
      unfold St.get? St.cell?
      have hb : (a.ref.data.add q).blk = a.ref.data.blk := rfl
      have ho' : (a.ref.data.add q).off = q := by show a.ref.data.off + q = q; rw [ho.start]; omega
      rw [hb, ho.block, ho']
      by_cases h0 : 0 ≤ q
      · have : vs.length ≤ q.toNat := by rw [ho.len]; omega
        simp [h0, List.getElem?_eq_none this]
      · simp [h0]
    refine ⟨q, by rw [← hq]; exact hacc, by omega, ?_, fun w => ?_⟩
    · show Exec.bind (Exec.lift (accessElement false idx a.ref.desc)) load s = _
      rw [hacc, hq]
      simp [Exec.bind, Exec.lift, load, hnone]
    · show Exec.bind (Exec.lift (accessElement false idx a.ref.desc)) _ s = _
      rw [hacc, hq]
      simp [Exec.bind, Exec.lift, assignCell, hnone]

/-- **C87.** Assignment and `copy_array` without assertions, for any two handles with the same number of dimensions and any shapes, in any state and with
any exceptions: one loop over the positions of the **source's** shape, in lexicographic order; the destination's extents play no role. -/
theorem C87_assign_unchecked {n1 n2 : Nat} {r1 r2 : ARef} (h1 : Reachable n1 r1) (h2 : Reachable n2 r2) {dst src : Desc} (hd : Handle r1 dst)
    (hs : Handle r2 src) (hdim : src.extents.length = dst.extents.length) (s : St T) :
    assignOp false false dst src s = flatCopy dst src (positions src.extents) s ∧
      copyArray false src dst s = flatCopy dst src (positions src.extents) s := by
  obtain ⟨e1, e2, _⟩ := assignOp_false_flat (T := T) dst src (handle_wellShaped h1 hd) (handle_wellShaped h2 hs) hdim
  exact ⟨by rw [e1], by rw [e2]⟩

/-- **C87.** If the source's shape fits inside the destination's, the unchecked assignment copies the source to the leading positions of the destination
and changes nothing else - neither the rest of the destination nor other memory. -/
theorem C87_smaller_source {n1 n2 : Nat} {r1 r2 : ARef} (h1 : Reachable n1 r1) (h2 : Reachable n2 r2) {dst src : Desc} (hd : Handle r1 dst)
    (hs : Handle r2 src) (hfit : FitsIn src.extents dst.extents) (s : St T) (l1 : Live s r1) (l2 : Live s r2) (hno : NoOverlap dst src)
    (hsched : s.sched = []) :
    ∃ s', assignOp false false dst src s = .ok () s' ∧
      (∀ k, InShape src.extents k → elemAt s' dst k = elemAt s src k) ∧
      (∀ k, InShape dst.extents k → ¬ InShape src.extents k → elemAt s' dst k = elemAt s dst k) ∧
      (∀ p, Outside dst p → s'.cell? p = s.cell? p) ∧ SameStorage s s' := by
  have w1 := handle_wellShaped h1 hd
  have w2 := handle_wellShaped h2 hs
  have hdim := fitsIn_length hfit
  obtain ⟨_, _, e3⟩ := assignOp_false_flat (T := T) dst src w1 w2 hdim
  have hbox : ∀ {i}, InBox (clip dst src.extents).bases (clip dst src.extents).extents i → InBox dst.bases dst.extents i :=
    fun hi => fitsIn_inBox hfit hi
  have hc : CopySetup s (clip dst src.extents) src := {
    wd := clip_wellShaped w1 hdim
    ws := w2
    ext := rfl
    ld := fun i hi => l1.handle h1.wf hd (hbox hi)
    ls := fun i hi => l2.handle h2.wf hs hi
    nd := by
      apply List.Nodup.map_on _ (allIdx_nodup _ _)
      intro x hx y hy hxy
      rw [mem_allIdx] at hx hy
      exact hd.address_inj h1.wf (hbox hx) (hbox hy) hxy }
  obtain ⟨s', f1, f2, f3, f4, _⟩ := copy_ok hc (fun i j hi hj => hno i j (hbox hi) hj) (by rw [hsched]; exact NoThrow.nil _)
  refine ⟨s', by rw [e3, f1], fun k hk => f2 k hk, ?_, ?_, f4.sameStorage⟩
  · intro k hk hk'
    unfold elemAt St.get?
    rw [f3]
    intro i hi heq
    have heq' : address dst (atPos dst.bases k) = address dst i := heq
    have := hd.address_inj h1.wf (inBox_atPos w1.2 hk) (hbox hi) heq'
    subst this
    apply hk'
    have hi2 : InBox dst.bases src.extents (atPos dst.bases k) := hi
    rw [← mem_allPos]
    have hm := (mem_allIdx dst.bases src.extents _).mpr hi2
    rw [allIdx_eq_map _ _ (by rw [w1.2, hdim])] at hm
    obtain ⟨j, hj, hjk⟩ := List.mem_map.mp hm
    have : j = k := by
      have a1 := ((mem_allPos _ _).mp hj).length
      have a2 := hk.length
      have hb := w1.2
      apply List.ext_getElem
      · rw [a1, a2, hdim]
      · intro m m1 m2
        have := congrArg (fun l => l[m]?) hjk
        simp only [atPos, List.getElem?_zipWith, List.getElem?_eq_getElem m1, List.getElem?_eq_getElem m2,
          List.getElem?_eq_getElem (show m < dst.bases.length by omega)] at this
        simp only [Option.some.injEq] at this
        omega
    rw [← this]; exact hj
  · intro p hp
    exact f3 p (fun i hi => hp i (hbox hi))

/-- **C87.** Assigning to a `multi_array` a source of any shape of the same dimension, without assertions and exceptions: the program stays defined
if and only if every position of the source's shape denotes some element of the destination (computed as in `C87_access_unchecked`);
otherwise the behaviour is undefined. -/
theorem C87_assign_defined_iff {s : St T} {n n2 : Nat} {a : MArr} (ha : Owns s n a) {r2 : ARef} (h2 : Reachable n2 r2) {src : Desc}
    (hs : Handle r2 src) (l2 : Live s r2) (hdim : src.extents.length = n) (hsched : s.sched = []) :
    ((∃ s', assignOp false false a.ref.desc src s = .ok () s') ↔
        ∀ k, InShape src.extents k → IsElement a.ref.desc (posAddr a.ref.desc k)) ∧
    (assignOp false false a.ref.desc src s = .ub ↔
        ∃ k, InShape src.extents k ∧ ¬ IsElement a.ref.desc (posAddr a.ref.desc k)) := by
  obtain ⟨vs, ho⟩ := ha
  have hwf := ho.reach.wf
  have w2 := handle_wellShaped h2 hs
  have hdim' : src.extents.length = a.ref.desc.extents.length := by rw [hdim]; exact hwf.ext_len.symm
  obtain ⟨e1, _, _⟩ := assignOp_false_flat (T := T) a.ref.desc src hwf.wellShaped w2 hdim'
  have hsrc : ∀ k ∈ positions src.extents, (s.get? (posAddr src k)).isSome := by
    intro k hk
    rw [positions_eq, mem_allPos] at hk
    obtain ⟨v, hv⟩ := l2.handle h2.wf hs (inBox_atPos w2.2 hk)
    show (s.get? (address src (atPos src.bases k))).isSome
    rw [hv]; rfl
  obtain ⟨c1, c2⟩ := flatCopy_cases a.ref.desc src (positions src.extents) s hsched hsrc
  have hiff : ∀ k, InShape src.extents k →
      ((s.get? (posAddr a.ref.desc k)).isSome ↔ IsElement a.ref.desc (posAddr a.ref.desc k)) := by
    intro k hk
    have hlen : (atPos a.ref.bases k).length = n := by
      rw [atPos, List.length_zipWith, hwf.bases_len, hk.length, hdim, Nat.min_self]
    have hacc : accessElement false (atPos a.ref.bases k) a.ref.desc = .ok (posAddr a.ref.desc k) :=
      accessElement_false _ hwf.wellShaped _ (by rw [hlen]; exact hwf.ext_len.symm)
    constructor
    · intro hsome
      rcases C87_unchecked_element ⟨vs, ho⟩ (atPos a.ref.bases k) hlen with ⟨j, v, h3, h4, _⟩ | ⟨q, h3, h4, h5, _⟩
      · refine ⟨j, h3, ?_⟩
        have h6 : a.ref.paren true (atPos a.ref.bases j) = .ok (posAddr a.ref.desc j) :=
          hwf.paren_ok true (inBox_atPos (by rw [hwf.bases_len, hwf.ext_len]) h3)
        rw [show a.ref.paren false (atPos a.ref.bases k) = .ok (posAddr a.ref.desc k) from hacc, h6] at h4
        injection h4
      · exfalso
        obtain ⟨v, hv⟩ := Option.isSome_iff_exists.mp hsome
        have : readElem false a.ref.desc (atPos a.ref.bases k) s = .ok v s := by
          show Exec.bind (Exec.lift (accessElement false (atPos a.ref.bases k) a.ref.desc)) load s = _
          rw [hacc]
          simp [Exec.bind, Exec.lift, load, hv]
        rw [this] at h5
        cases h5
    · rintro ⟨j, h3, h4⟩
      obtain ⟨v, hv⟩ := ho.live.handle hwf .array (inBox_atPos (by rw [hwf.wellShaped.2]) h3)
      rw [h4]
      show (s.get? (address a.ref.desc (atPos a.ref.bases j))).isSome
      exact Option.isSome_iff_exists.mpr ⟨v, hv⟩
  have hall : (∀ k ∈ positions src.extents, (s.get? (posAddr a.ref.desc k)).isSome) ↔
      ∀ k, InShape src.extents k → IsElement a.ref.desc (posAddr a.ref.desc k) := by
    constructor
    · intro h k hk
      exact (hiff k hk).mp (h k (by rw [positions_eq, mem_allPos]; exact hk))
    · intro h k hk
      rw [positions_eq, mem_allPos] at hk
      exact (hiff k hk).mpr (h k hk)
  have hne : (∃ k, InShape src.extents k ∧ ¬ IsElement a.ref.desc (posAddr a.ref.desc k)) ↔
      ¬ ∀ k, InShape src.extents k → IsElement a.ref.desc (posAddr a.ref.desc k) := by push Not; rfl
  rw [hne, ← hall, e1]
  by_cases hc : ∀ k ∈ positions src.extents, (s.get? (posAddr a.ref.desc k)).isSome
  · obtain ⟨s', hs'⟩ := c1 hc
    rw [hs']
    exact ⟨⟨fun _ => hc, fun _ => ⟨s', rfl⟩⟩, ⟨fun h => (by cases h), fun h => absurd hc h⟩⟩
  · rw [c2 hc]
    exact ⟨⟨fun ⟨s', h⟩ => (by cases h), fun h => absurd h hc⟩, ⟨fun _ => hc, fun _ => rfl⟩⟩

/-- **C87.** View creation without assertions accepts all ranges except those with stride 0 (a division by zero).  Whatever the bounds, the view's
extents count the values `start, start+stride, ...` before `finish`, and its element at any index tuple (in range or not) is the place which the selected
index tuple denotes in the viewed handle. -/
theorem C87_view_unchecked {n : Nat} {root : ARef} (hr : Reachable n root) {d : Desc} (h : Handle root d) (g : IndexGen)
    (hlen : g.ranges.length = d.extents.length) (hnum : (g.ranges.filter (fun r => !r.degenerate_)).length = g.numDims) :
    ((∃ r ∈ g.ranges, r.stride_ = 0) → generateArrayView false g d = .ub) ∧
    ((∀ r ∈ g.ranges, r.stride_ ≠ 0) → ∃ v, generateArrayView false g d = .ok v ∧ ExtentsCount g.ranges d.bases d.extents v.extents ∧
      ∀ v' idx, ViewHistory v v' → idx.length = v'.extents.length →
        v'.paren false idx = accessElement false (selected g.ranges d.bases (offBase idx v'.bases)) d) := by
  have hw := handle_wellShaped hr h
  constructor
  · intro hz
    unfold generateArrayView
    rw [viewLoop_release_zero _ _ _ _ _ _ hz hw.1 hw.2 hlen]
    rfl
  · intro hs
    refine ⟨_, genView_release g d hw hlen hs hnum, selExtents_count _ _ _ hlen hw.2 hs, ?_⟩
    intro v' idx hh hidx
    obtain ⟨w, h1, h2, h3, _⟩ := ViewHistory_facts hh (theView_wf' g d hw hlen)
    have hextlen : v'.extents.length = numRanged g.ranges := by
      rw [h2, theView_extents, List.length_map, selExtents_length _ _ _ hlen hw.2]
    have hsel : ∀ (rs : List IndexRange) (bs j : List Int), rs.length = bs.length → j.length = numRanged rs →
        (selected rs bs j).length = rs.length := by
      intro rs
      induction rs with
      | nil => intro bs j _ _; cases bs <;> rfl
      | cons r rs ih =>
        intro bs j hb hj
        rw [numRanged_cons] at hj
        match bs, hb with
        | b :: bs, hb =>
          cases hd : r.degenerate_ with
          | true =>
            simp only [selected, hd, if_true, List.length_cons]
            rw [hd] at hj
            rw [ih bs j (by simpa using hb) (by simpa using hj)]
          | false =>
            rw [hd] at hj
            simp only [Bool.false_eq_true, if_false] at hj
            match j, hj with
            | x :: xs, hj =>
              simp only [selected, hd, Bool.false_eq_true, if_false, List.length_cons]
              rw [ih bs xs (by simpa using hb) (by simp only [List.length_cons] at hj; omega)]
            | [], hj => simp only [List.length_nil] at hj; omega
    show accessElement false idx v'.desc = _
    rw [accessElement_false v'.desc w.wellShaped idx hidx, view_address' hw hlen hh idx hidx]
    symm
    apply accessElement_false d hw
    show (selected g.ranges d.bases (relPos idx v'.bases)).length = _
    rw [hsel _ _ _ (by rw [hlen, hw.2]) (by simp [relPos, hidx, w.bases_len, hextlen]), hlen]

/-- **C87.** `reshape` without assertions takes any extents (one per dimension), even if their product is not the number of elements: the element at `k` of
the reshaped array is the stored element whose number is the rank of `k` in the new shape, while `num_elements()` keeps its old value.  All
elements of the new shape lie in the storage iff the product is at most the number of elements. -/
theorem C87_reshape_unchecked {n : Nat} {a : ARef} (ha : Reachable n a) (exts : List Nat) (hlen : exts.length = n) :
    ∃ a', a.reshape false exts = .ok a' ∧ a'.extents = exts ∧ a'.bases = a.bases ∧ a'.data = a.data ∧ a'.numElements = a.numElements ∧
      (∀ dbg k, InShape exts k → a'.paren dbg (atPos a'.bases k) = .ok (a.data.add (storageRank a.storage exts k : Nat))) ∧
      ((∀ k, InShape exts k → storageRank a.storage exts k < a.numElements) ↔ exts.prod ≤ a.numElements) := by
  obtain ⟨a', b, h1, hb, h3, h4, h5, h6, h7, h8, h9, h10, h11, h12, h13⟩ := reshape_release ha exts hlen
  have hform : ∀ dbg k, InShape exts k → a'.paren dbg (atPos a'.bases k) = .ok (a.data.add (storageRank a.storage exts k : Nat)) ∧
      storageRank a.storage exts k < exts.prod := by
    intro dbg k hk
    obtain ⟨e1, e2⟩ := C05_layout_formula hb dbg k (by rw [h7]; exact hk)
    rw [h4, h5, h7, h6] at e1
    rw [h5, h7, h8] at e2
    refine ⟨?_, e2⟩
    show accessElement dbg (atPos a'.bases k) a'.desc = _
    rw [← h3, h10]
    exact e1
  refine ⟨a', h1, h9, h10, h12, h13, fun dbg k hk => (hform dbg k hk).1, ?_, ?_⟩
  · intro hall
    by_contra hlt
    obtain ⟨idx, ⟨hin, hval⟩, _⟩ := C03_every_element_addressable hb true (exts.prod - 1) (by rw [h8]; omega)
    have hm := (mem_allIdx _ _ _).mpr hin
    rw [allIdx_eq_map _ _ (by rw [hb.wf.bases_len, hb.wf.ext_len])] at hm
    obtain ⟨k, hk, rfl⟩ := List.mem_map.mp hm
    rw [mem_allPos] at hk
    have e1 := (C05_layout_formula hb true k hk).1
    have hval' : b.paren true (atPos b.bases k) = .ok (b.data.add ((exts.prod - 1 : Nat) : Int)) := hval
    rw [hval'] at e1
    injection e1 with e1
    rw [Ptr.add_inj, h5, h7] at e1
    have := hall k (by rw [← h7]; exact hk)
    omega
  · intro hle k hk
    have := (hform true k hk).2
    omega

/-! Examples: `a` is 2x3 over block 5 (values 0..5), `b` 2x2 over block 6, `c` 1x6 over block 7, `d` 3x3 over block 8, all in C order with bases 0. -/

/-- An array in C order with bases 0 over a block. -/
def relArr (blk : Nat) (e1 e2 : Nat) : ARef := ⟨⟨blk, 0⟩, StorageOrder.cOrder 2, [e1, e2], [(e2 : Int), 1], [0, 0], 0, 0, e1 * e2⟩
/-- The memory of the examples. -/
def relSt : St Nat :=
  { heap := fun x => if x = 5 then some ⟨0, (List.range 6).map .obj⟩ else if x = 6 then some ⟨0, [.obj 10, .obj 11, .obj 12, .obj 13]⟩
      else if x = 7 then some ⟨0, [.obj 20, .obj 21, .obj 22, .obj 23, .obj 24, .obj 25]⟩ else if x = 8 then some ⟨0, List.replicate 9 (.obj 9)⟩ else none,
    next := 9, sched := [] }
/-- The array `a` as an owning array. -/
def relM : MArr := ⟨relArr 5 2 3, ⟨5, 0⟩, 6, 0⟩

theorem relArr_reachable (blk e1 e2 : Nat) : Reachable 2 (relArr blk e1 e2) := by
  refine .ofExtents (p := ⟨blk, 0⟩) (exts := [e1, e2]) (so := StorageOrder.cOrder 2) (by decide) ?_
  simp [ARef.ofExtents, ARef.init, copyN, computeStrides, computeStridesLoop, StorageOrder.cOrder, Res.get, relArr, calcOriginOffset, calcDescOffset,
    calcIndexingOffset, indexingOffsetLoop, StorageOrder.allDimsAscending, product, List.range_succ]

theorem relM_owns : Owns relSt 2 relM :=
  ⟨List.range 6, relArr_reachable 5 2 3, rfl, by decide, rfl, rfl, rfl, rfl⟩

/-- `a[0][4]` is `a[1][1]`; `a[1][3]` is undefined. -/
example : Owns relSt 2 relM ∧ ¬ InBox relM.ref.bases relM.ref.extents [0, 4] ∧ relM.ref.paren true [0, 4] = .assertFail ∧
    signedRowMajor [2, 3] (offBase [0, 4] [0, 0]) = 4 ∧
    readElem false relM.ref.desc [0, 4] relSt = .ok 4 relSt ∧ relM.ref.paren false [0, 4] = relM.ref.paren true [1, 1] ∧
    readElem false relM.ref.desc [1, 3] relSt = .ub :=
  ⟨relM_owns, by decide, by decide, by decide, rfl, by decide, rfl⟩

/-- `a = b` (2x2 into 2x3) overwrites the leading 2x2 part. -/
example : FitsIn (relArr 6 2 2).desc.extents (relArr 5 2 3).desc.extents ∧ Live relSt (relArr 6 2 2) ∧ Live relSt (relArr 5 2 3) ∧
    assignOp true false (relArr 5 2 3).desc (relArr 6 2 2).desc relSt = .assertFail relSt ∧
    ∃ s', assignOp false false (relArr 5 2 3).desc (relArr 6 2 2).desc relSt = .ok () s' ∧
      [[0, 0], [0, 1], [0, 2], [1, 0], [1, 1], [1, 2]].map (elemAt s' (relArr 5 2 3).desc) = [some 10, some 11, some 2, some 12, some 13, some 5] := by
  refine ⟨by simp [relArr, ARef.desc, FitsIn], ?_, ?_, rfl, _, rfl, by decide +kernel⟩
  · intro k hk
    change k < 4 at hk
    interval_cases k <;> exact ⟨_, rfl⟩
  · intro k hk
    change k < 6 at hk
    interval_cases k <;> exact ⟨_, rfl⟩

/-- `a = c` (1x6 into 2x3) stays defined: the row runs on; `a = d` (3x3) is undefined. -/
example : (∃ s', assignOp false false (relArr 5 2 3).desc (relArr 7 1 6).desc relSt = .ok () s' ∧
      [[0, 0], [0, 1], [0, 2], [1, 0], [1, 1], [1, 2]].map (elemAt s' (relArr 5 2 3).desc) = [20, 21, 22, 23, 24, 25].map some) ∧
    assignOp false false (relArr 5 2 3).desc (relArr 8 3 3).desc relSt = .ub :=
  ⟨⟨_, rfl, by decide +kernel⟩, rfl⟩

/-- A view of the columns 2, 3 of `a` (column 3 does not exist): its second column is the first column of `a`, one row down. -/
example : ∃ v, generateArrayView true ⟨2, 2, [IndexRange.mk3 0 1, IndexRange.mk3 2 4]⟩ relM.ref.desc = .assertFail ∧
    generateArrayView false ⟨2, 2, [IndexRange.mk3 0 1, IndexRange.mk3 2 4]⟩ relM.ref.desc = .ok v ∧ v.extents = [1, 2] ∧
    v.paren false [0, 1] = relM.ref.paren true [1, 0] := by
  refine ⟨_, by decide +kernel, rfl, by decide +kernel, by decide +kernel⟩

/-- Reshaping the six elements to 2x2 keeps four of them reachable; to 4x2 it reaches outside. -/
example : (∃ a', (relArr 5 2 3).reshape true [2, 2] = .assertFail ∧ (relArr 5 2 3).reshape false [2, 2] = .ok a' ∧ a'.numElements = 6 ∧
      a'.paren true [1, 1] = .ok ⟨5, 3⟩) ∧
    ∃ a', (relArr 5 2 3).reshape false [4, 2] = .ok a' ∧ a'.numElements = 6 ∧ a'.paren true [3, 1] = .ok ⟨5, 7⟩ :=
  ⟨⟨_, by decide, rfl, by decide, by decide⟩, ⟨_, rfl, by decide, by decide⟩⟩

/-! ### Instances: the theorems applied to concrete cases, whose hypotheses are thereby met -/

theorem relSt_live5 : Live relSt (relArr 5 2 3) := by
  intro k hk
  change k < 6 at hk
  interval_cases k <;> exact ⟨_, rfl⟩
theorem relSt_live6 : Live relSt (relArr 6 2 2) := by
  intro k hk
  change k < 4 at hk
  interval_cases k <;> exact ⟨_, rfl⟩
example := C87_access_unchecked exArr_reachable .array [9, 9, 9] rfl
example := C87_c_order_runs_on (relArr_reachable 5 2 3) rfl [0, 4] rfl
example := C87_unchecked_element relM_owns [0, 4] rfl
example := C87_assign_unchecked (relArr_reachable 5 2 3) (relArr_reachable 6 2 2) .array .array rfl relSt
example := C87_smaller_source (relArr_reachable 5 2 3) (relArr_reachable 6 2 2) .array .array (by simp [relArr, ARef.desc, FitsIn]) relSt relSt_live5 relSt_live6
  (fun i j _ _ he => absurd (congrArg Ptr.blk he) (show ¬ ((5 : Nat) = 6) by decide)) rfl
example := C87_assign_defined_iff relM_owns (relArr_reachable 6 2 2) .array relSt_live6 rfl rfl
example := C87_view_unchecked (relArr_reachable 5 2 3) .array ⟨2, 2, [IndexRange.mk3 0 1, IndexRange.mk3 2 4]⟩ rfl (by decide)
example := C87_reshape_unchecked (relArr_reachable 5 2 3) [4, 2] rfl

/- end of instances -/

end MultiArray.Props
