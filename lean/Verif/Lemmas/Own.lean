import Verif.Lemmas.OwnMem

/- Owning arrays: construction, copying, resizing, destruction. -/
set_option autoImplicit false

namespace MultiArray
open Spec
variable {T α β : Type}

/-! ### Headers over another block -/

theorem init_setBase {n : Nat} {p : Ptr} {so : StorageOrder} {bs : List Int} {es : List Nat} {a : ARef} (q : Ptr)
    (h : ARef.init n p so bs es = .ok a) : ARef.init n q so bs es = .ok { a with base := q } := by
  unfold ARef.init at h ⊢
  cases hc : copyN es n with
  | assertFail => simp [hc] at h
  | ub => simp [hc] at h
  | ok ext =>
    simp only [hc, Res.bind_ok] at h ⊢
    cases hs : computeStrides (List.replicate n 0) ext so with
    | assertFail => simp [hs] at h
    | ub => simp [hs] at h
    | ok ss =>
      simp only [hs, Res.bind_ok, Res.ok.injEq] at h ⊢
      subst h; rfl

theorem ofShape_setBase {n : Nat} {p : Ptr} {so : StorageOrder} {bs : Option (List Int)} {es : Option (List Nat)} {a : ARef}
    (q : Ptr) (h : ARef.ofShape n p so bs es = .ok a) : ARef.ofShape n q so bs es = .ok { a with base := q } := by
  unfold ARef.ofShape at h ⊢
  cases bs with
  | none => cases es <;> simp only [Res.bind_ok] at h ⊢ <;> exact init_setBase q h
  | some l =>
    simp only at h ⊢
    cases hc : copyN l n with
    | assertFail => simp [hc] at h
    | ub => simp [hc] at h
    | ok b =>
      simp only [hc, Res.bind_ok] at h ⊢
      cases es <;> simp only at h ⊢ <;> exact init_setBase q h

theorem Spec.Reachable.setBase {n : Nat} {a : ARef} (h : Reachable n a) (q : Ptr) : Reachable n { a with base := q } := by
  induction h with
  | ofExtents hv he => exact .ofExtents hv (init_setBase q he)
  | ofExtentGen hv hn hl he => exact .ofExtentGen hv hn hl (init_setBase q he)
  | ofShape hv he => exact .ofShape hv (ofShape_setBase q he)
  | @reindexList a a' bs _ hr ih =>
    refine .reindexList ih (bs := bs) ?_
    unfold ARef.reindexList at hr ⊢
    simp only [ARef.numDims] at hr ⊢
    cases hc : copyN bs a.extents.length with
    | assertFail => simp [hc] at hr
    | ub => simp [hc] at hr
    | ok b => simp only [hc, Res.bind_ok, Res.ok.injEq] at hr ⊢; subst hr; rfl
  | @reindexAll a b _ ih => exact .reindexAll (b := b) ih
  | @reshape a a' dbg exts _ hl hp hr ih =>
    refine .reshape (dbg := dbg) ih hl hp ?_
    unfold ARef.reshape at hr ⊢
    simp only at hr ⊢
    cases h1 : Res.assert dbg (decide (a.numElems = product exts)) with
    | assertFail => simp [h1] at hr
    | ub => simp [h1] at hr
    | ok u =>
      simp only [h1, Res.bind_ok] at hr ⊢
      cases h2 : copyPrefix exts a.extents with
      | assertFail => simp [h2] at hr
      | ub => simp [h2] at hr
      | ok ext =>
        simp only [h2, Res.bind_ok] at hr ⊢
        cases h3 : computeStrides a.strides ext a.storage with
        | assertFail => simp [h3] at hr
        | ub => simp [h3] at hr
        | ok ss => simp only [h3, Res.bind_ok, Res.ok.injEq] at hr ⊢; subst hr; rfl

/-! ### Consequences of ownership -/

theorem Spec.OwnsVals.get {s : St T} {n : Nat} {a : MArr} {vs : List T} (h : OwnsVals s n a vs) (k : Nat) :
    s.get? (a.ref.data.add (k : Int)) = vs[k]? := by
  have hd : a.ref.data.add (k : Int) = ⟨a.ref.data.blk, (k : Int)⟩ := by simp [Ptr.add, h.start]
  rw [hd]
  unfold St.get?
  rw [cell?_of_heap h.block, List.getElem?_map]
  cases vs[k]? <;> rfl

theorem Spec.OwnsVals.live {s : St T} {n : Nat} {a : MArr} {vs : List T} (h : OwnsVals s n a vs) : Live s a.ref := by
  intro k hk
  rw [h.get]
  exact ⟨vs[k]'(by rw [h.len]; exact hk), List.getElem?_eq_getElem _⟩

theorem Spec.OwnsVals.data_eq {s : St T} {n : Nat} {a : MArr} {vs : List T} (h : OwnsVals s n a vs) :
    a.ref.data = ⟨a.ref.data.blk, 0⟩ := by
  rw [← h.start]

/-- Ownership only depends on the array's own block. -/
theorem Spec.OwnsVals.mono {s s' : St T} {n : Nat} {a : MArr} {vs : List T} (h : OwnsVals s n a vs)
    (hh : s'.heap a.ref.data.blk = s.heap a.ref.data.blk) : OwnsVals s' n a vs :=
  ⟨h.reach, h.start, h.notNull, h.own, h.count, by rw [hh]; exact h.block, h.len⟩

theorem Spec.OwnsVals.blk_lt {s : St T} {n : Nat} {a : MArr} {vs : List T} (h : OwnsVals s n a vs) (hs : SaneHeap s) :
    a.ref.data.blk < s.next := by
  by_contra hc
  have := hs.2 _ (Nat.le_of_not_lt hc)
  rw [h.block] at this
  cases this

/-- Destruction of a live array removes exactly its block. -/
theorem Spec.OwnsVals.dealloc {s : St T} {n : Nat} {a : MArr} {vs : List T} (h : OwnsVals s n a vs) :
    ∃ s', a.deallocateSpace s = .ok () s' ∧ s'.heap a.ref.data.blk = none ∧ SameExcept a.ref.data.blk s s' ∧
      s'.next = s.next ∧ s'.sched = s.sched := by
  have hd := h.data_eq
  have hn : a.ownBase ≠ Ptr.null := by
    rw [h.own, hd]
    intro hc
    exact h.notNull (by simpa [Ptr.null] using hc)
  have hlen : s.len a.ref.data.blk = some (a.alloc, a.allocated) := by
    rw [St.len, h.block, h.count, ← h.len]; simp
  obtain ⟨s', e1, e2, e3, e4, e5⟩ := release_ok a.ref.data.blk a.alloc a.allocated s hlen (fun k hk => by
    obtain ⟨v, hv⟩ := h.live k (by rw [← h.count]; exact hk)
    rw [hd] at hv
    exact ⟨v, by simpa [Ptr.add] using hv⟩)
  refine ⟨s', ?_, e2, e3, e4, e5⟩
  unfold MArr.deallocateSpace
  rw [if_pos hn, h.own]
  rw [← hd] at e1
  exact e1

/-! ### Blocks whose cells stay objects -/

theorem block_live {s s' : St T} {b al : Nat} {vs : List T} (hb : s.heap b = some ⟨al, vs.map .obj⟩)
    (hl : s'.len b = s.len b) (hlive : ∀ q, (∃ v, s.get? q = some v) → ∃ v, s'.get? q = some v) :
    ∃ vs' : List T, s'.heap b = some ⟨al, vs'.map .obj⟩ ∧ vs'.length = vs.length := by
  unfold St.len at hl
  rw [hb] at hl
  cases h1 : s'.heap b with
  | none => rw [h1] at hl; simp at hl
  | some blk =>
    obtain ⟨pr, cells⟩ := blk
    rw [h1] at hl
    simp only [Option.map_some, Option.some.injEq, Prod.mk.injEq, List.length_map] at hl
    obtain ⟨rfl, hlen⟩ := hl
    have hall : ∀ k : Nat, k < cells.length → ∃ v, cells[k]? = some (.obj v) := by
      intro k hk
      obtain ⟨v, hv⟩ := hlive ⟨b, (k : Int)⟩ ⟨vs[k]'(by omega), by
        rw [St.get?_eq_some, cell?_of_heap hb, List.getElem?_map, List.getElem?_eq_getElem (by omega)]; rfl⟩
      rw [St.get?_eq_some, cell?_of_heap h1] at hv
      exact ⟨v, hv⟩
    have aux : ∀ cells : List (Cell T), (∀ k : Nat, k < cells.length → ∃ v, cells[k]? = some (.obj v)) →
        ∃ vs' : List T, cells = vs'.map .obj := by
      intro cells
      induction cells with
      | nil => intro _; exact ⟨[], rfl⟩
      | cons c cs ih =>
        intro h
        obtain ⟨v, hv⟩ := h 0 (by simp)
        obtain ⟨vs', hvs'⟩ := ih (fun k hk => by
          obtain ⟨v, hv⟩ := h (k + 1) (by simpa using hk)
          exact ⟨v, by simpa using hv⟩)
        refine ⟨v :: vs', ?_⟩
        simp at hv
        rw [hv, hvs']; rfl
    obtain ⟨vs', rfl⟩ := aux cells hall
    exact ⟨vs', rfl, by simpa using hlen⟩

/-! ### The views used by resize -/

theorem populate_legal (b : Int) (m e : Nat) (hm : m ≤ e) (h1 : -(2 ^ 63) ≤ b) (h2 : b + (e : Int) ≤ 2 ^ 63 - 1) :
    LegalRange b e (MArr.populateIndexRanges b m) ∧ rangeStart (MArr.populateIndexRanges b m) b = b ∧
      rangeFinish (MArr.populateIndexRanges b m) b e = b + (m : Int) := by
  have e1 : (MArr.populateIndexRanges b m).start_ = b := rfl
  have e2 : (MArr.populateIndexRanges b m).finish_ = b + (m : Int) := rfl
  have e3 : (MArr.populateIndexRanges b m).stride_ = 1 := rfl
  have hs : rangeStart (MArr.populateIndexRanges b m) b = b := by
    unfold rangeStart; split
    · rfl
    · exact e1
  have hf : rangeFinish (MArr.populateIndexRanges b m) b e = b + (m : Int) := by
    unfold rangeFinish; split
    · omega
    · exact e2
  refine ⟨⟨by rw [e3]; decide, ?_, ?_⟩, hs, hf⟩
  · rw [hs]; omega
  · rw [hf, if_neg (by rw [e3]; decide)]
    omega

theorem viewLen_unit (b : Int) (m : Nat) : viewLen b (b + (m : Int)) 1 = m := by
  simp [viewLen]

theorem populate_ranges (bs : List Int) (es ms : List Nat) (hb : bs.length = es.length)
    (hm : List.Forall₂ (· ≤ ·) ms es) (hrep : Representable bs es) :
    LegalRanges bs es (List.zipWith MArr.populateIndexRanges bs ms) ∧
      numRanged (List.zipWith MArr.populateIndexRanges bs ms) = ms.length ∧
      (selExtents (List.zipWith MArr.populateIndexRanges bs ms) bs es).map Int.toNat = ms ∧
      ∀ k : List Nat, k.length = ms.length →
        selected (List.zipWith MArr.populateIndexRanges bs ms) bs (k.map (fun (x : Nat) => (x : Int))) = atPos bs k := by
  induction hm generalizing bs with
  | nil =>
    match bs, hb with
    | [], _ => simp [LegalRanges, numRanged, selExtents, selected, atPos]
  | @cons m e ms es hme hms ih =>
    match bs, hb with
    | b :: bs, hb =>
      obtain ⟨r1, r2, r3⟩ := hrep
      obtain ⟨i1, i2, i3, i4⟩ := ih bs (by simpa using hb) r3
      obtain ⟨l1, l2, l3⟩ := populate_legal b m e hme r1 r2
      refine ⟨⟨l1, i1⟩, ?_, ?_, ?_⟩
      · rw [List.zipWith_cons_cons, numRanged_cons, i2]
        simp [MArr.populateIndexRanges, IndexRange.mk3]; omega
      · have hd : (MArr.populateIndexRanges b m).degenerate_ = false := rfl
        have ht : (MArr.populateIndexRanges b m).stride_ = 1 := rfl
        simp only [List.zipWith_cons_cons, selExtents, hd, Bool.false_eq_true, if_false, l2, l3, ht, viewLen_unit,
          List.map_cons, i3]
        simp
      · intro k hk
        match k, hk with
        | x :: k, hk =>
          have hd : (MArr.populateIndexRanges b m).degenerate_ = false := rfl
          have ht : (MArr.populateIndexRanges b m).stride_ = 1 := rfl
          have := i4 k (by simpa using hk)
          simp only [List.zipWith_cons_cons, selected, hd, Bool.false_eq_true, if_false, l2, ht, List.map_cons, this]
          simp [atPos]

theorem atPos_zeros (k : List Nat) (n : Nat) (h : k.length = n) :
    atPos (List.replicate n 0) k = k.map (fun (x : Nat) => (x : Int)) := by
  subst h
  induction k with
  | nil => rfl
  | cons x k ih => simp only [atPos] at ih; simp [atPos, List.replicate_succ, ih]

/-- The view of the leading `ms` part of an array, as built by `resize`. -/
theorem leadingView (dbg : Bool) (d : Desc) (hw : WellShaped d) (ms : List Nat) (hm : List.Forall₂ (· ≤ ·) ms d.extents)
    (hrep : Representable d.bases d.extents) (N : Nat) (hN : N = d.extents.length) :
    ∃ v : View, generateArrayView dbg ⟨N, N, List.zipWith MArr.populateIndexRanges d.bases ms⟩ d = .ok v ∧
      v.extents = ms ∧ WellShaped v.desc ∧
      ∀ k, InShape ms k → address v.desc (atPos v.bases k) = address d (atPos d.bases k) := by
  obtain ⟨h1, h2, h3, h4⟩ := populate_ranges d.bases d.extents ms hw.2 hm hrep
  have hlen : ms.length = d.extents.length := hm.length_eq
  have hg := genView_legal dbg ⟨N, N, List.zipWith MArr.populateIndexRanges d.bases ms⟩ d hw h1 (by
    rw [h2, hN, hlen])
  refine ⟨_, hg, ?_, (theView_wf _ _ hw h1).wellShaped, ?_⟩
  · rw [theView_extents]; exact h3
  · intro k hk
    have hkl := hk.length
    have hb : (theView ⟨N, N, List.zipWith MArr.populateIndexRanges d.bases ms⟩ d).bases = List.replicate ms.length 0 := by
      simp only [theView, View.mkView]
      rw [selExtents_length _ _ _ h1.length.1 h1.length.2, h2]
    rw [hb, atPos_zeros _ _ hkl]
    rw [view_address hw h1 .refl _ (by rw [theView_extents, h3]; simp [hkl])]
    rw [hb, relPos_zero _ _ (by simp [hkl])]
    rw [h4 k hkl]

end MultiArray
