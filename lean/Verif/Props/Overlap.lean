import Verif.SpecOverlap
import Verif.Props.Flat
import Verif.Lemmas.Prog

/-
Property theorems C70: which elements views share.
-/
set_option autoImplicit false

namespace MultiArray.Props
open MultiArray Spec

/-- The tuples a list of ranges reaches are the selected ones. -/
theorem selected_iff (rs : List IndexRange) (bs : List Int) (es : List Nat) (hl : LegalRanges bs es rs) (idx : List Int) :
    (∃ j, InBox (List.replicate (numRanged rs) 0) ((selExtents rs bs es).map Int.toNat) j ∧ selected rs bs j = idx) ↔ Selects rs bs es idx := by
  induction rs generalizing bs es idx with
  | nil =>
    obtain ⟨l1, l2⟩ := hl.length
    match es, bs, l1, l2 with
    | [], [], _, _ =>
      constructor
      · rintro ⟨j, _, rfl⟩
        exact trivial
      · intro h
        match idx, h with
        | [], _ => exact ⟨[], trivial, rfl⟩
  | cons r rs ih =>
    obtain ⟨l1, l2⟩ := hl.length
    match es, bs, l1, l2, hl with
    | e :: es, b :: bs, _, _, hl =>
      have ih := fun idx => ih bs es hl.2 idx
      rw [numRanged_cons]
      have hV := viewLen_iff (rangeStart r b) (rangeFinish r b e) r.stride_ hl.1.1
      cases hd : r.degenerate_ with
      | true =>
        simp only [if_true, Nat.zero_add, selExtents, hd, selected]
        constructor
        · rintro ⟨j, hj, rfl⟩
          exact ⟨by simp [SelectsIndex, hd], (ih _).mp ⟨j, hj, rfl⟩⟩
        · intro h
          match idx, h with
          | i :: is, h =>
            have h1 := h.1
            simp only [SelectsIndex, hd, if_true] at h1
            obtain ⟨j, hj, hjj⟩ := (ih is).mpr h.2
            exact ⟨j, hj, by rw [h1, hjj]⟩
      | false =>
        simp only [selExtents, hd, Bool.false_eq_true, if_false, selected, List.map_cons, Nat.add_comm 1, List.replicate_succ]
        constructor
        · rintro ⟨j, hj, rfl⟩
          match j, hj with
          | x :: xs, hj =>
            obtain ⟨j1, j2, j3⟩ := hj
            refine ⟨?_, (ih _).mp ⟨xs, j3, rfl⟩⟩
            simp only [SelectsIndex, hd, Bool.false_eq_true, if_false]
            have := (hV x.toNat).mp (by omega)
            rw [show ((x.toNat : Nat) : Int) = x by omega] at this
            exact ⟨x.toNat, by rw [show ((x.toNat : Nat) : Int) = x by omega], this⟩
        · intro h
          match idx, h with
          | i :: is, h =>
            have h1 := h.1
            simp only [SelectsIndex, hd, Bool.false_eq_true, if_false] at h1
            obtain ⟨k, hk, hb⟩ := h1
            obtain ⟨j, hj, hjj⟩ := (ih is).mpr h.2
            have := (hV k).mpr (by rw [← hk]; exact hb)
            exact ⟨(k : Int) :: j, ⟨by omega, by omega, hj⟩, by rw [hk]; show _ :: selected rs bs j = _; rw [hjj]⟩

theorem inBox_addBases (bs : List Int) (es : List Nat) (j : List Int) (hl : bs.length = es.length) (h : InBox (List.replicate es.length 0) es j) :
    ∃ idx, InBox bs es idx ∧ relPos idx bs = j := by
  induction es generalizing bs j with
  | nil => match bs, j, hl, h with | [], [], _, _ => exact ⟨[], trivial, rfl⟩
  | cons e es ih =>
    match bs, j, hl, h with
    | b :: bs, x :: j, hl, h =>
      obtain ⟨h1, h2, h3⟩ := h
      obtain ⟨idx, i1, i2⟩ := ih bs j (by simpa using hl) h3
      exact ⟨(b + x) :: idx, ⟨by omega, by omega, i1⟩, by simp only [relPos, List.zipWith_cons_cons] at i2 ⊢; rw [i2]; simp⟩

/-- The elements of a view, also after any reindexing of the view, are exactly the elements of the viewed array whose index is selected
in every dimension. -/
theorem C70_view_elements_exact {n : Nat} {root : ARef} (hr : Reachable n root) {d : Desc} (h : Handle root d)
    {g : IndexGen} (hno : NoOverrun d.bases d.extents g.ranges) (hb : Built g) (hlen : g.ranges.length = d.extents.length) {v v' : View}
    (hv : generateArrayView true g d = .ok v) (hh : ViewHistory v v') :
    (∀ idx, Selects g.ranges d.bases d.extents idx → InBox d.bases d.extents idx) ∧
    (∀ p, PointsInto v'.desc p ↔ ∃ idx, Selects g.ranges d.bases d.extents idx ∧ p = address d idx) := by
  have hw := handle_wellShaped hr h
  obtain ⟨hleg, hnum, rfl⟩ := genView_ok hw hlen hv
  obtain ⟨w, h1, h2, h3, _⟩ := ViewHistory_facts hh (theView_wf g d hw hleg)
  have hextlen : v'.extents.length = numRanged g.ranges := by
    rw [h2, theView_extents, List.length_map, selExtents_length _ _ _ hleg.length.1 hleg.length.2]
  refine ⟨?_, fun p => ⟨?_, ?_⟩⟩
  · intro idx hs
    obtain ⟨j, hj, rfl⟩ := (selected_iff _ _ _ hleg _).mpr hs
    by_cases hz : g.ranges.length = 0
    · have he : d.extents = [] := List.eq_nil_of_length_eq_zero (by omega)
      have hb : d.bases = [] := List.eq_nil_of_length_eq_zero (by rw [hw.2, he]; rfl)
      have hg : g.ranges = [] := List.eq_nil_of_length_eq_zero hz
      rw [he, hb, hg]
      simp [selected, InBox]
    · exact selected_inBox _ _ _ _ hleg hno (hb.degenerate hz hnum) hj
  · rintro ⟨idx, hin, rfl⟩
    have hin : InBox v'.bases v'.extents idx := hin
    have hrel := inBox_relPos _ _ _ hin
    rw [hextlen, h2, theView_extents] at hrel
    exact ⟨_, (selected_iff _ _ _ hleg _).mp ⟨_, hrel, rfl⟩, view_address hw hleg hh idx hin.length.1⟩
  · rintro ⟨idx, hs, rfl⟩
    obtain ⟨j, hj, rfl⟩ := (selected_iff _ _ _ hleg _).mpr hs
    rw [← hextlen, ← theView_extents, ← h2] at hj
    obtain ⟨idx', i1, i2⟩ := inBox_addBases v'.bases v'.extents j w.wellShaped.2 hj
    exact ⟨idx', i1, by rw [← i2]; exact (view_address hw hleg hh idx' i1.length.1).symm⟩

theorem separateDim_iff (rs rs' : List IndexRange) (bs : List Int) (es : List Nat) (h1 : rs.length = es.length) (h2 : rs'.length = es.length)
    (h3 : bs.length = es.length) : SeparateDim rs rs' bs es ↔ ∀ idx, ¬ (Selects rs bs es idx ∧ Selects rs' bs es idx) := by
  induction es generalizing rs rs' bs with
  | nil =>
    match rs, rs', bs, h1, h2, h3 with
    | [], [], [], _, _, _ => exact ⟨fun h => h.elim, fun h => h [] ⟨trivial, trivial⟩⟩
  | cons e es ih =>
    match rs, rs', bs, h1, h2, h3 with
    | r :: rs, r' :: rs', b :: bs, h1, h2, h3 =>
      have ih := ih rs rs' bs (by simpa using h1) (by simpa using h2) (by simpa using h3)
      constructor
      · rintro (h | h) idx ⟨s1, s2⟩
        · match idx, s1, s2 with
          | i :: is, s1, s2 => exact h i ⟨s1.1, s2.1⟩
        · match idx, s1, s2 with
          | i :: is, s1, s2 => exact ih.mp h is ⟨s1.2, s2.2⟩
      · intro h
        by_cases hi : ∀ i, ¬ (SelectsIndex r b e i ∧ SelectsIndex r' b e i)
        · exact .inl hi
        · right
          rw [ih]
          simp only [not_forall, not_not] at hi
          obtain ⟨i, i1, i2⟩ := hi
          exact fun is hs => h (i :: is) ⟨⟨i1, hs.1⟩, ⟨i2, hs.2⟩⟩

/-- Two views of one array, subarray or view share no element if and only if in some dimension no index is selected by both. -/
theorem C70_views_disjoint_iff {n : Nat} {root : ARef} (hr : Reachable n root) {d : Desc} (h : Handle root d)
    {g g' : IndexGen} (hno : NoOverrun d.bases d.extents g.ranges) (hb : Built g) (hlen : g.ranges.length = d.extents.length)
    (hno' : NoOverrun d.bases d.extents g'.ranges) (hb' : Built g') (hlen' : g'.ranges.length = d.extents.length)
    {v v' u u' : View} (hv : generateArrayView true g d = .ok v) (hh : ViewHistory v v')
    (hu : generateArrayView true g' d = .ok u) (hh' : ViewHistory u u') :
    NoOverlap v'.desc u'.desc ↔ SeparateDim g.ranges g'.ranges d.bases d.extents := by
  obtain ⟨a1, a2⟩ := C70_view_elements_exact hr h hno hb hlen hv hh
  obtain ⟨b1, b2⟩ := C70_view_elements_exact hr h hno' hb' hlen' hu hh'
  rw [separateDim_iff _ _ _ _ hlen hlen' (handle_wellShaped hr h).2]
  constructor
  · rintro hn idx ⟨s1, s2⟩
    obtain ⟨i, i1, i2⟩ := (a2 (address d idx)).mpr ⟨idx, s1, rfl⟩
    obtain ⟨j, j1, j2⟩ := (b2 (address d idx)).mpr ⟨idx, s2, rfl⟩
    exact hn i j i1 j1 (i2 ▸ j2)
  · intro hs i j hi hj he
    obtain ⟨x, x1, x2⟩ := (a2 _).mp ⟨i, hi, rfl⟩
    obtain ⟨y, y1, y2⟩ := (b2 _).mp ⟨j, hj, rfl⟩
    have : x = y := h.address_inj hr.wf (a1 x x1) (b1 y y1) (by rw [← x2, ← y2, he])
    subst this
    exact hs x ⟨x1, y1⟩

theorem selectsIndex_all (b : Int) (e : Nat) (i : Int) : SelectsIndex IndexRange.all b e i ↔ b ≤ i ∧ i < b + (e : Int) := by
  have h : SelectsIndex IndexRange.all b e i ↔ ∃ k : Nat, i = b + (k : Int) * 1 ∧ i < b + (e : Int) := Iff.rfl
  rw [h]
  constructor
  · rintro ⟨k, h1, h2⟩; omega
  · rintro ⟨h1, h2⟩; exact ⟨(i - b).toNat, by omega, h2⟩

theorem selectsIndex_strided {b : Int} {e s j : Nat} (hb : -(2 ^ 63) < b) (he : b + (e : Int) < 2 ^ 63 - 1) (hs : 0 < s) (i : Int) :
    SelectsIndex (IndexRange.mk3 (b + (j : Int)) (b + (e : Int)) (s : Int)) b e i ↔
      ∃ k : Nat, i = b + (j : Int) + (k : Int) * (s : Int) ∧ i < b + (e : Int) := by
  have h1 : rangeStart (IndexRange.mk3 (b + (j : Int)) (b + (e : Int)) (s : Int)) b = b + (j : Int) := by
    unfold rangeStart IndexRange.mk3; rw [if_neg (by dsimp only; omega)]
  have h2 : rangeFinish (IndexRange.mk3 (b + (j : Int)) (b + (e : Int)) (s : Int)) b e = b + (e : Int) := by
    unfold rangeFinish IndexRange.mk3; rw [if_neg (by dsimp only; omega)]
  unfold SelectsIndex
  rw [h1, h2]
  simp only [IndexRange.mk3, Bool.false_eq_true, if_false, Before, show (0 : Int) < (s : Int) by omega, if_true]

theorem strided_legal {b : Int} {e s j : Nat} (hb : -(2 ^ 63) < b) (he : b + (e : Int) < 2 ^ 63 - 1) (hs : 0 < s) (hj : j ≤ e) :
    LegalRange b e (IndexRange.mk3 (b + (j : Int)) (b + (e : Int)) (s : Int)) := by
  refine ⟨by show (s : Int) ≠ 0; omega, ?_, ?_⟩
  · unfold rangeStart IndexRange.mk3; rw [if_neg (by dsimp only; omega)]; dsimp only; omega
  · unfold rangeFinish IndexRange.mk3
    rw [if_neg (by dsimp only; omega), if_neg (by dsimp only; omega)]; dsimp only; omega

theorem all_legal (bs : List Int) (es : List Nat) (h : bs.length = es.length) :
    LegalRanges bs es (List.replicate es.length IndexRange.all) ∧ NoOverrun bs es (List.replicate es.length IndexRange.all) := by
  induction es generalizing bs with
  | nil => match bs, h with | [], _ => exact ⟨trivial, trivial⟩
  | cons e es ih =>
    match bs, h with
    | b :: bs, h =>
      obtain ⟨h1, h2⟩ := ih bs (by simpa using h)
      have hst : IndexRange.all.stride_ = 1 := rfl
      refine ⟨⟨⟨by rw [hst]; decide, ?_, ?_⟩, h1⟩, ⟨by rw [hst]; intro hh; omega, h2⟩⟩
      · show b ≤ b ∧ b ≤ b + (e : Int); omega
      · rw [hst, if_neg (by omega)]; show b ≤ b + (e : Int) ∧ b + (e : Int) ≤ b + (e : Int); omega

theorem selects_all (bs : List Int) (es : List Nat) (idx : List Int) (h : InBox bs es idx) :
    Selects (List.replicate es.length IndexRange.all) bs es idx := by
  induction es generalizing bs idx with
  | nil => match bs, idx, h with | [], [], _ => exact trivial
  | cons e es ih =>
    match bs, idx, h with
    | b :: bs, i :: is, h => exact ⟨(selectsIndex_all b e i).mpr ⟨h.1, h.2.1⟩, ih bs is h.2.2⟩

/-- The views of every `s`-th row from row `j` on, for `j = 0, ..., s-1`, partition the array: together they have all its elements, and no two have an
element in common. -/
theorem C70_strided_views_partition {n : Nat} {root : ARef} (hr : Reachable n root) {d : Desc} (h : Handle root d) (dbg : Bool)
    {b : Int} {bs : List Int} {e : Nat} {es : List Nat} (hdb : d.bases = b :: bs) (hde : d.extents = e :: es)
    (hb : -(2 ^ 63) < b) (he : b + (e : Int) < 2 ^ 63 - 1) {s : Nat} (hs : 0 < s) :
    ∃ view : Nat → View,
      (∀ j, j < s → j ≤ e → ∃ g, chainIndices IndexGen.empty (stridedArgs b e s j es.length) = .ok g ∧ d.slice dbg g = .ok (view j)) ∧
      (∀ p, PointsInto d p ↔ ∃ j, j < s ∧ j ≤ e ∧ PointsInto (view j).desc p) ∧
      (∀ j j', j < s → j ≤ e → j' < s → j' ≤ e → j ≠ j' → NoOverlap (view j).desc (view j').desc) ∧
      (∀ j, j < s → j ≤ e → Handle root (view j).desc) := by
  have hw := handle_wellShaped hr h
  have hbl : bs.length = es.length := by have := hw.2; rw [hdb, hde] at this; simpa using this
  obtain ⟨al1, al2⟩ := all_legal bs es hbl
  have hrs : ∀ j, (idxGen (stridedArgs b e s j es.length)).ranges =
      IndexRange.mk3 (b + (j : Int)) (b + (e : Int)) (s : Int) :: List.replicate es.length IndexRange.all := by
    intro j
    simp [idxGen, genList, stridedArgs, IndexArg.toRange]
  have hnum : ∀ j, numRanged (idxGen (stridedArgs b e s j es.length)).ranges = (idxGen (stridedArgs b e s j es.length)).numDims := by
    intro j
    have := numRanged_ranges (stridedArgs b e s j es.length) (by
      intro r hr
      simp only [stridedArgs, List.mem_cons, List.mem_replicate, IndexArg.range.injEq] at hr
      rcases hr with rfl | ⟨_, rfl⟩ <;> rfl)
    have hd : (idxGen (stridedArgs b e s j es.length)).numDims = ((stridedArgs b e s j es.length).filter IndexArg.isRange).length := rfl
    rw [hd, ← this, hrs]
    simp [stridedArgs, IndexArg.toRange]
  have hleg : ∀ j, j ≤ e → LegalRanges d.bases d.extents (idxGen (stridedArgs b e s j es.length)).ranges := by
    intro j hj
    rw [hdb, hde, hrs]
    exact ⟨strided_legal hb he hs hj, al1⟩
  have hno : ∀ j, NoOverrun d.bases d.extents (idxGen (stridedArgs b e s j es.length)).ranges := by
    intro j
    rw [hdb, hde, hrs]
    exact ⟨fun hh => by have : (s : Int) < 0 := hh; omega, al2⟩
  have hbuilt : ∀ j, Built (idxGen (stridedArgs b e s j es.length)) := by
    intro j
    refine built_idxGen _ (fun i hi => ?_)
    simp [stridedArgs] at hi
  have hlen : ∀ j, (idxGen (stridedArgs b e s j es.length)).ranges.length = d.extents.length := by
    intro j; rw [hrs, hde]; simp
  have hgen : ∀ j, j ≤ e → ∀ dbg, generateArrayView dbg (idxGen (stridedArgs b e s j es.length)) d = .ok (theView (idxGen (stridedArgs b e s j es.length)) d) :=
    fun j hj dbg => genView_legal dbg _ d hw (hleg j hj) (hnum j)
  have hex := fun j hj => C70_view_elements_exact hr h (hno j) (hbuilt j) (hlen j) (hgen j hj true) .refl
  refine ⟨fun j => theView (idxGen (stridedArgs b e s j es.length)) d, ?_, ?_, ?_, fun j _ hj => handle_view hr.wf h (hno j) (hbuilt j) (hlen j) (hgen j hj true) .refl⟩
  · intro j _ hj
    exact ⟨_, chainIndices_eq [] _, hgen j hj dbg⟩
  · intro p
    constructor
    · rintro ⟨idx, hin, rfl⟩
      have hin0 := hin
      rw [hdb, hde] at hin
      match idx, hin, hin0 with
      | i :: is, hin, hin0 =>
        obtain ⟨i1, i2, i3⟩ := hin
        have hmod : ((i - b).toNat % s) < s := Nat.mod_lt _ hs
        have hle : (i - b).toNat % s ≤ (i - b).toNat := Nat.mod_le _ _
        refine ⟨(i - b).toNat % s, hmod, by omega, ((hex _ (by omega)).2 _).mpr ⟨i :: is, ?_, rfl⟩⟩
        rw [hrs, hdb, hde]
        refine ⟨(selectsIndex_strided hb he hs i).mpr ⟨(i - b).toNat / s, ?_, i2⟩, selects_all bs es is i3⟩
        have hdm := Nat.mod_add_div (i - b).toNat s
        have hdm' : ((i - b).toNat : Int) = ((((i - b).toNat % s : Nat) : Int)) + (((i - b).toNat / s : Nat) : Int) * (s : Int) := by
          rw [Int.mul_comm]
          exact_mod_cast hdm.symm
        omega
    · rintro ⟨j, _, hj, hp⟩
      obtain ⟨idx, x1, x2⟩ := ((hex j hj).2 p).mp hp
      exact ⟨idx, (hex j hj).1 idx x1, x2⟩
  · intro j j' hjs hj hjs' hj' hne
    refine (C70_views_disjoint_iff hr h (hno j) (hbuilt j) (hlen j) (hno j') (hbuilt j') (hlen j') (hgen j hj true) .refl (hgen j' hj' true) .refl).mpr ?_
    rw [hrs, hrs, hdb, hde]
    left
    rintro i ⟨a1, a2⟩
    obtain ⟨k, k1, _⟩ := (selectsIndex_strided hb he hs i).mp a1
    obtain ⟨k', k1', _⟩ := (selectsIndex_strided hb he hs i).mp a2
    have heq : j + k * s = j' + k' * s := by
      have : ((j + k * s : Nat) : Int) = ((j' + k' * s : Nat) : Int) := by push_cast; omega
      exact_mod_cast this
    have e1 : (j + k * s) % s = j := by rw [Nat.add_mul_mod_self_right, Nat.mod_eq_of_lt hjs]
    have e2 : (j' + k' * s) % s = j' := by rw [Nat.add_mul_mod_self_right, Nat.mod_eq_of_lt hjs']
    rw [heq] at e1
    exact hne (e1.symm.trans e2)

/-! ### Cases that meet the hypotheses -/

/-- Even and odd positions of the last dimension of `exArr` (bases -1, 5, 0; extents 2, 3, 4) inside the same row are separate: the views
satisfy the hypotheses, and the criterion decides. -/
example : ∃ (g g' : IndexGen) (v u : View), Built g ∧ Built g' ∧ NoOverrun exArr.desc.bases exArr.desc.extents g.ranges ∧
    NoOverrun exArr.desc.bases exArr.desc.extents g'.ranges ∧ generateArrayView true g exArr.desc = .ok v ∧
    generateArrayView true g' exArr.desc = .ok u ∧ v.extents = [3, 2] ∧ u.extents = [3, 2] ∧ NoOverlap v.desc u.desc := by
  refine ⟨⟨3, 2, [IndexRange.single 0, IndexRange.all, IndexRange.mk3 0 4 2]⟩, ⟨3, 2, [IndexRange.single 0, IndexRange.all, IndexRange.mk3 1 4 2]⟩,
    _, _, ?_, ?_, by decide, by decide, rfl, rfl, by decide, by decide, ?_⟩
  · exact .range (g := ⟨2, 1, [IndexRange.single 0, IndexRange.all]⟩) (.range (g := ⟨1, 0, [IndexRange.single 0]⟩)
      (.index (i := 0) .empty (by decide) (by decide) rfl) rfl) rfl
  · exact .range (g := ⟨2, 1, [IndexRange.single 0, IndexRange.all]⟩) (.range (g := ⟨1, 0, [IndexRange.single 0]⟩)
      (.index (i := 0) .empty (by decide) (by decide) rfl) rfl) rfl
  · refine (C70_views_disjoint_iff exArr_reachable .array (g := ⟨3, 2, [IndexRange.single 0, IndexRange.all, IndexRange.mk3 0 4 2]⟩)
      (g' := ⟨3, 2, [IndexRange.single 0, IndexRange.all, IndexRange.mk3 1 4 2]⟩) (by decide) ?_ rfl (by decide) ?_ rfl rfl .refl rfl .refl).mpr ?_
    · exact .range (g := ⟨2, 1, [IndexRange.single 0, IndexRange.all]⟩) (.range (g := ⟨1, 0, [IndexRange.single 0]⟩)
        (.index (i := 0) .empty (by decide) (by decide) rfl) rfl) rfl
    · exact .range (g := ⟨2, 1, [IndexRange.single 0, IndexRange.all]⟩) (.range (g := ⟨1, 0, [IndexRange.single 0]⟩)
        (.index (i := 0) .empty (by decide) (by decide) rfl) rfl) rfl
    · right; right; left
      rintro i ⟨⟨k, h1, _⟩, ⟨k', h2, _⟩⟩
      have h1 : i = 0 + (k : Int) * 2 := h1
      have h2 : i = 1 + (k' : Int) * 2 := h2
      omega

/-- Three strided views of a reversed-storage array with bases. -/
example : ∃ view : Nat → View, (∀ p, PointsInto exArr.desc p ↔ ∃ j, j < 3 ∧ j ≤ 2 ∧ PointsInto (view j).desc p) :=
  (C70_strided_views_partition exArr_reachable .array true (b := -1) (bs := [5, 0]) (e := 2) (es := [3, 4]) rfl rfl (by decide) (by decide)
    (s := 3) (by decide)).imp (fun _ h => h.2.1)

/-! ### Instances: the theorems applied to concrete cases, whose hypotheses are thereby met -/

example := C70_view_elements_exact exArr_reachable .array (g := exView) (by decide) exView_built rfl rfl .refl

/- end of instances -/

end MultiArray.Props
