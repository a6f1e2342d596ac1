import Verif.SpecProg
import Verif.Lemmas.Compose
import Verif.Lemmas.Flat
import Verif.Props.Abs
import Verif.Props.Iter

/- Lemmas for the refinement of whole programs (SpecProg.lean): expressions that denote parts. -/
set_option autoImplicit false

namespace MultiArray
open Spec Props
variable {T : Type}

theorem filter_range_lt (p : Nat → Bool) (m e : Nat) (hm : m ≤ e) (hp : ∀ k, k < e → (p k = true ↔ k < m)) :
    ((List.range e).filter p).length = m := by
  induction e generalizing m with
  | zero => simp at hm; simp [hm]
  | succ e ih =>
    rw [List.range_succ, List.filter_append, List.length_append]
    by_cases h : m = e + 1
    · have h1 := ih e (Nat.le_refl e) (fun k hk => by rw [hp k (by omega)]; omega)
      have h2 : p e = true := by rw [hp e (by omega)]; omega
      rw [h1]; simp [h2, h]
    · have h1 := ih m (by omega) (fun k hk => hp k (by omega))
      have h2 : ¬ p e = true := by rw [hp e (by omega)]; omega
      rw [h1]; simp [h2]

theorem stepCount_eq {r : IndexRange} {b : Int} {e : Nat} (h : LegalRange b e r) (hno : r.stride_ < 0 → rangeStart r b ≠ b + (e : Int)) :
    stepCount r b e = (viewLen (rangeStart r b) (rangeFinish r b e) r.stride_).toNat := by
  obtain ⟨h0, ⟨h1, h2⟩, h3⟩ := h
  have hV := viewLen_iff (rangeStart r b) (rangeFinish r b e) r.stride_ h0
  have hnn := viewLen_nonneg (rangeStart r b) (rangeFinish r b e) r.stride_ h0
  generalize viewLen (rangeStart r b) (rangeFinish r b e) r.stride_ = V at hV hnn
  unfold stepCount
  apply filter_range_lt
  · by_contra hc
    have := (hV e).mp (by omega)
    unfold Before at this
    by_cases ht : 0 < r.stride_
    · rw [if_pos ht] at this
      rw [if_neg (by omega)] at h3
      have : (e : Int) * 1 ≤ (e : Int) * r.stride_ := Int.mul_le_mul_of_nonneg_left (by omega) (by omega)
      omega
    · rw [if_neg ht] at this
      rw [if_pos (by omega)] at h3
      have := hno (by omega)
      have : (e : Int) * r.stride_ ≤ (e : Int) * (-1) := Int.mul_le_mul_of_nonneg_left (by omega) (by omega)
      omega
  · intro k _
    rw [show (k < V.toNat ↔ (k : Int) < V) from by omega, hV k]
    unfold Before
    by_cases ht : 0 < r.stride_
    · simp [ht]
    · simp [ht]

theorem viewCounts_eq {rs : List IndexRange} {bs : List Int} {es : List Nat} (h : LegalRanges bs es rs) (hno : NoOverrun bs es rs) :
    viewCounts rs bs es = (selExtents rs bs es).map Int.toNat := by
  induction es generalizing bs rs with
  | nil => match bs, rs, h with | [], [], _ => rfl
  | cons e es ih => match bs, rs, h, hno with
    | b :: bs, r :: rs, h, hno =>
      have := ih h.2 hno.2
      simp only [viewCounts, selExtents]
      cases hd : r.degenerate_ with
      | true => simpa using this
      | false => simp [this, stepCount_eq h.1 hno.1]

/-- The descriptor `d` denotes the abstract part `p` of the array `root`. -/
structure PartOf (root : ARef) (d : Desc) (p : APart) : Prop where
  handle : Handle root d
  bases : d.bases = p.bases
  extents : d.extents = p.extents
  root : ∀ idx, InBox p.bases p.extents idx → InBox root.bases root.extents (p.root idx) ∧ address d idx = address root.desc (p.root idx)

theorem numRanged_ranges (xs : List IndexArg) (h : ∀ r, IndexArg.range r ∈ xs → r.degenerate_ = false) :
    numRanged (xs.map IndexArg.toRange) = (xs.filter IndexArg.isRange).length := by
  induction xs with
  | nil => rfl
  | cons x xs ih =>
    have := ih (fun r hr => h r (by simp [hr]))
    rw [List.map_cons, numRanged_cons, this]
    cases x with
    | index i => simp [IndexArg.toRange, IndexArg.isRange]
    | range r =>
      have hr := h r (by simp)
      rw [List.filter_cons_of_pos (by rfl)]
      simp [IndexArg.toRange, hr]; omega

theorem partOf_at {n : Nat} {root : ARef} (hr : root.WF n) (dbg : Bool) {d : Desc} {p : APart} (h : PartOf root d p) {i : Int}
    (hleg : p.LegalSel (.at i)) : ∃ d', access dbg i d = .ok d' ∧ PartOf root d' (p.sel (.at i)) := by
  obtain ⟨b, bs, e, es, hb, he, h1, h2⟩ := hleg
  obtain ⟨hw, _⟩ := h.handle.embedding hr
  have hdb := h.bases
  have hde := h.extents
  rw [hb] at hdb
  rw [he] at hde
  obtain ⟨q, es', ss, bs'⟩ := d
  simp only at hdb hde
  subst hdb
  subst hde
  match ss, hw with
  | s :: ss, hw =>
    refine ⟨_, access_ok dbg i q e es s ss b bs h1 h2, .sub h.handle (access_ok true i q e es s ss b bs h1 h2), ?_, ?_, ?_⟩
    · simp [APart.sel, hb]
    · simp [APart.sel, he]
    · intro idx hin
      simp only [APart.sel, hb, he, List.tail_cons] at hin
      have := h.root (i :: idx) (by rw [hb, he]; exact ⟨h1, h2, hin⟩)
      refine ⟨this.1, ?_⟩
      show _ = address root.desc (p.root (i :: idx))
      rw [← this.2]
      simp only [address, dot, Ptr.add_add]

theorem partOf_view {n : Nat} {root : ARef} (hr : root.WF n) (dbg : Bool) {d : Desc} {p : APart} (h : PartOf root d p) {xs : List IndexArg}
    (hleg : LegalArgs p xs) :
    chainIndices IndexGen.empty xs = .ok (idxGen xs) ∧ generateArrayView dbg (idxGen xs) d = .ok (theView (idxGen xs) d) ∧
    (theView (idxGen xs) d).extents = viewCounts (xs.map IndexArg.toRange) p.bases p.extents ∧
    ∀ v', ViewHistory (theView (idxGen xs) d) v' →
      PartOf root v'.desc ⟨v'.bases, viewCounts (xs.map IndexArg.toRange) p.bases p.extents,
        fun idx => p.root (selected (xs.map IndexArg.toRange) p.bases (relPos idx v'.bases))⟩ := by
  obtain ⟨hne, hl, hno, hrng, hidx⟩ := hleg
  obtain ⟨hw, _⟩ := h.handle.embedding hr
  have hrs : (idxGen xs).ranges = xs.map IndexArg.toRange := by
    simp [idxGen, genList, hne]
  have hl' : LegalRanges d.bases d.extents (idxGen xs).ranges := by rw [hrs, h.bases, h.extents]; exact hl
  have hno' : NoOverrun d.bases d.extents (idxGen xs).ranges := by rw [hrs, h.bases, h.extents]; exact hno
  have hnum : numRanged (idxGen xs).ranges = (idxGen xs).numDims := by rw [hrs]; exact numRanged_ranges xs hrng
  have hbuilt := built_idxGen xs hidx
  have hgen := genView_legal dbg (idxGen xs) d hw hl' hnum
  have hext : (theView (idxGen xs) d).extents = viewCounts (xs.map IndexArg.toRange) p.bases p.extents := by
    rw [theView_extents, viewCounts_eq hl hno, hrs, h.bases, h.extents]
  have hzr : (idxGen xs).ranges.length ≠ 0 := by rw [hrs]; simpa using hne
  refine ⟨?_, hgen, hext, ?_⟩
  · exact chainIndices_eq [] xs
  · intro v' hh
    obtain ⟨w, h1, h2, h3, _⟩ := ViewHistory_facts hh (theView_wf _ d hw hl')
    refine ⟨handle_view hr h.handle hno' hbuilt hl'.length.1 (genView_legal true _ d hw hl' hnum) hh, rfl, by rw [← hext]; exact h2, ?_⟩
    intro idx hin
    have hin' : InBox v'.bases v'.extents idx := by rw [h2, hext]; exact hin
    have hrel := inBox_relPos _ _ _ hin'
    have hextlen : v'.extents.length = numRanged (idxGen xs).ranges := by
      rw [h2, theView_extents, List.length_map, selExtents_length _ _ _ hl'.length.1 hl'.length.2]
    have hsel : InBox d.bases d.extents (selected (idxGen xs).ranges d.bases (relPos idx v'.bases)) := by
      apply selected_inBox _ _ _ _ hl' hno' (hbuilt.degenerate hzr hnum)
      rw [hextlen, h2, theView_extents] at hrel
      exact hrel
    rw [hrs, h.bases, h.extents] at hsel
    obtain ⟨e1, e2⟩ := h.root _ hsel
    refine ⟨e1, ?_⟩
    rw [view_address hw hl' hh idx hin'.length.1, hrs, h.bases, ← e2]

theorem relPos_replicate (idx : List Int) (n : Nat) (h : idx.length = n) : relPos idx (List.replicate n 0) = idx := relPos_zero n idx h

/-- The library's evaluation of an expression gives a descriptor of the part it denotes. -/
theorem resolve_ok {n : Nat} {root : ARef} (hr : root.WF n) (dbg : Bool) (ss : List Sel) {d : Desc} {p : APart} (h : PartOf root d p)
    (hleg : p.LegalPath ss) : ∃ d', resolve dbg ss d = .ok d' ∧ PartOf root d' (p.path ss) := by
  induction ss generalizing d p with
  | nil => exact ⟨d, rfl, h⟩
  | cons s ss ih =>
    obtain ⟨h1, h2⟩ := hleg
    cases s with
    | «at» i =>
      obtain ⟨d', e1, e2⟩ := partOf_at hr dbg h h1
      obtain ⟨d'', e3, e4⟩ := ih e2 h2
      exact ⟨d'', by simp only [resolve, Desc.bracket, e1, Res.bind_ok, e3], e4⟩
    | view xs =>
      obtain ⟨e1, e2, e3, e4⟩ := partOf_view hr dbg h h1
      have := e4 _ .refl
      have hb : (theView (idxGen xs) d).bases = List.replicate (viewCounts (xs.map IndexArg.toRange) p.bases p.extents).length 0 := by
        rw [← e3]; simp [theView, View.mkView]
      rw [hb] at this
      have hp : PartOf root (theView (idxGen xs) d).desc (p.sel (.view xs)) := by
        refine ⟨this.handle, this.bases, this.extents, ?_⟩
        intro idx hin
        have h' := this.root idx hin
        have hl : idx.length = (viewCounts (xs.map IndexArg.toRange) p.bases p.extents).length := hin.length.1
        simp only [relPos_replicate _ _ hl] at h'
        exact h'
      obtain ⟨d'', e5, e6⟩ := ih hp h2
      exact ⟨d'', by simp only [resolve, e1, Res.bind_ok, Desc.slice, e2, e5], e6⟩
    | viewFrom xs bs =>
      obtain ⟨hla, hlen⟩ := h1
      obtain ⟨e1, e2, e3, e4⟩ := partOf_view hr dbg h hla
      have hri : (theView (idxGen xs) d).reindexList bs = .ok { theView (idxGen xs) d with
          bases := bs, originOffset := calcIndexingOffset (theView (idxGen xs) d).strides bs } := by
        have hl : (theView (idxGen xs) d).extents.length = bs.length := by rw [e3, hlen]
        unfold View.reindexList
        simp [copyN, View.numDims, hl]
      have := e4 _ (.reindexList .refl hri)
      obtain ⟨d'', e5, e6⟩ := ih (p := p.sel (.viewFrom xs bs)) ⟨this.handle, this.bases, this.extents, this.root⟩ h2
      exact ⟨d'', by simp only [resolve, e1, Res.bind_ok, Desc.slice, e2, hri, e5], e6⟩

end MultiArray
