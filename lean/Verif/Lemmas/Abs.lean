import Verif.SpecAbs
import Verif.Lemmas.Hist
import Verif.Props.Layout

/- Lemmas for the refinement to the abstract array (SpecAbs.lean). -/
set_option autoImplicit false

namespace MultiArray
open Spec Props
variable {T : Type}

theorem placeFrom_eq (asc : List Bool) (exts k ord : List Nat) :
    placeFrom asc exts k ord = mixed exts (digit asc exts (fun d => k.getD d 0)) ord := by
  induction ord with
  | nil => rfl
  | cons d ds ih => simp only [placeFrom, mixed, ih, digit]

theorem place_eq (a : ARef) (k : List Nat) : place a.storage a.extents k = a.flat (fun d => k.getD d 0) :=
  placeFrom_eq _ _ _ _

theorem Spec.InShape.getD_lt {es k : List Nat} (h : InShape es k) (d : Nat) (hd : d < es.length) : k.getD d 0 < es.getD d 0 := by
  induction es generalizing k d with
  | nil => simp at hd
  | cons e es ih => match k, h with
    | x :: k, h => cases d with
      | zero => simpa using h.1
      | succ d => simpa using ih h.2 d (by simpa using hd)

theorem inShape_of_getD {es k : List Nat} (hl : k.length = es.length) (h : ∀ d, d < es.length → k.getD d 0 < es.getD d 0) :
    InShape es k := by
  induction es generalizing k with
  | nil => match k, hl with | [], _ => trivial
  | cons e es ih => match k, hl with
    | x :: k, hl =>
      refine ⟨by simpa using h 0 (by simp), ih (by simpa using hl) ?_⟩
      intro d hd
      simpa using h (d + 1) (by simpa using hd)

theorem posList_getD {bs idx : List Int} (d : Nat) (h1 : d < bs.length) (h2 : d < idx.length) :
    (posList bs idx).getD d 0 = posOf bs idx d := by
  simp [posList, posOf, List.getD_eq_getElem?_getD, h1, h2]

theorem posList_inShape {bs idx : List Int} {es : List Nat} (h : InBox bs es idx) : InShape es (posList bs idx) := by
  induction es generalizing bs idx with
  | nil => match bs, idx, h with | [], [], _ => trivial
  | cons e es ih => match bs, idx, h with
    | b :: bs, i :: idx, h =>
      obtain ⟨h1, h2, h3⟩ := h
      refine ⟨?_, ih h3⟩
      show (i - b).toNat < e
      omega

theorem atPos_posList {bs idx : List Int} {es : List Nat} (h : InBox bs es idx) : atPos bs (posList bs idx) = idx := by
  induction es generalizing bs idx with
  | nil => match bs, idx, h with | [], [], _ => rfl
  | cons e es ih => match bs, idx, h with
    | b :: bs, i :: idx, h =>
      obtain ⟨h1, h2, h3⟩ := h
      have := ih h3
      simp only [atPos, posList] at this
      simp only [atPos, posList, List.zipWith_cons_cons, this, List.cons.injEq, and_true]
      omega

/-- The address of the element at zero-based position `k`. -/
theorem address_place {n : Nat} {a : ARef} (h : a.WF n) {k : List Nat} (hk : InShape a.extents k) :
    address a.desc (atPos a.bases k) = a.data.add (place a.storage a.extents k : Nat) := by
  have hb : a.bases.length = a.extents.length := by rw [h.bases_len, h.ext_len]
  have hin : InBox a.bases a.extents (atPos a.bases k) := inBox_atPos hb hk
  have e1 := h.paren_ok true hin
  rw [h.paren_flat true hin] at e1
  have e2 : a.data.add (a.flat (posOf a.bases (atPos a.bases k)) : Nat) = a.origin.add (dot (atPos a.bases k) a.strides) := by
    injection e1
  show a.origin.add (dot (atPos a.bases k) a.strides) = _
  rw [← e2, place_eq, ARef.flat_congr h]
  intro d hd
  exact posOf_atPos (by rw [hb, hk.length]) d (by rw [hk.length, h.ext_len]; exact hd)

theorem place_lt {n : Nat} {a : ARef} (h : a.WF n) {k : List Nat} (hk : InShape a.extents k) :
    place a.storage a.extents k < a.numElements := by
  rw [place_eq]
  exact h.flat_lt _ (fun d hd => hk.getD_lt d (by rw [h.ext_len]; exact hd))

theorem list_ext_getD {k k' : List Nat} (hl : k.length = k'.length) (h : ∀ d, d < k.length → k.getD d 0 = k'.getD d 0) : k = k' := by
  apply List.ext_getElem hl
  intro d h1 h2
  have := h d h1
  rw [List.getD_eq_getElem?_getD, List.getD_eq_getElem?_getD, List.getElem?_eq_getElem h1, List.getElem?_eq_getElem h2] at this
  simpa using this

theorem place_inj {n : Nat} {a : ARef} (h : a.WF n) {k k' : List Nat} (hk : InShape a.extents k) (hk' : InShape a.extents k')
    (heq : place a.storage a.extents k = place a.storage a.extents k') : k = k' := by
  rw [place_eq, place_eq] at heq
  have := h.flat_inj _ _ (fun d hd => hk.getD_lt d (by rw [h.ext_len]; exact hd))
    (fun d hd => hk'.getD_lt d (by rw [h.ext_len]; exact hd)) heq
  apply list_ext_getD (by rw [hk.length, hk'.length])
  intro d hd
  exact this d (by rw [← h.ext_len, ← hk.length]; exact hd)

theorem place_surj {n : Nat} {a : ARef} (h : a.WF n) {p : Nat} (hp : p < a.numElements) :
    ∃ k, InShape a.extents k ∧ place a.storage a.extents k = p := by
  obtain ⟨f, hf, he⟩ := h.flat_surj p hp
  have hg : ∀ d, d < n → ((List.range n).map f).getD d 0 = f d := by
    intro d hd
    simp [List.getD_eq_getElem?_getD, hd]
  refine ⟨(List.range n).map f, inShape_of_getD (by simp [h.ext_len]) ?_, ?_⟩
  · intro d hd
    rw [h.ext_len] at hd
    rw [hg d hd]; exact hf d hd
  · rw [place_eq, ← he]
    exact ARef.flat_congr h _ _ hg

theorem address_at {n : Nat} {a : ARef} (h : a.WF n) {idx : List Int} (hin : InBox a.bases a.extents idx) :
    address a.desc idx = a.data.add (place a.storage a.extents (posList a.bases idx) : Nat) := by
  rw [← address_place h (posList_inShape hin), atPos_posList hin]

theorem Spec.OwnsVals.elem_place {n : Nat} {s : St T} {a : MArr} {vs : List T} (h : OwnsVals s n a vs) {k : List Nat}
    (hk : InShape a.ref.extents k) : elemAt s a.ref.desc k = vs[place a.ref.storage a.ref.extents k]? := by
  rw [← h.get, ← address_place h.reach.wf hk]; rfl

/-- Only values of the array's block changed, and they are now `new`. -/
theorem Spec.OwnsVals.replace {n : Nat} {s s' : St T} {a : MArr} {vs new : List T} {b : Nat} (h : OwnsVals s n a vs) (u : Upd b s s')
    (hl : new.length = vs.length) (hg : ∀ k : Nat, k < vs.length → s'.get? (a.ref.data.add (k : Int)) = new[k]?) :
    OwnsVals s' n a new := by
  obtain ⟨ws, hw⟩ := h.upd u
  have : ws = new := by
    apply List.ext_getElem?
    intro k
    have hlen : ws.length = vs.length := by rw [hw.len, h.len]
    by_cases hk : k < vs.length
    · rw [← hg k hk, hw.get]
    · rw [List.getElem?_eq_none (by omega), List.getElem?_eq_none (by omega)]
  rw [← this]; exact hw

theorem takeWhile_ne_eq_take {l : List Nat} (hnd : l.Nodup) {m d : Nat} (hm : l[m]? = some d) :
    l.takeWhile (fun x => decide (x ≠ d)) = l.take m := by
  induction l generalizing m with
  | nil => simp at hm
  | cons x l ih =>
    rw [List.nodup_cons] at hnd
    cases m with
    | zero =>
      have : x = d := by simpa using hm
      subst this
      simp
    | succ m =>
      have hm' : l[m]? = some d := by simpa using hm
      have hx : x ≠ d := by rintro rfl; exact hnd.1 (List.mem_of_getElem? hm')
      simp only [List.takeWhile_cons, decide_eq_true hx, if_true, List.take_succ_cons, ih hnd.2 hm']

theorem strides_eq_strideOf {n : Nat} {a : ARef} (h : Reachable n a) :
    a.strides = (List.range a.extents.length).map (strideOf a.storage a.extents) := by
  apply List.ext_getElem?
  intro d
  by_cases hd : d < n
  · have hmem := (h.wf.order.mem_iff d).mpr hd
    obtain ⟨m, hm⟩ := List.getElem?_of_mem hmem
    rw [C05_stride_formula h m d hm]
    simp only [List.getElem?_map, h.wf.ext_len, List.getElem?_range hd, Option.map_some, strideOf,
      takeWhile_ne_eq_take h.wf.order.nodup hm]
  · rw [List.getElem?_eq_none (by rw [h.wf.strides_len]; omega), List.getElem?_eq_none (by simp [h.wf.ext_len]; omega)]

theorem Spec.Represents.dims {s : St T} {a : MArr} {abs : AbsArr T} (h : Represents s a abs) :
    a.ref.extents.length = abs.extents.length := by rw [h.extents]

theorem Spec.Represents.num {s : St T} {a : MArr} {abs : AbsArr T} (h : Represents s a abs) :
    a.ref.numElements = abs.extents.prod := by
  rw [show a.ref.numElements = a.ref.numElems from rfl, h.owns.reach.wf.num_eq, product_eq, h.extents]

/-- An update of element values. -/
theorem Spec.Represents.upd {s s' : St T} {a : MArr} {abs : AbsArr T} {new : List T} {b : Nat} (h : Represents s a abs) (u : Upd b s s')
    (hl : new.length = abs.vals.length) (hg : ∀ k : Nat, k < abs.vals.length → s'.get? (a.ref.data.add (k : Int)) = new[k]?) :
    Represents s' a { abs with vals := new } :=
  ⟨h.owns.replace u hl hg, h.bases, h.extents, h.order, u.saneHeap h.sane, u.nil h.sched⟩

/-- A change of the header that keeps block and element count. -/
theorem Spec.Represents.relabel {s : St T} {a : MArr} {abs : AbsArr T} (h : Represents s a abs) {ref : ARef} {bs : List Int} {es : List Nat}
    (hr : Reachable es.length ref) (hd : ref.data = a.ref.data) (hn : ref.numElements = a.ref.numElements) (hb : ref.bases = bs)
    (he : ref.extents = es) (ho : ref.storage = a.ref.storage) :
    Represents s { a with ref := ref } { abs with bases := bs, extents := es } :=
  ⟨⟨hr, by rw [hd]; exact h.owns.start, by rw [hd]; exact h.owns.notNull, by rw [hd]; exact h.owns.own,
    by rw [hn]; exact h.owns.count, by rw [hd]; exact h.owns.block, by rw [hn]; exact h.owns.len⟩,
   hb, he, by rw [ho]; exact h.order, h.sane, h.sched⟩

end MultiArray
