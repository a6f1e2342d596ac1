import Verif.Lemmas.ProgRep
import Verif.Props.Compare

/- Constructors and single-array operations as steps of whole programs. -/
set_option autoImplicit false

namespace MultiArray
open Spec Props
variable {T : Type}

/-- The values of an array whose elements are known by position. -/
theorem layout_vals (dflt : T) {s' : St T} {a' : MArr} {es : List Nat} {so : StorageOrder} {ws : List T}
    {n : Nat} (ho : OwnsVals s' n a' ws) (he : a'.ref.extents = es) (hso : a'.ref.storage = so) {f : List Nat → Option T}
    (h1 : ∀ k, InShape es k → elemAt s' a'.ref.desc k = f k) : ws = layout dflt so es f := by
  have hnum : a'.ref.numElements = es.prod := by
    rw [show a'.ref.numElements = a'.ref.numElems from rfl, ho.reach.wf.num_eq, product_eq, he]
  apply List.ext_getElem?
  intro p
  by_cases hp : p < es.prod
  · obtain ⟨k, hk, hkp⟩ := place_surj ho.reach.wf (show p < a'.ref.numElements by rw [hnum]; exact hp)
    have hel := ho.elem_place hk
    rw [hkp] at hel
    have hpl : ∀ j, place so es j = place a'.ref.storage a'.ref.extents j := by
      intro j; rw [he, hso]
    have hfind : (positions es).find? (fun k => decide (place so es k = p)) = some k := by
      cases hf : (positions es).find? (fun k => decide (place so es k = p)) with
      | none =>
        rw [List.find?_eq_none] at hf
        have := hf k (by rw [positions_eq, mem_allPos, ← he]; exact hk)
        rw [hpl, hkp] at this
        simp at this
      | some j =>
        have hj := List.find?_some hf
        have hjm := List.mem_of_find?_eq_some hf
        rw [positions_eq, mem_allPos, ← he] at hjm
        have hj' : place so es j = p := by simpa using hj
        rw [hpl, ← hkp] at hj'
        rw [place_inj ho.reach.wf hjm hk hj']
    have hres : (layout dflt so es f)[p]? = some ((f k).getD dflt) := by
      unfold layout
      rw [List.getElem?_map, List.getElem?_range hp, Option.map_some, hfind]
    have hlt : p < ws.length := by rw [ho.len, hnum]; exact hp
    rw [hres, ← hel]
    rw [h1 k (by rw [← he]; exact hk)] at hel ⊢
    rw [List.getElem?_eq_getElem hlt] at hel
    rw [hel]; rfl
  · rw [List.getElem?_eq_none (by rw [ho.len, hnum]; omega),
      List.getElem?_eq_none (by unfold layout; simp; omega)]

/-- A freshly constructed array of default values. -/
theorem fresh_represents (dflt : T) {n : Nat} {ref : ARef} (hr : Reachable n ref) (al : Nat) {s : St T} (hs : SaneHeap s) (hsched : s.sched = []) :
    ∃ m s', MArr.allocateSpace dflt ref al s = .ok m s' ∧
      Represents s' m ⟨ref.bases, ref.extents, ref.storage, List.replicate ref.extents.prod dflt⟩ ∧ m.ref.data.blk = s.next ∧
      (∀ c, c ≠ s.next → s'.heap c = s.heap c) := by
  obtain ⟨s', h1, h2, h3, h4, h5⟩ := allocateSpace_ok dflt ref al s (noThrow_nil hsched _)
  have hnum : ref.numElems = ref.extents.prod := by rw [hr.wf.num_eq, product_eq]
  have ho := fresh_owns hr dflt al hs h2
  refine ⟨_, s', h1, ⟨?_, rfl, rfl, rfl, sane_fresh hs h3 h4, by rw [h5, hsched]; simp⟩, rfl, h4⟩
  show OwnsVals s' ref.extents.length _ _
  rw [hr.wf.ext_len, ← hnum]
  exact ho

/-- Construction of a new variable. -/
theorem rep_new {w : World T} {A : AState T} (h : w.Rep A) {x : Nat} (hx : A x = none) {m : MArr} {s' : St T} {abs' : AbsArr T}
    (hr : Represents s' m abs') (hm : m.ref.data.blk = w.st.next) (hs : ∀ c, c ≠ w.st.next → s'.heap c = w.st.heap c) :
    (w.set x (some m) s').Rep (A.set x (some abs')) := by
  have hx' : w.objs x = none := by
    cases hh : w.objs x with
    | none => rfl
    | some a =>
      obtain ⟨abs, e, _⟩ := h.live x a hh
      rw [hx] at e; cases e
  exact h.fresh hr hm (by rw [hx']; simp) (fun c hc _ => hs c hc)

theorem partOf_wellShaped {n : Nat} {root : ARef} (hr : Reachable n root) {d : Desc} {p : APart} (h : PartOf root d p) : WellShaped d :=
  (h.handle.embedding hr.wf).1

theorem Spec.World.Rep.reach {w : World T} {A : AState T} (h : w.Rep A) {x : Nat} {a : MArr} (hx : w.objs x = some a) :
    ∃ n, Reachable n a.ref ∧ Live w.st a.ref := by
  obtain ⟨abs, _, e⟩ := h.live x a hx
  exact ⟨_, e.owns.reach, e.owns.live⟩

/-- The elements of a part, by position. -/
theorem rep_elem {w : World T} {A : AState T} (h : w.Rep A) {x : Nat} {a : MArr} (hx : w.objs x = some a) {d : Desc} {p : APart}
    (hp : PartOf a.ref d p) {k : List Nat} (hk : InShape p.extents k) :
    ∃ v, elemAt w.st d k = some v ∧ A.get x (p.root (atPos p.bases k)) = some v := by
  obtain ⟨n, hr, _⟩ := h.reach hx
  have hw := partOf_wellShaped hr hp
  have hin : InBox p.bases p.extents (atPos p.bases k) := by
    rw [← hp.bases]; exact inBox_atPos (by rw [hw.2, hp.extents]) hk
  obtain ⟨r1, r2⟩ := hp.root _ hin
  obtain ⟨v, g1, g2⟩ := h.get hx r1
  exact ⟨v, by unfold elemAt; rw [hp.bases, r2]; exact g1, g2⟩

/-- How an operation on one array changes storage: either only element values of its block, or its block is replaced by a new one. -/
def OpFrame (s s' : St T) (a a' : MArr) : Prop :=
  (a'.ref.data.blk = a.ref.data.blk ∧ Upd a.ref.data.blk s s') ∨
  (a'.ref.data.blk = s.next ∧ s'.heap a.ref.data.blk = none ∧ ∀ c, c ≠ a.ref.data.blk → c ≠ s.next → s'.heap c = s.heap c)

theorem concStep_frame (dbg : Bool) (dflt : T) {s s' : St T} {a a' : MArr} {abs : AbsArr T} (h : Represents s a abs) {op : AOp T}
    (hleg : abs.Legal op) {o : Obs T} (hc : concStep dbg dflt a s op = some (o, a', s')) : OpFrame s s' a a' := by
  have hr := h.owns.reach
  have hw := hr.wf.wellShaped
  have hnd : a.ref.numDims = abs.extents.length := by rw [← h.extents]; rfl
  have hup : ∀ {e : Exec T Unit}, Updates e a.ref.data.blk s → ∀ {s1 : St T}, e s = .ok () s1 → OpFrame s s1 a a :=
    fun hu _ he => .inl ⟨rfl, updates_ok hu he⟩
  cases op with
  | read idx =>
    obtain ⟨v, _, h2, _⟩ := read_represents dbg h hleg
    simp only [concStep, h2, Out.val?, Option.map_some, Option.some.injEq, Prod.mk.injEq] at hc
    obtain ⟨_, rfl, rfl⟩ := hc
    exact .inl ⟨rfl, .refl _ _⟩
  | readChain idx =>
    obtain ⟨v, _, _, h2⟩ := read_represents dbg h hleg
    simp only [concStep, h2, Out.val?, Option.map_some, Option.some.injEq, Prod.mk.injEq] at hc
    obtain ⟨_, rfl, rfl⟩ := hc
    exact .inl ⟨rfl, .refl _ _⟩
  | write idx v =>
    obtain ⟨s1, h1, _, _⟩ := write_represents dbg h hleg v
    simp only [concStep, h1, Out.val?, Option.map_some, Option.some.injEq, Prod.mk.injEq] at hc
    obtain ⟨_, rfl, rfl⟩ := hc
    have hin : InBox a.ref.bases a.ref.extents idx := (h.inBox idx).mpr hleg
    refine hup ?_ h1
    unfold writeElem
    rw [accessElement_inBox dbg _ _ hw.1 hin, Exec.lift_ok, pure_bind]
    exact assignCell_updates (h.owns.live.handle hr.wf .array hin) (handle_blk hr .array hin) v
  | writeChain idx v =>
    obtain ⟨s1, _, h1, _⟩ := write_represents dbg h hleg v
    simp only [concStep, h1, Out.val?, Option.map_some, Option.some.injEq, Prod.mk.injEq] at hc
    obtain ⟨_, rfl, rfl⟩ := hc
    have hin : InBox a.ref.bases a.ref.extents idx := (h.inBox idx).mpr hleg
    refine hup ?_ h1
    unfold writeChain
    rw [accessChain_full dbg _ _ hw.1 hin, Exec.lift_ok, pure_bind]
    exact assignCell_updates (h.owns.live.handle hr.wf .array hin) (handle_blk hr .array hin) v
  | reindex bs =>
    obtain ⟨ref, e1, _, _, _, _, e6, _⟩ := C11_reindex_relabels hr bs hleg
    simp only [concStep, e1, Res.val?, Option.map_some, Option.some.injEq, Prod.mk.injEq] at hc
    obtain ⟨_, rfl, rfl⟩ := hc
    exact .inl ⟨by show ref.data.blk = _; rw [e6], .refl _ _⟩
  | reindexAll b =>
    simp only [concStep, Option.some.injEq, Prod.mk.injEq] at hc
    obtain ⟨_, rfl, rfl⟩ := hc
    exact .inl ⟨rfl, .refl _ _⟩
  | reshape es =>
    obtain ⟨hl, hp⟩ := hleg
    obtain ⟨ref, e1, _, e3, _⟩ := C13_reshape_preserves hr dbg es hl (by rw [hp, h.num])
    simp only [concStep, e1, Res.val?, Option.map_some, Option.some.injEq, Prod.mk.injEq] at hc
    obtain ⟨_, rfl, rfl⟩ := hc
    exact .inl ⟨by show ref.data.blk = _; rw [e3], .refl _ _⟩
  | assign input =>
    obtain ⟨s1, h1, _⟩ := assign_represents h input
    simp only [concStep, h1, Out.val?, Option.map_some, Option.some.injEq, Prod.mk.injEq] at hc
    obtain ⟨_, rfl, rfl⟩ := hc
    exact hup (assignLoop_updates a.ref.numElems a.ref.base input a.ref.base.blk s rfl h.owns.live) h1
  | forEach f =>
    obtain ⟨s1, h1, _⟩ := forEach_represents dbg h f
    simp only [concStep, h1, Out.val?, Option.map_some, Option.some.injEq, Prod.mk.injEq] at hc
    obtain ⟨_, rfl, rfl⟩ := hc
    refine hup ?_ h1
    rw [forEach_eq dbg f _ hw]
    apply mapSeq_updates
    intro p hp
    obtain ⟨i, hi, rfl⟩ := (mem_addrs _ p).mp hp
    exact ⟨h.owns.live.handle hr.wf .array hi, rfl⟩
  | resize rs =>
    obtain ⟨a1, s1, e1, _, _, _, _, _, _, e8, _, _, e11, e12, _⟩ := resize_ok dbg dflt h.owns h.sane h.sched
      (by rw [h.bases, h.extents]; exact hleg.2.2) hleg.1 hleg.2.1
    simp only [concStep, hnd, e1, Out.val?, Option.map_some, Option.some.injEq, Prod.mk.injEq] at hc
    obtain ⟨_, rfl, rfl⟩ := hc
    exact .inr ⟨by rw [e8], e11, e12⟩
  | resizeList es =>
    obtain ⟨hl, hes, hrep⟩ := hleg
    obtain ⟨a1, s1, e1, _, _, _, _, _, _, e8, _, _, e11, e12, _⟩ := resize_ok dbg dflt h.owns h.sane h.sched
      (by rw [h.bases, h.extents]; exact hrep) (rs := es.map (fun (e : Nat) => ExtentRange.mk2 0 (e : Int))) (by simp [hl]) (extentList_legal hes)
    simp only [concStep, resizeExtents_eq dbg dflt h.owns hl, e1, Out.val?, Option.map_some, Option.some.injEq, Prod.mk.injEq] at hc
    obtain ⟨_, rfl, rfl⟩ := hc
    exact .inr ⟨by rw [e8], e11, e12⟩
  | query =>
    simp only [concStep] at hc
    cases hz : a.ref.size with
    | ok sz =>
      simp only [hz, Res.val?, Option.map_some, Option.some.injEq, Prod.mk.injEq] at hc
      obtain ⟨_, rfl, rfl⟩ := hc
      exact .inl ⟨rfl, .refl _ _⟩
    | assertFail => simp [hz, Res.val?] at hc
    | ub => simp [hz, Res.val?] at hc

end MultiArray
