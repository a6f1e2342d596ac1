import Verif.Lemmas.Abs
import Verif.Props.Copy

/- C52: any history of operations on a `multi_array` agrees with the abstract array. -/
set_option autoImplicit false

namespace MultiArray.Props
open MultiArray Spec
variable {T : Type}

/-- A write through `operator()` or a chain of `operator[]`. -/
theorem write_represents (dbg : Bool) {s : St T} {a : MArr} {abs : AbsArr T} (h : Represents s a abs) {idx : List Int}
    (hin : InBox abs.bases abs.extents idx) (v : T) :
    ∃ s', writeElem dbg a.ref.desc idx v s = .ok () s' ∧ writeChain dbg a.ref.desc idx v s = .ok () s' ∧
      Represents s' a { abs with vals := abs.vals.set (abs.at_ idx) v } := by
  have hr := h.owns.reach
  have hw := hr.wf.wellShaped
  have hin' : InBox a.ref.bases a.ref.extents idx := by rw [h.bases, h.extents]; exact hin
  have hadr := address_at hr.wf hin'
  have hat : place a.ref.storage a.ref.extents (posList a.ref.bases idx) = abs.at_ idx := by
    rw [h.order, h.extents, h.bases]; rfl
  rw [hat] at hadr
  have hlive := h.owns.live.handle hr.wf .array hin'
  have hup : Updates (assignCell (address a.ref.desc idx) v) (a.ref.data.blk) s :=
    assignCell_updates hlive (by rw [hadr]; rfl) v
  obtain ⟨old, ho⟩ := hlive
  obtain ⟨s', e1, e2, e3, e4⟩ := assignCell_ok ho v (.inl h.sched)
  obtain ⟨s2, e5, u⟩ := hup
  have hs2 : s2 = s' := by
    rcases e5 with ⟨_, e5⟩ | ⟨e5, _⟩
    · rw [e1] at e5; cases e5; rfl
    · rw [e1] at e5; cases e5
  subst hs2
  refine ⟨s2, ?_, ?_, h.upd u (by simp) ?_⟩
  · unfold writeElem
    rw [accessElement_inBox dbg _ _ hw.1 hin', Exec.lift_ok, pure_bind]
    exact e1
  · unfold writeChain
    rw [accessChain_full dbg _ _ hw.1 hin', Exec.lift_ok, pure_bind]
    exact e1
  · intro k hk
    rw [List.getElem?_set]
    have hg := h.owns.get k
    by_cases hka : abs.at_ idx = k
    · rw [if_pos hka, hka, if_pos hk]
      rw [St.get?_eq_some, e2, if_pos]
      rw [hadr, hka]
    · rw [if_neg hka, ← hg]
      unfold St.get?
      rw [e2, if_neg]
      rw [hadr, Ptr.add_inj]
      omega

/-- A read through `operator()` or a chain of `operator[]`. -/
theorem read_represents (dbg : Bool) {s : St T} {a : MArr} {abs : AbsArr T} (h : Represents s a abs) {idx : List Int}
    (hin : InBox abs.bases abs.extents idx) :
    ∃ v, abs.vals[abs.at_ idx]? = some v ∧ readElem dbg a.ref.desc idx s = .ok v s ∧ readChain dbg a.ref.desc idx s = .ok v s := by
  have hr := h.owns.reach
  have hw := hr.wf.wellShaped
  have hin' : InBox a.ref.bases a.ref.extents idx := by rw [h.bases, h.extents]; exact hin
  have hadr := address_at hr.wf hin'
  have hat : place a.ref.storage a.ref.extents (posList a.ref.bases idx) = abs.at_ idx := by
    rw [h.order, h.extents, h.bases]; rfl
  rw [hat] at hadr
  obtain ⟨v, hv⟩ := h.owns.live.handle hr.wf .array hin'
  refine ⟨v, by rw [← h.owns.get, ← hadr]; exact hv, ?_, ?_⟩
  · unfold readElem
    rw [accessElement_inBox dbg _ _ hw.1 hin', Exec.lift_ok, pure_bind]
    exact load_ok hv
  · unfold readChain
    rw [accessChain_full dbg _ _ hw.1 hin', Exec.lift_ok, pure_bind]
    exact load_ok hv

/-- The computation completes (no exceptions are due) with an update. -/
theorem updates_ok {α : Type} {x : Exec T α} {b : Nat} {s s' : St T} {v : α} (h : Updates x b s) (hx : x s = .ok v s') : Upd b s s' := by
  obtain ⟨s2, e, u⟩ := h
  rcases e with ⟨_, e⟩ | ⟨e, _⟩
  · rw [hx] at e; cases e; exact u
  · rw [hx] at e; cases e

/-- `assign(first,last)`. -/
theorem assign_represents {s : St T} {a : MArr} {abs : AbsArr T} (h : Represents s a abs) (input : List T) :
    ∃ s', a.ref.assign input s = .ok () s' ∧
      Represents s' a { abs with vals := input.take abs.vals.length ++ abs.vals.drop input.length } := by
  obtain ⟨s', e1, e2, e3, e4⟩ := assignLoop_ok input a.ref.numElems a.ref.base s h.owns.live h.sched
  have u := updates_ok (assignLoop_updates a.ref.numElems a.ref.base input a.ref.base.blk s rfl h.owns.live) e1
  have hl : abs.vals.length = a.ref.numElems := h.owns.len
  refine ⟨s', e1, h.upd u (by simp; omega) ?_⟩
  intro k hk
  by_cases hki : k < input.length
  · rw [List.getElem?_append_left (by simp; omega), List.getElem?_take_of_lt hk]
    exact e2 k (by omega) hki
  · rw [List.getElem?_append_right (by simp; omega), List.getElem?_drop, ← h.owns.get]
    have hcell := e3 (a.ref.base.add (k : Int)) (fun j _ hj => by rw [ne_eq, Ptr.add_inj]; omega)
    have hidx : input.length + (k - (List.take abs.vals.length input).length) = k := by simp; omega
    rw [hidx]
    unfold St.get?
    rw [show a.ref.data = a.ref.base from rfl, hcell]

/-- `for_each`. -/
theorem forEach_represents (dbg : Bool) {s : St T} {a : MArr} {abs : AbsArr T} (h : Represents s a abs) (f : T → T) :
    ∃ s', forEach dbg f a.ref.desc.extents.length a.ref.desc s = .ok () s' ∧ Represents s' a { abs with vals := abs.vals.map f } := by
  have hr := h.owns.reach
  obtain ⟨s', e1, e2, _, _⟩ := C56_for_each hr .array dbg f s h.owns.live h.sched
  have hup : Updates (forEach dbg f a.ref.desc.extents.length a.ref.desc) a.ref.data.blk s := by
    rw [forEach_eq dbg f _ hr.wf.wellShaped]
    apply mapSeq_updates
    intro p hp
    obtain ⟨i, hi, rfl⟩ := (mem_addrs _ p).mp hp
    exact ⟨h.owns.live.handle hr.wf .array hi, rfl⟩
  have u := updates_ok hup e1
  refine ⟨s', e1, h.upd u (by simp) ?_⟩
  intro p hp
  obtain ⟨k, hk, rfl⟩ := place_surj hr.wf (by rw [← h.owns.len]; exact hp)
  have hel := e2 k hk
  rw [h.owns.elem_place hk] at hel
  rw [List.getElem?_map, ← hel, ← address_place hr.wf hk]
  rfl

/-- The values after `resize`. -/
theorem resized_vals (dflt : T) {s s' : St T} {a a' : MArr} {abs : AbsArr T} (h : Represents s a abs) {es : List Nat} {ws : List T}
    {n : Nat} (ho : OwnsVals s' n a' ws) (he : a'.ref.extents = es) (hso : a'.ref.storage = a.ref.storage)
    (h1 : ∀ k, InShape a'.ref.extents k → InShape a.ref.extents k → elemAt s' a'.ref.desc k = elemAt s a.ref.desc k)
    (h2 : ∀ k, InShape a'.ref.extents k → ¬ InShape a.ref.extents k → elemAt s' a'.ref.desc k = some dflt) :
    ws = abs.resizedVals dflt es := by
  have hnum : a'.ref.numElements = es.prod := by
    rw [show a'.ref.numElements = a'.ref.numElems from rfl, ho.reach.wf.num_eq, product_eq, he]
  apply List.ext_getElem?
  intro p
  by_cases hp : p < es.prod
  · obtain ⟨k, hk, hkp⟩ := place_surj ho.reach.wf (show p < a'.ref.numElements by rw [hnum]; exact hp)
    have hel := ho.elem_place hk
    rw [hkp] at hel
    have hpl : ∀ j, place abs.order es j = place a'.ref.storage a'.ref.extents j := by
      intro j; rw [he, hso, h.order]
    have hfind : (positions es).find? (fun k => decide (place abs.order es k = p)) = some k := by
      cases hf : (positions es).find? (fun k => decide (place abs.order es k = p)) with
      | none =>
        rw [List.find?_eq_none] at hf
        have := hf k (by rw [positions_eq, mem_allPos, ← he]; exact hk)
        rw [hpl, hkp] at this
        simp at this
      | some j =>
        have hj := List.find?_some hf
        have hjm := List.mem_of_find?_eq_some hf
        rw [positions_eq, mem_allPos, ← he] at hjm
        have hj' : place abs.order es j = p := by simpa using hj
        rw [hpl, ← hkp] at hj'
        rw [place_inj ho.reach.wf hjm hk hj']
    have hres : (abs.resizedVals dflt es)[p]? =
        some (if InShape abs.extents k then abs.vals.getD (place abs.order abs.extents k) dflt else dflt) := by
      unfold AbsArr.resizedVals
      rw [List.getElem?_map, List.getElem?_range hp, Option.map_some, hfind]
    rw [hres, ← hel]
    by_cases hin : InShape a.ref.extents k
    · rw [h1 k hk hin, h.owns.elem_place hin, if_pos (by rw [← h.extents]; exact hin), h.order, h.extents]
      have hlt := place_lt h.owns.reach.wf hin
      rw [h.order, h.extents] at hlt
      rw [← h.owns.len] at hlt
      rw [List.getD_eq_getElem?_getD, List.getElem?_eq_getElem hlt]
      rfl
    · rw [h2 k hk hin, if_neg (by rw [← h.extents]; exact hin)]
  · rw [List.getElem?_eq_none (by rw [ho.len, hnum]; omega),
      List.getElem?_eq_none (by unfold AbsArr.resizedVals; simp; omega)]

/-- `resize`. -/
theorem resize_represents (dbg : Bool) (dflt : T) {s : St T} {a : MArr} {abs : AbsArr T} (h : Represents s a abs)
    {rs : List ExtentRange} (hl : rs.length = abs.extents.length) (hleg : LegalExtents rs)
    (hrep : Representable abs.bases abs.extents) :
    ∃ a' s', MArr.resize dbg dflt ⟨abs.extents.length, rs⟩ a s = (.ok () s', a') ∧
      Represents s' a' ⟨reqBases rs, reqExtents rs, abs.order, abs.resizedVals dflt (reqExtents rs)⟩ := by
  obtain ⟨a', s', e1, e2, e3, e4, e5, e6, e7, e8, e9, ⟨ws, e10⟩, e11, e12, e13, e14⟩ := resize_ok dbg dflt h.owns h.sane h.sched
    (by rw [h.bases, h.extents]; exact hrep) hl hleg
  refine ⟨a', s', e1, ?_, e2, e3, by rw [e4, h.order], e14, e13⟩
  show OwnsVals s' (reqExtents rs).length a' _
  have hn : (reqExtents rs).length = abs.extents.length := by simp [reqExtents, hl]
  rw [hn, ← resized_vals dflt h e10 e3 e4 e6 e7]
  exact e10

/-- **C52**, one operation: every legal operation on the library's array completes (no assertion, no undefined behaviour), returns what
the abstract array returns, and leaves an array that represents the new abstract array. -/
theorem C52_step_refines (dbg : Bool) (dflt : T) {s : St T} {a : MArr} {abs : AbsArr T} (h : Represents s a abs) (op : AOp T)
    (hleg : abs.Legal op) :
    ∃ o abs' a' s', abs.step dflt op = some (o, abs') ∧ concStep dbg dflt a s op = some (o, a', s') ∧ Represents s' a' abs' := by
  have hr := h.owns.reach
  have hnd : a.ref.numDims = abs.extents.length := by rw [← h.extents]; rfl
  cases op with
  | read idx =>
    obtain ⟨v, h1, h2, _⟩ := read_represents dbg h hleg
    exact ⟨.value v, abs, a, s, by simp [AbsArr.step, h1], by simp [concStep, h2, Out.val?], h⟩
  | readChain idx =>
    obtain ⟨v, h1, _, h2⟩ := read_represents dbg h hleg
    exact ⟨.value v, abs, a, s, by simp [AbsArr.step, h1], by simp [concStep, h2, Out.val?], h⟩
  | write idx v =>
    obtain ⟨s', h1, _, h2⟩ := write_represents dbg h hleg v
    exact ⟨.unit, _, a, s', rfl, by simp [concStep, h1, Out.val?], h2⟩
  | writeChain idx v =>
    obtain ⟨s', _, h1, h2⟩ := write_represents dbg h hleg v
    exact ⟨.unit, _, a, s', rfl, by simp [concStep, h1, Out.val?], h2⟩
  | reindex bs =>
    obtain ⟨ref, e1, e2, e3, _, e5, e6, e7, _⟩ := C11_reindex_relabels hr bs hleg
    exact ⟨.unit, _, { a with ref := ref }, s, rfl, by simp [concStep, e1, Res.val?],
      h.relabel (.reindexList hr e1) e6 e7 e2 (by rw [e3, h.extents]) e5⟩
  | reindexAll b =>
    obtain ⟨ref, e1, e2, e3, _, e5, e6, e7, _⟩ := C11_reindex_relabels hr (List.replicate abs.extents.length b) (by simp)
    have e8 := C11_reindex_all hr b
    rw [e1] at e8
    cases e8
    exact ⟨.unit, _, { a with ref := a.ref.reindexAll b }, s, rfl, rfl,
      h.relabel (.reindexAll hr) e6 e7 e2 (by rw [e3, h.extents]) e5⟩
  | reshape es =>
    obtain ⟨hl, hp⟩ := hleg
    have hp' : es.prod = a.ref.numElements := by rw [hp, h.num]
    obtain ⟨ref, e1, e2, e3, e4, e5, e6, _⟩ := C13_reshape_preserves hr dbg es hl hp'
    refine ⟨.unit, _, { a with ref := ref }, s, rfl, by simp [concStep, e1, Res.val?],
      h.relabel ?_ e3 e4 (by rw [e5, h.bases]) e2 e6⟩
    rw [hl]; exact .reshape hr hl hp' e1
  | assign input =>
    obtain ⟨s', h1, h2⟩ := assign_represents h input
    exact ⟨.unit, _, a, s', rfl, by simp [concStep, h1, Out.val?], h2⟩
  | forEach f =>
    obtain ⟨s', h1, h2⟩ := forEach_represents dbg h f
    exact ⟨.unit, _, a, s', rfl, by simp [concStep, h1, Out.val?], h2⟩
  | resize rs =>
    obtain ⟨a', s', h1, h2⟩ := resize_represents dbg dflt h hleg.1 hleg.2.1 hleg.2.2
    exact ⟨.unit, _, a', s', rfl, by simp [concStep, hnd, h1, Out.val?], h2⟩
  | resizeList es =>
    obtain ⟨hl, hes, hrep⟩ := hleg
    obtain ⟨a', s', h1, h2⟩ := resize_represents dbg dflt h (rs := es.map (fun (e : Nat) => ExtentRange.mk2 0 (e : Int)))
      (by simp [hl]) (extentList_legal hes) hrep
    rw [extentList_bases, extentList_extents] at h2
    exact ⟨.unit, _, a', s', rfl, by simp [concStep, resizeExtents_eq dbg dflt h.owns hl, h1, Out.val?], h2⟩
  | query =>
    have hsz : a.ref.size = .ok (abs.extents.headD 0) := by
      unfold ARef.size
      rw [h.extents]
      have : abs.extents ≠ [] := hleg
      cases he : abs.extents with
      | nil => exact absurd he this
      | cons e es => simp [Res.get]
    refine ⟨_, abs, a, s, rfl, ?_, h⟩
    have hst := strides_eq_strideOf hr
    rw [h.order, h.extents] at hst
    simp only [concStep, hsz, Res.val?, Option.map_some]
    rw [hnd, h.num, h.extents, h.bases, hst]

/-- **C52.** For every sequence of legal operations, of any length, on a `multi_array` that represents an abstract array: the library's
run completes, every operation returns the same value as on the abstract array, and the final array represents the final abstract
array. -/
theorem C52_history_refinement (dbg : Bool) (dflt : T) (ops : List (AOp T)) {s : St T} {a : MArr} {abs : AbsArr T}
    (h : Represents s a abs) (hleg : abs.LegalRun dflt ops) :
    ∃ obs abs' a' s', abs.run dflt ops = some (obs, abs') ∧ concRun dbg dflt ops a s = some (obs, a', s') ∧
      obs.length = ops.length ∧ Represents s' a' abs' := by
  induction ops generalizing s a abs with
  | nil => exact ⟨[], abs, a, s, rfl, rfl, rfl, h⟩
  | cons op ops ih =>
    obtain ⟨o, abs1, a1, s1, e1, e2, e3⟩ := C52_step_refines dbg dflt h op hleg.1
    obtain ⟨obs, abs', a', s', f1, f2, f3, f4⟩ := ih e3 (hleg.2 o abs1 e1)
    exact ⟨o :: obs, abs', a', s', by simp [AbsArr.run, e1, f1], by simp [concRun, e2, f2], by simp [f3], f4⟩

/-- **C52**, the start of a history: construction from an extent generator gives an array of default values. -/
theorem C52_construction (dflt : T) {n : Nat} {rs : List ExtentRange} (hl : rs.length = n) (hleg : LegalExtents rs) {so : StorageOrder}
    (hv : ValidOrder n so) (al : Nat) {s : St T} (hs : SaneHeap s) (hsched : s.sched = []) :
    ∃ a s', MArr.mkExtentGen dflt ⟨n, rs⟩ so al s = .ok a s' ∧
      Represents s' a ⟨reqBases rs, reqExtents rs, so, List.replicate (reqExtents rs).prod dflt⟩ := by
  obtain ⟨ref, hg, hreach, hb, hso, hbs, hes⟩ := ofExtentGen_ok Ptr.null ⟨n, rs⟩ rfl hl hv
  obtain ⟨s', h1, h2, h3, h4, h5⟩ := allocateSpace_ok dflt ref al s (noThrow_nil hsched _)
  have hes' : ref.extents = reqExtents rs := by rw [hes]; exact legalExtents_size hleg
  have hnum : ref.numElems = (reqExtents rs).prod := by rw [hreach.wf.num_eq, product_eq, hes']
  have ho := fresh_owns hreach dflt al hs h2
  refine ⟨⟨{ ref with base := ⟨s.next, 0⟩ }, ⟨s.next, 0⟩, ref.numElems, al⟩, s', ?_, ?_⟩
  · unfold MArr.mkExtentGen
    rw [hg, Exec.lift_ok, pure_bind]
    exact h1
  · have hn : (reqExtents rs).length = n := by simp [reqExtents, hl]
    refine ⟨?_, ?_, hes', hso, sane_fresh hs h3 h4, by rw [h5, hsched]; simp⟩
    · show OwnsVals s' (reqExtents rs).length _ _
      rw [hn, ← hnum]; exact ho
    · show ref.bases = _
      rw [hbs]; exact legalExtents_start rs

/-! ### A concrete history meeting the hypotheses -/

/-- A 1-dimensional abstract array with index base 3. -/
def exAbs : AbsArr Nat := ⟨[3], [2], ⟨[0], [true]⟩, [10, 20]⟩

/-- Write, relabel, read, double, query. -/
def exOps : List (AOp Nat) := [.write [4] 7, .reindexAll (-1), .read [0], .forEach (· * 2), .readChain [-1], .query]

theorem exAbs_represents : Represents (smallSt []) smallM exAbs :=
  ⟨smallM_owns [], rfl, rfl, rfl, ⟨by decide, fun b hb => by
    have h2 : 2 ≤ b := hb
    have h1 : b ≠ 1 := by omega
    simp [smallSt, h1]⟩, rfl⟩

/-- The history is legal, and the library's run gives the expected results. -/
example : exAbs.LegalRun 0 exOps ∧
    (concRun true 0 exOps smallM (smallSt [])).map (fun r => r.1) =
      some [.unit, .unit, .value 7, .unit, .value 20, .info 1 2 2 [2] [-1] [1]] := by
  refine ⟨?_, rfl⟩
  simp only [exOps, AbsArr.LegalRun, AbsArr.Legal, AbsArr.step, exAbs]
  simp (decide := true) [AbsArr.at_, posList, place, placeFrom]

/-! ### Instances: the theorems applied to concrete cases, whose hypotheses are thereby met -/

example := C52_step_refines true 0 exAbs_represents (.write [4] 7) (by simp (decide := true) [AbsArr.Legal])
example := C52_history_refinement true 0 exOps exAbs_represents (by
  simp only [exOps, AbsArr.LegalRun, AbsArr.Legal, AbsArr.step, exAbs]
  simp (decide := true) [AbsArr.at_, posList, place, placeFrom])

/- end of instances -/

end MultiArray.Props
