import Verif.SpecChain
import Verif.Props.Own
import Verif.Props.Store

/-
Property theorems C108: chains of conversions between storage orders.
-/
set_option autoImplicit false

namespace MultiArray.Props
open MultiArray MultiArray.Spec
variable {T : Type}

theorem chain_step (dbg : Bool) (dflt : T) {n : Nat} (hn : 0 < n) {s : St T} {src : Desc} (hsrc : Readable s n src)
    (hs : SaneHeap s) (hsched : s.sched = []) {so : StorageOrder} (hso : ValidOrder n so) (alloc : Nat) :
    ∃ c s', MArr.mkConvert dbg dflt src so alloc s = .ok c s' ∧ c.ref.extents = src.extents ∧ c.ref.bases = src.bases ∧ c.ref.storage = so ∧
      c.alloc = alloc ∧ c.ref.data = ⟨s.next, 0⟩ ∧ (∃ vs, OwnsVals s' n c vs) ∧ SameExcept s.next s s' ∧ SaneHeap s' ∧ s'.sched = [] ∧ s'.next = s.next + 1 ∧
      ∀ k, InShape src.extents k → elemAt s' c.ref.desc k = elemAt s src k := by
  obtain ⟨m, root, hr, hh, hl, hlen⟩ := hsrc
  have hw := handle_wellShaped hr hh
  obtain ⟨c, s', h1, h2, h3, h4, h5, h6, h7, h8, ⟨j, h9⟩, h10⟩ := mkConvert_spec dbg dflt hn hw hlen (fun idx hidx => hl.handle hr.wf hh hidx) hs hso alloc
  rcases h6 with ⟨h6, h6', h6''⟩ | ⟨_, hcontra, _⟩
  · exact ⟨c, s', h6, h2, h3, h4, h5, h1, h6', h7, h8, by rw [h9, hsched]; simp, h6'', (h10 (noThrow_nil hsched _)).2⟩
  · exact absurd (noThrow_nil hsched _) hcontra

/-- **C108.** Constructing arrays from one another through any sequence of storage orders: every construction succeeds, the last array has the shape, the index bases and,
at every position, the element of the first source, and the requested storage order and allocator; everything that existed before is unchanged. -/
theorem C108_conversion_chain (dbg : Bool) (dflt : T) {n : Nat} (hn : 0 < n) {s : St T} {src : Desc} (hsrc : Readable s n src)
    (hs : SaneHeap s) (hsched : s.sched = []) (first : StorageOrder × Nat) (more : List (StorageOrder × Nat))
    (hso : ∀ o ∈ first :: more, ValidOrder n o.1) :
    ∃ c s', convertChain dbg dflt src first more s = .ok c s' ∧ c.ref.extents = src.extents ∧ c.ref.bases = src.bases ∧
      some (c.ref.storage, c.alloc) = (first :: more).getLast? ∧ Owns s' n c ∧
      (∀ b, b < s.next → s'.heap b = s.heap b) ∧ s.next ≤ c.ref.data.blk ∧ SaneHeap s' ∧ s'.sched = [] ∧
      ∀ k, InShape src.extents k → elemAt s' c.ref.desc k = elemAt s src k := by
  induction more generalizing s src first with
  | nil =>
    obtain ⟨c, s', h1, h2, h3, h4, h5, h6, h7, h8, h9, h10, _, h12⟩ := chain_step dbg dflt hn hsrc hs hsched (hso first (by simp)) first.2
    exact ⟨c, s', h1, h2, h3, by simp [h4, h5], h7, fun b hb => h8 b (by omega), by rw [h6], h9, h10, h12⟩
  | cons o more ih =>
    obtain ⟨c, s1, h1, h2, h3, h4, h5, h6, ⟨vs, h7⟩, h8, h9, h10, h11, h12⟩ := chain_step dbg dflt hn hsrc hs hsched (hso first (by simp)) first.2
    have hrd : Readable s1 n c.ref.desc := ⟨n, c.ref, h7.reach, .array, h7.live, h7.reach.wf.ext_len⟩
    obtain ⟨c', s', g1, g2, g3, g4, g5, g6, g7, g8, g9, g10⟩ := ih hrd h9 h10 o (fun x hx => hso x (List.mem_cons_of_mem _ hx))
    refine ⟨c', s', ?_, g2.trans h2, g3.trans h3, by rw [g4, List.getLast?_cons_cons], g5, fun b hb => ?_, by omega, g8, g9, fun k hk => ?_⟩
    · simp only [convertChain]
      rw [Exec.bind_ok h1]; exact g1
    · rw [g6 b (by omega), h8 b (by omega)]
    · rw [g10 k (by rw [show c.ref.desc.extents = src.extents from h2]; exact hk), h12 k hk]

/-- Every place of the block is that of an element. -/
theorem storageRank_surj {n : Nat} {a : ARef} (ha : Reachable n a) {i : Nat} (hi : i < a.numElements) :
    ∃ k, InShape a.extents k ∧ storageRank a.storage a.extents k = i := by
  have hb : a.bases.length = a.extents.length := by rw [ha.wf.bases_len, ha.wf.ext_len]
  obtain ⟨idx, ⟨h1, h2⟩, _⟩ := C03_every_element_addressable ha true i hi
  obtain ⟨k, hk, rfl⟩ := inBox_atPos_iff hb idx h1
  refine ⟨k, hk, ?_⟩
  have := Res.ok.inj ((C05_layout_formula ha true k hk).1.symm.trans h2)
  have := congrArg Ptr.off this
  simp only [Ptr.add] at this
  omega

theorem same_block {n : Nat} {s t : St T} {a b : MArr} {vs ws : List T} (ha : OwnsVals s n a vs) (hb : OwnsVals t n b ws) (hext : b.ref.extents = a.ref.extents)
    (hord : b.ref.storage = a.ref.storage) (hel : ∀ k, InShape a.ref.extents k → elemAt t b.ref.desc k = elemAt s a.ref.desc k) : ws = vs := by
  have hna : vs.length = a.ref.extents.prod := by rw [ha.len]; exact (C09_array_queries ha.reach).1
  have hnb : ws.length = a.ref.extents.prod := by rw [hb.len, ← hext]; exact (C09_array_queries hb.reach).1
  apply List.ext_getElem?
  intro i
  by_cases hi : i < vs.length
  · obtain ⟨k, hk, rfl⟩ := storageRank_surj ha.reach (i := i) (by rw [ha.len] at hi; exact hi)
    have e := hel k hk
    rw [(elemAt_flat ha.reach s hk).1, (elemAt_flat hb.reach t (k := k) (by rw [hext]; exact hk)).1, hext, hord, ha.get, hb.get] at e
    exact e
  · rw [List.getElem?_eq_none (by omega), List.getElem?_eq_none (by omega)]

/-- **C108.** Converting an array through any storage orders and back to its own gives an array with the same memory image: the same shape, bases, storage order, and the same
values in the same places of its own block; the original still has its values. -/
theorem C108_round_trip (dbg : Bool) (dflt : T) {n : Nat} (hn : 0 < n) {s : St T} {a : MArr} {vs : List T} (ha : OwnsVals s n a vs)
    (hs : SaneHeap s) (hsched : s.sched = []) (first : StorageOrder × Nat) (more : List (StorageOrder × Nat))
    (hso : ∀ o ∈ first :: more, ValidOrder n o.1) (alloc : Nat) (hlast : (first :: more).getLast? = some (a.ref.storage, alloc)) :
    ∃ c s', convertChain dbg dflt a.ref.desc first more s = .ok c s' ∧ c.ref.extents = a.ref.extents ∧ c.ref.bases = a.ref.bases ∧
      c.ref.storage = a.ref.storage ∧ c.alloc = alloc ∧ OwnsVals s' n c vs ∧ OwnsVals s' n a vs ∧ c.ref.data.blk ≠ a.ref.data.blk := by
  have hrd : Readable s n a.ref.desc := ⟨n, a.ref, ha.reach, .array, ha.live, ha.reach.wf.ext_len⟩
  obtain ⟨c, s', h1, h2, h3, h4, ⟨ws, h5⟩, h6, h7, _, _, h10⟩ := C108_conversion_chain dbg dflt hn hrd hs hsched first more hso
  rw [hlast] at h4
  obtain ⟨h4, h4'⟩ := Prod.mk.inj (Option.some.inj h4)
  have hlt := ha.blk_lt hs
  have := same_block ha h5 h2 h4 h10
  subst this
  exact ⟨c, s', h1, h2, h3, h4, h4', h5, ha.mono (h6 _ hlt), by omega⟩

/-- **C108.** What a chain of conversions produces does not depend on the way taken: two chains from the same source, possibly in different states with equal contents, that end
in the same storage order give arrays with the same memory image. -/
theorem C108_path_independent (dbg dbg' : Bool) (dflt dflt' : T) {n : Nat} (hn : 0 < n) {s t : St T} {src src' : Desc} (hsrc : Readable s n src) (hsrc' : Readable t n src')
    (hs : SaneHeap s) (ht : SaneHeap t) (hsched : s.sched = []) (htched : t.sched = []) (hext : src'.extents = src.extents)
    (hel : ∀ k, InShape src.extents k → elemAt t src' k = elemAt s src k)
    (first first' : StorageOrder × Nat) (more more' : List (StorageOrder × Nat))
    (hso : ∀ o ∈ first :: more, ValidOrder n o.1) (hso' : ∀ o ∈ first' :: more', ValidOrder n o.1)
    (hlast : (first' :: more').getLast?.map Prod.fst = (first :: more).getLast?.map Prod.fst) :
    ∃ c s' c' t' vs, convertChain dbg dflt src first more s = .ok c s' ∧ convertChain dbg' dflt' src' first' more' t = .ok c' t' ∧
      OwnsVals s' n c vs ∧ OwnsVals t' n c' vs ∧ c'.ref.strides = c.ref.strides := by
  obtain ⟨c, s', h1, h2, _, h4, ⟨vs, h5⟩, _, _, _, _, h10⟩ := C108_conversion_chain dbg dflt hn hsrc hs hsched first more hso
  obtain ⟨c', t', g1, g2, _, g4, ⟨ws, g5⟩, _, _, _, _, g10⟩ := C108_conversion_chain dbg' dflt' hn hsrc' ht htched first' more' hso'
  rw [← h4, ← g4] at hlast
  have hord : c'.ref.storage = c.ref.storage := by simpa using hlast
  have hx : c'.ref.extents = c.ref.extents := by rw [g2, h2, hext]
  have : ws = vs := same_block h5 g5 hx hord (fun k hk => by
    rw [h2] at hk
    rw [g10 k (by rw [hext]; exact hk), hel k hk, h10 k hk])
  subst this
  refine ⟨c, s', c', t', ws, h1, g1, h5, g5, ?_⟩
  have e1 := h5.reach.wf.strides_eq
  have e2 := g5.reach.wf.strides_eq
  rw [hx, hord, e1] at e2
  exact (Res.ok.inj e2).symm

/-- **C108.** When exceptions interrupt the chain, at any points, the source and everything else that existed before the chain are unchanged, and the chain either completes with an
array of the shape and bases of the source in the storage order requested last, or lets the exception out. -/
theorem C108_interrupted_chain (dbg : Bool) (dflt : T) {n : Nat} (hn : 0 < n) {s : St T} {src : Desc} (hsrc : Readable s n src)
    (hs : SaneHeap s) (first : StorageOrder × Nat) (more : List (StorageOrder × Nat)) (hso : ∀ o ∈ first :: more, ValidOrder n o.1) :
    ∃ s', ((∃ c, convertChain dbg dflt src first more s = .ok c s' ∧ c.ref.extents = src.extents ∧ c.ref.bases = src.bases ∧
        some (c.ref.storage, c.alloc) = (first :: more).getLast? ∧ Owns s' n c ∧ s.next ≤ c.ref.data.blk) ∨
      convertChain dbg dflt src first more s = .throw s') ∧
      (∀ b, b < s.next → s'.heap b = s.heap b) ∧ SaneHeap s' ∧ (∃ j, s'.sched = s.sched.drop j) := by
  induction more generalizing s src first with
  | nil =>
    obtain ⟨m, root, hr, hh, hl, hlen⟩ := hsrc
    have hw := handle_wellShaped hr hh
    obtain ⟨c, s', h1, h2, h3, h4, h5, h6, h7, h8, h9, _⟩ := mkConvert_spec dbg dflt hn hw hlen (fun idx hidx => hl.handle hr.wf hh hidx) hs (hso first (by simp)) first.2
    refine ⟨s', ?_, fun b hb => h7 b (by omega), h8, h9⟩
    rcases h6 with ⟨h6, h6', _⟩ | ⟨h6, _⟩
    · exact .inl ⟨c, h6, h2, h3, by simp [h4, h5], h6', by rw [h1]⟩
    · exact .inr h6
  | cons o more ih =>
    obtain ⟨m, root, hr, hh, hl, hlen⟩ := hsrc
    have hw := handle_wellShaped hr hh
    obtain ⟨c, s1, h1, h2, h3, h4, h5, h6, h7, h8, ⟨j, h9⟩, _⟩ := mkConvert_spec dbg dflt hn hw hlen (fun idx hidx => hl.handle hr.wf hh hidx) hs (hso first (by simp)) first.2
    rcases h6 with ⟨h6, ⟨vs, h6'⟩, h6''⟩ | ⟨h6, _⟩
    · have hrd : Readable s1 n c.ref.desc := ⟨n, c.ref, h6'.reach, .array, h6'.live, h6'.reach.wf.ext_len⟩
      obtain ⟨s', g1, g2, g3, j', g4⟩ := ih hrd h8 o (fun x hx => hso x (List.mem_cons_of_mem _ hx))
      refine ⟨s', ?_, fun b hb => by rw [g2 b (by omega), h7 b (by omega)], g3, j + j', by rw [g4, h9, List.drop_drop]⟩
      have hrun : convertChain dbg dflt src first (o :: more) s = convertChain dbg dflt c.ref.desc o more s1 := by
        simp only [convertChain]; exact Exec.bind_ok h6
      rw [hrun]
      rcases g1 with ⟨c', e1, e2, e3, e4, e5, e6⟩ | g1
      · exact .inl ⟨c', e1, e2.trans h2, e3.trans h3, by rw [e4, List.getLast?_cons_cons], e5, by omega⟩
      · exact .inr g1
    · refine ⟨s1, .inr ?_, fun b hb => h7 b (by omega), h8, ⟨j, h9⟩⟩
      simp only [convertChain]; exact Exec.bind_throw h6

/-! ### Instances -/

example : ∃ c s', convertChain true 0 exM.ref.desc (StorageOrder.fortranOrder 3, 4) [(StorageOrder.cOrder 3, 5), (exM.ref.storage, 6)] exSt = .ok c s' ∧
    OwnsVals s' 3 c (List.range 24) := by
  obtain ⟨c, s', h1, _, _, _, _, h2, _⟩ := C108_round_trip true 0 (by decide) exM_owns exSt_sane rfl (StorageOrder.fortranOrder 3, 4)
    [(StorageOrder.cOrder 3, 5), (exM.ref.storage, 6)] (by
      intro o ho
      simp only [List.mem_cons, List.not_mem_nil, or_false] at ho
      rcases ho with rfl | rfl | rfl
      · exact (by decide : ValidOrder 3 (StorageOrder.fortranOrder 3))
      · exact (by decide : ValidOrder 3 (StorageOrder.cOrder 3))
      · exact exM_owns.reach.wf.order) 6 rfl
  exact ⟨c, s', h1, h2⟩

example : ∃ c s', convertChain true 0 exM.ref.desc (StorageOrder.fortranOrder 3, 4) [(StorageOrder.cOrder 3, 5)] exSt = .ok c s' ∧ Owns s' 3 c := by
  obtain ⟨c, s', h1, _, _, _, h2, _⟩ := C108_conversion_chain true 0 (by decide)
    ⟨3, exM.ref, exM_owns.reach, .array, exM_owns.live, exM_owns.reach.wf.ext_len⟩ exSt_sane rfl (StorageOrder.fortranOrder 3, 4)
    [(StorageOrder.cOrder 3, 5)] (by
      intro o ho
      simp only [List.mem_cons, List.not_mem_nil, or_false] at ho
      rcases ho with rfl | rfl
      · exact (by decide : ValidOrder 3 (StorageOrder.fortranOrder 3))
      · exact (by decide : ValidOrder 3 (StorageOrder.cOrder 3)))
  exact ⟨c, s', h1, h2⟩

/-- An element construction of the second array fails. -/
example : ∃ s', (∀ b, b < exSt.next → s'.heap b = exSt.heap b) ∧ ((∃ c, convertChain true 0 exM.ref.desc (StorageOrder.fortranOrder 3, 4) [(StorageOrder.cOrder 3, 5)]
    { exSt with sched := List.replicate 60 none ++ [some 0] } = .ok c s') ∨
    convertChain true 0 exM.ref.desc (StorageOrder.fortranOrder 3, 4) [(StorageOrder.cOrder 3, 5)] { exSt with sched := List.replicate 60 none ++ [some 0] } = .throw s') := by
  obtain ⟨s', h1, h2, _⟩ := C108_interrupted_chain true 0 (by decide) (s := { exSt with sched := List.replicate 60 none ++ [some 0] })
    ⟨3, exM.ref, exM_owns.reach, .array, exM_owns.live, exM_owns.reach.wf.ext_len⟩ exSt_sane (StorageOrder.fortranOrder 3, 4)
    [(StorageOrder.cOrder 3, 5)] (by
      intro o ho
      simp only [List.mem_cons, List.not_mem_nil, or_false] at ho
      rcases ho with rfl | rfl
      · exact (by decide : ValidOrder 3 (StorageOrder.fortranOrder 3))
      · exact (by decide : ValidOrder 3 (StorageOrder.cOrder 3)))
  refine ⟨s', h2, ?_⟩
  rcases h1 with ⟨c, h1, _⟩ | h1
  · exact .inl ⟨c, h1⟩
  · exact .inr h1

example : ∃ c s' c' t' vs, convertChain true 0 exM.ref.desc (StorageOrder.fortranOrder 3, 4) [(StorageOrder.cOrder 3, 5)] exSt = .ok c s' ∧
    convertChain false 9 exM.ref.desc (StorageOrder.cOrder 3, 1) [] exSt = .ok c' t' ∧ OwnsVals s' 3 c vs ∧ OwnsVals t' 3 c' vs := by
  have hrd : Readable exSt 3 exM.ref.desc := ⟨3, exM.ref, exM_owns.reach, .array, exM_owns.live, exM_owns.reach.wf.ext_len⟩
  obtain ⟨c, s', c', t', vs, h1, h2, h3, h4, _⟩ := C108_path_independent true false 0 9 (by decide) hrd hrd exSt_sane exSt_sane rfl rfl rfl (fun _ _ => rfl)
    (StorageOrder.fortranOrder 3, 4) (StorageOrder.cOrder 3, 1) [(StorageOrder.cOrder 3, 5)] [] (by
      intro o ho
      simp only [List.mem_cons, List.not_mem_nil, or_false] at ho
      rcases ho with rfl | rfl
      · exact (by decide : ValidOrder 3 (StorageOrder.fortranOrder 3))
      · exact (by decide : ValidOrder 3 (StorageOrder.cOrder 3))) (by
      intro o ho
      simp only [List.mem_cons, List.not_mem_nil, or_false] at ho
      subst ho
      exact (by decide : ValidOrder 3 (StorageOrder.cOrder 3))) rfl
  exact ⟨c, s', c', t', vs, h1, h2, h3, h4⟩

end MultiArray.Props
