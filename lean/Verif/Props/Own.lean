import Verif.Lemmas.Ctor
import Verif.Props.Compare

/-
Property theorems C34, C35, C37-C39, C48, C50: the owning class - copies, conversions, resize.
`OwnsVals s n a vs` (SpecMem.lean): `a` is a live n-dimensional multi_array whose block holds the values `vs` in memory
order.  `s.sched = []`: no operation throws; otherwise `s.sched` decides, operation by operation.
-/
set_option autoImplicit false

namespace MultiArray.Props
open MultiArray MultiArray.Spec
variable {T : Type}

/-- A concrete owning array: `exArr` (3 dimensions, bases 2,-1,0 ..., descending dimension) with the 24 elements of `exSt`. -/
def exM : MArr := ⟨exArr, ⟨7, 0⟩, 24, 0⟩

theorem exM_owns : OwnsVals exSt 3 exM (List.range 24) :=
  ⟨exArr_reachable, rfl, by decide, rfl, rfl, rfl, rfl⟩

theorem exSt_sane : SaneHeap exSt := by
  refine ⟨by decide, fun b hb => ?_⟩
  have : (8 : Nat) ≤ b := hb
  show (if b = 7 then _ else none) = none
  rw [if_neg (by omega)]

theorem noThrow_nil {s : St T} (h : s.sched = []) (m : Nat) : NoThrow m s.sched := by rw [h]; exact NoThrow.nil m

theorem owns_readable {s : St T} {n : Nat} {a : MArr} {vs : List T} (h : OwnsVals s n a vs) : Readable s n a.ref.desc :=
  ⟨n, a.ref, h.reach, .array, h.live, h.reach.wf.ext_len⟩

/-! ### C34 -/

/-- **C34.** A copy-constructed array has the same shape, bases, strides, storage order, allocator and elements as the
original, in a freshly allocated block, and compares equal to it; the original and all other memory are
untouched. -/
theorem C34_copy_equal [Nonempty T] (dflt : T) {n : Nat} {s : St T} {a : MArr} {vs : List T} (ha : OwnsVals s n a vs)
    (hs : SaneHeap s) (hsched : s.sched = []) :
    ∃ c s', MArr.mkCopy dflt a s = .ok c s' ∧
      c.ref.extents = a.ref.extents ∧ c.ref.bases = a.ref.bases ∧ c.ref.strides = a.ref.strides ∧
      c.ref.storage = a.ref.storage ∧ c.alloc = a.alloc ∧
      c.ref.data = ⟨s.next, 0⟩ ∧ s.heap s.next = none ∧
      OwnsVals s' n c vs ∧ OwnsVals s' n a vs ∧ SameExcept s.next s s' ∧ SaneHeap s' ∧ s'.next = s.next + 1 ∧
      (∀ k, InShape a.ref.extents k → elemAt s' c.ref.desc k = elemAt s a.ref.desc k ∧
        elemAt s' a.ref.desc k = elemAt s a.ref.desc k) ∧
      (∀ (dbg : Bool) (eq : T → T → Bool), (∀ x, eq x x = true) → equalRef dbg eq s' n a.ref.desc c.ref.desc = .ok true) := by
  obtain ⟨m, s', hm, h1, h2, h3, _, h5⟩ := mkCopy_spec dflt ha hs
  obtain ⟨_, hc⟩ := h5 (noThrow_nil hsched _)
  rcases h1 with ⟨h1, _, hn⟩ | ⟨_, hcontra, _⟩
  · have hne : a.ref.data.blk ≠ s.next := by have := ha.blk_lt hs; omega
    have ha' := ha.mono (h2 _ hne)
    have hel : ∀ k, InShape a.ref.extents k → elemAt s' m.ref.desc k = elemAt s a.ref.desc k := by
      intro k hk
      have hkm : InShape m.ref.extents k := by rw [hm]; exact hk
      obtain ⟨j, hj, he⟩ := Handle.array.address_in_block ha.reach.wf (inBox_atPos ha.reach.wf.wellShaped.2 hk)
      have he' : address m.ref.desc (atPos m.ref.desc.bases k) = m.ref.data.add (j : Int) := by
        rw [hm]
        simp only [address, Ptr.add, ARef.desc, ARef.origin, ARef.data, Ptr.mk.injEq] at he ⊢
        have := ha.start
        simp only [ARef.data] at this
        refine ⟨trivial, ?_⟩
        omega
      unfold elemAt
      rw [he', he, hc.get j, ha.get j]
    have hel' : ∀ k, elemAt s' a.ref.desc k = elemAt s a.ref.desc k := fun k => elemAt_congr (h2 _ hne) k
    refine ⟨m, s', h1, by rw [hm], by rw [hm], by rw [hm], by rw [hm], by rw [hm], by rw [hm]; rfl, hs.2 _ (Nat.le_refl _),
      hc, ha', h2, h3, hn, fun k hk => ⟨hel k hk, hel' k⟩, ?_⟩
    intro dbg eq heq
    obtain ⟨r, e1, _, e2⟩ := C40_equality s' n a.ref.desc m.ref.desc (owns_readable ha') (owns_readable hc) dbg eq
    rw [e1]
    congr 1
    rw [e2]
    refine ⟨by rw [hm]; rfl, ?_⟩
    intro k hk
    obtain ⟨v, hv⟩ := ha.elem k hk
    exact ⟨v, v, by rw [hel', hv], by rw [hel k hk, hv], heq v⟩
  · exact absurd (noThrow_nil hsched _) hcontra

/-- One write: through any handle `d` of any reachable header over the block of the array. -/
structure Write (T : Type) where
  dbg : Bool
  d : Desc
  idx : List Int
  v : T

/-- A sequence of element writes. -/
def runWrites : List (Write T) → Exec T Unit
  | [] => pure ()
  | w :: ws => do writeElem w.dbg w.d w.idx w.v; runWrites ws

/-- A write is legal for array `a`: it goes through a handle derived from `a` (or from `a` after any reindexing or
reshaping), at an in-range index. -/
def WritesTo (a : ARef) (w : Write T) : Prop :=
  ∃ n r, Reachable n r ∧ r.data = a.data ∧ r.numElements = a.numElements ∧ Handle r w.d ∧ InBox w.d.bases w.d.extents w.idx

/-- **C34.** Copies are independent: any sequence of writes to one of two arrays that live in different blocks (as an
array and its copy do, by `C34_copy_equal`) succeeds and leaves every element of the other as it was.
The two roles are symmetric. -/
theorem C34_copies_independent {n n' : Nat} {s : St T} {a c : MArr} {vs vc : List T} (ha : OwnsVals s n a vs)
    (hc : OwnsVals s n' c vc) (hne : a.ref.data.blk ≠ c.ref.data.blk) (hsched : s.sched = []) (ws : List (Write T))
    (hws : ∀ w ∈ ws, WritesTo a.ref w) :
    ∃ s', runWrites ws s = .ok () s' ∧ OwnsVals s' n' c vc ∧ SameExcept a.ref.data.blk s s' ∧
      (∃ vs', OwnsVals s' n a vs') ∧ (∀ k, elemAt s' c.ref.desc k = elemAt s c.ref.desc k) := by
  induction ws generalizing s vs with
  | nil => exact ⟨s, rfl, hc, fun _ _ => rfl, ⟨vs, ha⟩, fun _ => rfl⟩
  | cons w ws ih =>
    obtain ⟨m, r, hr, hd, hnum, hh, hidx⟩ := hws w (by simp)
    have hl : Live s r := by
      intro k hk
      rw [hd]
      exact ha.live k (by rw [← hnum]; exact hk)
    obtain ⟨s1, h1, _, h2, h3, h4, _⟩ := C23_write_changes_one_element hr hh w.dbg w.idx hidx s hl hsched w.v
    have hblk : (address w.d w.idx).blk = a.ref.data.blk := by
      obtain ⟨k, _, he⟩ := hh.address_in_block hr.wf hidx
      rw [he, hd]; rfl
    have hse : SameExcept a.ref.data.blk s s1 := by
      intro b hb
      apply heap_ext _ (h4.1 b)
      intro off
      apply h3
      intro he
      exact hb (by rw [← hblk, ← he])
    have hsch : s1.sched = [] := by
      unfold writeElem at h1
      rw [accessElement_inBox w.dbg w.d w.idx (handle_wellShaped hr hh).1 hidx] at h1
      simp only [Exec.lift_ok, pure_bind] at h1
      obtain ⟨old, ho⟩ := hl.handle hr.wf hh hidx
      obtain ⟨s2, e1, _, _, e4⟩ := assignCell_ok ho w.v (.inl hsched)
      rw [h1] at e1
      cases e1
      rw [e4, hsched]; rfl
    obtain ⟨vs', e1, e2⟩ := block_live ha.block (h4.1 _) (fun q hq => by
      obtain ⟨v, hv⟩ := hq
      by_cases hqe : q = address w.d w.idx
      · exact ⟨w.v, by rw [hqe, h2]⟩
      · exact ⟨v, by rw [St.get?_eq_some, h3 q hqe]; exact St.get?_eq_some.mp hv⟩)
    have ha1 : OwnsVals s1 n a vs' := ⟨ha.reach, ha.start, ha.notNull, ha.own, ha.count, e1, by rw [e2, ha.len]⟩
    obtain ⟨s', f1, f2, f3, f4, f5⟩ := ih ha1 (hc.mono (hse _ hne.symm)) hsch (fun x hx => hws x (by simp [hx]))
    refine ⟨s', ?_, f2, fun b hb => by rw [f3 b hb, hse b hb], f4, fun k => by
      rw [f5 k]; exact elemAt_congr (hse _ hne.symm) k⟩
    simp only [runWrites]
    rw [Exec.bind_ok h1, f1]

example : ∃ c s', MArr.mkCopy 0 exM exSt = .ok c s' ∧ OwnsVals s' 3 exM (List.range 24) ∧ OwnsVals s' 3 c (List.range 24) ∧
    exM.ref.data.blk ≠ c.ref.data.blk := by
  obtain ⟨c, s', h1, _, _, _, _, _, h2, _, h3, h4, _⟩ := C34_copy_equal 0 exM_owns exSt_sane rfl
  exact ⟨c, s', h1, h4, h3, by rw [h2]; decide⟩

/-! ### C35 -/

/-- **C35.** Constructing a multi_array from any array, subarray or view, with any target storage order, succeeds and gives
an array with the same shape and index bases, the requested storage order and an equal element at every index,
in freshly allocated storage; nothing else in memory changes. -/
theorem C35_conversion (dbg : Bool) (dflt : T) {n : Nat} (hn : 0 < n) {s : St T} {src : Desc} (hsrc : Readable s n src)
    (hs : SaneHeap s) (hsched : s.sched = []) {so : StorageOrder} (hso : ValidOrder n so) (alloc : Nat) :
    ∃ c s', MArr.mkConvert dbg dflt src so alloc s = .ok c s' ∧
      c.ref.extents = src.extents ∧ c.ref.bases = src.bases ∧ c.ref.storage = so ∧ c.alloc = alloc ∧
      c.ref.data = ⟨s.next, 0⟩ ∧ s.heap s.next = none ∧ (∃ vs, OwnsVals s' n c vs) ∧ SameExcept s.next s s' ∧ SaneHeap s' ∧
      ∀ idx, InBox src.bases src.extents idx →
        ∃ v, readElem dbg src idx s = .ok v s ∧ readElem dbg c.ref.desc idx s' = .ok v s' := by
  obtain ⟨m, root, hr, hh, hl, hlen⟩ := hsrc
  have hw := handle_wellShaped hr hh
  have hlive : ∀ idx, InBox src.bases src.extents idx → ∃ v, s.get? (address src idx) = some v :=
    fun idx hidx => hl.handle hr.wf hh hidx
  obtain ⟨c, s', h1, h2, h3, h4, h5, h6, h7, h8, _, h10⟩ := mkConvert_spec dbg dflt hn hw hlen hlive hs hso alloc
  obtain ⟨_, hel⟩ := h10 (noThrow_nil hsched _)
  rcases h6 with ⟨h6, ⟨vs, hvs⟩, _⟩ | ⟨_, hcontra, _⟩
  · refine ⟨c, s', h6, h2, h3, h4, h5, h1, hs.2 _ (Nat.le_refl _), ⟨vs, hvs⟩, h7, h8, ?_⟩
    intro idx hidx
    obtain ⟨v, hv⟩ := hlive idx hidx
    have hidx' : InBox c.ref.desc.bases c.ref.desc.extents idx := by
      show InBox c.ref.bases c.ref.extents idx
      rw [h2, h3]; exact hidx
    refine ⟨v, ?_, ?_⟩
    · unfold readElem
      rw [accessElement_inBox dbg src idx hw.1 hidx]
      simpa using load_ok hv
    · unfold readElem
      rw [accessElement_inBox dbg c.ref.desc idx hvs.reach.wf.wellShaped.1 hidx']
      simp only [Exec.lift_ok, pure_bind]
      apply load_ok
      obtain ⟨k, hk, he⟩ := inBox_atPos_iff hw.2 idx hidx
      have := hel k hk
      unfold elemAt at this
      rw [show c.ref.desc.bases = src.bases from h3, ← he, hv] at this
      exact this
  · exact absurd (noThrow_nil hsched _) hcontra

/-- A two-dimensional strided view of `exArr`, converted to Fortran order. -/
example : ∃ v, Readable exSt 2 v ∧ v.extents = [3, 2] ∧ SaneHeap exSt ∧ exSt.sched = [] ∧
    ValidOrder 2 (StorageOrder.fortranOrder 2) := by
  obtain ⟨v, h, he, hh⟩ := exHandle
  have : v = theView exView exArr.desc := (genView_ok (exArr_reachable.wf.wellShaped) rfl h).2.2
  subst this
  exact ⟨_, ⟨3, exArr, exArr_reachable, hh, exSt_live, by decide⟩, by decide, exSt_sane, rfl, by decide⟩

end MultiArray.Props
