import Verif.Lemmas.Own

/- `resize`, constructors, copies. -/
set_option autoImplicit false

namespace MultiArray
open Spec
variable {T α β : Type}

theorem zipMin_le_left (a b : List Nat) (h : a.length = b.length) : List.Forall₂ (· ≤ ·) (List.zipWith Nat.min a b) a := by
  induction a generalizing b with
  | nil => match b, h with | [], _ => exact .nil
  | cons x a ih => match b, h with
    | y :: b, h => exact .cons (Nat.min_le_left _ _) (ih b (by simpa using h))

theorem zipMin_le_right (a b : List Nat) (h : a.length = b.length) : List.Forall₂ (· ≤ ·) (List.zipWith Nat.min a b) b := by
  induction a generalizing b with
  | nil => match b, h with | [], _ => exact .nil
  | cons x a ih => match b, h with
    | y :: b, h => exact .cons (Nat.min_le_right _ _) (ih b (by simpa using h))

theorem inShape_zipMin (a b k : List Nat) (h : a.length = b.length) :
    InShape (List.zipWith Nat.min a b) k ↔ InShape a k ∧ InShape b k := by
  induction a generalizing b k with
  | nil => match b, h with | [], _ => simp
  | cons x a ih => match b, h with
    | y :: b, h =>
      cases k with
      | nil => simp [InShape]
      | cons z k =>
        simp only [List.zipWith_cons_cons, InShape, ih b k (by simpa using h)]
        constructor
        · rintro ⟨h1, h2, h3⟩; exact ⟨⟨lt_of_lt_of_le h1 (Nat.min_le_left _ _), h2⟩, lt_of_lt_of_le h1 (Nat.min_le_right _ _), h3⟩
        · rintro ⟨⟨h1, h2⟩, h3, h4⟩; exact ⟨Nat.lt_min.mpr ⟨h1, h3⟩, h2, h4⟩

/-- Positions of one array have distinct addresses. -/
theorem elem_inj {n : Nat} {a : ARef} (h : Reachable n a) {k k' : List Nat} (hk : InShape a.extents k) (hk' : InShape a.extents k')
    (heq : address a.desc (atPos a.bases k) = address a.desc (atPos a.bases k')) : k = k' := by
  have hw := h.wf.wellShaped
  have hnd := addrs_nodup h.wf (Handle.array (root := a))
  rw [addrs_eq_map _ hw] at hnd
  exact List.inj_on_of_nodup_map hnd ((mem_allPos _ _).mpr hk) ((mem_allPos _ _).mpr hk') heq

theorem copySetup_leading {n n' : Nat} {s : St T} {a a' : ARef} (ha : Reachable n a) (ha' : Reachable n' a') (la : Live s a)
    (la' : Live s a') {v v' : View} {ms : List Nat} (hm : ∀ k, InShape ms k → InShape a.extents k)
    (hm' : ∀ k, InShape ms k → InShape a'.extents k) (hv : v.extents = ms) (hv' : v'.extents = ms)
    (hw : WellShaped v.desc) (hw' : WellShaped v'.desc)
    (hadr : ∀ k, InShape ms k → address v.desc (atPos v.bases k) = address a.desc (atPos a.bases k))
    (hadr' : ∀ k, InShape ms k → address v'.desc (atPos v'.bases k) = address a'.desc (atPos a'.bases k)) :
    CopySetup s v'.desc v.desc := by
  have key : ∀ {m : Nat} {r : ARef} {u : View}, Reachable m r → Live s r → (∀ k, InShape ms k → InShape r.extents k) →
      u.extents = ms → WellShaped u.desc →
      (∀ k, InShape ms k → address u.desc (atPos u.bases k) = address r.desc (atPos r.bases k)) →
      ∀ idx, InBox u.desc.bases u.desc.extents idx → ∃ w, s.get? (address u.desc idx) = some w := by
    intro m r u hr lr hm hu hwu hadr idx hidx
    rw [← mem_allIdx, allIdx_eq_map _ _ hwu.2] at hidx
    obtain ⟨k, hk, rfl⟩ := List.mem_map.mp hidx
    rw [mem_allPos] at hk
    have hk' : InShape ms k := by rw [← hu]; exact hk
    rw [show u.desc.bases = u.bases from rfl, hadr k hk']
    exact lr.handle hr.wf .array (inBox_atPos hr.wf.wellShaped.2 (hm k hk'))
  refine ⟨hw', hw, ?_, key ha' la' hm' hv' hw' hadr', key ha la hm hv hw hadr, ?_⟩
  · show v.extents = v'.extents
    rw [hv, hv']
  · rw [addrs_eq_map _ hw']
    apply List.Nodup.map_on
    · intro x hx y hy hxy
      rw [mem_allPos] at hx hy
      have hx' : InShape ms x := by rw [← hv']; exact hx
      have hy' : InShape ms y := by rw [← hv']; exact hy
      rw [show v'.desc.bases = v'.bases from rfl, hadr' x hx', hadr' y hy'] at hxy
      exact elem_inj ha' (hm' x hx') (hm' y hy') hxy
    · have := addrs_nodup ha'.wf (Handle.array (root := a'))
      have h2 : ∀ es : List Nat, (allPos es).Nodup := by
        intro es
        have := allPos_rank es
        have hn : ((allPos es).map (rowMajor es)).Nodup := by rw [this]; exact List.nodup_range
        exact hn.of_map _
      exact h2 _

theorem inBox_atPos_iff {bs : List Int} {es : List Nat} (hb : bs.length = es.length) (idx : List Int)
    (h : InBox bs es idx) : ∃ k, InShape es k ∧ idx = atPos bs k := by
  rw [← mem_allIdx, allIdx_eq_map _ _ hb] at h
  obtain ⟨k, hk, rfl⟩ := List.mem_map.mp h
  exact ⟨k, (mem_allPos _ _).mp hk, rfl⟩

/-- The copying part of `resize` under any schedule, and its result when nothing throws. -/
theorem resizeFill_spec (dbg : Bool) {n : Nat} {s : St T} {a m : MArr} {vs ws : List T} (ha : OwnsVals s n a vs)
    (hm : OwnsVals s n m ws) (hne : m.ref.data.blk ≠ a.ref.data.blk) (hra : Representable a.ref.bases a.ref.extents)
    (hrm : Representable m.ref.bases m.ref.extents) :
    ∃ s', (MArr.resizeFill dbg a m s = .ok () s' ∨
        MArr.resizeFill dbg a m s = .throw s' ∧ ¬ NoThrow (List.zipWith Nat.min m.ref.extents a.ref.extents).prod s.sched) ∧
      SameExcept m.ref.data.blk s s' ∧ (∃ ws', OwnsVals s' n m ws') ∧ s'.next = s.next ∧
      (∃ j, s'.sched = s.sched.drop j) ∧
      (NoThrow (List.zipWith Nat.min m.ref.extents a.ref.extents).prod s.sched →
        s'.sched = s.sched.drop (List.zipWith Nat.min m.ref.extents a.ref.extents).prod ∧
        ∀ k, InShape m.ref.extents k → elemAt s' m.ref.desc k =
          if InShape a.ref.extents k then elemAt s a.ref.desc k else elemAt s m.ref.desc k) := by
  generalize hms : List.zipWith Nat.min m.ref.extents a.ref.extents = ms
  have hwa := ha.reach.wf.wellShaped
  have hwm := hm.reach.wf.wellShaped
  have hlen : m.ref.extents.length = a.ref.extents.length := by rw [ha.reach.wf.ext_len, hm.reach.wf.ext_len]
  have hma : List.Forall₂ (· ≤ ·) ms a.ref.extents := hms ▸ zipMin_le_right _ _ hlen
  have hmm : List.Forall₂ (· ≤ ·) ms m.ref.extents := hms ▸ zipMin_le_left _ _ hlen
  have hin : ∀ k, InShape ms k ↔ InShape m.ref.extents k ∧ InShape a.ref.extents k := by
    intro k; rw [← hms]; exact inShape_zipMin _ _ _ hlen
  obtain ⟨v, hv1, hv2, hv3, hv4⟩ := leadingView dbg a.ref.desc hwa ms hma hra a.ref.extents.length rfl
  obtain ⟨u, hu1, hu2, hu3, hu4⟩ := leadingView dbg m.ref.desc hwm ms hmm hrm a.ref.extents.length hlen.symm
  have hc : CopySetup s u.desc v.desc := copySetup_leading ha.reach hm.reach ha.live hm.live
    (fun k hk => ((hin k).mp hk).2) (fun k hk => ((hin k).mp hk).1) hv2 hu2 hv3 hu3 hv4 hu4
  have hrun : (MArr.resizeFill dbg a m : Exec T Unit) = copySeq (copyPairs v.desc u.desc) := by
    unfold MArr.resizeFill
    simp only [ARef.slice, hms]
    rw [show a.ref.bases = a.ref.desc.bases from rfl, show m.ref.bases = m.ref.desc.bases from rfl, hv1, hu1]
    simp only [Exec.lift_ok, pure_bind]
    unfold assignOp
    simp only [Bool.false_eq_true, if_false]
    exact assignRef_eq dbg u.desc v.desc hu3 hv3 (by show v.extents = u.extents; rw [hv2, hu2])
  have hout : ∀ p : Ptr, p.blk ≠ m.ref.data.blk → Outside u.desc p := by
    intro p hp idx hidx heq
    obtain ⟨k, hk, rfl⟩ := inBox_atPos_iff hu3.2 idx hidx
    have hk' : InShape ms k := by rw [← hu2]; exact hk
    apply hp
    rw [heq, show u.desc.bases = u.bases from rfl, hu4 k hk']
    rfl
  have hno : NoOverlap u.desc v.desc := by
    intro i j hi hj heq
    obtain ⟨k, hk, rfl⟩ := inBox_atPos_iff hu3.2 i hi
    obtain ⟨l, hl, rfl⟩ := inBox_atPos_iff hv3.2 j hj
    have hk' : InShape ms k := by rw [← hu2]; exact hk
    have hl' : InShape ms l := by rw [← hv2]; exact hl
    rw [show u.desc.bases = u.bases from rfl, show v.desc.bases = v.bases from rfl, hu4 k hk', hv4 l hl'] at heq
    have hb := congrArg Ptr.blk heq
    exact hne hb
  have hpost : ∀ s' : St T, (∀ p, Outside u.desc p → s'.cell? p = s.cell? p) →
      (∀ q, (∃ v, s.get? q = some v) → ∃ v, s'.get? q = some v) → SameBlocks s s' →
      SameExcept m.ref.data.blk s s' ∧ ∃ ws', OwnsVals s' n m ws' := by
    intro s' h1 h2 h3
    refine ⟨fun c hcc => heap_ext (fun off => h1 _ (hout _ hcc)) (h3.len c), ?_⟩
    obtain ⟨ws', e1, e2⟩ := block_live hm.block (h3.len _) h2
    exact ⟨ws', hm.reach, hm.start, hm.notNull, hm.own, hm.count, e1, by rw [e2, hm.len]⟩
  rw [hrun]
  by_cases hnt : NoThrow ms.prod s.sched
  · have hext : u.desc.extents = ms := hu2
    obtain ⟨s', e1, e2, e3, e4, e5⟩ := copy_ok hc hno (by rw [hext]; exact hnt)
    have hlive : ∀ q, (∃ v, s.get? q = some v) → ∃ v, s'.get? q = some v := by
      rintro q ⟨w, hw⟩
      by_cases hq : Outside u.desc q
      · exact ⟨w, by rw [St.get?_eq_some, e3 q hq]; exact St.get?_eq_some.mp hw⟩
      · rw [outside_iff, Decidable.not_not, mem_addrs] at hq
        obtain ⟨idx, hi, rfl⟩ := hq
        obtain ⟨k, hk, rfl⟩ := inBox_atPos_iff hu3.2 idx hi
        have := e2 k hk
        unfold elemAt at this
        rw [this]
        exact hc.ls _ (inBox_atPos hv3.2 (by rw [hc.ext]; exact hk))
    obtain ⟨p1, p2⟩ := hpost s' e3 hlive e4
    refine ⟨s', .inl e1, p1, p2, e4.next, ⟨_, e5⟩, fun _ => ⟨by rw [e5, hext], ?_⟩⟩
    intro k hk
    by_cases hka : InShape a.ref.extents k
    · rw [if_pos hka]
      have hk' : InShape ms k := (hin k).mpr ⟨hk, hka⟩
      have := e2 k (by rw [hext]; exact hk')
      unfold elemAt at this ⊢
      rw [show u.desc.bases = u.bases from rfl, show v.desc.bases = v.bases from rfl, hu4 k hk', hv4 k hk'] at this
      exact this
    · rw [if_neg hka]
      unfold elemAt St.get?
      rw [e3]
      intro idx hidx heq
      obtain ⟨k', hk', rfl⟩ := inBox_atPos_iff hu3.2 idx hidx
      have hk'' : InShape ms k' := by rw [← hext]; exact hk'
      rw [show u.desc.bases = u.bases from rfl, hu4 k' hk''] at heq
      have := elem_inj hm.reach hk ((hin k').mp hk'').1 heq
      subst this
      exact hka ((hin k).mp hk'').2
  · obtain ⟨s', e1, e2, e3, e4, e5⟩ := copy_any hc
    obtain ⟨p1, p2⟩ := hpost s' e2 e3 e4
    refine ⟨s', ?_, p1, p2, e4.next, e5, fun h => absurd h hnt⟩
    rcases e1 with e1 | e1
    · exact .inl e1
    · exact .inr ⟨e1, hnt⟩

/-! ### Fresh arrays -/

/-- The array just built by `allocate_space` is a live array of value-initialised elements. -/
theorem fresh_owns {n : Nat} {ref : ARef} (hr : Reachable n ref) (dflt : T) (al : Nat) {s s' : St T} (hs : SaneHeap s)
    (hb : s'.heap s.next = some ⟨al, List.replicate ref.numElems (.obj dflt)⟩) :
    OwnsVals s' n ⟨{ ref with base := ⟨s.next, 0⟩ }, ⟨s.next, 0⟩, ref.numElems, al⟩ (List.replicate ref.numElems dflt) :=
  ⟨hr.setBase _, rfl, Nat.pos_iff_ne_zero.mp hs.1, rfl, rfl, by simpa [ARef.data] using hb, by simp [ARef.numElements]⟩

theorem sane_fresh {s s' : St T} (hs : SaneHeap s) (hn : s'.next = s.next + 1) (hsame : ∀ c, c ≠ s.next → s'.heap c = s.heap c) :
    SaneHeap s' :=
  ⟨by rw [hn]; omega, fun b hb => by rw [hsame b (by omega)]; exact hs.2 b (by omega)⟩

/-- Elements of a block of equal values. -/
theorem Spec.OwnsVals.elem_replicate {n m : Nat} {s : St T} {a : MArr} {v : T} (h : OwnsVals s n a (List.replicate m v))
    (k : List Nat) (hk : InShape a.ref.extents k) : elemAt s a.ref.desc k = some v := by
  have hw := h.reach.wf.wellShaped
  obtain ⟨j, hj, he⟩ := Handle.array.address_in_block h.reach.wf (inBox_atPos hw.2 hk)
  unfold elemAt
  rw [show a.ref.desc.bases = a.ref.bases from rfl]
  rw [show a.ref.bases = a.ref.desc.bases from rfl, he, h.get j]
  have := h.len
  simp only [List.length_replicate] at this
  rw [List.getElem?_replicate, if_pos (by omega)]

/-- Ownership gives a value at every position. -/
theorem Spec.OwnsVals.elem {n : Nat} {s : St T} {a : MArr} {vs : List T} (h : OwnsVals s n a vs)
    (k : List Nat) (hk : InShape a.ref.extents k) : ∃ v, elemAt s a.ref.desc k = some v :=
  h.live.handle h.reach.wf .array (inBox_atPos h.reach.wf.wellShaped.2 hk)

/-- Element values only depend on the array's own block. -/
theorem elemAt_congr {s s' : St T} {a : ARef} (h : s'.heap a.data.blk = s.heap a.data.blk) (k : List Nat) :
    elemAt s' a.desc k = elemAt s a.desc k := by
  unfold elemAt St.get? St.cell?
  rw [show (address a.desc (atPos a.desc.bases k)).blk = a.data.blk from rfl, h]

/-! ### resize -/

theorem Member.bind_ok {x : Member T α} {f : α → Member T β} {this this' : MArr} {s s' : St T} {a : α}
    (h : x this s = (.ok a s', this')) : (x >>= f) this s = f a this' s' := by
  show Member.bind x f this s = _; unfold Member.bind; rw [h]

theorem Member.bind_throw {x : Member T α} {f : α → Member T β} {this this' : MArr} {s s' : St T}
    (h : x this s = (.throw s', this')) : (x >>= f) this s = (.throw s', this') := by
  show Member.bind x f this s = _; unfold Member.bind; rw [h]

theorem Member.bind_ub {x : Member T α} {f : α → Member T β} {this this' : MArr} {s : St T}
    (h : x this s = (.ub, this')) : (x >>= f) this s = (.ub, this') := by
  show Member.bind x f this s = _; unfold Member.bind; rw [h]

theorem Member.run_apply (x : Exec T α) (this : MArr) (s : St T) : Member.run x this s = (x s, this) := rfl

theorem swapAll_eq (a b : MArr) : MArr.swapAll a b = (b, a) := rfl

theorem ofExtentGen_ok {n : Nat} (p : Ptr) (g : ExtentGen) {so : StorageOrder} (hn : g.numRanges = n)
    (hl : g.ranges.length = n) (hv : ValidOrder n so) :
    ∃ ref, ARef.ofExtentGen p g so = .ok ref ∧ Reachable n ref ∧ ref.base = p ∧ ref.storage = so ∧
      ref.bases = g.ranges.map ExtentRange.start ∧ ref.extents = g.ranges.map ExtentRange.size := by
  obtain ⟨ref, h⟩ := ARef.init_succeeds p (g.ranges.map ExtentRange.start) (so := so)
    (es := g.ranges.map ExtentRange.size) (n := n) hv (by simp [hl])
  have hg : ARef.ofExtentGen p g so = .ok ref := by unfold ARef.ofExtentGen; rw [hn]; exact h
  obtain ⟨_, h2, h3, h4, h5, _⟩ := ARef.init_ok h hv (by simp [hl])
  refine ⟨ref, hg, .ofExtentGen hv hn hl hg, h2, h3, h4, ?_⟩
  rw [h5, List.take_of_length_le (by simp [hl])]

/-- Number of throwing operations in a `resize` to the given new extents. -/
def resizeOps (newExts oldExts : List Nat) : Nat := 1 + newExts.prod + (List.zipWith Nat.min newExts oldExts).prod

/-- `resize` under any schedule of exceptions. -/
theorem resize_spec (dbg : Bool) (dflt : T) {n : Nat} {s : St T} {a : MArr} {vs : List T} (ha : OwnsVals s n a vs)
    (hs : SaneHeap s) (g : ExtentGen) (hn : g.numRanges = n) (hl : g.ranges.length = n)
    (hra : Representable a.ref.bases a.ref.extents)
    (hrg : Representable (g.ranges.map ExtentRange.start) (g.ranges.map ExtentRange.size)) :
    ∃ (a' : MArr) (s' : St T), a'.ref.data = ⟨s.next, 0⟩ ∧ a'.ref.storage = a.ref.storage ∧ a'.alloc = a.alloc ∧
      a'.ref.bases = g.ranges.map ExtentRange.start ∧ a'.ref.extents = g.ranges.map ExtentRange.size ∧
      ((MArr.resize dbg dflt g a s = (.ok () s', a') ∧ s'.heap a.ref.data.blk = none ∧ s'.next = s.next + 1 ∧
          (∀ c, c ≠ a.ref.data.blk → c ≠ s.next → s'.heap c = s.heap c) ∧ (∃ ws, OwnsVals s' n a' ws)) ∨
        (MArr.resize dbg dflt g a s = (.throw s', a) ∧ ¬ NoThrow (resizeOps a'.ref.extents a.ref.extents) s.sched ∧
          SameExcept s.next s s' ∧ SaneHeap s' ∧
          -- only a throwing element constructor leaves a (raw) block behind
          (s'.heap s.next = none ∨ ¬ NoThrow (1 + a'.ref.extents.prod) s.sched))) ∧
      (∃ j, s'.sched = s.sched.drop j) ∧
      (NoThrow (resizeOps a'.ref.extents a.ref.extents) s.sched →
        s'.sched = s.sched.drop (resizeOps a'.ref.extents a.ref.extents) ∧
        ∀ k, InShape a'.ref.extents k →
          elemAt s' a'.ref.desc k = if InShape a.ref.extents k then elemAt s a.ref.desc k else some dflt) := by
  have hblk := ha.blk_lt hs
  obtain ⟨ref, hg, hreach, hb, hso, hbs, hes⟩ := ofExtentGen_ok Ptr.null g hn hl ha.reach.wf.order
  have hnum : ref.numElems = ref.extents.prod := by rw [hreach.wf.num_eq, product_eq]
  obtain ⟨s1, h1, h2, h3, hj⟩ := allocateSpace_any dflt ref a.alloc s
  generalize hm : (⟨{ ref with base := ⟨s.next, 0⟩ }, ⟨s.next, 0⟩, ref.numElems, a.alloc⟩ : MArr) = m at h1
  have hmext : m.ref.extents = ref.extents := by rw [← hm]
  have hmbas : m.ref.bases = ref.bases := by rw [← hm]
  have hmdata : m.ref.data = ⟨s.next, 0⟩ := by rw [← hm]; rfl
  have hmk : (MArr.mkExtentGen dflt g a.ref.storage a.alloc : Exec T MArr) = MArr.allocateSpace dflt ref a.alloc := by
    unfold MArr.mkExtentGen
    rw [hg]; simp
  have hself : (Member.self : Member T MArr) a s = (.ok a s, a) := rfl
  have hrun : MArr.resize dbg dflt g a s = (do
      let newArr ← Member.run (MArr.allocateSpace dflt ref a.alloc)
      Member.run (Exec.onThrow (MArr.resizeFill dbg a newArr) newArr.deallocateSpace)
      let old ← Member.swapWith newArr
      Member.run old.deallocateSpace : Member T Unit) a s := by
    unfold MArr.resize
    rw [Member.bind_ok hself, hmk]
  have hle : ∀ {x : Nat}, NoThrow (resizeOps m.ref.extents a.ref.extents) s.sched → x ≤ resizeOps m.ref.extents a.ref.extents →
      NoThrow x s.sched := by
    intro x h hx y hy
    apply h y
    rw [List.mem_take_iff_getElem] at hy ⊢
    obtain ⟨i, hi, rfl⟩ := hy
    exact ⟨i, by omega, rfl⟩
  rcases h1 with ⟨h1, hb1, hn1⟩ | ⟨⟨h1, hnt⟩, hleak⟩
  · -- the new array exists
    have hown : OwnsVals s1 n m (List.replicate ref.numElems dflt) := by rw [← hm]; exact fresh_owns hreach dflt _ hs hb1
    have hsane1 : SaneHeap s1 := sane_fresh hs hn1 h2
    have ha1 : OwnsVals s1 n a vs := ha.mono (h2 _ (by omega))
    obtain ⟨s2, f1, f2, ⟨ws, f3⟩, f4, f5, f6⟩ := resizeFill_spec dbg ha1 hown (by rw [hmdata]; simp; omega) hra (by
      rw [hmext, hmbas, hbs, hes]; exact hrg)
    rw [hmdata] at f2
    have hsame2 : ∀ c, c ≠ s.next → s2.heap c = s.heap c := fun c hc => by rw [f2 c hc, h2 c hc]
    have ha2 : OwnsVals s2 n a vs := ha.mono (hsame2 _ (by omega))
    obtain ⟨j1, hj1⟩ := hj
    obtain ⟨j2, hj2⟩ := f5
    have hrest : (MArr.resizeFill dbg a m s1 = .ok () s2) → ∃ s3, MArr.resize dbg dflt g a s = (.ok () s3, m) ∧
        s3.heap a.ref.data.blk = none ∧ SameExcept a.ref.data.blk s2 s3 ∧ s3.next = s2.next ∧ s3.sched = s2.sched := by
      intro hf
      obtain ⟨s3, d1, d2, d3, d4, d5⟩ := ha2.dealloc
      refine ⟨s3, ?_, d2, d3, d4, d5⟩
      rw [hrun, Member.bind_ok (Member.run_apply _ _ _ |>.trans (by rw [h1])),
        Member.bind_ok (Member.run_apply _ _ _ |>.trans (by rw [Exec.onThrow_ok hf]))]
      rw [Member.bind_ok (show Member.swapWith m a s2 = (.ok a s2, m) from rfl), Member.run_apply, d1]
    rcases f1 with f1 | ⟨f1, f1'⟩
    · obtain ⟨s3, r1, r2, r3, r4, r5⟩ := hrest f1
      refine ⟨m, s3, hmdata, by rw [← hm]; exact hso, by rw [← hm], by rw [hmbas, hbs], by rw [hmext, hes], .inl ⟨r1, r2, by rw [r4, f4, hn1],
        ?_, ws, f3.mono (r3 _ (by rw [hmdata]; simp; omega))⟩, ⟨j1 + j2, by rw [r5, hj2, hj1, List.drop_drop]⟩, ?_⟩
      · intro c hc hc'
        rw [r3 c hc, hsame2 c hc']
      · intro hnth
        have ht1 : NoThrow (1 + ref.numElems) s.sched := hle hnth (by rw [hnum, hmext]; unfold resizeOps; omega)
        have hsch1 := h3 ht1
        have ht2 : NoThrow (List.zipWith Nat.min m.ref.extents a.ref.extents).prod s1.sched := by
          rw [hsch1]
          intro y hy
          apply hnth y
          rw [List.mem_take_iff_getElem] at hy ⊢
          obtain ⟨i, hi, rfl⟩ := hy
          simp only [List.length_drop] at hi
          refine ⟨1 + ref.numElems + i, ?_, by rw [List.getElem_drop]⟩
          unfold resizeOps
          rw [hnum, ← hmext] at hi ⊢
          omega
        obtain ⟨g1, g2⟩ := f6 ht2
        refine ⟨?_, ?_⟩
        · rw [r5, g1, hsch1, List.drop_drop]
          unfold resizeOps
          rw [hnum, ← hmext]
        · intro k hk
          rw [elemAt_congr (s := s2) (r3 _ (by rw [hmdata]; simp; omega)), g2 k hk]
          by_cases hka : InShape a.ref.extents k
          · rw [if_pos hka, if_pos hka]
            exact elemAt_congr (h2 _ (by omega)) k
          · rw [if_neg hka, if_neg hka]
            exact hown.elem_replicate k hk
    · obtain ⟨s3, d1, d2, d3, d4, d5⟩ := f3.dealloc
      rw [hmdata] at d2 d3
      have hnr : ¬ NoThrow (resizeOps m.ref.extents a.ref.extents) s.sched := by
        intro hnth
        have ht1 : NoThrow (1 + ref.numElems) s.sched := hle hnth (by rw [hnum, hmext]; unfold resizeOps; omega)
        have hsch1 := h3 ht1
        apply f1'
        rw [hsch1]
        intro y hy
        apply hnth y
        rw [List.mem_take_iff_getElem] at hy ⊢
        obtain ⟨i, hi, rfl⟩ := hy
        simp only [List.length_drop] at hi
        refine ⟨1 + ref.numElems + i, ?_, by rw [List.getElem_drop]⟩
        unfold resizeOps
        rw [hnum, ← hmext] at hi ⊢
        omega
      refine ⟨m, s3, hmdata, by rw [← hm]; exact hso, by rw [← hm], by rw [hmbas, hbs], by rw [hmext, hes], .inr ⟨?_, hnr, ?_, ?_, .inl d2⟩,
        ⟨j1 + j2, by rw [d5, hj2, hj1, List.drop_drop]⟩, fun h => absurd h hnr⟩
      · rw [hrun, Member.bind_ok (Member.run_apply _ _ _ |>.trans (by rw [h1])),
          Member.bind_throw (Member.run_apply _ _ _ |>.trans (by rw [Exec.onThrow_throw f1 d1]))]
      · intro c hc
        rw [d3 c hc, hsame2 c hc]
      · refine ⟨by rw [d4, f4, hn1]; omega, fun b hb => ?_⟩
        rw [d4, f4, hn1] at hb
        rw [d3 b (show b ≠ s.next by omega), hsame2 b (by omega)]
        exact hs.2 b (by omega)
  · have hnr : ¬ NoThrow (resizeOps m.ref.extents a.ref.extents) s.sched := by
      intro hnth
      exact hnt (hle hnth (by rw [hnum, hmext]; unfold resizeOps; omega))
    refine ⟨m, s1, hmdata, by rw [← hm]; exact hso, by rw [← hm], by rw [hmbas, hbs], by rw [hmext, hes], .inr ⟨?_, hnr, h2, ?_, ?_⟩,
      hj, fun h => absurd h hnr⟩
    · rw [hrun, Member.bind_throw (Member.run_apply _ _ _ |>.trans (by rw [h1]))]
    · rcases hleak with ⟨hl1, hl2⟩ | ⟨hl1, hl2⟩
      · refine ⟨by rw [hl2]; exact hs.1, fun b hb => ?_⟩
        by_cases hbn : b = s.next
        · rw [hbn, hl1]; exact hs.2 _ (by omega)
        · rw [h2 b hbn]; exact hs.2 b (by omega)
      · exact sane_fresh hs hl2 h2
    · right
      rw [hmext, ← hnum]; exact hnt

end MultiArray
