import Verif.Props.Own

/-
Property theorems C37-C39, C48, C50: resize, and what failed constructions leave behind.
`MArr.resize dbg dflt g a s` is `a.resize(g)` in memory `s`; its result pairs the outcome with the members of `a`
afterwards.  The extent generator is written `⟨n, rs⟩`: `extents[r1]...[rn]` builds it from `rs = [r1, ..., rn]` (C43).
-/
set_option autoImplicit false

namespace MultiArray.Props
open MultiArray MultiArray.Spec
variable {T : Type}

theorem legalExtents_size {rs : List ExtentRange} (h : LegalExtents rs) :
    rs.map ExtentRange.size = reqExtents rs := by
  apply List.map_congr_left
  intro r hr
  obtain ⟨h1, h2, h3⟩ := h r hr
  unfold ExtentRange.size toSizeT
  rw [Int.emod_eq_of_lt (by omega) (by omega)]

theorem legalExtents_start (rs : List ExtentRange) : rs.map ExtentRange.start = reqBases rs := rfl

theorem legalExtents_rep {rs : List ExtentRange} (h : LegalExtents rs) : Representable (reqBases rs) (reqExtents rs) := by
  induction rs with
  | nil => trivial
  | cons r rs ih =>
    obtain ⟨h1, h2, h3⟩ := h r (by simp)
    refine ⟨h1, ?_, ih (fun x hx => h x (by simp [hx]))⟩
    show r.first + ((r.second - r.first).toNat : Int) ≤ 2 ^ 63 - 1
    omega

/-- What `resize` does under any schedule of exceptions, with the vocabulary of this file. -/
theorem resize_any (dbg : Bool) (dflt : T) {n : Nat} {s : St T} {a : MArr} {vs : List T} (ha : OwnsVals s n a vs)
    (hs : SaneHeap s) (hra : Representable a.ref.bases a.ref.extents) {rs : List ExtentRange} (hl : rs.length = n)
    (hleg : LegalExtents rs) :
    ∃ (a' : MArr) (s' : St T), a'.ref.data = ⟨s.next, 0⟩ ∧ a'.ref.storage = a.ref.storage ∧ a'.alloc = a.alloc ∧
      a'.ref.bases = reqBases rs ∧ a'.ref.extents = reqExtents rs ∧
      ((MArr.resize dbg dflt ⟨n, rs⟩ a s = (.ok () s', a') ∧ s'.heap a.ref.data.blk = none ∧ s'.next = s.next + 1 ∧
          (∀ c, c ≠ a.ref.data.blk → c ≠ s.next → s'.heap c = s.heap c) ∧ (∃ ws, OwnsVals s' n a' ws)) ∨
        (MArr.resize dbg dflt ⟨n, rs⟩ a s = (.throw s', a) ∧ ¬ NoThrow (resizeOps a'.ref.extents a.ref.extents) s.sched ∧
          SameExcept s.next s s' ∧ SaneHeap s' ∧
          (s'.heap s.next = none ∨ ¬ NoThrow (1 + a'.ref.extents.prod) s.sched))) ∧
      (∃ j, s'.sched = s.sched.drop j) ∧
      (NoThrow (resizeOps a'.ref.extents a.ref.extents) s.sched →
        s'.sched = s.sched.drop (resizeOps a'.ref.extents a.ref.extents) ∧
        ∀ k, InShape a'.ref.extents k →
          elemAt s' a'.ref.desc k = if InShape a.ref.extents k then elemAt s a.ref.desc k else some dflt) := by
  have := resize_spec dbg dflt ha hs ⟨n, rs⟩ rfl hl hra (by
    rw [legalExtents_start, legalExtents_size hleg]; exact legalExtents_rep hleg)
  rw [legalExtents_start, legalExtents_size hleg] at this
  exact this

/-! ### C37, C39 -/

/-- C37 and C39 together. -/
theorem resize_ok (dbg : Bool) (dflt : T) {n : Nat} {s : St T} {a : MArr} {vs : List T} (ha : OwnsVals s n a vs)
    (hs : SaneHeap s) (hsched : s.sched = []) (hra : Representable a.ref.bases a.ref.extents)
    {rs : List ExtentRange} (hl : rs.length = n) (hleg : LegalExtents rs) :
    ∃ a' s', MArr.resize dbg dflt ⟨n, rs⟩ a s = (.ok () s', a') ∧
      a'.ref.bases = reqBases rs ∧ a'.ref.extents = reqExtents rs ∧ a'.ref.storage = a.ref.storage ∧ a'.alloc = a.alloc ∧
      (∀ k, InShape a'.ref.extents k → InShape a.ref.extents k → elemAt s' a'.ref.desc k = elemAt s a.ref.desc k) ∧
      (∀ k, InShape a'.ref.extents k → ¬ InShape a.ref.extents k → elemAt s' a'.ref.desc k = some dflt) ∧
      -- C39
      a'.ref.data = ⟨s.next, 0⟩ ∧ s.heap s.next = none ∧ (∃ ws, OwnsVals s' n a' ws) ∧
      s'.heap a.ref.data.blk = none ∧ (∀ c, c ≠ a.ref.data.blk → c ≠ s.next → s'.heap c = s.heap c) ∧
      s'.sched = [] ∧ SaneHeap s' := by
  obtain ⟨a', s', h1, h2, h3, h4, h5, h6, _, h8⟩ := resize_any dbg dflt ha hs hra hl hleg
  obtain ⟨e1, e2⟩ := h8 (noThrow_nil hsched _)
  rcases h6 with ⟨h6, hold, hnext, hother, hown⟩ | ⟨_, hcontra, _⟩
  · refine ⟨a', s', h6, h4, h5, h2, h3, ?_, ?_, h1, hs.2 _ (Nat.le_refl _), hown, hold, hother, by rw [e1, hsched]; simp, ?_⟩
    · intro k hk hk'; rw [e2 k hk, if_pos hk']
    · intro k hk hk'; rw [e2 k hk, if_neg hk']
    · have := ha.blk_lt hs
      refine ⟨by omega, fun b hb => ?_⟩
      rw [hother b (by omega) (by omega)]
      exact hs.2 b (by omega)
  · exact absurd (noThrow_nil hsched _) hcontra

/-- **C37.** `resize` gives the array the requested shape and bases, keeps storage order and allocator, keeps the value at
every zero-based position that exists in both shapes, and value-initialises every other element. -/
theorem C37_resize_contents (dbg : Bool) (dflt : T) {n : Nat} {s : St T} {a : MArr} {vs : List T} (ha : OwnsVals s n a vs)
    (hs : SaneHeap s) (hsched : s.sched = []) (hra : Representable a.ref.bases a.ref.extents)
    {rs : List ExtentRange} (hl : rs.length = n) (hleg : LegalExtents rs) :
    ∃ a' s', MArr.resize dbg dflt ⟨n, rs⟩ a s = (.ok () s', a') ∧
      a'.ref.bases = reqBases rs ∧ a'.ref.extents = reqExtents rs ∧ a'.ref.storage = a.ref.storage ∧ a'.alloc = a.alloc ∧
      (∀ k, InShape (reqExtents rs) k → InShape a.ref.extents k → elemAt s' a'.ref.desc k = elemAt s a.ref.desc k) ∧
      (∀ k, InShape (reqExtents rs) k → ¬ InShape a.ref.extents k → elemAt s' a'.ref.desc k = some dflt) := by
  obtain ⟨a', s', h1, h2, h3, h4, h5, h6, h7, _⟩ := resize_ok dbg dflt ha hs hsched hra hl hleg
  rw [h3] at h6 h7
  exact ⟨a', s', h1, h2, h3, h4, h5, h6, h7⟩

/-- **C39.** After `resize` the array owns exactly one block, one that did not exist before, of `num_elements()` live
elements (`OwnsVals`); the old block no longer exists: it was deallocated with the count it was allocated with, all its
elements having been destroyed before (both are conditions of `deallocate`, and destroying twice is `ub`, so the
outcome would not be a success otherwise); no other block is touched. -/
theorem C39_resize_storage (dbg : Bool) (dflt : T) {n : Nat} {s : St T} {a : MArr} {vs : List T} (ha : OwnsVals s n a vs)
    (hs : SaneHeap s) (hsched : s.sched = []) (hra : Representable a.ref.bases a.ref.extents)
    {rs : List ExtentRange} (hl : rs.length = n) (hleg : LegalExtents rs) :
    ∃ a' s', MArr.resize dbg dflt ⟨n, rs⟩ a s = (.ok () s', a') ∧
      s.heap a'.ref.data.blk = none ∧ (∃ ws, OwnsVals s' n a' ws) ∧ s'.heap a.ref.data.blk = none ∧
      (∀ c, c ≠ a.ref.data.blk → c ≠ a'.ref.data.blk → s'.heap c = s.heap c) := by
  obtain ⟨a', s', h1, _, _, _, _, _, _, h8, h9, h10, h11, h12, _⟩ := resize_ok dbg dflt ha hs hsched hra hl hleg
  exact ⟨a', s', h1, by rw [h8]; exact h9, h10, h11, by rw [h8]; exact h12⟩

theorem resizeExtents_eq (dbg : Bool) (dflt : T) {n : Nat} {s : St T} {a : MArr} {vs : List T} (ha : OwnsVals s n a vs)
    {es : List Nat} (hl : es.length = n) :
    MArr.resizeExtents dbg dflt es a s =
      MArr.resize dbg dflt ⟨n, es.map (fun (e : Nat) => ExtentRange.mk2 0 (e : Int))⟩ a s := by
  have hd : a.ref.numDims = n := ha.reach.wf.ext_len
  unfold MArr.resizeExtents
  rw [Member.bind_ok (show Member.self a s = (.ok a s, a) from rfl), hd]
  rw [Member.bind_ok (s' := s) (this' := a) (a := es)]
  rw [Member.run_apply]
  unfold copyN
  rw [if_pos (by omega), List.take_of_length_le (by omega)]
  rfl

theorem extentList_legal {es : List Nat} (h : ∀ e ∈ es, e ≤ 2 ^ 63 - 1) :
    LegalExtents (es.map (fun (e : Nat) => ExtentRange.mk2 0 (e : Int))) := by
  intro r hr
  obtain ⟨e, he, rfl⟩ := List.mem_map.mp hr
  have := h e he
  simp only [ExtentRange.mk2]
  omega

theorem extentList_bases (es : List Nat) :
    reqBases (es.map (fun (e : Nat) => ExtentRange.mk2 0 (e : Int))) = List.replicate es.length 0 := by
  induction es with
  | nil => rfl
  | cons e es ih => simp only [List.map_cons, reqBases, List.length_cons, List.replicate_succ] at ih ⊢; rw [ih]; rfl

theorem extentList_extents (es : List Nat) :
    reqExtents (es.map (fun (e : Nat) => ExtentRange.mk2 0 (e : Int))) = es := by
  induction es with
  | nil => rfl
  | cons e es ih => simp only [List.map_cons, reqExtents] at ih ⊢; rw [ih]; simp [ExtentRange.mk2]

/-- **C37.** `resize` with a plain list of extents: the same with all bases 0. -/
theorem C37_resize_extent_list (dbg : Bool) (dflt : T) {n : Nat} {s : St T} {a : MArr} {vs : List T} (ha : OwnsVals s n a vs)
    (hs : SaneHeap s) (hsched : s.sched = []) (hra : Representable a.ref.bases a.ref.extents)
    {es : List Nat} (hl : es.length = n) (hes : ∀ e ∈ es, e ≤ 2 ^ 63 - 1) :
    ∃ a' s', MArr.resizeExtents dbg dflt es a s = (.ok () s', a') ∧
      a'.ref.bases = List.replicate n 0 ∧ a'.ref.extents = es ∧ a'.ref.storage = a.ref.storage ∧ a'.alloc = a.alloc ∧
      (∀ k, InShape es k → InShape a.ref.extents k → elemAt s' a'.ref.desc k = elemAt s a.ref.desc k) ∧
      (∀ k, InShape es k → ¬ InShape a.ref.extents k → elemAt s' a'.ref.desc k = some dflt) ∧
      a'.ref.data = ⟨s.next, 0⟩ ∧ (∃ ws, OwnsVals s' n a' ws) ∧
      s'.heap a.ref.data.blk = none ∧ (∀ c, c ≠ a.ref.data.blk → c ≠ s.next → s'.heap c = s.heap c) := by
  obtain ⟨a', s', h1, h2, h3, h4, h5, h6, h7, h8, _, h9, h10, h11, _⟩ :=
    resize_ok dbg dflt ha hs hsched hra (by rw [List.length_map, hl]) (extentList_legal hes)
  rw [extentList_bases, hl] at h2
  rw [extentList_extents] at h3
  rw [h3] at h6 h7
  exact ⟨a', s', by rw [resizeExtents_eq dbg dflt ha hl, h1], h2, h3, h4, h5, h6, h7, h8, h9, h10, h11⟩

/-- Resizing the 2x3x4 example (index bases 2, -1, 0, one descending dimension) to 3x2x5 with new bases. -/
example : ∃ a' s', MArr.resize true 0 ⟨3, [⟨-1, 2⟩, ⟨0, 2⟩, ⟨5, 10⟩]⟩ exM exSt = (.ok () s', a') ∧
    a'.ref.extents = [3, 2, 5] ∧ a'.ref.bases = [-1, 0, 5] ∧ elemAt s' a'.ref.desc [2, 0, 0] = some 0 ∧
    elemAt s' a'.ref.desc [1, 1, 3] = elemAt exSt exM.ref.desc [1, 1, 3] := by
  obtain ⟨a', s', h1, h2, h3, _, _, h4, h5, _⟩ := resize_ok true 0 exM_owns exSt_sane rfl (by decide)
    (rs := [⟨-1, 2⟩, ⟨0, 2⟩, ⟨5, 10⟩]) rfl (by decide)
  refine ⟨a', s', h1, h3, h2, h5 _ ?_ (by decide), h4 _ ?_ (by decide)⟩ <;> rw [h3] <;> decide

/-! ### C38 -/

/-- **C38.** Resizing to the shape the array already has keeps every element. -/
theorem C38_same_shape (dbg : Bool) (dflt : T) {n : Nat} {s : St T} {a : MArr} {vs : List T} (ha : OwnsVals s n a vs)
    (hs : SaneHeap s) (hsched : s.sched = []) (hra : Representable a.ref.bases a.ref.extents)
    {rs : List ExtentRange} (hl : rs.length = n) (hleg : LegalExtents rs) (hsame : reqExtents rs = a.ref.extents) :
    ∃ a' s', MArr.resize dbg dflt ⟨n, rs⟩ a s = (.ok () s', a') ∧ a'.ref.extents = a.ref.extents ∧
      a'.ref.bases = reqBases rs ∧ ∀ k, InShape a.ref.extents k → elemAt s' a'.ref.desc k = elemAt s a.ref.desc k := by
  obtain ⟨a', s', h1, h2, h3, _, _, h4, _⟩ := resize_ok dbg dflt ha hs hsched hra hl hleg
  rw [hsame] at h3
  exact ⟨a', s', h1, h3, h2, fun k hk => h4 k (by rw [h3]; exact hk) hk⟩

/-- `es'` is at least as large as `es` in every dimension. -/
def Covers (es' es : List Nat) : Prop := List.Forall₂ (fun e e' => e ≤ e') es es'

theorem inShape_covers {es es' : List Nat} (h : Covers es' es) {k : List Nat} (hk : InShape es k) : InShape es' k := by
  induction h generalizing k with
  | nil => exact hk
  | cons h1 _ ih =>
    cases k with
    | nil => exact hk
    | cons x k => exact ⟨lt_of_lt_of_le hk.1 h1, ih hk.2⟩

/-- **C38.** Growing (in every dimension, or keeping it) and then shrinking back to the original shape restores every
element, whatever bases are requested in between. -/
theorem C38_grow_then_shrink (dbg dbg' : Bool) (dflt dflt' : T) {n : Nat} {s : St T} {a : MArr} {vs : List T} (ha : OwnsVals s n a vs)
    (hs : SaneHeap s) (hsched : s.sched = []) (hra : Representable a.ref.bases a.ref.extents)
    {rs rs' : List ExtentRange} (hl : rs.length = n) (hleg : LegalExtents rs) (hgrow : Covers (reqExtents rs) a.ref.extents)
    (hl' : rs'.length = n) (hleg' : LegalExtents rs') (hback : reqExtents rs' = a.ref.extents) :
    ∃ a1 s1 a2 s2, MArr.resize dbg dflt ⟨n, rs⟩ a s = (.ok () s1, a1) ∧
      MArr.resize dbg' dflt' ⟨n, rs'⟩ a1 s1 = (.ok () s2, a2) ∧ a2.ref.extents = a.ref.extents ∧
      ∀ k, InShape a.ref.extents k → elemAt s2 a2.ref.desc k = elemAt s a.ref.desc k := by
  obtain ⟨a1, s1, h1, h2, h3, _, _, h4, _, _, _, ⟨ws, hown⟩, _, _, hs1, hsane⟩ :=
    resize_ok dbg dflt ha hs hsched hra hl hleg
  obtain ⟨a2, s2, e1, e2, e3, _, _, e4, _⟩ := resize_ok dbg' dflt' hown hsane hs1
    (by rw [h2, h3]; exact legalExtents_rep hleg) hl' hleg'
  rw [hback] at e3
  refine ⟨a1, s1, a2, s2, h1, e1, e3, ?_⟩
  intro k hk
  have hk1 : InShape a1.ref.extents k := by rw [h3]; exact inShape_covers hgrow hk
  rw [e4 k (by rw [e3]; exact hk) hk1, h4 k hk1 hk]

example : LegalExtents [⟨0, 4⟩, ⟨7, 10⟩, ⟨-2, 7⟩] ∧ Covers (reqExtents [⟨0, 4⟩, ⟨7, 10⟩, ⟨-2, 7⟩]) exM.ref.extents ∧
    LegalExtents [⟨2, 4⟩, ⟨0, 3⟩, ⟨0, 4⟩] ∧ reqExtents [⟨2, 4⟩, ⟨0, 3⟩, ⟨0, 4⟩] = exM.ref.extents := by
  refine ⟨by decide, ?_, by decide, by decide⟩
  exact .cons (by decide) (.cons (by decide) (.cons (by decide) .nil))

/-! ### C48 -/

/-- **C48.** Whatever allocation, element construction or element assignment throws inside `resize`, at whatever point: the
outcome is success or that exception (never undefined behaviour or an assertion), and after an exception the array's
members and all its elements are exactly as before; nothing in memory has changed except that possibly a block that did
not exist before remains, and that only if an element constructor threw (cf. C50): an exception while copying the
elements releases the new storage. -/
theorem C48_resize_strong_guarantee (dbg : Bool) (dflt : T) {n : Nat} {s : St T} {a : MArr} {vs : List T} (ha : OwnsVals s n a vs)
    (hs : SaneHeap s) (hra : Representable a.ref.bases a.ref.extents)
    {rs : List ExtentRange} (hl : rs.length = n) (hleg : LegalExtents rs) :
    (∃ a' s', MArr.resize dbg dflt ⟨n, rs⟩ a s = (.ok () s', a')) ∨
    (∃ s', MArr.resize dbg dflt ⟨n, rs⟩ a s = (.throw s', a) ∧ OwnsVals s' n a vs ∧
      (∀ k, elemAt s' a.ref.desc k = elemAt s a.ref.desc k) ∧
      (∀ c, c ≠ s.next → s'.heap c = s.heap c) ∧ SaneHeap s' ∧
      (NoThrow (1 + (reqExtents rs).prod) s.sched → s'.heap = s.heap)) := by
  obtain ⟨a', s', _, _, _, _, h5, h6, _⟩ := resize_any dbg dflt ha hs hra hl hleg
  rcases h6 with ⟨h6, _⟩ | ⟨h6, _, h7, h8, h9⟩
  · exact .inl ⟨a', s', h6⟩
  · have hne : a.ref.data.blk ≠ s.next := by have := ha.blk_lt hs; omega
    refine .inr ⟨s', h6, ha.mono (h7 _ hne), fun k => elemAt_congr (h7 _ hne) k, h7, h8, ?_⟩
    intro hno
    rw [h5] at h9
    rcases h9 with h9 | h9
    · funext c
      by_cases hc : c = s.next
      · rw [hc, h9, hs.2 _ (Nat.le_refl _)]
      · exact h7 c hc
    · exact absurd hno h9

/-! ### C50 -/

theorem plain_ctor {n : Nat} {r : Res ARef} {ref : ARef} (hr : r = .ok ref) (hreach : Reachable n ref) (dflt : T) (al : Nat)
    {s : St T} (hs : SaneHeap s) :
    ∃ s', ((∃ m, (do let ref ← Exec.lift r; MArr.allocateSpace dflt ref al : Exec T MArr) s = .ok m s' ∧
          (∃ ws, OwnsVals s' n m ws) ∧ m.ref.data = ⟨s.next, 0⟩ ∧ s'.next = s.next + 1) ∨
        ((do let ref ← Exec.lift r; MArr.allocateSpace dflt ref al : Exec T MArr) s = .throw s' ∧ s.sched ≠ [])) ∧
      SameExcept s.next s s' ∧ SaneHeap s' ∧ ∃ j, s'.sched = s.sched.drop j := by
  subst hr
  obtain ⟨s', h1, h2, _, h4⟩ := allocateSpace_any dflt ref al s
  rcases h1 with ⟨h1, h5, h6⟩ | ⟨⟨h1, h5⟩, h6⟩
  · exact ⟨s', .inl ⟨_, h1, ⟨_, fresh_owns hreach dflt al hs h5⟩, rfl, h6⟩, h2, sane_fresh hs h6 h2, h4⟩
  · refine ⟨s', .inr ⟨h1, fun h => h5 (noThrow_nil h _)⟩, h2, ?_, h4⟩
    rcases h6 with ⟨h6, h7⟩ | ⟨_, h7⟩
    · refine ⟨by rw [h7]; exact hs.1, fun b hb => ?_⟩
      by_cases hbn : b = s.next
      · rw [hbn, h6]; exact hs.2 _ (Nat.le_refl _)
      · rw [h2 b hbn]; exact hs.2 b (by omega)
    · exact sane_fresh hs h7 h2

/-- Every constructor, with legal arguments, under any schedule of exceptions. -/
theorem ctor_any (dbg : Bool) (dflt : T) {s : St T} (hs : SaneHeap s) (c : Ctor) (hc : c.Legal s) :
    ∃ s', ((∃ m, c.run dbg dflt s = .ok m s' ∧ (∃ ws, OwnsVals s' c.dims m ws) ∧ m.ref.data = ⟨s.next, 0⟩ ∧ s'.next = s.next + 1) ∨
        (c.run dbg dflt s = .throw s' ∧ s.sched ≠ [])) ∧
      SameExcept s.next s s' ∧ SaneHeap s' ∧ ∃ j, s'.sched = s.sched.drop j := by
  cases c with
  | default n al =>
    have hv : ValidOrder n (StorageOrder.cOrder n) := cOrder_valid n
    obtain ⟨ref, h⟩ := ARef.init_succeeds Ptr.null (List.replicate n 0) (so := StorageOrder.cOrder n)
      (es := List.replicate n 0) (n := n) hv (by simp)
    have h' : ARef.ofShape n Ptr.null (StorageOrder.cOrder n) none none = .ok ref := h
    exact plain_ctor h' (.ofShape hv h') dflt al hs
  | extents n es so al =>
    obtain ⟨hv, hl⟩ := hc
    obtain ⟨ref, h⟩ := ARef.init_succeeds Ptr.null (List.replicate n 0) (so := so) (es := es) (n := n) hv (by omega)
    exact plain_ctor h (.ofExtents hv h) dflt al hs
  | gen n rs so al =>
    obtain ⟨hv, hl⟩ := hc
    obtain ⟨ref, h, hr, _⟩ := ofExtentGen_ok Ptr.null ⟨n, rs⟩ rfl hl hv
    exact plain_ctor h hr dflt al hs
  | copy n a =>
    obtain ⟨vs, ha⟩ := hc
    obtain ⟨m, s', hm, h1, h2, h3, h4, _⟩ := mkCopy_spec dflt ha hs
    refine ⟨s', ?_, h2, h3, h4⟩
    rcases h1 with ⟨h1, h5, h6⟩ | ⟨h1, h5, _⟩
    · exact .inl ⟨m, h1, h5, by rw [hm]; rfl, h6⟩
    · exact .inr ⟨h1, fun h => h5 (noThrow_nil h _)⟩
  | convert n src so al =>
    obtain ⟨hn, hv, k, root, hr, hh, hl, hlen⟩ := hc
    obtain ⟨m, s', h0, _, _, _, _, h1, h2, h3, h4, _⟩ := mkConvert_spec dbg dflt hn (handle_wellShaped hr hh) hlen
      (fun idx hidx => hl.handle hr.wf hh hidx) hs hv al
    refine ⟨s', ?_, h2, h3, h4⟩
    rcases h1 with ⟨h1, h5, h6⟩ | ⟨h1, h5, _⟩
    · exact .inl ⟨m, h1, h5, h0, h6⟩
    · exact .inr ⟨h1, fun h => h5 (noThrow_nil h _)⟩

theorem allocateSpace_allocThrow (dflt : T) (ref : ARef) (al : Nat) (s : St T) {junk : T} {fs : List (Option T)}
    (h : s.sched = some junk :: fs) : MArr.allocateSpace dflt ref al s = .throw { s with sched := fs } := by
  unfold MArr.allocateSpace
  rw [Exec.bind_throw (s' := { s with sched := fs })]
  simp only [allocate, h]

/-- **C50** (partial).  The full claim, "a failed construction leaves no storage allocated", is false: see
`C50_counterexample_element_construction` and `C50_counterexample_copy`.  What does hold for every constructor, all
legal arguments and every throw point: the outcome is a live array owning a fresh block, or the exception (never
undefined behaviour); all storage that existed before is untouched, so at most the one block of the failed construction
remains; and if it is the allocation itself that throws, nothing remains. -/
theorem C50_failed_construction_partial (dbg : Bool) (dflt : T) {s : St T} (hs : SaneHeap s) (c : Ctor) (hc : c.Legal s) :
    ((∃ m s', c.run dbg dflt s = .ok m s' ∧ Owns s' c.dims m ∧ m.ref.data = ⟨s.next, 0⟩ ∧ SameExcept s.next s s') ∨
      (∃ s', c.run dbg dflt s = .throw s' ∧ SameExcept s.next s s' ∧ SaneHeap s')) ∧
    (∀ junk fs, s.sched = some junk :: fs → ∃ s', c.run dbg dflt s = .throw s' ∧ s'.heap = s.heap ∧ s'.next = s.next) := by
  constructor
  · obtain ⟨s', h1, h2, h3, _⟩ := ctor_any dbg dflt hs c hc
    rcases h1 with ⟨m, h1, h4, h5, _⟩ | ⟨h1, _⟩
    · exact .inl ⟨m, s', h1, h4, h5, h2⟩
    · exact .inr ⟨s', h1, h2, h3⟩
  · intro junk fs hsch
    refine ⟨{ s with sched := fs }, ?_, rfl, rfl⟩
    cases c with
    | default n al =>
      have hv : ValidOrder n (StorageOrder.cOrder n) := cOrder_valid n
      obtain ⟨ref, h⟩ := ARef.init_succeeds Ptr.null (List.replicate n 0) (so := StorageOrder.cOrder n)
        (es := List.replicate n 0) (n := n) hv (by simp)
      have h' : ARef.ofShape n Ptr.null (StorageOrder.cOrder n) none none = .ok ref := h
      show MArr.mkDefault dflt n al s = _
      unfold MArr.mkDefault
      rw [h', Exec.lift_ok, pure_bind]
      exact allocateSpace_allocThrow dflt ref al s hsch
    | extents n es so al =>
      obtain ⟨hv, hl⟩ := hc
      obtain ⟨ref, h⟩ := ARef.init_succeeds Ptr.null (List.replicate n 0) (so := so) (es := es) (n := n) hv (by omega)
      show MArr.mkExtents dflt n es so al s = _
      unfold MArr.mkExtents ARef.ofExtents
      rw [h, Exec.lift_ok, pure_bind]
      exact allocateSpace_allocThrow dflt ref al s hsch
    | gen n rs so al =>
      obtain ⟨hv, hl⟩ := hc
      obtain ⟨ref, h, hr, _⟩ := ofExtentGen_ok Ptr.null ⟨n, rs⟩ rfl hl hv
      show MArr.mkExtentGen dflt ⟨n, rs⟩ so al s = _
      unfold MArr.mkExtentGen
      rw [h, Exec.lift_ok, pure_bind]
      exact allocateSpace_allocThrow dflt ref al s hsch
    | copy n a =>
      show MArr.mkCopy dflt a s = _
      unfold MArr.mkCopy
      exact Exec.bind_throw (allocateSpace_allocThrow dflt _ _ s hsch)
    | convert n src so al =>
      obtain ⟨hn, hv, k, root, hr, hh, hl, hlen⟩ := hc
      have hw := handle_wellShaped hr hh
      have hbl : src.bases.length = n := by rw [hw.2, hlen]
      obtain ⟨ref, hinit⟩ := ARef.init_succeeds Ptr.null src.bases (so := so) (es := src.extents) (n := n) hv (by omega)
      have href : ARef.ofShape n Ptr.null so (some src.bases) (some src.extents) = .ok ref := by
        unfold ARef.ofShape
        simp only [copyN_self hbl, Res.bind_ok]
        exact hinit
      show MArr.mkConvert dbg dflt src so al s = _
      unfold MArr.mkConvert
      rw [hlen, href, Exec.lift_ok, pure_bind]
      exact Exec.bind_throw (allocateSpace_allocThrow dflt _ _ s hsch)

/-- C50 is false: for every shape with at least one element, every storage order and memory, if the allocation succeeds
and the first element constructor throws, the constructor propagates the exception and its storage stays allocated, with
no owner. -/
theorem C50_counterexample_element_construction (dflt junk : T) {n : Nat} {rs : List ExtentRange} {so : StorageOrder}
    (hv : ValidOrder n so) (hl : rs.length = n) (hleg : LegalExtents rs) (hne : 0 < (reqExtents rs).prod) (alloc : Nat)
    (s : St T) (hsched : s.sched = [none, some junk]) :
    ∃ s', MArr.mkExtentGen dflt ⟨n, rs⟩ so alloc s = .throw s' ∧
      s'.heap s.next = some ⟨alloc, List.replicate (reqExtents rs).prod .raw⟩ := by
  obtain ⟨ref, h, hr, _, _, _, he⟩ := ofExtentGen_ok Ptr.null ⟨n, rs⟩ rfl hl hv
  have hnum : ref.numElems = (reqExtents rs).prod := by
    rw [hr.wf.num_eq, product_eq, he]; simp only [legalExtents_size hleg]
  have h1 := allocate_ok alloc ref.numElems s (.inr ⟨_, hsched⟩)
  generalize hs1 : (St.mk (fun b => if b = s.next then some ⟨alloc, List.replicate ref.numElems .raw⟩ else s.heap b)
      (s.next + 1) s.sched.tail : St T) = s1 at h1
  have hb : s1.heap s.next = some ⟨alloc, List.replicate ref.numElems .raw⟩ := by rw [← hs1]; simp
  have hsch1 : s1.sched = [some junk] := by rw [← hs1, hsched]; rfl
  obtain ⟨m, hm⟩ : ∃ m, ref.numElems = m + 1 := ⟨ref.numElems - 1, by omega⟩
  have hc0 : s1.cell? ⟨s.next, 0⟩ = some .raw := by
    have := cell?_of_heap hb 0
    rw [hm] at this
    simpa using this
  refine ⟨{ s1 with sched := [] }, ?_, by rw [← hnum]; exact hb⟩
  unfold MArr.mkExtentGen
  rw [h, Exec.lift_ok, pure_bind]
  unfold MArr.allocateSpace
  rw [Exec.bind_ok h1]
  apply Exec.bind_throw
  rw [hm]
  simp only [constructFrom]
  apply Exec.bind_throw
  apply Exec.onThrow_throw (s' := { s1 with sched := [] })
  · exact constructCell_throw dflt (by simpa [Ptr.add] using hc0) hsch1
  · rfl

/-- C50 is false for copies too, and there live objects are lost: copying any non-empty array, if the first element copy
throws, leaves a block of `num_elements()` constructed objects that nobody owns or will ever destroy. -/
theorem C50_counterexample_copy (dflt junk : T) {n : Nat} {a : MArr} {vs : List T} (s : St T) (ha : OwnsVals s n a vs)
    (hs : SaneHeap s) (hne : 0 < a.ref.numElements)
    (hsched : s.sched = List.replicate (1 + a.ref.numElements) none ++ [some junk]) :
    ∃ s' cells, MArr.mkCopy dflt a s = .throw s' ∧ s.heap s.next = none ∧ s'.heap s.next = some ⟨a.alloc, cells⟩ ∧
      cells.length = a.ref.numElements ∧ ∀ c ∈ cells, c.isRaw = false := by
  have hno : NoThrow (1 + a.ref.numElems) s.sched := by
    intro x hx
    rw [hsched, show a.ref.numElements = a.ref.numElems from rfl, List.take_append_of_le_length (by simp)] at hx
    rw [List.take_of_length_le (by simp)] at hx
    exact List.eq_of_mem_replicate hx
  obtain ⟨s1, h1, h2, h3, h4, h5⟩ := allocateSpace_ok dflt a.ref a.alloc s hno
  have hs1 : s1.sched = [some junk] := by
    rw [h5, hsched, show a.ref.numElements = a.ref.numElems from rfl, List.drop_append_of_le_length (by simp),
      List.drop_of_length_le (by simp)]
    rfl
  have hnew : a.ref.data.blk ≠ s.next := by have := ha.blk_lt hs; omega
  have ha1 := ha.mono (h4 _ hnew)
  obtain ⟨v, hv⟩ := ha1.live 0 hne
  have hv' : s1.get? a.ownBase = some v := by rw [ha.own]; simpa [Ptr.add] using hv
  obtain ⟨m, hm⟩ : ∃ m, a.ref.numElems = m + 1 := ⟨a.ref.numElems - 1, by simp only [ARef.numElements] at hne; omega⟩
  have hd : s1.get? ⟨s.next, 0⟩ = some dflt := by
    rw [St.get?_eq_some]
    have := cell?_of_heap h2 0
    rw [hm] at this
    simpa using this
  refine ⟨({ s1 with sched := [] } : St T).setCell ⟨s.next, 0⟩ (.obj junk),
    (List.replicate a.ref.numElems (.obj dflt)).set 0 (.obj junk), ?_, hs.2 _ (Nat.le_refl _), ?_, ?_, ?_⟩
  · unfold MArr.mkCopy
    rw [Exec.bind_ok h1]
    apply Exec.bind_throw
    rw [hm]
    simp only [MArr.copyNElems]
    rw [Exec.bind_ok (load_ok hv')]
    apply Exec.bind_throw
    simp only [assignCell, hd, hs1]
  · simp only [St.setCell, h2]
    simp
  · simp [ARef.numElements]
  · intro c hc
    rcases List.mem_or_eq_of_mem_set hc with hc | hc
    · rw [List.eq_of_mem_replicate hc]; rfl
    · rw [hc]; rfl

/-- Both counterexamples' hypotheses are met, e.g. by a 2x3x4 shape and by `exM`. -/
example : ValidOrder 3 exOrder ∧ LegalExtents [⟨-1, 1⟩, ⟨5, 8⟩, ⟨0, 4⟩] ∧ 0 < (reqExtents [⟨-1, 1⟩, ⟨5, 8⟩, ⟨0, 4⟩]).prod ∧
    0 < exM.ref.numElements ∧
    OwnsVals { exSt with sched := List.replicate (1 + exM.ref.numElements) none ++ [some 99] } 3 exM (List.range 24) :=
  ⟨by decide, by decide, by decide, by decide, ⟨exArr_reachable, rfl, by decide, rfl, rfl, rfl, rfl⟩⟩

/-- A small array for running whole operations: 2 elements, index base 3. -/
def smallM : MArr := ⟨⟨⟨1, 0⟩, ⟨[0], [true]⟩, [2], [1], [3], -3, 0, 2⟩, ⟨1, 0⟩, 2, 0⟩

/-- Its memory, with exceptions `sched` to come. -/
def smallSt (sched : List (Option Nat)) : St Nat :=
  ⟨fun b => if b = 1 then some ⟨0, [.obj 10, .obj 20]⟩ else none, 2, sched⟩

theorem smallM_owns (sched : List (Option Nat)) : OwnsVals (smallSt sched) 1 smallM [10, 20] :=
  ⟨.ofExtentGen (p := ⟨1, 0⟩) (g := ⟨1, [⟨3, 5⟩]⟩) (so := ⟨[0], [true]⟩) (by decide) rfl rfl rfl, rfl, by decide, rfl, rfl, rfl, rfl⟩

/-- A `resize` that fails in the second element copy: 1 allocation, 3 constructions, 1 copy succeed. -/
example : ∃ s', MArr.resize true 0 ⟨1, [⟨0, 3⟩]⟩ smallM (smallSt [none, none, none, none, none, some 99]) = (.throw s', smallM) ∧
    s'.heap 2 = none ∧ s'.heap 1 = some ⟨0, [.obj 10, .obj 20]⟩ := ⟨_, rfl, rfl, rfl⟩

/-! ### Instances: the theorems applied to concrete cases, whose hypotheses are thereby met -/

example := C37_resize_contents true 0 exM_owns exSt_sane rfl (by decide) (rs := [⟨-1, 2⟩, ⟨0, 2⟩, ⟨5, 10⟩]) rfl (by decide)
example := C39_resize_storage true 0 exM_owns exSt_sane rfl (by decide) (rs := [⟨-1, 2⟩, ⟨0, 2⟩, ⟨5, 10⟩]) rfl (by decide)
example := C38_same_shape true 0 exM_owns exSt_sane rfl (by decide) (rs := [⟨2, 4⟩, ⟨0, 3⟩, ⟨0, 4⟩]) rfl (by decide) rfl
theorem smallSt_sane (sched : List (Option Nat)) : SaneHeap (smallSt sched) :=
  ⟨Nat.two_pos, fun b hb => if_neg (by have : 2 ≤ b := hb; omega)⟩
example := C48_resize_strong_guarantee true 0 (smallM_owns [none, none, some 99]) (smallSt_sane _) (by decide) (rs := [⟨0, 3⟩]) rfl (by decide)
example := C50_failed_construction_partial true 0 (smallSt_sane [none, none, some 99]) (.copy 1 smallM) ⟨_, smallM_owns _⟩
example := C50_counterexample_element_construction 0 7 (rs := [⟨3, 5⟩]) (cOrder_valid 1) rfl (by decide) (by decide) 0 (smallSt [none, some 7]) rfl

/- end of instances -/

end MultiArray.Props
