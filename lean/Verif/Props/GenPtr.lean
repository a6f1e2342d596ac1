import Verif.SpecGenPtr
import Verif.Props.Pointers

/-
Property theorems C96: `const_multi_array_ref` over an arbitrary pointer type.
-/
set_option autoImplicit false

namespace MultiArray.Props
open MultiArray MultiArray.Spec

/-- The reference `g` with its pointer replaced by the plain pointer `q`. -/
def plainOf {P : Type} (q : Ptr) (g : GRef P) : ARef :=
  ⟨q, g.storage, g.extents, g.strides, g.bases, g.originOffset, g.directionalOffset, g.numElems⟩

/-- Apply a function to a result. -/
def resMap {α β : Type} (f : α → β) (x : Res α) : Res β := do .ok (f (← x))

section
variable {P Q : Type}

theorem resMap_ok {α β : Type} (f : α → β) (a : α) : resMap f (.ok a) = .ok (f a) := rfl

theorem plain_init (n : Nat) (p : P) (q : Ptr) (so : StorageOrder) (bs : List Int) (ext : List Nat) :
    resMap (plainOf q) (GRef.init n p so bs ext) = ARef.init n q so bs ext := by
  unfold GRef.init ARef.init
  cases copyN ext n with
  | assertFail => rfl
  | ub => rfl
  | ok e =>
    simp only [Res.bind_ok]
    cases computeStrides (List.replicate n 0) e so <;> rfl

theorem plain_step (dbg : Bool) (q : Ptr) (g : GRef P) (st : RefStep) :
    resMap (plainOf q) (st.over dbg g) = st.plain dbg (plainOf q g) := by
  cases st with
  | reindexList bs =>
    simp only [RefStep.over, RefStep.plain, GRef.reindexList, ARef.reindexList, ARef.numDims, plainOf]
    cases copyN bs g.extents.length <;> rfl
  | reindexAll b => rfl
  | reshape exts =>
    unfold RefStep.over RefStep.plain GRef.reshape ARef.reshape
    change resMap (plainOf q) (Res.assert dbg (decide (g.numElems = product exts)) >>= fun _ => _) =
      (Res.assert dbg (decide (g.numElems = product exts)) >>= fun _ => _)
    cases Res.assert dbg (decide (g.numElems = product exts)) with
    | assertFail => rfl
    | ub => rfl
    | ok u =>
      simp only [Res.bind_ok]
      change resMap (plainOf q) (copyPrefix exts g.extents >>= fun _ => _) = (copyPrefix exts g.extents >>= fun _ => _)
      cases copyPrefix exts g.extents with
      | assertFail => rfl
      | ub => rfl
      | ok e =>
        simp only [Res.bind_ok]
        change resMap (plainOf q) (computeStrides g.strides e g.storage >>= fun _ => _) = (computeStrides g.strides e g.storage >>= fun _ => _)
        cases computeStrides g.strides e g.storage <;> rfl

theorem step_base {dbg : Bool} {g g' : GRef P} {st : RefStep}
    (h : st.over dbg g = Res.ok g') : g'.base = g.base := by
  cases st with
  | reindexList bs =>
    simp only [RefStep.over, GRef.reindexList] at h
    cases hc : copyN bs g.extents.length with
    | ok e => rw [hc] at h; simp only [Res.bind_ok] at h; injection h with h; rw [← h]
    | assertFail => rw [hc] at h; cases h
    | ub => rw [hc] at h; cases h
  | reindexAll b => injection h with h; rw [← h]; rfl
  | reshape exts =>
    simp only [RefStep.over, GRef.reshape] at h
    cases ha : Res.assert dbg (decide (g.numElems = product exts)) with
    | assertFail => rw [ha] at h; cases h
    | ub => rw [ha] at h; cases h
    | ok u =>
      rw [ha] at h; simp only [Res.bind_ok] at h
      cases hc : copyPrefix exts g.extents with
      | assertFail => rw [hc] at h; cases h
      | ub => rw [hc] at h; cases h
      | ok e =>
        rw [hc] at h; simp only [Res.bind_ok] at h
        cases hs : computeStrides g.strides e g.storage with
        | assertFail => rw [hs] at h; cases h
        | ub => rw [hs] at h; cases h
        | ok s => rw [hs] at h; simp only [Res.bind_ok] at h; injection h with h; rw [← h]

theorem init_base {n : Nat} {p : P} {so : StorageOrder} {bs : List Int} {ext : List Nat} {g : GRef P}
    (h : GRef.init n p so bs ext = .ok g) : g.base = p := by
  unfold GRef.init at h
  cases hc : copyN ext n with
  | assertFail => rw [hc] at h; cases h
  | ub => rw [hc] at h; cases h
  | ok e =>
    rw [hc] at h; simp only [Res.bind_ok] at h
    cases hs : computeStrides (List.replicate n 0) e so with
    | assertFail => rw [hs] at h; cases h
    | ub => rw [hs] at h; cases h
    | ok s => rw [hs] at h; simp only [Res.bind_ok] at h; injection h with h; rw [← h]

/-- A history over any pointer is the history over a plain pointer, the pointer apart. -/
theorem plain_history (dbg : Bool) (p : P) (q : Ptr) (c : RefCtor) (steps : List RefStep) :
    resMap (plainOf q) (history dbg p c steps) = plainHistory dbg q c steps := by
  unfold history plainHistory
  have hc : resMap (plainOf q) (c.over p) = c.plain q := by
    cases c with
    | extents n exts so => exact plain_init ..
    | ranges g so => exact plain_init ..
  rw [← hc]
  cases hx : c.over p with
  | assertFail => rfl
  | ub => rfl
  | ok g =>
    simp only [Res.bind_ok, resMap_ok]
    clear hc hx
    induction steps generalizing g with
    | nil => rfl
    | cons st sts ih =>
      rw [List.foldlM_cons, List.foldlM_cons, ← plain_step]
      cases hs : st.over dbg g with
      | assertFail => rfl
      | ub => rfl
      | ok g' => exact ih g'

theorem history_base {dbg : Bool} {p : P} {c : RefCtor} {steps : List RefStep} {g : GRef P}
    (h : history dbg p c steps = .ok g) : g.base = p := by
  unfold history at h
  cases hx : c.over p with
  | assertFail => rw [hx] at h; cases h
  | ub => rw [hx] at h; cases h
  | ok g0 =>
    rw [hx] at h
    have hb : g0.base = p := by
      cases c with
      | extents n exts so => exact init_base hx
      | ranges g so => exact init_base hx
    simp only [Res.bind_ok] at h
    rw [← hb]
    clear hb hx
    induction steps generalizing g0 with
    | nil => injection h with h; rw [h]
    | cons st sts ih =>
      rw [List.foldlM_cons] at h
      cases hs : st.over dbg g0 with
      | assertFail => rw [hs] at h; cases h
      | ub => rw [hs] at h; cases h
      | ok g1 =>
        rw [hs] at h
        rw [ih g1 h, step_base hs]

theorem indist_of_desc {τ : PtrType P} {g : GRef P} {a : ARef} (hd : g.data τ = .ok a.data) (ho : g.origin τ = .ok a.origin)
    (he : g.extents = a.extents) (hs : g.strides = a.strides) (hb : g.bases = a.bases) (hso : g.storage = a.storage) (hn : g.numElems = a.numElems) :
    Indistinguishable τ g a := by
  have hdesc : g.desc τ = .ok a.desc := by
    unfold GRef.desc
    rw [ho, Res.bind_ok, he, hs, hb]
    rfl
  refine ⟨hd, ho, he, hs, hb, hso, hn, ?_, ?_, ?_, ?_, ?_⟩
  · intro dbg idx; unfold GRef.paren; rw [hdesc]; rfl
  · intro dbg idx; unfold GRef.bracket; rw [hdesc]; rfl
  · intro dbg idx; unfold GRef.slice; rw [hdesc]; rfl
  · unfold GRef.begin; rw [hdesc]; rfl
  · unfold GRef.end; rw [hdesc]; rfl

/-- **C96.** One addition decides: if `p` converts to `q` and `p + k` converts to `q + k` for the single number `k` that is the origin offset of the array, then a
`const_multi_array_ref` over `p` - constructed in any way, reshaped and reindexed in any way - cannot be told apart from the one over `q` with the same
history; and the constructor and the calls fail exactly if they fail over `q`. -/
theorem C96_one_addition (τ : PtrType P) (p : P) (q : Ptr) (hq : τ.conv p = .ok q) (dbg : Bool) (c : RefCtor) (steps : List RefStep) :
    match plainHistory dbg q c steps with
    | .ok a => ∃ g, history dbg p c steps = .ok g ∧ g.data τ = .ok a.data ∧
        ((do τ.conv (← τ.plus p a.originOffset)) = .ok (q.add a.originOffset) → Indistinguishable τ g a)
    | .assertFail => history dbg p c steps = .assertFail
    | .ub => history dbg p c steps = .ub := by
  have h := plain_history dbg p q c steps
  cases hg : history dbg p c steps with
  | assertFail => rw [hg] at h; rw [← h]; rfl
  | ub => rw [hg] at h; rw [← h]; rfl
  | ok g =>
    rw [hg, resMap_ok] at h
    rw [← h]
    have hb := history_base hg
    have hd : g.data τ = .ok (plainOf q g).data := by unfold GRef.data; rw [hb]; exact hq
    refine ⟨g, rfl, hd, fun h1 => indist_of_desc hd ?_ rfl rfl rfl rfl rfl⟩
    unfold GRef.origin
    rw [hb]
    exact h1

/-- **C96.** Over a pointer type whose addition and conversion commute a `const_multi_array_ref` behaves as over a plain pointer: same histories possible,
same observations in every state. -/
theorem C96_linear (τ : PtrType P) (hτ : Linear τ) (p : P) (q : Ptr) (hq : τ.conv p = .ok q) (dbg : Bool) (c : RefCtor) (steps : List RefStep) :
    match plainHistory dbg q c steps with
    | .ok a => ∃ g, history dbg p c steps = .ok g ∧ Indistinguishable τ g a
    | .assertFail => history dbg p c steps = .assertFail
    | .ub => history dbg p c steps = .ub := by
  have h := C96_one_addition τ p q hq dbg c steps
  cases ha : plainHistory dbg q c steps with
  | assertFail => rw [ha] at h; exact h
  | ub => rw [ha] at h; exact h
  | ok a =>
    rw [ha] at h
    obtain ⟨g, h1, _, h3⟩ := h
    refine ⟨g, h1, h3 ?_⟩
    obtain ⟨q', hq', hk⟩ := hτ p
    rw [hq] at hq'; injection hq' with hq'; subst hq'
    obtain ⟨p', hp', hc⟩ := hk a.originOffset
    rw [hp', Res.bind_ok, hc]

/-- Plain pointers are linear, so a `const_multi_array_ref<T,N,const T*>` is what the rest of the development calls an array. -/
theorem plainPtr_linear : Linear plainPtr := fun p => ⟨p, rfl, fun k => ⟨p.add k, rfl, rfl⟩⟩

/-- A self-relative pointer (such as `boost::interprocess::offset_ptr`): its own place and the distance to the target.  Not a plain pointer, but linear. -/
def offsetPtr : PtrType (Int × Int) := ⟨fun p k => .ok (p.1, p.2 + k), fun p => .ok ⟨1, p.1 + p.2⟩⟩

theorem offsetPtr_linear : Linear offsetPtr := fun p =>
  ⟨⟨1, p.1 + p.2⟩, rfl, fun k => ⟨(p.1, p.2 + k), rfl, by simp [offsetPtr, Ptr.add, Int.add_assoc]⟩⟩

/-- A 2x3 array of base (1,1), Fortran order, reshaped to 3x2, over a self-relative pointer. -/
example : ∃ g a, history true ((100, 5) : Int × Int) (.ranges ⟨2, [⟨1, 3⟩, ⟨1, 4⟩]⟩ ⟨[0, 1], [true, true]⟩) [.reshape [3, 2]] = .ok g ∧
    plainHistory true ⟨1, 105⟩ (.ranges ⟨2, [⟨1, 3⟩, ⟨1, 4⟩]⟩ ⟨[0, 1], [true, true]⟩) [.reshape [3, 2]] = .ok a ∧
    a.originOffset = -4 ∧ g.paren offsetPtr true [3, 2] = .ok ⟨1, 110⟩ ∧ a.paren true [3, 2] = .ok ⟨1, 110⟩ := ⟨_, _, rfl, rfl, rfl, rfl, rfl⟩

/-- **C96.** Bounds-checked pointers, exactly: a reference over a checked pointer behaves in everything as over a plain pointer if its origin is a position of
the pointer's block or the end of it; otherwise `data()` still works and every call of `origin`, element access, subarray, view, `begin` and `end` traps,
whatever its arguments and even if they are in range. -/
theorem C96_checked (p : Checked) (dbg : Bool) (c : RefCtor) (steps : List RefStep) {a : ARef} (ha : plainHistory dbg ⟨p.blk, p.pos⟩ c steps = .ok a) :
    ∃ g, history dbg p c steps = .ok g ∧ g.data checked = .ok a.data ∧
      (0 ≤ p.pos + a.originOffset ∧ p.pos + a.originOffset ≤ (p.len : Int) → Indistinguishable checked g a) ∧
      (¬ (0 ≤ p.pos + a.originOffset ∧ p.pos + a.originOffset ≤ (p.len : Int)) →
        g.origin checked = .ub ∧ (∀ d idx, g.paren checked d idx = .ub) ∧ (∀ d i, g.bracket checked d i = .ub) ∧
        (∀ d ix, g.slice checked d ix = .ub) ∧ g.begin checked = .ub ∧ g.end checked = .ub) := by
  have h := C96_one_addition checked p ⟨p.blk, p.pos⟩ rfl dbg c steps
  rw [ha] at h
  obtain ⟨g, h1, h2, h3⟩ := h
  refine ⟨g, h1, h2, fun hin => h3 ?_, fun hout => ?_⟩
  · simp only [checked]
    rw [if_pos hin]
    rfl
  · have hpl := plain_history dbg p ⟨p.blk, p.pos⟩ c steps
    rw [h1, ha, resMap_ok] at hpl
    injection hpl with hpl
    have hoff : g.originOffset = a.originOffset := by rw [← hpl]; rfl
    have ho : g.origin checked = .ub := by
      unfold GRef.origin
      rw [history_base h1, hoff]
      simp only [checked]
      rw [if_neg hout]
      rfl
    have hd : g.desc checked = .ub := by unfold GRef.desc; rw [ho]; rfl
    refine ⟨ho, ?_, ?_, ?_, ?_, ?_⟩
    · intro d idx; unfold GRef.paren; rw [hd]; rfl
    · intro d idx; unfold GRef.bracket; rw [hd]; rfl
    · intro d idx; unfold GRef.slice; rw [hd]; rfl
    · unfold GRef.begin; rw [hd]; rfl
    · unfold GRef.end; rw [hd]; rfl

/-- **C96.** A checked pointer to the start of a block of exactly `num_elements()` elements: the reference is usable if the index box of the array contains the
tuple of zeros (in any storage order). -/
theorem C96_checked_zero_in_box {n : Nat} (p : Checked) (hp : p.pos = 0) (dbg : Bool) (c : RefCtor) (steps : List RefStep) {a : ARef}
    (ha : plainHistory dbg ⟨p.blk, p.pos⟩ c steps = .ok a) (hr : Reachable n a) (hlen : a.numElements ≤ p.len)
    (hz : InBox a.bases a.extents (List.replicate a.extents.length 0)) :
    ∃ g, history dbg p c steps = .ok g ∧ Indistinguishable checked g a := by
  obtain ⟨g, h1, _, h3, _⟩ := C96_checked p dbg c steps ha
  have ho := C68_origin_in_storage_partial hr .array hz
  obtain ⟨_, h4, h5⟩ := ho
  refine ⟨g, h1, h3 ?_⟩
  have hpl := plain_history dbg p ⟨p.blk, p.pos⟩ c steps
  rw [h1, ha, resMap_ok] at hpl
  injection hpl with hpl
  have hb : a.base = ⟨p.blk, p.pos⟩ := by rw [← hpl]; rfl
  simp only [ARef.desc, ARef.origin, ARef.data, Ptr.add] at h4 h5
  rw [hb] at h4 h5
  simp only at h4 h5
  omega

/-- **C96.** And if all dimensions are ascending and all index bases zero it is usable even when it has no elements. -/
theorem C96_checked_zero_based {n : Nat} (p : Checked) (hp : 0 ≤ p.pos ∧ p.pos ≤ (p.len : Int)) (dbg : Bool) (c : RefCtor) (steps : List RefStep) {a : ARef}
    (ha : plainHistory dbg ⟨p.blk, p.pos⟩ c steps = .ok a) (hr : Reachable n a) (hb : ∀ b ∈ a.bases, b = 0)
    (hasc : ∀ x ∈ a.storage.ascending, x = true) :
    ∃ g, history dbg p c steps = .ok g ∧ Indistinguishable checked g a := by
  obtain ⟨g, h1, _, h3, _⟩ := C96_checked p dbg c steps ha
  refine ⟨g, h1, h3 ?_⟩
  have ho := C10_data_eq_origin hr hb hasc
  have h0 : a.originOffset = 0 := by
    have h := congrArg Ptr.off ho
    simp only [ARef.data, ARef.origin, Ptr.add] at h
    omega
  rw [h0]
  omega

/-- Both are met: a descending 2x3 array whose index ranges contain 0, and a zero-based array without elements. -/
example : (∃ g a, history true (⟨5, 6, 0⟩ : Checked) (.ranges ⟨2, [⟨-1, 1⟩, ⟨0, 3⟩]⟩ ⟨[1, 0], [false, true]⟩) [] = .ok g ∧
      plainHistory true ⟨5, 0⟩ (.ranges ⟨2, [⟨-1, 1⟩, ⟨0, 3⟩]⟩ ⟨[1, 0], [false, true]⟩) [] = .ok a ∧
      InBox a.bases a.extents (List.replicate a.extents.length 0) ∧ a.numElements = 6 ∧ g.paren checked true [-1, 2] = .ok ⟨5, 5⟩) ∧
    (∃ g, history true (⟨5, 0, 0⟩ : Checked) (.extents 2 [0, 3] (StorageOrder.cOrder 2)) [] = .ok g ∧ g.begin checked = g.end checked) :=
  ⟨⟨_, _, rfl, rfl, by decide, by decide, by decide⟩, ⟨_, rfl, by decide⟩⟩

/-- **C96.** A one-based array over a checked pointer to the start of a block of exactly its elements cannot be used at all: every element access traps,
although `data()` and all the indices are right. -/
theorem C96_checked_one_based_traps : ∃ (g : GRef Checked) (a : ARef),
    history true (⟨5, 6, 0⟩ : Checked) (.ranges ⟨2, [⟨1, 3⟩, ⟨1, 4⟩]⟩ (StorageOrder.cOrder 2)) [] = .ok g ∧
    plainHistory true ⟨5, 0⟩ (.ranges ⟨2, [⟨1, 3⟩, ⟨1, 4⟩]⟩ (StorageOrder.cOrder 2)) [] = .ok a ∧ Reachable 2 a ∧ a.numElements = 6 ∧
    g.data checked = .ok a.data ∧ a.paren true [1, 1] = .ok ⟨5, 0⟩ ∧ ∀ dbg idx, g.paren checked dbg idx = .ub := by
  obtain ⟨g, h1, h2, _, h3⟩ := C96_checked ⟨5, 6, 0⟩ true (.ranges ⟨2, [⟨1, 3⟩, ⟨1, 4⟩]⟩ (StorageOrder.cOrder 2)) [] rfl
  exact ⟨g, _, h1, rfl, .ofExtentGen (p := ⟨5, 0⟩) (g := ⟨2, [⟨1, 3⟩, ⟨1, 4⟩]⟩) (so := StorageOrder.cOrder 2) (by decide) rfl rfl rfl, by decide, h2,
    by decide, (h3 (by decide)).2.1⟩

/-- **C96.** Random access and convertibility are not enough: over storage in chunks of four (a `std::deque`), the element with position 4 of a 2x3 array is the
first of the second chunk (block 2), but the reference reads one past the end of the first. -/
theorem C96_segmented_reads_wrong_element : ∃ g : GRef Nat, history true (0 : Nat) (.extents 2 [2, 3] (StorageOrder.cOrder 2)) [] = .ok g ∧
    (do (segmented 4).conv (← (segmented 4).plus g.base 4)) = .ok ⟨2, 0⟩ ∧ g.paren (segmented 4) true [1, 1] = .ok ⟨1, 4⟩ :=
  ⟨_, rfl, by decide, by decide⟩

/-- **C96.** The converting constructor: from a reference over one pointer type to one over another, if the pointer conversion keeps the address. -/
theorem C96_convert (τ : PtrType P) (σ : PtrType Q) (hτ : Linear τ) (hσ : Linear σ) (cvt : P → Res Q) (p : P) (p' : Q) (q : Ptr) (hq : τ.conv p = .ok q)
    (hcvt : cvt p = .ok p') (hq' : σ.conv p' = .ok q) (dbg : Bool) (c : RefCtor) (steps : List RefStep) {a : ARef}
    (ha : plainHistory dbg q c steps = .ok a) :
    ∃ g g', history dbg p c steps = .ok g ∧ g.convert cvt = .ok g' ∧ Indistinguishable τ g a ∧ Indistinguishable σ g' a := by
  have h := C96_linear τ hτ p q hq dbg c steps
  rw [ha] at h
  obtain ⟨g, h1, h2⟩ := h
  have hb := history_base h1
  have hpl := plain_history dbg p q c steps
  rw [h1, ha, resMap_ok] at hpl
  injection hpl with hpl
  have hbase : a.base = q := by rw [← hpl]; rfl
  have hoff : g.originOffset = a.originOffset := by rw [← hpl]; rfl
  refine ⟨g, ⟨p', g.storage, g.extents, g.strides, g.bases, g.originOffset, g.directionalOffset, g.numElems⟩, h1, ?_, h2,
    indist_of_desc ?_ ?_ h2.extents h2.strides h2.bases h2.storage h2.numElems⟩
  · unfold GRef.convert; rw [hb, hcvt]; rfl
  · show σ.conv p' = _
    rw [hq', ← hbase]; rfl
  · obtain ⟨q1, hq1, hk⟩ := hσ p'
    rw [hq'] at hq1; injection hq1 with hq1; subst hq1
    obtain ⟨p2, hp2, hc⟩ := hk g.originOffset
    show (do σ.conv (← σ.plus p' g.originOffset)) = _
    rw [hp2, Res.bind_ok, hc, hoff, ← hbase]
    rfl

example : Linear offsetPtr ∧ Linear plainPtr ∧ offsetPtr.conv (100, 5) = .ok ⟨1, 105⟩ ∧ plainPtr.conv ⟨1, 105⟩ = .ok ⟨1, 105⟩ ∧
    ∃ a, plainHistory true ⟨1, 105⟩ (.extents 2 [2, 3] (StorageOrder.cOrder 2)) [.reindexAll 1] = .ok a :=
  ⟨offsetPtr_linear, plainPtr_linear, rfl, rfl, _, rfl⟩

/-- **C96.** Comparison across pointer types: `g == h` and `g < h` give what the comparison of the arrays over plain pointers gives (about which
see C40 and C41), whatever the two pointer types are. -/
theorem C96_compare {E : Type} (τ : PtrType P) (σ : PtrType Q) {g : GRef P} {h : GRef Q} {a b : ARef} (hg : Indistinguishable τ g a)
    (hh : Indistinguishable σ h b) {n : Nat} (hn : a.extents.length = n + 1) (dbg : Bool) (s : St E) (eq lt : E → E → Bool) :
    GRef.equal τ σ dbg eq s g h = equalRef dbg eq s (n + 1) a.desc b.desc ∧
    GRef.less τ σ dbg lt s g h = lessRef dbg lt s (n + 1) a.desc b.desc := by
  have hl : g.extents.length - 1 = n := by rw [hg.extents, hn]; omega
  constructor
  · rw [GRef.equal, equalRef, hl, hg.begin, hg.end, hh.begin, hg.extents, hh.extents]
    rfl
  · rw [GRef.less, lessRef, hl, hg.begin, hg.end, hh.begin, hh.end]

/-- A one-based array over a self-relative pointer and a zero-based one over a plain pointer, both 2x3. -/
example : ∃ (g : GRef (Int × Int)) (h : GRef Ptr) (a b : ARef), Indistinguishable offsetPtr g a ∧ Indistinguishable plainPtr h b ∧
    a.extents.length = 1 + 1 ∧ a.origin = ⟨1, 101⟩ ∧ b.origin = ⟨2, 0⟩ := by
  have h1 := C96_linear offsetPtr offsetPtr_linear (100, 5) ⟨1, 105⟩ rfl true (.extents 2 [2, 3] (StorageOrder.cOrder 2)) [.reindexAll 1]
  have h2 := C96_linear plainPtr plainPtr_linear ⟨2, 0⟩ ⟨2, 0⟩ rfl true (.extents 2 [2, 3] (StorageOrder.cOrder 2)) []
  obtain ⟨g, _, hg⟩ := h1
  obtain ⟨h, _, hh⟩ := h2
  exact ⟨g, h, _, _, hg, hh, by decide, by decide, by decide⟩

end

/-! ### Instances: the theorems applied to concrete cases, whose hypotheses are thereby met -/

example := C96_checked ⟨5, 6, 0⟩ true (.ranges ⟨2, [⟨1, 3⟩, ⟨1, 4⟩]⟩ (StorageOrder.cOrder 2)) [] rfl
example := C96_checked_zero_in_box (n := 2) ⟨5, 6, 0⟩ rfl true (.extents 2 [2, 3] (StorageOrder.cOrder 2)) [] rfl
  (.ofExtents (p := ⟨5, 0⟩) (exts := [2, 3]) (cOrder_valid 2) rfl) (by decide) (by decide)

/- end of instances -/

end MultiArray.Props
