import Verif.SpecPrint
import Verif.Lemmas.Iter
import Verif.Props.Own
import Verif.Props.Resize
import Verif.Props.Compare

/- Property theorems about constructors with default arguments (C04, C35), iterator conversion (C27), and the generic functions of the examples
(C37, C78). -/
set_option autoImplicit false

namespace MultiArray.Props
open MultiArray MultiArray.Spec
variable {T : Type}

/-! ### C04: without a storage order argument, arrays are row-major -/

theorem init_rebase {n : Nat} {p : Ptr} {so : StorageOrder} {bs : List Int} {es : List Nat} {a : ARef} (h : ARef.init n p so bs es = .ok a) (q : Ptr) :
    ARef.init n q so bs es = .ok { a with base := q } := by
  unfold ARef.init at h ⊢
  cases hc : copyN es n with
  | assertFail => simp [hc] at h
  | ub => simp [hc] at h
  | ok ext =>
    rw [hc, Res.bind_ok] at h
    rw [Res.bind_ok]
    cases hs : computeStrides (List.replicate n 0) ext so with
    | assertFail => simp [hs] at h
    | ub => simp [hs] at h
    | ok ss =>
      rw [hs, Res.bind_ok] at h
      injection h with h
      rw [← h]
      rfl

theorem ofExtents_rebase {n : Nat} {p : Ptr} {so : StorageOrder} {es : List Nat} {a : ARef} (h : ARef.ofExtents n p es so = .ok a) (q : Ptr) :
    ARef.ofExtents n q es so = .ok { a with base := q } := init_rebase h q

theorem ofExtentGen_rebase {p : Ptr} {g : ExtentGen} {so : StorageOrder} {a : ARef} (h : ARef.ofExtentGen p g so = .ok a) (q : Ptr) :
    ARef.ofExtentGen q g so = .ok { a with base := q } := init_rebase h q

/-- **C04.** An array over a given block, constructed without a storage order argument from an extent list, is row-major with bases 0. -/
theorem C04_default_order_list {n : Nat} (p : Ptr) {es : List Nat} (hl : es.length = n) :
    ∃ a, ARef.ofExtentsDefault n p es = .ok a ∧ Reachable n a ∧ a.extents = es ∧ a.bases = List.replicate n 0 ∧ a.data = p ∧
      ∀ dbg k, InShape es k → a.paren dbg (k.map (fun (x : Nat) => (x : Int))) = .ok (p.add (rowMajor es k : Nat)) := by
  obtain ⟨a, h⟩ := ARef.init_succeeds p (List.replicate n 0) (cOrder_valid n) (es := es) (by omega)
  have hof : ARef.ofExtents n p es (StorageOrder.cOrder n) = .ok a := h
  have hr : Reachable n a := .ofExtents (cOrder_valid n) hof
  obtain ⟨_, h2, h3, h4, h5, _⟩ := ARef.init_ok h (cOrder_valid n) (by simp)
  rw [List.take_of_length_le (by omega)] at h5
  refine ⟨a, hof, hr, h5, h4, h2, fun dbg k hk => ?_⟩
  have := C04_c_order_row_major hr h3 dbg k (by rw [h5]; exact hk)
  rw [h5, h4, show a.data = p from h2] at this
  rw [← this]
  congr 1
  have hkl := hk.length
  rw [hl] at hkl
  clear * - hkl
  unfold atPos
  induction k generalizing n with
  | nil => subst hkl; rfl
  | cons x k ih =>
    subst hkl
    simp only [List.length_cons, List.replicate_succ, List.zipWith_cons_cons, List.map_cons, zero_add]
    rw [← ih rfl]

/-- **C04.** The same from an extent generator, with the bases given there. -/
theorem C04_default_order_gen {n : Nat} (p : Ptr) {rs : List ExtentRange} (hl : rs.length = n) (hleg : LegalExtents rs) :
    ∃ a, ARef.ofExtentGenDefault p ⟨n, rs⟩ = .ok a ∧ Reachable n a ∧ a.extents = reqExtents rs ∧ a.bases = reqBases rs ∧ a.data = p ∧
      ∀ dbg k, InShape (reqExtents rs) k → a.paren dbg (atPos (reqBases rs) k) = .ok (p.add (rowMajor (reqExtents rs) k : Nat)) := by
  obtain ⟨a, h1, hr, h2, h3, h4, h5⟩ := ofExtentGen_ok p ⟨n, rs⟩ rfl hl (cOrder_valid n)
  have h5' : a.extents = reqExtents rs := by
    rw [h5]; exact legalExtents_size hleg
  refine ⟨a, h1, hr, h5', h4, h2, fun dbg k hk => ?_⟩
  have := C04_c_order_row_major hr h3 dbg k (by rw [h5']; exact hk)
  rw [h5', show a.data = p from h2, h4] at this
  exact this

/-- The result of `allocate_space` for a header constructed over a null pointer. -/
theorem allocateSpace_owns (dflt : T) {n : Nat} {ref : ARef} (hr : Reachable n ref) (hr' : ∀ p, Reachable n { ref with base := p }) {s : St T} (hs : SaneHeap s) (hsched : s.sched = []) (al : Nat) :
    ∃ s', MArr.allocateSpace dflt ref al s = .ok ⟨{ ref with base := ⟨s.next, 0⟩ }, ⟨s.next, 0⟩, ref.numElems, al⟩ s' ∧
      OwnsVals s' n ⟨{ ref with base := ⟨s.next, 0⟩ }, ⟨s.next, 0⟩, ref.numElems, al⟩ (List.replicate ref.extents.prod dflt) ∧
      SameExcept s.next s s' ∧ SaneHeap s' := by
  obtain ⟨s', h1, h2, h3, h4, _⟩ := allocateSpace_ok dflt ref al s (noThrow_nil hsched _)
  have hn : ref.numElems = ref.extents.prod := by rw [hr.wf.num_eq, product_eq]
  refine ⟨s', h1, ⟨hr' _, rfl, ?_, rfl, rfl, ?_, ?_⟩, h4, ?_⟩
  · show s.next ≠ 0
    have := hs.1; omega
  · show s'.heap s.next = _
    rw [h2, List.map_replicate, hn]
  · rw [List.length_replicate]; exact hn.symm
  · refine ⟨by omega, fun b hb => ?_⟩
    rw [h4 b (by omega)]
    exact hs.2 b (by omega)

/-- **C04.** A `multi_array` constructed without a storage order argument is row-major in its own fresh storage, all elements
value-initialised. -/
theorem C04_default_order_multi_array (dflt : T) {n : Nat} {s : St T} (hs : SaneHeap s) (hsched : s.sched = []) (al : Nat) :
    (∀ es : List Nat, es.length = n → ∃ a s', MArr.mkExtentsDefault dflt n es al s = .ok a s' ∧
      OwnsVals s' n a (List.replicate es.prod dflt) ∧ a.alloc = al ∧ a.ref.data = ⟨s.next, 0⟩ ∧ SameExcept s.next s s' ∧
      a.ref.extents = es ∧ a.ref.bases = List.replicate n 0 ∧
      ∀ dbg k, InShape es k → a.ref.paren dbg (k.map (fun (x : Nat) => (x : Int))) = .ok (a.ref.data.add (rowMajor es k : Nat))) ∧
    (∀ rs : List ExtentRange, rs.length = n → LegalExtents rs → ∃ a s', MArr.mkExtentGenDefault dflt ⟨n, rs⟩ al s = .ok a s' ∧
      OwnsVals s' n a (List.replicate (reqExtents rs).prod dflt) ∧ a.alloc = al ∧ a.ref.data = ⟨s.next, 0⟩ ∧ SameExcept s.next s s' ∧
      a.ref.extents = reqExtents rs ∧ a.ref.bases = reqBases rs ∧
      ∀ dbg k, InShape (reqExtents rs) k →
        a.ref.paren dbg (atPos (reqBases rs) k) = .ok (a.ref.data.add (rowMajor (reqExtents rs) k : Nat))) := by
  constructor
  · intro es hl
    obtain ⟨ref, h1, hr, h2, h3, h4, _⟩ := C04_default_order_list Ptr.null hl
    obtain ⟨ref', h1', hr', h2', h3', h4', h5'⟩ := C04_default_order_list ⟨s.next, 0⟩ hl
    have hreb : ∀ p, ARef.ofExtentsDefault n p es = .ok { ref with base := p } := fun p => by
      have := ofExtents_rebase h1 p
      exact this
    have he : ref' = { ref with base := ⟨s.next, 0⟩ } := by
      have := hreb ⟨s.next, 0⟩
      rw [h1'] at this
      injection this
    obtain ⟨s', e1, e2, e3, e4⟩ := allocateSpace_owns dflt hr (fun p => .ofExtents (cOrder_valid n) (hreb p)) hs hsched al
    refine ⟨_, s', ?_, by rw [← h2]; exact e2, rfl, rfl, e3, h2, h3, fun dbg k hk => ?_⟩
    · unfold MArr.mkExtentsDefault
      rw [h1, Exec.lift_ok, pure_bind]
      exact e1
    · have := h5' dbg k hk
      rw [he] at this
      exact this
  · intro rs hl hleg
    obtain ⟨ref, h1, hr, h2, h3, h4, _⟩ := C04_default_order_gen Ptr.null hl hleg
    obtain ⟨ref', h1', hr', h2', h3', h4', h5'⟩ := C04_default_order_gen ⟨s.next, 0⟩ hl hleg
    have hreb : ∀ p, ARef.ofExtentGenDefault p ⟨n, rs⟩ = .ok { ref with base := p } := fun p => by
      have := ofExtentGen_rebase h1 p
      exact this
    have he : ref' = { ref with base := ⟨s.next, 0⟩ } := by
      have := hreb ⟨s.next, 0⟩
      rw [h1'] at this
      injection this
    obtain ⟨s', e1, e2, e3, e4⟩ := allocateSpace_owns dflt hr (fun p => .ofExtentGen (cOrder_valid n) rfl hl (hreb p)) hs hsched al
    refine ⟨_, s', ?_, by rw [← h2]; exact e2, rfl, rfl, e3, h2, h3, fun dbg k hk => ?_⟩
    · unfold MArr.mkExtentGenDefault
      rw [h1, Exec.lift_ok, pure_bind]
      exact e1
    · have := h5' dbg k hk
      rw [he] at this
      exact this

example : ∃ a : MArr, ∃ s', MArr.mkExtentsDefault 5 2 [2, 3] 0 exSt = .ok a s' ∧ a.ref.paren true [1, 2] = .ok (a.ref.data.add 5) ∧
    ∃ b s'', MArr.mkExtentGenDefault 5 ⟨2, [⟨-1, 1⟩, ⟨4, 7⟩]⟩ 0 exSt = .ok b s'' ∧ b.ref.paren true [0, 6] = .ok (b.ref.data.add 5) := by
  obtain ⟨h1, h2⟩ := C04_default_order_multi_array (5 : Nat) (n := 2) exSt_sane rfl 0
  obtain ⟨a, s', e1, _, _, _, _, _, _, e2⟩ := h1 [2, 3] rfl
  obtain ⟨b, s'', f1, _, _, _, _, _, _, f2⟩ := h2 [⟨-1, 1⟩, ⟨4, 7⟩] rfl (by decide)
  exact ⟨a, s', e1, e2 true [1, 2] (by decide), b, s'', f1, f2 true [1, 2] (by decide)⟩

/-! ### C35 -/

theorem load_inv {s s' : St T} {p : Ptr} {v : T} (h : load p s = .ok v s') : s.get? p = some v := by
  unfold load at h
  cases hg : s.get? p with
  | none => rw [hg] at h; cases h
  | some w => rw [hg] at h; injection h with h1; rw [h1]

/-- **C35.** Conversion without a storage order argument gives a row-major array whatever the layout of the source: the same shape, bases and
elements, the element at zero-based position `k` stored at the row-major place of `k`. -/
theorem C35_conversion_default_order (dbg : Bool) (dflt : T) {n : Nat} (hn : 0 < n) {s : St T} {src : Desc} (hsrc : Readable s n src)
    (hs : SaneHeap s) (hsched : s.sched = []) (alloc : Nat) :
    ∃ c s', MArr.mkConvertDefault dbg dflt src alloc s = .ok c s' ∧ c.ref.extents = src.extents ∧ c.ref.bases = src.bases ∧
      c.alloc = alloc ∧ c.ref.data = ⟨s.next, 0⟩ ∧ (∃ vs, OwnsVals s' n c vs) ∧ SameExcept s.next s s' ∧
      ∀ k, InShape src.extents k → ∃ v, elemAt s src k = some v ∧ s'.get? (c.ref.data.add (rowMajor src.extents k : Nat)) = some v := by
  have hlen : src.extents.length = n := hsrc.len
  obtain ⟨c, s', h1, h2, h3, h4, h5, h6, _, ⟨vs, h7⟩, h8, _, h9⟩ := C35_conversion dbg dflt hn hsrc hs hsched (cOrder_valid n) alloc
  refine ⟨c, s', by unfold MArr.mkConvertDefault defaultOrder; rw [hlen]; exact h1, h2, h3, h5, h6, ⟨vs, h7⟩, h8, fun k hk => ?_⟩
  have hin := inBox_atPos hsrc.ws.2 hk
  obtain ⟨v, e1, e2⟩ := h9 _ hin
  have hin' : InBox c.ref.desc.bases c.ref.desc.extents (atPos src.bases k) := by
    show InBox c.ref.bases c.ref.extents _
    rw [h2, h3]; exact hin
  unfold readElem at e1 e2
  rw [accessElement_inBox dbg src _ hsrc.ws.1 hin] at e1
  have hp := C04_c_order_row_major h7.reach h4 dbg k (by rw [h2]; exact hk)
  rw [h2, h3] at hp
  have hp' : accessElement dbg (atPos src.bases k) c.ref.desc = .ok (c.ref.data.add (rowMajor src.extents k : Nat)) := hp
  rw [hp'] at e2
  simp only [Exec.lift_ok, pure_bind] at e1 e2
  exact ⟨v, load_inv e1, load_inv e2⟩

/-- A strided view of the example array, converted without naming an order. -/
example : ∃ v, Readable exSt 2 v ∧ v.extents = [3, 2] ∧ SaneHeap exSt ∧ exSt.sched = [] := by
  obtain ⟨v, h, he, hh⟩ := exHandle
  exact ⟨v.desc, ⟨3, exArr, exArr_reachable, hh, exSt_live, by show v.extents.length = 2; rw [he]; rfl⟩, he, exSt_sane, rfl⟩

/-! ### C27 -/

/-- **C27.** Converting an iterator (to a const iterator) gives an iterator that compares equal to it, at distance 0, and stays so under
the same moves; dereferencing it, and `->`, give the same element or subarray. -/
theorem C27_converted_iterators (dbg : Bool) (it : It) (m : Int) :
    it.convert.equal it = true ∧ (it.convert.advance m).equal (it.advance m) = true ∧ it.convert.sub it = 0 ∧
      it.convert.deref dbg = it.deref dbg ∧ it.arrow dbg = it.deref dbg ∧ it.convert.arrow dbg = it.deref dbg := by
  refine ⟨?_, ?_, ?_, rfl, rfl, rfl⟩
  · rw [It.equal_iff]; rfl
  · rw [It.equal_iff]; rfl
  · simp [It.sub, It.distanceTo, It.convert]

example : ∃ it : It, exArr.desc.begin = .ok it ∧ it.convert.arrow true = it.deref true ∧ it.deref true = .ok ⟨exArr.origin.add (exArr.bases.headD 0 * exArr.strides.headD 0), exArr.extents.tail, exArr.strides.tail, exArr.bases.tail⟩ :=
  ⟨⟨exArr.bases.headD 0, exArr.desc⟩, rfl, rfl, by decide⟩

/-! ### C37: resize_from_MultiArray -/

/-- **C37.** `resize_from_MultiArray(b, other)` (example) gives `b` the shape of `other`, any array, subarray or view of the same number of dimensions,
with bases 0 and the old elements at the common positions. -/
theorem C37_resize_from_other (dbg : Bool) (dflt : T) {n : Nat} {s : St T} {a : MArr} {vs : List T} (ha : OwnsVals s n a vs)
    (hs : SaneHeap s) (hsched : s.sched = []) (hra : Representable a.ref.bases a.ref.extents)
    {other : Desc} (ho : Readable s n other) (hes : ∀ e ∈ other.extents, e ≤ 2 ^ 63 - 1) :
    ∃ a' s', resizeFromMultiArray dbg dflt n other a s = (.ok () s', a') ∧
      a'.ref.extents = other.extents ∧ a'.ref.bases = List.replicate n 0 ∧ a'.ref.storage = a.ref.storage ∧ a'.alloc = a.alloc ∧
      (∀ k, InShape other.extents k → InShape a.ref.extents k → elemAt s' a'.ref.desc k = elemAt s a.ref.desc k) ∧
      (∀ k, InShape other.extents k → ¬ InShape a.ref.extents k → elemAt s' a'.ref.desc k = some dflt) ∧
      (∃ ws, OwnsVals s' n a' ws) := by
  obtain ⟨a', s', h1, h2, h3, h4, h5, h6, h7, _, h8, _⟩ := C37_resize_extent_list dbg dflt ha hs hsched hra ho.len hes
  refine ⟨a', s', ?_, h3, h2, h4, h5, h6, h7, h8⟩
  unfold resizeFromMultiArray
  rw [Member.bind_ok (s' := s) (this' := a) (a := other.extents)]
  · exact h1
  · rw [Member.run_apply]
    have := ho.len
    unfold copyN
    rw [if_pos (by omega), List.take_of_length_le (by omega)]
    rfl

/-- Resizing the 2x3x4 example array from another array of shape 1x5x2. -/
example : ∃ b : ARef, ARef.ofExtents 3 ⟨7, 0⟩ [1, 5, 2] (StorageOrder.cOrder 3) = .ok b ∧ Readable exSt 3 b.desc ∧
    Representable exM.ref.bases exM.ref.extents ∧ OwnsVals exSt 3 exM (List.range 24) := by
  refine ⟨_, rfl, ⟨3, _, .ofExtents (n := 3) (p := ⟨7, 0⟩) (exts := [1, 5, 2]) (cOrder_valid 3) rfl, .array, ?_, rfl⟩, by decide, exM_owns⟩
  intro k hk
  change k < 10 at hk
  exact exSt_live k (show k < 24 by omega)

/-! ### C78: printing -/

theorem printLoop_spec (dbg : Bool) (s : St T) (inner : Desc → Exec T (Option (List (Tok T)))) (g : Nat → List (Tok T)) (p : Ptr) (e : Nat)
    (es : List Nat) (st : Int) (ss : List Int) (b : Int) (bs : List Int)
    (hin : ∀ k, k < e → inner (subAt p es st ss b bs k) s = .ok (some (g k)) s) (fuel j : Nat) (hj : j ≤ e) (hf : e - j ≤ fuel) :
    printLoop dbg inner fuel ⟨b + (j : Int), ⟨p, e :: es, st :: ss, b :: bs⟩⟩ ⟨b + (e : Int), ⟨p, e :: es, st :: ss, b :: bs⟩⟩ s =
      .ok (some (joinWith [.comma] ((List.range' j (e - j)).map g))) s := by
  induction fuel generalizing j with
  | zero =>
    have : j = e := by omega
    subst this
    simp [printLoop, It.equal_iff, joinWith, pure, Exec.ret]
  | succ fuel ih =>
    by_cases h : j = e
    · subst h; simp [printLoop, It.equal_iff, joinWith, pure, Exec.ret]
    · unfold printLoop
      have hne : ¬ ((⟨b + (j : Int), ⟨p, e :: es, st :: ss, b :: bs⟩⟩ : It).equal
          ⟨b + (e : Int), ⟨p, e :: es, st :: ss, b :: bs⟩⟩ = true) := by
        rw [It.equal_iff]; intro h'; injection h' with h1; omega
      rw [if_neg hne, It.deref_in dbg p e es st ss b bs j (by omega), Exec.lift_ok, pure_bind, Exec.bind_ok (hin j (by omega))]
      have := ih (j + 1) (by omega) (by omega)
      have hinc : (⟨b + (j : Int), ⟨p, e :: es, st :: ss, b :: bs⟩⟩ : It).increment =
          ⟨b + ((j + 1 : Nat) : Int), ⟨p, e :: es, st :: ss, b :: bs⟩⟩ := by
        simp only [It.increment]
        rw [show b + (j : Int) + 1 = b + ((j + 1 : Nat) : Int) by push_cast; ring]
      rw [hinc, Exec.bind_ok this,
        show e - j = (e - (j + 1)) + 1 by omega, List.range'_succ]
      simp only [pure, Exec.ret, List.map_cons]
      by_cases hl : j + 1 = e
      · subst hl
        simp [It.equal_iff, joinWith]
      · have hne' : (⟨b + ((j + 1 : Nat) : Int), ⟨p, e :: es, st :: ss, b :: bs⟩⟩ : It).equal
            ⟨b + (e : Int), ⟨p, e :: es, st :: ss, b :: bs⟩⟩ = false := by
          rw [Bool.eq_false_iff, ne_eq, It.equal_iff]; intro h'; injection h' with h1; omega
        rw [hne', show e - (j + 1) = (e - (j + 1 + 1)) + 1 by omega, List.range'_succ]
        simp [joinWith]

theorem printArray_spec (dbg : Bool) (s : St T) (fuel : Nat) (d : Desc) (hw : WellShaped d) (hf : ∀ e ∈ d.extents, e ≤ fuel)
    (f : List Nat → T) (hc : Contents s d f) : printArray dbg fuel d.extents.length d s = .ok (some (bracketText d.extents f)) s := by
  obtain ⟨p, es, ss, bs⟩ := d
  induction es generalizing p ss bs f with
  | nil =>
    obtain ⟨h1, h2⟩ := hw
    match ss, bs, h1, h2 with
    | [], [], _, _ =>
      have h := hc [] trivial
      simp only [elemAt, address, atPos, dot, List.zipWith_nil_left, Ptr.add_zero] at h
      simp only [List.length_nil, printArray]
      rw [Exec.bind_ok (load_ok h)]
      rfl
  | cons e es ih =>
    obtain ⟨h1, h2⟩ := hw
    match ss, bs, h1, h2 with
    | st :: ss, b :: bs, h1, h2 =>
      simp only [List.length_cons, printArray]
      rw [begin_cons, end_cons, Exec.lift_ok, pure_bind, Exec.lift_ok, pure_bind]
      have := printLoop_spec dbg s (printArray dbg fuel es.length) (fun k => bracketText es (fun ks => f (k :: ks))) p e es st ss b bs
        (fun k hk => ih (fun ks => f (k :: ks)) (p.add ((b + (k : Int)) * st)) ss bs ⟨by simpa using h1, by simpa using h2⟩
          (fun e' he' => hf e' (by simp [he'])) (fun ks hks => by
            have := hc (k :: ks) ⟨hk, hks⟩
            simp only [elemAt, address, atPos, List.zipWith_cons_cons, dot] at this ⊢
            rw [Ptr.add_add]; exact this))
        fuel 0 (by omega) (by have := hf e (by simp); omega)
      simp only [Nat.cast_zero, add_zero, Nat.sub_zero] at this
      rw [Exec.bind_ok this, ← List.range_eq_range']
      rfl

/-- **C78.** Printing any array, subarray or view with the generic `print` of the examples (through const iterators and `boost::next` only)
produces exactly the nested bracket notation of its elements in index order, and changes nothing. -/
theorem C78_print (dbg : Bool) {n : Nat} {s : St T} {d : Desc} (hd : Readable s n d) (fuel : Nat) (hf : ∀ e ∈ d.extents, e ≤ fuel)
    (f : List Nat → T) (hc : Contents s d f) : printArray dbg fuel n d s = .ok (some (bracketText d.extents f)) s := by
  have := printArray_spec dbg s fuel d hd.ws hf f hc
  rw [hd.len] at this
  exact this

theorem joinWith_cons (x : List (Tok T)) (xs : List (List (Tok T))) :
    joinWith [.comma] (x :: xs) = x ++ (if xs = [] then [] else .comma :: joinWith [.comma] xs) := by
  cases xs with
  | nil => simp [joinWith]
  | cons y r => simp [joinWith]

theorem bracketText_congr (es : List Nat) (f g : List Nat → T) (h : ∀ k, InShape es k → f k = g k) : bracketText es f = bracketText es g := by
  induction es generalizing f g with
  | nil => simp only [bracketText]; rw [h [] trivial]
  | cons e es ih =>
    simp only [bracketText]
    congr 3
    apply List.map_congr_left
    intro k hk
    exact ih _ _ (fun ks hks => h (k :: ks) ⟨by simpa using hk, hks⟩)

/-- Bracket texts of the same depth parse in only one way. -/
theorem bracketText_parse (es es' : List Nat) (hl : es.length = es'.length) (hp : ∀ e ∈ es, 0 < e) (hp' : ∀ e ∈ es', 0 < e)
    (f f' : List Nat → T) (r r' : List (Tok T)) (h : bracketText es f ++ r = bracketText es' f' ++ r') :
    es = es' ∧ (∀ k, InShape es k → f k = f' k) ∧ r = r' := by
  induction es generalizing es' f f' r r' with
  | nil =>
    match es', hl with
    | [], _ =>
      simp only [bracketText, List.singleton_append, List.cons.injEq, Tok.elem.injEq] at h
      refine ⟨rfl, fun k hk => ?_, h.2⟩
      match k, hk with | [], _ => exact h.1
  | cons e es ih =>
    match es', hl with
    | e' :: es', hl =>
      simp only [bracketText, List.append_assoc, List.cons_append, List.cons.injEq, true_and] at h
      have key : ∀ (m m' : Nat) (g g' : Nat → List Nat → T), 0 < m → 0 < m' →
          joinWith [.comma] ((List.range m).map (fun k => bracketText es (g k))) ++ .cls :: r =
            joinWith [.comma] ((List.range m').map (fun k => bracketText es' (g' k))) ++ .cls :: r' →
          m = m' ∧ es = es' ∧ (∀ k, k < m → ∀ ks, InShape es ks → g k ks = g' k ks) ∧ r = r' := by
        intro m
        induction m with
        | zero => intro m' g g' h0; omega
        | succ m ihm =>
          intro m' g g' _ hm' hj
          match m', hm' with
          | m' + 1, _ =>
            rw [List.range_succ_eq_map, List.range_succ_eq_map, List.map_cons, List.map_cons, List.map_map, List.map_map,
              joinWith_cons, joinWith_cons, List.append_assoc, List.append_assoc] at hj
            obtain ⟨h1, h2, h3⟩ := ih es' (by simpa using hl) (fun x hx => hp x (by simp [hx])) (fun x hx => hp' x (by simp [hx])) _ _ _ _ hj
            cases m with
            | zero =>
              cases m' with
              | zero =>
                simp at h3
                refine ⟨rfl, h1, fun k hk => ?_, h3⟩
                obtain rfl : k = 0 := by omega
                exact h2
              | succ m' => simp [List.range_succ_eq_map] at h3
            | succ m =>
              cases m' with
              | zero => simp [List.range_succ_eq_map] at h3
              | succ m' =>
                rw [if_neg (by simp), if_neg (by simp), List.cons_append, List.cons_append, List.cons.injEq] at h3
                obtain ⟨e1, e2, e3, e4⟩ := ihm (m' + 1) (fun k => g (k + 1)) (fun k => g' (k + 1)) (by omega) (by omega) h3.2
                refine ⟨by omega, e2, fun k hk => ?_, e4⟩
                cases k with
                | zero => exact h2
                | succ k => exact e3 k (by omega)
      obtain ⟨h1, h2, h3, h4⟩ := key e e' (fun k ks => f (k :: ks)) (fun k ks => f' (k :: ks)) (hp e (by simp)) (hp' e' (by simp)) h
      subst h1; subst h2
      refine ⟨rfl, fun k hk => ?_, h4⟩
      match k, hk with
      | k :: ks, ⟨hk, hks⟩ => exact h3 k hk ks hks

/-- **C78.** The printed text determines the array: two arrays, subarrays or views with the same number of dimensions and no empty dimension print the
same text exactly when the library's `==` holds (elements compared by identity of value). -/
theorem C78_print_decides_equality [DecidableEq T] [Nonempty T] (dbg : Bool) {n : Nat} {s : St T} {a b : Desc} (ha : Readable s n a) (hb : Readable s n b)
    (hpa : ∀ e ∈ a.extents, 0 < e) (hpb : ∀ e ∈ b.extents, 0 < e) (fuel : Nat) (hfa : ∀ e ∈ a.extents, e ≤ fuel) (hfb : ∀ e ∈ b.extents, e ≤ fuel) :
    ∃ ta tb, printArray dbg fuel n a s = .ok (some ta) s ∧ printArray dbg fuel n b s = .ok (some tb) s ∧
      (ta = tb ↔ equalRef dbg (fun x y => decide (x = y)) s n a b = .ok true) := by
  obtain ⟨f, hf⟩ := ha.contents
  obtain ⟨g, hg⟩ := hb.contents
  refine ⟨_, _, C78_print dbg ha fuel hfa f hf, C78_print dbg hb fuel hfb g hg, ?_⟩
  obtain ⟨r, h1, _, h2⟩ := C40_equality s n a b ha hb dbg (fun x y => decide (x = y))
  rw [h1]
  have h3 : (r = true) ↔ a.extents = b.extents ∧ ∀ k, InShape a.extents k → f k = g k := by
    rw [h2]
    constructor
    · rintro ⟨e1, e2⟩
      refine ⟨e1, fun k hk => ?_⟩
      obtain ⟨x, y, hx, hy, hxy⟩ := e2 k hk
      rw [hf k hk] at hx
      rw [hg k (by rw [← e1]; exact hk)] at hy
      cases hx; cases hy
      simpa using hxy
    · rintro ⟨e1, e2⟩
      exact ⟨e1, fun k hk => ⟨_, _, hf k hk, hg k (by rw [← e1]; exact hk), by simp [e2 k hk]⟩⟩
  rw [show (Res.ok r = Res.ok true) ↔ r = true from ⟨fun h => by injection h, fun h => by rw [h]⟩, h3]
  constructor
  · intro h
    obtain ⟨e1, e2, _⟩ := bracketText_parse a.extents b.extents (by rw [ha.len, hb.len]) hpa hpb f g [] [] (by rw [h])
    exact ⟨e1, e2⟩
  · rintro ⟨e1, e2⟩
    rw [← e1]
    exact bracketText_congr _ _ _ e2

/-- The 3x2 strided view of the example array (`exHandle`) is readable, so it prints as a bracket text, different from that of a view with other elements. -/
example : ∃ v text, Readable exSt 2 v ∧ v.extents = [3, 2] ∧ (∀ e ∈ v.extents, 0 < e) ∧ printArray true 3 2 v exSt = .ok (some text) exSt ∧
    text.length = 19 := by
  obtain ⟨v, h, he, hh⟩ := exHandle
  have he : v.desc.extents = [3, 2] := he
  have hr : Readable exSt 2 v.desc := ⟨3, exArr, exArr_reachable, hh, exSt_live, by rw [he]; rfl⟩
  obtain ⟨f, hf⟩ := hr.contents
  refine ⟨v.desc, _, hr, he, by rw [he]; decide, C78_print true hr 3 (by rw [he]; decide) f hf, ?_⟩
  rw [he]
  rfl

/-- With an empty dimension the text does not determine the shape: `0x3` and `0x5` arrays both print as `[]`, yet they are not equal. -/
theorem C78_empty_dimension_hazard : ∃ (s : St Nat) (a b : Desc), Readable s 2 a ∧ Readable s 2 b ∧
    printArray true 9 2 a s = .ok (some [.opn, .cls]) s ∧ printArray true 9 2 b s = .ok (some [.opn, .cls]) s ∧
    equalRef true (fun x y => decide (x = y)) s 2 a b = .ok false := by
  have ra : Reachable 2 ⟨⟨7, 0⟩, StorageOrder.cOrder 2, [0, 3], [3, 1], [0, 0], 0, 0, 0⟩ :=
    .ofExtents (n := 2) (p := ⟨7, 0⟩) (exts := [0, 3]) (cOrder_valid 2) rfl
  have rb : Reachable 2 ⟨⟨7, 0⟩, StorageOrder.cOrder 2, [0, 5], [5, 1], [0, 0], 0, 0, 0⟩ :=
    .ofExtents (n := 2) (p := ⟨7, 0⟩) (exts := [0, 5]) (cOrder_valid 2) rfl
  exact ⟨exSt, _, _, ⟨2, _, ra, .array, fun k hk => absurd hk (by simp [ARef.numElements]), rfl⟩,
    ⟨2, _, rb, .array, fun k hk => absurd hk (by simp [ARef.numElements]), rfl⟩, rfl, rfl, rfl⟩

/-! ### Instances: the theorems applied to concrete cases, whose hypotheses are thereby met -/

example := C04_default_order_list ⟨7, 0⟩ (es := [2, 3, 4]) rfl
example := C04_default_order_gen ⟨7, 0⟩ (rs := [⟨-1, 1⟩, ⟨4, 7⟩]) rfl (by decide)

/- end of instances -/

end MultiArray.Props
