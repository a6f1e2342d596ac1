import Mathlib.Tactic.IntervalCases
import Verif.Lemmas.HandleMem
import Verif.Props.Access

/-
Property theorems C23, C30-C33, C36, C49, C56 and the rest of C08: element writes, assignment, copying.
Memory model: `St T` (Model/Memory.lean).  `s.sched = []` means: no element operation throws.
-/
set_option autoImplicit false

namespace MultiArray.Props
open MultiArray MultiArray.Spec
variable {T : Type}

theorem copySetup {n1 n2 : Nat} {r1 r2 : ARef} (h1 : Reachable n1 r1) (h2 : Reachable n2 r2) {dst src : Desc}
    (hd : Handle r1 dst) (hs : Handle r2 src) (he : src.extents = dst.extents) {s : St T} (l1 : Live s r1)
    (l2 : Live s r2) : CopySetup s dst src :=
  ⟨handle_wellShaped h1 hd, handle_wellShaped h2 hs, he, fun _ hi => l1.handle h1.wf hd hi,
    fun _ hi => l2.handle h2.wf hs hi, addrs_nodup h1.wf hd⟩

/-- A concrete memory holding `exArr`: block 7 with the values 0..23. -/
def exSt : St Nat := { heap := fun b => if b = 7 then some ⟨0, (List.range 24).map .obj⟩ else none, next := 8, sched := [] }

theorem exSt_live : Live exSt exArr := by
  intro k hk
  change k < 24 at hk
  refine ⟨k, ?_⟩
  interval_cases k <;> rfl

/-! ### C23 -/

/-- **C23.** Storing through `a(idx)` or `a[i1]...[iN]` (for any array, subarray or view) changes exactly the denoted
element: it then holds the stored value, and every other memory cell is as before. -/
theorem C23_write_changes_one_element {n : Nat} {root : ARef} (hr : Reachable n root) {d : Desc} (h : Handle root d)
    (dbg : Bool) (idx : List Int) (hidx : InBox d.bases d.extents idx) (s : St T) (hl : Live s root)
    (hsched : s.sched = []) (v : T) :
    ∃ s', writeElem dbg d idx v s = .ok () s' ∧ writeChain dbg d idx v s = .ok () s' ∧
      s'.get? (address d idx) = some v ∧ (∀ p, p ≠ address d idx → s'.cell? p = s.cell? p) ∧ SameStorage s s' ∧
      -- no other in-range index of the same handle is affected
      (∀ j, InBox d.bases d.extents j → j ≠ idx → s'.get? (address d j) = s.get? (address d j)) := by
  have hw := handle_wellShaped hr h
  obtain ⟨old, ho⟩ := hl.handle hr.wf h hidx
  obtain ⟨s', h1, h2, h3, h4⟩ := assignCell_ok ho v (.inl hsched)
  refine ⟨s', ?_, ?_, ?_, ?_, h3.sameStorage, ?_⟩
  · unfold writeElem
    rw [accessElement_inBox dbg d idx hw.1 hidx]
    simpa using h1
  · unfold writeChain
    rw [accessChain_full dbg d idx hw.1 hidx]
    simpa using h1
  · rw [St.get?_eq_some, h2, if_pos rfl]
  · intro p hp; rw [h2, if_neg hp]
  · intro j hj hne
    unfold St.get?
    rw [h2, if_neg]
    intro he
    exact hne (h.address_inj hr.wf hj hidx he)

/-- **C23.** A later read through any handle of any array (of the same block or not) returns the stored value if it denotes
the written element and the old value otherwise. -/
theorem C23_read_after_write {n n' : Nat} {root root' : ARef} (hr : Reachable n root) (hr' : Reachable n' root')
    {d d' : Desc} (h : Handle root d) (h' : Handle root' d') (dbg dbg' : Bool) (idx idx' : List Int)
    (hidx : InBox d.bases d.extents idx) (hidx' : InBox d'.bases d'.extents idx') (s s' : St T) (hl : Live s root)
    (hl' : Live s root') (hsched : s.sched = []) (v : T) (hwr : writeElem dbg d idx v s = .ok () s') :
    ∃ old, readElem dbg' d' idx' s = .ok old s ∧
      readElem dbg' d' idx' s' = .ok (if address d' idx' = address d idx then v else old) s' ∧
      readChain dbg' d' idx' s' = .ok (if address d' idx' = address d idx then v else old) s' := by
  obtain ⟨s1, e1, _, e2, e3, _⟩ := C23_write_changes_one_element hr h dbg idx hidx s hl hsched v
  rw [hwr] at e1
  cases e1
  have hw' := handle_wellShaped hr' h'
  obtain ⟨old, ho⟩ := hl'.handle hr'.wf h' hidx'
  have hread : ∀ (st : St T) (x : T), st.get? (address d' idx') = some x →
      readElem dbg' d' idx' st = .ok x st ∧ readChain dbg' d' idx' st = .ok x st := by
    intro st x hx
    unfold readElem readChain
    rw [accessElement_inBox dbg' d' idx' hw'.1 hidx', accessChain_full dbg' d' idx' hw'.1 hidx']
    simp only [Exec.lift_ok, pure_bind]
    exact ⟨load_ok hx, load_ok hx⟩
  refine ⟨old, (hread s old ho).1, ?_⟩
  have hx : s'.get? (address d' idx') = some (if address d' idx' = address d idx then v else old) := by
    by_cases he : address d' idx' = address d idx
    · rw [if_pos he, he, e2]
    · rw [if_neg he, St.get?_eq_some, e3 _ he]
      exact St.get?_eq_some.mp ho
  exact hread s' _ hx

/-- **C23.** Writing through an iterator of a one-dimensional array, subarray or view (`*it = v` at position `k`) is
writing element `base+k`. -/
theorem C23_write_through_iterator {n : Nat} {root : ARef} (hr : Reachable n root) {d : Desc} (h : Handle root d)
    (dbg : Bool) (e : Nat) (he : d.extents = [e]) (k : Nat) (hk : k < e) (b : Int) (hb : d.bases = [b]) (v : T) :
    ∃ first, d.begin = .ok first ∧
      (do let r ← Exec.lift ((first.advance k).deref dbg)
          assignCell r.base v : Exec T Unit) = writeElem dbg d [b + (k : Int)] v := by
  obtain ⟨hs1, hs2⟩ := handle_wellShaped hr h
  obtain ⟨p, es, ss, bs⟩ := d
  simp only at he hb
  subst he; subst hb
  match ss, hs1 with
  | [s], _ =>
    refine ⟨_, begin_cons _ _ _ _ _ _, ?_⟩
    have := It.deref_in dbg p e [] s [] b [] k hk
    simp only [It.advance, this, writeElem]
    rw [accessElement_inBox dbg _ _ rfl (by simp only [InBox, and_true]; omega)]
    simp [subAt, address, dot]

example : ∃ v, Handle exArr v ∧ InBox v.bases v.extents [1, 1] ∧ Live exSt exArr ∧ exSt.sched = [] ∧
    address v [1, 1] = ⟨7, 16⟩ := by
  obtain ⟨v, h, _, hh⟩ := exHandle
  have : v = theView exView exArr.desc := (genView_ok (exArr_reachable.wf.wellShaped) rfl h).2.2
  subst this
  exact ⟨_, hh, by decide, exSt_live, rfl, by decide⟩

/-! ### C30 -/

/-- **C30.** Assignment between non-overlapping arrays, subarrays or views of equal shape (any bases, strides, storage
orders) makes every destination element equal to the source element at the same zero-based position, and changes
nothing else: neither the source, nor any other memory, nor which blocks exist.  (The destination's shape,
bases and strides are not part of the memory and are not written by assignment at all.) -/
theorem C30_assignment_deep_copy {n1 n2 : Nat} {r1 r2 : ARef} (h1 : Reachable n1 r1) (h2 : Reachable n2 r2)
    {dst src : Desc} (hd : Handle r1 dst) (hs : Handle r2 src) (he : src.extents = dst.extents) (s : St T)
    (l1 : Live s r1) (l2 : Live s r2) (hno : NoOverlap dst src) (hsched : s.sched = []) (dbg : Bool) :
    ∃ s', assignOp dbg false dst src s = .ok () s' ∧
      (∀ k, InShape dst.extents k → elemAt s' dst k = elemAt s src k ∧ elemAt s' src k = elemAt s src k) ∧
      (∀ p, Outside dst p → s'.cell? p = s.cell? p) ∧ SameStorage s s' := by
  have hc := copySetup h1 h2 hd hs he l1 l2
  obtain ⟨s', e1, e2, e3, e4, _⟩ := copy_ok hc hno (by rw [hsched]; exact NoThrow.nil _)
  refine ⟨s', ?_, ?_, e3, e4.sameStorage⟩
  · unfold assignOp
    rw [assignRef_eq dbg dst src hc.wd hc.ws he]
    exact e1
  · intro k hk
    refine ⟨e2 k hk, ?_⟩
    unfold elemAt St.get?
    rw [e3]
    intro idx hi heq
    exact hno _ _ hi (inBox_atPos hc.ws.2 (by rw [he]; exact hk)) heq.symm

/-! ### C31 -/

/-- **C31.** With assertions enabled, assigning arrays of different shape fails an assertion, and memory is exactly as it
was before the call.  `copy_array` likewise. -/
theorem C31_shape_mismatch_rejected (dst src : Desc) (hdim : dst.extents ≠ []) (hne : src.extents ≠ dst.extents)
    (s : St T) : assignOp true false dst src s = .assertFail s ∧ copyArray true src dst s = .assertFail s := by
  constructor
  · unfold assignOp
    match hl : dst.extents.length with
    | 0 => simp at hl; exact absurd hl hdim
    | n + 1 =>
      simp only [Bool.false_eq_true, if_false, assignRef_succ, hne, decide_false]
      by_cases h : src.extents.length = dst.extents.length
      · simp only [h, decide_true, assertE_true, pure_bind]
        exact Exec.bind_assertFail rfl
      · simp only [h, decide_false]
        exact Exec.bind_assertFail rfl
  · unfold copyArray
    simp only [hne, decide_false]
    exact Exec.bind_assertFail rfl

/-! ### C32 -/

theorem copySeq_self (ps : List (Ptr × Ptr)) (s : St T) (heq : ∀ p ∈ ps, p.1 = p.2)
    (hl : ∀ p ∈ ps, ∃ v, s.get? p.1 = some v) (hsched : s.sched = []) :
    ∃ s', copySeq ps s = .ok () s' ∧ (∀ q, s'.cell? q = s.cell? q) ∧ SameBlocks s s' := by
  induction ps generalizing s with
  | nil => exact ⟨s, rfl, fun _ => rfl, .refl s⟩
  | cons p ps ih =>
    obtain ⟨a, b⟩ := p
    have hab : a = b := heq (a, b) (by simp)
    subst hab
    obtain ⟨v, hv⟩ := hl (a, a) (by simp)
    simp only at hv
    obtain ⟨s1, h1, h2, h3, h4⟩ := assignCell_ok hv v (.inl hsched)
    have hsame : ∀ q, s1.cell? q = s.cell? q := by
      intro q; rw [h2]
      by_cases hq : q = a
      · rw [if_pos hq, hq, St.get?_eq_some.mp hv]
      · rw [if_neg hq]
    obtain ⟨s', e1, e2, e3⟩ := ih s1 (fun p hp => heq p (by simp [hp]))
      (fun p hp => by
        obtain ⟨x, hx⟩ := hl p (by simp [hp])
        exact ⟨x, by rw [St.get?_eq_some, hsame]; exact St.get?_eq_some.mp hx⟩) (by rw [h4, hsched]; rfl)
    refine ⟨s', ?_, fun q => (e2 q).trans (hsame q), h3.trans e3⟩
    simp only [copySeq]
    rw [Exec.bind_ok (load_ok hv), Exec.bind_ok h1, e1]

/-- **C32.** `a = a` (the same object) does nothing at all. -/
theorem C32_self_assignment (dbg : Bool) (d : Desc) (s : St T) : assignOp dbg true d d s = .ok () s := rfl

/-- **C32.** Assigning to a handle from another handle (a different object) with the same elements in the same order
leaves all memory contents unchanged. -/
theorem C32_assign_alias {n1 n2 : Nat} {r1 r2 : ARef} (h1 : Reachable n1 r1) (h2 : Reachable n2 r2)
    {dst src : Desc} (hd : Handle r1 dst) (hs : Handle r2 src) (he : src.extents = dst.extents)
    (hsame : ∀ k, InShape dst.extents k → address src (atPos src.bases k) = address dst (atPos dst.bases k))
    (s : St T) (l1 : Live s r1) (l2 : Live s r2) (hsched : s.sched = []) (dbg : Bool) :
    ∃ s', assignOp dbg false dst src s = .ok () s' ∧ (∀ q, s'.cell? q = s.cell? q) ∧ SameStorage s s' := by
  have hc := copySetup h1 h2 hd hs he l1 l2
  obtain ⟨s', e1, e2, e3⟩ := copySeq_self (copyPairs src dst) s (by
    intro p hp
    rw [copyPairs_eq_map _ _ hc.ws hc.wd he] at hp
    obtain ⟨k, hk, rfl⟩ := List.mem_map.mp hp
    exact hsame k ((mem_allPos _ _).mp hk)) hc.live1 hsched
  refine ⟨s', ?_, e2, e3.sameStorage⟩
  unfold assignOp
  rw [assignRef_eq dbg dst src hc.wd hc.ws he]
  exact e1

/-- A one-dimensional array of three elements and the two overlapping views `[1,3)` and `[0,2)` of it. -/
def ovArr : ARef := ⟨⟨1, 0⟩, StorageOrder.cOrder 1, [3], [1], [0], 0, 0, 3⟩
def ovSt : St Nat := { heap := fun b => if b = 1 then some ⟨0, [.obj 10, .obj 20, .obj 30]⟩ else none, next := 2, sched := [] }

/-- **C32, hazard.** Overlapping assignment is performed in index order and can smear: with contents 10,20,30 the statement
`a[indices[range(1,3)]] = a[indices[range(0,2)]]` leaves 10,10,10 rather than 10,10,20. -/
theorem C32_overlap_hazard :
    ∃ (v1 v2 : View) (s' : St Nat), Reachable 1 ovArr ∧ Live ovSt ovArr ∧
      ovArr.slice true ⟨1, 1, [IndexRange.mk3 1 3]⟩ = .ok v1 ∧ ovArr.slice true ⟨1, 1, [IndexRange.mk3 0 2]⟩ = .ok v2 ∧
      assignOp true false v1.desc v2.desc ovSt = .ok () s' ∧
      elemAt ovSt v2.desc [1] = some 20 ∧ elemAt s' v1.desc [1] = some 10 := by
  refine ⟨_, _, _, .ofExtents (n := 1) (p := ⟨1, 0⟩) (exts := [3]) (cOrder_valid 1) rfl, ?_, rfl, rfl, rfl, rfl, rfl⟩
  intro k hk
  change k < 3 at hk
  interval_cases k
  exacts [⟨10, rfl⟩, ⟨20, rfl⟩, ⟨30, rfl⟩]

/-! ### C33 -/

theorem assignLoop_ok (input : List T) (count : Nat) (p : Ptr) (s : St T)
    (hl : ∀ k : Nat, k < count → ∃ v, s.get? (p.add (k : Int)) = some v) (hsched : s.sched = []) :
    ∃ s', assignLoop count p input s = .ok () s' ∧
      (∀ k : Nat, k < count → k < input.length → s'.get? (p.add (k : Int)) = input[k]?) ∧
      (∀ q, (∀ k : Nat, k < count → k < input.length → q ≠ p.add (k : Int)) → s'.cell? q = s.cell? q) ∧
      SameBlocks s s' := by
  induction count generalizing input p s with
  | zero => exact ⟨s, by simp [assignLoop, Exec.pure_apply], by simp, by simp, .refl s⟩
  | succ n ih =>
    cases input with
    | nil => exact ⟨s, by simp [assignLoop, Exec.pure_apply], by simp, by simp, .refl s⟩
    | cons v vs =>
      obtain ⟨old, ho⟩ := hl 0 (by omega)
      simp only [Nat.cast_zero, Ptr.add_zero] at ho
      obtain ⟨s1, h1, h2, h3, h4⟩ := assignCell_ok ho v (.inl hsched)
      have hne : ∀ k : Nat, (p.add 1).add (k : Int) ≠ p := by
        intro k; rw [Ptr.add_add]; intro he
        have he' : p.add (1 + (k : Int)) = p.add 0 := by rw [he, Ptr.add_zero]
        rw [Ptr.add_inj] at he'; omega
      obtain ⟨s', e1, e2, e3, e4⟩ := ih vs (p.add 1) s1
        (fun k hk => by
          obtain ⟨x, hx⟩ := hl (k + 1) (by omega)
          refine ⟨x, ?_⟩
          rw [St.get?_eq_some, h2, if_neg (hne k)]
          rw [Ptr.add_add, show (1 : Int) + (k : Int) = ((k + 1 : Nat) : Int) by push_cast; ring]
          exact St.get?_eq_some.mp hx)
        (by rw [h4, hsched]; rfl)
      refine ⟨s', ?_, ?_, ?_, h3.trans e4⟩
      · simp only [assignLoop]
        rw [Exec.bind_ok h1, e1]
      · intro k hk1 hk2
        cases k with
        | zero =>
          simp only [Nat.cast_zero, Ptr.add_zero, List.getElem?_cons_zero]
          rw [St.get?_eq_some, e3 p (fun k _ _ => (hne k).symm), h2, if_pos rfl]
        | succ k =>
          have := e2 k (by omega) (by simpa using hk2)
          rw [Ptr.add_add, show (1 : Int) + (k : Int) = ((k + 1 : Nat) : Int) by push_cast; ring] at this
          rw [this]; rfl
      · intro q hq
        rw [e3 q, h2, if_neg]
        · have := hq 0 (by omega) (by simp)
          simpa using this
        · intro k hk1 hk2
          have := hq (k + 1) (by omega) (by simpa using hk2)
          rw [Ptr.add_add, show (1 : Int) + (k : Int) = ((k + 1 : Nat) : Int) by push_cast; ring]
          exact this

/-- **C33.** `assign(first,last)` stores the first `min(distance, num_elements())` input values at `data()[0]`, `data()[1]`,
..., leaves every other cell unchanged, and never writes at or past `data()+num_elements()`. -/
theorem C33_assign_fills_in_memory_order {n : Nat} {a : ARef} (_ha : Reachable n a) (input : List T) (s : St T)
    (hl : Live s a) (hsched : s.sched = []) :
    ∃ s', a.assign input s = .ok () s' ∧
      (∀ k : Nat, k < min input.length a.numElements → s'.get? (a.data.add (k : Int)) = input[k]?) ∧
      (∀ q, (∀ k : Nat, k < min input.length a.numElements → q ≠ a.data.add (k : Int)) → s'.cell? q = s.cell? q) ∧
      SameStorage s s' := by
  obtain ⟨s', e1, e2, e3, e4⟩ := assignLoop_ok input a.numElems a.base s hl hsched
  refine ⟨s', e1, fun k hk => e2 k (lt_of_lt_of_le hk (min_le_right _ _)) (lt_of_lt_of_le hk (min_le_left _ _)), ?_,
    e4.sameStorage⟩
  intro q hq
  exact e3 q (fun k h1 h2 => hq k (lt_min h2 h1))

example : ∃ s', exArr.assign [100, 101] exSt = .ok () s' ∧ s'.get? ⟨7, 1⟩ = some 101 ∧ s'.get? ⟨7, 2⟩ = some 2 :=
  ⟨_, rfl, rfl, rfl⟩

/-! ### C36 -/

/-- **C36.** `copy_array(src,dst)` behaves exactly like `dst = src` on arrays of equal shape, for every memory state and
every schedule of exceptions. -/
theorem C36_copy_array_eq_assignment {n1 n2 : Nat} {r1 r2 : ARef} (h1 : Reachable n1 r1) (h2 : Reachable n2 r2)
    {dst src : Desc} (hd : Handle r1 dst) (hs : Handle r2 src) (he : src.extents = dst.extents) (dbg : Bool) (s : St T) :
    copyArray dbg src dst s = assignOp dbg false dst src s := by
  unfold copyArray assignOp
  have w1 := handle_wellShaped h1 hd
  have w2 := handle_wellShaped h2 hs
  rw [assignRef_eq dbg dst src w1 w2 he, copyDispatch_eq dbg dst src w1 w2 he]
  simp [he]

/-! ### C08 for assignment -/

/-- **C08.** Assignments that pass their assertions behave identically (including exceptions) with assertions compiled
out. -/
theorem C08_assignment_without_assertions {n1 n2 : Nat} {r1 r2 : ARef} (h1 : Reachable n1 r1) (h2 : Reachable n2 r2)
    {dst src : Desc} (hd : Handle r1 dst) (hs : Handle r2 src) (hdim : dst.extents ≠ []) (same : Bool) (s : St T)
    (hok : ∀ s', assignOp true same dst src s ≠ .assertFail s') :
    assignOp false same dst src s = assignOp true same dst src s := by
  cases same with
  | true => rfl
  | false =>
    by_cases he : src.extents = dst.extents
    · unfold assignOp
      have w1 := handle_wellShaped h1 hd
      have w2 := handle_wellShaped h2 hs
      rw [assignRef_eq _ dst src w1 w2 he, assignRef_eq _ dst src w1 w2 he]
    · exact absurd ((C31_shape_mismatch_rejected dst src hdim he s).1) (hok s)

/-! ### C49 -/

/-- **C49.** If the element assignment number `m` (counting from 0 in lexicographic order of positions, i.e. at the element
with row-major rank `m`) throws during `dst = src`, the exception propagates; elements of lower rank have the
source's values, the one being assigned has whatever its assignment operator left (`junk`), all later elements
and all other memory are unchanged. -/
theorem C49_interrupted_assignment {n1 n2 : Nat} {r1 r2 : ARef} (h1 : Reachable n1 r1) (h2 : Reachable n2 r2)
    {dst src : Desc} (hd : Handle r1 dst) (hs : Handle r2 src) (he : src.extents = dst.extents) (s : St T)
    (l1 : Live s r1) (l2 : Live s r2) (hno : NoOverlap dst src) (dbg : Bool) (m : Nat) (hm : m < dst.extents.prod)
    (junk : T) (rest : List (Option T)) (hsched : s.sched = List.replicate m none ++ some junk :: rest) :
    ∃ s', assignOp dbg false dst src s = .throw s' ∧
      (∀ k, InShape dst.extents k →
        (rowMajor dst.extents k < m → elemAt s' dst k = elemAt s src k) ∧
        (rowMajor dst.extents k = m → elemAt s' dst k = some junk) ∧
        (m < rowMajor dst.extents k → elemAt s' dst k = elemAt s dst k)) ∧
      (∀ p, Outside dst p → s'.cell? p = s.cell? p) ∧ SameStorage s s' := by
  have hc := copySetup h1 h2 hd hs he l1 l2
  obtain ⟨s', e1, e2, e3, e4, _⟩ := copy_throw hc hno m hm junk rest hsched
  refine ⟨s', ?_, ?_, e3, e4.sameStorage⟩
  · unfold assignOp
    rw [assignRef_eq dbg dst src hc.wd hc.ws he]
    exact e1
  · intro k hk
    have := e2 k hk
    refine ⟨fun h => ?_, fun h => ?_, fun h => ?_⟩
    · rw [this, if_pos h]
    · rw [this, if_neg (by omega), if_pos h]
    · rw [this, if_neg (by omega), if_neg (by omega)]

/-! ### C56 -/

/-- **C56.** `for_each(a, f)` replaces every element `x` by `f(x)`, each exactly once, and changes nothing else. -/
theorem C56_for_each {n : Nat} {root : ARef} (hr : Reachable n root) {d : Desc} (h : Handle root d) (dbg : Bool)
    (f : T → T) (s : St T) (hl : Live s root) (hsched : s.sched = []) :
    ∃ s', forEach dbg f d.extents.length d s = .ok () s' ∧
      (∀ k, InShape d.extents k → elemAt s' d k = (elemAt s d k).map f) ∧
      (∀ p, Outside d p → s'.cell? p = s.cell? p) ∧ SameStorage s s' := by
  have hw := handle_wellShaped hr h
  obtain ⟨s', e1, e2, e3, e4, _⟩ := mapSeq_ok f (addrs d) s
    (fun p hp => by
      obtain ⟨i, hi, rfl⟩ := (mem_addrs d p).mp hp
      exact hl.handle hr.wf h hi) (addrs_nodup hr.wf h) (by rw [hsched]; exact NoThrow.nil _)
  refine ⟨s', by rw [forEach_eq dbg f d hw]; exact e1, ?_, ?_, e4.sameStorage⟩
  · intro k hk
    exact e2 _ ((mem_addrs _ _).mpr ⟨_, inBox_atPos hw.2 hk, rfl⟩)
  · intro p hp
    exact e3 p ((outside_iff d p).mp hp)

/-- **C56.** The visiting order, made observable by a functor with internal state (`f q x` is the result of the call on `x` in state `q`, and the next
state): if `xs` lists the elements by row-major rank of their position, then the calls are made on `xs` from left to right, each exactly once; the
element at position `k` becomes the result of its own call, and the functor ends in the state after the last call. -/
theorem C56_for_each_order {n : Nat} {root : ARef} (hr : Reachable n root) {d : Desc} (h : Handle root d) (dbg : Bool) {σ : Type}
    (f : σ → T → T × σ) (q : σ) (s : St T) (hl : Live s root) (hsched : s.sched = []) (xs : List T) (hlen : xs.length = d.extents.prod)
    (hxs : ∀ k, InShape d.extents k → elemAt s d k = xs[rowMajor d.extents k]?) :
    ∃ s', forEachAcc dbg f d.extents.length d q s = .ok (applySeq f q xs).2 s' ∧
      (∀ k, InShape d.extents k → elemAt s' d k = (applySeq f q xs).1[rowMajor d.extents k]?) ∧
      (∀ p, Outside d p → s'.cell? p = s.cell? p) ∧ SameStorage s s' := by
  have hw := handle_wellShaped hr h
  have haddr : ∀ (i : Nat) p, (addrs d)[i]? = some p → ∃ k, InShape d.extents k ∧ i = rowMajor d.extents k ∧ p = address d (atPos d.bases k) := by
    intro i p hi
    rw [addrs_eq_map d hw, List.getElem?_map] at hi
    obtain ⟨k, hk, rfl⟩ := Option.map_eq_some_iff.mp hi
    obtain ⟨h1, h2⟩ := allPos_getElem? _ _ _ hk
    exact ⟨k, h1, h2.symm, rfl⟩
  obtain ⟨s', e1, e2, e3, e4, _⟩ := mapAccSeq_ok f (addrs d) xs q s (by rw [hlen, addrs_length d hw])
    (fun i p v hp hv => by
      obtain ⟨k, h1, rfl, rfl⟩ := haddr i p hp
      exact (hxs k h1).trans hv) (addrs_nodup hr.wf h) (by rw [hsched]; exact NoThrow.nil _)
  refine ⟨s', by rw [forEachAcc_eq dbg f d hw]; exact e1, ?_, ?_, e4.sameStorage⟩
  · intro k hk
    refine e2 _ _ ?_
    rw [addrs_eq_map d hw, List.getElem?_map, allPos_rank_get _ _ hk]
    rfl
  · intro p hp
    exact e3 p ((outside_iff d p).mp hp)

/-- A counting functor numbers the elements in row-major order and ends with the number of elements. -/
example : ∃ s', forEachAcc true (fun (q x : Nat) => (100 * x + q, q + 1)) 1 ovArr.desc 0 ovSt = .ok 3 s' ∧
    (List.range 3).map (fun k => elemAt s' ovArr.desc [k]) = [some 1000, some 2001, some 3002] := ⟨_, rfl, rfl⟩

/-! ### A concrete assignment meeting the hypotheses above -/

/-- A second array: Fortran order, bases 0, shape 2x3x4, in block 9. -/
def exArr2 : ARef :=
  { base := ⟨9, 0⟩, storage := StorageOrder.fortranOrder 3, extents := [2, 3, 4], strides := [1, 2, 6], bases := [0, 0, 0],
    originOffset := 0, directionalOffset := 0, numElems := 24 }
theorem exArr2_reachable : Reachable 3 exArr2 :=
  .ofExtents (p := ⟨9, 0⟩) (exts := [2, 3, 4]) (fortranOrder_valid 3) (by decide)
def exSt2 : St Nat :=
  { heap := fun b => if b = 7 then some ⟨0, (List.range 24).map .obj⟩ else if b = 9 then some ⟨0, List.replicate 24 (.obj 99)⟩ else none,
    next := 10, sched := [] }

theorem exSt2_live : Live exSt2 exArr := by
  intro k hk
  change k < 24 at hk
  refine ⟨k, ?_⟩
  interval_cases k <;> rfl
theorem exSt2_live2 : Live exSt2 exArr2 := by
  intro k hk
  change k < 24 at hk
  refine ⟨99, ?_⟩
  interval_cases k <;> rfl
theorem ex_noOverlap : NoOverlap exArr2.desc exArr.desc := by
  intro i j _ _ he
  have : (address exArr2.desc i).blk = (address exArr.desc j).blk := by rw [he]
  exact absurd this (show ¬ ((9 : Nat) = 7) by decide)

example : Reachable 3 exArr ∧ Reachable 3 exArr2 ∧ exArr.desc.extents = exArr2.desc.extents ∧ Live exSt2 exArr ∧
    Live exSt2 exArr2 ∧ NoOverlap exArr2.desc exArr.desc :=
  ⟨exArr_reachable, exArr2_reachable, rfl, exSt2_live, exSt2_live2, ex_noOverlap⟩

/-! ### Instances: the theorems applied to concrete cases, whose hypotheses are thereby met -/

example := C23_write_changes_one_element exArr_reachable .array true [0, 6, 2] (by decide) exSt exSt_live rfl 77
example := C23_read_after_write exArr_reachable exArr_reachable .array .array true false [0, 6, 2] [-1, 7, 3] (by decide) (by decide)
  exSt _ exSt_live exSt_live rfl 77 rfl
example := C30_assignment_deep_copy exArr2_reachable exArr_reachable .array .array rfl exSt2 exSt2_live2 exSt2_live ex_noOverlap rfl true
example := C31_shape_mismatch_rejected exArr.desc ovArr.desc (by decide) (by decide) exSt2
example := C32_assign_alias exArr_reachable exArr_reachable .array .array rfl (fun _ _ => rfl) exSt exSt_live exSt_live rfl true
example := C36_copy_array_eq_assignment exArr2_reachable exArr_reachable .array .array rfl true exSt2
example := C08_assignment_without_assertions exArr2_reachable exArr_reachable .array .array (by decide) false exSt2
  (fun s' h => by
    obtain ⟨t, e, _⟩ := C30_assignment_deep_copy exArr2_reachable exArr_reachable .array .array rfl exSt2 exSt2_live2 exSt2_live
      ex_noOverlap rfl true
    rw [e] at h; cases h)
example := C49_interrupted_assignment exArr2_reachable exArr_reachable .array .array rfl
  { exSt2 with sched := [none, none, some 5] } exSt2_live2 exSt2_live ex_noOverlap true 2 (by decide) 5 [] rfl
example := C56_for_each exArr_reachable .array true (· + 1) exSt exSt_live rfl

/- end of instances -/

end MultiArray.Props
