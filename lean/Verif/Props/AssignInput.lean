import Verif.Lemmas.AssignInput
import Verif.Props.Copy
import Verif.Props.Work

/- Property theorems C86: `assign(first,last)` with any input iterator, also one that reads the array's own storage. -/
set_option autoImplicit false

namespace MultiArray.Props
open MultiArray MultiArray.Spec
variable {T σ : Type}

/-- **C86.** On a sequence of values, `assign` is what C33 says, and leaves the iterator behind the values it has used. -/
theorem C86_values (a : ARef) (vs : List T) : a.assignX listIt vs = (do a.assign vs; pure (vs.drop a.numElements) : Exec T (List T)) := by
  have key : ∀ (n : Nat) (out : Ptr) (vs : List T), assignLoopX listIt n out vs = (do assignLoop n out vs; pure (vs.drop n) : Exec T (List T)) := by
    intro n
    induction n with
    | zero => intro out vs; simp [assignLoopX, assignLoop, listIt]
    | succ n ih =>
      intro out vs
      cases vs with
      | nil => simp [assignLoopX, assignLoop, listIt]
      | cons v vs =>
        have h1 : (listIt (T := T)).atEnd (v :: vs) = pure false := rfl
        have h2 : (listIt (T := T)).next (v :: vs) = pure (v, vs) := rfl
        simp [assignLoopX, assignLoop, h1, h2, ih]
  exact key _ _ _

/-- **C86.** Whatever the input iterator does: `assign` never takes more than `num_elements()` elements from it, and if it takes fewer then the iterator was at its end. -/
theorem C86_never_reads_too_much (a : ARef) (it : InputIt T σ) (q q' : σ) (k : Nat) (s s' : St T)
    (h : a.assignX (counting it) (q, 0) s = .ok (q', k) s') :
    k ≤ a.numElements ∧ (k < a.numElements → ∃ t, it.atEnd q' t = .ok true s') := by
  have key : ∀ (n : Nat) (out : Ptr) (q : σ) (c : Nat) (s : St T), assignLoopX (counting it) n out (q, c) s = .ok (q', k) s' →
      c ≤ k ∧ k ≤ c + n ∧ (k < c + n → ∃ t, it.atEnd q' t = .ok true s') := by
    intro n
    induction n with
    | zero =>
      intro out q c s h
      simp only [assignLoopX] at h
      change Exec.bind _ _ s = _ at h
      unfold Exec.bind at h
      cases h1 : it.atEnd q s with
      | ok b s1 =>
        simp only [counting, h1] at h
        cases h
        exact ⟨le_refl _, le_refl _, fun h => absurd h (lt_irrefl _)⟩
      | throw s1 => simp only [counting, h1] at h; cases h
      | assertFail s1 => simp only [counting, h1] at h; cases h
      | ub => simp only [counting, h1] at h; cases h
    | succ n ih =>
      intro out q c s h
      simp only [assignLoopX] at h
      change Exec.bind _ _ s = _ at h
      unfold Exec.bind at h
      cases h1 : it.atEnd q s with
      | ok b s1 =>
        simp only [counting, h1] at h
        cases b with
        | true =>
          cases h
          exact ⟨le_refl _, by omega, fun _ => ⟨s, h1⟩⟩
        | false =>
          simp only [Bool.false_eq_true, if_false, bind_assoc, pure_bind] at h
          change Exec.bind _ _ s1 = _ at h
          unfold Exec.bind at h
          cases h2 : it.next q s1 with
          | ok r s2 =>
            simp only [h2] at h
            change Exec.bind _ _ s2 = _ at h
            unfold Exec.bind at h
            cases h3 : (assignCell out r.1 : Exec T Unit) s2 with
            | ok u s3 =>
              simp only [h3] at h
              have := ih _ _ _ _ h
              exact ⟨by omega, by omega, fun hk => this.2.2 (by omega)⟩
            | throw s3 => simp only [h3] at h; cases h
            | assertFail s3 => simp only [h3] at h; cases h
            | ub => simp only [h3] at h; cases h
          | throw s2 => simp only [h2] at h; cases h
          | assertFail s2 => simp only [h2] at h; cases h
          | ub => simp only [h2] at h; cases h
      | throw s1 => simp only [counting, h1] at h; cases h
      | assertFail s1 => simp only [counting, h1] at h; cases h
      | ub => simp only [counting, h1] at h; cases h
  have := key a.numElems a.base q 0 s h
  rw [Nat.zero_add] at this
  exact ⟨this.2.1, this.2.2⟩

/-- **C86.** An input iterator that throws when its values are used up: if there are enough values nothing happens; otherwise the values it has delivered are in the array, as
if they had been assigned alone, and the exception propagates. -/
theorem C86_input_throws (a : ARef) (vs : List T) : a.assignX failingIt vs = (do
      a.assign vs
      if a.numElements ≤ vs.length then pure (vs.drop a.numElements) else (fun s => .throw s) : Exec T (List T)) := by
  have key : ∀ (n : Nat) (out : Ptr) (vs : List T), assignLoopX failingIt n out vs = (do
      assignLoop n out vs
      if n ≤ vs.length then pure (vs.drop n) else (fun s => .throw s) : Exec T (List T)) := by
    intro n
    induction n with
    | zero => intro out vs; simp [assignLoopX, assignLoop, failingIt]
    | succ n ih =>
      intro out vs
      have h1 : (failingIt (T := T)).atEnd vs = pure false := rfl
      cases vs with
      | nil =>
        have h2 : (failingIt (T := T)).next [] = fun s => .throw s := rfl
        simp only [assignLoopX, assignLoop, h1, h2, pure_bind, Bool.false_eq_true, if_false, List.length_nil, Nat.le_zero, Nat.succ_ne_zero]
        funext s
        rw [Exec.bind_throw (s' := s) rfl]
        exact (congrFun (if_neg id) s).symm
      | cons v vs =>
        have h2 : (failingIt (T := T)).next (v :: vs) = pure (v, vs) := rfl
        simp [assignLoopX, assignLoop, h1, h2, ih]
  exact key _ _ _

/-- **C86.** The iterators of a one-dimensional array, row or view, and pointer ranges, read the elements one after the other - so that the claims below apply to them. -/
theorem C86_sources :
    (∀ (p : Ptr) (m : Nat), ReadsFrom (ptrIt (p.add (m : Int)) : InputIt T Ptr) p ((List.range m).map (fun (i : Nat) => p.add (i : Int)))) ∧
    (∀ {m : Nat} {root : ARef} (_ : Reachable m root) {d : Desc} (_ : Handle root d) (_ : d.extents.length = 1) (dbg : Bool),
      ∃ first last, d.begin = .ok first ∧ d.end = .ok last ∧
        ReadsFrom (InputIt.ofArray dbg last : InputIt T It) first ((positions d.extents).map (posAddr d))) := by
  refine ⟨fun p m => readsFrom_ptr p _ m rfl, ?_⟩
  intro m root hr d hd h1 dbg
  have hw := handle_wellShaped hr hd
  obtain ⟨p, es, ss, bs⟩ := d
  match es, ss, bs, hw, h1 with
  | [e], [t], [b], _, _ =>
    refine ⟨_, _, begin_cons .., end_cons .., ?_⟩
    have := readsFrom_array (T := T) dbg p e t b 0 e (by omega)
    simp only [Nat.cast_zero, add_zero] at this
    convert this using 1
    simp only [positions, List.map_flatMap, List.range_eq_range', List.map_cons, List.map_nil, posAddr, address, atPos, List.zipWith_cons_cons,
      List.zipWith_nil_left, dot, add_zero]
    rw [← List.map_eq_flatMap]

/-- **C86.** If the input is read from memory, `assign` is the loop `for (p in sources) *out++ = *p` over the storage of the array, at most `num_elements()` times, in every memory
state, for every pattern of exceptions, also if the sources lie in the array's own storage. -/
theorem C86_is_copy_loop (a : ARef) (it : InputIt T σ) (first : σ) (ps : List Ptr) (h : ReadsFrom it first ps) :
    ∃ q', ReadsFrom it q' (ps.drop a.numElements) ∧ a.assignX it first = (do copyTo a.data (ps.take a.numElements); pure q') :=
  assignLoopX_reads it a.numElems a.base first ps h

/-- **C86.** If no element is written before it has been read (no source is the address of an element of the array of smaller rank in memory order), the element of rank `k` gets the value
that source `k` had before the call; everything else is unchanged.  This covers sources outside the array, and any pointer range
in the array's own storage (`a.assign(a.data() + m, ...)` moves elements toward the front). -/
theorem C86_forward (a : ARef) (it : InputIt T σ) (first : σ) (ps : List Ptr) (h : ReadsFrom it first ps) (s : St T) (hl : Live s a) (hsched : s.sched = [])
    (hps : ∀ p ∈ ps, ∃ v, s.get? p = some v) (hsafe : ∀ i j : Nat, i < j → ∀ p, ps[j]? = some p → p ≠ a.data.add (i : Int)) :
    ∃ q' s', a.assignX it first s = .ok q' s' ∧
      (∀ (k : Nat) p, k < a.numElements → ps[k]? = some p → s'.get? (a.data.add (k : Int)) = s.get? p) ∧
      (∀ q, (∀ k : Nat, k < a.numElements → k < ps.length → q ≠ a.data.add (k : Int)) → s'.cell? q = s.cell? q) ∧ SameStorage s s' := by
  obtain ⟨q', _, e⟩ := C86_is_copy_loop a it first ps h
  have hget : ∀ (i : Nat) p, (ps.take a.numElements)[i]? = some p → i < a.numElements ∧ ps[i]? = some p := by
    intro i p hi
    rw [List.getElem?_take] at hi
    split at hi
    · exact ⟨by assumption, hi⟩
    · cases hi
  obtain ⟨s', h1, h2, h3, h4, _⟩ := copySeq_fwd (toPairs a.data (ps.take a.numElements)) s
    (by
      intro x hx
      obtain ⟨i, _, hi, _⟩ := toPairs_mem hx
      exact hps _ (List.mem_of_getElem? (hget i _ hi).2))
    (by
      intro x hx
      obtain ⟨i, _, hi, hx2⟩ := toPairs_mem hx
      rw [hx2]
      exact hl i (hget i _ hi).1)
    (toPairs_nodup _ _)
    (toPairs_pairwise _ _ (fun i j hij p hp => hsafe i j hij p (hget j p hp).2))
    (noThrow_nil hsched _)
  refine ⟨q', s', ?_, ?_, ?_, h4.sameStorage⟩
  · rw [e, copyTo_eq, Exec.bind_ok h1]; rfl
  · intro k p hk hp
    have hmem : (p, a.data.add (k : Int)) ∈ toPairs a.data (ps.take a.numElements) := by
      apply List.mem_of_getElem? (i := k)
      rw [toPairs_getElem?, List.getElem?_take, if_pos hk, hp]; rfl
    have := h2 _ hmem
    unfold St.get?
    rw [this]
  · intro q hq
    refine h3 q ?_
    intro hmem
    obtain ⟨x, hx, rfl⟩ := List.mem_map.mp hmem
    obtain ⟨i, _, hi, hx2⟩ := toPairs_mem hx
    obtain ⟨g1, g2⟩ := hget i _ hi
    exact hq i g1 (List.getElem?_eq_some_iff.mp g2).1 hx2

/-- **C86.** A pointer range that starts `d` elements before the array's storage and runs into it is *not* copied: the first `d` elements are repeated - the element
of rank `k` gets the value that source `k mod d` had before the call.  (For instance, for an array over the elements from `p + 1` on, `assign(p, p + n)` fills it with `*p`.) -/
theorem C86_backward (a : ARef) (src : Ptr) (d m : Nat) (hd : 0 < d) (hdata : a.data = src.add (d : Int)) (s : St T) (hl : Live s a) (hsched : s.sched = [])
    (hps : ∀ i : Nat, i < m → ∃ v, s.get? (src.add (i : Int)) = some v) :
    ∃ q' s', a.assignX (ptrIt (src.add (m : Int))) src s = .ok q' s' ∧
      (∀ k : Nat, k < a.numElements → k < m → s'.get? (a.data.add (k : Int)) = s.get? (src.add ((k % d : Nat) : Int))) ∧
      (∀ q, (∀ k : Nat, k < a.numElements → k < m → q ≠ a.data.add (k : Int)) → s'.cell? q = s.cell? q) ∧ SameStorage s s' := by
  obtain ⟨q', _, e⟩ := C86_is_copy_loop a (ptrIt (src.add (m : Int)) : InputIt T Ptr) src _ (C86_sources.1 src m)
  generalize hN : min a.numElements m = N
  have htake : ((List.range m).map (fun (i : Nat) => src.add (i : Int))).take a.numElements = (List.range N).map (fun (i : Nat) => src.add (i : Int)) := by
    rw [← List.map_take, List.take_range, hN]
  rw [htake] at e
  generalize hps' : (List.range N).map (fun (i : Nat) => src.add (i : Int)) = ps at e
  have hget : ∀ (i : Nat) p, ps[i]? = some p → i < N ∧ p = src.add (i : Int) := by
    intro i p hi
    subst hps'
    rw [List.getElem?_map, Option.map_eq_some_iff] at hi
    obtain ⟨j, hj, rfl⟩ := hi
    rw [List.getElem?_eq_some_iff] at hj
    obtain ⟨hj, rfl⟩ := hj
    rw [List.length_range] at hj
    rw [List.getElem_range]
    exact ⟨hj, rfl⟩
  have hlen : ps.length = N := by subst hps'; simp
  obtain ⟨s', h1, h2, h3, h4⟩ := copySeq_overlap (toPairs a.data ps) s
    (by
      intro x hx
      obtain ⟨i, _, hi, _⟩ := toPairs_mem hx
      obtain ⟨g1, g2⟩ := hget i _ hi
      rw [g2]; exact hps i (by omega))
    (by
      intro x hx
      obtain ⟨i, _, hi, hx2⟩ := toPairs_mem hx
      rw [hx2]
      exact hl i (by have := (hget i _ hi).1; omega))
    (toPairs_nodup _ _) (noThrow_nil hsched _)
  have hsrc : ∀ k : Nat, k < N → ps[k]? = some (src.add (k : Int)) := by
    intro k hk
    rw [List.getElem?_eq_getElem (by omega)]
    exact congrArg some (hget k _ (List.getElem?_eq_getElem (by omega))).2
  have key : ∀ k : Nat, k < N → s'.cell? (a.data.add (k : Int)) = s.cell? (src.add ((k % d : Nat) : Int)) := by
    intro k
    induction k using Nat.strongRecOn with
    | ind k ih =>
      intro hk
      have hpk : (toPairs a.data ps)[k]? = some (src.add (k : Int), a.data.add (k : Int)) := by
        rw [toPairs_getElem?, hsrc k hk]; rfl
      obtain ⟨hklen, hkel⟩ := List.getElem?_eq_some_iff.mp hpk
      have hsplit : toPairs a.data ps = (toPairs a.data ps).take k ++ (src.add (k : Int), a.data.add (k : Int)) :: (toPairs a.data ps).drop (k + 1) := by
        conv_lhs => rw [← List.take_append_drop k (toPairs a.data ps), List.drop_eq_getElem_cons hklen, hkel]
      obtain ⟨c1, c2⟩ := h2 _ _ _ hsplit
      by_cases hkd : k < d
      · rw [Nat.mod_eq_of_lt hkd]
        refine c1 ?_
        intro q hq
        obtain ⟨i, hi, hq2⟩ : ∃ i : Nat, i < k ∧ q.2 = a.data.add (i : Int) := by
          obtain ⟨i, hi⟩ := List.mem_iff_getElem?.mp hq
          rw [List.getElem?_take] at hi
          split at hi
          · rename_i hik
            rw [toPairs_getElem?, hsrc i (by omega)] at hi
            cases hi
            exact ⟨i, hik, rfl⟩
          · cases hi
        rw [hq2, hdata, Ptr.add_add]
        intro h
        have := Ptr.add_cancel _ h
        omega
      · have hmem : (src.add ((k - d : Nat) : Int), a.data.add ((k - d : Nat) : Int)) ∈ (toPairs a.data ps).take k := by
          apply List.mem_of_getElem? (i := k - d)
          rw [List.getElem?_take, if_pos (by omega), toPairs_getElem?, hsrc (k - d) (by omega)]
          rfl
        have := c2 _ hmem (by
          simp only [hdata, Ptr.add_add]
          congr 1
          omega)
        simp only at this
        rw [this, ih (k - d) (by omega) (by omega), Nat.mod_eq_sub_mod (a := k) (by omega)]
  refine ⟨q', s', ?_, ?_, ?_, h4.sameStorage⟩
  · rw [e, copyTo_eq, Exec.bind_ok h1]; rfl
  · intro k hk1 hk2
    unfold St.get?
    rw [key k (by omega)]
  · intro q hq
    refine h3 q ?_
    intro hmem
    obtain ⟨x, hx, rfl⟩ := List.mem_map.mp hmem
    obtain ⟨i, _, hi, hx2⟩ := toPairs_mem hx
    have := (hget i _ hi).1
    exact hq i (by omega) (by omega) hx2

/-- Non-vacuity: `a.assign(a.data() + 2, a.data() + 7)` on the 2x3x4 example (storage 0..23), and an array over the elements from 1 on filled from the start of the block. -/
example : Reachable 3 exArr ∧ Live exSt exArr ∧
    (∃ s', exArr.assignX (ptrIt ⟨7, 7⟩) ⟨7, 2⟩ exSt = .ok ⟨7, 7⟩ s' ∧ s'.get? ⟨7, 0⟩ = some 2 ∧ s'.get? ⟨7, 4⟩ = some 6 ∧ s'.get? ⟨7, 5⟩ = some 5) ∧
    (∃ (b : ARef) (s' : St Nat), ARef.ofExtents 1 ⟨7, 2⟩ [5] (StorageOrder.cOrder 1) = .ok b ∧ b.assignX (ptrIt ⟨7, 10⟩) ⟨7, 0⟩ exSt = .ok ⟨7, 5⟩ s' ∧
      s'.get? ⟨7, 2⟩ = some 0 ∧ s'.get? ⟨7, 3⟩ = some 1 ∧ s'.get? ⟨7, 4⟩ = some 0 ∧ s'.get? ⟨7, 6⟩ = some 0 ∧ s'.get? ⟨7, 7⟩ = some 7) :=
  ⟨exArr_reachable, exSt_live, ⟨_, rfl, rfl, rfl, rfl⟩, ⟨_, _, rfl, rfl, rfl, rfl, rfl, rfl, rfl⟩⟩

/-- Non-vacuity: a row of the example as input of `assign`, and an input that throws after two values. -/
example : ∃ (d : Desc) (i j : It) (s' : St Nat), Handle exArr d ∧ d.extents = [4] ∧ d.begin = .ok i ∧ d.end = .ok j ∧
    exArr.assignX (counting (InputIt.ofArray true j)) (i, 0) exSt = .ok (j, 4) s' := by
  exact ⟨_, _, _, _, .sub (.sub .array (i := 0) rfl) (i := 6) rfl, rfl, rfl, rfl, rfl⟩

/-! ### Instances: the theorems applied to concrete cases, whose hypotheses are thereby met -/

example := C86_values exArr [1, 2, 3]
example := C86_never_reads_too_much exArr (listIt : InputIt Nat (List Nat)) [1, 2, 3] [] 3 exSt _ rfl
example := C86_input_throws exArr [1, 2, 3]
example := C86_sources (T := Nat).1 ⟨7, 2⟩ 5
example := C86_sources (T := Nat).2 (d := ⟨exArr.origin.add (12 * 0 + 5), [4], [-3], [0]⟩) exArr_reachable (.sub (i := 5) (.sub (i := 0) .array rfl) rfl) rfl true
example := C86_is_copy_loop exArr (ptrIt (Ptr.add ⟨7, 2⟩ 5) : InputIt Nat Ptr) ⟨7, 2⟩ _ (C86_sources.1 _ 5)
example := C86_forward exArr (ptrIt (Ptr.add ⟨7, 2⟩ 5)) ⟨7, 2⟩ _ (C86_sources.1 _ 5) exSt exSt_live rfl

/- end of instances -/

end MultiArray.Props
