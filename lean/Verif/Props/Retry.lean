import Verif.SpecRetry
import Verif.Props.Resize
import Verif.Props.Work

/-
Property theorems C107: operations that have thrown can be repeated.
-/
set_option autoImplicit false

namespace MultiArray.Props
open MultiArray MultiArray.Spec
variable {T : Type}

/-! ### The loop -/

theorem retry_ends {op : Exec T Unit} (I Q : St T → Prop)
    (hstep : ∀ s, I s → (∃ s', op s = .ok () s' ∧ Q s') ∨ ∃ s', op s = .throw s' ∧ I s' ∧ dueThrows s'.sched < dueThrows s.sched) :
    ∀ (m : Nat) (s : St T), I s → dueThrows s.sched ≤ m → ∃ s', retry op m s = .ok () s' ∧ Q s' := by
  intro m
  induction m with
  | zero =>
    intro s hs hm
    rcases hstep s hs with ⟨s', h1, h2⟩ | ⟨s', _, _, h⟩
    · exact ⟨s', h1, h2⟩
    · omega
  | succ m ih =>
    intro s hs hm
    rcases hstep s hs with ⟨s', h1, h2⟩ | ⟨s', h1, h2, h3⟩
    · exact ⟨s', by simp only [retry, h1], h2⟩
    · obtain ⟨s'', e1, e2⟩ := ih s' h2 (by omega)
      exact ⟨s'', by simp only [retry, h1]; exact e1, e2⟩

theorem retryMember_ends {op : Member T Unit} (a : MArr) (I : St T → Prop) (Q : MArr → St T → Prop)
    (hstep : ∀ s, I s → (∃ s' a', op a s = (.ok () s', a') ∧ Q a' s') ∨ ∃ s', op a s = (.throw s', a) ∧ I s' ∧ dueThrows s'.sched < dueThrows s.sched) :
    ∀ (m : Nat) (s : St T), I s → dueThrows s.sched ≤ m → ∃ s' a', retryMember op m a s = (.ok () s', a') ∧ Q a' s' := by
  intro m
  induction m with
  | zero =>
    intro s hs hm
    rcases hstep s hs with ⟨s', a', h1, h2⟩ | ⟨s', _, _, h⟩
    · exact ⟨s', a', h1, h2⟩
    · omega
  | succ m ih =>
    intro s hs hm
    rcases hstep s hs with ⟨s', a', h1, h2⟩ | ⟨s', h1, h2, h3⟩
    · exact ⟨s', a', by simp only [retryMember, h1], h2⟩
    · obtain ⟨s'', a', e1, e2⟩ := ih s' h2 (by omega)
      exact ⟨s'', a', by simp only [retryMember, h1]; exact e1, e2⟩

theorem sched_split (n : Nat) (l : List (Option T)) :
    NoThrow n l ∨ ∃ m junk rest, m < n ∧ l = List.replicate m none ++ some junk :: rest := by
  induction n generalizing l with
  | zero => exact .inl (by simp [NoThrow])
  | succ n ih =>
    cases l with
    | nil => exact .inl (NoThrow.nil _)
    | cons f fs =>
      cases f with
      | some junk => exact .inr ⟨0, junk, fs, by omega, rfl⟩
      | none =>
        rcases ih fs with h | ⟨m, junk, rest, h1, h2⟩
        · refine .inl ?_
          intro x hx
          simp only [List.take_succ_cons, List.mem_cons] at hx
          rcases hx with rfl | hx
          · rfl
          · exact h x hx
        · exact .inr ⟨m + 1, junk, rest, by omega, by rw [h2, List.replicate_succ]; rfl⟩

theorem dueThrows_split (m : Nat) (junk : T) (rest : List (Option T)) :
    dueThrows rest < dueThrows (List.replicate m none ++ some junk :: rest) := by
  simp [dueThrows, List.countP_append, List.countP_replicate]

theorem dueThrows_drop {l : List (Option T)} {j : Nat} {junk : T} (h : l[j]? = some (some junk)) : dueThrows (l.drop (j + 1)) < dueThrows l := by
  induction l generalizing j with
  | nil => simp at h
  | cons f fs ih =>
    cases j with
    | zero =>
      simp only [List.getElem?_cons_zero, Option.some_inj] at h
      subst h
      simp [dueThrows]
    | succ j =>
      have := ih (j := j) (by simpa using h)
      simp only [dueThrows, List.drop_succ_cons, List.countP_cons] at this ⊢
      omega

/-! ### Assignment and copy_array -/

theorem live_of_cells {n1 : Nat} {r1 r : ARef} (h1 : Reachable n1 r1) {dst : Desc} (hd : Handle r1 dst) {s s' : St T}
    (hout : ∀ p, Outside dst p → s'.cell? p = s.cell? p) (hin : ∀ k, InShape dst.extents k → ∃ v, elemAt s' dst k = some v) (hl : Live s r) : Live s' r := by
  classical
  have hw := handle_wellShaped h1 hd
  intro k hk
  by_cases ho : Outside dst (r.data.add (k : Int))
  · obtain ⟨v, hv⟩ := hl k hk
    refine ⟨v, ?_⟩
    unfold St.get? at hv ⊢
    rw [hout _ ho]; exact hv
  · simp only [Outside, not_forall, ne_eq, not_not] at ho
    obtain ⟨idx, hidx, he⟩ := ho
    obtain ⟨j, hj, rfl⟩ := (inBox_iff_atPos hw.2).mp hidx
    obtain ⟨v, hv⟩ := hin j hj
    exact ⟨v, by rw [he]; exact hv⟩

theorem src_same {n2 : Nat} {r2 : ARef} (h2 : Reachable n2 r2) {dst src : Desc} (hs : Handle r2 src) (he : src.extents = dst.extents)
    (hno : NoOverlap dst src) {s s' : St T} (hout : ∀ p, Outside dst p → s'.cell? p = s.cell? p) (k : List Nat) (hk : InShape dst.extents k) :
    elemAt s' src k = elemAt s src k := by
  have hw := handle_wellShaped h2 hs
  unfold elemAt St.get?
  rw [hout]
  intro idx hidx heq
  exact hno idx _ hidx (inBox_atPos hw.2 (by rw [he]; exact hk)) heq.symm

/-- **C107.** An assignment between arrays, subarrays or views of equal shape (not sharing elements) that has thrown can simply be repeated: if every exception is caught and the
assignment is tried again, it succeeds after at most as many failures as exceptions are due, and the result is that of an assignment that was never
interrupted: every element of the target has the value of the source (which is unchanged), and no other memory has changed. -/
theorem C107_retry_assignment {n1 n2 : Nat} {r1 r2 : ARef} (h1 : Reachable n1 r1) (h2 : Reachable n2 r2)
    {dst src : Desc} (hd : Handle r1 dst) (hs : Handle r2 src) (he : src.extents = dst.extents) (s : St T)
    (l1 : Live s r1) (l2 : Live s r2) (hno : NoOverlap dst src) (dbg : Bool) (m : Nat) (hm : dueThrows s.sched ≤ m) :
    ∃ s', retry (assignOp dbg false dst src) m s = .ok () s' ∧
      (∀ k, InShape dst.extents k → elemAt s' dst k = elemAt s src k ∧ elemAt s' src k = elemAt s src k) ∧
      (∀ p, Outside dst p → s'.cell? p = s.cell? p) ∧ SameStorage s s' := by
  refine retry_ends
    (I := fun t => Live t r1 ∧ Live t r2 ∧ (∀ p, Outside dst p → t.cell? p = s.cell? p) ∧ SameBlocks s t)
    (Q := fun s' => (∀ k, InShape dst.extents k → elemAt s' dst k = elemAt s src k ∧ elemAt s' src k = elemAt s src k) ∧
      (∀ p, Outside dst p → s'.cell? p = s.cell? p) ∧ SameStorage s s') ?_ m s ⟨l1, l2, fun _ _ => rfl, SameBlocks.refl s⟩ hm
  rintro t ⟨t1, t2, t3, t4⟩
  have hc := copySetup h1 h2 hd hs he t1 t2
  have hop : assignOp dbg false dst src t = copySeq (copyPairs src dst) t := by
    unfold assignOp
    rw [assignRef_eq dbg dst src hc.wd hc.ws he]
    rfl
  rcases sched_split dst.extents.prod t.sched with hnt | ⟨j, junk, rest, hj, hsched⟩
  · obtain ⟨s', e1, e2, e3, e4, _⟩ := copy_ok hc hno hnt
    have hout : ∀ p, Outside dst p → s'.cell? p = s.cell? p := fun p hp => (e3 p hp).trans (t3 p hp)
    refine .inl ⟨s', by rw [hop]; exact e1, fun k hk => ⟨?_, src_same h2 hs he hno hout k hk⟩, hout, (t4.trans e4).sameStorage⟩
    rw [e2 k hk, src_same h2 hs he hno t3 k hk]
  · obtain ⟨s', e1, e2, e3, e4, e5⟩ := copy_throw hc hno j hj junk rest hsched
    have hin : ∀ k, InShape dst.extents k → ∃ v, elemAt s' dst k = some v := by
      intro k hk
      rw [e2 k hk]
      split
      · exact hc.ls _ (inBox_atPos hc.ws.2 (by rw [he]; exact hk))
      · split
        · exact ⟨junk, rfl⟩
        · exact hc.ld _ (inBox_atPos hc.wd.2 hk)
    refine .inr ⟨s', by rw [hop]; exact e1, ⟨live_of_cells h1 hd e3 hin t1, live_of_cells h1 hd e3 hin t2,
      fun p hp => (e3 p hp).trans (t3 p hp), t4.trans e4⟩, ?_⟩
    rw [e5, hsched]
    exact dueThrows_split _ _ _

/-- **C107.** The same for `copy_array`. -/
theorem C107_retry_copy_array {n1 n2 : Nat} {r1 r2 : ARef} (h1 : Reachable n1 r1) (h2 : Reachable n2 r2)
    {dst src : Desc} (hd : Handle r1 dst) (hs : Handle r2 src) (he : src.extents = dst.extents) (s : St T)
    (l1 : Live s r1) (l2 : Live s r2) (hno : NoOverlap dst src) (dbg : Bool) (m : Nat) (hm : dueThrows s.sched ≤ m) :
    ∃ s', retry (copyArray dbg src dst) m s = .ok () s' ∧
      (∀ k, InShape dst.extents k → elemAt s' dst k = elemAt s src k ∧ elemAt s' src k = elemAt s src k) ∧
      (∀ p, Outside dst p → s'.cell? p = s.cell? p) ∧ SameStorage s s' := by
  have : (copyArray dbg src dst : Exec T Unit) = assignOp dbg false dst src :=
    funext fun t => C36_copy_array_eq_assignment h1 h2 hd hs he dbg t
  rw [this]
  exact C107_retry_assignment h1 h2 hd hs he s l1 l2 hno dbg m hm

/-! ### assign(first,last) -/

theorem assignLoop_step (n : Nat) (p : Ptr) (input : List T) (s : St T) (hl : ∀ k : Nat, k < n → ∃ v, s.get? (p.add (k : Int)) = some v) :
    (∃ s', assignLoop n p input s = .ok () s' ∧ (∀ k : Nat, k < n → k < input.length → s'.get? (p.add (k : Int)) = input[k]?) ∧
      (∀ q, (∀ k : Nat, k < n → k < input.length → q ≠ p.add (k : Int)) → s'.cell? q = s.cell? q) ∧ SameBlocks s s') ∨
    (∃ s', assignLoop n p input s = .throw s' ∧ (∀ k : Nat, k < n → ∃ v, s'.get? (p.add (k : Int)) = some v) ∧
      (∀ q, (∀ k : Nat, k < n → k < input.length → q ≠ p.add (k : Int)) → s'.cell? q = s.cell? q) ∧ SameBlocks s s' ∧
      dueThrows s'.sched < dueThrows s.sched) := by
  induction n generalizing p input s with
  | zero => exact .inl ⟨s, rfl, fun k hk => absurd hk (by omega), fun _ _ => rfl, SameBlocks.refl s⟩
  | succ n ih =>
    cases input with
    | nil => exact .inl ⟨s, rfl, fun k _ hk => absurd hk (by simp), fun _ _ => rfl, SameBlocks.refl s⟩
    | cons v vs =>
      obtain ⟨old, ho⟩ := hl 0 (by omega)
      simp only [Nat.cast_zero, Ptr.add_zero] at ho
      have hne : ∀ k : Nat, (p.add 1).add (k : Int) ≠ p := by
        intro k; rw [Ptr.add_add]; intro he
        have he' : p.add (1 + (k : Int)) = p.add 0 := by rw [he, Ptr.add_zero]
        rw [Ptr.add_inj] at he'; omega
      have hsh : ∀ k : Nat, (p.add 1).add (k : Int) = p.add ((k + 1 : Nat) : Int) := by
        intro k; rw [Ptr.add_add]; congr 1; push_cast; ring
      rcases sched_cases s with hs | ⟨junk, fs, hs⟩
      · obtain ⟨s1, e1, e2, e3, e4⟩ := assignCell_ok ho v hs
        have hl1 : ∀ k : Nat, k < n → ∃ v, s1.get? ((p.add 1).add (k : Int)) = some v := by
          intro k hk
          obtain ⟨x, hx⟩ := hl (k + 1) (by omega)
          refine ⟨x, ?_⟩
          rw [St.get?_eq_some, e2, if_neg (hne k), hsh]
          exact St.get?_eq_some.mp hx
        have hdue : dueThrows s1.sched ≤ dueThrows s.sched := by
          rw [e4]; unfold dueThrows
          exact (List.tail_sublist _).countP_le
        have hstep : assignLoop (n + 1) p (v :: vs) s = assignLoop n (p.add 1) vs s1 := by
          show (Exec.bind (assignCell p v) fun _ => assignLoop n (p.add 1) vs) s = _
          unfold Exec.bind
          rw [e1]
        rw [hstep]
        have hq : ∀ q, (∀ k : Nat, k < n + 1 → k < (v :: vs).length → q ≠ p.add (k : Int)) →
            s1.cell? q = s.cell? q ∧ ∀ k : Nat, k < n → k < vs.length → q ≠ (p.add 1).add (k : Int) := by
          intro q hq
          refine ⟨?_, fun k h1 h2 => by rw [hsh]; exact hq (k + 1) (by omega) (by simpa using h2)⟩
          rw [e2, if_neg]
          have := hq 0 (by omega) (by simp)
          simpa using this
        rcases ih (p.add 1) vs s1 hl1 with ⟨s', f1, f2, f3, f4⟩ | ⟨s', f1, f2, f3, f4, f5⟩
        · refine .inl ⟨s', f1, ?_, fun q hq' => (f3 q (hq q hq').2).trans (hq q hq').1, e3.trans f4⟩
          intro k hk1 hk2
          cases k with
          | zero =>
            rw [Nat.cast_zero, Ptr.add_zero, List.getElem?_cons_zero, St.get?_eq_some, f3 p (fun k _ _ => (hne k).symm), e2, if_pos rfl]
          | succ k =>
            rw [← hsh, f2 k (by omega) (by simpa using hk2)]
            rfl
        · refine .inr ⟨s', f1, ?_, fun q hq' => (f3 q (hq q hq').2).trans (hq q hq').1, e3.trans f4, by omega⟩
          intro k hk
          cases k with
          | zero =>
            refine ⟨v, ?_⟩
            rw [Nat.cast_zero, Ptr.add_zero, St.get?_eq_some, f3 p (fun k _ _ => (hne k).symm), e2, if_pos rfl]
          | succ k =>
            rw [← hsh]
            exact f2 k (by omega)
      · obtain ⟨s1, e1, e2, e3, e4⟩ := assignCell_throw ho v junk hs
        refine .inr ⟨s1, ?_, ?_, ?_, e3, ?_⟩
        · show (Exec.bind (assignCell p v) fun _ => assignLoop n (p.add 1) vs) s = _
          unfold Exec.bind
          rw [e1]
        · intro k hk
          by_cases hk0 : p.add (k : Int) = p
          · exact ⟨junk, by rw [St.get?_eq_some, e2, if_pos hk0]⟩
          · obtain ⟨x, hx⟩ := hl k hk
            exact ⟨x, by rw [St.get?_eq_some, e2, if_neg hk0]; exact St.get?_eq_some.mp hx⟩
        · intro q hq
          rw [e2, if_neg]
          have := hq 0 (by omega) (by simp)
          simpa using this
        · rw [e4, hs]
          simp [dueThrows]

/-- **C107.** `assign(first,last)` can be repeated in the same way: in the end the storage holds the values an undisturbed call stores, and nothing else has changed. -/
theorem C107_retry_assign {n : Nat} {a : ARef} (_ha : Reachable n a) (input : List T) (s : St T) (hl : Live s a) (m : Nat) (hm : dueThrows s.sched ≤ m) :
    ∃ s', retry (a.assign input) m s = .ok () s' ∧
      (∀ k : Nat, k < min input.length a.numElements → s'.get? (a.data.add (k : Int)) = input[k]?) ∧
      (∀ q, (∀ k : Nat, k < min input.length a.numElements → q ≠ a.data.add (k : Int)) → s'.cell? q = s.cell? q) ∧ SameStorage s s' := by
  refine retry_ends
    (I := fun t => Live t a ∧ (∀ q, (∀ k : Nat, k < min input.length a.numElements → q ≠ a.data.add (k : Int)) → t.cell? q = s.cell? q) ∧ SameBlocks s t)
    (Q := fun s' => (∀ k : Nat, k < min input.length a.numElements → s'.get? (a.data.add (k : Int)) = input[k]?) ∧
      (∀ q, (∀ k : Nat, k < min input.length a.numElements → q ≠ a.data.add (k : Int)) → s'.cell? q = s.cell? q) ∧ SameStorage s s')
    ?_ m s ⟨hl, fun _ _ => rfl, SameBlocks.refl s⟩ hm
  rintro t ⟨t1, t2, t3⟩
  rcases assignLoop_step a.numElems a.base input t t1 with ⟨s', e1, e2, e3, e4⟩ | ⟨s', e1, e2, e3, e4, e5⟩
  · refine .inl ⟨s', e1, fun k hk => e2 k (lt_of_lt_of_le hk (min_le_right _ _)) (lt_of_lt_of_le hk (min_le_left _ _)), fun q hq => ?_, (t3.trans e4).sameStorage⟩
    exact (e3 q (fun k h1 h2 => hq k (lt_min h2 h1))).trans (t2 q hq)
  · refine .inr ⟨s', e1, ⟨e2, fun q hq => ?_, t3.trans e4⟩, e5⟩
    exact (e3 q (fun k h1 h2 => hq k (lt_min h2 h1))).trans (t2 q hq)

/-! ### resize -/

/-- **C107.** `resize` can be repeated: in the end the array has the requested shape and the contents an undisturbed `resize` gives. -/
theorem C107_retry_resize (dbg : Bool) (dflt : T) {n : Nat} {s : St T} {a : MArr} {vs : List T} (ha : OwnsVals s n a vs)
    (hs : SaneHeap s) (hra : Representable a.ref.bases a.ref.extents) {rs : List ExtentRange} (hl : rs.length = n)
    (hleg : LegalExtents rs) (m : Nat) (hm : dueThrows s.sched ≤ m) :
    ∃ s' a', retryMember (MArr.resize dbg dflt ⟨n, rs⟩) m a s = (.ok () s', a') ∧
      a'.ref.bases = reqBases rs ∧ a'.ref.extents = reqExtents rs ∧ a'.ref.storage = a.ref.storage ∧ a'.alloc = a.alloc ∧ (∃ ws, OwnsVals s' n a' ws) ∧
      ∀ k, InShape (reqExtents rs) k → elemAt s' a'.ref.desc k = if InShape a.ref.extents k then elemAt s a.ref.desc k else some dflt := by
  refine retryMember_ends a
    (I := fun t => OwnsVals t n a vs ∧ SaneHeap t ∧ ∀ k, elemAt t a.ref.desc k = elemAt s a.ref.desc k)
    (Q := fun a' s' => a'.ref.bases = reqBases rs ∧ a'.ref.extents = reqExtents rs ∧ a'.ref.storage = a.ref.storage ∧ a'.alloc = a.alloc ∧ (∃ ws, OwnsVals s' n a' ws) ∧
      ∀ k, InShape (reqExtents rs) k → elemAt s' a'.ref.desc k = if InShape a.ref.extents k then elemAt s a.ref.desc k else some dflt)
    ?_ m s ⟨ha, hs, fun _ => rfl⟩ hm
  rintro t ⟨t1, t2, t3⟩
  have hperf := (C81_resize dbg dflt ⟨vs, t1⟩ t2 hra hl hleg).1
  obtain ⟨a', s', h1, h2, h3, h4, h5, h6, _, h8⟩ := resize_any dbg dflt t1 t2 hra hl hleg
  rcases h6 with ⟨h6, _, _, _, hown⟩ | ⟨h6, _, h7, h9, _⟩
  · rw [h6] at hperf
    have hno : NoThrow (resizeOps a'.ref.extents a.ref.extents) t.sched := by
      rcases sched_split (resizeOps a'.ref.extents a.ref.extents) t.sched with h | ⟨j, junk, rest, hj, hsch⟩
      · exact h
      · refine absurd ⟨junk, ?_⟩ (hperf.1 j (by rw [h5] at hj; exact hj))
        rw [hsch, List.getElem?_append_right (by simp)]
        simp
    obtain ⟨_, h10⟩ := h8 hno
    refine .inl ⟨s', a', h6, h4, h5, h2, h3, hown, fun k hk => ?_⟩
    rw [h10 k (by rw [h5]; exact hk), t3]
  · rw [h6] at hperf
    obtain ⟨j, _, _, ⟨junk, hj⟩, hd⟩ := hperf
    have hne : a.ref.data.blk ≠ t.next := by have := t1.blk_lt t2; omega
    refine .inr ⟨s', h6, ⟨t1.mono (h7 _ hne), h9, fun k => (elemAt_congr (h7 _ hne) k).trans (t3 k)⟩, ?_⟩
    rw [hd]
    exact dueThrows_drop hj

/-! ### What cannot be repeated -/

/-- **C107.** `for_each` cannot in general be repeated after an exception: with contents 10,20,30, `for_each(a, x -> x+1)` whose second element assignment throws, repeated,
increments the first element twice. -/
theorem C107_for_each_is_not_repeatable :
    ∃ s', retry (forEach true (· + 1) 1 ovArr.desc) 1 { ovSt with sched := [none, some 20] } = .ok () s' ∧
      (List.range 3).map (fun k => elemAt s' ovArr.desc [k]) = [some 12, some 21, some 31] := ⟨_, rfl, rfl⟩

/-! ### Instances -/

/-- Two exceptions are due: the assignment succeeds at the third attempt. -/
example := C107_retry_assignment exArr2_reachable exArr_reachable .array .array rfl
  { exSt2 with sched := [none, some 5, none, none, some 6] } exSt2_live2 exSt2_live ex_noOverlap true 2 (by decide)
example := C107_retry_copy_array exArr2_reachable exArr_reachable .array .array rfl
  { exSt2 with sched := [none, some 5, none, none, some 6] } exSt2_live2 exSt2_live ex_noOverlap true 2 (by decide)
example : ∃ s', retry (ovArr.assign [5, 6, 7]) 2 { ovSt with sched := [none, some 99, some 98] } = .ok () s' ∧
    (List.range 3).map (fun k => elemAt s' ovArr.desc [k]) = [some 5, some 6, some 7] := ⟨_, rfl, rfl⟩
example := C107_retry_assign exArr_reachable [1, 2, 3] { exSt with sched := [none, some 7] } exSt_live 1 (by decide)
/-- `exM` resized while three exceptions are due. -/
example := C107_retry_resize true 0 (s := { exSt with sched := [some 0, none, some 0, none, none, none, some 0] }) (rs := [⟨-1, 2⟩, ⟨0, 2⟩, ⟨5, 10⟩])
  ⟨exM_owns.reach, exM_owns.start, exM_owns.notNull, exM_owns.own, exM_owns.count, exM_owns.block, exM_owns.len⟩ exSt_sane (by decide) rfl (by decide) 3 (by decide)

end MultiArray.Props
