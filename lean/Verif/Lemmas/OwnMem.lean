import Verif.Lemmas.HandleMem

/- Allocation, construction, destruction of whole blocks. -/
set_option autoImplicit false

namespace MultiArray
open Spec
variable {T α β : Type}

/-- A block is determined by its cells and its length. -/
theorem heap_ext {s s' : St T} {b : Nat} (hc : ∀ off, s'.cell? ⟨b, off⟩ = s.cell? ⟨b, off⟩) (hl : s'.len b = s.len b) :
    s'.heap b = s.heap b := by
  unfold St.len at hl
  unfold St.cell? at hc
  simp only at hc
  cases h1 : s.heap b with
  | none => rw [h1] at hl; simpa using hl
  | some l1 =>
    cases h2 : s'.heap b with
    | none => rw [h1, h2] at hl; simp at hl
    | some l2 =>
      rw [h1, h2] at hl
      simp only [h1, h2] at hc
      obtain ⟨p1, c1⟩ := l1
      obtain ⟨p2, c2⟩ := l2
      simp only [Option.map_some, Option.some.injEq, Prod.mk.injEq] at hl
      have : c2 = c1 := by
        apply List.ext_getElem?
        intro i
        have := hc (i : Int)
        simpa using this
      rw [this, hl.1]

theorem heap_of_cells {s : St T} {b al n : Nat} {c : Cell T} (hl : s.len b = some (al, n))
    (hc : ∀ k : Nat, k < n → s.cell? ⟨b, (k : Int)⟩ = some c) : s.heap b = some ⟨al, List.replicate n c⟩ := by
  unfold St.len at hl
  unfold St.cell? at hc
  cases h1 : s.heap b with
  | none => rw [h1] at hl; simp at hl
  | some l =>
    rw [h1] at hl
    simp only [h1] at hc
    obtain ⟨p1, l⟩ := l
    simp only [Option.map_some, Option.some.injEq, Prod.mk.injEq] at hl
    obtain ⟨rfl, hl'⟩ := hl
    congr 2
    apply List.ext_getElem?
    intro i
    by_cases hi : i < n
    · rw [List.getElem?_replicate, if_pos hi]
      simpa using hc i hi
    · rw [List.getElem?_eq_none (by omega), List.getElem?_eq_none (by simp; omega)]

theorem cell?_of_heap {s : St T} {b : Nat} {al : Nat} {cells : List (Cell T)} (h : s.heap b = some ⟨al, cells⟩) (k : Nat) :
    s.cell? ⟨b, (k : Int)⟩ = cells[k]? := by
  simp [St.cell?, h]

theorem cell?_neg {s : St T} {b : Nat} {off : Int} (h : off < 0) : s.cell? ⟨b, off⟩ = none := by
  unfold St.cell?
  simp only
  cases s.heap b with
  | none => rfl
  | some l => simp only; rw [if_neg (by omega)]

/-- Cells of one block outside its bounds are absent. -/
theorem cell?_len {s : St T} {b al n : Nat} (hl : s.len b = some (al, n)) (off : Int) (h : (n : Int) ≤ off) : s.cell? ⟨b, off⟩ = none := by
  unfold St.len at hl
  unfold St.cell?
  simp only
  cases h1 : s.heap b with
  | none => rfl
  | some l =>
    rw [h1] at hl
    simp only [Option.map_some, Option.some.injEq, Prod.mk.injEq] at hl
    have hl' := hl.2
    simp only
    rw [if_pos (by omega), List.getElem?_eq_none (by omega)]

/-! ### Allocation -/

theorem allocate_ok (al n : Nat) (s : St T) (h : s.sched = [] ∨ ∃ fs, s.sched = none :: fs) :
    allocate al n s = .ok ⟨s.next, 0⟩
      { heap := fun b => if b = s.next then some ⟨al, List.replicate n .raw⟩ else s.heap b,
        next := s.next + 1, sched := s.sched.tail } := by
  unfold allocate
  rcases h with h | ⟨fs, h⟩ <;> rw [h]

theorem allocate_throw (al n : Nat) (s : St T) (junk : T) (fs : List (Option T)) (h : s.sched = some junk :: fs) :
    allocate al n s = .throw { s with sched := fs } := by
  unfold allocate; rw [h]

theorem sched_cases (s : St T) : (s.sched = [] ∨ ∃ fs, s.sched = none :: fs) ∨ ∃ junk fs, s.sched = some junk :: fs := by
  cases h : s.sched with
  | nil => exact .inl (.inl rfl)
  | cons f fs => cases f with
    | none => exact .inl (.inr ⟨fs, rfl⟩)
    | some j => exact .inr ⟨j, fs, rfl⟩

/-! ### Destruction -/

theorem destroyCell_ok {s : St T} {p : Ptr} {v : T} (h : s.get? p = some v) :
    ∃ s', destroyCell p s = .ok () s' ∧ (∀ q, s'.cell? q = if q = p then some .raw else s.cell? q) ∧
      SameBlocks s s' ∧ s'.sched = s.sched :=
  ⟨s.setCell p .raw, by simp only [destroyCell, h], St.cell?_setCell (St.get?_eq_some.mp h) _,
    ⟨St.len_setCell _ _ _, St.next_setCell _ _ _⟩, St.sched_setCell _ _ _⟩

/-- Destroying the first `n` objects of a block. -/
theorem destroyN_ok (b n : Nat) (s : St T) (h : ∀ k : Nat, k < n → ∃ v, s.get? ⟨b, (k : Int)⟩ = some v) :
    ∃ s', destroyN ⟨b, 0⟩ n s = .ok () s' ∧ (∀ k : Nat, k < n → s'.cell? ⟨b, (k : Int)⟩ = some .raw) ∧
      (∀ q : Ptr, ¬ (q.blk = b ∧ 0 ≤ q.off ∧ q.off < (n : Int)) → s'.cell? q = s.cell? q) ∧
      SameBlocks s s' ∧ s'.sched = s.sched := by
  induction n generalizing s with
  | zero => exact ⟨s, rfl, by omega, fun _ _ => rfl, .refl s, rfl⟩
  | succ n ih =>
    obtain ⟨v, hv⟩ := h n (by omega)
    have hp : (⟨b, 0⟩ : Ptr).add ((n : Nat) : Int) = ⟨b, (n : Int)⟩ := by simp [Ptr.add]
    obtain ⟨s1, h1, h2, h3, h4⟩ := destroyCell_ok hv
    obtain ⟨s', e1, e2, e3, e4, e5⟩ := ih s1 (fun k hk => by
      obtain ⟨w, hw⟩ := h k (by omega)
      refine ⟨w, ?_⟩
      rw [St.get?_eq_some, h2, if_neg (by simp; omega)]
      exact St.get?_eq_some.mp hw)
    refine ⟨s', ?_, ?_, ?_, h3.trans e4, e5.trans h4⟩
    · simp only [destroyN, hp]
      rw [Exec.bind_ok h1, e1]
    · intro k hk
      by_cases hkn : k < n
      · exact e2 k hkn
      · have : k = n := by omega
        subst this
        rw [e3 _ (by simp), h2, if_pos rfl]
    · intro q hq
      rw [e3 q (by rintro ⟨a1, a2, a3⟩; exact hq ⟨a1, a2, by omega⟩), h2, if_neg]
      rintro rfl
      exact hq ⟨rfl, by simp, by simp⟩

theorem deallocate_ok {s : St T} {b al n : Nat} (h : s.heap b = some ⟨al, List.replicate n .raw⟩) :
    deallocate al ⟨b, 0⟩ n s = .ok () { s with heap := fun c => if c = b then none else s.heap c } := by
  unfold deallocate
  simp only [h]
  rw [if_pos ⟨trivial, trivial, by simp, by simp [Cell.isRaw]⟩]

/-- Destroying and deallocating a block full of live objects removes exactly that block. -/
theorem release_ok (b al n : Nat) (s : St T) (hl : s.len b = some (al, n))
    (h : ∀ k : Nat, k < n → ∃ v, s.get? ⟨b, (k : Int)⟩ = some v) :
    ∃ s', (do destroyN ⟨b, 0⟩ n; deallocate al ⟨b, 0⟩ n : Exec T Unit) s = .ok () s' ∧ s'.heap b = none ∧
      (∀ c, c ≠ b → s'.heap c = s.heap c) ∧ s'.next = s.next ∧ s'.sched = s.sched := by
  obtain ⟨s1, e1, e2, e3, e4, e5⟩ := destroyN_ok b n s h
  have hl1 := heap_of_cells (by rw [e4.len, hl]) e2
  refine ⟨{ s1 with heap := fun c => if c = b then none else s1.heap c },
    by rw [Exec.bind_ok e1]; exact deallocate_ok hl1, by simp, ?_, e4.next, e5⟩
  intro c hc
  simp only [hc, if_false]
  apply heap_ext _ (e4.len c)
  intro off
  exact e3 _ (by simp [hc])

/-! ### Construction -/

theorem constructCell_ok {s : St T} {p : Ptr} (dflt : T) (h : s.cell? p = some .raw)
    (hs : s.sched = [] ∨ ∃ fs, s.sched = none :: fs) :
    ∃ s', constructCell dflt p s = .ok () s' ∧ (∀ q, s'.cell? q = if q = p then some (.obj dflt) else s.cell? q) ∧
      SameBlocks s s' ∧ s'.sched = s.sched.tail := by
  rcases hs with hs | ⟨fs, hs⟩
  · refine ⟨s.setCell p (.obj dflt), by simp only [constructCell, h, hs], St.cell?_setCell h _,
      ⟨St.len_setCell _ _ _, St.next_setCell _ _ _⟩, ?_⟩
    rw [St.sched_setCell, hs]; rfl
  · refine ⟨({ s with sched := fs } : St T).setCell p (.obj dflt), by simp only [constructCell, h, hs], ?_,
      sameBlocks_setCell _ _ _ _, ?_⟩
    · intro q
      rw [St.cell?_setCell (s := { s with sched := fs }) (by rw [St.cell?_withSched]; exact h)]
      rfl
    · rw [St.sched_setCell, hs]; rfl

theorem constructCell_throw {s : St T} {p : Ptr} (dflt : T) (h : s.cell? p = some .raw) {junk : T}
    {fs : List (Option T)} (hs : s.sched = some junk :: fs) :
    constructCell dflt p s = .throw { s with sched := fs } := by
  simp only [constructCell, h, hs]

theorem Exec.onThrow_ok {x : Exec T α} {c : Exec T Unit} {s s' : St T} {a : α} (h : x s = .ok a s') :
    Exec.onThrow x c s = .ok a s' := by
  unfold Exec.onThrow; rw [h]

theorem Exec.onThrow_throw {x : Exec T α} {c : Exec T Unit} {s s' s'' : St T} (h : x s = .throw s') (hc : c s' = .ok () s'') :
    Exec.onThrow x c s = .throw s'' := by
  unfold Exec.onThrow; rw [h]; simp only; rw [hc]

/-- Construction of `n` more objects after the first `i`: either all are constructed, or an exception leaves the
whole block raw. -/
theorem constructFrom_any (dflt : T) (b al n i : Nat) (s : St T) (hl : s.len b = some (al, i + n))
    (hobj : ∀ k : Nat, k < i → s.cell? ⟨b, (k : Int)⟩ = some (.obj dflt))
    (hraw : ∀ k : Nat, i ≤ k → k < i + n → s.cell? ⟨b, (k : Int)⟩ = some .raw) :
    ∃ s', (constructFrom dflt ⟨b, 0⟩ n i s = .ok () s' ∧ s'.heap b = some ⟨al, List.replicate (i + n) (.obj dflt)⟩ ∨
        (constructFrom dflt ⟨b, 0⟩ n i s = .throw s' ∧ ¬ NoThrow n s.sched) ∧ s'.heap b = some ⟨al, List.replicate (i + n) .raw⟩) ∧
      (∀ c, c ≠ b → s'.heap c = s.heap c) ∧ s'.next = s.next ∧ (NoThrow n s.sched → s'.sched = s.sched.drop n) ∧
      (∃ m, s'.sched = s.sched.drop m) := by
  induction n generalizing i s with
  | zero =>
    refine ⟨s, .inl ⟨rfl, heap_of_cells hl (fun k hk => hobj k (by omega))⟩, fun _ _ => rfl, rfl, fun _ => by simp, 0, by simp⟩
  | succ n ih =>
    have hp : (⟨b, 0⟩ : Ptr).add ((i : Nat) : Int) = ⟨b, (i : Int)⟩ := by simp [Ptr.add]
    have hri := hraw i (by omega) (by omega)
    rcases sched_cases s with hs | ⟨junk, fs, hs⟩
    · obtain ⟨s1, h1, h2, h3, h4⟩ := constructCell_ok dflt hri hs
      have hcell : ∀ off, off ≠ (i : Int) → s1.cell? ⟨b, off⟩ = s.cell? ⟨b, off⟩ := by
        intro off ho
        rw [h2, if_neg (by simpa using ho)]
      obtain ⟨s', e1, e2, e3, e4, m, e5⟩ := ih (i + 1) s1 (by rw [h3.len, hl]; congr 2; omega)
        (fun k hk => by
          by_cases hki : k = i
          · subst hki; rw [h2, if_pos rfl]
          · rw [hcell _ (by omega)]; exact hobj k (by omega))
        (fun k h5 h6 => by rw [hcell _ (by omega)]; exact hraw k (by omega) (by omega))
      have hrun : constructFrom dflt ⟨b, 0⟩ (n + 1) i s = constructFrom dflt ⟨b, 0⟩ n (i + 1) s1 := by
        simp only [constructFrom, hp]
        rw [Exec.bind_ok (Exec.onThrow_ok h1)]
      have hnt : ¬ NoThrow n s1.sched → ¬ NoThrow (n + 1) s.sched := by
        intro h hc; exact h (by rw [h4]; exact (noThrow_succ hc).2)
      rw [hrun]
      have hadd : i + 1 + n = i + (n + 1) := by omega
      rw [hadd] at e1
      refine ⟨s', ?_, ?_, e3.trans h3.next, ?_, m + 1, by rw [e5, h4]; simp⟩
      · rcases e1 with e1 | ⟨⟨e1, e1'⟩, e1''⟩
        · exact .inl e1
        · exact .inr ⟨⟨e1, hnt e1'⟩, e1''⟩
      · intro c hc
        rw [e2 c hc]
        apply heap_ext _ (h3.len c)
        intro off
        rw [h2, if_neg (by simp [hc])]
      · intro h
        rw [e4 (by rw [h4]; exact (noThrow_succ h).2), h4]; simp
    · have hthrow := constructCell_throw dflt hri hs
      obtain ⟨s1, e1, e2, e3, e4, e5⟩ := destroyN_ok b i { s with sched := fs } (fun k hk => ⟨dflt, by
        rw [St.get?_eq_some, St.cell?_withSched]; exact hobj k hk⟩)
      refine ⟨s1, .inr ⟨⟨?_, ?_⟩, ?_⟩, ?_, e4.next, ?_, 1, ?_⟩
      · simp only [constructFrom, hp]
        rw [Exec.bind_throw (Exec.onThrow_throw hthrow e1)]
      · intro h
        have := h (some junk) (by rw [hs]; simp)
        cases this
      · apply heap_of_cells (by rw [e4.len]; exact hl)
        intro k hk
        by_cases hki : k < i
        · exact e2 k hki
        · rw [e3 _ (by simp; omega)]
          exact hraw k (by omega) (by omega)
      · intro c hc
        apply heap_ext _ (e4.len c)
        intro off
        rw [e3 _ (by simp [hc])]
      · intro h
        have := h (some junk) (by rw [hs]; simp)
        cases this
      · rw [e5, hs]; rfl

/-! ### allocate_space -/

/-- The state after a successful `allocate_space`: one fresh block of value-initialised objects. -/
theorem allocateSpace_any (dflt : T) (ref : ARef) (al : Nat) (s : St T) :
    ∃ s', ((MArr.allocateSpace dflt ref al s = .ok ⟨{ ref with base := ⟨s.next, 0⟩ }, ⟨s.next, 0⟩, ref.numElems, al⟩ s' ∧
          s'.heap s.next = some ⟨al, List.replicate ref.numElems (.obj dflt)⟩ ∧ s'.next = s.next + 1) ∨
        ((MArr.allocateSpace dflt ref al s = .throw s' ∧ ¬ NoThrow (1 + ref.numElems) s.sched) ∧
          (s'.heap s.next = s.heap s.next ∧ s'.next = s.next ∨
            s'.heap s.next = some ⟨al, List.replicate ref.numElems .raw⟩ ∧ s'.next = s.next + 1))) ∧
      (∀ c, c ≠ s.next → s'.heap c = s.heap c) ∧
      (NoThrow (1 + ref.numElems) s.sched → s'.sched = s.sched.drop (1 + ref.numElems)) ∧
      (∃ m, s'.sched = s.sched.drop m) := by
  rcases sched_cases s with hs | ⟨junk, fs, hs⟩
  · have h1 := allocate_ok al ref.numElems s hs
    generalize hs1 : (St.mk (fun b => if b = s.next then some ⟨al, List.replicate ref.numElems .raw⟩ else s.heap b)
      (s.next + 1) s.sched.tail : St T) = s1 at h1
    have hn1 : s1.next = s.next + 1 := by rw [← hs1]
    have hsc1 : s1.sched = s.sched.tail := by rw [← hs1]
    have hh1 : ∀ c, c ≠ s.next → s1.heap c = s.heap c := by intro c hc; rw [← hs1]; simp [hc]
    have hb : s1.heap s.next = some ⟨al, List.replicate ref.numElems .raw⟩ := by rw [← hs1]; simp
    obtain ⟨s', e1, e2, e3, e4, m, e5⟩ := constructFrom_any dflt s.next al ref.numElems 0 s1
      (by simp [St.len, hb]) (by omega)
      (fun k _ hk => by rw [cell?_of_heap hb, List.getElem?_replicate, if_pos (by omega)])
    simp only [Nat.zero_add] at e1
    refine ⟨s', ?_, ?_, ?_, ?_⟩
    · rcases e1 with ⟨e1, e1'⟩ | ⟨⟨e1, e1'⟩, e1''⟩
      · left
        refine ⟨?_, e1', e3.trans hn1⟩
        unfold MArr.allocateSpace
        rw [Exec.bind_ok h1]
        simp only
        rw [Exec.bind_ok e1]; rfl
      · right
        refine ⟨⟨?_, ?_⟩, .inr ⟨e1'', e3.trans hn1⟩⟩
        · unfold MArr.allocateSpace
          rw [Exec.bind_ok h1]
          simp only
          rw [Exec.bind_throw e1]
        · intro h
          rw [Nat.add_comm] at h
          exact e1' (by rw [hsc1]; exact (noThrow_succ h).2)
    · intro c hc
      rw [e2 c hc, hh1 c hc]
    · intro h
      rw [Nat.add_comm] at h
      rw [e4 (by rw [hsc1]; exact (noThrow_succ h).2), hsc1]
      simp [Nat.add_comm]
    · exact ⟨m + 1, by rw [e5, hsc1]; simp⟩
  · refine ⟨{ s with sched := fs }, .inr ⟨⟨?_, ?_⟩, .inl ⟨rfl, rfl⟩⟩, fun _ _ => rfl, ?_, 1, by simp [hs]⟩
    · unfold MArr.allocateSpace
      rw [Exec.bind_throw (allocate_throw _ _ _ _ _ hs)]
    · intro h
      have := h (some junk) (by rw [hs]; simp [Nat.add_comm])
      cases this
    · intro h
      have := h (some junk) (by rw [hs]; simp [Nat.add_comm])
      cases this

theorem allocateSpace_ok (dflt : T) (ref : ARef) (al : Nat) (s : St T) (h : NoThrow (1 + ref.numElems) s.sched) :
    ∃ s', MArr.allocateSpace dflt ref al s = .ok ⟨{ ref with base := ⟨s.next, 0⟩ }, ⟨s.next, 0⟩, ref.numElems, al⟩ s' ∧
      s'.heap s.next = some ⟨al, List.replicate ref.numElems (.obj dflt)⟩ ∧ s'.next = s.next + 1 ∧
      (∀ c, c ≠ s.next → s'.heap c = s.heap c) ∧ s'.sched = s.sched.drop (1 + ref.numElems) := by
  obtain ⟨s', h1, h2, h3, _⟩ := allocateSpace_any dflt ref al s
  rcases h1 with ⟨a, b, c⟩ | ⟨⟨_, hc⟩, _⟩
  · exact ⟨s', a, b, c, h2, h3 h⟩
  · exact absurd h hc

end MultiArray
