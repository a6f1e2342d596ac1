import Verif.SpecThreads
import Verif.Lemmas.Code

/- Threads that run whole programs: every step of the pool is a step of one thread's solo run. -/
set_option autoImplicit false

namespace MultiArray
open Spec
variable {T α : Type}

/-- The block `b` of a heap is replaced. -/
def updBlk (H : Nat → Option (Block T)) (b : Nat) (nb : Option (Block T)) : Nat → Option (Block T) := fun x => if x = b then nb else H x

/-- An operation on one block does the same wherever that block is. -/
def LocalOp (op : Ptr → Exec T Unit) : Prop :=
  ∀ (p : Ptr) (b : Nat) (m s : St T) (blk : Block T), m.heap p.blk = some blk → s.heap b = some blk → s.sched = m.sched →
    (op p m = .ub) ∨
    (∃ nb sc, op p m = .ok () ⟨updBlk m.heap p.blk nb, m.next, sc⟩ ∧ op ⟨b, p.off⟩ s = .ok () ⟨updBlk s.heap b nb, s.next, sc⟩) ∨
    (∃ nb sc, op p m = .throw ⟨updBlk m.heap p.blk nb, m.next, sc⟩ ∧ op ⟨b, p.off⟩ s = .throw ⟨updBlk s.heap b nb, s.next, sc⟩)

theorem updBlk_self (H : Nat → Option (Block T)) (b : Nat) {x : Option (Block T)} (h : H b = x) : updBlk H b x = H := by
  funext y; unfold updBlk; split
  · next e => rw [e, h]
  · rfl

theorem cell_local {p : Ptr} {b : Nat} {m s : St T} {blk : Block T} (h1 : m.heap p.blk = some blk) (h2 : s.heap b = some blk) :
    s.cell? ⟨b, p.off⟩ = m.cell? p := by
  unfold St.cell?; simp only [h1, h2]

theorem get_local {p : Ptr} {b : Nat} {m s : St T} {blk : Block T} (h1 : m.heap p.blk = some blk) (h2 : s.heap b = some blk) :
    s.get? ⟨b, p.off⟩ = m.get? p := by
  unfold St.get?; rw [cell_local h1 h2]

theorem setCell_eq {p : Ptr} {m : St T} {blk : Block T} (h1 : m.heap p.blk = some blk) (c : Cell T) :
    m.setCell p c = ⟨updBlk m.heap p.blk (some ⟨blk.provider, blk.cells.set p.off.toNat c⟩), m.next, m.sched⟩ := by
  unfold St.setCell; rw [h1]; rfl

theorem local_assign (v : T) : LocalOp (fun p => assignCell p v) := by
  intro p b m s blk h1 h2 hs
  simp only [assignCell, get_local h1 h2, hs]
  cases m.get? p with
  | none => exact .inl rfl
  | some w =>
    right
    cases m.sched with
    | nil =>
      left
      simp only [setCell_eq h1]
      rw [setCell_eq (p := ⟨b, p.off⟩) h2]
      exact ⟨_, _, rfl, by rw [hs]⟩
    | cons x fs =>
      cases x with
      | none =>
        left
        dsimp only
        rw [setCell_eq (m := { m with sched := fs }) h1, setCell_eq (m := { s with sched := fs }) (p := ⟨b, p.off⟩) h2]
        exact ⟨_, _, rfl, rfl⟩
      | some junk =>
        right
        dsimp only
        rw [setCell_eq (m := { m with sched := fs }) h1, setCell_eq (m := { s with sched := fs }) (p := ⟨b, p.off⟩) h2]
        exact ⟨_, _, rfl, rfl⟩

theorem local_construct (v : T) : LocalOp (fun p => constructCell v p) := by
  intro p b m s blk h1 h2 hs
  simp only [constructCell, cell_local h1 h2, hs]
  cases m.cell? p with
  | none => exact .inl rfl
  | some w =>
    cases w with
    | obj w => exact .inl rfl
    | raw =>
      right
      cases m.sched with
      | nil =>
        left
        simp only [setCell_eq h1]
        rw [setCell_eq (p := ⟨b, p.off⟩) h2]
        exact ⟨_, _, rfl, by rw [hs]⟩
      | cons x fs =>
        cases x with
        | none =>
          left
          dsimp only
          rw [setCell_eq (m := { m with sched := fs }) h1, setCell_eq (m := { s with sched := fs }) (p := ⟨b, p.off⟩) h2]
          exact ⟨_, _, rfl, rfl⟩
        | some junk =>
          right
          refine ⟨some blk, fs, ?_, ?_⟩
          · rw [updBlk_self _ _ h1]
          · rw [updBlk_self _ _ h2]

theorem local_destroy : LocalOp (fun p => (destroyCell p : Exec T Unit)) := by
  intro p b m s blk h1 h2 hs
  simp only [destroyCell, get_local h1 h2]
  cases m.get? p with
  | none => exact .inl rfl
  | some w =>
    right; left
    simp only [setCell_eq h1]
    rw [setCell_eq (p := ⟨b, p.off⟩) h2]
    exact ⟨_, _, rfl, by rw [hs]⟩

theorem local_dealloc (al n : Nat) : LocalOp (fun p => (deallocate al p n : Exec T Unit)) := by
  intro p b m s blk h1 h2 hs
  simp only [deallocate, h1, h2]
  by_cases hc : p.off = 0 ∧ blk.provider = al ∧ blk.cells.length = n ∧ blk.cells.all Cell.isRaw = true
  · right; left
    rw [if_pos hc, if_pos hc]
    exact ⟨none, m.sched, rfl, by rw [← hs]; rfl⟩
  · rw [if_neg hc]; exact .inl rfl

/-- An operation on a block that does not exist is undefined. -/
def Strict (op : Ptr → Exec T Unit) : Prop := ∀ (p : Ptr) (m : St T), m.heap p.blk = none → op p m = .ub

theorem strict_assign (v : T) : Strict (fun p => assignCell p v) := by
  intro p m h; simp [assignCell, St.get?, St.cell?, h]
theorem strict_construct (v : T) : Strict (fun p => constructCell v p) := by
  intro p m h; simp [constructCell, St.cell?, h]
theorem strict_destroy : Strict (fun p => (destroyCell p : Exec T Unit)) := by
  intro p m h; simp [destroyCell, St.get?, St.cell?, h]
theorem strict_dealloc (al n : Nat) : Strict (fun p => (deallocate al p n : Exec T Unit)) := by
  intro p m h; simp [deallocate, h]

/-- Replace the memory of thread `i`. -/
def updMem (ms : Nat → St T) (i : Nat) (m : St T) : Nat → St T := fun j => if j = i then m else ms j

/-- What one step of thread `i` does to the memories. -/
structure MemSim (B : Nat → Nat → Prop) (c : CPool T α) (ms : Nat → St T) (i : Nat) (t t1 : CThread T α) (c1 : CPool T α) (ms1 : Nat → St T) : Prop where
  splits : c1.Splits ms1 B
  others : ∀ j : Nat, j ≠ i → ms1 j = ms j
  env : ∀ b, (ms i).heap b ≠ none → t1.env b = t.env b
  shared : ∀ b, (ms i).heap b ≠ none → B i b → (ms1 i).heap b = (ms i).heap b
  foreign : ∀ a, c.Foreign ms a → c1.heap a = c.heap a ∧ c1.Foreign ms1 a
  accounted : ∀ a, c1.Foreign ms1 a → c.Foreign ms a

theorem set_get {l : List α} {i j : Nat} {x y : α} (h : (l.set i x)[j]? = some y) : (j = i ∧ y = x) ∨ (j ≠ i ∧ l[j]? = some y) := by
  rw [List.getElem?_set] at h
  split at h
  · next e =>
    split at h
    · exact .inl ⟨e.symm, (Option.some.inj h).symm⟩
    · cases h
  · next e => exact .inr ⟨fun h => e h.symm, h⟩

theorem set_self {l : List α} {i : Nat} {x y : α} (h : l[i]? = some y) : (l.set i x)[i]? = some x := by
  have hi : i < l.length := by
    rcases Nat.lt_or_ge i l.length with h' | h'
    · exact h'
    · rw [List.getElem?_eq_none h'] at h; cases h
  rw [List.getElem?_set_self hi]

theorem updMem_self (ms : Nat → St T) (i : Nat) (m : St T) : updMem ms i m i = m := by simp [updMem]
theorem updMem_ne (ms : Nat → St T) {i j : Nat} (m : St T) (h : j ≠ i) : updMem ms i m j = ms j := by simp [updMem, h]

theorem mem_idle {B : Nat → Nat → Prop} {c : CPool T α} {ms : Nat → St T} {i : Nat} {t : CThread T α} (hs : c.Splits ms B) (ht : c.threads[i]? = some t)
    (code : Code T α) (sc : List (Option T)) :
    MemSim B c ms i t { t with code := code, sched := sc } ⟨c.heap, c.threads.set i { t with code := code, sched := sc }⟩
      (updMem ms i ⟨(ms i).heap, (ms i).next, sc⟩) := by
  have hheap : ∀ j, (updMem ms i ⟨(ms i).heap, (ms i).next, sc⟩ j).heap = (ms j).heap := by
    intro j; by_cases h : j = i
    · subst h; rw [updMem_self]
    · rw [updMem_ne _ _ h]
  have hold : ∀ (j : Nat) (t1 : CThread T α), (c.threads.set i { t with code := code, sched := sc })[j]? = some t1 →
      ∃ t0, c.threads[j]? = some t0 ∧ t1.env = t0.env := by
    intro j t1 h
    rcases set_get h with ⟨rfl, rfl⟩ | ⟨_, h⟩
    · exact ⟨t, ht, rfl⟩
    · exact ⟨t1, h, rfl⟩
  have hnew : ∀ (j : Nat) (t0 : CThread T α), c.threads[j]? = some t0 →
      ∃ t1, (c.threads.set i { t with code := code, sched := sc })[j]? = some t1 ∧ t1.env = t0.env := by
    intro j t0 h
    by_cases hj : j = i
    · subst hj
      rw [ht] at h; cases h
      exact ⟨_, set_self ht, rfl⟩
    · exact ⟨t0, by rw [List.getElem?_set_ne (Ne.symm hj)]; exact h, rfl⟩
  refine ⟨⟨?_, ?_, hs.space, hs.null⟩, fun j hj => updMem_ne _ _ hj, fun _ _ => rfl, fun b _ _ => by rw [hheap], ?_, ?_⟩
  · intro j t1 h
    rcases set_get h with ⟨rfl, rfl⟩ | ⟨hj, h⟩
    · rw [updMem_self]
      have := hs.sees _ _ ht
      exact ⟨this.next, rfl, this.block⟩
    · rw [updMem_ne _ _ hj]; exact hs.sees _ _ h
  · intro j j' t1 t1' b b' h h' hb hb' he
    rw [hheap] at hb hb'
    obtain ⟨t0, e1, e2⟩ := hold _ _ h
    obtain ⟨t0', e1', e2'⟩ := hold _ _ h'
    rw [e2, e2'] at he
    exact hs.apart _ _ _ _ _ _ e1 e1' hb hb' he
  · intro a ha
    refine ⟨rfl, ha.1, fun j t1 b h hb => ?_⟩
    rw [hheap] at hb
    obtain ⟨t0, e1, e2⟩ := hold _ _ h
    rw [e2]; exact ha.2 _ _ _ e1 hb
  · intro a ha
    refine ⟨ha.1, fun j t0 b h hb => ?_⟩
    obtain ⟨t1, e1, e2⟩ := hnew _ _ h
    rw [← e2]
    exact ha.2 _ _ _ e1 (by rw [hheap]; exact hb)

theorem mem_write {B : Nat → Nat → Prop} {c : CPool T α} {ms : Nat → St T} {i : Nat} {t : CThread T α} (hs : c.Splits ms B) (ht : c.threads[i]? = some t)
    {b0 : Nat} (hb0 : (ms i).heap b0 ≠ none) (hB : ¬ B i b0) (nb : Option (Block T)) (code : Code T α) (sc : List (Option T)) :
    MemSim B c ms i t { t with code := code, sched := sc } ⟨updBlk c.heap (t.env b0) nb, c.threads.set i { t with code := code, sched := sc }⟩
      (updMem ms i ⟨updBlk (ms i).heap b0 nb, (ms i).next, sc⟩) := by
  have hold : ∀ (j : Nat) (t1 : CThread T α), (c.threads.set i { t with code := code, sched := sc })[j]? = some t1 →
      ∃ t0, c.threads[j]? = some t0 ∧ t1.env = t0.env := by
    intro j t1 h
    rcases set_get h with ⟨rfl, rfl⟩ | ⟨_, h⟩
    · exact ⟨t, ht, rfl⟩
    · exact ⟨t1, h, rfl⟩
  have hnew : ∀ (j : Nat) (t0 : CThread T α), c.threads[j]? = some t0 →
      ∃ t1, (c.threads.set i { t with code := code, sched := sc })[j]? = some t1 ∧ t1.env = t0.env := by
    intro j t0 h
    by_cases hj : j = i
    · subst hj
      rw [ht] at h; cases h
      exact ⟨_, set_self ht, rfl⟩
    · exact ⟨t0, by rw [List.getElem?_set_ne (Ne.symm hj)]; exact h, rfl⟩
  -- a block that is live afterwards was live before
  have hlive : ∀ j b, (updMem ms i ⟨updBlk (ms i).heap b0 nb, (ms i).next, sc⟩ j).heap b ≠ none → (ms j).heap b ≠ none := by
    intro j b h
    by_cases hj : j = i
    · subst hj
      rw [updMem_self] at h
      unfold updBlk at h
      by_cases hb : b = b0
      · rw [hb]; exact hb0
      · simpa [hb] using h
    · rwa [updMem_ne _ _ hj] at h
  -- another live block is elsewhere
  have helse : ∀ (j : Nat) (t0 : CThread T α) (b : Nat), c.threads[j]? = some t0 → (ms j).heap b ≠ none → (j ≠ i ∨ b ≠ b0) → t0.env b ≠ t.env b0 := by
    intro j t0 b h hb hne he
    rcases hs.apart _ _ _ _ _ _ h ht hb hb0 he with ⟨h1, h2⟩ | ⟨_, h2⟩
    · rcases hne with hne | hne
      · exact hne h1
      · exact hne h2
    · exact hB h2
  have hz : updBlk c.heap (t.env b0) nb 0 = none := by
    obtain ⟨blk, h⟩ := Option.ne_none_iff_exists'.mp hb0
    have h1 := ((hs.sees _ _ ht).block _ _ h).2
    rw [updBlk, if_neg]
    · exact hs.null
    · intro e; rw [← e, hs.null] at h1; cases h1
  refine ⟨⟨?_, ?_, ?_, hz⟩, fun j hj => updMem_ne _ _ hj, fun _ _ => rfl, ?_, ?_, ?_⟩
  · intro j t1 h
    rcases set_get h with ⟨rfl, rfl⟩ | ⟨hj, h⟩
    · rw [updMem_self]
      have h0 := hs.sees _ _ ht
      refine ⟨h0.next, rfl, fun b blk hb => ?_⟩
      have hb' : updBlk (ms j).heap b0 nb b = some blk := hb
      by_cases hbb : b = b0
      · subst hbb
        simp only [updBlk, if_true] at hb'
        obtain ⟨blk0, hblk0⟩ := Option.ne_none_iff_exists'.mp hb0
        refine ⟨(h0.block _ _ hblk0).1, ?_⟩
        show updBlk c.heap (t.env b) nb (t.env b) = some blk
        simp only [updBlk, if_true]; exact hb'
      · simp only [updBlk, if_neg hbb] at hb'
        refine ⟨(h0.block _ _ hb').1, ?_⟩
        show updBlk c.heap (t.env b0) nb (t.env b) = some blk
        simp only [updBlk, if_neg (helse _ _ _ ht (by rw [hb']; simp) (.inr hbb))]
        exact (h0.block _ _ hb').2
    · rw [updMem_ne _ _ hj]
      have h0 := hs.sees _ _ h
      refine ⟨h0.next, h0.sched, fun b blk hb => ⟨(h0.block _ _ hb).1, ?_⟩⟩
      show updBlk c.heap (t.env b0) nb (t1.env b) = some blk
      simp only [updBlk, if_neg (helse _ _ _ h (by rw [hb]; simp) (.inl hj))]
      exact (h0.block _ _ hb).2
  · intro j j' t1 t1' b b' h h' hb hb' he
    obtain ⟨t0, e1, e2⟩ := hold _ _ h
    obtain ⟨t0', e1', e2'⟩ := hold _ _ h'
    rw [e2, e2'] at he
    exact hs.apart _ _ _ _ _ _ e1 e1' (hlive _ _ hb) (hlive _ _ hb') he
  · obtain ⟨N, hN⟩ := hs.space
    refine ⟨max N (t.env b0 + 1), fun a ha => ?_⟩
    show updBlk c.heap (t.env b0) nb a = none
    rw [updBlk, if_neg (by omega)]
    exact hN a (by omega)
  · intro b hb hBb
    rw [updMem_self]
    show updBlk (ms i).heap b0 nb b = _
    rw [updBlk, if_neg]
    intro e; subst e; exact hB hBb
  · intro a ha
    have hne : a ≠ t.env b0 := fun e => ha.2 _ _ _ ht hb0 e.symm
    have e : updBlk c.heap (t.env b0) nb a = c.heap a := by rw [updBlk, if_neg hne]
    refine ⟨e, by show updBlk c.heap (t.env b0) nb a ≠ none; rw [e]; exact ha.1, fun j t1 b h hb => ?_⟩
    obtain ⟨t0, e1, e2⟩ := hold _ _ h
    rw [e2]; exact ha.2 _ _ _ e1 (hlive _ _ hb)
  · intro a ha
    have hne : a ≠ t.env b0 := by
      intro e
      have h1 : updBlk c.heap (t.env b0) nb a ≠ none := ha.1
      rw [e, updBlk, if_pos rfl] at h1
      refine ha.2 i _ b0 (set_self ht) ?_ e.symm
      rw [updMem_self]
      show updBlk (ms i).heap b0 nb b0 ≠ none
      rw [updBlk, if_pos rfl]; exact h1
    have h1 : updBlk c.heap (t.env b0) nb a ≠ none := ha.1
    rw [updBlk, if_neg hne] at h1
    refine ⟨h1, fun j t0 b h hb he => ?_⟩
    obtain ⟨t1, e1, e2⟩ := hnew _ _ h
    refine ha.2 j t1 b e1 ?_ (by rw [e2]; exact he)
    by_cases hj : j = i
    · subst hj
      rw [ht] at h; cases h
      rw [updMem_self]
      show updBlk (ms j).heap b0 nb b ≠ none
      rw [updBlk, if_neg (fun e => hne (by rw [← he, e]))]
      exact hb
    · rw [updMem_ne _ _ hj]; exact hb

theorem mem_alloc {B : Nat → Nat → Prop} {c : CPool T α} {ms : Nat → St T} {i : Nat} {t : CThread T α} (hs : c.Splits ms B) (ht : c.threads[i]? = some t)
    {a0 : Nat} (hz : a0 ≠ 0) (ha0 : c.heap a0 = none) (nb : Block T) (code : Code T α) (sc : List (Option T)) :
    MemSim B c ms i t ⟨code, t.next + 1, sc, fun b => if b = t.next then a0 else t.env b⟩
      ⟨fun b => if b = a0 then some nb else c.heap b, c.threads.set i ⟨code, t.next + 1, sc, fun b => if b = t.next then a0 else t.env b⟩⟩
      (updMem ms i ⟨fun b => if b = (ms i).next then some nb else (ms i).heap b, (ms i).next + 1, sc⟩) := by
  have hnx := (hs.sees _ _ ht).next
  have hlt : ∀ b, (ms i).heap b ≠ none → b < (ms i).next := by
    intro b hb
    obtain ⟨blk, h⟩ := Option.ne_none_iff_exists'.mp hb
    exact ((hs.sees _ _ ht).block _ _ h).1
  have hfree : ∀ (j : Nat) (t0 : CThread T α) (b : Nat), c.threads[j]? = some t0 → (ms j).heap b ≠ none → t0.env b ≠ a0 := by
    intro j t0 b h hb e
    obtain ⟨blk, h'⟩ := Option.ne_none_iff_exists'.mp hb
    have := ((hs.sees _ _ h).block _ _ h').2
    rw [e, ha0] at this; cases this
  -- the live blocks afterwards
  have hlive : ∀ (j : Nat) (t1 : CThread T α) (b : Nat),
      (c.threads.set i ⟨code, t.next + 1, sc, fun b => if b = t.next then a0 else t.env b⟩)[j]? = some t1 →
      (updMem ms i ⟨fun b => if b = (ms i).next then some nb else (ms i).heap b, (ms i).next + 1, sc⟩ j).heap b ≠ none →
      (j = i ∧ b = (ms i).next ∧ t1.env b = a0) ∨ (∃ t0, c.threads[j]? = some t0 ∧ (ms j).heap b ≠ none ∧ t1.env b = t0.env b) := by
    intro j t1 b h hb
    rcases set_get h with ⟨rfl, rfl⟩ | ⟨hj, h⟩
    · rw [updMem_self] at hb
      dsimp only at hb
      by_cases e : b = (ms j).next
      · exact .inl ⟨rfl, e, by dsimp only; rw [if_pos (by rw [hnx]; exact e)]⟩
      · rw [if_neg e] at hb
        exact .inr ⟨t, ht, hb, by dsimp only; rw [if_neg (by rw [hnx]; exact e)]⟩
    · rw [updMem_ne _ _ hj] at hb
      exact .inr ⟨t1, h, hb, rfl⟩
  have hkeep : ∀ (j : Nat) (t0 : CThread T α) (b : Nat), c.threads[j]? = some t0 → (ms j).heap b ≠ none →
      ∃ t1, (c.threads.set i ⟨code, t.next + 1, sc, fun b => if b = t.next then a0 else t.env b⟩)[j]? = some t1 ∧ t1.env b = t0.env b ∧
        (updMem ms i ⟨fun b => if b = (ms i).next then some nb else (ms i).heap b, (ms i).next + 1, sc⟩ j).heap b = (ms j).heap b := by
    intro j t0 b h hb
    by_cases hj : j = i
    · subst hj
      rw [ht] at h; cases h
      have hb' : b ≠ (ms j).next := Nat.ne_of_lt (hlt b hb)
      refine ⟨_, set_self ht, ?_, ?_⟩
      · dsimp only; rw [if_neg (by rw [hnx]; exact hb')]
      · rw [updMem_self]; dsimp only; rw [if_neg hb']
    · exact ⟨t0, by rw [List.getElem?_set_ne (Ne.symm hj)]; exact h, rfl, by rw [updMem_ne _ _ hj]⟩
  refine ⟨⟨?_, ?_, ?_, by dsimp only; rw [if_neg (Ne.symm hz)]; exact hs.null⟩, fun j hj => updMem_ne _ _ hj, ?_, ?_, ?_, ?_⟩
  · intro j t1 h
    rcases set_get h with ⟨rfl, rfl⟩ | ⟨hj, h⟩
    · rw [updMem_self]
      have h0 := hs.sees _ _ ht
      refine ⟨by dsimp only; rw [hnx], rfl, fun b blk hb => ?_⟩
      dsimp only at hb ⊢
      by_cases e : b = (ms j).next
      · rw [if_pos e] at hb
        rw [if_pos (show b = t.next by rw [hnx]; exact e), if_pos rfl]
        exact ⟨by omega, hb⟩
      · rw [if_neg e] at hb
        rw [if_neg (show ¬ b = t.next by rw [hnx]; exact e)]
        obtain ⟨h1, h2⟩ := h0.block _ _ hb
        refine ⟨by omega, ?_⟩
        rw [if_neg (hfree _ _ _ ht (by rw [hb]; simp))]; exact h2
    · rw [updMem_ne _ _ hj]
      have h0 := hs.sees _ _ h
      refine ⟨h0.next, h0.sched, fun b blk hb => ⟨(h0.block _ _ hb).1, ?_⟩⟩
      dsimp only
      rw [if_neg (hfree _ _ _ h (by rw [hb]; simp))]
      exact (h0.block _ _ hb).2
  · intro j j' t1 t1' b b' h h' hb hb' he
    rcases hlive _ _ _ h hb with ⟨e1, e2, e3⟩ | ⟨t0, e1, e2, e3⟩ <;> rcases hlive _ _ _ h' hb' with ⟨f1, f2, f3⟩ | ⟨t0', f1, f2, f3⟩
    · exact .inl ⟨by rw [e1, f1], by rw [e2, f2]⟩
    · rw [e3, f3] at he
      exact absurd he.symm (hfree _ _ _ f1 f2)
    · rw [e3, f3] at he
      exact absurd he (hfree _ _ _ e1 e2)
    · rw [e3, f3] at he
      exact hs.apart _ _ _ _ _ _ e1 f1 e2 f2 he
  · obtain ⟨N, hN⟩ := hs.space
    refine ⟨max N (a0 + 1), fun a ha => ?_⟩
    dsimp only
    rw [if_neg (by omega)]
    exact hN a (by omega)
  · intro b hb
    dsimp only
    rw [if_neg (by rw [hnx]; exact Nat.ne_of_lt (hlt b hb))]
  · intro b hb _
    rw [updMem_self]
    dsimp only
    rw [if_neg (Nat.ne_of_lt (hlt b hb))]
  · intro a ha
    have hne : a ≠ a0 := fun e => ha.1 (by rw [e]; exact ha0)
    refine ⟨by dsimp only; rw [if_neg hne], by dsimp only; rw [if_neg hne]; exact ha.1, fun j t1 b h hb => ?_⟩
    rcases hlive _ _ _ h hb with ⟨_, _, e3⟩ | ⟨t0, e1, e2, e3⟩
    · rw [e3]; exact Ne.symm hne
    · rw [e3]; exact ha.2 _ _ _ e1 e2
  · intro a ha
    have hne : a ≠ a0 := by
      intro e
      refine ha.2 i _ (ms i).next (set_self ht) ?_ ?_
      · rw [updMem_self]; dsimp only; rw [if_pos rfl]; simp
      · dsimp only; rw [if_pos hnx.symm]; exact e.symm
    have h1 := ha.1
    dsimp only at h1
    rw [if_neg hne] at h1
    refine ⟨h1, fun j t0 b h hb => ?_⟩
    obtain ⟨t1, e1, e2, e3⟩ := hkeep _ _ _ h hb
    rw [← e2]
    exact ha.2 _ _ _ e1 (by rw [e3]; exact hb)

/-- A changing operation of thread `i`, in its own memory and in the pool's. -/
theorem op_both {op : Ptr → Exec T Unit} (hl : LocalOp op) (hst : Strict op) {B : Nat → Nat → Prop} {c : CPool T α} {ms : Nat → St T} {i : Nat} {t : CThread T α}
    (hs : c.Splits ms B) (ht : c.threads[i]? = some t) (p : Ptr) (hub : op p (ms i) ≠ .ub) :
    (ms i).heap p.blk ≠ none ∧
    ((∃ nb sc, op p (ms i) = .ok () ⟨updBlk (ms i).heap p.blk nb, (ms i).next, sc⟩ ∧ op (t.at_ p) (c.mem t) = .ok () ⟨updBlk c.heap (t.env p.blk) nb, t.next, sc⟩) ∨
     (∃ nb sc, op p (ms i) = .throw ⟨updBlk (ms i).heap p.blk nb, (ms i).next, sc⟩ ∧ op (t.at_ p) (c.mem t) = .throw ⟨updBlk c.heap (t.env p.blk) nb, t.next, sc⟩)) := by
  have h0 := hs.sees _ _ ht
  have hb : (ms i).heap p.blk ≠ none := fun e => hub (hst _ _ e)
  refine ⟨hb, ?_⟩
  obtain ⟨blk, hblk⟩ := Option.ne_none_iff_exists'.mp hb
  rcases hl p (t.env p.blk) (ms i) (c.mem t) blk hblk (h0.block _ _ hblk).2 h0.sched with h | h | h
  · exact absurd h hub
  · exact .inl h
  · exact .inr h

theorem load_both {B : Nat → Nat → Prop} {c : CPool T α} {ms : Nat → St T} {i : Nat} {t : CThread T α} (hs : c.Splits ms B) (ht : c.threads[i]? = some t) (p : Ptr)
    (hub : MultiArray.load p (ms i) ≠ .ub) :
    (ms i).heap p.blk ≠ none ∧ ∃ v, MultiArray.load p (ms i) = .ok v (ms i) ∧ MultiArray.load (t.at_ p) (c.mem t) = .ok v (c.mem t) := by
  have h0 := hs.sees _ _ ht
  have hb : (ms i).heap p.blk ≠ none := fun e => hub (by simp [MultiArray.load, St.get?, St.cell?, e])
  refine ⟨hb, ?_⟩
  obtain ⟨blk, hblk⟩ := Option.ne_none_iff_exists'.mp hb
  have hg : (c.mem t).get? (t.at_ p) = (ms i).get? p := get_local (s := c.mem t) hblk (h0.block _ _ hblk).2
  unfold MultiArray.load at hub ⊢
  rw [hg]
  cases hv : (ms i).get? p with
  | none => rw [hv] at hub; exact absurd rfl hub
  | some v => exact ⟨v, rfl, rfl⟩

/-- What one step of thread `i` does. -/
structure StepSim (B : Nat → Nat → Prop) (c : CPool T α) (ms : Nat → St T) (i : Nat) (t : CThread T α) (c1 : CPool T α) (t1 : CThread T α) (m1 : St T) : Prop where
  threads : c1.threads = c.threads.set i t1
  mem : MemSim B c ms i t t1 c1 (updMem ms i m1)
  exec : t1.code.exec m1 = t.code.exec (ms i)
  steps : t.code.steps (ms i) = t1.code.steps m1 + 1
  spares : t1.code.Spares (B i) m1

theorem completes_ub {x : Code T α} {s : St T} (h : x.Completes s) : x.exec s ≠ .ub := by
  rcases h with ⟨_, _, h⟩ | ⟨_, h⟩ <;> rw [h] <;> simp

theorem step_sim {B : Nat → Nat → Prop} {c : CPool T α} {ms : Nat → St T} {i : Nat} {t : CThread T α} (hs : c.Splits ms B) (ht : c.threads[i]? = some t)
    (hc : t.code.Completes (ms i)) (hsp : t.code.Spares (B i) (ms i)) {c1 : CPool T α} (h : CStep c i c1) :
    ∃ t1 m1, StepSim B c ms i t c1 t1 m1 := by
  have hub := completes_ub hc
  cases h with
  | load ht' hcode hl =>
    rw [ht] at ht'; cases ht'
    rename_i p k v s
    rw [hcode] at hsp hub
    simp only [Code.exec] at hub
    simp only [Code.Spares] at hsp
    obtain ⟨_, v', e1, e2⟩ := load_both hs ht p (fun e => hub (by rw [e]))
    rw [e2] at hl; cases hl
    rw [e1] at hsp
    refine ⟨_, ⟨(ms i).heap, (ms i).next, t.sched⟩, rfl, mem_idle hs ht (k v) t.sched, ?_, ?_, ?_⟩
    · rw [hcode]; simp only [Code.exec, e1, (hs.sees _ _ ht).sched]
    · rw [hcode]; simp only [Code.steps, e1, (hs.sees _ _ ht).sched]
    · rw [(hs.sees _ _ ht).sched]; exact hsp
  | store ht' hcode hl =>
    rw [ht] at ht'; cases ht'
    rename_i p v k h s
    rw [hcode] at hsp hub
    simp only [Code.exec] at hub
    simp only [Code.Spares] at hsp
    obtain ⟨hb, ⟨nb, sc, e1, e2⟩ | ⟨nb, sc, e1, e2⟩⟩ := op_both (local_assign v) (strict_assign v) hs ht p (fun e => hub (by rw [e]))
    · rw [e2] at hl; cases hl
      rw [e1] at hsp
      refine ⟨_, _, rfl, mem_write hs ht hb hsp.1 nb k sc, ?_, ?_, hsp.2⟩
      · rw [hcode]; simp only [Code.exec, e1]
      · rw [hcode]; simp only [Code.steps, e1]
    · rw [e2] at hl; cases hl
  | storeThrows ht' hcode hl =>
    rw [ht] at ht'; cases ht'
    rename_i p v k h s
    rw [hcode] at hsp hub
    simp only [Code.exec] at hub
    simp only [Code.Spares] at hsp
    obtain ⟨hb, ⟨nb, sc, e1, e2⟩ | ⟨nb, sc, e1, e2⟩⟩ := op_both (local_assign v) (strict_assign v) hs ht p (fun e => hub (by rw [e]))
    · rw [e2] at hl; cases hl
    · rw [e2] at hl; cases hl
      rw [e1] at hsp
      refine ⟨_, _, rfl, mem_write hs ht hb hsp.1 nb h sc, ?_, ?_, hsp.2⟩
      · rw [hcode]; simp only [Code.exec, e1]
      · rw [hcode]; simp only [Code.steps, e1]
  | construct ht' hcode hl =>
    rw [ht] at ht'; cases ht'
    rename_i p v k h s
    rw [hcode] at hsp hub
    simp only [Code.exec] at hub
    simp only [Code.Spares] at hsp
    obtain ⟨hb, ⟨nb, sc, e1, e2⟩ | ⟨nb, sc, e1, e2⟩⟩ := op_both (local_construct v) (strict_construct v) hs ht p (fun e => hub (by rw [e]))
    · rw [e2] at hl; cases hl
      rw [e1] at hsp
      refine ⟨_, _, rfl, mem_write hs ht hb hsp.1 nb k sc, ?_, ?_, hsp.2⟩
      · rw [hcode]; simp only [Code.exec, e1]
      · rw [hcode]; simp only [Code.steps, e1]
    · rw [e2] at hl; cases hl
  | constructThrows ht' hcode hl =>
    rw [ht] at ht'; cases ht'
    rename_i p v k h s
    rw [hcode] at hsp hub
    simp only [Code.exec] at hub
    simp only [Code.Spares] at hsp
    obtain ⟨hb, ⟨nb, sc, e1, e2⟩ | ⟨nb, sc, e1, e2⟩⟩ := op_both (local_construct v) (strict_construct v) hs ht p (fun e => hub (by rw [e]))
    · rw [e2] at hl; cases hl
    · rw [e2] at hl; cases hl
      rw [e1] at hsp
      refine ⟨_, _, rfl, mem_write hs ht hb hsp.1 nb h sc, ?_, ?_, hsp.2⟩
      · rw [hcode]; simp only [Code.exec, e1]
      · rw [hcode]; simp only [Code.steps, e1]
  | destroy ht' hcode hl =>
    rw [ht] at ht'; cases ht'
    rename_i p k s
    rw [hcode] at hsp hub
    simp only [Code.exec] at hub
    simp only [Code.Spares] at hsp
    obtain ⟨hb, ⟨nb, sc, e1, e2⟩ | ⟨nb, sc, e1, e2⟩⟩ := op_both local_destroy strict_destroy hs ht p (fun e => hub (by rw [e]))
    · rw [e2] at hl; cases hl
      rw [e1] at hsp
      refine ⟨_, _, rfl, mem_write hs ht hb hsp.1 nb k sc, ?_, ?_, hsp.2⟩
      · rw [hcode]; simp only [Code.exec, e1]
      · rw [hcode]; simp only [Code.steps, e1]
    · rw [e2] at hl; cases hl
  | dealloc ht' hcode hl =>
    rw [ht] at ht'; cases ht'
    rename_i al n p k s
    rw [hcode] at hsp hub
    simp only [Code.exec] at hub
    simp only [Code.Spares] at hsp
    obtain ⟨hb, ⟨nb, sc, e1, e2⟩ | ⟨nb, sc, e1, e2⟩⟩ := op_both (local_dealloc al n) (strict_dealloc al n) hs ht p (fun e => hub (by rw [e]))
    · rw [e2] at hl; cases hl
      rw [e1] at hsp
      refine ⟨_, _, rfl, mem_write hs ht hb hsp.1 nb k sc, ?_, ?_, hsp.2⟩
      · rw [hcode]; simp only [Code.exec, e1]
      · rw [hcode]; simp only [Code.steps, e1]
    · rw [e2] at hl; cases hl
  | alloc ht' hcode hno hz ha =>
    rw [ht] at ht'; cases ht'
    rename_i al n a k h
    have hsc := (hs.sees _ _ ht).sched
    have e1 : allocate al n (ms i) = .ok ⟨t.next, 0⟩
        ⟨fun b => if b = (ms i).next then some ⟨al, List.replicate n .raw⟩ else (ms i).heap b, (ms i).next + 1, t.sched.tail⟩ := by
      unfold allocate
      rw [hsc] at hno
      rw [hsc, (hs.sees _ _ ht).next]
      split
      · next e => exact absurd e (hno _ _)
      · rfl
    rw [hcode] at hsp
    simp only [Code.Spares, e1] at hsp
    refine ⟨_, _, rfl, mem_alloc hs ht hz ha ⟨al, List.replicate n .raw⟩ (k ⟨t.next, 0⟩) t.sched.tail, ?_, ?_, hsp⟩
    · rw [hcode]; simp only [Code.exec, e1]
    · rw [hcode]; simp only [Code.steps, e1]
  | allocThrows ht' hcode hsch =>
    rw [ht] at ht'; cases ht'
    rename_i al n k h junk fs
    have hsc := (hs.sees _ _ ht).sched
    rw [hsch] at hsc
    have e1 : allocate al n (ms i) = .throw ⟨(ms i).heap, (ms i).next, fs⟩ := by
      unfold allocate
      rw [← hsc]
    rw [hcode] at hsp
    simp only [Code.Spares, e1] at hsp
    refine ⟨_, _, rfl, mem_idle hs ht h fs, ?_, ?_, hsp⟩
    · rw [hcode]; simp only [Code.exec, e1]
    · rw [hcode]; simp only [Code.steps, e1]

/-- A thread that has not ended can always perform its next operation. -/
theorem step_exists {B : Nat → Nat → Prop} {c : CPool T α} {ms : Nat → St T} {i : Nat} {t : CThread T α} (hs : c.Splits ms B) (ht : c.threads[i]? = some t)
    (hc : t.code.Completes (ms i)) (hne : ¬ t.Ended) : ∃ c1, CStep c i c1 := by
  have hub := completes_ub hc
  cases hcode : t.code with
  | ret a => exact absurd (.inl ⟨a, hcode⟩) hne
  | throw => exact absurd (.inr hcode) hne
  | assertFail =>
    rw [hcode] at hc
    rcases hc with ⟨_, _, h⟩ | ⟨_, h⟩ <;> cases h
  | ub => rw [hcode] at hub; exact absurd rfl hub
  | load p k =>
    rw [hcode] at hub
    simp only [Code.exec] at hub
    obtain ⟨_, v', e1, e2⟩ := load_both hs ht p (fun e => hub (by rw [e]))
    exact ⟨_, .load ht hcode e2⟩
  | store p v k h =>
    rw [hcode] at hub
    simp only [Code.exec] at hub
    obtain ⟨hb, ⟨nb, sc, e1, e2⟩ | ⟨nb, sc, e1, e2⟩⟩ := op_both (local_assign v) (strict_assign v) hs ht p (fun e => hub (by rw [e]))
    · exact ⟨_, .store ht hcode e2⟩
    · exact ⟨_, .storeThrows ht hcode e2⟩
  | construct v p k h =>
    rw [hcode] at hub
    simp only [Code.exec] at hub
    obtain ⟨hb, ⟨nb, sc, e1, e2⟩ | ⟨nb, sc, e1, e2⟩⟩ := op_both (local_construct v) (strict_construct v) hs ht p (fun e => hub (by rw [e]))
    · exact ⟨_, .construct ht hcode e2⟩
    · exact ⟨_, .constructThrows ht hcode e2⟩
  | destroy p k =>
    rw [hcode] at hub hc
    simp only [Code.exec] at hub
    obtain ⟨hb, ⟨nb, sc, e1, e2⟩ | ⟨nb, sc, e1, e2⟩⟩ := op_both local_destroy strict_destroy hs ht p (fun e => hub (by rw [e]))
    · exact ⟨_, .destroy ht hcode e2⟩
    · exfalso
      unfold destroyCell at e1
      split at e1 <;> cases e1
  | dealloc al p n k =>
    rw [hcode] at hub hc
    simp only [Code.exec] at hub
    obtain ⟨hb, ⟨nb, sc, e1, e2⟩ | ⟨nb, sc, e1, e2⟩⟩ := op_both (local_dealloc al n) (strict_dealloc al n) hs ht p (fun e => hub (by rw [e]))
    · exact ⟨_, .dealloc ht hcode e2⟩
    · exfalso
      unfold deallocate at e1
      split at e1
      · cases e1
      · split at e1 <;> cases e1
  | alloc al n k h =>
    by_cases hsch : ∃ junk fs, t.sched = some junk :: fs
    · obtain ⟨junk, fs, e⟩ := hsch
      exact ⟨_, .allocThrows ht hcode e⟩
    · obtain ⟨N, hN⟩ := hs.space
      exact ⟨_, .alloc (a := N + 1) ht hcode (fun junk fs e => hsch ⟨junk, fs, e⟩) (by omega) (hN _ (by omega))⟩

/-- What a run does, seen from the solo memories. -/
structure RunSim (B : Nat → Nat → Prop) (c : CPool T α) (ms : Nat → St T) (is : List Nat) (c' : CPool T α) (ms' : Nat → St T) : Prop where
  splits : c'.Splits ms' B
  len : c'.threads.length = c.threads.length
  thread : ∀ (i : Nat) (t t' : CThread T α), c.threads[i]? = some t → c'.threads[i]? = some t' →
    t'.code.exec (ms' i) = t.code.exec (ms i) ∧ t.code.steps (ms i) = is.count i + t'.code.steps (ms' i) ∧ t'.code.Spares (B i) (ms' i) ∧
    (∀ b, (ms i).heap b ≠ none → B i b → t'.env b = t.env b ∧ (ms' i).heap b = (ms i).heap b)
  foreign : ∀ a, c.Foreign ms a → c'.heap a = c.heap a ∧ c'.Foreign ms' a
  accounted : ∀ a, c'.Foreign ms' a → c.Foreign ms a

theorem run_sim {B : Nat → Nat → Prop} {c : CPool T α} {ms : Nat → St T} (hs : c.Splits ms B)
    (hc : ∀ (i : Nat) (t : CThread T α), c.threads[i]? = some t → t.code.Completes (ms i))
    (hsp : ∀ (i : Nat) (t : CThread T α), c.threads[i]? = some t → t.code.Spares (B i) (ms i)) {is : List Nat} {c' : CPool T α} (h : CRun c is c') :
    ∃ ms', RunSim B c ms is c' ms' := by
  induction h generalizing ms with
  | nil =>
    refine ⟨ms, hs, rfl, ?_, fun a ha => ⟨rfl, ha⟩, fun a ha => ha⟩
    intro i t t' h h'
    rw [h] at h'; cases h'
    exact ⟨rfl, by simp, hsp _ _ h, fun b _ _ => ⟨rfl, rfl⟩⟩
  | @cons c c1 c2 i is hstep hrun ih =>
    have ht : ∃ t, c.threads[i]? = some t := by cases hstep <;> exact ⟨_, by assumption⟩
    obtain ⟨t, ht⟩ := ht
    obtain ⟨t1, m1, sim⟩ := step_sim hs ht (hc _ _ ht) (hsp _ _ ht) hstep
    have ht1 : c1.threads[i]? = some t1 := by rw [sim.threads]; exact set_self ht
    have hoth : ∀ j, j ≠ i → c1.threads[j]? = c.threads[j]? := fun j hj => by rw [sim.threads, List.getElem?_set_ne (Ne.symm hj)]
    obtain ⟨ms', r⟩ := ih (ms := updMem ms i m1) sim.mem.splits
      (by
        intro j t' h
        by_cases hj : j = i
        · subst hj
          rw [ht1] at h; cases h
          rw [updMem_self]
          unfold Code.Completes
          rw [sim.exec]; exact hc _ _ ht
        · rw [updMem_ne _ _ hj]
          rw [hoth j hj] at h
          exact hc _ _ h)
      (by
        intro j t' h
        by_cases hj : j = i
        · subst hj
          rw [ht1] at h; cases h
          rw [updMem_self]
          exact sim.spares
        · rw [updMem_ne _ _ hj]
          rw [hoth j hj] at h
          exact hsp _ _ h)
    refine ⟨ms', r.splits, by rw [r.len, sim.threads, List.length_set], ?_, ?_, fun a ha => sim.mem.accounted a (r.accounted a ha)⟩
    · intro j tj tj' h h'
      by_cases hj : j = i
      · subst hj
        rw [ht] at h; cases h
        obtain ⟨e1, e2, e3, e4⟩ := r.thread _ _ _ ht1 h'
        rw [updMem_self] at e1 e2 e4
        refine ⟨by rw [e1, sim.exec], by rw [sim.steps, e2, List.count_cons_self]; omega, e3, ?_⟩
        intro b hb hB
        have h1 := sim.mem.shared b hb hB
        rw [updMem_self] at h1
        obtain ⟨f1, f2⟩ := e4 b (by rw [h1]; exact hb) hB
        exact ⟨by rw [f1]; exact sim.mem.env b hb, by rw [f2, h1]⟩
      · rw [← hoth j hj] at h
        obtain ⟨e1, e2, e3, e4⟩ := r.thread _ _ _ h h'
        rw [updMem_ne _ _ hj] at e1 e2 e4
        exact ⟨e1, by rw [e2, List.count_cons_of_ne (Ne.symm hj)], e3, e4⟩
    · intro a ha
      obtain ⟨e1, e2⟩ := sim.mem.foreign a ha
      obtain ⟨f1, f2⟩ := r.foreign a e2
      exact ⟨by rw [f1, e1], f2⟩

theorem ended_steps {t : CThread T α} {m : St T} (h : t.Ended) : t.code.steps m = 0 := by
  rcases h with ⟨a, h⟩ | h <;> rw [h] <;> rfl

theorem steps_ended {t : CThread T α} {m : St T} (hc : t.code.Completes m) (h : t.code.steps m = 0) : t.Ended := by
  have hub := completes_ub hc
  have hdes : ∀ (p : Ptr) (s s' : St T), destroyCell p s ≠ .throw s' := by
    intro p s s'
    unfold destroyCell
    split <;> simp
  have hdea : ∀ (al : Nat) (p : Ptr) (n : Nat) (s s' : St T), deallocate al p n s ≠ .throw s' := by
    intro al p n s s'
    unfold deallocate
    split
    · simp
    · split <;> simp
  have hload : ∀ (p : Ptr) (s s' : St T), MultiArray.load p s ≠ .throw s' := by
    intro p s s'
    unfold MultiArray.load
    split <;> simp
  unfold CThread.Ended
  have notAF : ∀ s', t.code.exec m ≠ .assertFail s' := by
    intro s' e
    rcases hc with ⟨_, _, h⟩ | ⟨_, h⟩ <;> rw [h] at e <;> cases e
  cases hcode : t.code with
  | ret a => exact .inl ⟨a, rfl⟩
  | throw => exact .inr rfl
  | assertFail => exact absurd (by rw [hcode]; rfl) (notAF m)
  | ub => rw [hcode] at hub; exact absurd rfl hub
  | load p k =>
    rw [hcode] at hub h notAF
    simp only [Code.exec, Code.steps] at hub h notAF
    cases e : MultiArray.load p m <;> simp_all
  | store p v k h' =>
    rw [hcode] at hub h notAF
    simp only [Code.exec, Code.steps] at hub h notAF
    cases e : assignCell p v m <;> simp_all
  | construct v p k h' =>
    rw [hcode] at hub h notAF
    simp only [Code.exec, Code.steps] at hub h notAF
    cases e : constructCell v p m <;> simp_all
  | destroy p k =>
    rw [hcode] at hub h notAF
    simp only [Code.exec, Code.steps] at hub h notAF
    cases e : destroyCell p m <;> simp_all
  | alloc al n k h' =>
    rw [hcode] at hub h notAF
    simp only [Code.exec, Code.steps] at hub h notAF
    cases e : allocate al n m <;> simp_all
  | dealloc al p n k =>
    rw [hcode] at hub h notAF
    simp only [Code.exec, Code.steps] at hub h notAF
    cases e : deallocate al p n m <;> simp_all

theorem spares_none (x : Code T α) (s : St T) : x.Spares (fun _ => False) s := by
  induction x generalizing s with
  | ret a => trivial
  | throw => trivial
  | assertFail => trivial
  | ub => trivial
  | load p k ih => simp only [Code.Spares]; split <;> first | exact ih _ _ | trivial
  | store p v k h ih ih' => simp only [Code.Spares]; refine ⟨fun e => e, ?_⟩; split <;> first | exact ih _ | exact ih' _ | trivial
  | construct v p k h ih ih' => simp only [Code.Spares]; refine ⟨fun e => e, ?_⟩; split <;> first | exact ih _ | exact ih' _ | trivial
  | destroy p k ih => simp only [Code.Spares]; refine ⟨fun e => e, ?_⟩; split <;> first | exact ih _ | trivial
  | alloc al n k h ih ih' => simp only [Code.Spares]; split <;> first | exact ih _ _ | exact ih' _ | trivial
  | dealloc al p n k ih => simp only [Code.Spares]; refine ⟨fun e => e, ?_⟩; split <;> first | exact ih _ | trivial

/-- No races. -/
theorem no_race {B : Nat → Nat → Prop} {c : CPool T α} {ms : Nat → St T} (hs : c.Splits ms B)
    (hc : ∀ (i : Nat) (t : CThread T α), c.threads[i]? = some t → t.code.Completes (ms i))
    (hsp : ∀ (i : Nat) (t : CThread T α), c.threads[i]? = some t → t.code.Spares (B i) (ms i)) : ¬ c.Racing := by
  rintro ⟨i, j, t, t', p, p', w, w', hij, ht, ht', hp, hp', he, hw⟩
  -- what is touched is live, and not shared if it may be changed
  have key : ∀ (i : Nat) (t : CThread T α) (p : Ptr) (w : Bool), c.threads[i]? = some t → t.code.touches = some (p, w) →
      (ms i).heap p.blk ≠ none ∧ (w = true → ¬ B i p.blk) := by
    intro i t p w ht hp
    have hub := completes_ub (hc i t ht)
    have hsp := hsp i t ht
    cases hcode : t.code with
    | load q k =>
      rw [hcode] at hp hub; simp only [Code.exec] at hub; cases hp
      exact ⟨(load_both hs ht p (fun e => hub (by rw [e]))).1, by simp⟩
    | store q v k h =>
      rw [hcode] at hp hub hsp; simp only [Code.exec] at hub; cases hp
      exact ⟨(op_both (local_assign v) (strict_assign v) hs ht p (fun e => hub (by rw [e]))).1, fun _ => hsp.1⟩
    | construct v q k h =>
      rw [hcode] at hp hub hsp; simp only [Code.exec] at hub; cases hp
      exact ⟨(op_both (local_construct v) (strict_construct v) hs ht p (fun e => hub (by rw [e]))).1, fun _ => hsp.1⟩
    | destroy q k =>
      rw [hcode] at hp hub hsp; simp only [Code.exec] at hub; cases hp
      exact ⟨(op_both local_destroy strict_destroy hs ht p (fun e => hub (by rw [e]))).1, fun _ => hsp.1⟩
    | dealloc al q n k =>
      rw [hcode] at hp hub hsp; simp only [Code.exec] at hub; cases hp
      exact ⟨(op_both (local_dealloc al n) (strict_dealloc al n) hs ht p (fun e => hub (by rw [e]))).1, fun _ => hsp.1⟩
    | ret a => rw [hcode] at hp; cases hp
    | throw => rw [hcode] at hp; cases hp
    | assertFail => rw [hcode] at hp; cases hp
    | ub => rw [hcode] at hp; cases hp
    | alloc al n k h => rw [hcode] at hp; cases hp
  obtain ⟨h1, h2⟩ := key i t p w ht hp
  obtain ⟨h1', h2'⟩ := key j t' p' w' ht' hp'
  rcases hs.apart _ _ _ _ _ _ ht ht' h1 h1' he with ⟨e, _⟩ | ⟨b1, b2⟩
  · exact hij e
  · rcases hw with hw | hw
    · exact h2 hw b1
    · exact h2' hw b2

theorem CRun_append {c c1 c2 : CPool T α} {is js : List Nat} (h : CRun c is c1) (h' : CRun c1 js c2) : CRun c (is ++ js) c2 := by
  induction h with
  | nil => exact h'
  | cons hst _ ih => exact .cons hst (ih h')

theorem finish_one {B : Nat → Nat → Prop} {c : CPool T α} {ms : Nat → St T} (hs : c.Splits ms B)
    (hc : ∀ (i : Nat) (t : CThread T α), c.threads[i]? = some t → t.code.Completes (ms i))
    (hsp : ∀ (i : Nat) (t : CThread T α), c.threads[i]? = some t → t.code.Spares (B i) (ms i)) {i : Nat} {t : CThread T α} (ht : c.threads[i]? = some t)
    (n : Nat) (hn : t.code.steps (ms i) = n) :
    ∃ is c' t', CRun c is c' ∧ c'.threads[i]? = some t' ∧ t'.Ended ∧ ∀ j, j ≠ i → c'.threads[j]? = c.threads[j]? := by
  induction n generalizing c ms t with
  | zero => exact ⟨[], c, t, .nil, ht, steps_ended (hc _ _ ht) hn, fun _ _ => rfl⟩
  | succ n ih =>
    obtain ⟨c1, hstep⟩ := step_exists hs ht (hc _ _ ht) (fun hE => by rw [ended_steps hE] at hn; cases hn)
    obtain ⟨t1, m1, sim⟩ := step_sim hs ht (hc _ _ ht) (hsp _ _ ht) hstep
    have ht1 : c1.threads[i]? = some t1 := by rw [sim.threads]; exact set_self ht
    have hoth : ∀ j, j ≠ i → c1.threads[j]? = c.threads[j]? := fun j hj => by rw [sim.threads, List.getElem?_set_ne (Ne.symm hj)]
    have hst := sim.steps
    obtain ⟨is, c', t', h1, h2, h3, h4⟩ := ih (ms := updMem ms i m1) sim.mem.splits
      (by
        intro j t' h
        by_cases hj : j = i
        · subst hj
          rw [ht1] at h; cases h
          rw [updMem_self]
          unfold Code.Completes
          rw [sim.exec]; exact hc _ _ ht
        · rw [updMem_ne _ _ hj]
          rw [hoth j hj] at h
          exact hc _ _ h)
      (by
        intro j t' h
        by_cases hj : j = i
        · subst hj
          rw [ht1] at h; cases h
          rw [updMem_self]
          exact sim.spares
        · rw [updMem_ne _ _ hj]
          rw [hoth j hj] at h
          exact hsp _ _ h)
      ht1 (by rw [updMem_self]; omega)
    exact ⟨i :: is, c', t', .cons hstep h1, h2, h3, fun j hj => by rw [h4 j hj, hoth j hj]⟩

/-- All threads can be run to their ends. -/
theorem finish_all {B : Nat → Nat → Prop} {c : CPool T α} {ms : Nat → St T} (hs : c.Splits ms B)
    (hc : ∀ (i : Nat) (t : CThread T α), c.threads[i]? = some t → t.code.Completes (ms i))
    (hsp : ∀ (i : Nat) (t : CThread T α), c.threads[i]? = some t → t.code.Spares (B i) (ms i)) : ∃ is c', CRun c is c' ∧ c'.Ended := by
  have key : ∀ k, k ≤ c.threads.length → ∃ is c', CRun c is c' ∧ ∀ i t, i < k → c'.threads[i]? = some t → t.Ended := by
    intro k
    induction k with
    | zero => exact fun _ => ⟨[], c, .nil, fun i t h => absurd h (Nat.not_lt_zero i)⟩
    | succ k ih =>
      intro hk
      obtain ⟨is, c1, h1, h2⟩ := ih (by omega)
      obtain ⟨ms1, r⟩ := run_sim hs hc hsp h1
      have hold : ∀ (i : Nat) (t' : CThread T α), c1.threads[i]? = some t' → ∃ t, c.threads[i]? = some t := by
        intro i t' h
        have hi : i < c1.threads.length := by
          rcases Nat.lt_or_ge i c1.threads.length with h' | h'
          · exact h'
          · rw [List.getElem?_eq_none h'] at h; cases h
        rw [r.len] at hi
        exact ⟨_, List.getElem?_eq_getElem hi⟩
      have hk0 : k < c1.threads.length := by rw [r.len]; omega
      have hk1 : c1.threads[k]? = some c1.threads[k] := List.getElem?_eq_getElem hk0
      obtain ⟨js, c2, t', h3, h4, h5, h6⟩ := finish_one r.splits
        (fun i t' h => by
          obtain ⟨t, ht⟩ := hold i t' h
          unfold Code.Completes
          rw [(r.thread _ _ _ ht h).1]
          exact hc _ _ ht)
        (fun i t' h => by
          obtain ⟨t, ht⟩ := hold i t' h
          exact (r.thread _ _ _ ht h).2.2.1) hk1 _ rfl
      refine ⟨is ++ js, c2, CRun_append h1 h3, fun i t hi ht => ?_⟩
      by_cases e : i = k
      · subst e
        rw [h4] at ht; cases ht; exact h5
      · rw [h6 i e] at ht
        exact h2 i t (by omega) ht
  obtain ⟨is, c', h1, h2⟩ := key _ (Nat.le_refl _)
  obtain ⟨_, r⟩ := run_sim hs hc hsp h1
  refine ⟨is, c', h1, fun t ht => ?_⟩
  obtain ⟨i, ht⟩ := List.mem_iff_getElem?.mp ht
  refine h2 i t ?_ ht
  rw [← r.len]
  rcases Nat.lt_or_ge i c'.threads.length with h' | h'
  · exact h'
  · rw [List.getElem?_eq_none h'] at ht; cases ht

end MultiArray
