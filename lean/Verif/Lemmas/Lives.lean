import Verif.Lemmas.Log

/- Logs respect object lifetimes. -/
set_option autoImplicit false

namespace MultiArray
open Spec
variable {T α β : Type}

/-! ### What one operation does -/

theorem assignCell_inv {p : Ptr} {v : T} {s s' : St T} (h : assignCell p v s = .ok () s' ∨ assignCell p v s = .throw s') :
    (∃ old, s.get? p = some old) ∧ (∃ w, ∀ q, s'.cell? q = if q = p then some (.obj w) else s.cell? q) ∧ SameBlocks s s' := by
  cases hg : s.get? p with
  | none => rcases h with h | h <;> simp [assignCell, hg] at h
  | some old =>
    refine ⟨⟨old, rfl⟩, ?_⟩
    rcases sched_cases s with hs | ⟨junk, fs, hs⟩
    · obtain ⟨s1, h1, h2, h3, _⟩ := assignCell_ok hg v hs
      rw [h1] at h
      rcases h with h | h <;> cases h
      exact ⟨⟨_, h2⟩, h3⟩
    · obtain ⟨s1, h1, h2, h3, _⟩ := assignCell_throw hg v junk hs
      rw [h1] at h
      rcases h with h | h <;> cases h
      exact ⟨⟨_, h2⟩, h3⟩

theorem constructCell_inv {p : Ptr} {v : T} {s : St T} :
    (∀ s', constructCell v p s = .ok () s' → s.cell? p = some .raw ∧ (∀ q, s'.cell? q = if q = p then some (.obj v) else s.cell? q) ∧ SameBlocks s s') ∧
    (∀ s', constructCell v p s = .throw s' → s.cell? p = some .raw ∧ s'.heap = s.heap ∧ s'.next = s.next) := by
  cases hg : s.cell? p with
  | none => constructor <;> intro s' h <;> simp [constructCell, hg] at h
  | some c =>
    cases c with
    | obj w => constructor <;> intro s' h <;> simp [constructCell, hg] at h
    | raw =>
      rcases sched_cases s with hs | ⟨junk, fs, hs⟩
      · obtain ⟨s1, h1, h2, h3, _⟩ := constructCell_ok v hg hs
        rw [h1]
        constructor <;> intro s' h <;> cases h
        exact ⟨rfl, h2, h3⟩
      · have h1 : constructCell v p s = .throw { s with sched := fs } := by simp only [constructCell, hg, hs]
        rw [h1]
        constructor <;> intro s' h <;> cases h
        exact ⟨rfl, rfl, rfl⟩

theorem destroyCell_inv {p : Ptr} {s s' : St T} (h : destroyCell p s = .ok () s') :
    (∃ old, s.get? p = some old) ∧ (∀ q, s'.cell? q = if q = p then some .raw else s.cell? q) ∧ SameBlocks s s' := by
  cases hg : s.get? p with
  | none => simp [destroyCell, hg] at h
  | some old =>
    obtain ⟨s1, h1, h2, h3, _⟩ := destroyCell_ok hg
    rw [h1] at h
    cases h
    exact ⟨⟨old, rfl⟩, h2, h3⟩

theorem load_inv {p : Ptr} {s s' : St T} {v : T} (h : load p s = .ok v s') : s.get? p = some v ∧ s' = s := by
  unfold load at h
  cases hg : s.get? p with
  | none => simp [hg] at h
  | some w => simp only [hg] at h; cases h; exact ⟨rfl, rfl⟩

/-! ### Lifetimes -/

theorem lives_ext {L L' : Lives} (h1 : ∀ b, L.block b = L'.block b) (h2 : ∀ p, L.live p ↔ L'.live p) : L = L' := by
  obtain ⟨b, l⟩ := L
  obtain ⟨b', l'⟩ := L'
  have e1 : b = b' := funext h1
  have e2 : l = l' := funext fun p => propext (h2 p)
  rw [e1, e2]

theorem lives_len (s : St T) (b : Nat) : (livesOf s).block b = s.len b := rfl

theorem live_iff (s : St T) (p : Ptr) : (livesOf s).live p ↔ ∃ v, s.cell? p = some (.obj v) := by
  show (∃ v, s.get? p = some v) ↔ _
  simp only [St.get?_eq_some]

theorem has_of_cell {s : St T} {p : Ptr} {c : Cell T} (h : s.cell? p = some c) : (livesOf s).Has p := by
  unfold St.cell? at h
  cases hb : s.heap p.blk with
  | none => simp [hb] at h
  | some blk =>
    simp only [hb] at h
    split at h
    · rename_i h0
      refine ⟨blk.provider, blk.cells.length, by simp [livesOf, hb], h0, ?_⟩
      have := (List.getElem?_eq_some_iff.mp h).1
      omega
    · cases h

theorem sane_same {s s' : St T} (h : SameBlocks s s') (hs : SaneHeap s) : SaneHeap s' := by
  refine ⟨by rw [h.next]; exact hs.1, fun b hb => ?_⟩
  have h1 := h.len b
  have h2 := hs.2 b (by rw [h.next] at hb; exact hb)
  simp only [St.len, h2, Option.map_none, Option.map_eq_none_iff] at h1
  exact h1

/-- One operation: it respects lifetimes, and only the cells it may change change. -/
structure Stepped (s : St T) (e : Event) (s' : St T) : Prop where
  allows : (livesOf s).Allows e (livesOf s')
  sane : SaneHeap s'
  frame : ∀ p, ¬ e.Changes p → s'.cell? p = s.cell? p

theorem stepped_load {p : Ptr} {s s' : St T} {v : T} (hs : SaneHeap s) (h : load p s = .ok v s') : Stepped s (.read p) s' := by
  obtain ⟨h1, rfl⟩ := load_inv h
  exact ⟨.read ⟨v, h1⟩, hs, fun _ _ => rfl⟩

theorem lives_assigned {s s' : St T} {p : Ptr} {w : T} (hp : ∃ old, s.get? p = some old) (hc : ∀ q, s'.cell? q = if q = p then some (.obj w) else s.cell? q) (hb : SameBlocks s s') :
    livesOf s' = livesOf s := by
  refine lives_ext (fun b => hb.len b) (fun q => ?_)
  rw [live_iff, live_iff, hc q]
  by_cases hq : q = p
  · subst hq
    rw [if_pos rfl]
    exact ⟨fun _ => by obtain ⟨o, ho⟩ := hp; exact ⟨o, St.get?_eq_some.mp ho⟩, fun _ => ⟨w, rfl⟩⟩
  · rw [if_neg hq]

theorem stepped_assign {p : Ptr} {v : T} {s s' : St T} (hs : SaneHeap s) :
    (assignCell p v s = .ok () s' → Stepped s (.assign p) s') ∧ (assignCell p v s = .throw s' → Stepped s (.assignThrew p) s') := by
  constructor
  · intro h
    obtain ⟨h1, ⟨w, h2⟩, h3⟩ := assignCell_inv (.inl h)
    refine ⟨?_, sane_same h3 hs, fun q hq => by rw [h2 q, if_neg (fun e => hq e.symm)]⟩
    rw [lives_assigned h1 h2 h3]
    exact .assign h1
  · intro h
    obtain ⟨h1, ⟨w, h2⟩, h3⟩ := assignCell_inv (.inr h)
    refine ⟨?_, sane_same h3 hs, fun q hq => by rw [h2 q, if_neg (fun e => hq e.symm)]⟩
    rw [lives_assigned h1 h2 h3]
    exact .assignThrew h1

theorem not_live_raw {s : St T} {p : Ptr} (h : s.cell? p = some .raw) : ¬ (livesOf s).live p := by
  rw [live_iff]
  rintro ⟨v, hv⟩
  rw [h] at hv; cases hv

theorem stepped_construct {p : Ptr} {v : T} {s s' : St T} (hs : SaneHeap s) :
    (constructCell v p s = .ok () s' → Stepped s (.construct p) s') ∧ (constructCell v p s = .throw s' → Stepped s (.constructThrew p) s') := by
  constructor
  · intro h
    obtain ⟨h1, h2, h3⟩ := constructCell_inv.1 s' h
    refine ⟨?_, sane_same h3 hs, fun q hq => by rw [h2 q, if_neg (fun e => hq e.symm)]⟩
    have e : livesOf s' = ⟨(livesOf s).block, fun q => q = p ∨ (livesOf s).live q⟩ := by
      refine lives_ext (fun b => h3.len b) (fun q => ?_)
      show (livesOf s').live q ↔ q = p ∨ (livesOf s).live q
      rw [live_iff, live_iff, h2 q]
      by_cases hq : q = p
      · rw [if_pos hq]; exact ⟨fun _ => .inl hq, fun _ => ⟨v, rfl⟩⟩
      · rw [if_neg hq]; exact ⟨.inr, fun h => h.resolve_left hq⟩
    rw [e]
    exact .construct (has_of_cell h1) (not_live_raw h1)
  · intro h
    obtain ⟨h1, h2, h3⟩ := constructCell_inv.2 s' h
    have hc : ∀ q, s'.cell? q = s.cell? q := fun q => by unfold St.cell?; rw [h2]
    refine ⟨?_, ⟨by rw [h3]; exact hs.1, fun b hb => by rw [h2]; exact hs.2 b (by rw [← h3]; exact hb)⟩, fun q _ => hc q⟩
    have e : livesOf s' = livesOf s := by
      refine lives_ext (fun b => by show (s'.heap b).map _ = (s.heap b).map _; rw [h2]) (fun q => ?_)
      rw [live_iff, live_iff, hc q]
    rw [e]
    exact .constructThrew (has_of_cell h1) (not_live_raw h1)

theorem stepped_destroy {p : Ptr} {s s' : St T} (hs : SaneHeap s) (h : destroyCell p s = .ok () s') : Stepped s (.destroy p) s' := by
  obtain ⟨h1, h2, h3⟩ := destroyCell_inv h
  refine ⟨?_, sane_same h3 hs, fun q hq => by rw [h2 q, if_neg (fun e => hq e.symm)]⟩
  have e : livesOf s' = ⟨(livesOf s).block, fun q => q ≠ p ∧ (livesOf s).live q⟩ := by
    refine lives_ext (fun b => h3.len b) (fun q => ?_)
    show (livesOf s').live q ↔ q ≠ p ∧ (livesOf s).live q
    rw [live_iff, live_iff, h2 q]
    by_cases hq : q = p
    · rw [if_pos hq]
      exact ⟨fun ⟨v, hv⟩ => (by cases hv), fun h => absurd hq h.1⟩
    · rw [if_neg hq]; exact ⟨fun h => ⟨hq, h⟩, fun h => h.2⟩
  rw [e]
  exact .destroy h1

theorem stepped_alloc {al n : Nat} {s : St T} (hs : SaneHeap s) :
    (∀ p s', allocate al n s = .ok p s' → Stepped s (.allocate al n p) s') ∧ (∀ s', allocate al n s = .throw s' → Stepped s (.allocateThrew al n) s') := by
  rcases sched_cases s with h | ⟨junk, fs, h⟩
  · rw [allocate_ok al n s h]
    refine ⟨fun p s' he => ?_, fun s' he => (by cases he)⟩
    cases he
    have hnone := hs.2 s.next (Nat.le_refl _)
    have hcell : ∀ q : Ptr, q.blk ≠ s.next → ({ heap := fun b => if b = s.next then some ⟨al, List.replicate n .raw⟩ else s.heap b, next := s.next + 1, sched := s.sched.tail } : St T).cell? q = s.cell? q := by
      intro q hq
      unfold St.cell?
      simp only [if_neg hq]
    refine ⟨?_, ⟨Nat.succ_pos _, fun b hb => ?_⟩, fun q hq => hcell q (fun e => hq e.symm)⟩
    · have e : livesOf ({ heap := fun b => if b = s.next then some ⟨al, List.replicate n .raw⟩ else s.heap b, next := s.next + 1, sched := s.sched.tail } : St T) =
          ⟨fun b => if b = (⟨s.next, 0⟩ : Ptr).blk then some (al, n) else (livesOf s).block b, (livesOf s).live⟩ := by
        refine lives_ext (fun b => ?_) (fun q => ?_)
        · by_cases hb : b = s.next <;> simp [livesOf, hb]
        · show (livesOf _).live q ↔ (livesOf s).live q
          rw [live_iff, live_iff]
          by_cases hq : q.blk = s.next
          · constructor
            · rintro ⟨v, hv⟩
              unfold St.cell? at hv
              simp only [if_pos hq] at hv
              split at hv
              · have := List.mem_of_getElem? hv
                simp at this
              · cases hv
            · rintro ⟨v, hv⟩
              unfold St.cell? at hv
              rw [hq, hnone] at hv
              cases hv
          · rw [hcell q hq]
      rw [e]
      exact .allocate rfl (by show (s.heap s.next).map _ = none; rw [hnone]; rfl)
    · have : s.next + 1 ≤ b := hb
      show (if b = s.next then _ else s.heap b) = none
      rw [if_neg (by omega)]
      exact hs.2 b (by omega)
  · rw [allocate_throw al n s junk fs h]
    refine ⟨fun p s' he => (by cases he), fun s' he => ?_⟩
    cases he
    exact ⟨.allocateThrew, hs, fun _ _ => rfl⟩

theorem stepped_dealloc {al n : Nat} {p : Ptr} {s s' : St T} (hs : SaneHeap s) (h : deallocate al p n s = .ok () s') : Stepped s (.release al p n) s' := by
  unfold deallocate at h
  cases hb : s.heap p.blk with
  | none => simp [hb] at h
  | some blk =>
    simp only [hb] at h
    split at h
    · rename_i hc
      obtain ⟨h1, h2, h3, h4⟩ := hc
      cases h
      have hcell : ∀ q : Ptr, q.blk ≠ p.blk → ({ s with heap := fun b => if b = p.blk then none else s.heap b } : St T).cell? q = s.cell? q := by
        intro q hq
        unfold St.cell?
        simp only [if_neg hq]
      have hraw : ∀ q : Ptr, q.blk = p.blk → ¬ (livesOf s).live q := by
        intro q hq hl
        rw [live_iff] at hl
        obtain ⟨v, hv⟩ := hl
        unfold St.cell? at hv
        rw [hq, hb] at hv
        simp only at hv
        split at hv
        · have hm := List.mem_of_getElem? hv
          have := (List.all_eq_true.mp h4) _ hm
          simp [Cell.isRaw] at this
        · cases hv
      refine ⟨?_, ⟨hs.1, fun b hb' => ?_⟩, fun q hq => hcell q (fun e => hq e.symm)⟩
      · have e : livesOf ({ s with heap := fun b => if b = p.blk then none else s.heap b } : St T) =
            ⟨fun b => if b = p.blk then none else (livesOf s).block b, (livesOf s).live⟩ := by
          refine lives_ext (fun b => ?_) (fun q => ?_)
          · by_cases hb : b = p.blk <;> simp [livesOf, hb]
          · show (livesOf _).live q ↔ (livesOf s).live q
            by_cases hq : q.blk = p.blk
            · refine ⟨fun hl => ?_, fun hl => absurd hl (hraw q hq)⟩
              rw [live_iff] at hl
              obtain ⟨v, hv⟩ := hl
              unfold St.cell? at hv
              simp only [if_pos hq] at hv
              cases hv
            · rw [live_iff, live_iff, hcell q hq]
        rw [e]
        exact .release h1 (by show (s.heap p.blk).map _ = _; rw [hb, ← h2, ← h3]; rfl) hraw
      · show (if b = p.blk then none else s.heap b) = none
        split
        · rfl
        · exact hs.2 b hb'
    · cases h

/-- A whole run. -/
structure Ran (s : St T) (log : List Event) (s' : St T) : Prop where
  allows : (livesOf s).AllowsAll log (livesOf s')
  sane : SaneHeap s'
  frame : ∀ p, (∀ e ∈ log, ¬ e.Changes p) → s'.cell? p = s.cell? p

theorem Ran.nil {s : St T} (hs : SaneHeap s) : Ran s [] s := ⟨.nil, hs, fun _ _ => rfl⟩

theorem Stepped.ran {s s1 s2 : St T} {e : Event} {l : List Event} (h : Stepped s e s1) (h' : Ran s1 l s2) : Ran s (e :: l) s2 :=
  ⟨.cons h.allows h'.allows, h'.sane, fun p hp => (h'.frame p (fun e he => hp e (by simp [he]))).trans (h.frame p (hp e (by simp)))⟩

theorem code_ran (x : Code T α) {s s' : St T} (hs : SaneHeap s) (h : (∃ a, x.exec s = .ok a s') ∨ x.exec s = .throw s') : Ran s (x.log s) s' := by
  induction x generalizing s with
  | ret a =>
    rcases h with ⟨_, h⟩ | h
    · cases h; exact Ran.nil hs
    · cases h
  | throw =>
    rcases h with ⟨_, h⟩ | h
    · cases h
    · cases h; exact Ran.nil hs
  | assertFail => rcases h with ⟨_, h⟩ | h <;> cases h
  | ub => rcases h with ⟨_, h⟩ | h <;> cases h
  | load p k ih =>
    simp only [Code.exec, Code.log] at h ⊢
    cases hl : load p s with
    | ok v s1 =>
      rw [hl] at h
      exact (stepped_load hs hl).ran (ih v (stepped_load hs hl).sane h)
    | throw s1 => exact absurd hl (Code.load_not_throw _ _ _)
    | assertFail s1 => rw [hl] at h; rcases h with ⟨_, h⟩ | h <;> cases h
    | ub => rw [hl] at h; rcases h with ⟨_, h⟩ | h <;> cases h
  | store p v k h' ih ih' =>
    simp only [Code.exec, Code.log] at h ⊢
    cases hl : assignCell p v s with
    | ok u s1 =>
      rw [hl] at h
      have := (stepped_assign hs).1 hl
      exact this.ran (ih this.sane h)
    | throw s1 =>
      rw [hl] at h
      have := (stepped_assign hs).2 hl
      exact this.ran (ih' this.sane h)
    | assertFail s1 => rw [hl] at h; rcases h with ⟨_, h⟩ | h <;> cases h
    | ub => rw [hl] at h; rcases h with ⟨_, h⟩ | h <;> cases h
  | construct v p k h' ih ih' =>
    simp only [Code.exec, Code.log] at h ⊢
    cases hl : constructCell v p s with
    | ok u s1 =>
      rw [hl] at h
      have := (stepped_construct hs).1 hl
      exact this.ran (ih this.sane h)
    | throw s1 =>
      rw [hl] at h
      have := (stepped_construct hs).2 hl
      exact this.ran (ih' this.sane h)
    | assertFail s1 => rw [hl] at h; rcases h with ⟨_, h⟩ | h <;> cases h
    | ub => rw [hl] at h; rcases h with ⟨_, h⟩ | h <;> cases h
  | destroy p k ih =>
    simp only [Code.exec, Code.log] at h ⊢
    cases hl : destroyCell p s with
    | ok u s1 =>
      rw [hl] at h
      have := stepped_destroy hs hl
      exact this.ran (ih this.sane h)
    | throw s1 => exact absurd hl (Code.destroyCell_not_throw _ _ _)
    | assertFail s1 => rw [hl] at h; rcases h with ⟨_, h⟩ | h <;> cases h
    | ub => rw [hl] at h; rcases h with ⟨_, h⟩ | h <;> cases h
  | alloc al n k h' ih ih' =>
    simp only [Code.exec, Code.log] at h ⊢
    cases hl : allocate al n s with
    | ok p s1 =>
      rw [hl] at h
      have := (stepped_alloc hs).1 p s1 hl
      exact this.ran (ih p this.sane h)
    | throw s1 =>
      rw [hl] at h
      have := (stepped_alloc hs).2 s1 hl
      exact this.ran (ih' this.sane h)
    | assertFail s1 => rw [hl] at h; rcases h with ⟨_, h⟩ | h <;> cases h
    | ub => rw [hl] at h; rcases h with ⟨_, h⟩ | h <;> cases h
  | dealloc al p n k ih =>
    simp only [Code.exec, Code.log] at h ⊢
    cases hl : deallocate al p n s with
    | ok u s1 =>
      rw [hl] at h
      have := stepped_dealloc hs hl
      exact this.ran (ih this.sane h)
    | throw s1 => exact absurd hl (Code.deallocate_not_throw _ _ _ _ _)
    | assertFail s1 => rw [hl] at h; rcases h with ⟨_, h⟩ | h <;> cases h
    | ub => rw [hl] at h; rcases h with ⟨_, h⟩ | h <;> cases h

/-! ### Counting -/

open Classical in
theorem counts_live {L L' : Lives} {log : List Event} (h : L.AllowsAll log L') (p : Ptr) :
    (if L.live p then 1 else 0) + log.count (.construct p) = log.count (.destroy p) + (if L'.live p then 1 else 0) := by
  induction h with
  | nil => simp
  | cons h1 _ ih =>
    cases h1 with
    | read h => simpa using ih
    | assign h => simpa using ih
    | assignThrew h => simpa using ih
    | constructThrew h h' => simpa using ih
    | allocateThrew => simpa using ih
    | allocate h h' => simpa using ih
    | release h h' h'' => simpa using ih
    | @construct q h h' =>
      by_cases hq : q = p
      · subst hq
        simp [h'] at ih ⊢
        omega
      · have hq' : ¬ p = q := fun e => hq e.symm
        simp [hq, hq'] at ih ⊢
        omega
    | @destroy q h =>
      by_cases hq : q = p
      · subst hq
        simp [h] at ih ⊢
        omega
      · have hq' : ¬ p = q := fun e => hq e.symm
        simp [hq, hq'] at ih ⊢
        omega

open Classical in
theorem counts_blocks {L L' : Lives} {log : List Event} (h : L.AllowsAll log L') (al n b : Nat) :
    (if L.block b = some (al, n) then 1 else 0) + log.count (.allocate al n ⟨b, 0⟩) = log.count (.release al ⟨b, 0⟩ n) + (if L'.block b = some (al, n) then 1 else 0) := by
  induction h with
  | nil => simp
  | cons h1 _ ih =>
    cases h1 with
    | read h => simpa using ih
    | assign h => simpa using ih
    | assignThrew h => simpa using ih
    | constructThrew h h' => simpa using ih
    | allocateThrew => simpa using ih
    | construct h h' => simpa using ih
    | destroy h => simpa using ih
    | @allocate al' n' p h h' =>
      obtain ⟨pb, po⟩ := p
      simp only at h h' ih
      subst h
      by_cases hb : b = pb
      · subst hb
        simp only [h', if_true, Option.some.injEq, Prod.mk.injEq] at ih ⊢
        by_cases hq : al' = al ∧ n' = n
        · obtain ⟨rfl, rfl⟩ := hq
          simp at ih ⊢
          omega
        · have : ¬ (Event.allocate al' n' ⟨b, 0⟩ = Event.allocate al n ⟨b, 0⟩) := fun e => by
            simp only [Event.allocate.injEq] at e; exact hq ⟨e.1, e.2.1⟩
          rw [if_neg hq] at ih
          rw [List.count_cons_of_ne this, List.count_cons_of_ne (by simp)]
          simpa using ih
      · have : ¬ (Event.allocate al' n' ⟨pb, 0⟩ = Event.allocate al n ⟨b, 0⟩) := fun e => by
          simp only [Event.allocate.injEq, Ptr.mk.injEq] at e; exact hb e.2.2.1.symm
        simp only [if_neg hb] at ih
        rw [List.count_cons_of_ne this, List.count_cons_of_ne (by simp)]
        exact ih
    | @release al' n' p h h' h'' =>
      obtain ⟨pb, po⟩ := p
      simp only at h h' ih
      subst h
      by_cases hb : b = pb
      · subst hb
        simp only [h', if_true, Option.some.injEq, Prod.mk.injEq] at ih ⊢
        by_cases hq : al' = al ∧ n' = n
        · obtain ⟨rfl, rfl⟩ := hq
          simp at ih ⊢
          omega
        · have : ¬ (Event.release al' ⟨b, 0⟩ n' = Event.release al ⟨b, 0⟩ n) := fun e => by
            simp only [Event.release.injEq] at e; exact hq ⟨e.1, e.2.2⟩
          rw [List.count_cons_of_ne (by simp), List.count_cons_of_ne this, if_neg hq]
          simpa using ih
      · have : ¬ (Event.release al' ⟨pb, 0⟩ n' = Event.release al ⟨b, 0⟩ n) := fun e => by
          simp only [Event.release.injEq, Ptr.mk.injEq] at e; exact hb e.2.1.1.symm
        simp only [if_neg hb] at ih
        rw [List.count_cons_of_ne (by simp), List.count_cons_of_ne this]
        exact ih

end MultiArray
