import Verif.Lemmas.Iter
import Verif.Model.MultiArr
import Verif.SpecMem

/- Memory: single operations, sequences of element copies. -/
set_option autoImplicit false

namespace MultiArray
open Spec
variable {T α β γ : Type}

/-! ### The Exec monad -/

instance : LawfulMonad (Exec T) := LawfulMonad.mk'
  (id_map := by
    intro α x; funext s
    show Exec.bind x _ s = _
    unfold Exec.bind; cases x s <;> rfl)
  (pure_bind := by intros; rfl)
  (bind_assoc := by
    intro α β γ x f g; funext s
    show Exec.bind (Exec.bind x f) g s = Exec.bind x _ s
    unfold Exec.bind; cases x s <;> rfl)

theorem Exec.bind_ok {x : Exec T α} {f : α → Exec T β} {s s' : St T} {a : α} (h : x s = .ok a s') :
    (x >>= f) s = f a s' := by
  show Exec.bind x f s = _; unfold Exec.bind; rw [h]

theorem Exec.bind_throw {x : Exec T α} {f : α → Exec T β} {s s' : St T} (h : x s = .throw s') :
    (x >>= f) s = .throw s' := by
  show Exec.bind x f s = _; unfold Exec.bind; rw [h]

theorem Exec.bind_assertFail {x : Exec T α} {f : α → Exec T β} {s s' : St T} (h : x s = .assertFail s') :
    (x >>= f) s = .assertFail s' := by
  show Exec.bind x f s = _; unfold Exec.bind; rw [h]

theorem Exec.bind_ub {x : Exec T α} {f : α → Exec T β} {s : St T} (h : x s = .ub) : (x >>= f) s = .ub := by
  show Exec.bind x f s = _; unfold Exec.bind; rw [h]

theorem Exec.pure_apply (a : α) (s : St T) : (pure a : Exec T α) s = .ok a s := rfl

@[simp] theorem Exec.lift_ok (a : α) : (Exec.lift (.ok a) : Exec T α) = pure a := rfl

@[simp] theorem assertE_true (dbg : Bool) : (assertE dbg true : Exec T Unit) = pure () := by
  simp [assertE]

/-! ### Memory states -/

/-- Provider and length of a live block. -/
def St.len (s : St T) (b : Nat) : Option (Nat × Nat) := (s.heap b).map (fun k => (k.provider, k.cells.length))

/-- Same live blocks with the same sizes, same allocation counter. -/
structure SameBlocks (s s' : St T) : Prop where
  len : ∀ b, s'.len b = s.len b
  next : s'.next = s.next

theorem SameBlocks.refl (s : St T) : SameBlocks s s := ⟨fun _ => rfl, rfl⟩
theorem SameBlocks.trans {s s' s'' : St T} (h : SameBlocks s s') (h' : SameBlocks s' s'') : SameBlocks s s'' :=
  ⟨fun b => (h'.len b).trans (h.len b), h'.next.trans h.next⟩

theorem St.get?_eq_some {s : St T} {p : Ptr} {v : T} : s.get? p = some v ↔ s.cell? p = some (.obj v) := by
  unfold St.get?
  cases s.cell? p with
  | none => simp
  | some c => cases c <;> simp

theorem St.cell?_withSched (s : St T) (l : List (Option T)) (p : Ptr) : ({ s with sched := l } : St T).cell? p = s.cell? p :=
  rfl

theorem St.cell?_setCell {s : St T} {p : Ptr} {c0 : Cell T} (h : s.cell? p = some c0) (c : Cell T) (q : Ptr) :
    (s.setCell p c).cell? q = if q = p then some c else s.cell? q := by
  unfold St.cell? at h
  unfold St.setCell
  cases hh : s.heap p.blk with
  | none => rw [hh] at h; simp at h
  | some blk =>
    rw [hh] at h
    simp only at h
    by_cases hoff : 0 ≤ p.off
    · rw [if_pos hoff] at h
      have hlt : p.off.toNat < blk.cells.length := by
        by_contra hc
        rw [List.getElem?_eq_none (by omega)] at h
        cases h
      simp only [St.cell?]
      by_cases hb : q.blk = p.blk
      · rw [if_pos hb]
        simp only [hb, hh]
        by_cases hq : 0 ≤ q.off
        · rw [if_pos hq]
          by_cases heq : q = p
          · subst heq; simp [hlt]
          · rw [if_neg heq]
            have : p.off.toNat ≠ q.off.toNat := by
              intro h'
              apply heq
              obtain ⟨a, b⟩ := p; obtain ⟨c, d⟩ := q
              simp only at hb hq hoff h'
              simp only [Ptr.mk.injEq]; omega
            rw [List.getElem?_set_ne this, if_pos hq]
        · rw [if_neg hq, if_neg hq]
          rw [if_neg (by intro h'; rw [h'] at hq; exact hq hoff)]
      · rw [if_neg hb, if_neg (by intro h'; rw [h'] at hb; exact hb rfl)]
    · rw [if_neg hoff] at h; cases h

theorem St.len_setCell (s : St T) (p : Ptr) (c : Cell T) (b : Nat) : (s.setCell p c).len b = s.len b := by
  unfold St.setCell
  cases hh : s.heap p.blk with
  | none => rfl
  | some cells =>
    simp only [St.len]
    by_cases hb : b = p.blk
    · rw [if_pos hb, hb, hh]; simp
    · rw [if_neg hb]

theorem St.next_setCell (s : St T) (p : Ptr) (c : Cell T) : (s.setCell p c).next = s.next := by
  unfold St.setCell
  cases s.heap p.blk <;> rfl

theorem St.sched_setCell (s : St T) (p : Ptr) (c : Cell T) : (s.setCell p c).sched = s.sched := by
  unfold St.setCell
  cases s.heap p.blk <;> rfl

theorem sameBlocks_setCell (s : St T) (l : List (Option T)) (p : Ptr) (c : Cell T) :
    SameBlocks s (({ s with sched := l } : St T).setCell p c) :=
  ⟨fun b => by rw [St.len_setCell]; rfl, by rw [St.next_setCell]⟩

/-- No throw among the next `m` throwing operations. -/
def NoThrow (m : Nat) (sched : List (Option T)) : Prop := ∀ x ∈ sched.take m, x = none

theorem NoThrow.nil (m : Nat) : NoThrow (T := T) m [] := by simp [NoThrow]

theorem noThrow_succ {m : Nat} {sched : List (Option T)} (h : NoThrow (m + 1) sched) :
    (sched = [] ∨ ∃ fs, sched = none :: fs) ∧ NoThrow m sched.tail := by
  cases sched with
  | nil => exact ⟨.inl rfl, by simp [NoThrow]⟩
  | cons f fs =>
    have hf := h f (by simp)
    exact ⟨.inr ⟨fs, by rw [hf]⟩, fun x hx => h x (by simp at hx ⊢; exact .inr hx)⟩

/-- Assignment to a live object when the next operation does not throw. -/
theorem assignCell_ok {s : St T} {p : Ptr} {old : T} (hp : s.get? p = some old) (v : T)
    (hs : s.sched = [] ∨ ∃ fs, s.sched = none :: fs) :
    ∃ s', assignCell p v s = .ok () s' ∧ (∀ q, s'.cell? q = if q = p then some (.obj v) else s.cell? q) ∧
      SameBlocks s s' ∧ s'.sched = s.sched.tail := by
  have hc := St.get?_eq_some.mp hp
  rcases hs with hs | ⟨fs, hs⟩
  · refine ⟨_, by simp only [assignCell, hp, hs], St.cell?_setCell hc _, ⟨St.len_setCell _ _ _, St.next_setCell _ _ _⟩, ?_⟩
    rw [St.sched_setCell, hs]; rfl
  · refine ⟨({ s with sched := fs } : St T).setCell p (.obj v), by simp only [assignCell, hp, hs], ?_,
      sameBlocks_setCell _ _ _ _, ?_⟩
    · intro q
      rw [St.cell?_setCell (s := { s with sched := fs }) (by rw [St.cell?_withSched]; exact hc)]
      rfl
    · rw [St.sched_setCell, hs]; rfl

/-- Assignment to a live object when it throws. -/
theorem assignCell_throw {s : St T} {p : Ptr} {old : T} (hp : s.get? p = some old) (v junk : T)
    {fs : List (Option T)} (hs : s.sched = some junk :: fs) :
    ∃ s', assignCell p v s = .throw s' ∧ (∀ q, s'.cell? q = if q = p then some (.obj junk) else s.cell? q) ∧
      SameBlocks s s' ∧ s'.sched = fs := by
  have hc := St.get?_eq_some.mp hp
  refine ⟨({ s with sched := fs } : St T).setCell p (.obj junk), by simp only [assignCell, hp, hs], ?_,
    sameBlocks_setCell _ _ _ _, ?_⟩
  · intro q
    rw [St.cell?_setCell (s := { s with sched := fs }) (by rw [St.cell?_withSched]; exact hc)]
    rfl
  · rw [St.sched_setCell]

theorem load_ok {s : St T} {p : Ptr} {v : T} (h : s.get? p = some v) : load p s = .ok v s := by
  unfold load; rw [h]

/-! ### Sequences of element copies -/

/-- Copy one element at a time: each pair is (source, destination). -/
def copySeq : List (Ptr × Ptr) → Exec T Unit
  | [] => pure ()
  | (src, dst) :: ps => do
    let v ← load src
    assignCell dst v
    copySeq ps

theorem copySeq_append (l1 l2 : List (Ptr × Ptr)) :
    (copySeq (l1 ++ l2) : Exec T Unit) = (do copySeq l1; copySeq l2) := by
  induction l1 with
  | nil => simp [copySeq]
  | cons p l1 ih => obtain ⟨a, b⟩ := p; simp only [List.cons_append, copySeq, ih, bind_assoc]

/-- All element copies succeed: every destination gets its source's initial value, everything else is unchanged. -/
theorem copySeq_ok (ps : List (Ptr × Ptr)) (s : St T)
    (hsrc : ∀ p ∈ ps, ∃ v, s.get? p.1 = some v) (hdst : ∀ p ∈ ps, ∃ v, s.get? p.2 = some v)
    (hnd : (ps.map Prod.snd).Nodup) (hdisj : ∀ p ∈ ps, ∀ q ∈ ps, p.1 ≠ q.2) (hthrow : NoThrow ps.length s.sched) :
    ∃ s', copySeq ps s = .ok () s' ∧ (∀ p ∈ ps, s'.cell? p.2 = s.cell? p.1) ∧
      (∀ q, q ∉ ps.map Prod.snd → s'.cell? q = s.cell? q) ∧ SameBlocks s s' ∧ s'.sched = s.sched.drop ps.length := by
  induction ps generalizing s with
  | nil => exact ⟨s, rfl, by simp, by simp, .refl s, by simp⟩
  | cons p ps ih =>
    obtain ⟨a, b⟩ := p
    obtain ⟨v, hv⟩ := hsrc (a, b) (by simp)
    obtain ⟨w, hw⟩ := hdst (a, b) (by simp)
    simp only at hv hw
    obtain ⟨hs1, hs2⟩ := noThrow_succ hthrow
    obtain ⟨s1, h1, h2, h3, h4⟩ := assignCell_ok hw v hs1
    simp only [List.map_cons, List.nodup_cons] at hnd
    have hkeep : ∀ q, q ≠ b → s1.cell? q = s.cell? q := fun q hq => by rw [h2, if_neg hq]
    have hne1 : ∀ q ∈ ps, q.1 ≠ b := fun q hq => hdisj q (by simp [hq]) (a, b) (by simp)
    have hne2 : ∀ q ∈ ps, q.2 ≠ b := by
      rintro q hq rfl
      exact hnd.1 (List.mem_map.mpr ⟨q, hq, rfl⟩)
    obtain ⟨s', e1, e2, e3, e4, e5⟩ := ih s1
      (fun q hq => by
        obtain ⟨x, hx⟩ := hsrc q (by simp [hq])
        exact ⟨x, by rw [St.get?_eq_some, hkeep _ (hne1 q hq)]; exact St.get?_eq_some.mp hx⟩)
      (fun q hq => by
        obtain ⟨x, hx⟩ := hdst q (by simp [hq])
        exact ⟨x, by rw [St.get?_eq_some, hkeep _ (hne2 q hq)]; exact St.get?_eq_some.mp hx⟩)
      hnd.2 (fun q hq r hr => hdisj q (by simp [hq]) r (by simp [hr])) (by rw [h4]; exact hs2)
    refine ⟨s', ?_, ?_, ?_, h3.trans e4, ?_⟩
    · simp only [copySeq]
      rw [Exec.bind_ok (load_ok hv), Exec.bind_ok h1, e1]
    · intro q hq
      rcases List.mem_cons.mp hq with rfl | hq
      · simp only
        rw [e3 b hnd.1, h2, if_pos rfl, St.get?_eq_some.mp hv]
      · rw [e2 q hq, hkeep _ (hne1 q hq)]
    · intro q hq
      simp only [List.map_cons, List.mem_cons, not_or] at hq
      rw [e3 q hq.2, hkeep q hq.1]
    · rw [e5, h4]; simp

/-- Every schedule: the copies end normally or with an exception, never touch anything but the destinations, and leave
live objects there. -/
theorem copySeq_any (ps : List (Ptr × Ptr)) (s : St T)
    (hsrc : ∀ p ∈ ps, ∃ v, s.get? p.1 = some v) (hdst : ∀ p ∈ ps, ∃ v, s.get? p.2 = some v) :
    ∃ s', (copySeq ps s = .ok () s' ∨ copySeq ps s = .throw s') ∧
      (∀ q, q ∉ ps.map Prod.snd → s'.cell? q = s.cell? q) ∧
      (∀ q, (∃ v, s.get? q = some v) → ∃ v, s'.get? q = some v) ∧ SameBlocks s s' ∧
      (∃ k, s'.sched = s.sched.drop k) := by
  induction ps generalizing s with
  | nil => exact ⟨s, .inl rfl, by simp, by simp, .refl s, 0, by simp⟩
  | cons p ps ih =>
    obtain ⟨a, b⟩ := p
    obtain ⟨v, hv⟩ := hsrc (a, b) (by simp)
    obtain ⟨w, hw⟩ := hdst (a, b) (by simp)
    simp only at hv hw
    have hcont : ∀ s1 : St T, assignCell b v s = .ok () s1 → copySeq ((a, b) :: ps) s = copySeq ps s1 := by
      intro s1 h1
      simp only [copySeq]
      rw [Exec.bind_ok (load_ok hv), Exec.bind_ok h1]
    have hlive : ∀ (s1 : St T) (u : T), (∀ q, s1.cell? q = if q = b then some (.obj u) else s.cell? q) →
        ∀ q, (∃ v, s.get? q = some v) → ∃ v, s1.get? q = some v := by
      rintro s1 u h2 q ⟨x, hx⟩
      by_cases hq : q = b
      · exact ⟨u, by rw [St.get?_eq_some, h2, if_pos hq]⟩
      · exact ⟨x, by rw [St.get?_eq_some, h2, if_neg hq]; exact St.get?_eq_some.mp hx⟩
    have hok : (s.sched = [] ∨ ∃ fs, s.sched = none :: fs) →
        ∃ s', (copySeq ((a, b) :: ps) s = .ok () s' ∨ copySeq ((a, b) :: ps) s = .throw s') ∧
          (∀ q, q ∉ ((a, b) :: ps).map Prod.snd → s'.cell? q = s.cell? q) ∧
          (∀ q, (∃ v, s.get? q = some v) → ∃ v, s'.get? q = some v) ∧ SameBlocks s s' ∧
          (∃ k, s'.sched = s.sched.drop k) := fun hs => by
      obtain ⟨s1, h1, h2, h3, h4⟩ := assignCell_ok hw v hs
      obtain ⟨s', e1, e2, e3, e4, k, e5⟩ := ih s1
        (fun q hq => hlive s1 v h2 _ (hsrc q (by simp [hq]))) (fun q hq => hlive s1 v h2 _ (hdst q (by simp [hq])))
      rw [← hcont s1 h1] at e1
      exact ⟨s', e1, fun q hq => by
          simp only [List.map_cons, List.mem_cons, not_or] at hq
          rw [e2 q hq.2, h2, if_neg hq.1],
        fun q hq => e3 q (hlive s1 v h2 q hq), h3.trans e4, k + 1, by rw [e5, h4]; simp⟩
    cases hsch : s.sched with
    | nil => have := hok (.inl hsch); rwa [hsch] at this
    | cons f fs =>
      cases f with
      | none => have := hok (.inr ⟨fs, hsch⟩); rwa [hsch] at this
      | some junk =>
        obtain ⟨s1, h1, h2, h3, h4⟩ := assignCell_throw hw v junk hsch
        refine ⟨s1, .inr ?_, ?_, hlive s1 junk h2, h3, 1, by rw [h4]; simp⟩
        · simp only [copySeq]
          rw [Exec.bind_ok (load_ok hv), Exec.bind_throw h1]
        · intro q hq
          simp only [List.map_cons, List.mem_cons, not_or] at hq
          rw [h2, if_neg hq.1]

/-- The `k`-th element copy throws. -/
theorem copySeq_throw (ps qs : List (Ptr × Ptr)) (a b : Ptr) (s : St T) (junk : T) (rest : List (Option T))
    (hsrc : ∀ p ∈ ps ++ (a, b) :: qs, ∃ v, s.get? p.1 = some v)
    (hdst : ∀ p ∈ ps ++ (a, b) :: qs, ∃ v, s.get? p.2 = some v)
    (hnd : ((ps ++ (a, b) :: qs).map Prod.snd).Nodup)
    (hdisj : ∀ p ∈ ps ++ (a, b) :: qs, ∀ q ∈ ps ++ (a, b) :: qs, p.1 ≠ q.2)
    (hthrow : s.sched = List.replicate ps.length none ++ some junk :: rest) :
    ∃ s', copySeq (ps ++ (a, b) :: qs) s = .throw s' ∧ (∀ p ∈ ps, s'.cell? p.2 = s.cell? p.1) ∧
      s'.cell? b = some (.obj junk) ∧
      (∀ q, q ∉ ps.map Prod.snd → q ≠ b → s'.cell? q = s.cell? q) ∧ SameBlocks s s' ∧ s'.sched = rest := by
  obtain ⟨s1, h1, h2, h3, h4, h5⟩ := copySeq_ok ps s
    (fun p hp => hsrc p (by simp [hp])) (fun p hp => hdst p (by simp [hp]))
    (by rw [List.map_append] at hnd; exact hnd.of_append_left)
    (fun p hp q hq => hdisj p (by simp [hp]) q (by simp [hq]))
    (by
      rw [hthrow]
      intro x hx
      rw [List.take_append_of_le_length (by simp), List.take_replicate] at hx
      exact (List.mem_replicate.mp hx).2)
  have hb : b ∉ ps.map Prod.snd := by
    rw [List.map_append, List.nodup_append] at hnd
    intro hb
    exact hnd.2.2 b hb b (by simp) rfl
  have ha : a ∉ ps.map Prod.snd := by
    intro ha
    obtain ⟨q, hq, rfl⟩ := List.mem_map.mp ha
    exact hdisj (q.2, b) (by simp) q (by simp [hq]) rfl
  obtain ⟨v, hv⟩ := hsrc (a, b) (by simp)
  obtain ⟨w, hw⟩ := hdst (a, b) (by simp)
  simp only at hv hw
  have hv1 : s1.get? a = some v := by rw [St.get?_eq_some, h3 a ha]; exact St.get?_eq_some.mp hv
  have hw1 : s1.get? b = some w := by rw [St.get?_eq_some, h3 b hb]; exact St.get?_eq_some.mp hw
  have hsch : s1.sched = some junk :: rest := by
    rw [h5, hthrow, List.drop_append_of_le_length (by simp)]
    simp
  obtain ⟨s2, e1, e2, e3, e4⟩ := assignCell_throw hw1 v junk hsch
  refine ⟨s2, ?_, ?_, by rw [e2, if_pos rfl], ?_, h4.trans e3, e4⟩
  · rw [copySeq_append]
    rw [Exec.bind_ok h1]
    simp only [copySeq]
    rw [Exec.bind_ok (load_ok hv1), Exec.bind_throw e1]
  · intro p hp
    rw [e2, if_neg, h2 p hp]
    rintro rfl
    exact hb (List.mem_map.mpr ⟨p, hp, rfl⟩)
  · intro q hq1 hq2
    rw [e2, if_neg hq2, h3 q hq1]

end MultiArray
