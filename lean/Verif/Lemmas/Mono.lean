import Verif.Lemmas.Fair

/- The allocation counter never decreases: block numbers are not reused. -/
set_option autoImplicit false

namespace MultiArray
open Spec
variable {T α β : Type}

def Out.mono (n : Nat) : Out T α → Prop
  | .ok _ s | .throw s => n ≤ s.next
  | .assertFail _ => True
  | .ub => True

theorem Out.mono_le {m n : Nat} (h : m ≤ n) {r : Out T α} (hr : r.mono n) : r.mono m := by
  cases r <;> first | exact Nat.le_trans h hr | trivial

def Mono (x : Exec T α) : Prop := ∀ s, (x s).mono s.next

theorem Mono.pure (a : α) : Mono (Pure.pure a : Exec T α) := fun s => Nat.le_refl s.next

theorem Mono.lift (r : Res α) : Mono (Exec.lift r : Exec T α) := by
  intro s; cases r <;> first | exact Nat.le_refl s.next | trivial

theorem Mono.bind {x : Exec T α} {f : α → Exec T β} (hx : Mono x) (hf : ∀ a, Mono (f a)) : Mono (x >>= f) := by
  intro s
  show (Exec.bind x f s).mono s.next
  unfold Exec.bind
  have h1 := hx s
  cases h : x s with
  | ok a s' => rw [h] at h1; exact Out.mono_le h1 (hf a s')
  | throw s' => rw [h] at h1; exact h1
  | assertFail s' => trivial
  | ub => trivial

theorem Mono.onThrow {x : Exec T α} {c : Exec T Unit} (hx : Mono x) (hc : Mono c) : Mono (Exec.onThrow x c) := by
  intro s
  unfold Exec.onThrow
  have h1 := hx s
  cases h : x s with
  | ok a s' => rw [h] at h1; exact h1
  | throw s' =>
    rw [h] at h1
    have h2 := Out.mono_le h1 (hc s')
    simp only
    cases h' : c s' <;> rw [h'] at h2 <;> first | exact h2 | trivial
  | assertFail s' => trivial
  | ub => trivial

theorem Mono.load (p : Ptr) : Mono (load p : Exec T T) := by
  intro s; unfold MultiArray.load
  cases s.get? p with
  | none => trivial
  | some v => exact Nat.le_refl s.next

theorem le_setCell_next {n : Nat} {s : St T} (h : n ≤ s.next) (p : Ptr) (c : Cell T) : n ≤ (s.setCell p c).next := by
  rw [setCell_next]; exact h

theorem Mono.assignCell (p : Ptr) (v : T) : Mono (assignCell p v : Exec T Unit) := by
  intro s; unfold MultiArray.assignCell
  cases s.get? p with
  | none => trivial
  | some u =>
    simp only
    cases hs : s.sched with
    | nil => exact le_setCell_next (Nat.le_refl s.next) _ _
    | cons f fs => cases f <;> exact le_setCell_next (s := { s with sched := fs }) (Nat.le_refl s.next) _ _

theorem Mono.constructCell (dflt : T) (p : Ptr) : Mono (constructCell dflt p : Exec T Unit) := by
  intro s; unfold MultiArray.constructCell
  cases s.cell? p with
  | none => trivial
  | some c =>
    cases c with
    | obj v => trivial
    | raw =>
      simp only
      cases hs : s.sched with
      | nil => exact le_setCell_next (Nat.le_refl s.next) _ _
      | cons f fs =>
        cases f with
        | none => exact le_setCell_next (s := { s with sched := fs }) (Nat.le_refl s.next) _ _
        | some junk => exact Nat.le_refl s.next

theorem Mono.allocate (al n : Nat) : Mono (allocate al n : Exec T Ptr) := by
  intro s; unfold MultiArray.allocate
  cases hs : s.sched with
  | nil => exact Nat.le_succ _
  | cons f fs =>
    cases f with
    | none => exact Nat.le_succ _
    | some junk => exact Nat.le_refl s.next

theorem Mono.deallocate (al : Nat) (p : Ptr) (n : Nat) : Mono (deallocate al p n : Exec T Unit) := by
  intro s; unfold MultiArray.deallocate
  cases s.heap p.blk with
  | none => trivial
  | some blk =>
    simp only
    split
    · exact Nat.le_refl s.next
    · trivial

theorem Mono.destroyN (p : Ptr) (n : Nat) : Mono (destroyN p n : Exec T Unit) := by
  induction n with
  | zero => exact Mono.pure _
  | succ n ih =>
    refine Mono.bind (fun s => ?_) (fun _ => ih)
    unfold destroyCell
    cases s.get? (p.add n) with
    | none => trivial
    | some v => exact le_setCell_next (Nat.le_refl s.next) _ _

theorem Mono.constructFrom (dflt : T) (p : Ptr) (n i : Nat) : Mono (constructFrom dflt p n i : Exec T Unit) := by
  induction n generalizing i with
  | zero => exact Mono.pure _
  | succ n ih => exact Mono.bind (Mono.onThrow (Mono.constructCell _ _) (Mono.destroyN _ _)) (fun _ => ih _)

theorem Mono.stdCopy {body : It → It → Exec T Unit} (hb : ∀ i o, Mono (body i o)) (n : Nat) (i o : It) : Mono (stdCopy body n i o) := by
  induction n generalizing i o with
  | zero => exact Mono.pure _
  | succ n ih => exact Mono.bind (hb i o) (fun _ => ih _ _)

theorem Mono.assignRef (dbg : Bool) (n : Nat) (d d' : Desc) : Mono (assignRef dbg n d d' : Exec T Unit) := by
  induction n generalizing d d' with
  | zero => exact Mono.bind (Mono.load _) (fun _ => Mono.assignCell _ _)
  | succ n ih =>
    exact Mono.bind (Mono.lift _) fun _ => Mono.bind (Mono.lift _) fun _ => Mono.bind (Mono.lift _) fun _ => Mono.bind (Mono.lift _) fun _ =>
      Mono.bind (Mono.lift _) fun _ => Mono.stdCopy (fun i o => Mono.bind (Mono.lift _) fun _ => Mono.bind (Mono.lift _) fun _ => ih _ _) _ _ _

theorem Mono.assignOp (dbg so : Bool) (d d' : Desc) : Mono (assignOp dbg so d d' : Exec T Unit) := by
  unfold MultiArray.assignOp
  split
  · exact Mono.pure _
  · exact Mono.assignRef dbg _ d d'

theorem Mono.allocateSpace (dflt : T) (ref : ARef) (al : Nat) : Mono (MArr.allocateSpace dflt ref al) :=
  Mono.bind (Mono.allocate _ _) fun _ => Mono.bind (Mono.constructFrom _ _ _ _) fun _ => Mono.pure _

theorem Mono.deallocateSpace (a : MArr) : Mono (a.deallocateSpace : Exec T Unit) := by
  unfold MArr.deallocateSpace
  split
  · exact Mono.bind (Mono.destroyN _ _) fun _ => Mono.deallocate _ _ _
  · exact Mono.pure _

theorem Mono.copyNElems (n : Nat) (p q : Ptr) : Mono (MArr.copyNElems n p q : Exec T Unit) := by
  induction n generalizing p q with
  | zero => exact Mono.pure _
  | succ n ih => exact Mono.bind (Mono.load _) fun _ => Mono.bind (Mono.assignCell _ _) fun _ => ih _ _

theorem Mono.mkExtentGen (dflt : T) (g : ExtentGen) (so : StorageOrder) (al : Nat) : Mono (MArr.mkExtentGen dflt g so al) :=
  Mono.bind (Mono.lift _) fun _ => Mono.allocateSpace _ _ _

theorem Mono.ctor (dbg : Bool) (dflt : T) (c : Ctor) : Mono (c.run dbg dflt) := by
  cases c with
  | default n al => exact Mono.bind (Mono.lift _) fun _ => Mono.allocateSpace _ _ _
  | extents n es so al => exact Mono.bind (Mono.lift _) fun _ => Mono.allocateSpace _ _ _
  | gen n rs so al => exact Mono.mkExtentGen _ _ _ _
  | copy n a => exact Mono.bind (Mono.allocateSpace _ _ _) fun _ => Mono.bind (Mono.copyNElems _ _ _) fun _ => Mono.pure _
  | convert n d so al =>
    exact Mono.bind (Mono.lift _) fun _ => Mono.bind (Mono.allocateSpace _ _ _) fun _ => Mono.bind (Mono.lift _) fun _ =>
      Mono.bind (Mono.lift _) fun _ => Mono.bind (Mono.lift _) fun _ => Mono.bind
        (Mono.stdCopy (fun i o => Mono.bind (Mono.lift _) fun _ => Mono.bind (Mono.lift _) fun _ => Mono.assignRef _ _ _ _) _ _ _) fun _ => Mono.pure _

theorem Mono.resizeFill (dbg : Bool) (a b : MArr) : Mono (MArr.resizeFill dbg a b : Exec T Unit) :=
  Mono.bind (Mono.lift _) fun _ => Mono.bind (Mono.lift _) fun _ => Mono.assignOp _ _ _ _

/-- The same for member functions. -/
def MonoM (x : Member T α) : Prop := ∀ this s, (x this s).1.mono s.next

theorem MonoM.run {x : Exec T α} (h : Mono x) : MonoM (Member.run x) := fun _ s => h s
theorem MonoM.self : MonoM (Member.self : Member T MArr) := fun _ s => Nat.le_refl s.next
theorem MonoM.swapWith (b : MArr) : MonoM (Member.swapWith b : Member T MArr) := fun _ s => Nat.le_refl s.next

theorem MonoM.bind {x : Member T α} {f : α → Member T β} (hx : MonoM x) (hf : ∀ a, MonoM (f a)) : MonoM (x >>= f) := by
  intro this s
  show (Member.bind x f this s).1.mono s.next
  unfold Member.bind
  have h1 := hx this s
  rcases h : x this s with ⟨r, this'⟩
  rw [h] at h1
  cases r with
  | ok a s' => exact Out.mono_le h1 (hf a this' s')
  | throw s' => exact h1
  | assertFail s' => trivial
  | ub => trivial

theorem MonoM.resize (dbg : Bool) (dflt : T) (g : ExtentGen) : MonoM (MArr.resize dbg dflt g) :=
  MonoM.bind MonoM.self fun _ => MonoM.bind (MonoM.run (Mono.mkExtentGen _ _ _ _)) fun _ =>
    MonoM.bind (MonoM.run (Mono.onThrow (Mono.resizeFill _ _ _) (Mono.deallocateSpace _))) fun _ =>
      MonoM.bind (MonoM.swapWith _) fun _ => MonoM.run (Mono.deallocateSpace _)

end MultiArray
