import Verif.Model.MultiArr
import Verif.Lemmas.Mem

/- Computations that never release storage: constructors, assignments, copies. -/
set_option autoImplicit false

namespace MultiArray
variable {T α β : Type}

/-- Whatever the outcome, block `b` is still allocated. -/
def Out.has (b : Nat) : Out T α → Prop
  | .ok _ s => s.heap b ≠ none
  | .throw s => s.heap b ≠ none
  | .assertFail s => s.heap b ≠ none
  | .ub => True

/-- Allocated blocks stay allocated. -/
def Keeps (x : Exec T α) : Prop := ∀ s b, s.heap b ≠ none → (x s).has b

theorem Keeps.pure (a : α) : Keeps (Pure.pure a : Exec T α) := fun _ _ h => h
theorem Keeps.lift (r : Res α) : Keeps (Exec.lift r : Exec T α) := by
  intro s b h; cases r <;> first | exact h | trivial

theorem has_bind {b : Nat} {s : St T} {x : Exec T α} {f : α → Exec T β} (hx : (x s).has b) (hf : ∀ a, Keeps (f a)) :
    ((x >>= f) s).has b := by
  show (Exec.bind x f s).has b
  unfold Exec.bind
  cases h : x s with
  | ok a s' => rw [h] at hx; exact hf a s' b hx
  | throw s' => rw [h] at hx; exact hx
  | assertFail s' => rw [h] at hx; exact hx
  | ub => trivial

theorem Keeps.bind {x : Exec T α} {f : α → Exec T β} (hx : Keeps x) (hf : ∀ a, Keeps (f a)) : Keeps (x >>= f) :=
  fun s b h => has_bind (hx s b h) hf

theorem Keeps.onThrow {x : Exec T α} {c : Exec T Unit} (hx : Keeps x) (hc : Keeps c) : Keeps (Exec.onThrow x c) := by
  intro s b h
  unfold Exec.onThrow
  have := hx s b h
  cases hh : x s with
  | ok a s' => rw [hh] at this; exact this
  | throw s' =>
    rw [hh] at this
    have h2 := hc s' b this
    simp only
    cases hcc : c s' with
    | ok a s'' => rw [hcc] at h2; exact h2
    | throw s'' => rw [hcc] at h2; exact h2
    | assertFail s'' => rw [hcc] at h2; exact h2
    | ub => trivial
  | assertFail s' => rw [hh] at this; exact this
  | ub => trivial

theorem setCell_has (s : St T) (p : Ptr) (c : Cell T) (b : Nat) (h : s.heap b ≠ none) : (s.setCell p c).heap b ≠ none := by
  unfold St.setCell
  split
  · exact h
  · simp only
    split
    · simp
    · exact h

theorem Keeps.load (p : Ptr) : Keeps (load p : Exec T T) := by
  intro s b h
  unfold MultiArray.load
  split
  · exact h
  · trivial

theorem Keeps.assignCell (p : Ptr) (v : T) : Keeps (assignCell p v) := by
  intro s b h
  unfold MultiArray.assignCell
  split
  · trivial
  · split
    · exact setCell_has s p _ b h
    · exact setCell_has { s with sched := _ } p _ b h
    · exact setCell_has { s with sched := _ } p _ b h

theorem Keeps.destroyCell (p : Ptr) : Keeps (destroyCell p : Exec T Unit) := by
  intro s b h
  unfold MultiArray.destroyCell
  split
  · exact setCell_has s p _ b h
  · trivial

theorem Keeps.destroyN (p : Ptr) (n : Nat) : Keeps (destroyN p n : Exec T Unit) := by
  induction n with
  | zero => exact Keeps.pure ()
  | succ n ih => exact Keeps.bind (Keeps.destroyCell _) (fun _ => ih)

theorem Keeps.constructCell (dflt : T) (p : Ptr) : Keeps (constructCell dflt p) := by
  intro s b h
  unfold MultiArray.constructCell
  split
  · split
    · exact setCell_has s p _ b h
    · exact setCell_has { s with sched := _ } p _ b h
    · exact h
  · trivial

theorem Keeps.constructFrom (dflt : T) (p : Ptr) (n i : Nat) : Keeps (constructFrom dflt p n i) := by
  induction n generalizing i with
  | zero => exact Keeps.pure ()
  | succ n ih => exact Keeps.bind (Keeps.onThrow (Keeps.constructCell _ _) (Keeps.destroyN _ _)) (fun _ => ih _)

theorem Keeps.stdCopy {body : It → It → Exec T Unit} (hb : ∀ i o, Keeps (body i o)) (n : Nat) (i o : It) : Keeps (stdCopy body n i o) := by
  induction n generalizing i o with
  | zero => exact Keeps.pure ()
  | succ n ih => exact Keeps.bind (hb i o) (fun _ => ih _ _)

theorem Keeps.assignRef (dbg : Bool) (n : Nat) (dst src : Desc) : Keeps (assignRef dbg n dst src : Exec T Unit) := by
  induction n generalizing dst src with
  | zero => exact Keeps.bind (Keeps.load _) (fun _ => Keeps.assignCell _ _)
  | succ n ih =>
    refine Keeps.bind (Keeps.lift _) fun _ => Keeps.bind (Keeps.lift _) fun _ => Keeps.bind (Keeps.lift _) fun _ =>
      Keeps.bind (Keeps.lift _) fun _ => Keeps.bind (Keeps.lift _) fun _ => Keeps.stdCopy (fun i o => ?_) _ _ _
    exact Keeps.bind (Keeps.lift _) fun _ => Keeps.bind (Keeps.lift _) fun _ => ih _ _

theorem Keeps.copyNElems (n : Nat) (src dst : Ptr) : Keeps (MArr.copyNElems n src dst : Exec T Unit) := by
  induction n generalizing src dst with
  | zero => exact Keeps.pure ()
  | succ n ih => exact Keeps.bind (Keeps.load _) fun _ => Keeps.bind (Keeps.assignCell _ _) fun _ => ih _ _

/-- If the allocation does not throw, the new block is there whatever happens next. -/
theorem allocateSpace_has (dflt : T) (ref : ARef) (al : Nat) (s : St T) (h : ∀ junk fs, s.sched ≠ some junk :: fs) :
    (MArr.allocateSpace dflt ref al s).has s.next := by
  refine has_bind ?_ (fun p => Keeps.bind (Keeps.constructFrom _ _ _ _) (fun _ => Keeps.pure _))
  unfold allocate
  split
  · rename_i junk fs heq; exact absurd heq (h junk fs)
  · simp [Out.has]

end MultiArray
