import Verif.Model.Code
import Verif.Lemmas.Steps

/- Running code without interference is the sequential model. -/
set_option autoImplicit false

namespace MultiArray
variable {T α β : Type}

namespace Code

theorem bind_eq (x : Code T α) (f : α → Code T β) : (x >>= f) = x.elim f throw := rfl
theorem pure_eq (a : α) : (pure a : Code T α) = .ret a := rfl

/-- Continue after an outcome. -/
def after (o : Out T α) (f : α → Exec T β) (h : Exec T β) : Out T β :=
  match o with
  | .ok a s => f a s
  | .throw s => h s
  | .assertFail s => .assertFail s
  | .ub => .ub

theorem exec_elim (x : Code T α) (f : α → Code T β) (h : Code T β) (s : St T) :
    (x.elim f h).exec s = after (x.exec s) (fun a => (f a).exec) h.exec := by
  have hload : ∀ (p : Ptr) (s s' : St T), MultiArray.load p s ≠ .throw s' := by
    intro p s s'
    unfold MultiArray.load
    split <;> simp
  have hdes : ∀ (p : Ptr) (s s' : St T), destroyCell p s ≠ .throw s' := by
    intro p s s'
    unfold destroyCell
    split <;> simp
  have hdea : ∀ (al : Nat) (p : Ptr) (n : Nat) (s s' : St T), deallocate al p n s ≠ .throw s' := by
    intro al p n s s'
    unfold deallocate
    split
    · simp
    · split <;> simp
  induction x generalizing s with
  | ret a => rfl
  | throw => rfl
  | assertFail => rfl
  | ub => rfl
  | load p k ih =>
    simp only [elim, exec]
    cases hl : MultiArray.load p s with
    | ok v s' => exact ih v s'
    | throw s' => exact absurd hl (hload _ _ _)
    | assertFail s' => rfl
    | ub => rfl
  | store p v k h' ih ih' =>
    simp only [elim, exec]
    cases assignCell p v s with
    | ok _ s' => exact ih s'
    | throw s' => exact ih' s'
    | assertFail s' => rfl
    | ub => rfl
  | construct v p k h' ih ih' =>
    simp only [elim, exec]
    cases constructCell v p s with
    | ok _ s' => exact ih s'
    | throw s' => exact ih' s'
    | assertFail s' => rfl
    | ub => rfl
  | destroy p k ih =>
    simp only [elim, exec]
    cases hl : destroyCell p s with
    | ok v s' => exact ih s'
    | throw s' => exact absurd hl (hdes _ _ _)
    | assertFail s' => rfl
    | ub => rfl
  | alloc al n k h' ih ih' =>
    simp only [elim, exec]
    cases allocate al n s with
    | ok p s' => exact ih p s'
    | throw s' => exact ih' s'
    | assertFail s' => rfl
    | ub => rfl
  | dealloc al p n k ih =>
    simp only [elim, exec]
    cases hl : deallocate al p n s with
    | ok v s' => exact ih s'
    | throw s' => exact absurd hl (hdea _ _ _ _ _)
    | assertFail s' => rfl
    | ub => rfl

theorem exec_bind (x : Code T α) (f : α → Code T β) : (x >>= f).exec = (do let a ← x.exec; (f a).exec) := by
  funext s
  rw [bind_eq, exec_elim]
  show _ = Exec.bind x.exec (fun a => (f a).exec) s
  unfold after Exec.bind
  cases x.exec s <;> rfl

theorem exec_pure (a : α) : (pure a : Code T α).exec = pure a := rfl

theorem exec_lift (r : Res α) : (lift r : Code T α).exec = Exec.lift r := by cases r <;> rfl

theorem exec_onThrow (x : Code T α) (c : Code T Unit) : (x.onThrow c).exec = Exec.onThrow x.exec c.exec := by
  funext s
  unfold onThrow Exec.onThrow
  rw [exec_elim]
  unfold after
  cases x.exec s with
  | ok a s' => rfl
  | throw s' =>
    show (c.elim (fun _ => throw) throw).exec s' = _
    rw [exec_elim]
    unfold after
    cases hc : c.exec s' <;> simp [hc, exec]
  | assertFail s' => rfl
  | ub => rfl

theorem exec_attempt (x : Code T α) (s : St T) : x.attempt.exec s = (match x.exec s with
    | .ok a s' => .ok (some a) s'
    | .throw s' => .ok none s'
    | .assertFail s' => .assertFail s'
    | .ub => .ub) := by
  unfold attempt
  rw [exec_elim]
  unfold after
  cases x.exec s <;> rfl

theorem exec_ofProg (x : Prog T α) : (ofProg x).exec = x.exec := by
  induction x with
  | ret a => rfl
  | load p k ih =>
    funext s
    simp only [ofProg, exec, ih]
    show _ = Exec.bind (MultiArray.load p) (fun v => (k v).exec) s
    unfold Exec.bind
    cases MultiArray.load p s <;> rfl
  | store p v k ih =>
    funext s
    simp only [ofProg, exec, ih]
    show _ = Exec.bind (assignCell p v) (fun _ => k.exec) s
    unfold Exec.bind
    cases assignCell p v s <;> rfl
  | assertFail => rfl
  | ub => rfl

theorem exec_get (p : Ptr) : (get p : Code T T).exec = MultiArray.load p := by
  funext s
  simp only [get, exec]
  cases MultiArray.load p s <;> rfl

theorem exec_put (p : Ptr) (v : T) : (put p v).exec = assignCell p v := by
  funext s
  simp only [put, exec]
  cases assignCell p v s <;> rfl

theorem exec_constructCell (v : T) (p : Ptr) : (construct v p (.ret ()) .throw).exec = constructCell v p := by
  funext s
  simp only [exec]
  cases constructCell v p s <;> rfl

theorem exec_destroyCell (p : Ptr) : (destroy p (.ret ()) : Code T Unit).exec = destroyCell p := by
  funext s
  simp only [exec]
  cases destroyCell p s <;> rfl

theorem exec_allocate (al n : Nat) : (alloc al n .ret .throw : Code T Ptr).exec = allocate al n := by
  funext s
  simp only [exec]
  cases allocate al n s <;> rfl

theorem exec_deallocate (al : Nat) (p : Ptr) (n : Nat) : (dealloc al p n (.ret ()) : Code T Unit).exec = deallocate al p n := by
  funext s
  simp only [exec]
  cases deallocate al p n s <;> rfl

end Code

theorem exec_destroyNC (p : Ptr) (n : Nat) : (destroyNC p n : Code T Unit).exec = destroyN p n := by
  induction n with
  | zero => rfl
  | succ n ih => simp only [destroyNC, destroyN, Code.exec_bind, Code.exec_destroyCell, ih]

theorem exec_constructFromC (dflt : T) (p : Ptr) (n i : Nat) : (constructFromC dflt p n i).exec = constructFrom dflt p n i := by
  induction n generalizing i with
  | zero => rfl
  | succ n ih => simp only [constructFromC, constructFrom, Code.exec_bind, Code.exec_onThrow, Code.exec_constructCell, exec_destroyNC, ih]

namespace MArr

theorem exec_allocateSpaceC (dflt : T) (ref : ARef) (al : Nat) : (allocateSpaceC dflt ref al).exec = allocateSpace dflt ref al := by
  simp only [allocateSpaceC, allocateSpace, Code.exec_bind, Code.exec_allocate, exec_constructFromC, Code.exec_pure]

theorem exec_deallocateSpaceC (a : MArr) : (deallocateSpaceC a : Code T Unit).exec = deallocateSpace a := by
  unfold deallocateSpaceC deallocateSpace
  split
  · simp only [Code.exec_bind, Code.exec_deallocate, exec_destroyNC]
  · rfl

theorem exec_mkDefaultC (dflt : T) (n al : Nat) : (mkDefaultC dflt n al).exec = mkDefault dflt n al := by
  simp only [mkDefaultC, mkDefault, Code.exec_bind, Code.exec_lift, exec_allocateSpaceC]

theorem exec_mkExtentsC (dflt : T) (n : Nat) (es : List Nat) (so : StorageOrder) (al : Nat) :
    (mkExtentsC dflt n es so al).exec = mkExtents dflt n es so al := by
  simp only [mkExtentsC, mkExtents, Code.exec_bind, Code.exec_lift, exec_allocateSpaceC]

theorem exec_mkExtentGenC (dflt : T) (g : ExtentGen) (so : StorageOrder) (al : Nat) : (mkExtentGenC dflt g so al).exec = mkExtentGen dflt g so al := by
  simp only [mkExtentGenC, mkExtentGen, Code.exec_bind, Code.exec_lift, exec_allocateSpaceC]

theorem exec_copyNElemsC (n : Nat) (src dst : Ptr) : (copyNElemsC n src dst : Code T Unit).exec = copyNElems n src dst := by
  induction n generalizing src dst with
  | zero => rfl
  | succ n ih => simp only [copyNElemsC, copyNElems, Code.exec_bind, Code.exec_get, Code.exec_put, ih]

theorem exec_mkCopyC (dflt : T) (rhs : MArr) : (mkCopyC dflt rhs).exec = mkCopy dflt rhs := by
  simp only [mkCopyC, mkCopy, Code.exec_bind, exec_allocateSpaceC, exec_copyNElemsC, Code.exec_pure]

theorem exec_mkConvertC (dbg : Bool) (dflt : T) (rhs : Desc) (so : StorageOrder) (al : Nat) :
    (mkConvertC dbg dflt rhs so al).exec = mkConvert dbg dflt rhs so al := by
  simp only [mkConvertC, mkConvert, Code.exec_bind, Code.exec_lift, exec_allocateSpaceC, Code.exec_ofProg, exec_stdCopyP, Prog.exec_bind, Prog.exec_lift, exec_assignP,
    Code.exec_pure]

theorem exec_resizeFillC (dbg : Bool) (a n : MArr) : (resizeFillC dbg a n : Code T Unit).exec = resizeFill dbg a n := by
  simp only [resizeFillC, resizeFill, Code.exec_bind, Code.exec_lift, Code.exec_ofProg, exec_assignP]
  rfl

theorem exec_assignFromC (dbg same : Bool) (a b : MArr) : (assignFromC dbg same a b : Code T Unit).exec = assignFrom dbg same a b := by
  unfold assignFromC assignFrom
  cases same
  · simp only [Bool.not_false, if_true, Code.exec_ofProg, exec_assignP]
    rfl
  · rfl

/-- The outcome of a member function as the outcome of code that catches the exception. -/
def caught (r : Out T α × MArr) : Out T (Option α × MArr) :=
  match r with
  | (.ok a s, this) => .ok (some a, this) s
  | (.throw s, this) => .ok (none, this) s
  | (.assertFail s, _) => .assertFail s
  | (.ub, _) => .ub

theorem exec_bind_apply (x : Code T α) (f : α → Code T β) (s : St T) :
    (x >>= f).exec s = Code.after (x.exec s) (fun a => (f a).exec) Code.throw.exec := Code.exec_elim x f .throw s

theorem member_bind_apply (x : Member T α) (f : α → Member T β) (a : MArr) (s : St T) : (x >>= f) a s = Member.bind x f a s := rfl

theorem exec_resizeC (dbg : Bool) (dflt : T) (g : ExtentGen) (a : MArr) (s : St T) :
    (resizeC dbg dflt g a).exec s = caught (resize dbg dflt g a s) := by
  unfold resizeC resize
  rw [exec_bind_apply, member_bind_apply]
  simp only [Member.bind, Member.self]
  rw [member_bind_apply]
  rw [Code.exec_attempt, exec_mkExtentGenC]
  simp only [Member.bind, Member.run]
  cases mkExtentGen dflt g a.ref.storage a.alloc s with
  | throw s1 => rfl
  | assertFail s1 => rfl
  | ub => rfl
  | ok newArr s1 =>
    simp only [Code.after]
    rw [exec_bind_apply, member_bind_apply]
    rw [Code.exec_attempt, Code.exec_onThrow, exec_resizeFillC, exec_deallocateSpaceC]
    simp only [Member.bind, Member.run]
    cases Exec.onThrow (resizeFill dbg a newArr) (deallocateSpace newArr) s1 with
    | throw s2 => rfl
    | assertFail s2 => rfl
    | ub => rfl
    | ok u s2 =>
      simp only [Code.after]
      rw [exec_bind_apply, member_bind_apply]
      rw [Code.exec_attempt, exec_deallocateSpaceC]
      simp only [Member.bind, Member.swapWith, Member.run]
      cases deallocateSpace (swapAll a newArr).2 s2 <;> rfl

theorem exec_resizeExtentsC (dbg : Bool) (dflt : T) (es : List Nat) (a : MArr) (s : St T) :
    (resizeExtentsC dbg dflt es a).exec s = caught (resizeExtents dbg dflt es a s) := by
  unfold resizeExtentsC resizeExtents
  rw [exec_bind_apply, member_bind_apply]
  simp only [Member.bind, Member.self]
  rw [member_bind_apply]
  simp only [Member.bind, Member.run]
  cases copyN es a.ref.numDims with
  | ok ext => exact exec_resizeC dbg dflt _ a s
  | assertFail => rfl
  | ub => rfl

end MArr

theorem exec_readChainC (dbg : Bool) (d : Desc) (idx : List Int) : (readChainC dbg d idx : Code T T).exec = readChain dbg d idx := by
  simp only [readChainC, readChain, Code.exec_bind, Code.exec_lift, Code.exec_get]

theorem exec_writeChainC (dbg : Bool) (d : Desc) (idx : List Int) (v : T) : (writeChainC dbg d idx v).exec = writeChain dbg d idx v := by
  simp only [writeChainC, writeChain, Code.exec_bind, Code.exec_lift, Code.exec_put]

end MultiArray
