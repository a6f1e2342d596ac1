import Verif.SpecProgX
import Verif.Lemmas.Sim

/- Exceptions come from the allocator and from the elements only: a computation that throws has met one that was due. -/
set_option autoImplicit false

namespace MultiArray
open Spec
variable {T α β : Type}

/-- How many exceptions are due. -/
def due (s : St T) : Nat := (s.sched.filter Option.isSome).length

/-- Completing: no new exceptions are due; throwing: at least one fewer. -/
def Out.fair (n : Nat) : Out T α → Prop
  | .ok _ s => due s ≤ n
  | .throw s => due s < n
  | .assertFail _ => True
  | .ub => True

def Fair (x : Exec T α) : Prop := ∀ s, (x s).fair (due s)

theorem Fair.pure (a : α) : Fair (Pure.pure a : Exec T α) := fun s => Nat.le_refl (due s)

theorem Fair.lift (r : Res α) : Fair (Exec.lift r : Exec T α) := by
  intro s; cases r <;> first | exact Nat.le_refl (due s) | trivial

theorem Fair.bind {x : Exec T α} {f : α → Exec T β} (hx : Fair x) (hf : ∀ a, Fair (f a)) : Fair (x >>= f) := by
  intro s
  show (Exec.bind x f s).fair (due s)
  unfold Exec.bind
  have h1 := hx s
  cases h : x s with
  | ok a s' =>
    rw [h] at h1
    have h2 := hf a s'
    have h1 : due s' ≤ due s := h1
    simp only
    cases h' : f a s' with
    | ok b s'' => rw [h'] at h2; exact Nat.le_trans h2 h1
    | throw s'' => rw [h'] at h2; exact Nat.lt_of_lt_of_le h2 h1
    | assertFail s'' => trivial
    | ub => trivial
  | throw s' => rw [h] at h1; exact h1
  | assertFail s' => trivial
  | ub => trivial

theorem Fair.onThrow {x : Exec T α} {c : Exec T Unit} (hx : Fair x) (hc : Fair c) : Fair (Exec.onThrow x c) := by
  intro s
  unfold Exec.onThrow
  have h1 := hx s
  cases h : x s with
  | ok a s' => rw [h] at h1; exact h1
  | throw s' =>
    rw [h] at h1
    have h1 : due s' < due s := h1
    have h2 := hc s'
    simp only
    cases h' : c s' with
    | ok a s'' => rw [h'] at h2; exact Nat.lt_of_le_of_lt h2 h1
    | throw s'' => rw [h'] at h2; exact Nat.lt_trans h2 h1
    | assertFail s'' => trivial
    | ub => trivial
  | assertFail s' => trivial
  | ub => trivial

theorem due_setCell (s : St T) (p : Ptr) (c : Cell T) : due (s.setCell p c) = due s := by
  unfold due; rw [setCell_sched]

theorem Fair.load (p : Ptr) : Fair (load p : Exec T T) := by
  intro s; unfold MultiArray.load
  cases s.get? p with
  | none => trivial
  | some v => exact Nat.le_refl (due s)

theorem due_none {s : St T} {fs : List (Option T)} (h : s.sched = none :: fs) : due ({ s with sched := fs } : St T) = due s := by
  unfold due; rw [h]; rfl

theorem due_some {s : St T} {v : T} {fs : List (Option T)} (h : s.sched = some v :: fs) : due ({ s with sched := fs } : St T) < due s := by
  unfold due; rw [h]; simp

theorem Fair.assignCell (p : Ptr) (v : T) : Fair (assignCell p v : Exec T Unit) := by
  intro s; unfold MultiArray.assignCell
  cases s.get? p with
  | none => trivial
  | some u =>
    simp only
    cases hs : s.sched with
    | nil => exact Nat.le_of_eq (due_setCell _ _ _)
    | cons f fs =>
      cases f with
      | none => exact Nat.le_of_eq ((due_setCell _ _ _).trans (due_none hs))
      | some junk => exact Nat.lt_of_le_of_lt (Nat.le_of_eq (due_setCell _ _ _)) (due_some hs)

theorem Fair.constructCell (dflt : T) (p : Ptr) : Fair (constructCell dflt p : Exec T Unit) := by
  intro s; unfold MultiArray.constructCell
  cases s.cell? p with
  | none => trivial
  | some c =>
    cases c with
    | obj v => trivial
    | raw =>
      simp only
      cases hs : s.sched with
      | nil => exact Nat.le_of_eq (due_setCell _ _ _)
      | cons f fs =>
        cases f with
        | none => exact Nat.le_of_eq ((due_setCell _ _ _).trans (due_none hs))
        | some junk => exact due_some hs

theorem Fair.allocate (al n : Nat) : Fair (allocate al n : Exec T Ptr) := by
  intro s; unfold MultiArray.allocate
  cases hs : s.sched with
  | nil => exact Nat.zero_le _
  | cons f fs =>
    cases f with
    | none => exact Nat.le_of_eq (by unfold due; rw [hs]; rfl)
    | some junk => exact due_some hs

theorem Fair.deallocate (al : Nat) (p : Ptr) (n : Nat) : Fair (deallocate al p n : Exec T Unit) := by
  intro s; unfold MultiArray.deallocate
  cases s.heap p.blk with
  | none => trivial
  | some blk =>
    simp only
    split
    · exact Nat.le_refl (due s)
    · trivial

theorem Fair.destroyN (p : Ptr) (n : Nat) : Fair (destroyN p n : Exec T Unit) := by
  induction n with
  | zero => exact Fair.pure _
  | succ n ih =>
    refine Fair.bind (fun s => ?_) (fun _ => ih)
    unfold destroyCell
    cases s.get? (p.add n) with
    | none => trivial
    | some v => exact Nat.le_of_eq (due_setCell _ _ _)

theorem Fair.constructFrom (dflt : T) (p : Ptr) (n i : Nat) : Fair (constructFrom dflt p n i : Exec T Unit) := by
  induction n generalizing i with
  | zero => exact Fair.pure _
  | succ n ih => exact Fair.bind (Fair.onThrow (Fair.constructCell _ _) (Fair.destroyN _ _)) (fun _ => ih _)

theorem Fair.stdCopy {body : It → It → Exec T Unit} (hb : ∀ i o, Fair (body i o)) (n : Nat) (i o : It) : Fair (stdCopy body n i o) := by
  induction n generalizing i o with
  | zero => exact Fair.pure _
  | succ n ih => exact Fair.bind (hb i o) (fun _ => ih _ _)

theorem Fair.assignRef (dbg : Bool) (n : Nat) (d d' : Desc) : Fair (assignRef dbg n d d' : Exec T Unit) := by
  induction n generalizing d d' with
  | zero => exact Fair.bind (Fair.load _) (fun _ => Fair.assignCell _ _)
  | succ n ih =>
    exact Fair.bind (Fair.lift _) fun _ => Fair.bind (Fair.lift _) fun _ => Fair.bind (Fair.lift _) fun _ => Fair.bind (Fair.lift _) fun _ =>
      Fair.bind (Fair.lift _) fun _ => Fair.stdCopy (fun i o => Fair.bind (Fair.lift _) fun _ => Fair.bind (Fair.lift _) fun _ => ih _ _) _ _ _

theorem Fair.assignOp (dbg so : Bool) (d d' : Desc) : Fair (assignOp dbg so d d' : Exec T Unit) := by
  unfold MultiArray.assignOp
  split
  · exact Fair.pure _
  · exact Fair.assignRef dbg _ d d'

theorem Fair.assignLoop (n : Nat) (p : Ptr) (input : List T) : Fair (assignLoop n p input) := by
  induction n generalizing p input with
  | zero => exact Fair.pure _
  | succ n ih =>
    cases input with
    | nil => exact Fair.pure _
    | cons v vs => exact Fair.bind (Fair.assignCell _ _) (fun _ => ih _ _)

theorem Fair.copyDispatch (dbg : Bool) (n : Nat) (d d' : Desc) : Fair (copyDispatch dbg n d d' : Exec T Unit) := by
  induction n generalizing d d' with
  | zero => exact Fair.bind (Fair.load _) (fun _ => Fair.assignCell _ _)
  | succ n ih =>
    exact Fair.bind (Fair.lift _) fun _ => Fair.bind (Fair.lift _) fun _ =>
      Fair.bind (Fair.lift _) fun _ => Fair.stdCopy (fun i o => Fair.bind (Fair.lift _) fun _ => Fair.bind (Fair.lift _) fun _ => ih _ _) _ _ _

theorem Fair.copyArray (dbg : Bool) (d d' : Desc) : Fair (copyArray dbg d d' : Exec T Unit) :=
  Fair.bind (Fair.lift _) fun _ => Fair.copyDispatch _ _ _ _

theorem Fair.stdForEach {σ : Type} {body : It → σ → Exec T σ} (hb : ∀ i q, Fair (body i q)) (n : Nat) (i : It) (q : σ) :
    Fair (stdForEach body n i q) := by
  induction n generalizing i q with
  | zero => exact Fair.pure _
  | succ n ih => exact Fair.bind (hb i q) (fun _ => ih _ _)

theorem Fair.forEach (dbg : Bool) (f : T → T) (n : Nat) (d : Desc) : Fair (forEach dbg f n d) := by
  suffices h : ∀ (n : Nat) (d : Desc) (q : Unit), Fair (forEachX dbg (fun (_ : Unit) v => (Pure.pure (f v, ()) : Exec T (T × Unit))) n d q) from h n d ()
  intro n
  induction n with
  | zero =>
    intro d q
    exact Fair.bind (Fair.load _) fun _ => Fair.bind (Fair.pure _) fun _ => Fair.bind (Fair.assignCell _ _) fun _ => Fair.pure _
  | succ n ih =>
    intro d q
    exact Fair.bind (Fair.lift _) fun _ => Fair.bind (Fair.lift _) fun _ =>
      Fair.stdForEach (fun i q => Fair.bind (Fair.lift _) fun _ => ih _ _) _ _ _

theorem Fair.writeElem (dbg : Bool) (d : Desc) (idx : List Int) (v : T) : Fair (writeElem dbg d idx v) :=
  Fair.bind (Fair.lift _) fun _ => Fair.assignCell _ _

theorem Fair.writeChain (dbg : Bool) (d : Desc) (idx : List Int) (v : T) : Fair (writeChain dbg d idx v) :=
  Fair.bind (Fair.lift _) fun _ => Fair.assignCell _ _

theorem Fair.allocateSpace (dflt : T) (ref : ARef) (al : Nat) : Fair (MArr.allocateSpace dflt ref al) :=
  Fair.bind (Fair.allocate _ _) fun _ => Fair.bind (Fair.constructFrom _ _ _ _) fun _ => Fair.pure _

theorem Fair.deallocateSpace (a : MArr) : Fair (a.deallocateSpace : Exec T Unit) := by
  unfold MArr.deallocateSpace
  split
  · exact Fair.bind (Fair.destroyN _ _) fun _ => Fair.deallocate _ _ _
  · exact Fair.pure _

theorem Fair.copyNElems (n : Nat) (p q : Ptr) : Fair (MArr.copyNElems n p q : Exec T Unit) := by
  induction n generalizing p q with
  | zero => exact Fair.pure _
  | succ n ih => exact Fair.bind (Fair.load _) fun _ => Fair.bind (Fair.assignCell _ _) fun _ => ih _ _

theorem Fair.mkExtentGen (dflt : T) (g : ExtentGen) (so : StorageOrder) (al : Nat) : Fair (MArr.mkExtentGen dflt g so al) :=
  Fair.bind (Fair.lift _) fun _ => Fair.allocateSpace _ _ _

theorem Fair.ctor (dbg : Bool) (dflt : T) (c : Ctor) : Fair (c.run dbg dflt) := by
  cases c with
  | default n al => exact Fair.bind (Fair.lift _) fun _ => Fair.allocateSpace _ _ _
  | extents n es so al => exact Fair.bind (Fair.lift _) fun _ => Fair.allocateSpace _ _ _
  | gen n rs so al => exact Fair.mkExtentGen _ _ _ _
  | copy n a => exact Fair.bind (Fair.allocateSpace _ _ _) fun _ => Fair.bind (Fair.copyNElems _ _ _) fun _ => Fair.pure _
  | convert n d so al =>
    exact Fair.bind (Fair.lift _) fun _ => Fair.bind (Fair.allocateSpace _ _ _) fun _ => Fair.bind (Fair.lift _) fun _ =>
      Fair.bind (Fair.lift _) fun _ => Fair.bind (Fair.lift _) fun _ => Fair.bind
        (Fair.stdCopy (fun i o => Fair.bind (Fair.lift _) fun _ => Fair.bind (Fair.lift _) fun _ => Fair.assignRef _ _ _ _) _ _ _) fun _ => Fair.pure _

theorem Fair.resizeFill (dbg : Bool) (a b : MArr) : Fair (MArr.resizeFill dbg a b : Exec T Unit) :=
  Fair.bind (Fair.lift _) fun _ => Fair.bind (Fair.lift _) fun _ => Fair.assignOp _ _ _ _

/-- The same for member functions. -/
def FairM (x : Member T α) : Prop := ∀ this s, (x this s).1.fair (due s)

theorem FairM.run {x : Exec T α} (h : Fair x) : FairM (Member.run x) := fun _ s => h s
theorem FairM.self : FairM (Member.self : Member T MArr) := fun _ s => Nat.le_refl (due s)
theorem FairM.swapWith (b : MArr) : FairM (Member.swapWith b : Member T MArr) := fun _ s => Nat.le_refl (due s)

theorem FairM.bind {x : Member T α} {f : α → Member T β} (hx : FairM x) (hf : ∀ a, FairM (f a)) : FairM (x >>= f) := by
  intro this s
  show (Member.bind x f this s).1.fair (due s)
  unfold Member.bind
  have h1 := hx this s
  rcases h : x this s with ⟨r, this'⟩
  rw [h] at h1
  cases r with
  | ok a s' =>
    have h2 := hf a this' s'
    have h1 : due s' ≤ due s := h1
    simp only
    cases h' : (f a this' s').1 with
    | ok b s'' => rw [h'] at h2; exact Nat.le_trans h2 h1
    | throw s'' => rw [h'] at h2; exact Nat.lt_of_lt_of_le h2 h1
    | assertFail s'' => trivial
    | ub => trivial
  | throw s' => exact h1
  | assertFail s' => trivial
  | ub => trivial

theorem FairM.resize (dbg : Bool) (dflt : T) (g : ExtentGen) : FairM (MArr.resize dbg dflt g) :=
  FairM.bind FairM.self fun _ => FairM.bind (FairM.run (Fair.mkExtentGen _ _ _ _)) fun _ =>
    FairM.bind (FairM.run (Fair.onThrow (Fair.resizeFill _ _ _) (Fair.deallocateSpace _))) fun _ =>
      FairM.bind (FairM.swapWith _) fun _ => FairM.run (Fair.deallocateSpace _)

theorem FairM.resizeExtents (dbg : Bool) (dflt : T) (es : List Nat) : FairM (MArr.resizeExtents dbg dflt es) :=
  FairM.bind FairM.self fun _ => FairM.bind (FairM.run (Fair.lift _)) fun _ => FairM.resize _ _ _

/-! ### Commands -/

def Spec.Result.fair (n : Nat) : Result T → Prop
  | .ok w => due w.st ≤ n
  | .threw w => due w.st < n
  | .failed => True

theorem fair_mem {e : Exec T α} (h : Fair e) (w : World T) : (w.mem e).fair (due w.st) := by
  unfold World.mem
  have := h w.st
  cases he : e w.st <;> rw [he] at this <;> exact this

theorem fair_member {e : Member T Unit} (h : FairM e) (w : World T) (x : Nat) (a : MArr) : (w.member x (e a w.st)).fair (due w.st) := by
  unfold World.member
  have := h a w.st
  rcases he : e a w.st with ⟨r, a'⟩
  rw [he] at this
  cases r <;> exact this

theorem fair_header (w : World T) (x : Nat) (a : MArr) (r : Res ARef) : (w.header x a r).fair (due w.st) := by
  unfold World.header
  cases r <;> first | exact Nat.le_refl (due w.st) | trivial

theorem fair_step (dbg : Bool) (dflt : T) (w : World T) (op : Op T) : (w.step dbg dflt op).fair (due w.st) := by
  cases op with
  | construct x i =>
    simp only [World.step]
    cases i.ctor w.objs with
    | none => trivial
    | some c =>
      have h := Fair.ctor dbg dflt c w.st
      simp only
      cases hc : c.run dbg dflt w.st <;> rw [hc] at h <;> exact h
  | destroy x =>
    simp only [World.step]
    cases w.objs x with
    | none => trivial
    | some a =>
      have h := Fair.deallocateSpace a w.st
      simp only
      cases hc : a.deallocateSpace w.st <;> rw [hc] at h <;> exact h
  | assign x y =>
    simp only [World.step]
    cases w.objs x with
    | none => trivial
    | some a =>
      cases w.objs y with
      | none => trivial
      | some a' =>
        refine fair_mem ?_ w
        unfold MArr.assignFrom
        split
        · exact Fair.assignOp _ _ _ _
        · exact Fair.pure _
  | assignPart x d y d' => exact fair_mem (Fair.assignOp _ _ _ _) w
  | copyArray x d y d' => exact fair_mem (Fair.copyArray _ _ _) w
  | fill x input =>
    simp only [World.step]
    cases w.objs x with
    | none => trivial
    | some a => exact fair_mem (Fair.assignLoop _ _ _) w
  | write x d idx v => exact fair_mem (Fair.writeElem _ _ _ _) w
  | read x d idx => exact fair_mem (e := readElem dbg d idx) (Fair.bind (Fair.lift _) fun _ => Fair.load _) w
  | forEach x d f => exact fair_mem (Fair.forEach _ _ _ _) w
  | resize x rs =>
    simp only [World.step]
    cases w.objs x with
    | none => trivial
    | some a => exact fair_member (FairM.resize _ _ _) w x a
  | resizeList x es =>
    simp only [World.step]
    cases w.objs x with
    | none => trivial
    | some a => exact fair_member (FairM.resizeExtents _ _ _) w x a
  | reindex x bs =>
    simp only [World.step]
    cases w.objs x with
    | none => trivial
    | some a => exact fair_header w x a _
  | reindexAll x b =>
    simp only [World.step]
    cases w.objs x with
    | none => trivial
    | some a => exact fair_header w x a _
  | reshape x es =>
    simp only [World.step]
    cases w.objs x with
    | none => trivial
    | some a => exact fair_header w x a _

theorem fair_mayThrow (dbg : Bool) (dflt : T) (w : World T) (c : Cmd T) {r : Result T} (h : w.mayThrow dbg dflt c = some r) : r.fair (due w.st) := by
  cases c with
  | construct x i =>
    cases i with
    | convert y ss so al =>
      simp only [World.mayThrow, Option.some.injEq] at h; subst h
      cases w.lookup dbg y ss <;> first | trivial | exact fair_step _ _ _ _
    | _ => simp only [World.mayThrow, Option.some.injEq] at h; subst h; exact fair_step _ _ _ _
  | destroy x => simp only [World.mayThrow, Option.some.injEq] at h; subst h; exact fair_step _ _ _ _
  | assign x y => simp only [World.mayThrow, Option.some.injEq] at h; subst h; exact fair_step _ _ _ _
  | assignPart x ss y ss' =>
    simp only [World.mayThrow, Option.some.injEq] at h; subst h
    cases w.lookup dbg x ss <;> cases w.lookup dbg y ss' <;> first | trivial | exact fair_step _ _ _ _
  | copyArray x ss y ss' =>
    simp only [World.mayThrow, Option.some.injEq] at h; subst h
    cases w.lookup dbg x ss <;> cases w.lookup dbg y ss' <;> first | trivial | exact fair_step _ _ _ _
  | write x ss idx v =>
    simp only [World.mayThrow, Option.some.injEq] at h; subst h
    cases w.lookup dbg x ss <;> first | trivial | exact fair_step _ _ _ _
  | forEach x ss f =>
    simp only [World.mayThrow, Option.some.injEq] at h; subst h
    cases w.lookup dbg x ss <;> first | trivial | exact fair_step _ _ _ _
  | on x op =>
    simp only [World.mayThrow] at h
    cases hx : w.objs x with
    | none => rw [hx] at h; cases h; trivial
    | some a =>
      rw [hx] at h
      cases op <;> first | cases h | (simp only [Option.some.injEq] at h; subst h)
      · exact fair_mem (Fair.writeElem _ _ _ _) w
      · exact fair_mem (Fair.writeChain _ _ _ _) w
      · exact fair_step _ _ _ _
      · exact fair_mem (Fair.forEach _ _ _ _) w
      · exact fair_step _ _ _ _
      · exact fair_step _ _ _ _
  | read x ss idx => cases h
  | traverse x ss => cases h
  | equal x ss y ss' => cases h
  | less x ss y ss' => cases h
  | shape x ss => cases h

theorem fair_val? {e : Exec T α} (h : Fair e) {s : St T} {r : α × St T} (hr : Out.val? (e s) = some r) : due r.2 ≤ due s := by
  have h1 := h s
  cases he : e s <;> rw [he] at hr h1 <;> cases hr
  exact h1

theorem fair_reads (dbg : Bool) (dflt : T) (eq lt : T → T → Bool) (w : World T) (c : Cmd T) (h1 : w.mayThrow dbg dflt c = none) {o : CObs T} {w' : World T}
    (h2 : w.exec dbg dflt eq lt c = some (o, w')) : due w'.st ≤ due w.st := by
  cases c with
  | construct x i => cases i <;> cases h1
  | destroy x => cases h1
  | assign x y => cases h1
  | assignPart x ss y ss' => cases h1
  | copyArray x ss y ss' => cases h1
  | write x ss idx v => cases h1
  | forEach x ss f => cases h1
  | on x op =>
    simp only [World.mayThrow] at h1
    cases hx : w.objs x with
    | none => rw [hx] at h1; cases h1
    | some a =>
      rw [hx] at h1
      simp only [World.exec, hx, Option.bind_some, Option.map_eq_some_iff] at h2
      obtain ⟨r, e1, e2⟩ := h2
      simp only [Prod.mk.injEq] at e2
      obtain ⟨_, rfl⟩ := e2
      show due r.2.2 ≤ due w.st
      cases op <;> first | cases h1 | skip
      · simp only [concStep, Option.map_eq_some_iff] at e1
        obtain ⟨q, e1, rfl⟩ := e1
        exact fair_val? (e := readElem dbg a.ref.desc _) (Fair.bind (Fair.lift _) fun _ => Fair.load _) e1
      · simp only [concStep, Option.map_eq_some_iff] at e1
        obtain ⟨q, e1, rfl⟩ := e1
        exact fair_val? (e := MultiArray.readChain dbg a.ref.desc _) (Fair.bind (Fair.lift _) fun _ => Fair.load _) e1
      · simp only [concStep, Option.map_eq_some_iff] at e1
        obtain ⟨q, e1, rfl⟩ := e1
        exact Nat.le_refl _
      · simp only [concStep, Option.some.injEq] at e1
        subst e1
        exact Nat.le_refl _
      · simp only [concStep, Option.map_eq_some_iff] at e1
        obtain ⟨q, e1, rfl⟩ := e1
        exact Nat.le_refl _
      · simp only [concStep, Option.map_eq_some_iff] at e1
        obtain ⟨q, e1, rfl⟩ := e1
        exact Nat.le_refl _
  | read x ss idx =>
    simp only [World.exec, Option.bind_eq_some_iff, Option.map_eq_some_iff, Prod.mk.injEq] at h2
    obtain ⟨d, _, q, e1, _, rfl⟩ := h2
    exact fair_val? (e := readElem dbg d idx) (Fair.bind (Fair.lift _) fun _ => Fair.load _) e1
  | traverse x ss =>
    simp only [World.exec, Option.bind_eq_some_iff, Option.map_eq_some_iff, Prod.mk.injEq] at h2
    obtain ⟨d, _, q, _, r, _, vs, _, _, rfl⟩ := h2
    exact Nat.le_refl _
  | equal x ss y ss' =>
    simp only [World.exec, Option.bind_eq_some_iff, Option.map_eq_some_iff, Prod.mk.injEq] at h2
    obtain ⟨d, _, d', _, b, _, _, rfl⟩ := h2
    exact Nat.le_refl _
  | less x ss y ss' =>
    simp only [World.exec, Option.bind_eq_some_iff, Option.map_eq_some_iff, Prod.mk.injEq] at h2
    obtain ⟨d, _, d', _, b, _, _, rfl⟩ := h2
    exact Nat.le_refl _
  | shape x ss =>
    simp only [World.exec, Option.map_eq_some_iff, Prod.mk.injEq] at h2
    obtain ⟨d, _, _, rfl⟩ := h2
    exact Nat.le_refl _

theorem fair_done (dbg : Bool) (dflt : T) (eq lt : T → T → Bool) {w w' : World T} {c : Cmd T} {o : CObs T} (h : w.execX dbg dflt eq lt c = .done o w') :
    due w'.st ≤ due w.st := by
  unfold World.execX at h
  cases hm : w.mayThrow dbg dflt c with
  | some r =>
    have h1 := fair_mayThrow dbg dflt w c hm
    rw [hm] at h
    cases r <;> cases h
    exact h1
  | none =>
    rw [hm] at h
    cases he : w.exec dbg dflt eq lt c with
    | none => rw [he] at h; cases h
    | some q => rw [he] at h; cases h; exact fair_reads dbg dflt eq lt w c hm he

theorem fair_threw (dbg : Bool) (dflt : T) (eq lt : T → T → Bool) {w w' : World T} {c : Cmd T} (h : w.execX dbg dflt eq lt c = .threw w') :
    due w'.st < due w.st := by
  unfold World.execX at h
  cases hm : w.mayThrow dbg dflt c with
  | some r =>
    have h1 := fair_mayThrow dbg dflt w c hm
    rw [hm] at h
    cases r <;> cases h
    exact h1
  | none =>
    rw [hm] at h
    cases he : w.exec dbg dflt eq lt c with
    | none => rw [he] at h; cases h
    | some q => rw [he] at h; cases h

end MultiArray
