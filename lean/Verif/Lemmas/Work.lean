import Verif.SpecWork
import Verif.Lemmas.Fair
import Verif.Lemmas.Flat
import Verif.Props.Flat
import Verif.Lemmas.Resize

/- Counting the operations of the environment. -/
set_option autoImplicit false

namespace MultiArray
open Spec
variable {T α β : Type}

/-- `Performs`, without the claim that the computation is defined. -/
def Out.takes (k : Nat) (s : St T) : Out T α → Prop
  | .ok _ s' => (∀ i, i < k → ¬ ThrowsAt s i) ∧ s'.sched = s.sched.drop k
  | .throw s' => ∃ j, j < k ∧ (∀ i, i < j → ¬ ThrowsAt s i) ∧ ThrowsAt s j ∧ s'.sched = s.sched.drop (j + 1)
  | .assertFail _ => True
  | .ub => True

def Takes (k : Nat) (x : Exec T α) : Prop := ∀ s, (x s).takes k s

theorem throwsAt_drop {s s' : St T} {k : Nat} (h : s'.sched = s.sched.drop k) (i : Nat) : ThrowsAt s' i ↔ ThrowsAt s (k + i) := by
  unfold ThrowsAt; rw [h, List.getElem?_drop]

/-- Sequencing; the continuation only matters for values that the first part returns. -/
theorem Takes.bind' {k m : Nat} {x : Exec T α} {f : α → Exec T β} (hx : Takes k x) (hf : ∀ a s s', x s = .ok a s' → (f a s').takes m s') :
    Takes (k + m) (x >>= f) := by
  intro s
  show (Exec.bind x f s).takes (k + m) s
  unfold Exec.bind
  have h1 := hx s
  cases h : x s with
  | ok a s' =>
    rw [h] at h1
    obtain ⟨h1, h2⟩ := h1
    have h3 := hf a s s' h
    have hlt : ∀ j, (∀ i, i < j → ¬ ThrowsAt s' i) → ∀ i, i < k + j → ¬ ThrowsAt s i := by
      intro j hj i hi
      by_cases hik : i < k
      · exact h1 i hik
      · have := hj (i - k) (by omega)
        rw [throwsAt_drop h2] at this
        rwa [show k + (i - k) = i by omega] at this
    simp only
    cases h' : f a s' with
    | ok b s'' =>
      rw [h'] at h3
      exact ⟨hlt m h3.1, by rw [h3.2, h2, List.drop_drop]⟩
    | throw s'' =>
      rw [h'] at h3
      obtain ⟨j, e1, e2, e3, e4⟩ := h3
      exact ⟨k + j, by omega, hlt j e2, (throwsAt_drop h2 j).mp e3, by rw [e4, h2, List.drop_drop]; rfl⟩
    | assertFail s'' => trivial
    | ub => trivial
  | throw s' =>
    rw [h] at h1
    obtain ⟨j, e1, e2⟩ := h1
    exact ⟨j, by omega, e2⟩
  | assertFail s' => trivial
  | ub => trivial

theorem Takes.bind {k m : Nat} {x : Exec T α} {f : α → Exec T β} (hx : Takes k x) (hf : ∀ a, Takes m (f a)) : Takes (k + m) (x >>= f) :=
  hx.bind' fun a _ s' _ => hf a s'

theorem Takes.pure (a : α) : Takes 0 (Pure.pure a : Exec T α) := fun _ => ⟨fun _ h => by omega, by rw [List.drop_zero]⟩

theorem Takes.cast {k m : Nat} {x : Exec T α} (hx : Takes k x) (h : k = m) : Takes m x := h ▸ hx

theorem Takes.lift (r : Res α) : Takes 0 (Exec.lift r : Exec T α) := by
  intro s; cases r <;> first | exact ⟨fun _ h => by omega, by rw [List.drop_zero]⟩ | trivial

/-- A computation that returns normally, if at all, and leaves the schedule alone. -/
theorem Takes.zero {x : Exec T α} (h : ∀ s, match x s with | .ok _ s' => s'.sched = s.sched | .throw _ => False | _ => True) : Takes 0 x := by
  intro s
  have := h s
  cases hx : x s <;> rw [hx] at this
  · exact ⟨fun _ h => by omega, by rw [List.drop_zero]; exact this⟩
  · exact this.elim
  · trivial
  · trivial

theorem Takes.onThrow {k : Nat} {x : Exec T α} {c : Exec T Unit} (hx : Takes k x) (hc : Takes 0 c) : Takes k (Exec.onThrow x c) := by
  intro s
  unfold Exec.onThrow
  have h1 := hx s
  cases h : x s with
  | ok a s' => rw [h] at h1; exact h1
  | throw s' =>
    rw [h] at h1
    obtain ⟨j, e1, e2, e3, e4⟩ := h1
    have h2 := hc s'
    simp only
    cases h' : c s' with
    | ok a s'' => rw [h'] at h2; exact ⟨j, e1, e2, e3, by rw [h2.2, List.drop_zero, e4]⟩
    | throw s'' => rw [h'] at h2; obtain ⟨j, hj, _⟩ := h2; omega
    | assertFail s'' => trivial
    | ub => trivial
  | assertFail s' => trivial
  | ub => trivial

/-- One operation of the environment. -/
theorem Takes.one {x : Exec T α} (h : ∀ s, match x s with
    | .ok _ s' => (∀ junk fs, s.sched ≠ some junk :: fs) ∧ s'.sched = s.sched.tail
    | .throw s' => ∃ junk fs, s.sched = some junk :: fs ∧ s'.sched = fs
    | _ => True) : Takes 1 x := by
  intro s
  have := h s
  cases hx : x s <;> rw [hx] at this
  · obtain ⟨h1, h2⟩ := this
    refine ⟨fun i hi => ?_, by rw [h2, List.drop_one]⟩
    obtain rfl : i = 0 := by omega
    rintro ⟨junk, hj⟩
    cases hs : s.sched with
    | nil => rw [hs] at hj; cases hj
    | cons f fs =>
      rw [hs] at hj
      simp only [List.getElem?_cons_zero, Option.some.injEq] at hj
      exact h1 junk fs (by rw [hs, hj])
  · obtain ⟨junk, fs, h1, h2⟩ := this
    exact ⟨0, by omega, fun i hi => by omega, ⟨junk, by rw [h1]; rfl⟩, by rw [h1]; exact h2⟩
  · trivial
  · trivial

theorem Takes.load (p : Ptr) : Takes 0 (load p : Exec T T) := by
  apply Takes.zero; intro s; unfold MultiArray.load
  cases s.get? p <;> trivial

theorem Takes.assignCell (p : Ptr) (v : T) : Takes 1 (assignCell p v : Exec T Unit) := by
  apply Takes.one; intro s; unfold MultiArray.assignCell
  cases s.get? p with
  | none => trivial
  | some u =>
    simp only
    cases hs : s.sched with
    | nil => exact ⟨by simp, by rw [setCell_sched, hs]; rfl⟩
    | cons f fs =>
      cases f with
      | none => exact ⟨by simp, by rw [setCell_sched]; rfl⟩
      | some junk => exact ⟨junk, fs, rfl, by rw [setCell_sched]⟩

theorem Takes.constructCell (dflt : T) (p : Ptr) : Takes 1 (constructCell dflt p : Exec T Unit) := by
  apply Takes.one; intro s; unfold MultiArray.constructCell
  cases s.cell? p with
  | none => trivial
  | some c =>
    cases c with
    | obj v => trivial
    | raw =>
      simp only
      cases hs : s.sched with
      | nil => exact ⟨by simp, by rw [setCell_sched, hs]; rfl⟩
      | cons f fs =>
        cases f with
        | none => exact ⟨by simp, by rw [setCell_sched]; rfl⟩
        | some junk => exact ⟨junk, fs, rfl, rfl⟩

theorem Takes.allocate (al n : Nat) : Takes 1 (allocate al n : Exec T Ptr) := by
  apply Takes.one; intro s; unfold MultiArray.allocate
  cases hs : s.sched with
  | nil => exact ⟨by simp, rfl⟩
  | cons f fs =>
    cases f with
    | none => exact ⟨by simp, rfl⟩
    | some junk => exact ⟨junk, fs, rfl, rfl⟩

theorem Takes.deallocate (al : Nat) (p : Ptr) (n : Nat) : Takes 0 (deallocate al p n : Exec T Unit) := by
  apply Takes.zero; intro s; unfold MultiArray.deallocate
  cases s.heap p.blk with
  | none => trivial
  | some blk =>
    simp only
    by_cases h : p.off = 0 ∧ blk.provider = al ∧ blk.cells.length = n ∧ blk.cells.all Cell.isRaw = true
    · rw [if_pos h]
    · rw [if_neg h]; trivial

theorem Takes.destroyCell (p : Ptr) : Takes 0 (destroyCell p : Exec T Unit) := by
  apply Takes.zero; intro s; unfold MultiArray.destroyCell
  cases s.get? p with
  | none => trivial
  | some v => exact setCell_sched _ _ _

theorem Takes.destroyN (p : Ptr) (n : Nat) : Takes 0 (destroyN p n : Exec T Unit) := by
  induction n with
  | zero => exact Takes.pure _
  | succ n ih => exact Takes.bind (Takes.destroyCell _) (fun _ => ih)

theorem Takes.constructFrom (dflt : T) (p : Ptr) (n i : Nat) : Takes n (constructFrom dflt p n i : Exec T Unit) := by
  induction n generalizing i with
  | zero => exact Takes.pure _
  | succ n ih => exact (Takes.bind (Takes.onThrow (Takes.constructCell _ _) (Takes.destroyN _ _)) (fun _ => ih _)).cast (Nat.add_comm _ _)

theorem Takes.allocateSpace (dflt : T) (ref : ARef) (al : Nat) : Takes (1 + ref.numElems) (MArr.allocateSpace dflt ref al) :=
  Takes.bind (Takes.allocate _ _) fun _ => Takes.bind (m := 0) (Takes.constructFrom _ _ _ _) fun _ => Takes.pure _

theorem Takes.deallocateSpace (a : MArr) : Takes 0 (a.deallocateSpace : Exec T Unit) := by
  unfold MArr.deallocateSpace
  split
  · exact Takes.bind (Takes.destroyN _ _) fun _ => Takes.deallocate _ _ _
  · exact Takes.pure _

theorem Takes.copyNElems (n : Nat) (p q : Ptr) : Takes n (MArr.copyNElems n p q : Exec T Unit) := by
  induction n generalizing p q with
  | zero => exact Takes.pure _
  | succ n ih =>
    exact (Takes.bind (Takes.load _) fun _ => Takes.bind (Takes.assignCell _ _) fun _ => ih _ _).cast (by omega)

theorem Takes.assignLoop (n : Nat) (p : Ptr) (input : List T) : Takes (min n input.length) (assignLoop n p input) := by
  induction n generalizing p input with
  | zero => exact (Takes.pure _).cast (by simp)
  | succ n ih =>
    cases input with
    | nil => exact (Takes.pure _).cast (by simp)
    | cons v vs => exact (Takes.bind (Takes.assignCell _ _) (fun _ => ih _ _)).cast (by simp only [List.length_cons]; omega)

theorem Takes.flatCopy (dst src : Desc) (ks : List (List Nat)) : Takes ks.length (flatCopy dst src ks : Exec T Unit) := by
  induction ks with
  | nil => exact Takes.pure _
  | cons k ks ih => exact (Takes.bind (Takes.load _) fun _ => Takes.bind (Takes.assignCell _ _) fun _ => ih).cast (by simp only [List.length_cons]; omega)

theorem Takes.copySeq (ps : List (Ptr × Ptr)) : Takes ps.length (copySeq ps : Exec T Unit) := by
  induction ps with
  | nil => exact Takes.pure _
  | cons k ks ih => exact (Takes.bind (Takes.load _) fun _ => Takes.bind (Takes.assignCell _ _) fun _ => ih).cast (by simp only [List.length_cons]; omega)

/-- A functor call that takes `m` operations makes each step take `m + 1`. -/
theorem Takes.flatForEach {σ : Type} {f : σ → T → Exec T (T × σ)} {m : Nat} (hf : ∀ q v, Takes m (f q v)) (d : Desc) (ks : List (List Nat)) (q : σ) :
    Takes (ks.length * (m + 1)) (flatForEach f d ks q) := by
  induction ks generalizing q with
  | nil => exact (Takes.pure _).cast (by simp)
  | cons k ks ih =>
    exact (Takes.bind (Takes.load _) fun _ => Takes.bind (hf _ _) fun _ => Takes.bind (Takes.assignCell _ _) fun _ => ih _).cast (by
      simp only [List.length_cons, Nat.succ_mul]; omega)

theorem Takes.liftBind {m : Nat} {r : Res α} {f : α → Exec T β} (hf : ∀ a, r = .ok a → Takes m (f a)) : Takes m (Exec.lift r >>= f) := by
  refine (Takes.bind' (m := m) (Takes.lift r) ?_).cast (Nat.zero_add m)
  intro a s s' h
  cases r with
  | ok b =>
    have h : Out.ok b s = Out.ok a s' := h
    cases h
    exact hf a rfl s
  | assertFail => cases h
  | ub => cases h

theorem Takes.stdCopy {body : It → It → Exec T Unit} {d : Desc} {k : Nat} (hb : ∀ i o, i.d = d → Takes k (body i o)) (n : Nat) (i o : It) (hi : i.d = d) :
    Takes (n * k) (stdCopy body n i o) := by
  induction n generalizing i o with
  | zero => exact (Takes.pure _).cast (by simp)
  | succ n ih => exact (Takes.bind (hb i o hi) (fun _ => ih i.increment o.increment hi)).cast (m := (n + 1) * k) (by rw [Nat.succ_mul]; omega)

theorem access_extents {dbg : Bool} {i : Int} {d d' : Desc} (h : access dbg i d = .ok d') : d.extents.tail = d'.extents := by
  unfold access at h
  split at h
  · rename_i e es _ _ _ _ he _ _
    rw [he]
    unfold Res.assert at h
    split at h <;> [cases h; skip]
    simp only [Res.bind_ok] at h
    split at h <;> [cases h; skip]
    simp only [Res.bind_ok] at h
    cases h
    rfl
  · cases h

theorem begin_end_ok {d : Desc} {x y : It} (hx : d.begin = .ok x) (hy : d.end = .ok y) : x.d = d ∧ ∃ e es, d.extents = e :: es ∧ (y.sub x).toNat = e := by
  unfold Desc.begin at hx
  unfold Desc.end at hy
  cases hb : Res.get d.bases 0 with
  | ok b =>
    rw [hb] at hx hy
    cases hx
    cases he : d.extents with
    | nil => rw [he] at hy; cases hy
    | cons e es =>
      rw [he] at hy
      cases hy
      exact ⟨rfl, e, es, rfl, by simp [It.sub, It.distanceTo]⟩
  | assertFail => rw [hb] at hx; cases hx
  | ub => rw [hb] at hx; cases hx

theorem Takes.assignRef (dbg : Bool) (n : Nat) (dst src : Desc) : Takes (src.extents.take n).prod (assignRef dbg n dst src : Exec T Unit) := by
  induction n generalizing dst src with
  | zero => exact Takes.bind (Takes.load _) (fun _ => Takes.assignCell _ _)
  | succ n ih =>
    rw [assignRef_succ]
    refine Takes.liftBind fun _ _ => Takes.liftBind fun _ _ => Takes.liftBind fun x hx => Takes.liftBind fun y hy => Takes.liftBind fun o _ => ?_
    obtain ⟨h1, e, es, h2, h3⟩ := begin_end_ok hx hy
    rw [h3, h2, List.take_succ_cons, List.prod_cons]
    refine Takes.stdCopy (d := src) (fun i o hi => Takes.liftBind fun u hu => Takes.liftBind fun _ _ => ?_) _ _ _ h1
    have := access_extents (hi ▸ hu : access dbg i.idx src = .ok u)
    rw [h2] at this
    exact (ih _ u).cast (by rw [← this]; rfl)

/-- The copying loop of the converting constructor. -/
theorem Takes.convertLoop (dbg : Bool) (src : Desc) {x y o : It} (hx : src.begin = .ok x) (hy : src.end = .ok y) :
    Takes src.extents.prod (MultiArray.stdCopy (fun i o => do
        let s ← Exec.lift (i.deref dbg)
        let d ← Exec.lift (o.deref dbg)
        MultiArray.assignRef dbg (src.extents.length - 1) d s) (y.sub x).toNat x o : Exec T Unit) := by
  obtain ⟨h1, e, es, h2, h3⟩ := begin_end_ok hx hy
  rw [h3, h2, List.prod_cons]
  refine Takes.stdCopy (d := src) (fun i o hi => Takes.liftBind fun u hu => Takes.liftBind fun _ _ => ?_) _ _ _ h1
  have := access_extents (hi ▸ hu : access dbg i.idx src = .ok u)
  rw [h2] at this
  refine (Takes.assignRef dbg _ _ u).cast ?_
  rw [← this]
  simp

theorem allocateSpace_result {dflt : T} {ref : ARef} {al : Nat} {s s' : St T} {m : MArr} (h : MArr.allocateSpace dflt ref al s = .ok m s') :
    ∃ p, m = ⟨{ ref with base := p }, p, ref.numElems, al⟩ := by
  unfold MArr.allocateSpace at h
  change Exec.bind _ _ s = _ at h
  unfold Exec.bind at h
  cases h1 : (allocate al ref.numElems : Exec T Ptr) s with
  | ok p s1 =>
    rw [h1] at h
    change Exec.bind _ _ s1 = _ at h
    unfold Exec.bind at h
    cases h2 : (constructFrom dflt p ref.numElems 0 : Exec T Unit) s1 with
    | ok _ s2 =>
      simp only [h2] at h
      change Out.ok _ s2 = _ at h
      cases h
      exact ⟨p, rfl⟩
    | throw s2 => simp only [h2] at h; cases h
    | assertFail s2 => simp only [h2] at h; cases h
    | ub => simp only [h2] at h; cases h
  | throw s1 => rw [h1] at h; cases h
  | assertFail s1 => rw [h1] at h; cases h
  | ub => rw [h1] at h; cases h

theorem Takes.resizeFill (dbg : Bool) {a m : MArr} (hwa : WellShaped a.ref.desc) (hwm : WellShaped m.ref.desc)
    (hlen : m.ref.extents.length = a.ref.extents.length) (hra : Representable a.ref.bases a.ref.extents)
    (hrm : Representable m.ref.bases m.ref.extents) :
    Takes (List.zipWith Nat.min m.ref.extents a.ref.extents).prod (MArr.resizeFill dbg a m : Exec T Unit) := by
  generalize hms : List.zipWith Nat.min m.ref.extents a.ref.extents = ms
  have hma : List.Forall₂ (· ≤ ·) ms a.ref.extents := hms ▸ zipMin_le_right _ _ hlen
  have hmm : List.Forall₂ (· ≤ ·) ms m.ref.extents := hms ▸ zipMin_le_left _ _ hlen
  obtain ⟨v, hv1, hv2, hv3, hv4⟩ := leadingView dbg a.ref.desc hwa ms hma hra a.ref.extents.length rfl
  obtain ⟨u, hu1, hu2, hu3, hu4⟩ := leadingView dbg m.ref.desc hwm ms hmm hrm a.ref.extents.length hlen.symm
  have hrun : (MArr.resizeFill dbg a m : Exec T Unit) = MultiArray.assignRef dbg u.extents.length u.desc v.desc := by
    unfold MArr.resizeFill
    simp only [ARef.slice, hms]
    rw [show a.ref.bases = a.ref.desc.bases from rfl, show m.ref.bases = m.ref.desc.bases from rfl, hv1, hu1]
    simp only [Exec.lift_ok, pure_bind]
    rfl
  rw [hrun]
  refine (Takes.assignRef dbg _ _ _).cast ?_
  show (v.extents.take _).prod = _
  rw [hv2, hu2, List.take_length]

theorem resize_run (dbg : Bool) (dflt : T) (g : ExtentGen) (a : MArr) (s : St T) :
    (MArr.resize dbg dflt g a s).1 = (do
      let m ← MArr.mkExtentGen dflt g a.ref.storage a.alloc
      Exec.onThrow (MArr.resizeFill dbg a m) m.deallocateSpace
      (MArr.swapAll a m).2.deallocateSpace : Exec T Unit) s := by
  change (Member.bind _ _ a s).1 = Exec.bind _ _ s
  unfold Member.bind Exec.bind Member.run
  simp only
  cases h1 : (MArr.mkExtentGen dflt g a.ref.storage a.alloc : Exec T MArr) s with
  | ok m s1 =>
    simp only
    change (Member.bind _ _ a s1).1 = Exec.bind _ _ s1
    unfold Member.bind Exec.bind
    simp only
    cases h2 : Exec.onThrow (MArr.resizeFill dbg a m) m.deallocateSpace s1 <;> rfl
  | throw s1 => rfl
  | assertFail s1 => rfl
  | ub => rfl

theorem Takes.resize (dbg : Bool) (dflt : T) {n : Nat} {a : MArr} (ha : Reachable n a.ref) (hra : Representable a.ref.bases a.ref.extents)
    (g : ExtentGen) (hn : g.numRanges = n) (hl : g.ranges.length = n)
    (hrg : Representable (g.ranges.map ExtentRange.start) (g.ranges.map ExtentRange.size)) (s : St T) :
    (MArr.resize dbg dflt g a s).1.takes (resizeOps (g.ranges.map ExtentRange.size) a.ref.extents) s := by
  rw [resize_run]
  obtain ⟨ref, hg, hreach, hb, hso, hbs, hes⟩ := ofExtentGen_ok Ptr.null g hn hl ha.wf.order
  have hnum : ref.numElems = ref.extents.prod := by rw [hreach.wf.num_eq, product_eq]
  have hmk : (MArr.mkExtentGen dflt g a.ref.storage a.alloc : Exec T MArr) = MArr.allocateSpace dflt ref a.alloc := by
    unfold MArr.mkExtentGen
    rw [hg]; simp
  rw [hmk]
  refine ((Takes.allocateSpace dflt ref a.alloc).bind' (m := (List.zipWith Nat.min ref.extents a.ref.extents).prod) ?_).cast ?_ s
  · intro m s s' h
    obtain ⟨p, rfl⟩ := allocateSpace_result h
    refine Takes.bind (m := 0) (Takes.onThrow (Takes.resizeFill dbg (m := ⟨{ ref with base := p }, p, ref.numElems, a.alloc⟩) ha.wf.wellShaped ?_ ?_ hra ?_)
      (Takes.deallocateSpace _)) (fun _ => Takes.deallocateSpace _) s'
    · exact hreach.wf.wellShaped
    · show ref.extents.length = _
      rw [ha.wf.ext_len, hreach.wf.ext_len]
    · show Representable ref.bases ref.extents
      rw [hbs, hes]; exact hrg
  · rw [hnum, ← hes]; rfl

/-- From "defined" and "takes" to "performs". -/
theorem Performs.of_takes {k : Nat} {s : St T} {o : Out T α} (h : o.takes k s) (hd : (∃ a s', o = .ok a s') ∨ ∃ s', o = .throw s') : Performs k s o := by
  rcases hd with ⟨a, s', rfl⟩ | ⟨s', rfl⟩ <;> exact h

end MultiArray
