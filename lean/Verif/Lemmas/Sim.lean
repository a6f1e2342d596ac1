import Verif.SpecProgX
import Verif.Lemmas.Keeps
import Verif.Lemmas.ProgStep

/- Comparing a run in which exceptions are due, and in which some blocks have leaked, with the run without either. -/
set_option autoImplicit false

namespace MultiArray
open Spec Props
variable {T α β : Type}

/-- `t` is `s` without the leaked blocks `L` and without exceptions. -/
structure Calm (L : List Nat) (s t : St T) : Prop where
  sched : t.sched = []
  next : t.next = s.next
  leaked : ∀ b ∈ L, t.heap b = none ∧ s.heap b ≠ none ∧ b < s.next
  same : ∀ b, b ∉ L → t.heap b = s.heap b

theorem Calm.blk {L : List Nat} {s t : St T} (h : Calm L s t) {b : Nat} (hb : t.heap b ≠ none) : b ∉ L :=
  fun hm => hb (h.leaked b hm).1

theorem Calm.heapEq {L : List Nat} {s t : St T} (h : Calm L s t) {b : Nat} (hb : t.heap b ≠ none) : s.heap b = t.heap b :=
  (h.same b (h.blk hb)).symm

theorem cell?_heap {s : St T} {p : Ptr} {c : Cell T} (h : s.cell? p = some c) : s.heap p.blk ≠ none := by
  intro hn
  unfold St.cell? at h
  rw [hn] at h
  cases h

theorem cell?_congr {s t : St T} {p : Ptr} (h : s.heap p.blk = t.heap p.blk) : s.cell? p = t.cell? p := by
  unfold St.cell?; rw [h]

theorem get?_congr {s t : St T} {p : Ptr} (h : s.heap p.blk = t.heap p.blk) : s.get? p = t.get? p := by
  unfold St.get?; rw [cell?_congr h]

theorem get?_heap {s : St T} {p : Ptr} {v : T} (h : s.get? p = some v) : s.heap p.blk ≠ none := cell?_heap (St.get?_eq_some.mp h)

theorem Calm.get {L : List Nat} {s t : St T} (h : Calm L s t) {p : Ptr} {v : T} (hv : t.get? p = some v) : s.get? p = some v := by
  rw [get?_congr (h.heapEq (get?_heap hv))]; exact hv

theorem setCell_next (s : St T) (p : Ptr) (c : Cell T) : (s.setCell p c).next = s.next := by
  unfold St.setCell; split <;> rfl

theorem setCell_sched (s : St T) (p : Ptr) (c : Cell T) : (s.setCell p c).sched = s.sched := by
  unfold St.setCell; split <;> rfl

theorem setCell_heap_other (s : St T) (p : Ptr) (c : Cell T) {b : Nat} (h : b ≠ p.blk) : (s.setCell p c).heap b = s.heap b := by
  unfold St.setCell; split
  · rfl
  · simp [h]

theorem setCell_heap_same {s t : St T} {p : Ptr} (c : Cell T) (h : s.heap p.blk = t.heap p.blk) :
    (s.setCell p c).heap p.blk = (t.setCell p c).heap p.blk := by
  unfold St.setCell
  rw [h]
  cases ht : t.heap p.blk <;> simp [ht, h]

/-- Changing one cell of a block that has not leaked. -/
theorem Calm.setCell {L : List Nat} {s t : St T} (h : Calm L s t) {p : Ptr} (hp : p.blk ∉ L) (c : Cell T) (fs : List (Option T)) :
    Calm L ({ s with sched := fs }.setCell p c) (t.setCell p c) := by
  refine ⟨by rw [setCell_sched, h.sched], by rw [setCell_next, setCell_next, h.next], ?_, ?_⟩
  · intro b hb
    have hne : b ≠ p.blk := fun he => hp (he ▸ hb)
    rw [setCell_heap_other _ _ _ hne, setCell_heap_other _ _ _ hne, setCell_next]
    exact h.leaked b hb
  · intro b hb
    by_cases hbp : b = p.blk
    · subst hbp
      exact (setCell_heap_same (s := { s with sched := fs }) c (h.same _ hb).symm).symm
    · rw [setCell_heap_other _ _ _ hbp, setCell_heap_other _ _ _ hbp]
      exact h.same b hb

/-- Where both runs complete they return the same value and stay related. -/
def Agree (e : Exec T α) : Prop :=
  ∀ L s t v s1 v' t1, Calm L s t → e s = .ok v s1 → e t = .ok v' t1 → v = v' ∧ Calm L s1 t1

theorem Agree.pure (a : α) : Agree (Pure.pure a : Exec T α) := by
  intro L s t v s1 v' t1 h h1 h2
  cases h1; cases h2
  exact ⟨rfl, h⟩

theorem Agree.lift (r : Res α) : Agree (Exec.lift r : Exec T α) := by
  intro L s t v s1 v' t1 h h1 h2
  cases r with
  | ok a => cases h1; cases h2; exact ⟨rfl, h⟩
  | assertFail => cases h1
  | ub => cases h1

theorem bind_ok_inv {x : Exec T α} {f : α → Exec T β} {s s1 : St T} {v : β} (h : (x >>= f) s = .ok v s1) :
    ∃ a s', x s = .ok a s' ∧ f a s' = .ok v s1 := by
  change Exec.bind x f s = _ at h
  unfold Exec.bind at h
  cases hx : x s with
  | ok a s' => rw [hx] at h; exact ⟨a, s', rfl, h⟩
  | throw s' => rw [hx] at h; cases h
  | assertFail s' => rw [hx] at h; cases h
  | ub => rw [hx] at h; cases h

theorem Agree.bind {x : Exec T α} {f : α → Exec T β} (hx : Agree x) (hf : ∀ a, Agree (f a)) : Agree (x >>= f) := by
  intro L s t v s1 v' t1 h h1 h2
  obtain ⟨a, s2, e1, e2⟩ := bind_ok_inv h1
  obtain ⟨b, t2, e3, e4⟩ := bind_ok_inv h2
  obtain ⟨rfl, h3⟩ := hx L s t a s2 b t2 h e1 e3
  exact hf a L s2 t2 v s1 v' t1 h3 e2 e4

theorem Agree.onThrow {x : Exec T α} {c : Exec T Unit} (hx : Agree x) : Agree (Exec.onThrow x c) := by
  have key : ∀ {s s1 : St T} {v : α}, Exec.onThrow x c s = .ok v s1 → x s = .ok v s1 := by
    intro s s1 v h
    unfold Exec.onThrow at h
    cases hh : x s with
    | ok a s' => rw [hh] at h; exact h
    | throw s' =>
      rw [hh] at h
      simp only at h
      cases hc : c s' <;> rw [hc] at h <;> cases h
    | assertFail s' => rw [hh] at h; cases h
    | ub => rw [hh] at h; cases h
  intro L s t v s1 v' t1 h h1 h2
  exact hx L s t v s1 v' t1 h (key h1) (key h2)

theorem Agree.load (p : Ptr) : Agree (load p : Exec T T) := by
  intro L s t v s1 v' t1 h h1 h2
  unfold MultiArray.load at h1 h2
  cases ht : t.get? p with
  | none => rw [ht] at h2; cases h2
  | some u =>
    rw [ht] at h2; cases h2
    rw [h.get ht] at h1; cases h1
    exact ⟨rfl, h⟩

theorem Agree.assignCell (p : Ptr) (x : T) : Agree (assignCell p x) := by
  intro L s t v s1 v' t1 h h1 h2
  unfold MultiArray.assignCell at h1 h2
  cases ht : t.get? p with
  | none => rw [ht] at h2; cases h2
  | some u =>
    rw [ht, h.sched] at h2; cases h2
    rw [h.get ht] at h1
    have hp := h.blk (get?_heap ht)
    refine ⟨rfl, ?_⟩
    cases hs : s.sched with
    | nil =>
      rw [hs] at h1; cases h1
      have := h.setCell hp (.obj x) s.sched
      exact this
    | cons f fs =>
      cases f with
      | none => rw [hs] at h1; cases h1; exact h.setCell hp (.obj x) fs
      | some j => rw [hs] at h1; cases h1

theorem Agree.destroyCell (p : Ptr) : Agree (destroyCell p : Exec T Unit) := by
  intro L s t v s1 v' t1 h h1 h2
  unfold MultiArray.destroyCell at h1 h2
  cases ht : t.get? p with
  | none => rw [ht] at h2; cases h2
  | some u =>
    rw [ht] at h2; cases h2
    rw [h.get ht] at h1; cases h1
    exact ⟨rfl, h.setCell (h.blk (get?_heap ht)) .raw s.sched⟩

theorem Agree.destroyN (p : Ptr) (n : Nat) : Agree (destroyN p n : Exec T Unit) := by
  induction n with
  | zero => exact Agree.pure ()
  | succ n ih => exact Agree.bind (Agree.destroyCell _) (fun _ => ih)

theorem Agree.constructCell (dflt : T) (p : Ptr) : Agree (constructCell dflt p) := by
  intro L s t v s1 v' t1 h h1 h2
  unfold MultiArray.constructCell at h1 h2
  cases ht : t.cell? p with
  | none => rw [ht] at h2; cases h2
  | some c =>
    have hp := h.blk (cell?_heap ht)
    rw [cell?_congr (h.heapEq (cell?_heap ht)), ht] at h1
    rw [ht] at h2
    cases c with
    | obj u => cases h2
    | raw =>
      simp only [h.sched] at h2
      cases h2
      refine ⟨rfl, ?_⟩
      cases hs : s.sched with
      | nil => simp only [hs] at h1; cases h1; exact h.setCell hp (.obj dflt) s.sched
      | cons f fs =>
        cases f with
        | none => simp only [hs] at h1; cases h1; exact h.setCell hp (.obj dflt) fs
        | some j => simp only [hs] at h1; cases h1

theorem Agree.constructFrom (dflt : T) (p : Ptr) (n i : Nat) : Agree (constructFrom dflt p n i) := by
  induction n generalizing i with
  | zero => exact Agree.pure ()
  | succ n ih => exact Agree.bind (Agree.onThrow (Agree.constructCell _ _)) (fun _ => ih _)

theorem Agree.allocate (al n : Nat) : Agree (allocate al n : Exec T Ptr) := by
  intro L s t v s1 v' t1 h h1 h2
  unfold MultiArray.allocate at h1 h2
  rw [h.sched] at h2
  cases h2
  have key : ∀ fs : List (Option T), Calm L
      { heap := fun b => if b = s.next then some ⟨al, List.replicate n .raw⟩ else s.heap b, next := s.next + 1, sched := fs }
      { heap := fun b => if b = t.next then some ⟨al, List.replicate n .raw⟩ else t.heap b, next := t.next + 1, sched := [] } := by
    intro fs
    refine ⟨rfl, by simp [h.next], ?_, ?_⟩
    · intro b hb
      obtain ⟨e1, e2, e3⟩ := h.leaked b hb
      have hne : b ≠ s.next := by omega
      refine ⟨by simp [h.next, hne, e1], by simp [hne, e2], ?_⟩
      show b < s.next + 1
      omega
    · intro b hb
      simp only [h.next]
      split
      · rfl
      · exact h.same b hb
  cases hs : s.sched with
  | nil => rw [hs] at h1; cases h1; exact ⟨by rw [h.next], key _⟩
  | cons f fs =>
    cases f with
    | none => rw [hs] at h1; cases h1; exact ⟨by rw [h.next], key _⟩
    | some j => rw [hs] at h1; cases h1

theorem Agree.deallocate (al : Nat) (p : Ptr) (n : Nat) : Agree (deallocate al p n : Exec T Unit) := by
  intro L s t v s1 v' t1 h h1 h2
  unfold MultiArray.deallocate at h1 h2
  cases ht : t.heap p.blk with
  | none => rw [ht] at h2; cases h2
  | some blk =>
    have hne : t.heap p.blk ≠ none := by rw [ht]; simp
    have hp := h.blk hne
    rw [ht] at h2
    rw [h.heapEq hne, ht] at h1
    simp only at h1 h2
    split at h1
    · rename_i hc
      rw [if_pos hc] at h2
      cases h1; cases h2
      refine ⟨rfl, h.sched, h.next, ?_, ?_⟩
      · intro b hb
        have : b ≠ p.blk := fun he => hp (he ▸ hb)
        simp only [this, if_false]
        exact h.leaked b hb
      · intro b hb
        simp only
        split
        · rfl
        · exact h.same b hb
    · cases h1

theorem Agree.stdCopy {body : It → It → Exec T Unit} (hb : ∀ i o, Agree (body i o)) (n : Nat) (i o : It) : Agree (stdCopy body n i o) := by
  induction n generalizing i o with
  | zero => exact Agree.pure ()
  | succ n ih => exact Agree.bind (hb i o) (fun _ => ih _ _)

theorem Agree.assignRef (dbg : Bool) (n : Nat) (dst src : Desc) : Agree (assignRef dbg n dst src : Exec T Unit) := by
  induction n generalizing dst src with
  | zero => exact Agree.bind (Agree.load _) (fun _ => Agree.assignCell _ _)
  | succ n ih =>
    refine Agree.bind (Agree.lift _) fun _ => Agree.bind (Agree.lift _) fun _ => Agree.bind (Agree.lift _) fun _ =>
      Agree.bind (Agree.lift _) fun _ => Agree.bind (Agree.lift _) fun _ => Agree.stdCopy (fun i o => ?_) _ _ _
    exact Agree.bind (Agree.lift _) fun _ => Agree.bind (Agree.lift _) fun _ => ih _ _

theorem Agree.copyNElems (n : Nat) (src dst : Ptr) : Agree (MArr.copyNElems n src dst : Exec T Unit) := by
  induction n generalizing src dst with
  | zero => exact Agree.pure ()
  | succ n ih => exact Agree.bind (Agree.load _) fun _ => Agree.bind (Agree.assignCell _ _) fun _ => ih _ _

theorem Agree.allocateSpace (dflt : T) (ref : ARef) (al : Nat) : Agree (MArr.allocateSpace dflt ref al) :=
  Agree.bind (Agree.allocate _ _) fun _ => Agree.bind (Agree.constructFrom _ _ _ _) fun _ => Agree.pure _

theorem Agree.deallocateSpace (a : MArr) : Agree (MArr.deallocateSpace a : Exec T Unit) := by
  unfold MArr.deallocateSpace
  split
  · exact Agree.bind (Agree.destroyN _ _) fun _ => Agree.deallocate _ _ _
  · exact Agree.pure _

theorem Agree.ctor (dbg : Bool) (dflt : T) (c : Ctor) : Agree (c.run dbg dflt) := by
  cases c with
  | default n al => exact Agree.bind (Agree.lift _) fun _ => Agree.allocateSpace _ _ _
  | extents n es so al => exact Agree.bind (Agree.lift _) fun _ => Agree.allocateSpace _ _ _
  | gen n rs so al => exact Agree.bind (Agree.lift _) fun _ => Agree.allocateSpace _ _ _
  | copy n a => exact Agree.bind (Agree.allocateSpace _ _ _) fun _ => Agree.bind (Agree.copyNElems _ _ _) fun _ => Agree.pure _
  | convert n d so al =>
    refine Agree.bind (Agree.lift _) fun _ => Agree.bind (Agree.allocateSpace _ _ _) fun _ => Agree.bind (Agree.lift _) fun _ =>
      Agree.bind (Agree.lift _) fun _ => Agree.bind (Agree.lift _) fun _ => Agree.bind (Agree.stdCopy (fun i o => ?_) _ _ _) fun _ => Agree.pure _
    exact Agree.bind (Agree.lift _) fun _ => Agree.bind (Agree.lift _) fun _ => Agree.assignRef _ _ _ _

/-- The same for member functions that change their object. -/
def AgreeM (m : Member T α) : Prop :=
  ∀ L a s t v s1 v' t1, Calm L s t → (m a s).1 = .ok v s1 → (m a t).1 = .ok v' t1 → v = v' ∧ Calm L s1 t1 ∧ (m a s).2 = (m a t).2

theorem bindM_ok_inv {x : Member T α} {f : α → Member T β} {a : MArr} {s s1 : St T} {v : β} (h : ((x >>= f) a s).1 = .ok v s1) :
    ∃ u s', (x a s).1 = .ok u s' ∧ (x >>= f) a s = f u (x a s).2 s' := by
  change (Member.bind x f a s).1 = _ at h
  show ∃ u s', (x a s).1 = .ok u s' ∧ Member.bind x f a s = f u (x a s).2 s'
  unfold Member.bind at h ⊢
  rcases hx : x a s with ⟨r, a'⟩
  rw [hx] at h
  cases r with
  | ok u s' => exact ⟨u, s', rfl, rfl⟩
  | throw s' => cases h
  | assertFail s' => cases h
  | ub => cases h

theorem AgreeM.bind {x : Member T α} {f : α → Member T β} (hx : AgreeM x) (hf : ∀ a, AgreeM (f a)) : AgreeM (x >>= f) := by
  intro L a s t v s1 v' t1 h h1 h2
  obtain ⟨u, s2, e1, e2⟩ := bindM_ok_inv h1
  obtain ⟨u', t2, e3, e4⟩ := bindM_ok_inv h2
  obtain ⟨rfl, h3, h4⟩ := hx L a s t u s2 u' t2 h e1 e3
  rw [e2] at h1 ⊢
  rw [e4] at h2 ⊢
  rw [h4] at h1 ⊢
  exact hf u L _ s2 t2 v s1 v' t1 h3 h1 h2

theorem AgreeM.run {e : Exec T α} (he : Agree e) : AgreeM (Member.run e) := by
  intro L a s t v s1 v' t1 h h1 h2
  obtain ⟨e1, e2⟩ := he L s t v s1 v' t1 h h1 h2
  exact ⟨e1, e2, rfl⟩

theorem AgreeM.self : AgreeM (Member.self : Member T MArr) := by
  intro L a s t v s1 v' t1 h h1 h2
  cases h1; cases h2
  exact ⟨rfl, h, rfl⟩

theorem AgreeM.swapWith (b : MArr) : AgreeM (Member.swapWith b : Member T MArr) := by
  intro L a s t v s1 v' t1 h h1 h2
  cases h1; cases h2
  exact ⟨rfl, h, rfl⟩

theorem AgreeM.resize (dbg : Bool) (dflt : T) (g : ExtentGen) : AgreeM (MArr.resize dbg dflt g) := by
  refine AgreeM.bind AgreeM.self fun a => AgreeM.bind (AgreeM.run (Agree.bind (Agree.lift _) fun _ => Agree.allocateSpace _ _ _)) fun m =>
    AgreeM.bind (AgreeM.run (Agree.onThrow ?_)) fun _ => AgreeM.bind (AgreeM.swapWith _) fun _ => AgreeM.run (Agree.deallocateSpace _)
  refine Agree.bind (Agree.lift _) fun _ => Agree.bind (Agree.lift _) fun _ => ?_
  unfold assignOp
  exact Agree.assignRef _ _ _ _

theorem AgreeM.resizeExtents (dbg : Bool) (dflt : T) (es : List Nat) : AgreeM (MArr.resizeExtents dbg dflt es) :=
  AgreeM.bind AgreeM.self fun _ => AgreeM.bind (AgreeM.run (Agree.lift _)) fun _ => AgreeM.resize _ _ _

/-! ### Reading -/

/-- A computation that only reads memory: what it returns without the leaked blocks it returns with them. -/
def Reads (f : St T → Res α) : Prop := ∀ L s t v, Calm L s t → f t = .ok v → f s = .ok v

theorem Reads.const (r : Res α) : Reads (fun _ : St T => r) := fun _ _ _ _ _ h => h

theorem Reads.bind {f : St T → Res α} {g : α → St T → Res β} (hf : Reads f) (hg : ∀ a, Reads (g a)) : Reads (fun s => f s >>= fun a => g a s) := by
  intro L s t v h h1
  simp only at h1 ⊢
  cases ht : f t with
  | ok a =>
    rw [ht, Res.bind_ok] at h1
    rw [hf L s t a h ht, Res.bind_ok]
    exact hg a L s t v h h1
  | assertFail => rw [ht] at h1; cases h1
  | ub => rw [ht] at h1; cases h1

theorem Reads.loadR (p : Ptr) : Reads (fun s : St T => loadR s p) := by
  intro L s t v h h1
  simp only [MultiArray.loadR] at h1 ⊢
  cases ht : t.get? p with
  | none => rw [ht] at h1; cases h1
  | some u => rw [ht] at h1; rw [h.get ht]; exact h1

theorem Reads.stdEqual {f : It → It → St T → Res Bool} (hf : ∀ i j, Reads (f i j)) (n : Nat) (i j : It) :
    Reads (fun s => stdEqual (fun i j => f i j s) n i j) := by
  induction n generalizing i j with
  | zero => exact Reads.const _
  | succ n ih =>
    refine Reads.bind (hf i j) (g := fun b s => if b then MultiArray.stdEqual (fun i j => f i j s) n i.increment j.increment else .ok false) fun b => ?_
    cases b with
    | true => exact ih _ _
    | false => exact Reads.const _

theorem Reads.stdLexCompare {f : It → It → St T → Res Bool} (hf : ∀ i j, Reads (f i j)) (n m : Nat) (i j : It) :
    Reads (fun s => stdLexCompare (fun i j => f i j s) n m i j) := by
  induction n generalizing m i j with
  | zero => cases m <;> exact Reads.const _
  | succ n ih =>
    cases m with
    | zero => exact Reads.const _
    | succ m =>
      refine Reads.bind (hf i j) (g := fun b s => if b then .ok true else do
        if ← f j i s then .ok false else MultiArray.stdLexCompare (fun i j => f i j s) n m i.increment j.increment) fun b => ?_
      cases b with
      | true => exact Reads.const _
      | false =>
        refine Reads.bind (hf j i) (g := fun b s => if b then .ok false else MultiArray.stdLexCompare (fun i j => f i j s) n m i.increment j.increment) fun b => ?_
        cases b with
        | true => exact Reads.const _
        | false => exact ih _ _ _

theorem Reads.equalRef (dbg : Bool) (eq : T → T → Bool) (n : Nat) (a b : Desc) : Reads (fun s => equalRef dbg eq s n a b) := by
  induction n generalizing a b with
  | zero =>
    exact Reads.bind (Reads.loadR _) (g := fun v s => do .ok (eq v (← MultiArray.loadR s b.base))) fun v =>
      Reads.bind (Reads.loadR _) (g := fun v' _ => .ok (eq v v')) fun _ => Reads.const _
  | succ n ih =>
    by_cases he : a.extents = b.extents
    · simp only [MultiArray.equalRef, he, if_true]
      refine Reads.bind (Reads.const _) fun first => Reads.bind (Reads.const _) fun last => Reads.bind (Reads.const _) fun first2 => ?_
      refine Reads.stdEqual (f := fun i j s => do MultiArray.equalRef dbg eq s n (← i.deref dbg) (← j.deref dbg)) (fun i j => ?_) _ _ _
      exact Reads.bind (Reads.const _) fun x => Reads.bind (Reads.const _) fun y => ih x y
    · simp only [MultiArray.equalRef, he, if_false]
      exact Reads.const _

theorem Reads.lessRef (dbg : Bool) (lt : T → T → Bool) (n : Nat) (a b : Desc) : Reads (fun s => lessRef dbg lt s n a b) := by
  induction n generalizing a b with
  | zero =>
    exact Reads.bind (Reads.loadR _) (g := fun v s => do .ok (lt v (← MultiArray.loadR s b.base))) fun v =>
      Reads.bind (Reads.loadR _) (g := fun v' _ => .ok (lt v v')) fun _ => Reads.const _
  | succ n ih =>
    simp only [MultiArray.lessRef]
    refine Reads.bind (Reads.const _) fun first => Reads.bind (Reads.const _) fun last => Reads.bind (Reads.const _) fun first2 =>
      Reads.bind (Reads.const _) fun last2 => ?_
    refine Reads.stdLexCompare (f := fun i j s => do MultiArray.lessRef dbg lt s n (← i.deref dbg) (← j.deref dbg)) (fun i j => ?_) _ _ _ _
    exact Reads.bind (Reads.const _) fun x => Reads.bind (Reads.const _) fun y => ih x y

theorem Calm.mapM {L : List Nat} {s t : St T} (h : Calm L s t) (ps : List Ptr) {vs : List T} (hv : ps.mapM (fun p => t.get? p) = some vs) :
    ps.mapM (fun p => s.get? p) = some vs := by
  induction ps generalizing vs with
  | nil => exact hv
  | cons p ps ih =>
    rw [List.mapM_cons] at hv ⊢
    cases hp : t.get? p with
    | none => rw [hp] at hv; cases hv
    | some v =>
      rw [hp] at hv
      rw [h.get hp]
      cases hr : ps.mapM (fun p => t.get? p) with
      | none => rw [hr] at hv; cases hv
      | some us =>
        rw [hr] at hv
        rw [ih hr]
        exact hv

end MultiArray
