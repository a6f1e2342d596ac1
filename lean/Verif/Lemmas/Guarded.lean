import Verif.Model.Guarded
import Verif.Lemmas.Log

/- Running code when element assignment has a precondition: what matters is which values are assigned over which. -/
set_option autoImplicit false

namespace MultiArray
open Spec
variable {T α β : Type}

namespace Code

/-- Old and new value of every element assignment that is performed (or that throws), in order. -/
def overwrites : Code T α → St T → List (T × T)
  | ret _, _ => []
  | throw, _ => []
  | assertFail, _ => []
  | ub, _ => []
  | load p k, s =>
    match MultiArray.load p s with
    | .ok v s' => overwrites (k v) s'
    | _ => []
  | store p v k h, s =>
    match s.get? p with
    | none => []
    | some u => (u, v) :: (match assignCell p v s with
      | .ok _ s' => overwrites k s'
      | .throw s' => overwrites h s'
      | _ => [])
  | construct v p k h, s =>
    match constructCell v p s with
    | .ok _ s' => overwrites k s'
    | .throw s' => overwrites h s'
    | _ => []
  | destroy p k, s =>
    match destroyCell p s with
    | .ok _ s' => overwrites k s'
    | _ => []
  | alloc al n k h, s =>
    match allocate al n s with
    | .ok p s' => overwrites (k p) s'
    | .throw s' => overwrites h s'
    | _ => []
  | dealloc al p n k, s =>
    match deallocate al p n s with
    | .ok _ s' => overwrites k s'
    | _ => []

/-- If the precondition of every assignment holds, nothing is different. -/
theorem execG_ok (ok : T → T → Bool) (x : Code T α) (s : St T) (h : ∀ r ∈ x.overwrites s, ok r.1 r.2 = true) : x.execG ok s = x.exec s := by
  induction x generalizing s with
  | ret a => rfl
  | throw => rfl
  | assertFail => rfl
  | ub => rfl
  | load p k ih =>
    simp only [execG, exec, overwrites] at h ⊢
    cases hl : MultiArray.load p s with
    | ok v s' => rw [hl] at h; exact ih v s' h
    | throw s' => rfl
    | assertFail s' => rfl
    | ub => rfl
  | store p v k h' ih ih' =>
    simp only [execG, exec, overwrites] at h ⊢
    cases hg : s.get? p with
    | none => simp only [assignCell, hg]
    | some u =>
      rw [hg] at h
      simp only at h ⊢
      rw [if_pos (h (u, v) List.mem_cons_self)]
      cases ha : assignCell p v s with
      | ok _ s' => exact ih s' (fun r hr => h r (by rw [ha]; exact List.mem_cons_of_mem _ hr))
      | throw s' => exact ih' s' (fun r hr => h r (by rw [ha]; exact List.mem_cons_of_mem _ hr))
      | assertFail s' => rfl
      | ub => rfl
  | construct v p k h' ih ih' =>
    simp only [execG, exec, overwrites] at h ⊢
    cases hl : constructCell v p s with
    | ok _ s' => rw [hl] at h; exact ih s' h
    | throw s' => rw [hl] at h; exact ih' s' h
    | assertFail s' => rfl
    | ub => rfl
  | destroy p k ih =>
    simp only [execG, exec, overwrites] at h ⊢
    cases hl : destroyCell p s with
    | ok _ s' => rw [hl] at h; exact ih s' h
    | throw s' => rfl
    | assertFail s' => rfl
    | ub => rfl
  | alloc al n k h' ih ih' =>
    simp only [execG, exec, overwrites] at h ⊢
    cases hl : MultiArray.allocate al n s with
    | ok p s' => rw [hl] at h; exact ih p s' h
    | throw s' => rw [hl] at h; exact ih' s' h
    | assertFail s' => rfl
    | ub => rfl
  | dealloc al p n k ih =>
    simp only [execG, exec, overwrites] at h ⊢
    cases hl : deallocate al p n s with
    | ok _ s' => rw [hl] at h; exact ih s' h
    | throw s' => rfl
    | assertFail s' => rfl
    | ub => rfl

/-- If the precondition of some assignment does not hold, the assertion fails. -/
theorem execG_bad (ok : T → T → Bool) (x : Code T α) (s : St T) (h : ∃ r ∈ x.overwrites s, ok r.1 r.2 = false) : ∃ s', x.execG ok s = .assertFail s' := by
  induction x generalizing s with
  | ret a => obtain ⟨r, hr, _⟩ := h; cases hr
  | throw => obtain ⟨r, hr, _⟩ := h; cases hr
  | assertFail => exact ⟨s, rfl⟩
  | ub => obtain ⟨r, hr, _⟩ := h; cases hr
  | load p k ih =>
    simp only [execG, overwrites] at h ⊢
    cases hl : MultiArray.load p s with
    | ok v s' => rw [hl] at h; exact ih v s' h
    | throw s' => rw [hl] at h; obtain ⟨r, hr, _⟩ := h; cases hr
    | assertFail s' => exact ⟨s', rfl⟩
    | ub => rw [hl] at h; obtain ⟨r, hr, _⟩ := h; cases hr
  | store p v k h' ih ih' =>
    simp only [execG, overwrites] at h ⊢
    cases hg : s.get? p with
    | none => rw [hg] at h; obtain ⟨r, hr, _⟩ := h; cases hr
    | some u =>
      rw [hg] at h
      simp only at h ⊢
      by_cases hok : ok u v = true
      · rw [if_pos hok]
        obtain ⟨r, hr, hb⟩ := h
        rcases List.mem_cons.mp hr with rfl | hr
        · rw [hok] at hb; cases hb
        cases ha : assignCell p v s with
        | ok _ s' => rw [ha] at hr; exact ih s' ⟨r, hr, hb⟩
        | throw s' => rw [ha] at hr; exact ih' s' ⟨r, hr, hb⟩
        | assertFail s' => exact ⟨s', rfl⟩
        | ub => rw [ha] at hr; cases hr
      · rw [if_neg hok]; exact ⟨s, rfl⟩
  | construct v p k h' ih ih' =>
    simp only [execG, overwrites] at h ⊢
    cases hl : constructCell v p s with
    | ok _ s' => rw [hl] at h; exact ih s' h
    | throw s' => rw [hl] at h; exact ih' s' h
    | assertFail s' => exact ⟨s', rfl⟩
    | ub => rw [hl] at h; obtain ⟨r, hr, _⟩ := h; cases hr
  | destroy p k ih =>
    simp only [execG, overwrites] at h ⊢
    cases hl : destroyCell p s with
    | ok _ s' => rw [hl] at h; exact ih s' h
    | throw s' => rw [hl] at h; obtain ⟨r, hr, _⟩ := h; cases hr
    | assertFail s' => exact ⟨s', rfl⟩
    | ub => rw [hl] at h; obtain ⟨r, hr, _⟩ := h; cases hr
  | alloc al n k h' ih ih' =>
    simp only [execG, overwrites] at h ⊢
    cases hl : MultiArray.allocate al n s with
    | ok p s' => rw [hl] at h; exact ih p s' h
    | throw s' => rw [hl] at h; exact ih' s' h
    | assertFail s' => exact ⟨s', rfl⟩
    | ub => rw [hl] at h; obtain ⟨r, hr, _⟩ := h; cases hr
  | dealloc al p n k ih =>
    simp only [execG, overwrites] at h ⊢
    cases hl : deallocate al p n s with
    | ok _ s' => rw [hl] at h; exact ih s' h
    | throw s' => rw [hl] at h; obtain ⟨r, hr, _⟩ := h; cases hr
    | assertFail s' => exact ⟨s', rfl⟩
    | ub => rw [hl] at h; obtain ⟨r, hr, _⟩ := h; cases hr

/-- What is overwritten by what follows. -/
def afterOver (o : Out T α) (f : α → Code T β) (h : Code T β) : List (T × T) :=
  match o with
  | .ok a s => (f a).overwrites s
  | .throw s => h.overwrites s
  | _ => []

theorem overwrites_elim (x : Code T α) (f : α → Code T β) (h : Code T β) (s : St T) :
    (x.elim f h).overwrites s = x.overwrites s ++ afterOver (x.exec s) f h := by
  induction x generalizing s with
  | ret a => rfl
  | throw => rfl
  | assertFail => rfl
  | ub => rfl
  | load p k ih =>
    simp only [elim, overwrites, exec]
    cases hl : MultiArray.load p s with
    | ok v s' => exact ih v s'
    | throw s' => exact absurd hl (load_not_throw _ _ _)
    | assertFail s' => rfl
    | ub => rfl
  | store p v k h' ih ih' =>
    simp only [elim, overwrites, exec]
    cases hg : s.get? p with
    | none => simp only [assignCell, hg]; rfl
    | some u =>
      simp only
      cases assignCell p v s with
      | ok _ s' => simp only [ih s', List.cons_append]
      | throw s' => simp only [ih' s', List.cons_append]
      | assertFail s' => rfl
      | ub => rfl
  | construct v p k h' ih ih' =>
    simp only [elim, overwrites, exec]
    cases constructCell v p s with
    | ok _ s' => exact ih s'
    | throw s' => exact ih' s'
    | assertFail s' => rfl
    | ub => rfl
  | destroy p k ih =>
    simp only [elim, overwrites, exec]
    cases hl : destroyCell p s with
    | ok v s' => exact ih s'
    | throw s' => exact absurd hl (destroyCell_not_throw _ _ _)
    | assertFail s' => rfl
    | ub => rfl
  | alloc al n k h' ih ih' =>
    simp only [elim, overwrites, exec]
    cases MultiArray.allocate al n s with
    | ok p s' => exact ih p s'
    | throw s' => exact ih' s'
    | assertFail s' => rfl
    | ub => rfl
  | dealloc al p n k ih =>
    simp only [elim, overwrites, exec]
    cases hl : deallocate al p n s with
    | ok v s' => exact ih s'
    | throw s' => exact absurd hl (deallocate_not_throw _ _ _ _ _)
    | assertFail s' => rfl
    | ub => rfl

theorem overwrites_bind (x : Code T α) (f : α → Code T β) (s : St T) :
    (x >>= f).overwrites s = x.overwrites s ++ afterOver (x.exec s) f .throw := overwrites_elim x f .throw s

theorem attempt_bind (x : Code T α) (f : Option α → Code T β) : x.attempt >>= f = x.elim (fun a => f (some a)) (f none) := by
  show (x.elim (fun a => ret (some a)) (ret none)).elim f throw = _
  induction x with
  | ret a => rfl
  | throw => rfl
  | assertFail => rfl
  | ub => rfl
  | load p k ih => simp only [Code.elim, ih]
  | store p v k h ih ih' => simp only [Code.elim, ih, ih']
  | construct v p k h ih ih' => simp only [Code.elim, ih, ih']
  | destroy p k ih => simp only [Code.elim, ih]
  | alloc al n k h ih ih' => simp only [Code.elim, ih, ih']
  | dealloc al p n k ih => simp only [Code.elim, ih]

/-- Code that assigns no element. -/
def NoStores : Code T α → Prop
  | ret _ => True
  | throw => True
  | assertFail => True
  | ub => True
  | load _ k => ∀ v, NoStores (k v)
  | store _ _ _ _ => False
  | construct _ _ k h => NoStores k ∧ NoStores h
  | destroy _ k => NoStores k
  | alloc _ _ k h => (∀ p, NoStores (k p)) ∧ NoStores h
  | dealloc _ _ _ k => NoStores k

theorem NoStores.overwrites {x : Code T α} (h : NoStores x) (s : St T) : x.overwrites s = [] := by
  induction x generalizing s with
  | ret a => rfl
  | throw => rfl
  | assertFail => rfl
  | ub => rfl
  | load p k ih => simp only [Code.overwrites]; cases MultiArray.load p s <;> simp only [ih _ (h _)]
  | store p v k h' ih ih' => exact h.elim
  | construct v p k h' ih ih' => simp only [Code.overwrites]; cases constructCell v p s <;> simp only [ih h.1, ih' h.2]
  | destroy p k ih => simp only [Code.overwrites]; cases destroyCell p s <;> simp only [ih h]
  | alloc al n k h' ih ih' => simp only [Code.overwrites]; cases MultiArray.allocate al n s <;> simp only [ih _ (h.1 _), ih' h.2]
  | dealloc al p n k ih => simp only [Code.overwrites]; cases deallocate al p n s <;> simp only [ih h]

theorem NoStores.elim {x : Code T α} (hx : NoStores x) {f : α → Code T β} (hf : ∀ a, NoStores (f a)) {h : Code T β} (hh : NoStores h) : NoStores (x.elim f h) := by
  induction x with
  | ret a => exact hf a
  | throw => exact hh
  | assertFail => trivial
  | ub => trivial
  | load p k ih => exact fun v => ih v (hx v)
  | store p v k h' ih ih' => exact False.elim hx
  | construct v p k h' ih ih' => exact ⟨ih hx.1, ih' hx.2⟩
  | destroy p k ih => exact ih hx
  | alloc al n k h' ih ih' => exact ⟨fun p => ih p (hx.1 p), ih' hx.2⟩
  | dealloc al p n k ih => exact ih hx

theorem NoStores.bind {x : Code T α} (hx : NoStores x) {f : α → Code T β} (hf : ∀ a, NoStores (f a)) : NoStores (x >>= f) := NoStores.elim hx hf trivial

theorem NoStores.onThrow {x : Code T α} (hx : NoStores x) {c : Code T Unit} (hc : NoStores c) : NoStores (x.onThrow c) :=
  NoStores.elim (f := Code.ret) hx (fun _ => trivial) (NoStores.elim (f := fun _ => Code.throw) hc (fun _ => trivial) trivial)

theorem NoStores.attempt {x : Code T α} (hx : NoStores x) : NoStores x.attempt := NoStores.elim (f := fun a => Code.ret (some a)) hx (fun _ => trivial) trivial

theorem NoStores.lift (r : Res α) : NoStores (Code.lift r : Code T α) := by cases r <;> trivial

/-- What follows assigns nothing. -/
theorem overwrites_elim_none (x : Code T α) {f : α → Code T β} (hf : ∀ a, NoStores (f a)) {h : Code T β} (hh : NoStores h) (s : St T) : (x.elim f h).overwrites s = x.overwrites s := by
  rw [overwrites_elim]
  cases x.exec s with
  | ok a s' => simp only [afterOver, (hf a).overwrites, List.append_nil]
  | throw s' => simp only [afterOver, hh.overwrites, List.append_nil]
  | assertFail s' => simp only [afterOver, List.append_nil]
  | ub => simp only [afterOver, List.append_nil]

end Code

open Code

theorem noStores_destroyNC (p : Ptr) (n : Nat) : NoStores (destroyNC p n : Code T Unit) := by
  induction n with
  | zero => trivial
  | succ n ih => exact NoStores.bind (x := Code.destroy _ (.ret ())) trivial (fun _ => ih)

theorem noStores_constructFromC (dflt : T) (p : Ptr) (n i : Nat) : NoStores (constructFromC dflt p n i) := by
  induction n generalizing i with
  | zero => trivial
  | succ n ih => exact NoStores.bind (NoStores.onThrow (x := Code.construct _ _ (.ret ()) .throw) ⟨trivial, trivial⟩ (noStores_destroyNC p i)) (fun _ => ih (i + 1))

theorem noStores_allocateSpaceC (dflt : T) (ref : ARef) (al : Nat) : NoStores (MArr.allocateSpaceC dflt ref al) :=
  NoStores.bind (x := Code.alloc _ _ .ret .throw) ⟨fun _ => trivial, trivial⟩ (fun p => NoStores.bind (noStores_constructFromC dflt p _ 0) (fun _ => trivial))

theorem noStores_deallocateSpaceC (a : MArr) : NoStores (MArr.deallocateSpaceC a : Code T Unit) := by
  unfold MArr.deallocateSpaceC
  split
  · exact NoStores.bind (noStores_destroyNC _ _) (fun _ => trivial)
  · trivial

/-! ### Element copies -/

/-- Copying element after element, when no destination is a source and no two destinations are the same: the assignments are the expected ones, up to the one that throws. -/
theorem overwrites_copyCode (d : T) (l : List (Ptr × Ptr)) (s : St T) (hsrc : ∀ r ∈ l, ∃ v, s.get? r.1 = some v) (hdst : ∀ r ∈ l, ∃ v, s.get? r.2 = some v)
    (hnd : (l.map Prod.snd).Nodup) (hdis : ∀ r ∈ l, ∀ r' ∈ l, r.1 ≠ r'.2) :
    (Code.ofProg (copyCode l : Prog T Unit)).overwrites s <+: l.map (fun r => ((s.get? r.2).getD d, (s.get? r.1).getD d)) ∧
    (s.sched = [] → (Code.ofProg (copyCode l : Prog T Unit)).overwrites s = l.map (fun r => ((s.get? r.2).getD d, (s.get? r.1).getD d))) := by
  induction l generalizing s with
  | nil => exact ⟨List.nil_prefix, fun _ => rfl⟩
  | cons r l ih =>
    obtain ⟨v, hv⟩ := hsrc r List.mem_cons_self
    obtain ⟨u, hu⟩ := hdst r List.mem_cons_self
    rw [List.map_cons, List.nodup_cons] at hnd
    have hne2 : ∀ r' ∈ l, r'.2 ≠ r.2 := fun r' hr' he => hnd.1 (he ▸ List.mem_map_of_mem hr')
    have hne1 : ∀ r' ∈ l, r'.1 ≠ r.2 := fun r' hr' => hdis r' (List.mem_cons_of_mem _ hr') r List.mem_cons_self
    simp only [copyCode, Code.ofProg, Code.overwrites, load_ok hv, hu]
    rw [List.map_cons, hu, hv]
    simp only [Option.getD_some]
    rcases sched_cases s with hs | ⟨junk, fs, hs⟩
    · have hs' := hs
      obtain ⟨s1, e1, e2, e3, e4⟩ := assignCell_ok hu v hs'
      rw [e1]
      simp only
      have hget : ∀ q, q ≠ r.2 → s1.get? q = s.get? q := by
        intro q hq
        unfold St.get?
        rw [e2, if_neg hq]
      have hmap : l.map (fun r => ((s1.get? r.2).getD d, (s1.get? r.1).getD d)) = l.map (fun r => ((s.get? r.2).getD d, (s.get? r.1).getD d)) := by
        apply List.map_congr_left
        intro r' hr'
        rw [hget _ (hne2 r' hr'), hget _ (hne1 r' hr')]
      obtain ⟨i1, i2⟩ := ih s1 (fun r' hr' => by rw [hget _ (hne1 r' hr')]; exact hsrc r' (List.mem_cons_of_mem _ hr'))
        (fun r' hr' => by rw [hget _ (hne2 r' hr')]; exact hdst r' (List.mem_cons_of_mem _ hr')) hnd.2
        (fun r' hr' r'' hr'' => hdis r' (List.mem_cons_of_mem _ hr') r'' (List.mem_cons_of_mem _ hr''))
      rw [hmap] at i1 i2
      refine ⟨List.cons_prefix_cons.mpr ⟨rfl, i1⟩, fun h => ?_⟩
      rw [i2 (by rw [e4, h]; rfl)]
    · obtain ⟨s1, e1, _⟩ := assignCell_throw hu v junk hs
      rw [e1]
      simp only [Code.overwrites]
      refine ⟨List.cons_prefix_cons.mpr ⟨rfl, List.nil_prefix⟩, fun h => ?_⟩
      rw [hs] at h; cases h

theorem pairLog_inj {l l' : List (Ptr × Ptr)} (h : pairLog l = pairLog l') : l = l' := by
  induction l generalizing l' with
  | nil =>
    cases l' with
    | nil => rfl
    | cons r l' => cases h
  | cons r l ih =>
    cases l' with
    | nil => cases h
    | cons r' l' =>
      have h' : Event.read r.1 :: Event.assign r.2 :: pairLog l = Event.read r'.1 :: Event.assign r'.2 :: pairLog l' := h
      simp only [List.cons.injEq, Event.read.injEq, Event.assign.injEq] at h'
      rw [ih h'.2.2, Prod.ext h'.1 h'.2.1]

/-- Element copies guarded by `ok`. -/
theorem copyCode_guarded (ok : T → T → Bool) (l : List (Ptr × Ptr)) (s : St T) (hsrc : ∀ r ∈ l, ∃ v, s.get? r.1 = some v) (hdst : ∀ r ∈ l, ∃ v, s.get? r.2 = some v)
    (hnd : (l.map Prod.snd).Nodup) (hdis : ∀ r ∈ l, ∀ r' ∈ l, r.1 ≠ r'.2) :
    ((∀ r ∈ l, ∀ u v, s.get? r.2 = some u → s.get? r.1 = some v → ok u v = true) → ∀ x ∈ (Code.ofProg (copyCode l : Prog T Unit)).overwrites s, ok x.1 x.2 = true) ∧
    (s.sched = [] → (∃ r ∈ l, ∃ u v, s.get? r.2 = some u ∧ s.get? r.1 = some v ∧ ok u v = false) →
      ∃ x ∈ (Code.ofProg (copyCode l : Prog T Unit)).overwrites s, ok x.1 x.2 = false) := by
  constructor
  · intro h x hx
    cases l with
    | nil => cases hx
    | cons r0 l0 =>
      obtain ⟨d, _⟩ := hsrc r0 List.mem_cons_self
      have := (overwrites_copyCode d _ s hsrc hdst hnd hdis).1.subset hx
      rw [List.mem_map] at this
      obtain ⟨r, hr, rfl⟩ := this
      obtain ⟨v, hv⟩ := hsrc r hr
      obtain ⟨u, hu⟩ := hdst r hr
      have := h r hr u v hu hv
      rw [hv, hu]; exact this
  · rintro hs ⟨r, hr, u, v, hu, hv, hb⟩
    refine ⟨(u, v), ?_, hb⟩
    rw [(overwrites_copyCode v _ s hsrc hdst hnd hdis).2 hs, List.mem_map]
    exact ⟨r, hr, by rw [hu, hv]; rfl⟩

/-! ### `assign(first, last)` -/

theorem assignLoop_guarded (ok : T → T → Bool) (n : Nat) (out : Ptr) (input : List T) (i : Nat) (s : St T) (hl : ∀ j : Nat, i ≤ j → j < i + n → ∃ v, s.get? (out.add (j : Int)) = some v) :
    ((∀ (j : Nat) u v, j < n → s.get? (out.add ((i + j : Nat) : Int)) = some u → input[j]? = some v → ok u v = true) →
      ∀ x ∈ (Code.ofProg (assignLoopP n (out.add (i : Int)) input)).overwrites s, ok x.1 x.2 = true) ∧
    (s.sched = [] → (∃ (j : Nat) (u v : T), j < n ∧ s.get? (out.add ((i + j : Nat) : Int)) = some u ∧ input[j]? = some v ∧ ok u v = false) →
      ∃ x ∈ (Code.ofProg (assignLoopP n (out.add (i : Int)) input)).overwrites s, ok x.1 x.2 = false) := by
  induction n generalizing input i s with
  | zero => exact ⟨fun _ x hx => (by cases hx), fun _ ⟨j, _, _, hj, _⟩ => absurd hj (by omega)⟩
  | succ n ih =>
    cases input with
    | nil => exact ⟨fun _ x hx => (by cases hx), fun _ ⟨j, _, _, _, _, hj, _⟩ => by simp at hj⟩
    | cons v vs =>
      have e : (assignLoopP (n + 1) (out.add (i : Int)) (v :: vs) : Prog T Unit) = .store (out.add (i : Int)) v (assignLoopP n (out.add ((i + 1 : Nat) : Int)) vs) := by
        show Prog.store (out.add (i : Int)) v (assignLoopP n ((out.add (i : Int)).add 1) vs) = _
        rw [Ptr.add_add]; push_cast; rfl
      obtain ⟨u, hu⟩ := hl i (Nat.le_refl _) (by omega)
      rw [e]
      simp only [Code.ofProg, Code.overwrites, hu]
      rcases sched_cases s with hs | ⟨junk, fs, hs⟩
      · obtain ⟨s1, e1, e2, e3, e4⟩ := assignCell_ok hu v hs
        rw [e1]
        simp only
        have hget : ∀ j : Nat, j ≠ i → s1.get? (out.add (j : Int)) = s.get? (out.add (j : Int)) := by
          intro j hj
          unfold St.get?
          rw [e2, if_neg (by simp only [Ptr.add, Ptr.mk.injEq, true_and]; omega)]
        obtain ⟨i1, i2⟩ := ih vs (i + 1) s1 (fun j h1 h2 => by rw [hget j (by omega)]; exact hl j (by omega) (by omega))
        constructor
        · intro h x hx
          rcases List.mem_cons.mp hx with rfl | hx
          · exact h 0 u v (by omega) hu rfl
          · refine i1 (fun j u' v' hj hu' hv' => h (j + 1) u' v' (by omega) ?_ (by simpa using hv')) x hx
            rw [hget _ (by omega)] at hu'
            rw [← hu']; congr 3; omega
        · intro hsc h
          obtain ⟨j, u', v', hj, hu', hv', hb⟩ := h
          cases j with
          | zero =>
            simp only [Nat.add_zero] at hu'
            rw [hu] at hu'
            simp only [List.getElem?_cons_zero] at hv'
            cases hu'
            cases hv'
            exact ⟨_, List.mem_cons_self, hb⟩
          | succ j =>
            obtain ⟨x, hx, hbx⟩ := i2 (by rw [e4, hsc]; rfl) ⟨j, u', v', by omega, by
              rw [hget _ (by omega), ← hu']; congr 3; omega, by simpa using hv', hb⟩
            exact ⟨x, List.mem_cons_of_mem _ hx, hbx⟩
      · obtain ⟨s1, e1, _⟩ := assignCell_throw hu v junk hs
        rw [e1]
        simp only
        constructor
        · intro h x hx
          rcases List.mem_cons.mp hx with rfl | hx
          · exact h 0 u v (by omega) hu rfl
          · cases hx
        · intro hsc; rw [hs] at hsc; cases hsc

end MultiArray
