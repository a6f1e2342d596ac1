import Verif.SpecLog
import Verif.Lemmas.Code
import Verif.Lemmas.Steps
import Verif.Lemmas.Resize

/- Logs of composed code, and of the pieces of the library. -/
set_option autoImplicit false

namespace MultiArray
open Spec
variable {T α β : Type}

namespace Code

theorem elim_elim {γ : Type} (x : Code T α) (f : α → Code T β) (g : β → Code T γ) : (x.elim f .throw).elim g .throw = x.elim (fun a => (f a).elim g .throw) .throw := by
  induction x with
  | ret a => rfl
  | throw => rfl
  | assertFail => rfl
  | ub => rfl
  | load p k ih => simp only [elim, ih]
  | store p v k h ih ih' => simp only [elim, ih, ih']
  | construct v p k h ih ih' => simp only [elim, ih, ih']
  | destroy p k ih => simp only [elim, ih]
  | alloc al n k h ih ih' => simp only [elim, ih, ih']
  | dealloc al p n k ih => simp only [elim, ih]

theorem bind_assoc {γ : Type} (x : Code T α) (f : α → Code T β) (g : β → Code T γ) : (x >>= f) >>= g = x >>= fun a => f a >>= g := elim_elim x f g

/-- The log of what follows. -/
def afterLog (o : Out T α) (f : α → Code T β) (h : Code T β) : List Event :=
  match o with
  | .ok a s => (f a).log s
  | .throw s => h.log s
  | _ => []

theorem load_not_throw (p : Ptr) (s s' : St T) : MultiArray.load p s ≠ .throw s' := by
  unfold MultiArray.load; split <;> simp

theorem destroyCell_not_throw (p : Ptr) (s s' : St T) : destroyCell p s ≠ .throw s' := by
  unfold destroyCell; split <;> simp

theorem deallocate_not_throw (al : Nat) (p : Ptr) (n : Nat) (s s' : St T) : deallocate al p n s ≠ .throw s' := by
  unfold deallocate
  split
  · simp
  · split <;> simp

theorem log_elim (x : Code T α) (f : α → Code T β) (h : Code T β) (s : St T) :
    (x.elim f h).log s = x.log s ++ afterLog (x.exec s) f h := by
  induction x generalizing s with
  | ret a => rfl
  | throw => rfl
  | assertFail => rfl
  | ub => rfl
  | load p k ih =>
    simp only [elim, log, exec]
    cases hl : MultiArray.load p s with
    | ok v s' => simp only [ih v s', List.cons_append]
    | throw s' => exact absurd hl (load_not_throw _ _ _)
    | assertFail s' => rfl
    | ub => rfl
  | store p v k h' ih ih' =>
    simp only [elim, log, exec]
    cases assignCell p v s with
    | ok _ s' => simp only [ih s', List.cons_append]
    | throw s' => simp only [ih' s', List.cons_append]
    | assertFail s' => rfl
    | ub => rfl
  | construct v p k h' ih ih' =>
    simp only [elim, log, exec]
    cases constructCell v p s with
    | ok _ s' => simp only [ih s', List.cons_append]
    | throw s' => simp only [ih' s', List.cons_append]
    | assertFail s' => rfl
    | ub => rfl
  | destroy p k ih =>
    simp only [elim, log, exec]
    cases hl : destroyCell p s with
    | ok v s' => simp only [ih s', List.cons_append]
    | throw s' => exact absurd hl (destroyCell_not_throw _ _ _)
    | assertFail s' => rfl
    | ub => rfl
  | alloc al n k h' ih ih' =>
    simp only [elim, log, exec]
    cases allocate al n s with
    | ok p s' => simp only [ih p s', List.cons_append]
    | throw s' => simp only [ih' s', List.cons_append]
    | assertFail s' => rfl
    | ub => rfl
  | dealloc al p n k ih =>
    simp only [elim, log, exec]
    cases hl : deallocate al p n s with
    | ok v s' => simp only [ih s', List.cons_append]
    | throw s' => exact absurd hl (deallocate_not_throw _ _ _ _ _)
    | assertFail s' => rfl
    | ub => rfl

theorem log_bind (x : Code T α) (f : α → Code T β) (s : St T) :
    (x >>= f).log s = x.log s ++ afterLog (x.exec s) f .throw := log_elim x f .throw s

theorem log_bind_ok {x : Code T α} {s s' : St T} {a : α} (h : x.exec s = .ok a s') (f : α → Code T β) :
    (x >>= f).log s = x.log s ++ (f a).log s' := by rw [log_bind, h]; rfl

theorem log_bind_throw {x : Code T α} {s s' : St T} (h : x.exec s = .throw s') (f : α → Code T β) :
    (x >>= f).log s = x.log s := by rw [log_bind, h]; exact List.append_nil _

theorem exec_bind_ok {x : Code T α} {s s' : St T} {a : α} (h : x.exec s = .ok a s') (f : α → Code T β) :
    (x >>= f).exec s = (f a).exec s' := by rw [MArr.exec_bind_apply, h]; rfl

theorem exec_bind_throw {x : Code T α} {s s' : St T} (h : x.exec s = .throw s') (f : α → Code T β) :
    (x >>= f).exec s = .throw s' := by rw [MArr.exec_bind_apply, h]; rfl

/-- How a sequence ends tells how its first part ended. -/
theorem bind_ok_inv {x : Code T α} {f : α → Code T β} {s s' : St T} {b : β} (h : (x >>= f).exec s = .ok b s') :
    ∃ a s1, x.exec s = .ok a s1 ∧ (f a).exec s1 = .ok b s' := by
  rw [MArr.exec_bind_apply] at h
  cases hx : x.exec s with
  | ok a s1 => rw [hx] at h; exact ⟨a, s1, rfl, h⟩
  | throw s1 => rw [hx] at h; cases h
  | assertFail s1 => rw [hx] at h; cases h
  | ub => rw [hx] at h; cases h

theorem bind_throw_inv {x : Code T α} {f : α → Code T β} {s s' : St T} (h : (x >>= f).exec s = .throw s') :
    x.exec s = .throw s' ∨ ∃ a s1, x.exec s = .ok a s1 ∧ (f a).exec s1 = .throw s' := by
  rw [MArr.exec_bind_apply] at h
  cases hx : x.exec s with
  | ok a s1 => rw [hx] at h; exact .inr ⟨a, s1, rfl, h⟩
  | throw s1 => rw [hx] at h; cases h; exact .inl rfl
  | assertFail s1 => rw [hx] at h; cases h
  | ub => rw [hx] at h; cases h

theorem log_lift (r : Res α) (s : St T) : (lift r : Code T α).log s = [] := by cases r <;> rfl

theorem log_onThrow_ok {x : Code T α} {c : Code T Unit} {s s' : St T} {a : α} (h : x.exec s = .ok a s') : (x.onThrow c).log s = x.log s := by
  unfold onThrow; rw [log_elim, h]; exact List.append_nil _

theorem log_onThrow_throw {x : Code T α} {c : Code T Unit} {s s' : St T} (h : x.exec s = .throw s') :
    (x.onThrow c).log s = x.log s ++ c.log s' := by
  unfold onThrow
  rw [log_elim, h]
  show _ ++ (c.elim (fun _ => throw) throw).log s' = _
  rw [log_elim]
  congr 1
  cases c.exec s' <;> exact List.append_nil _

theorem onThrow_ok_inv {x : Code T α} {c : Code T Unit} {s s' : St T} {a : α} (h : (x.onThrow c).exec s = .ok a s') : x.exec s = .ok a s' := by
  rw [exec_onThrow] at h
  unfold Exec.onThrow at h
  cases hx : x.exec s with
  | ok a s1 => rw [hx] at h; exact h
  | throw s1 =>
    rw [hx] at h
    simp only at h
    cases hc : c.exec s1 <;> rw [hc] at h <;> cases h
  | assertFail s1 => rw [hx] at h; cases h
  | ub => rw [hx] at h; cases h

theorem onThrow_throw_inv {x : Code T α} {c : Code T Unit} (hc : ∀ s s', c.exec s ≠ .throw s') {s s' : St T} (h : (x.onThrow c).exec s = .throw s') :
    ∃ s1, x.exec s = .throw s1 ∧ c.exec s1 = .ok () s' := by
  rw [exec_onThrow] at h
  unfold Exec.onThrow at h
  cases hx : x.exec s with
  | ok a s1 => rw [hx] at h; cases h
  | throw s1 =>
    rw [hx] at h
    simp only at h
    cases hcc : c.exec s1 with
    | ok u s2 => rw [hcc] at h; cases h; exact ⟨s1, rfl, hcc⟩
    | throw s2 => exact absurd hcc (hc _ _)
    | assertFail s2 => rw [hcc] at h; cases h
    | ub => rw [hcc] at h; cases h
  | assertFail s1 => rw [hx] at h; cases h
  | ub => rw [hx] at h; cases h

theorem log_attempt (x : Code T α) (s : St T) : x.attempt.log s = x.log s := by
  unfold attempt
  rw [log_elim]
  cases x.exec s <;> exact List.append_nil _

end Code

open Code

/-! ### Pieces of the library -/

theorem destroying_succ (p : Ptr) (n : Nat) : destroying p (n + 1) = .destroy (p.add (n : Int)) :: destroying p n := by
  simp [destroying, List.range_succ]

theorem destroyNC_not_throw (p : Ptr) (n : Nat) (s s' : St T) : (destroyNC p n : Code T Unit).exec s ≠ .throw s' := by
  induction n generalizing s with
  | zero => intro h; cases h
  | succ n ih =>
    intro h
    rcases bind_throw_inv h with h | ⟨_, s1, _, h⟩
    · rw [exec_destroyCell] at h
      exact destroyCell_not_throw _ _ _ h
    · exact ih s1 h

theorem log_destroyNC {p : Ptr} {n : Nat} {s s' : St T} {u : Unit} (h : (destroyNC p n : Code T Unit).exec s = .ok u s') :
    (destroyNC p n : Code T Unit).log s = destroying p n := by
  induction n generalizing s with
  | zero => rfl
  | succ n ih =>
    obtain ⟨_, s1, h1, h2⟩ := bind_ok_inv h
    have h1' := h1
    rw [exec_destroyCell] at h1'
    show (Code.destroy (p.add n) (.ret ()) >>= fun _ => destroyNC p n : Code T Unit).log s = _
    rw [log_bind_ok h1, ih h2, destroying_succ]
    simp only [Code.log, h1']
    rfl

theorem log_construct_ok {v : T} {p : Ptr} {s s' : St T} {u : Unit} (h : (Code.construct v p (.ret ()) .throw).exec s = .ok u s') :
    (Code.construct v p (.ret ()) .throw : Code T Unit).log s = [.construct p] := by
  rw [exec_constructCell] at h
  simp only [Code.log, h]

theorem log_construct_throw {v : T} {p : Ptr} {s s' : St T} (h : (Code.construct v p (.ret ()) .throw : Code T Unit).exec s = .throw s') :
    (Code.construct v p (.ret ()) .throw : Code T Unit).log s = [.constructThrew p] := by
  rw [exec_constructCell] at h
  simp only [Code.log, h]

/-- Elements `i`, ..., `i+n-1` constructed. -/
def constructing' (p : Ptr) (i n : Nat) : List Event := (List.range' i n).map (fun (j : Nat) => .construct (p.add (j : Int)))

theorem constructing_eq (p : Ptr) (n : Nat) : constructing' p 0 n = constructing p n := by
  simp [constructing', constructing, List.range_eq_range']

theorem log_constructFromC_ok {dflt : T} {p : Ptr} {n i : Nat} {s s' : St T} {u : Unit} (h : (constructFromC dflt p n i).exec s = .ok u s') :
    (constructFromC dflt p n i).log s = constructing' p i n := by
  induction n generalizing i s with
  | zero => rfl
  | succ n ih =>
    obtain ⟨_, s1, h1, h2⟩ := bind_ok_inv h
    show (Code.onThrow _ _ >>= fun _ => constructFromC dflt p n (i + 1) : Code T Unit).log s = _
    rw [log_bind_ok h1, ih h2, log_onThrow_ok (onThrow_ok_inv h1), log_construct_ok (onThrow_ok_inv h1)]
    simp [constructing', List.range'_succ]

theorem log_constructFromC_throw {dflt : T} {p : Ptr} {n i : Nat} {s s' : St T} (h : (constructFromC dflt p n i).exec s = .throw s') :
    ∃ k, k < n ∧ (constructFromC dflt p n i).log s = constructing' p i k ++ [.constructThrew (p.add ((i + k : Nat) : Int))] ++ destroying p (i + k) := by
  induction n generalizing i s with
  | zero => cases h
  | succ n ih =>
    have e : (constructFromC dflt p (n + 1) i : Code T Unit) = (Code.onThrow (Code.construct dflt (p.add i) (.ret ()) .throw) (destroyNC p i) >>= fun _ => constructFromC dflt p n (i + 1)) := rfl
    rcases bind_throw_inv h with h1 | ⟨_, s1, h1, h2⟩
    · refine ⟨0, by omega, ?_⟩
      rw [e, log_bind_throw h1]
      obtain ⟨s2, h3, h4⟩ := onThrow_throw_inv (destroyNC_not_throw p i) h1
      rw [log_onThrow_throw h3, log_construct_throw h3, log_destroyNC h4]
      simp [constructing']
    · obtain ⟨k, hk, hlog⟩ := ih h2
      refine ⟨k + 1, by omega, ?_⟩
      rw [e, log_bind_ok h1, hlog, log_onThrow_ok (onThrow_ok_inv h1), log_construct_ok (onThrow_ok_inv h1)]
      rw [show i + 1 + k = i + (k + 1) by omega]
      simp [constructing', List.range'_succ]

/-- A sequence of element copies as code. -/
def copyCode : List (Ptr × Ptr) → Prog T Unit
  | [] => .ret ()
  | pq :: l => .load pq.1 (fun v => .store pq.2 v (copyCode l))

/-- Their log. -/
def pairLog (l : List (Ptr × Ptr)) : List Event := l.flatMap (fun pq => [.read pq.1, .assign pq.2])

theorem copyCode_append (l l' : List (Ptr × Ptr)) : (copyCode (l ++ l') : Prog T Unit) = copyCode l >>= fun _ => copyCode l' := by
  induction l with
  | nil => rfl
  | cons pq l ih =>
    show Prog.load pq.1 (fun v => .store pq.2 v (copyCode (l ++ l'))) = _
    rw [ih]
    rfl

theorem interrupted_cons {e : Event} {plan log : List Event} (h : Interrupted plan log) : Interrupted (e :: plan) (e :: log) := by
  obtain ⟨b, x, x', a, h1, h2, h3⟩ := h
  exact ⟨e :: b, x, x', a, by rw [h1]; rfl, h2, by rw [h3]; rfl⟩

theorem log_copyCode (l : List (Ptr × Ptr)) (s : St T) :
    (∀ u s', (Code.ofProg (copyCode l : Prog T Unit)).exec s = .ok u s' → (Code.ofProg (copyCode l : Prog T Unit)).log s = pairLog l) ∧
    (∀ s', (Code.ofProg (copyCode l : Prog T Unit)).exec s = .throw s' → Interrupted (pairLog l) ((Code.ofProg (copyCode l : Prog T Unit)).log s)) := by
  induction l generalizing s with
  | nil => exact ⟨fun _ _ _ => rfl, fun s' h => by cases h⟩
  | cons pq l ih =>
    have hp : pairLog (pq :: l) = .read pq.1 :: .assign pq.2 :: pairLog l := rfl
    simp only [copyCode, Code.ofProg, Code.exec, Code.log, hp]
    cases hl : MultiArray.load pq.1 s with
    | ok v s1 =>
      simp only
      cases ha : assignCell pq.2 v s1 with
      | ok u s2 =>
        simp only
        refine ⟨fun u' s' h => by rw [(ih s2).1 u' s' h], fun s' h => interrupted_cons (interrupted_cons ((ih s2).2 s' h))⟩
      | throw s2 =>
        simp only
        exact ⟨fun u' s' h => (by cases h), fun s' _ => ⟨[.read pq.1], .assign pq.2, _, pairLog l, rfl, rfl, rfl⟩⟩
      | assertFail s2 => exact ⟨fun u' s' h => (by cases h), fun s' h => by cases h⟩
      | ub => exact ⟨fun u' s' h => (by cases h), fun s' h => by cases h⟩
    | throw s1 => exact absurd hl (load_not_throw _ _ _)
    | assertFail s1 => exact ⟨fun u' s' h => (by cases h), fun s' h => by cases h⟩
    | ub => exact ⟨fun u' s' h => (by cases h), fun s' h => by cases h⟩

theorem stdCopyP_spec (body : It → It → Prog T Unit) (D D' : Desc) (b b' : Int) (F : Nat → List (Ptr × Ptr)) (m j : Nat)
    (h : ∀ k, j ≤ k → k < j + m → body ⟨b + (k : Int), D⟩ ⟨b' + (k : Int), D'⟩ = copyCode (F k)) :
    stdCopyP body m ⟨b + (j : Int), D⟩ ⟨b' + (j : Int), D'⟩ = copyCode ((List.range' j m).flatMap F) := by
  induction m generalizing j with
  | zero => rfl
  | succ m ih =>
    simp only [stdCopyP, It.increment]
    rw [show b + (j : Int) + 1 = b + ((j + 1 : Nat) : Int) by push_cast; ring,
      show b' + (j : Int) + 1 = b' + ((j + 1 : Nat) : Int) by push_cast; ring]
    rw [ih (j + 1) (fun k h1 h2 => h k (by omega) (by omega)), h j (by omega) (by omega), List.range'_succ, List.flatMap_cons, copyCode_append]

/-- Assignment is the sequence of element copies in lexicographic order. -/
theorem assignP_eq (dbg : Bool) (dst src : Desc) (hd : WellShaped dst) (hs : WellShaped src) (he : src.extents = dst.extents) :
    (assignP dbg dst.extents.length dst src : Prog T Unit) = copyCode (copyPairs src dst) := by
  obtain ⟨p, es, ss, bs⟩ := src
  obtain ⟨p', es', ss', bs'⟩ := dst
  simp only at he
  subst he
  induction es generalizing p p' ss ss' bs bs' with
  | nil =>
    match ss, bs, ss', bs', hd, hs with
    | [], [], [], [], _, _ => simp only [copyPairs, addrs_nil]; rfl
  | cons e es ih =>
    match ss, bs, ss', bs', hd, hs with
    | s :: ss, b :: bs, s' :: ss', b' :: bs', hd, hs =>
      rw [copyPairs_cons _ _ _ _ _ _ _ _ _ _ _ _ hs hd]
      simp only [List.length_cons, assignP, begin_cons, end_cons, decide_true, Res.assert_true, Prog.lift_ok, pure_bind]
      rw [itsub]
      have := stdCopyP_spec
        (fun i o => (do
          let x ← Prog.lift (i.deref dbg)
          let y ← Prog.lift (o.deref dbg)
          assignP dbg es.length y x : Prog T Unit)) ⟨p, e :: es, s :: ss, b :: bs⟩ ⟨p', e :: es, s' :: ss', b' :: bs'⟩ b b'
        (fun k => copyPairs (subAt p es s ss b bs k) (subAt p' es s' ss' b' bs' k)) e 0 (by
        intro k _ hk
        have hk : k < e := by omega
        rw [It.deref_in dbg p e es s ss b bs k hk, It.deref_in dbg p' e es s' ss' b' bs' k hk]
        simp only [Prog.lift_ok, pure_bind]
        exact ih _ _ _ (wellShaped_subAt hs k) _ _ _ (wellShaped_subAt hd k))
      rw [List.range_eq_range']
      simpa using this

/-- `copy_array` is the same sequence. -/
theorem copyArrayP_eq (dbg : Bool) (dst src : Desc) (hd : WellShaped dst) (hs : WellShaped src) (he : src.extents = dst.extents) :
    (copyArrayP dbg src dst : Prog T Unit) = copyCode (copyPairs src dst) := by
  have key : (copyDispatchP dbg src.extents.length src dst : Prog T Unit) = copyCode (copyPairs src dst) := by
    obtain ⟨p, es, ss, bs⟩ := src
    obtain ⟨p', es', ss', bs'⟩ := dst
    simp only at he
    subst he
    induction es generalizing p p' ss ss' bs bs' with
    | nil =>
      match ss, bs, ss', bs', hd, hs with
      | [], [], [], [], _, _ => simp only [copyPairs, addrs_nil]; rfl
    | cons e es ih =>
      match ss, bs, ss', bs', hd, hs with
      | s :: ss, b :: bs, s' :: ss', b' :: bs', hd, hs =>
        rw [copyPairs_cons _ _ _ _ _ _ _ _ _ _ _ _ hs hd]
        simp only [List.length_cons, copyDispatchP, begin_cons, end_cons, Prog.lift_ok, pure_bind]
        rw [itsub]
        have := stdCopyP_spec
          (fun i o => (do
            let x ← Prog.lift (i.deref dbg)
            let y ← Prog.lift (o.deref dbg)
            copyDispatchP dbg es.length x y : Prog T Unit)) ⟨p, e :: es, s :: ss, b :: bs⟩ ⟨p', e :: es, s' :: ss', b' :: bs'⟩ b b'
          (fun k => copyPairs (subAt p es s ss b bs k) (subAt p' es s' ss' b' bs' k)) e 0 (by
          intro k _ hk
          have hk : k < e := by omega
          rw [It.deref_in dbg p e es s ss b bs k hk, It.deref_in dbg p' e es s' ss' b' bs' k hk]
          simp only [Prog.lift_ok, pure_bind]
          exact ih _ _ _ (wellShaped_subAt hs k) _ _ _ (wellShaped_subAt hd k))
        rw [List.range_eq_range']
        simpa using this
  simp only [copyArrayP, he, decide_true, Res.assert_true, Prog.lift_ok, pure_bind]
  rw [← he]
  exact key

theorem pairLog_copyPairs (src dst : Desc) (hs : WellShaped src) (hd : WellShaped dst) (he : src.extents = dst.extents) :
    pairLog (copyPairs src dst) = copying dst.extents src dst := by
  rw [copyPairs_eq_map _ _ hs hd he, pairLog, copying, positions_eq, List.flatMap_map]

/-- Applying `f` to the elements at these addresses, one after the other, as code. -/
def eachCode {σ : Type} (f : σ → T → T × σ) : List Ptr → σ → Prog T σ
  | [], q => .ret q
  | p :: l, q => .load p (fun v => .store p (f q v).1 (eachCode f l (f q v).2))

theorem eachCode_append {σ : Type} (f : σ → T → T × σ) (l l' : List Ptr) (q : σ) : eachCode f (l ++ l') q = eachCode f l q >>= fun q' => eachCode f l' q' := by
  induction l generalizing q with
  | nil => rfl
  | cons p l ih =>
    show Prog.load p (fun v => .store p (f q v).1 (eachCode f (l ++ l') (f q v).2)) = _
    simp only [ih]
    rfl

theorem log_eachCode {σ : Type} (f : σ → T → T × σ) (l : List Ptr) (q : σ) (s : St T) :
    (∀ u s', (Code.ofProg (eachCode f l q)).exec s = .ok u s' → (Code.ofProg (eachCode f l q)).log s = pairLog (l.map fun p => (p, p))) ∧
    (∀ s', (Code.ofProg (eachCode f l q)).exec s = .throw s' → Interrupted (pairLog (l.map fun p => (p, p))) ((Code.ofProg (eachCode f l q)).log s)) := by
  induction l generalizing s q with
  | nil => exact ⟨fun _ _ _ => rfl, fun s' h => by cases h⟩
  | cons p l ih =>
    have hp : pairLog ((p :: l).map fun p => (p, p)) = .read p :: .assign p :: pairLog (l.map fun p => (p, p)) := rfl
    simp only [eachCode, Code.ofProg, Code.exec, Code.log, hp]
    cases hl : MultiArray.load p s with
    | ok v s1 =>
      simp only
      cases ha : assignCell p (f q v).1 s1 with
      | ok u s2 =>
        simp only
        refine ⟨fun u' s' h => by rw [(ih _ s2).1 u' s' h], fun s' h => interrupted_cons (interrupted_cons ((ih _ s2).2 s' h))⟩
      | throw s2 =>
        simp only
        exact ⟨fun u' s' h => (by cases h), fun s' _ => ⟨[.read p], .assign p, _, pairLog (l.map fun p => (p, p)), rfl, rfl, rfl⟩⟩
      | assertFail s2 => exact ⟨fun u' s' h => (by cases h), fun s' h => by cases h⟩
      | ub => exact ⟨fun u' s' h => (by cases h), fun s' h => by cases h⟩
    | throw s1 => exact absurd hl (load_not_throw _ _ _)
    | assertFail s1 => exact ⟨fun u' s' h => (by cases h), fun s' h => by cases h⟩
    | ub => exact ⟨fun u' s' h => (by cases h), fun s' h => by cases h⟩

theorem stdForEachP_spec {σ : Type} (f : σ → T → T × σ) (body : It → σ → Prog T σ) (D : Desc) (b : Int) (F : Nat → List Ptr) (m j : Nat)
    (h : ∀ k, j ≤ k → k < j + m → ∀ q, body ⟨b + (k : Int), D⟩ q = eachCode f (F k) q) (q : σ) :
    stdForEachP body m ⟨b + (j : Int), D⟩ q = eachCode f ((List.range' j m).flatMap F) q := by
  induction m generalizing j q with
  | zero => rfl
  | succ m ih =>
    simp only [stdForEachP, It.increment]
    rw [show b + (j : Int) + 1 = b + ((j + 1 : Nat) : Int) by push_cast; ring]
    rw [h j (by omega) (by omega), List.range'_succ, List.flatMap_cons, eachCode_append]
    congr 1
    funext q'
    exact ih (j + 1) (fun k h1 h2 => h k (by omega) (by omega)) q'

/-- `for_each` is the sequence of applications in lexicographic order. -/
theorem forEachAccP_eq {σ : Type} (f : σ → T → T × σ) (dbg : Bool) (d : Desc) (hd : WellShaped d) (q : σ) :
    forEachAccP dbg f d.extents.length d q = eachCode f (addrs d) q := by
  obtain ⟨p, es, ss, bs⟩ := d
  induction es generalizing p ss bs q with
  | nil =>
    match ss, bs, hd with
    | [], [], _ => simp only [addrs_nil]; rfl
  | cons e es ih =>
    match ss, bs, hd with
    | s :: ss, b :: bs, hd =>
      rw [addrs_cons]
      simp only [List.length_cons, forEachAccP, begin_cons, end_cons, Prog.lift_ok, pure_bind]
      rw [itsub]
      have := stdForEachP_spec f
        (fun i q => (do
          let x ← Prog.lift (i.deref dbg)
          forEachAccP dbg f es.length x q)) ⟨p, e :: es, s :: ss, b :: bs⟩ b
        (fun k => addrs (subAt p es s ss b bs k)) e 0 (by
        intro k _ hk q
        have hk : k < e := by omega
        rw [It.deref_in dbg p e es s ss b bs k hk]
        simp only [Prog.lift_ok, pure_bind]
        exact ih q _ _ _ (wellShaped_subAt hd k)) q
      rw [List.range_eq_range']
      simpa using this

theorem pairLog_each (d : Desc) (hd : WellShaped d) : pairLog ((addrs d).map fun p => (p, p)) = copying d.extents d d := by
  rw [← pairLog_copyPairs d d hd hd rfl, copyPairs]
  generalize addrs d = l
  congr 1
  induction l with
  | nil => rfl
  | cons p l ih => rw [List.map_cons, ih]; rfl

theorem log_assignLoopP (n : Nat) (out : Ptr) (input : List T) (i : Nat) (s : St T) :
    (∀ u s', (Code.ofProg (assignLoopP n (out.add (i : Int)) input)).exec s = .ok u s' →
      (Code.ofProg (assignLoopP n (out.add (i : Int)) input)).log s = (List.range' i (min n input.length)).map (fun (j : Nat) => .assign (out.add (j : Int)))) ∧
    (∀ s', (Code.ofProg (assignLoopP n (out.add (i : Int)) input)).exec s = .throw s' →
      Interrupted ((List.range' i (min n input.length)).map (fun (j : Nat) => .assign (out.add (j : Int)))) ((Code.ofProg (assignLoopP n (out.add (i : Int)) input)).log s)) := by
  induction n generalizing input i s with
  | zero => exact ⟨fun _ _ _ => by simp [assignLoopP, pure, Code.ofProg, Code.log], fun s' h => by cases h⟩
  | succ n ih =>
    cases input with
    | nil => exact ⟨fun _ _ _ => by simp [assignLoopP, pure, Code.ofProg, Code.log], fun s' h => by cases h⟩
    | cons v vs =>
      have e : (assignLoopP (n + 1) (out.add (i : Int)) (v :: vs) : Prog T Unit) = .store (out.add (i : Int)) v (assignLoopP n (out.add ((i + 1 : Nat) : Int)) vs) := by
        show Prog.store (out.add (i : Int)) v (assignLoopP n ((out.add (i : Int)).add 1) vs) = _
        rw [Ptr.add_add]; push_cast; rfl
      have hm : min (n + 1) (v :: vs).length = min n vs.length + 1 := by simp only [List.length_cons]; omega
      rw [e, hm, List.range'_succ, List.map_cons]
      simp only [Code.ofProg, Code.exec, Code.log]
      cases ha : assignCell (out.add (i : Int)) v s with
      | ok u s2 =>
        simp only
        exact ⟨fun u' s' h => by rw [(ih vs (i + 1) s2).1 u' s' h], fun s' h => interrupted_cons ((ih vs (i + 1) s2).2 s' h)⟩
      | throw s2 =>
        simp only
        exact ⟨fun u' s' h => (by cases h), fun s' _ => ⟨[], _, _, _, rfl, rfl, rfl⟩⟩
      | assertFail s2 => exact ⟨fun u' s' h => (by cases h), fun s' h => by cases h⟩
      | ub => exact ⟨fun u' s' h => (by cases h), fun s' h => by cases h⟩

namespace MArr

/-- The array that `allocate_space` leaves when the next block is `b`. -/
def spaceAt (b : Nat) (ref : ARef) (al : Nat) : MArr := ⟨{ ref with base := ⟨b, 0⟩ }, ⟨b, 0⟩, ref.numElems, al⟩

theorem log_allocateSpaceC (dflt : T) (ref : ARef) (al : Nat) (s : St T) :
    (∀ a s', (allocateSpaceC dflt ref al).exec s = .ok a s' → a = spaceAt s.next ref al ∧
      (allocateSpaceC dflt ref al).log s = .allocate al ref.numElems ⟨s.next, 0⟩ :: constructing ⟨s.next, 0⟩ ref.numElems) ∧
    (∀ s', (allocateSpaceC dflt ref al).exec s = .throw s' → FailedAllocation al ref.numElems ⟨s.next, 0⟩ ((allocateSpaceC dflt ref al).log s)) := by
  have e : allocateSpaceC dflt ref al = (Code.alloc al ref.numElems .ret .throw >>= fun p => constructFromC dflt p ref.numElems 0 >>= fun _ =>
    pure ⟨{ ref with base := p }, p, ref.numElems, al⟩ : Code T MArr) := rfl
  rw [e]
  rcases sched_cases s with hs | ⟨junk, fs, hs⟩
  · obtain ⟨s1, h1⟩ : ∃ s1, MultiArray.allocate al ref.numElems s = .ok ⟨s.next, 0⟩ s1 := by
      exact ⟨_, allocate_ok al ref.numElems s hs⟩
    have h1' : (Code.alloc al ref.numElems .ret .throw : Code T Ptr).exec s = .ok ⟨s.next, 0⟩ s1 := by rw [exec_allocate]; exact h1
    have hl : (Code.alloc al ref.numElems .ret .throw : Code T Ptr).log s = [.allocate al ref.numElems ⟨s.next, 0⟩] := by
      simp only [Code.log, h1]
    rw [exec_bind_ok h1', log_bind_ok h1', hl]
    constructor
    · intro a s' h
      obtain ⟨_, s2, h2, h3⟩ := bind_ok_inv h
      rw [log_bind_ok h2, log_constructFromC_ok h2, constructing_eq]
      cases h3
      exact ⟨rfl, by simp; rfl⟩
    · intro s' h
      rcases bind_throw_inv h with h2 | ⟨_, s2, _, h3⟩
      · obtain ⟨k, hk, hlog⟩ := log_constructFromC_throw h2
        rw [log_bind_throw h2, hlog, constructing_eq]
        exact .inr ⟨k, hk, by simp⟩
      · cases h3
  · have h1 : MultiArray.allocate al ref.numElems s = .throw { s with sched := fs } := by simp only [MultiArray.allocate, hs]
    have h1' : (Code.alloc al ref.numElems .ret .throw : Code T Ptr).exec s = .throw { s with sched := fs } := by rw [exec_allocate]; exact h1
    rw [exec_bind_throw h1', log_bind_throw h1']
    refine ⟨fun a s' h => (by cases h), fun s' _ => .inl ?_⟩
    simp only [Code.log, h1]

theorem deallocateSpaceC_not_throw (a : MArr) (s s' : St T) : (deallocateSpaceC a : Code T Unit).exec s ≠ .throw s' := by
  unfold deallocateSpaceC
  split
  · intro h
    rcases bind_throw_inv h with h | ⟨_, s1, _, h⟩
    · exact destroyNC_not_throw _ _ _ _ h
    · rw [exec_deallocate] at h
      exact deallocate_not_throw _ _ _ _ _ h
  · intro h; cases h

theorem log_deallocateSpaceC {a : MArr} (ha : a.ownBase ≠ Ptr.null) {s s' : St T} {u : Unit} (h : (deallocateSpaceC a : Code T Unit).exec s = .ok u s') :
    (deallocateSpaceC a : Code T Unit).log s = destroying a.ownBase a.allocated ++ [.release a.alloc a.ownBase a.allocated] := by
  unfold deallocateSpaceC at h ⊢
  rw [if_pos ha] at h ⊢
  obtain ⟨_, s1, h1, h2⟩ := bind_ok_inv h
  rw [log_bind_ok h1, log_destroyNC h1]
  rw [exec_deallocate] at h2
  simp only [Code.log, h2]

theorem copyNElemsC_eq (n : Nat) (src dst : Ptr) :
    (copyNElemsC n src dst : Code T Unit) = Code.ofProg (copyCode ((List.range n).map (fun (i : Nat) => (src.add (i : Int), dst.add (i : Int))))) := by
  induction n generalizing src dst with
  | zero => rfl
  | succ n ih =>
    rw [List.range_succ_eq_map, List.map_cons, List.map_map]
    show (Code.get src >>= fun v => Code.put dst v >>= fun _ => copyNElemsC n (src.add 1) (dst.add 1)) = _
    rw [ih]
    simp only [copyCode, Code.ofProg, Nat.cast_zero, Ptr.add_zero]
    have : (List.range n).map ((fun (i : Nat) => (src.add (i : Int), dst.add (i : Int))) ∘ Nat.succ) =
        (List.range n).map (fun (i : Nat) => ((src.add 1).add (i : Int), (dst.add 1).add (i : Int))) := by
      apply List.map_congr_left
      intro i _
      simp only [Function.comp, Ptr.add_add, Nat.cast_succ]
      rw [Int.add_comm (i : Int) 1]
    rw [this]
    rfl

theorem pairLog_flat (n : Nat) (src dst : Ptr) :
    pairLog ((List.range n).map (fun (i : Nat) => (src.add (i : Int), dst.add (i : Int)))) = copyingFlat n src dst := by
  rw [pairLog, copyingFlat, List.flatMap_map]

theorem resizeFillC_eq (dbg : Bool) {a m : MArr} (hwa : WellShaped a.ref.desc) (hwm : WellShaped m.ref.desc)
    (hlen : m.ref.extents.length = a.ref.extents.length) (hra : Representable a.ref.bases a.ref.extents) (hrm : Representable m.ref.bases m.ref.extents) :
    ∃ l, (resizeFillC dbg a m : Code T Unit) = Code.ofProg (copyCode l) ∧
      pairLog l = copying (List.zipWith Nat.min m.ref.extents a.ref.extents) a.ref.desc m.ref.desc := by
  generalize hms : List.zipWith Nat.min m.ref.extents a.ref.extents = ms
  have hma : List.Forall₂ (· ≤ ·) ms a.ref.extents := hms ▸ zipMin_le_right _ _ hlen
  have hmm : List.Forall₂ (· ≤ ·) ms m.ref.extents := hms ▸ zipMin_le_left _ _ hlen
  obtain ⟨v, hv1, hv2, hv3, hv4⟩ := leadingView dbg a.ref.desc hwa ms hma hra a.ref.extents.length rfl
  obtain ⟨u, hu1, hu2, hu3, hu4⟩ := leadingView dbg m.ref.desc hwm ms hmm hrm a.ref.extents.length hlen.symm
  have he : v.desc.extents = u.desc.extents := by show v.extents = u.extents; rw [hv2, hu2]
  refine ⟨copyPairs v.desc u.desc, ?_, ?_⟩
  · unfold resizeFillC
    simp only [ARef.slice, hms]
    rw [show a.ref.bases = a.ref.desc.bases from rfl, show m.ref.bases = m.ref.desc.bases from rfl, hv1, hu1]
    show Code.ofProg (assignP dbg u.desc.extents.length u.desc v.desc) = _
    rw [assignP_eq dbg _ _ hu3 hv3 he]
  · rw [pairLog_copyPairs _ _ hv3 hu3 he]
    show (positions u.extents).flatMap _ = _
    rw [hu2]
    unfold copying
    apply List.flatMap_congr
    intro k hk
    rw [positions_eq, mem_allPos] at hk
    rw [show v.desc.bases = v.bases from rfl, show u.desc.bases = u.bases from rfl, hv4 k hk, hu4 k hk]

theorem log_resizeC (dbg : Bool) (dflt : T) {n : Nat} {a : MArr} (ha : Reachable n a.ref) (hnull : a.ownBase ≠ Ptr.null) (hra : Representable a.ref.bases a.ref.extents)
    {ref : ARef} {g : ExtentGen} (href : ARef.ofExtentGen Ptr.null g a.ref.storage = .ok ref) (hreach : Reachable n ref) (hrr : Representable ref.bases ref.extents)
    (s : St T) (hnext : 0 < s.next) :
    let b := spaceAt s.next ref a.alloc
    let start := .allocate a.alloc ref.extents.prod ⟨s.next, 0⟩ :: constructing ⟨s.next, 0⟩ ref.extents.prod
    let copy := copying (List.zipWith Nat.min ref.extents a.ref.extents) a.ref.desc b.ref.desc
    (∀ u a' s', (resizeC dbg dflt g a).exec s = .ok (some u, a') s' →
      a' = (swapAll a b).1 ∧ (resizeC dbg dflt g a).log s = start ++ copy ++ destroying a.ownBase a.allocated ++ [.release a.alloc a.ownBase a.allocated]) ∧
    (∀ a' s', (resizeC dbg dflt g a).exec s = .ok (none, a') s' →
      FailedAllocation a.alloc ref.extents.prod ⟨s.next, 0⟩ ((resizeC dbg dflt g a).log s) ∨
      ∃ l, Interrupted copy l ∧ (resizeC dbg dflt g a).log s = start ++ l ++ destroying ⟨s.next, 0⟩ ref.extents.prod ++ [.release a.alloc ⟨s.next, 0⟩ ref.extents.prod]) := by
  intro b start copy
  have hnum : ref.numElems = ref.extents.prod := by rw [hreach.wf.num_eq, product_eq]
  have hmk : (mkExtentGenC dflt g a.ref.storage a.alloc : Code T MArr) = allocateSpaceC dflt ref a.alloc := by
    unfold mkExtentGenC; rw [href]; rfl
  obtain ⟨g1, g2⟩ := log_allocateSpaceC dflt ref a.alloc s
  rw [hnum] at g1 g2
  obtain ⟨l, hl1, hl2⟩ := resizeFillC_eq (T := T) dbg (a := a) (m := b) ha.wf.wellShaped (hreach.setBase ⟨s.next, 0⟩).wf.wellShaped
    (by show ref.extents.length = _; rw [ha.wf.ext_len, hreach.wf.ext_len]) hra hrr
  have hbnull : b.ownBase ≠ Ptr.null := by
    intro h
    have h' := congrArg Ptr.blk h
    have : s.next = 0 := h'
    omega
  have hball : b.allocated = ref.extents.prod := hnum
  have e : resizeC dbg dflt g a = (Code.attempt (allocateSpaceC dflt ref a.alloc) >>= fun r =>
      match r with
      | none => pure (none, a)
      | some newArr => Code.attempt (Code.onThrow (resizeFillC dbg a newArr) (deallocateSpaceC newArr)) >>= fun r2 =>
        match r2 with
        | none => pure (none, a)
        | some _ => Code.attempt (deallocateSpaceC (swapAll a newArr).2) >>= fun r3 => pure (r3, (swapAll a newArr).1) : Code T (Option Unit × MArr)) := by
    unfold resizeC; rw [hmk]; rfl
  rw [e]
  have h1 := Code.exec_attempt (allocateSpaceC dflt ref a.alloc) s
  rw [MArr.exec_bind_apply, log_bind, h1, log_attempt]
  cases hx : (allocateSpaceC dflt ref a.alloc).exec s with
  | assertFail s1 => exact ⟨fun u a' s' h => (by cases h), fun a' s' h => (by cases h)⟩
  | ub => exact ⟨fun u a' s' h => (by cases h), fun a' s' h => (by cases h)⟩
  | throw s1 =>
    simp only [Code.after, afterLog]
    refine ⟨fun u a' s' h => (by cases h), fun a' s' _ => .inl ?_⟩
    rw [show (pure (none, a) : Code T (Option Unit × MArr)).log s1 = [] from rfl, List.append_nil]
    exact g2 _ hx
  | ok m s1 =>
    obtain ⟨hm, hlog⟩ := g1 m s1 hx
    have hm : m = b := hm
    subst hm
    simp only [Code.after, afterLog]
    rw [hlog]
    have h2 := Code.exec_attempt (Code.onThrow (resizeFillC dbg a b) (deallocateSpaceC b)) s1
    rw [MArr.exec_bind_apply, log_bind, h2, log_attempt]
    cases hy : (Code.onThrow (resizeFillC dbg a b) (deallocateSpaceC b)).exec s1 with
    | assertFail s2 => exact ⟨fun u a' s' h => (by cases h), fun a' s' h => (by cases h)⟩
    | ub => exact ⟨fun u a' s' h => (by cases h), fun a' s' h => (by cases h)⟩
    | throw s2 =>
      simp only [Code.after, afterLog]
      refine ⟨fun u a' s' h => (by cases h), fun a' s' _ => .inr ?_⟩
      obtain ⟨s3, h3, h4⟩ := onThrow_throw_inv (deallocateSpaceC_not_throw b) hy
      rw [log_onThrow_throw h3, log_deallocateSpaceC hbnull h4]
      rw [hl1] at h3 ⊢
      have := (log_copyCode l s1).2 _ h3
      rw [hl2] at this
      refine ⟨_, this, ?_⟩
      rw [hball]
      rw [show (pure (none, a) : Code T (Option Unit × MArr)).log s2 = [] from rfl]
      simp only [List.append_nil, List.append_assoc]
      rfl
    | ok u s2 =>
      simp only [Code.after, afterLog]
      have h3 := onThrow_ok_inv hy
      rw [log_onThrow_ok h3]
      rw [hl1] at h3 ⊢
      have := (log_copyCode l s1).1 _ _ h3
      rw [this, hl2]
      have h4 := Code.exec_attempt (deallocateSpaceC (swapAll a b).2) s2
      rw [MArr.exec_bind_apply, log_bind, h4, log_attempt]
      cases hz : (deallocateSpaceC (swapAll a b).2 : Code T Unit).exec s2 with
      | assertFail s3 => exact ⟨fun u a' s' h => (by cases h), fun a' s' h => (by cases h)⟩
      | ub => exact ⟨fun u a' s' h => (by cases h), fun a' s' h => (by cases h)⟩
      | throw s3 => exact absurd hz (deallocateSpaceC_not_throw _ _ _)
      | ok w s3 =>
        simp only [Code.after, afterLog]
        refine ⟨fun u a' s' h => ?_, fun a' s' h => (by cases h)⟩
        cases h
        refine ⟨rfl, ?_⟩
        have := log_deallocateSpaceC (a := (swapAll a b).2) (s := s2) hnull hz
        rw [this, show (pure (some w, (swapAll a b).1) : Code T (Option Unit × MArr)).log s3 = [] from rfl]
        simp only [List.append_nil, List.append_assoc]
        rfl

end MArr
end MultiArray
