import Verif.Lemmas.Pads
import Verif.Lemmas.Abs
import Verif.Props.Conc
import Verif.Props.Access

/- A thread of SpecHeaders.lean running alone. -/
set_option autoImplicit false

namespace MultiArray
open Spec Props
variable {T α : Type}

/-- The cells a thread may read: members of objects it may use, and elements. -/
def cellsR (L : Nat → Prop) (P : Print) (p : Ptr) : Prop := (∃ x, ∃ f : Field, p = f.at x ∧ L x ∧ (P.looks x ∨ P.changes x)) ∨ P.reads p
/-- The cells it may write. -/
def cellsW (L : Nat → Prop) (P : Print) (p : Ptr) : Prop := (∃ x, ∃ f : Field, p = f.at x ∧ L x ∧ P.changes x) ∨ P.writes p

/-- The memory `m` with the objects in it, the scope, and the memory `s` of the sequential model, whose objects are in the scope. -/
structure HRel (L : Nat → Prop) (sc : Scope) (m s : St (Word T)) : Prop where
  dom : ∀ x, sc x ≠ none ↔ L x
  objs : HoldsAll m sc
  same : SameOn (fun p => ¬ L p.blk) m s
  calm : m.sched = []
  calm' : s.sched = []

abbrev IsElem (w : Word T) : Prop := ∃ v, w = .elem v

/-- The elements of the footprint are elements. -/
def Elems (L : Nat → Prop) (P : Print) (m : St (Word T)) : Prop := ∀ p, P.reads p ∨ P.writes p → ¬ L p.blk ∧ ∃ w, m.get? p = some w ∧ IsElem w

/-- Elements stay elements. -/
def StayElems (L : Nat → Prop) (m m' : St (Word T)) : Prop := ∀ p, ¬ L p.blk → (∃ w, m.get? p = some w ∧ IsElem w) → ∃ w, m'.get? p = some w ∧ IsElem w

theorem StayElems.elems {L : Nat → Prop} {P : Print} {m m' : St (Word T)} (h : StayElems L m m') (he : Elems L P m) : Elems L P m' :=
  fun p hp => ⟨(he p hp).1, h p (he p hp).1 (he p hp).2⟩

theorem elem_step {L : Nat → Prop} {P : Print} {sc : Scope} {m s : St (Word T)} (hr : HRel L sc m s) (he : Elems L P m) {x : Prog (Word T) α} (hg : Goes P.reads P.writes x m)
    (ht : Typed IsElem x) : ∃ a m' s', Does (cellsR L P) (cellsW L P) x m a m' ∧ x.exec s = .ok a s' ∧ HRel L sc m' s' ∧ StayElems L m m' := by
  obtain ⟨a, m', s', e1, e2, e3, e4, e5, e6, _⟩ := hg.exec (D := fun p => ¬ L p.blk) hr.calm hr.calm' (fun p hp => (he p hp).1) hr.same
  refine ⟨a, m', s', ⟨hg.mono (fun p hp => .inr hp) (fun p hp => .inr hp), e1⟩, e2, ⟨hr.dom, ?_, e5, e3, e4⟩, ?_⟩
  · intro x o hx f w hf
    rw [← e6 (f.at x) (fun hw => (he _ (.inr hw)).1 ((hr.dom x).mp (by rw [hx]; simp)))]
    exact hr.objs x o hx f w hf
  · exact fun p _ hp => hg.typed ht hr.calm e1 (fun q hq => (he q (.inl hq)).2) p hp

/-- The same for a program with additional reads of data members. -/
theorem padded_step {L : Nat → Prop} {P : Print} {sc : Scope} {m s : St (Word T)} (hr : HRel L sc m s) (he : Elems L P m) {x y : Prog (Word T) α} (hp : Pads (Members sc P.looks) x y)
    (hc : Confined P.reads P.writes y) (ht : Typed IsElem y) :
    ∃ a m' s', Does (cellsR L P) (cellsW L P) x m a m' ∧ y.exec s = .ok a s' ∧ HRel L sc m' s' ∧ StayElems L m m' := by
  have hg : Goes P.reads P.writes y m := hc.goes (fun p hp => by obtain ⟨_, w, hw, _⟩ := he p hp; exact ⟨w, hw⟩)
  obtain ⟨a, m', s', ⟨f1, f1'⟩, f2, f3, f4⟩ := elem_step hr he hg ht
  have hg' : Goes (cellsR L P) P.writes y m := hg.mono (fun p hp => .inr hp) (fun p hp => hp)
  have hm : ∀ p w, Members sc P.looks p w → m.get? p = some w ∧ cellsR L P p ∧ ¬ P.writes p := by
    rintro p w ⟨x, o, f, hx, ho, hw, rfl⟩
    have hL : L x := (hr.dom x).mp (by rw [ho]; simp)
    exact ⟨hr.objs x o ho f w hw, .inl ⟨x, f, rfl, hL, .inl hx⟩, fun hW => (he _ (.inr hW)).1 hL⟩
  refine ⟨a, m', s', ⟨(hp.goes hm hg').mono (fun p hp => hp) (fun p hp => .inr hp), ?_⟩, f2, f3, f4⟩
  rw [hp.exec hr.calm hm hg']
  exact f1'

theorem typed_of_reads {E : T → Prop} {R : Ptr → Prop} {x : Prog T α} (h : Confined R (fun _ => False) x) : Typed E x := by
  induction x with
  | ret a => trivial
  | load p k ih => exact fun v _ => ih v (h.2 v)
  | store p v k ih => exact h.1.elim
  | assertFail => trivial
  | ub => trivial

theorem typed_copyDispatchP {E : T → Prop} (dbg : Bool) : ∀ (n : Nat) (src dst : Desc), Typed E (copyDispatchP dbg n src dst : Prog T Unit)
  | 0, dst, src => fun v hv => ⟨hv, trivial⟩
  | n + 1, dst, src => by
    unfold copyDispatchP
    exact Typed.bind (Typed.lift _) (fun _ => Typed.bind (Typed.lift _) (fun _ => Typed.bind (Typed.lift _) (fun _ =>
      typed_stdCopyP (fun i o => Typed.bind (Typed.lift _) (fun _ => Typed.bind (Typed.lift _) (fun _ => typed_copyDispatchP dbg n _ _))) _ _ _)))

theorem header_step {L : Nat → Prop} {P : Print} {sc : Scope} {m m' s : St (Word T)} (hr : HRel L sc m s) {y : Nat} {o' : Obj} {x : Prog (Word T) α} {a : α} (hy : L y)
    (hd : Does (cellsR L P) (fun p => ∃ f : Field, p = f.at y) x m a m') (ho : HoldsObj m' y o') : HRel L (sc.set y (some o')) m' s ∧ StayElems L m m' := by
  have hf := fun p hp => hd.frame hr.calm p hp
  have hne : ∀ p : Ptr, p.blk ≠ y → m'.get? p = m.get? p := fun p hp => hf p (by rintro ⟨f, rfl⟩; exact hp rfl)
  refine ⟨⟨?_, ?_, ?_, hd.sched hr.calm, hr.calm'⟩, ?_⟩
  · intro z
    unfold Scope.set
    by_cases hz : z = y
    · subst hz; simp [hy]
    · rw [if_neg hz]; exact hr.dom z
  · intro z o hz f w hfw
    unfold Scope.set at hz
    by_cases hzy : z = y
    · subst hzy
      rw [if_pos rfl] at hz; cases hz
      exact ho f w hfw
    · rw [if_neg hzy] at hz
      rw [hne _ (show z ≠ y from hzy)]
      exact hr.objs z o hz f w hfw
  · intro p hp
    rw [hne p (by rintro rfl; exact hp hy)]
    exact hr.same p hp
  · intro p hp h
    rw [hne p (by rintro rfl; exact hp hy)]
    exact h

theorem desc_home {sc : Scope} {r : HRef} {d : Desc} (h : r.desc sc = .ok d) : ∃ o, sc r.home = some o := by
  cases r with
  | obj x =>
    simp only [HRef.desc] at h
    cases ho : sc x with
    | none => rw [ho] at h; cases h
    | some o => exact ⟨o, ho⟩
  | sub s =>
    simp only [HRef.desc, SubObj.desc] at h
    cases ho : sc s.owner with
    | none => rw [ho] at h; cases h
    | some o => exact ⟨o, ho⟩

theorem does_desc {L : Nat → Prop} {P : Print} {sc : Scope} {m s : St (Word T)} (hr : HRel L sc m s) {r : HRef} (hl : P.looks r.home) {d : Desc} (h : r.desc sc = .ok d) {W : Ptr → Prop} :
    Does (cellsR L P) W r.descP m d m := by
  obtain ⟨o, ho⟩ := desc_home h
  exact does_descP hr.calm ho h (hr.objs _ _ ho) (fun f => .inl ⟨_, f, rfl, (hr.dom _).mp (by rw [ho]; simp), .inl hl⟩)

theorem access_false {i : Int} {d r : Desc} (h : access true i d = .ok r) (dbg : Bool) : access dbg i d = .ok r := by
  have h1 : ∀ d' : Bool, accessChain d' [i] d = access d' i d := by
    intro d'
    show (access d' i d >>= fun x => .ok x) = access d' i d
    cases access d' i d <;> rfl
  cases dbg with
  | true => exact h
  | false =>
    have := (C08_access [i] d).2 r (by rw [h1]; exact h)
    rwa [h1] at this

theorem view_any {g : IndexGen} {d : Desc} {v : View} (h : generateArrayView true g d = .ok v) (dbg : Bool) : generateArrayView dbg g d = .ok v := by
  cases dbg with
  | true => exact h
  | false => exact C08_view g d v h

theorem lift_bind {α β : Type} (a : α) (f : α → Exec (Word T) β) (s : St (Word T)) : (Exec.lift (.ok a) >>= f) s = f a s := rfl

theorem onElem_eq (f : T → T) : onElem f = Word.map f := by
  funext w; cases w <;> rfl

theorem onElems_eq (f : T → T → Bool) : onElems f = Word.cmp f := by
  funext v w; cases v <;> cases w <;> rfl

/-- **A legal thread running alone** ends, stays in its cells, and does to objects and elements what the sequential model says. -/
theorem thread_sound (dbg : Bool) {L : Nat → Prop} {P : Print} (t : HThread T) {sc : Scope} {m s : St (Word T)} (hr : HRel L sc m s) (he : Elems L P m) (hu : t.Uses P sc) :
    ∃ sc' m' s', Does (cellsR L P) (cellsW L P) (t.prog dbg) m () m' ∧ t.exec dbg sc s = .ok sc' s' ∧ HRel L sc' m' s' ∧ (∀ x, ¬ P.changes x → sc' x = sc x) ∧ StayElems L m m' := by
  induction t generalizing sc m s with
  | done => exact ⟨sc, m, s, Does.pure _ _, rfl, hr, fun _ _ => rfl, fun _ _ h => h⟩
  | read o idx k ih =>
    obtain ⟨hl, d, hd, hh, hin, hR, hk⟩ := hu
    obtain ⟨hL, w, hw, v, rfl⟩ := he _ (.inl hR)
    obtain ⟨sc', m', s', e1, e2, e3, e4, e5⟩ := ih v hr he (hk v)
    have hacc := accessElement_inBox dbg d idx hh.wellShaped.1 hin
    refine ⟨sc', m', s', ?_, ?_, e3, e4, e5⟩
    · refine Does.bind hr.calm ?_ e1
      refine (does_desc hr hl hd).bind hr.calm ?_
      refine Does.bind hr.calm (a := (Word.elem v : Word T)) (m' := m) ?_ (Does.pure _ _)
      rw [readElemP]
      exact (Does.lift hacc m).bind hr.calm (Does.get hw (.inr hR))
    · have hws : s.get? (address d idx) = some (.elem v) := by rw [← hr.same _ hL]; exact hw
      simp only [HThread.exec, hd]
      rw [lift_bind, Exec.bind_ok (s' := s) (a := (Word.elem v : Word T)) (by
        unfold readElem
        rw [Exec.bind_ok (s' := s) (a := address d idx) (by rw [hacc]; rfl)]
        exact load_ok hws)]
      exact e2
  | write o idx v k ih =>
    obtain ⟨hl, d, hd, hh, hin, hW, hk⟩ := hu
    have hacc := accessElement_inBox dbg d idx hh.wellShaped.1 hin
    have hg : Goes P.reads P.writes (writeElemP dbg d idx (.elem v) : Prog (Word T) Unit) m := by
      rw [writeElemP, hacc]
      obtain ⟨_, w, hw, _⟩ := he _ (.inr hW)
      exact ⟨hW, ⟨w, hw⟩, trivial⟩
    have ht : Typed IsElem (writeElemP dbg d idx (.elem v) : Prog (Word T) Unit) := by
      rw [writeElemP, hacc]
      exact ⟨⟨v, rfl⟩, trivial⟩
    obtain ⟨u, m1, s1, f1, f2, f3, f4⟩ := elem_step hr he hg ht
    obtain ⟨sc', m', s', e1, e2, e3, e4, e5⟩ := ih f3 (f4.elems he) hk
    refine ⟨sc', m', s', Does.bind hr.calm ((does_desc hr hl hd).bind hr.calm f1) e1, ?_, e3, e4, fun p hp h => e5 p hp (f4 p hp h)⟩
    simp only [HThread.exec, hd]
    rw [lift_bind, Exec.bind_ok (s' := s1) (a := u) (by rw [← exec_writeElemP]; exact f2)]
    exact e2
  | bracket o i k ih =>
    obtain ⟨hl, d, r, hd, hacc, hk⟩ := hu
    obtain ⟨sc', m', s', e1, e2, e3, e4, e5⟩ := ih _ hr he hk
    have hacc' := access_false hacc dbg
    refine ⟨sc', m', s', Does.bind hr.calm ((does_desc hr hl hd).bind hr.calm ((Does.lift hacc' m).bind hr.calm (Does.pure _ _))) e1, ?_, e3, e4, e5⟩
    simp only [HThread.exec, hd]
    rw [lift_bind, hacc', lift_bind]
    exact e2
  | change x ty op k ih =>
    obtain ⟨hc, o, o', hx, rfl, ha, hk⟩ := hu
    have hL : L x := (hr.dom x).mp (by rw [hx]; simp)
    obtain ⟨m1, f1, f2⟩ := does_change (R := cellsR L P) (W := fun p => ∃ f : Field, p = f.at x) hr.calm (hr.objs _ _ hx) (fun f => .inl ⟨x, f, rfl, hL, .inr hc⟩) (fun f => ⟨f, rfl⟩) ha
    obtain ⟨g1, g2⟩ := header_step hr hL f1 f2
    obtain ⟨sc', m', s', e1, e2, e3, e4, e5⟩ := ih g1 (g2.elems he) hk
    refine ⟨sc', m', s', Does.bind hr.calm (f1.mono (fun _ h => h) (by rintro p ⟨f, rfl⟩; exact .inl ⟨x, f, rfl, hL, hc⟩)) e1, ?_, e3, ?_, fun p hp h => e5 p hp (g2 p hp h)⟩
    · simp only [HThread.exec, hx, ha]
      rw [lift_bind]
      exact e2
    · intro y hy
      rw [e4 y hy]
      unfold Scope.set
      rw [if_neg (by rintro rfl; exact hy hc)]
  | slice o g y k ih =>
    obtain ⟨hl, hc, d, v, u, hd, hv, hy, hk⟩ := hu
    have hL : L y := (hr.dom y).mp (by rw [hy]; simp)
    obtain ⟨ob, hob⟩ := desc_home hd
    have hv' := view_any hv dbg
    obtain ⟨m1, f1, f2⟩ := does_slice (R := cellsR L P) (W := fun p => ∃ f : Field, p = f.at y) hr.calm hob hd (hr.objs _ _ hob)
      (fun f => .inl ⟨_, f, rfl, (hr.dom _).mp (by rw [hob]; simp), .inl hl⟩) (hr.objs _ _ hy) (fun f => ⟨f, rfl⟩) hv'
    obtain ⟨g1, g2⟩ := header_step hr hL f1 f2
    obtain ⟨sc', m', s', e1, e2, e3, e4, e5⟩ := ih g1 (g2.elems he) hk
    refine ⟨sc', m', s', Does.bind hr.calm (f1.mono (fun _ h => h) (by rintro p ⟨f, rfl⟩; exact .inl ⟨y, f, rfl, hL, hc⟩)) e1, ?_, e3, ?_, fun p hp h => e5 p hp (g2 p hp h)⟩
    · simp only [HThread.exec, hd]
      rw [lift_bind, hv', lift_bind]
      exact e2
    · intro z hz
      rw [e4 z hz]
      unfold Scope.set
      rw [if_neg (by rintro rfl; exact hz hc)]
  | assign n dst src k ih =>
    obtain ⟨hl, hl', d, sd, hd, hsd, hh, hh', rfl, hext, hR, hW, hk⟩ := hu
    have hc : Confined P.reads P.writes (assignP dbg d.extents.length d sd : Prog (Word T) Unit) := by
      refine (confined_assignP dbg d sd hh.wellShaped hh'.wellShaped hext).mono ?_ ?_
      · intro p hp
        obtain ⟨idx, hi, rfl⟩ := (mem_addrs _ _).mp hp
        exact hR idx hi
      · intro p hp
        obtain ⟨idx, hi, rfl⟩ := (mem_addrs _ _).mp hp
        exact hW idx hi
    obtain ⟨u, m1, s1, f1, f2, f3, f4⟩ := padded_step hr he (pads_assign _ hd hsd hl hl') hc (typed_assignP dbg _ d sd)
    obtain ⟨sc', m', s', e1, e2, e3, e4, e5⟩ := ih f3 (f4.elems he) hk
    refine ⟨sc', m', s', Does.bind hr.calm f1 e1, ?_, e3, e4, fun p hp h => e5 p hp (f4 p hp h)⟩
    simp only [HThread.exec, hd, hsd]
    rw [lift_bind, lift_bind, Exec.bind_ok (s' := s1) (a := u) (by rw [← exec_assignP]; exact f2)]
    exact e2
  | copyArray n src dst k ih =>
    obtain ⟨hl, hl', d, sd, hd, hsd, hh, hh', rfl, hext, hR, hW, hk⟩ := hu
    have hc : Confined P.reads P.writes (copyArrayP dbg sd d : Prog (Word T) Unit) := by
      refine (confined_copyArrayP dbg d sd hh.wellShaped hh'.wellShaped hext).mono ?_ ?_
      · intro p hp
        obtain ⟨idx, hi, rfl⟩ := (mem_addrs _ _).mp hp
        exact hR idx hi
      · intro p hp
        obtain ⟨idx, hi, rfl⟩ := (mem_addrs _ _).mp hp
        exact hW idx hi
    obtain ⟨u, m1, s1, f1, f2, f3, f4⟩ := padded_step hr he (pads_copyArray hd hsd (by rw [hext]) hl hl') hc (Typed.bind (Typed.lift _) (fun _ => typed_copyDispatchP dbg _ _ _))
    obtain ⟨sc', m', s', e1, e2, e3, e4, e5⟩ := ih f3 (f4.elems he) hk
    refine ⟨sc', m', s', Does.bind hr.calm f1 e1, ?_, e3, e4, fun p hp h => e5 p hp (f4 p hp h)⟩
    simp only [HThread.exec, hd, hsd]
    rw [lift_bind, lift_bind, Exec.bind_ok (s' := s1) (a := u) (by rw [← exec_copyArrayP]; exact f2)]
    exact e2
  | forEach n o f k ih =>
    obtain ⟨hl, d, hd, hh, rfl, hRW, hk⟩ := hu
    have hc : Confined P.reads P.writes (forEachAccP dbg (fun (_ : Unit) w => (Word.map f w, ())) d.extents.length d () : Prog (Word T) Unit) := by
      refine (confined_forEachAccP dbg _ d hh.wellShaped ()).mono ?_ ?_
      · intro p hp
        obtain ⟨idx, hi, rfl⟩ := (mem_addrs _ _).mp hp
        exact (hRW idx hi).1
      · intro p hp
        obtain ⟨idx, hi, rfl⟩ := (mem_addrs _ _).mp hp
        exact (hRW idx hi).2
    have ht : Typed IsElem (forEachAccP dbg (fun (_ : Unit) w => (Word.map f w, ())) d.extents.length d () : Prog (Word T) Unit) :=
      typed_forEachAccP dbg (by rintro _ _ ⟨v, rfl⟩; exact ⟨f v, rfl⟩) _ _ _
    obtain ⟨u, m1, s1, f1, f2, f3, f4⟩ := padded_step hr he (pads_forEach f _ hd hl) hc ht
    obtain ⟨sc', m', s', e1, e2, e3, e4, e5⟩ := ih f3 (f4.elems he) hk
    refine ⟨sc', m', s', Does.bind hr.calm f1 e1, ?_, e3, e4, fun p hp h => e5 p hp (f4 p hp h)⟩
    simp only [HThread.exec, hd, onElem_eq]
    rw [lift_bind, Exec.bind_ok (s' := s1) (a := u) (by unfold MultiArray.forEach; rw [← exec_forEachAccP]; exact f2)]
    exact e2
  | equal n a b eq k ih =>
    obtain ⟨hl, hl', d, e, hd, hed, hh, hh', hn, hn', hR, hR', hk⟩ := hu
    have hc : ∀ W, Confined P.reads W (equalP dbg (Word.cmp eq) n d e : Prog (Word T) Bool) := by
      intro W
      refine confined_equalP dbg _ _ _ n d e hh.wellShaped hh'.wellShaped hn hn' ?_
      rintro p (hp | hp)
      · obtain ⟨idx, hi, rfl⟩ := (mem_addrs _ _).mp hp
        exact hR idx hi
      · obtain ⟨idx, hi, rfl⟩ := (mem_addrs _ _).mp hp
        exact hR' idx hi
    obtain ⟨u, m1, s1, f1, f2, f3, f4⟩ := padded_step hr he (pads_equal eq _ hd hed hl hl') (hc _) (typed_of_reads (hc _))
    obtain ⟨sc', m', s', e1, e2, e3, e4, e5⟩ := ih u f3 (f4.elems he) (hk u)
    refine ⟨sc', m', s', Does.bind hr.calm f1 e1, ?_, e3, e4, fun p hp h => e5 p hp (f4 p hp h)⟩
    simp only [HThread.exec, hd, hed, onElems_eq]
    show (Exec.lift (equalRef dbg (Word.cmp eq) s n d e) >>= fun r => (k r).exec dbg sc) s = _
    rw [pure_equalP] at f2
    rw [Exec.bind_ok f2]
    exact e2
  | less n a b lt k ih =>
    obtain ⟨hl, hl', d, e, hd, hed, hh, hh', hn, hn', hR, hR', hk⟩ := hu
    have hc : ∀ W, Confined P.reads W (lessP dbg (Word.cmp lt) n d e : Prog (Word T) Bool) := by
      intro W
      refine confined_lessP dbg _ _ _ n d e hh.wellShaped hh'.wellShaped hn hn' ?_
      rintro p (hp | hp)
      · obtain ⟨idx, hi, rfl⟩ := (mem_addrs _ _).mp hp
        exact hR idx hi
      · obtain ⟨idx, hi, rfl⟩ := (mem_addrs _ _).mp hp
        exact hR' idx hi
    obtain ⟨u, m1, s1, f1, f2, f3, f4⟩ := padded_step hr he (pads_less lt _ hd hed hl hl') (hc _) (typed_of_reads (hc _))
    obtain ⟨sc', m', s', e1, e2, e3, e4, e5⟩ := ih u f3 (f4.elems he) (hk u)
    refine ⟨sc', m', s', Does.bind hr.calm f1 e1, ?_, e3, e4, fun p hp h => e5 p hp (f4 p hp h)⟩
    simp only [HThread.exec, hd, hed, onElems_eq]
    show (Exec.lift (lessRef dbg (Word.cmp lt) s n d e) >>= fun r => (k r).exec dbg sc) s = _
    rw [pure_lessP] at f2
    rw [Exec.bind_ok f2]
    exact e2

/-- Legality depends only on the objects the thread may use. -/
theorem uses_congr {P : Print} (t : HThread T) {sc sc' : Scope} (h : ∀ x, P.looks x ∨ P.changes x → sc' x = sc x) (hu : t.Uses P sc) : t.Uses P sc' := by
  have hdesc : ∀ {sc sc' : Scope} {r : HRef}, (∀ x, P.looks x ∨ P.changes x → sc' x = sc x) → P.looks r.home → r.desc sc' = r.desc sc := by
    intro sc sc' r h hl
    cases r with
    | obj x => simp only [HRef.desc]; rw [h x (.inl hl)]
    | sub s => simp only [HRef.desc, SubObj.desc]; rw [h s.owner (.inl hl)]
  have hset : ∀ {sc sc' : Scope} {x : Nat} {o : Option Obj}, (∀ x, P.looks x ∨ P.changes x → sc' x = sc x) → ∀ y, P.looks y ∨ P.changes y → (sc'.set x o) y = (sc.set x o) y := by
    intro sc sc' x o h y hy
    unfold Scope.set
    split
    · rfl
    · exact h y hy
  induction t generalizing sc sc' with
  | done => trivial
  | read o idx k ih =>
    obtain ⟨hl, d, hd, hh, hin, hR, hk⟩ := hu
    exact ⟨hl, d, by rw [hdesc h hl]; exact hd, hh, hin, hR, fun v => ih v h (hk v)⟩
  | write o idx v k ih =>
    obtain ⟨hl, d, hd, hh, hin, hR, hk⟩ := hu
    exact ⟨hl, d, by rw [hdesc h hl]; exact hd, hh, hin, hR, ih h hk⟩
  | bracket o i k ih =>
    obtain ⟨hl, d, r, hd, hacc, hk⟩ := hu
    exact ⟨hl, d, r, by rw [hdesc h hl]; exact hd, hacc, ih _ h hk⟩
  | change x ty op k ih =>
    obtain ⟨hc, o, o', hx, ht, ha, hk⟩ := hu
    exact ⟨hc, o, o', by rw [h x (.inr hc)]; exact hx, ht, ha, ih (hset h) hk⟩
  | slice o g y k ih =>
    obtain ⟨hl, hc, d, v, u, hd, hv, hy, hk⟩ := hu
    exact ⟨hl, hc, d, v, u, by rw [hdesc h hl]; exact hd, hv, by rw [h y (.inr hc)]; exact hy, ih (hset h) hk⟩
  | assign n dst src k ih =>
    obtain ⟨hl, hl', d, sd, hd, hsd, h1, h2, h3, h4, h5, h6, hk⟩ := hu
    exact ⟨hl, hl', d, sd, by rw [hdesc h hl]; exact hd, by rw [hdesc h hl']; exact hsd, h1, h2, h3, h4, h5, h6, ih h hk⟩
  | copyArray n src dst k ih =>
    obtain ⟨hl, hl', d, sd, hd, hsd, h1, h2, h3, h4, h5, h6, hk⟩ := hu
    exact ⟨hl, hl', d, sd, by rw [hdesc h hl]; exact hd, by rw [hdesc h hl']; exact hsd, h1, h2, h3, h4, h5, h6, ih h hk⟩
  | forEach n o f k ih =>
    obtain ⟨hl, d, hd, hh, hn, hRW, hk⟩ := hu
    exact ⟨hl, d, by rw [hdesc h hl]; exact hd, hh, hn, hRW, ih h hk⟩
  | equal n a b eq k ih =>
    obtain ⟨hl, hl', d, sd, hd, hsd, h1, h2, h3, h4, h5, h6, hk⟩ := hu
    exact ⟨hl, hl', d, sd, by rw [hdesc h hl]; exact hd, by rw [hdesc h hl']; exact hsd, h1, h2, h3, h4, h5, h6, fun r => ih r h (hk r)⟩
  | less n a b lt k ih =>
    obtain ⟨hl, hl', d, sd, hd, hsd, h1, h2, h3, h4, h5, h6, hk⟩ := hu
    exact ⟨hl, hl', d, sd, by rw [hdesc h hl]; exact hd, by rw [hdesc h hl']; exact hsd, h1, h2, h3, h4, h5, h6, fun r => ih r h (hk r)⟩

end MultiArray
