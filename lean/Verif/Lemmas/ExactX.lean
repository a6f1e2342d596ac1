import Verif.Lemmas.ProgThrow
import Verif.Props.Work
import Verif.SpecExactX

/- Exactly which commands throw, and what they leave: lemmas for C103. -/
set_option autoImplicit false

namespace MultiArray
open Spec Props
variable {T : Type}

theorem firstThrow_eq_none {n : Nat} {l : List (Option T)} (h : ∀ i, i < n → ¬ ∃ junk, l[i]? = some (some junk)) : firstThrow n l = none := by
  induction n generalizing l with
  | zero => rfl
  | succ n ih =>
    cases l with
    | nil => rfl
    | cons f fs =>
      cases f with
      | some junk => exact absurd ⟨junk, rfl⟩ (h 0 (by omega))
      | none =>
        simp only [firstThrow]
        rw [ih (fun i hi => by simpa using h (i + 1) (by omega))]
        rfl

theorem firstThrow_eq_some {n j : Nat} {junk : T} {l : List (Option T)} (hj : j < n) (h : ∀ i, i < j → ¬ ∃ junk, l[i]? = some (some junk))
    (hl : l[j]? = some (some junk)) : firstThrow n l = some (j, junk) := by
  induction n generalizing l j with
  | zero => omega
  | succ n ih =>
    cases l with
    | nil => simp at hl
    | cons f fs =>
      cases f with
      | some junk' =>
        cases j with
        | zero => simp only [List.getElem?_cons_zero, Option.some.injEq] at hl; rw [← hl]; rfl
        | succ j => exact absurd ⟨junk', rfl⟩ (h 0 (by omega))
      | none =>
        cases j with
        | zero => simp at hl
        | succ j =>
          simp only [firstThrow]
          rw [ih (j := j) (by omega) (fun i hi => by simpa using h (i + 1) (by omega)) (by simpa using hl)]
          rfl

theorem firstThrow_lt {n j : Nat} {junk : T} {l : List (Option T)} (h : firstThrow n l = some (j, junk)) : j < n := by
  induction n generalizing l j junk with
  | zero => cases h
  | succ n ih =>
    cases l with
    | nil => cases h
    | cons f fs =>
      cases f with
      | some junk' => cases h; omega
      | none =>
        simp only [firstThrow, Option.map_eq_some_iff, Prod.exists, Prod.mk.injEq] at h
        obtain ⟨i, z, h1, h2, _⟩ := h
        have := ih h1
        omega

theorem firstThrow_zero (l : List (Option T)) : firstThrow 0 l = none := rfl

/-- What is known about a computation that takes `n` operations. -/
theorem takes_ok {α : Type} {n : Nat} {s s' : St T} {a : α} {e : Out T α} (h : e.takes n s) (he : e = .ok a s') :
    firstThrow n s.sched = none ∧ s'.sched = s.sched.drop n := by
  subst he; exact ⟨firstThrow_eq_none h.1, h.2⟩

theorem takes_throw {α : Type} {n : Nat} {s s' : St T} {e : Out T α} (h : e.takes n s) (he : e = .throw s') :
    ∃ j junk, firstThrow n s.sched = some (j, junk) ∧ s'.sched = s.sched.drop (j + 1) := by
  subst he
  obtain ⟨j, h1, h2, ⟨junk, h3⟩, h4⟩ := h
  exact ⟨j, junk, firstThrow_eq_some h1 h2 h3, h4⟩

/-- A computation of `n` operations that completes if none of them throws, and otherwise throws at the first that does, leaving the state `stop` says. -/
def Fires (L : List Nat) (o : Nat → Option MArr) (s : St T) (e : Exec T Unit) (n : Nat) (stop : Nat → T → Option (AState T)) : Prop :=
  (firstThrow n s.sched = none ∧ ∃ s', e s = .ok () s' ∧ s'.sched = s.sched.drop n) ∨
  (∃ j junk s' t' A', firstThrow n s.sched = some (j, junk) ∧ e s = .throw s' ∧ s'.sched = s.sched.drop (j + 1) ∧ stop j junk = some A' ∧
    Calm L s' t' ∧ (⟨o, t'⟩ : World T).Rep A')

/-- One element assignment. -/
theorem put_f {L : List Nat} {o : Nat → Option MArr} {s t : St T} {A : AState T} (hc : Calm L s t) (hr : (⟨o, t⟩ : World T).Rep A) {x : Nat} {a : MArr}
    (hx : o x = some a) {idx : List Int} (hin : InBox a.ref.bases a.ref.extents idx) (v : T) :
    ((∀ junk fs, s.sched ≠ some junk :: fs) ∧ ∃ s1 t1 A1, assignCell (address a.ref.desc idx) v s = .ok () s1 ∧ s1.sched = s.sched.tail ∧ A.put x idx v = some A1 ∧
      Calm L s1 t1 ∧ (⟨o, t1⟩ : World T).Rep A1) ∨
    (∃ junk fs s1 t1 A1, s.sched = some junk :: fs ∧ assignCell (address a.ref.desc idx) v s = .throw s1 ∧ s1.sched = fs ∧ A.put x idx junk = some A1 ∧
      Calm L s1 t1 ∧ (⟨o, t1⟩ : World T).Rep A1) := by
  obtain ⟨u, g1, _⟩ := hr.get hx hin
  have g2 := hc.get g1
  have hp := hc.blk (get?_heap g1)
  have key : ∀ (z : T) (fs : List (Option T)), ∃ t1 A1, A.put x idx z = some A1 ∧
      Calm L ({ s with sched := fs }.setCell (address a.ref.desc idx) (.obj z)) t1 ∧ (⟨o, t1⟩ : World T).Rep A1 := by
    intro z fs
    obtain ⟨t1, A1, p1, p2, p3⟩ := hr.put hx hin z
    refine ⟨t1, A1, p2, ?_, p3⟩
    have : t1 = t.setCell (address a.ref.desc idx) (.obj z) := by
      unfold assignCell at p1
      rw [g1, hr.sched] at p1
      cases p1; rfl
    rw [this]
    exact hc.setCell hp _ fs
  cases hs : s.sched with
  | nil =>
    obtain ⟨t1, A1, k1, k2, k3⟩ := key v s.sched
    have e : assignCell (address a.ref.desc idx) v s = .ok () (s.setCell (address a.ref.desc idx) (.obj v)) := by
      unfold assignCell; rw [g2, hs]
    exact .inl ⟨by simp, _, t1, A1, e, by rw [setCell_sched, hs]; rfl, k1, k2, k3⟩
  | cons f fs =>
    cases f with
    | none =>
      obtain ⟨t1, A1, k1, k2, k3⟩ := key v fs
      exact .inl ⟨by simp, _, t1, A1, by unfold assignCell; rw [g2, hs], by rw [setCell_sched]; rfl, k1, k2, k3⟩
    | some junk =>
      obtain ⟨t1, A1, k1, k2, k3⟩ := key junk fs
      exact .inr ⟨junk, fs, _, t1, A1, rfl, by unfold assignCell; rw [g2, hs], by rw [setCell_sched], k1, k2, k3⟩

theorem firstThrow_pass {n : Nat} {l : List (Option T)} (h : ∀ junk fs, l ≠ some junk :: fs) :
    firstThrow (n + 1) l = (firstThrow n l.tail).map (fun r => (r.1 + 1, r.2)) := by
  cases l with
  | nil => cases n <;> rfl
  | cons f fs =>
    cases f with
    | none => rfl
    | some junk => exact absurd rfl (h junk fs)

theorem drop_tail {α : Type} (l : List α) (n : Nat) : l.tail.drop n = l.drop (n + 1) := by
  cases l <;> simp

theorem cell_f {L : List Nat} {o : Nat → Option MArr} {s t : St T} {A : AState T} (hc : Calm L s t) (hr : (⟨o, t⟩ : World T).Rep A) {x : Nat} {a : MArr}
    (hx : o x = some a) {idx : List Int} (hin : InBox a.ref.bases a.ref.extents idx) (v : T) :
    Fires L o s (assignCell (address a.ref.desc idx) v) 1 (fun _ junk => A.put x idx junk) := by
  rcases put_f hc hr hx hin v with ⟨h0, s1, t1, A1, p1, p2, p3, p4, p5⟩ | ⟨junk, fs, s1, t1, A1, h0, p1, p2, p3, p4, p5⟩
  · exact .inl ⟨by rw [firstThrow_pass h0]; rfl, s1, p1, by rw [p2, List.drop_one]⟩
  · exact .inr ⟨0, junk, s1, t1, A1, by rw [h0]; rfl, p1, by rw [p2, h0]; rfl, p3, p4, p5⟩

/-- A sequence of assignments: the first, then the rest. -/
theorem fires_cons {L : List Nat} {o : Nat → Option MArr} {s s1 : St T} {e e1 : Exec T Unit} {n : Nat}
    {stop stop1 : Nat → T → Option (AState T)} (h0 : ∀ junk fs, s.sched ≠ some junk :: fs) (h1 : e s = e1 s1) (h2 : s1.sched = s.sched.tail)
    (h3 : ∀ j junk, stop (j + 1) junk = stop1 j junk) (h : Fires L o s1 e1 n stop1) : Fires L o s e (n + 1) stop := by
  unfold Fires
  rw [firstThrow_pass h0, h1]
  rcases h with ⟨g1, s', g2, g3⟩ | ⟨j, junk, s', t', A', g1, g2, g3, g4, g5, g6⟩
  · rw [h2] at g1 g3
    exact .inl ⟨by rw [g1]; rfl, s', g2, by rw [g3, drop_tail]⟩
  · rw [h2] at g1 g3
    exact .inr ⟨j + 1, junk, s', t', A', by rw [g1]; rfl, g2, by rw [g3, drop_tail], by rw [h3, g4], g5, g6⟩

theorem fires_throw {L : List Nat} {o : Nat → Option MArr} {s s1 t1 : St T} {A1 : AState T} {e : Exec T Unit} {n : Nat} {stop : Nat → T → Option (AState T)}
    {junk : T} {fs : List (Option T)} (h0 : s.sched = some junk :: fs) (h1 : e s = .throw s1) (h2 : s1.sched = fs) (h3 : stop 0 junk = some A1) (h4 : Calm L s1 t1)
    (h5 : (⟨o, t1⟩ : World T).Rep A1) : Fires L o s e (n + 1) stop :=
  .inr ⟨0, junk, s1, t1, A1, by rw [h0]; rfl, h1, by rw [h2, h0]; rfl, h3, h4, h5⟩

theorem copy_f {L : List Nat} {o : Nat → Option MArr} {s t : St T} {A : AState T} (hc : Calm L s t) (h : (⟨o, t⟩ : World T).Rep A) {x y : Nat} {a a' : MArr}
    (hx : o x = some a) (hy : o y = some a') {d d' : Desc} {p q : APart} (hp : PartOf a.ref d p) (hq : PartOf a'.ref d' q)
    (hwd : d.bases.length = d.extents.length) (hwd' : d'.bases.length = d'.extents.length) (he : p.extents = q.extents) (ks : List (List Nat))
    (hks : ∀ k ∈ ks, InShape p.extents k) :
    Fires L o s (copySeq (ks.map (fun k => (address d' (atPos d'.bases k), address d (atPos d.bases k))))) ks.length (fun j junk =>
      (AState.copy x p y q (ks.take j) A).bind (fun A1 => ks[j]?.bind (fun k => A1.put x (p.root (atPos p.bases k)) junk))) := by
  induction ks generalizing s t A with
  | nil => exact .inl ⟨rfl, s, rfl, rfl⟩
  | cons k ks ih =>
    have hk := hks k (by simp)
    have hin : InBox p.bases p.extents (atPos p.bases k) := by
      rw [← hp.bases]; exact inBox_atPos (by rw [hwd, hp.extents]) hk
    have hin' : InBox q.bases q.extents (atPos q.bases k) := by
      rw [← hq.bases]; exact inBox_atPos (by rw [hwd', hq.extents]) (by rw [← he]; exact hk)
    obtain ⟨r1, r2⟩ := hp.root _ hin
    obtain ⟨r1', r2'⟩ := hq.root _ hin'
    obtain ⟨v, g1, g2⟩ := h.get hy r1'
    have hload : load (address d' (atPos d'.bases k)) s = .ok v s := by
      rw [hq.bases, r2']; exact load_ok (hc.get g1)
    have hdst : address d (atPos d.bases k) = address a.ref.desc (p.root (atPos p.bases k)) := by rw [hp.bases, r2]
    rcases put_f hc h hx r1 v with ⟨h0, s1, t1, A1, p1, p2, p3, p4, p5⟩ | ⟨junk, fs, s1, t1, A1, h0, p1, p2, p3, p4, p5⟩
    · refine fires_cons h0 (s1 := s1) ?_ p2 ?_ (ih p4 p5 (fun k hk => hks k (by simp [hk])))
      · simp only [List.map_cons, copySeq]
        rw [Exec.bind_ok hload, hdst, Exec.bind_ok p1]
      · intro j junk
        simp only [List.take_succ_cons, AState.copy, AState.move, g2, Option.bind_some, p3, List.getElem?_cons_succ]
    · refine fires_throw h0 ?_ p2 (A1 := A1) ?_ p4 p5
      · simp only [List.map_cons, copySeq]
        rw [Exec.bind_ok hload, hdst, Exec.bind_throw p1]
      · simp only [List.take_zero, AState.copy, Option.bind_some, List.getElem?_cons_zero]
        exact p3

theorem map_f {L : List Nat} {o : Nat → Option MArr} {s t : St T} {A : AState T} (hc : Calm L s t) (h : (⟨o, t⟩ : World T).Rep A) {x : Nat} {a : MArr}
    (hx : o x = some a) {d : Desc} {p : APart} (hp : PartOf a.ref d p) (hwd : d.bases.length = d.extents.length) (f : T → T) (ks : List (List Nat))
    (hks : ∀ k ∈ ks, InShape p.extents k) :
    Fires L o s (mapSeq f (ks.map (fun k => address d (atPos d.bases k)))) ks.length (fun j junk =>
      (AState.map x p f (ks.take j) A).bind (fun A1 => ks[j]?.bind (fun k => A1.put x (p.root (atPos p.bases k)) junk))) := by
  induction ks generalizing s t A with
  | nil => exact .inl ⟨rfl, s, rfl, rfl⟩
  | cons k ks ih =>
    have hk := hks k (by simp)
    have hin : InBox p.bases p.extents (atPos p.bases k) := by
      rw [← hp.bases]; exact inBox_atPos (by rw [hwd, hp.extents]) hk
    obtain ⟨r1, r2⟩ := hp.root _ hin
    obtain ⟨v, g1, g2⟩ := h.get hx r1
    have hdst : address d (atPos d.bases k) = address a.ref.desc (p.root (atPos p.bases k)) := by rw [hp.bases, r2]
    rcases put_f hc h hx r1 (f v) with ⟨h0, s1, t1, A1, p1, p2, p3, p4, p5⟩ | ⟨junk, fs, s1, t1, A1, h0, p1, p2, p3, p4, p5⟩
    · refine fires_cons h0 (s1 := s1) ?_ p2 ?_ (ih p4 p5 (fun k hk => hks k (by simp [hk])))
      · simp only [List.map_cons, mapSeq]
        rw [hdst, Exec.bind_ok (load_ok (hc.get g1)), Exec.bind_ok p1]
      · intro j junk
        simp only [List.take_succ_cons, AState.map, g2, Option.bind_some, p3, List.getElem?_cons_succ]
    · refine fires_throw h0 ?_ p2 (A1 := A1) ?_ p4 p5
      · simp only [List.map_cons, mapSeq]
        rw [hdst, Exec.bind_ok (load_ok (hc.get g1)), Exec.bind_throw p1]
      · simp only [List.take_zero, AState.map, Option.bind_some, List.getElem?_cons_zero]
        exact p3

theorem positions_length (es : List Nat) : (positions es).length = es.prod := by
  have := congrArg List.length (C64_positions es).2
  simpa using this

/-- Assignment and `copy_array` between parts. -/
theorem parts_f {L : List Nat} {o : Nat → Option MArr} {s t : St T} {A : AState T} (hc : Calm L s t) (h : (⟨o, t⟩ : World T).Rep A) (dbg : Bool) {x y : Nat}
    {a a' : MArr} (hx : o x = some a) (hy : o y = some a') {d d' : Desc} {p q : APart} (hp : PartOf a.ref d p) (hq : PartOf a'.ref d' q)
    (hw : WellShaped d) (hw' : WellShaped d') (he : p.extents = q.extents) :
    Fires L o s (assignRef dbg d.extents.length d d') p.extents.prod (fun j junk => A.copyStopped x p y q j junk) ∧
    Fires L o s (copyArray dbg d' d) p.extents.prod (fun j junk => A.copyStopped x p y q j junk) := by
  have hde : d'.extents = d.extents := by rw [hp.extents, hq.extents, he]
  have key := copy_f hc h hx hy hp hq hw.2 hw'.2 he (positions p.extents) (fun k hk => mem_positions_shape hk)
  have hpos : (positions p.extents).map (fun k => (address d' (atPos d'.bases k), address d (atPos d.bases k))) = copyPairs d' d := by
    rw [positions_eq, ← hp.extents, ← copyPairs_eq_map d' d hw' hw hde]
  rw [hpos, positions_length] at key
  constructor
  · rw [assignRef_eq dbg _ _ hw hw' hde]; exact key
  · unfold copyArray
    rw [decide_eq_true hde, assertE_true, pure_bind, copyDispatch_eq dbg _ _ hw hw' hde]; exact key

theorem forEach_f {L : List Nat} {o : Nat → Option MArr} {s t : St T} {A : AState T} (hc : Calm L s t) (h : (⟨o, t⟩ : World T).Rep A) (dbg : Bool) {x : Nat}
    {a : MArr} (hx : o x = some a) {d : Desc} {p : APart} (hp : PartOf a.ref d p) (hw : WellShaped d) (f : T → T) :
    Fires L o s (MultiArray.forEach dbg f d.extents.length d) p.extents.prod (fun j junk => A.mapStopped x p f j junk) := by
  have key := map_f hc h hx hp hw.2 f (positions p.extents) (fun k hk => mem_positions_shape hk)
  have hpos : (positions p.extents).map (fun k => address d (atPos d.bases k)) = addrs d := by
    rw [positions_eq, ← hp.extents, ← addrs_eq_map d hw]
  rw [hpos, positions_length] at key
  rw [forEach_eq dbg f d hw]
  exact key

theorem assignLoop_f {L : List Nat} {s t : St T} (hc : Calm L s t) (n : Nat) (p : Ptr) (input : List T)
    (hl : ∀ k : Nat, k < n → ∃ v, t.get? (p.add (k : Int)) = some v) :
    (firstThrow (min n input.length) s.sched = none ∧ ∃ s', assignLoop n p input s = .ok () s' ∧ s'.sched = s.sched.drop (min n input.length)) ∨
    (∃ s' t' j junk, firstThrow (min n input.length) s.sched = some (j, junk) ∧ assignLoop n p input s = .throw s' ∧ s'.sched = s.sched.drop (j + 1) ∧
      assignLoop n p (input.take j ++ [junk]) t = .ok () t' ∧ Calm L s' t') := by
  induction n generalizing p input s t with
  | zero => exact .inl ⟨by rw [Nat.zero_min]; rfl, s, rfl, by rw [Nat.zero_min]; rfl⟩
  | succ n ih =>
    cases input with
    | nil => exact .inl ⟨rfl, s, rfl, rfl⟩
    | cons v vs =>
      obtain ⟨u, g1⟩ := hl 0 (by omega)
      have g1 : t.get? p = some u := by simpa [Ptr.add] using g1
      have g2 := hc.get g1
      have hp := hc.blk (get?_heap g1)
      have hta : ∀ z, assignCell p z t = .ok () (t.setCell p (.obj z)) := by
        intro z; unfold assignCell; rw [g1, hc.sched]
      have hmin : min (n + 1) (v :: vs).length = min n vs.length + 1 := by simp only [List.length_cons]; omega
      rw [hmin]
      have hok : ∀ fs, (∀ junk gs, s.sched ≠ some junk :: gs) → fs = s.sched.tail → assignCell p v s = .ok () ({ s with sched := fs }.setCell p (.obj v)) →
          (firstThrow (min n vs.length + 1) s.sched = none ∧ ∃ s', assignLoop (n + 1) p (v :: vs) s = .ok () s' ∧ s'.sched = s.sched.drop (min n vs.length + 1)) ∨
          (∃ s' t' j junk, firstThrow (min n vs.length + 1) s.sched = some (j, junk) ∧ assignLoop (n + 1) p (v :: vs) s = .throw s' ∧ s'.sched = s.sched.drop (j + 1) ∧
            assignLoop (n + 1) p ((v :: vs).take j ++ [junk]) t = .ok () t' ∧ Calm L s' t') := by
        intro fs h0 hfs e1
        rw [firstThrow_pass h0]
        have hl' : ∀ k : Nat, k < n → ∃ w, (t.setCell p (.obj v)).get? ((p.add 1).add (k : Int)) = some w := by
          intro k hk
          obtain ⟨w, hw⟩ := hl (k + 1) (by omega)
          have he : p.add ((k + 1 : Nat) : Int) = (p.add 1).add (k : Int) := by simp [Ptr.add]; ring
          rw [he] at hw
          obtain ⟨t1, f1, f2⟩ := assignCell_updates ⟨u, g1⟩ rfl v (b := p.blk)
          rcases f1 with ⟨_, f1⟩ | ⟨f1, _⟩
          · rw [hta v] at f1; cases f1
            exact f2.live _ ⟨w, hw⟩
          · rw [hta v] at f1; cases f1
        have hsc : ({ s with sched := fs }.setCell p (.obj v)).sched = s.sched.tail := by rw [setCell_sched]; exact hfs
        rcases ih (hc.setCell hp (.obj v) fs) (p.add 1) vs hl' with ⟨i0, s', i1, i2⟩ | ⟨s', t', j, junk, i1, i2, i3, i4, i5⟩
        · rw [hsc] at i0 i2
          exact .inl ⟨by rw [i0]; rfl, s', by simp only [assignLoop]; rw [Exec.bind_ok e1]; exact i1, by rw [i2, drop_tail]⟩
        · rw [hsc] at i1 i3
          refine .inr ⟨s', t', j + 1, junk, by rw [i1]; rfl, ?_, by rw [i3, drop_tail], ?_, i5⟩
          · simp only [assignLoop]; rw [Exec.bind_ok e1]; exact i2
          · simp only [List.take_succ_cons, List.cons_append, assignLoop]
            rw [Exec.bind_ok (hta v)]; exact i4
      cases hs : s.sched with
      | nil =>
        have e : assignCell p v s = .ok () (s.setCell p (.obj v)) := by unfold assignCell; rw [g2, hs]
        rw [← hs]
        exact hok s.sched (by rw [hs]; simp) (by rw [hs]; rfl) e
      | cons f fs =>
        cases f with
        | none =>
          rw [← hs]
          exact hok fs (by rw [hs]; simp) (by rw [hs]; rfl) (by unfold assignCell; rw [g2, hs])
        | some junk =>
          refine .inr ⟨{ s with sched := fs }.setCell p (.obj junk), t.setCell p (.obj junk), 0, junk, rfl, ?_, by rw [setCell_sched]; rfl, ?_, hc.setCell hp _ fs⟩
          · simp only [assignLoop]
            exact Exec.bind_throw (by unfold assignCell; rw [g2, hs])
          · simp only [List.take_zero, List.nil_append, assignLoop]
            rw [Exec.bind_ok (hta junk)]
            cases n <;> rfl

theorem assign_f {L : List Nat} {o : Nat → Option MArr} {s t : St T} {A : AState T} (hc : Calm L s t) (hr : (⟨o, t⟩ : World T).Rep A) (dbg : Bool) (dflt : T)
    {x : Nat} {a : MArr} (hx : o x = some a) (input : List T) :
    Fires L o s (a.ref.assign input) (min (A.count x []) input.length) (fun j junk => A.stopped (.on x (.assign input)) j junk) := by
  obtain ⟨abs, hA, hrep⟩ := hr.live x a hx
  have hcount : A.count x [] = a.ref.numElems := by
    simp only [AState.count, part_whole hA]
    show abs.extents.prod = _
    rw [← hrep.extents, hrep.owns.reach.wf.num_eq, product_eq]
  rw [hcount]
  rcases assignLoop_f hc a.ref.numElems a.ref.base input hrep.owns.live with ⟨h0, s', h, h'⟩ | ⟨s', t', j, junk, h1, h2, h3, h4, h5⟩
  · exact .inl ⟨h0, s', h, h'⟩
  · have hjlt := firstThrow_lt h1
    have hlen : j < abs.vals.length := by rw [hrep.owns.len]; show j < a.ref.numElems; omega
    have hjin : j < input.length := by omega
    refine .inr ⟨j, junk, s', t', A.set x (some { abs with vals := input.take j ++ junk :: abs.vals.drop (j + 1) }), h1, h2, h3, by simp only [AState.stopped, hA, Option.map_some], h5, ?_⟩
    obtain ⟨o1, A1, w1, e1, e2, e3⟩ := step_on dbg dflt (fun _ _ => true) (fun _ _ => true) hr x (.assign (input.take j ++ [junk])) ⟨abs, hA, trivial⟩
    have hex : (⟨o, t⟩ : World T).exec dbg dflt (fun _ _ => true) (fun _ _ => true) (.on x (.assign (input.take j ++ [junk]))) =
        some (.basic .unit, ⟨o, t'⟩) := by
      have : a.ref.assign (input.take j ++ [junk]) t = .ok () t' := h4
      simp only [World.exec, hx, Option.bind_some, concStep, this, Out.val?, Option.map_some]
      rw [World.set_self (by exact hx)]
    rw [hex] at e2
    simp only [AState.step, hA, Option.bind_some, AbsArr.step, Option.map_some, Option.some.injEq, Prod.mk.injEq] at e1 e2
    obtain ⟨_, rfl⟩ := e2
    obtain ⟨_, rfl⟩ := e1
    have hv : (input.take j ++ [junk]).take abs.vals.length ++ abs.vals.drop (input.take j ++ [junk]).length = input.take j ++ junk :: abs.vals.drop (j + 1) := by
      have hl : (input.take j ++ [junk]).length = j + 1 := by simp; omega
      rw [List.take_of_length_le (by omega), hl]
      simp
    rw [hv] at e3
    exact e3

/-! ### Lost storage -/

/-- The computation gives no storage back. -/
def Grows {α : Type} (e : Exec T α) : Prop := ∀ s, match e s with
  | .ok _ s' => ∀ b, s.heap b ≠ none → s'.heap b ≠ none
  | .throw s' => ∀ b, s.heap b ≠ none → s'.heap b ≠ none
  | _ => True

section
variable {α β : Type}

theorem Grows.pure (a : α) : Grows (Pure.pure a : Exec T α) := fun _ _ h => h

theorem Grows.lift (r : Res α) : Grows (Exec.lift r : Exec T α) := by
  intro s; cases r <;> first | exact fun _ h => h | trivial

theorem Grows.bind {x : Exec T α} {f : α → Exec T β} (hx : Grows x) (hf : ∀ a, Grows (f a)) : Grows (x >>= f) := by
  intro s
  show match Exec.bind x f s with | .ok _ s' => _ | .throw s' => _ | _ => True
  unfold Exec.bind
  have h1 := hx s
  cases h : x s with
  | ok a s' =>
    rw [h] at h1
    have h2 := hf a s'
    simp only
    cases h' : f a s' with
    | ok b s'' => rw [h'] at h2; exact fun b hb => h2 b (h1 b hb)
    | throw s'' => rw [h'] at h2; exact fun b hb => h2 b (h1 b hb)
    | assertFail s'' => trivial
    | ub => trivial
  | throw s' => rw [h] at h1; exact h1
  | assertFail s' => trivial
  | ub => trivial

theorem Grows.onThrow {x : Exec T α} {c : Exec T Unit} (hx : Grows x) (hc : Grows c) : Grows (Exec.onThrow x c) := by
  intro s
  unfold Exec.onThrow
  have h1 := hx s
  cases h : x s with
  | ok a s' => rw [h] at h1; exact h1
  | throw s' =>
    rw [h] at h1
    have h2 := hc s'
    simp only
    cases h' : c s' with
    | ok a s'' => rw [h'] at h2; exact fun b hb => h2 b (h1 b hb)
    | throw s'' => rw [h'] at h2; exact fun b hb => h2 b (h1 b hb)
    | assertFail s'' => trivial
    | ub => trivial
  | assertFail s' => trivial
  | ub => trivial

theorem setCell_grows (s : St T) (p : Ptr) (c : Cell T) (b : Nat) (h : s.heap b ≠ none) : (s.setCell p c).heap b ≠ none := by
  unfold St.setCell
  cases hb : s.heap p.blk with
  | none => exact h
  | some blk =>
    simp only
    by_cases he : b = p.blk
    · simp [he]
    · simpa [he] using h

theorem Grows.load (p : Ptr) : Grows (load p : Exec T T) := by
  intro s; unfold MultiArray.load
  cases s.get? p with
  | none => trivial
  | some v => exact fun _ h => h

theorem Grows.assignCell (p : Ptr) (v : T) : Grows (assignCell p v : Exec T Unit) := by
  intro s; unfold MultiArray.assignCell
  cases s.get? p with
  | none => trivial
  | some u =>
    simp only
    cases hs : s.sched with
    | nil => exact fun b hb => setCell_grows s p _ b hb
    | cons f fs =>
      cases f with
      | none => exact fun b hb => setCell_grows { s with sched := fs } p _ b hb
      | some junk => exact fun b hb => setCell_grows { s with sched := fs } p _ b hb

theorem Grows.constructCell (dflt : T) (p : Ptr) : Grows (constructCell dflt p : Exec T Unit) := by
  intro s; unfold MultiArray.constructCell
  cases s.cell? p with
  | none => trivial
  | some c =>
    cases c with
    | obj v => trivial
    | raw =>
      simp only
      cases hs : s.sched with
      | nil => exact fun b hb => setCell_grows s p _ b hb
      | cons f fs =>
        cases f with
        | none => exact fun b hb => setCell_grows { s with sched := fs } p _ b hb
        | some junk => exact fun b hb => hb

theorem Grows.destroyN (p : Ptr) (n : Nat) : Grows (destroyN p n : Exec T Unit) := by
  induction n with
  | zero => exact Grows.pure _
  | succ n ih =>
    refine Grows.bind ?_ (fun _ => ih)
    intro s; unfold MultiArray.destroyCell
    cases s.get? (p.add n) with
    | none => trivial
    | some v => exact fun b hb => setCell_grows s _ _ b hb

theorem Grows.constructFrom (dflt : T) (p : Ptr) (n i : Nat) : Grows (constructFrom dflt p n i : Exec T Unit) := by
  induction n generalizing i with
  | zero => exact Grows.pure _
  | succ n ih => exact Grows.bind (Grows.onThrow (Grows.constructCell _ _) (Grows.destroyN _ _)) (fun _ => ih _)

theorem Grows.copyNElems (n : Nat) (p q : Ptr) : Grows (MArr.copyNElems n p q : Exec T Unit) := by
  induction n generalizing p q with
  | zero => exact Grows.pure _
  | succ n ih => exact Grows.bind (Grows.load _) fun _ => Grows.bind (Grows.assignCell _ _) fun _ => ih _ _

theorem Grows.stdCopy {body : It → It → Exec T Unit} (hb : ∀ i o, Grows (body i o)) (n : Nat) (i o : It) : Grows (stdCopy body n i o) := by
  induction n generalizing i o with
  | zero => exact Grows.pure _
  | succ n ih => exact Grows.bind (hb i o) (fun _ => ih _ _)

theorem Grows.assignRef (dbg : Bool) (n : Nat) (d d' : Desc) : Grows (assignRef dbg n d d' : Exec T Unit) := by
  induction n generalizing d d' with
  | zero => exact Grows.bind (Grows.load _) (fun _ => Grows.assignCell _ _)
  | succ n ih =>
    rw [assignRef_succ]
    exact Grows.bind (Grows.lift _) fun _ => Grows.bind (Grows.lift _) fun _ => Grows.bind (Grows.lift _) fun _ => Grows.bind (Grows.lift _) fun _ =>
      Grows.bind (Grows.lift _) fun _ => Grows.stdCopy (fun _ _ => Grows.bind (Grows.lift _) fun _ => Grows.bind (Grows.lift _) fun _ => ih _ _) _ _ _

/-- The computation begins with an allocation; once that has succeeded the block stays. -/
def AllocFirst (e : Exec T α) : Prop := ∀ s, match e s with
  | .ok _ s' => s'.heap s.next ≠ none
  | .throw s' => ((∃ junk fs, s.sched = some junk :: fs) → s'.heap = s.heap) ∧ ((∀ junk fs, s.sched ≠ some junk :: fs) → s'.heap s.next ≠ none)
  | _ => True

theorem AllocFirst.bind {x : Exec T α} {f : α → Exec T β} (hx : AllocFirst x) (hok : ∀ s a s', x s = .ok a s' → ∀ junk fs, s.sched ≠ some junk :: fs)
    (hf : ∀ a, Grows (f a)) : AllocFirst (x >>= f) := by
  intro s
  show match Exec.bind x f s with | .ok _ s' => _ | .throw s' => _ | _ => True
  unfold Exec.bind
  have h1 := hx s
  cases h : x s with
  | ok a s' =>
    rw [h] at h1
    have h2 := hf a s'
    simp only
    cases h' : f a s' with
    | ok b s'' => rw [h'] at h2; exact h2 _ h1
    | throw s'' =>
      rw [h'] at h2
      exact ⟨fun ⟨junk, fs, he⟩ => absurd he (hok s a s' h junk fs), fun _ => h2 _ h1⟩
    | assertFail s'' => trivial
    | ub => trivial
  | throw s' => rw [h] at h1; exact h1
  | assertFail s' => trivial
  | ub => trivial

theorem AllocFirst.liftBind {r : Res α} {f : α → Exec T β} (hf : ∀ a, AllocFirst (f a)) : AllocFirst (Exec.lift r >>= f) := by
  intro s
  cases r with
  | ok a => exact hf a s
  | assertFail => trivial
  | ub => trivial

theorem AllocFirst.allocate (al n : Nat) : AllocFirst (allocate al n : Exec T Ptr) := by
  intro s; unfold MultiArray.allocate
  cases hs : s.sched with
  | nil => simp
  | cons f fs =>
    cases f with
    | none => simp
    | some junk => simp

theorem takes_no_throw {α : Type} {n : Nat} {s s' : St T} {a : α} {x : Exec T α} (h : Takes (1 + n) x) (hx : x s = .ok a s') :
    ∀ junk fs, s.sched ≠ some junk :: fs := by
  intro junk fs he
  have := h s
  rw [hx] at this
  exact this.1 0 (by omega) ⟨junk, by rw [he]; rfl⟩

theorem AllocFirst.allocateSpace (dflt : T) (ref : ARef) (al : Nat) : AllocFirst (MArr.allocateSpace dflt ref al) :=
  (AllocFirst.allocate _ _).bind (fun _ _ _ h => takes_no_throw (n := 0) (Takes.allocate _ _) h) fun _ => Grows.bind (Grows.constructFrom _ _ _ _) fun _ => Grows.pure _

theorem AllocFirst.ctor (dbg : Bool) (dflt : T) (c : Ctor) : AllocFirst (c.run dbg dflt) := by
  cases c with
  | default n al => exact AllocFirst.liftBind fun _ => AllocFirst.allocateSpace _ _ _
  | extents n es so al => exact AllocFirst.liftBind fun _ => AllocFirst.allocateSpace _ _ _
  | gen n rs so al => exact AllocFirst.liftBind fun _ => AllocFirst.allocateSpace _ _ _
  | copy n a => exact (AllocFirst.allocateSpace _ _ _).bind (fun _ _ _ h => takes_no_throw (Takes.allocateSpace _ _ _) h) fun _ => Grows.bind (Grows.copyNElems _ _ _) fun _ => Grows.pure _
  | convert n d so al =>
    exact AllocFirst.liftBind fun _ => (AllocFirst.allocateSpace _ _ _).bind (fun _ _ _ h => takes_no_throw (Takes.allocateSpace _ _ _) h) fun _ =>
      Grows.bind (Grows.lift _) fun _ => Grows.bind (Grows.lift _) fun _ => Grows.bind (Grows.lift _) fun _ =>
        Grows.bind (Grows.stdCopy (fun _ _ => Grows.bind (Grows.lift _) fun _ => Grows.bind (Grows.lift _) fun _ => Grows.assignRef _ _ _ _) _ _ _) fun _ => Grows.pure _

end

/-- What an interrupted allocation leaves. -/
def Lost (s s' : St T) (n : Nat) : Prop := (n = 0 ∧ s'.heap s.next = none) ∨ (n = 1 ∧ s'.heap s.next ≠ none)

theorem alloc_lost {L : List Nat} {o : Nat → Option MArr} {s s' t : St T} {A : AState T} (hc : Calm L s t) (hr : (⟨o, t⟩ : World T).Rep A)
    (hse : SameExcept s.next s s') (hsane : SaneHeap s') {n : Nat} (hn : Lost s s' n) :
    ∃ L' t', L'.length = L.length + n ∧ (L.Nodup → L'.Nodup) ∧ Calm L' s' t' ∧ (⟨o, t'⟩ : World T).Rep A := by
  have hts := hr.valid.sane
  have hnew : t.heap s.next = none := hts.2 _ (by show t.next ≤ _; rw [hc.next])
  have hnL : s.next ∉ L := fun hm => by have := (hc.leaked _ hm).2.2; omega
  have hL : ∀ b ∈ L, t.heap b = none ∧ s'.heap b ≠ none ∧ b < s'.next := by
    intro b hb
    obtain ⟨e1, e2, e3⟩ := hc.leaked b hb
    have he : s'.heap b ≠ none := by rw [hse b (by omega)]; exact e2
    refine ⟨e1, he, ?_⟩
    by_contra hn
    exact he (hsane.2 b (by omega))
  have ht' : SaneHeap ({ t with next := s'.next } : St T) := by
    refine ⟨hsane.1, fun b hb => ?_⟩
    show t.heap b = none
    by_cases hbL : b ∈ L
    · exact (hc.leaked b hbL).1
    · by_cases hbn : b = s.next
      · rw [hbn]; exact hnew
      · rw [hc.same b hbL, ← hse b hbn]
        exact hsane.2 b hb
  have hrep := hr.reheap (t' := { t with next := s'.next }) rfl ht' hr.sched
  rcases hn with ⟨rfl, hnone⟩ | ⟨rfl, hnone⟩
  · refine ⟨L, { t with next := s'.next }, rfl, id, ⟨hr.sched, rfl, hL, fun b hb => ?_⟩, hrep⟩
    show t.heap b = s'.heap b
    by_cases hbn : b = s.next
    · rw [hbn, hnew, hnone]
    · rw [hse b hbn]; exact hc.same b hb
  · refine ⟨s.next :: L, { t with next := s'.next }, rfl, fun h => List.nodup_cons.mpr ⟨hnL, h⟩, ⟨hr.sched, rfl, fun b hb => ?_, fun b hb => ?_⟩, hrep⟩
    · rcases List.mem_cons.mp hb with rfl | hb
      · refine ⟨hnew, hnone, ?_⟩
        by_contra hn
        exact hnone (hsane.2 _ (by omega))
      · exact hL b hb
    · rw [List.mem_cons, not_or] at hb
      show t.heap b = s'.heap b
      rw [hse b hb.1]; exact hc.same b hb.2

/-- What a command that may throw does, exactly. -/
def Exactly (L : List Nat) (w : World T) (A : AState T) (c : Cmd T) (r : Result T) : Prop :=
  (firstThrow (c.cost A) w.st.sched = none ∧ ∃ w', r = .ok w' ∧ w'.st.sched = w.st.sched.drop (c.cost A)) ∨
  (∃ j junk w' L' A', firstThrow (c.cost A) w.st.sched = some (j, junk) ∧ r = .threw w' ∧ w'.st.sched = w.st.sched.drop (j + 1) ∧ A.stopped c j junk = some A' ∧
    InvX L' w' A' ∧ (L.Nodup → L'.Nodup) ∧ L'.length = L.length + c.lost j)

theorem exactly_mem {L : List Nat} {w : World T} {A : AState T} {c : Cmd T} {e : Exec T Unit} {n : Nat} {stop : Nat → T → Option (AState T)}
    (h : Fires L w.objs w.st e n stop) (hn : c.cost A = n) (hs : ∀ j junk, A.stopped c j junk = stop j junk) (hl : ∀ j, c.lost j = 0) : Exactly L w A c (w.mem e) := by
  subst hn
  rcases h with ⟨h0, s', h1, h2⟩ | ⟨j, junk, s', t', A', h0, h1, h2, h3, h4, h5⟩
  · exact .inl ⟨h0, { w with st := s' }, by unfold World.mem; rw [h1], h2⟩
  · exact .inr ⟨j, junk, { w with st := s' }, L, A', h0, by unfold World.mem; rw [h1], h2, by rw [hs, h3], ⟨t', h4, h5⟩, id, by rw [hl]; rfl⟩

theorem exactly_alloc {L : List Nat} {w : World T} {t : St T} {A : AState T} {c : Cmd T} {r : Result T} (hc : Calm L w.st t)
    (hr : (⟨w.objs, t⟩ : World T).Rep A) (hs : ∀ j junk, A.stopped c j junk = some A)
    (h : (firstThrow (c.cost A) w.st.sched = none ∧ ∃ w', r = .ok w' ∧ w'.st.sched = w.st.sched.drop (c.cost A)) ∨
      (∃ j junk s', firstThrow (c.cost A) w.st.sched = some (j, junk) ∧ r = .threw { w with st := s' } ∧ s'.sched = w.st.sched.drop (j + 1) ∧
        SameExcept w.st.next w.st s' ∧ SaneHeap s' ∧ Lost w.st s' (c.lost j))) : Exactly L w A c r := by
  rcases h with h | ⟨j, junk, s', h0, h1, h2, h3, h4, h5⟩
  · exact .inl h
  · obtain ⟨L', t', e1, e2, e3, e4⟩ := alloc_lost hc hr h3 h4 h5
    exact .inr ⟨j, junk, _, L', A, h0, h1, h2, hs j junk, ⟨t', e3, e4⟩, e2, e1⟩

theorem firstThrow_zero_iff {n j : Nat} {junk : T} {l : List (Option T)} (h : firstThrow n l = some (j, junk)) :
    (j = 0 → ∃ junk fs, l = some junk :: fs) ∧ (0 < j → ∀ junk fs, l ≠ some junk :: fs) := by
  cases n with
  | zero => cases h
  | succ n =>
    cases l with
    | nil => cases h
    | cons f fs =>
      cases f with
      | some junk' => cases h; exact ⟨fun _ => ⟨_, _, rfl⟩, fun h => by omega⟩
      | none =>
        simp only [firstThrow, Option.map_eq_some_iff, Prod.exists, Prod.mk.injEq] at h
        obtain ⟨i, z, _, h2, _⟩ := h
        exact ⟨fun h => by omega, fun _ _ _ he => by cases he⟩

/-- A constructor. -/
theorem ctor_f (dbg : Bool) (dflt : T) {w : World T} (hw : w.Valid) {x : Nat} {i : Init} {c : Ctor} (hc : i.ctor w.objs = some c) (hleg : c.Legal w.st) :
    (firstThrow (1 + c.elements + c.copies) w.st.sched = none ∧ ∃ w', w.step dbg dflt (.construct x i) = .ok w' ∧
      w'.st.sched = w.st.sched.drop (1 + c.elements + c.copies)) ∨
    (∃ j junk s', firstThrow (1 + c.elements + c.copies) w.st.sched = some (j, junk) ∧ w.step dbg dflt (.construct x i) = .threw { w with st := s' } ∧
      s'.sched = w.st.sched.drop (j + 1) ∧ SameExcept w.st.next w.st s' ∧ SaneHeap s' ∧ Lost w.st s' (if 0 < j then 1 else 0)) := by
  obtain ⟨hp, _⟩ := C81_construction dbg dflt hw.sane c hleg
  have hp : (c.run dbg dflt w.st).takes (1 + c.elements + c.copies) w.st := by
    cases hr : c.run dbg dflt w.st with
    | ok a s' => rw [hr] at hp; exact hp
    | throw s' => rw [hr] at hp; exact hp
    | assertFail s' => trivial
    | ub => trivial
  obtain ⟨s', h1, h2, h3, _⟩ := ctor_any dbg dflt hw.sane c hleg
  rcases h1 with ⟨m, h1, _⟩ | ⟨h1, _⟩
  · obtain ⟨e1, e2⟩ := takes_ok hp h1
    exact .inl ⟨e1, w.set x (some m) s', by simp only [World.step, hc, h1], e2⟩
  · obtain ⟨j, junk, e1, e2⟩ := takes_throw hp h1
    have ha := AllocFirst.ctor dbg dflt c w.st
    rw [h1] at ha
    obtain ⟨z1, z2⟩ := firstThrow_zero_iff e1
    refine .inr ⟨j, junk, s', e1, by simp only [World.step, hc, h1], e2, h2, h3, ?_⟩
    by_cases hj : 0 < j
    · exact .inr ⟨by rw [if_pos hj], ha.2 (z2 hj)⟩
    · refine .inl ⟨by rw [if_neg hj], ?_⟩
      rw [ha.1 (z1 (by omega))]
      exact hw.sane.2 _ (Nat.le_refl _)

theorem firstThrow_cons_none {n : Nat} {fs : List (Option T)} : firstThrow (n + 1) (none :: fs) = (firstThrow n fs).map (fun r => (r.1 + 1, r.2)) := rfl

theorem noThrow_of_firstThrow {n m j : Nat} {junk : T} {l : List (Option T)} (h : firstThrow n l = some (j, junk)) (hm : m ≤ j) : NoThrow m l := by
  induction n generalizing l j junk m with
  | zero => cases h
  | succ n ih =>
    cases m with
    | zero => intro x hx; simp at hx
    | succ m =>
      cases l with
      | nil => cases h
      | cons f fs =>
        cases f with
        | some junk' => cases h; omega
        | none =>
          simp only [firstThrow, Option.map_eq_some_iff, Prod.exists, Prod.mk.injEq] at h
          obtain ⟨i, z, h1, h2, _⟩ := h
          have := ih h1 (m := m) (by omega)
          intro x hx
          rw [List.take_succ_cons, List.mem_cons] at hx
          rcases hx with rfl | hx
          · rfl
          · exact this x hx

theorem firstThrow_more {n m j : Nat} {junk : T} {l : List (Option T)} (h : firstThrow n l = some (j, junk)) (hm : j < m) : firstThrow m l = some (j, junk) := by
  induction n generalizing l j junk m with
  | zero => cases h
  | succ n ih =>
    cases m with
    | zero => omega
    | succ m =>
      cases l with
      | nil => cases h
      | cons f fs =>
        cases f with
        | some junk' => cases h; rfl
        | none =>
          rw [firstThrow_cons_none] at h ⊢
          simp only [Option.map_eq_some_iff, Prod.exists, Prod.mk.injEq] at h
          obtain ⟨i, z, h1, h2, rfl⟩ := h
          rw [ih h1 (m := m) (by omega), ← h2]
          rfl

/-- `resize`. -/
theorem resizeRun_f (dbg : Bool) (dflt : T) {n : Nat} {s : St T} {a : MArr} {vs : List T} (ho : OwnsVals s n a vs) (hs : SaneHeap s)
    (hrep : Representable a.ref.bases a.ref.extents) {rs : List ExtentRange} (hl : rs.length = n) (hleg : LegalExtents rs) {N : Nat}
    (hN : N = 1 + (reqExtents rs).prod + (List.zipWith min (reqExtents rs) a.ref.extents).prod) :
    (firstThrow N s.sched = none ∧ ∃ a' s', MArr.resize dbg dflt ⟨n, rs⟩ a s = (.ok () s', a') ∧ s'.sched = s.sched.drop N) ∨
    (∃ j junk s', firstThrow N s.sched = some (j, junk) ∧ MArr.resize dbg dflt ⟨n, rs⟩ a s = (.throw s', a) ∧ s'.sched = s.sched.drop (j + 1) ∧
      SameExcept s.next s s' ∧ SaneHeap s' ∧ Lost s s' (if 0 < j ∧ j ≤ (reqExtents rs).prod then 1 else 0)) := by
  obtain ⟨hp, _⟩ := C81_resize dbg dflt ⟨vs, ho⟩ hs hrep hl hleg
  rw [← hN] at hp
  obtain ⟨a', s', _, _, _, _, hext, h6, _⟩ := resize_any dbg dflt ho hs hrep hl hleg
  rcases h6 with ⟨h6, _⟩ | ⟨h6, _, h7, h8, h9⟩
  · rw [h6] at hp
    exact .inl ⟨firstThrow_eq_none hp.1, a', s', h6, hp.2⟩
  · rw [h6] at hp
    obtain ⟨j, junk, e1, e2⟩ := takes_throw (e := (.throw s' : Out T Unit)) (n := N) hp rfl
    refine .inr ⟨j, junk, s', e1, h6, e2, h7, h8, ?_⟩
    obtain ⟨z1, z2⟩ := firstThrow_zero_iff e1
    have hrun := resize_run dbg dflt ⟨n, rs⟩ a s
    rw [h6] at hrun
    have hgl : (Ctor.gen n rs a.ref.storage a.alloc).Legal s := ⟨ho.reach.wf.order, hl⟩
    obtain ⟨hg, _⟩ := C81_construction dbg dflt hs (.gen n rs a.ref.storage a.alloc) hgl
    have hel : 1 + (Ctor.gen n rs a.ref.storage a.alloc).elements + (Ctor.gen n rs a.ref.storage a.alloc).copies = 1 + (reqExtents rs).prod := by
      show 1 + (rs.map ExtentRange.size).prod + 0 = _
      rw [legalExtents_size hleg]; rfl
    rw [hel] at hg
    have ha : AllocFirst (MArr.mkExtentGen dflt ⟨n, rs⟩ a.ref.storage a.alloc) := AllocFirst.ctor dbg dflt (.gen n rs a.ref.storage a.alloc)
    have ha := ha s
    have hfirst : s.heap s.next = none := hs.2 _ (Nat.le_refl _)
    change Performs _ s (MArr.mkExtentGen dflt ⟨n, rs⟩ a.ref.storage a.alloc s) at hg
    cases hm : MArr.mkExtentGen dflt ⟨n, rs⟩ a.ref.storage a.alloc s with
    | ok m s1 =>
      rw [hm] at hg
      have hnone : firstThrow (1 + (reqExtents rs).prod) s.sched = none := firstThrow_eq_none hg.1
      have hj : ¬ j < 1 + (reqExtents rs).prod := by
        intro hj
        rw [firstThrow_more e1 hj] at hnone; cases hnone
      refine .inl ⟨by rw [if_neg (by omega)], ?_⟩
      rcases h9 with h9 | h9
      · exact h9
      · rw [hext] at h9
        exact absurd (noThrow_of_firstThrow e1 (by omega)) h9
    | throw s1 =>
      rw [hm] at hg ha
      rw [Exec.bind_throw hm] at hrun
      cases hrun
      obtain ⟨j', junk', g1, _⟩ := takes_throw (e := (.throw s' : Out T MArr)) (n := 1 + (reqExtents rs).prod) hg rfl
      have hj' := firstThrow_lt g1
      have hjj : j = j' := by
        have := firstThrow_more g1 (m := N) (by omega)
        rw [e1] at this; cases this; rfl
      by_cases hj : 0 < j
      · exact .inr ⟨by rw [if_pos (by omega)], ha.2 (z2 hj)⟩
      · refine .inl ⟨by rw [if_neg (by omega)], ?_⟩
        rw [ha.1 (z1 (by omega))]
        exact hfirst
    | assertFail s1 => rw [hm] at hg; exact hg.elim
    | ub => rw [hm] at hg; exact hg.elim

/-- `resize` of a variable. -/
theorem resize_f (dbg : Bool) (dflt : T) {w : World T} (hw : w.Valid) {x : Nat} {a : MArr} (hx : w.objs x = some a) {rs : List ExtentRange}
    (hl : rs.length = a.ref.extents.length) (hleg : LegalExtents rs) (hrep : Representable a.ref.bases a.ref.extents) {N : Nat}
    (hN : N = 1 + (reqExtents rs).prod + (List.zipWith min (reqExtents rs) a.ref.extents).prod) :
    (firstThrow N w.st.sched = none ∧ ∃ w', w.step dbg dflt (.resize x rs) = .ok w' ∧ w'.st.sched = w.st.sched.drop N) ∨
    (∃ j junk s', firstThrow N w.st.sched = some (j, junk) ∧ w.step dbg dflt (.resize x rs) = .threw { w with st := s' } ∧ s'.sched = w.st.sched.drop (j + 1) ∧
      SameExcept w.st.next w.st s' ∧ SaneHeap s' ∧ Lost w.st s' (if 0 < j ∧ j ≤ (reqExtents rs).prod then 1 else 0)) := by
  obtain ⟨n, vs, ho⟩ := hw.owns x a hx
  have hd : a.ref.numDims = n := ho.reach.wf.ext_len
  simp only [World.step, hx, hd]
  rcases resizeRun_f dbg dflt ho hw.sane hrep (by rw [hl]; exact hd) hleg hN with ⟨h0, a', s', h1, h2⟩ | ⟨j, junk, s', h0, h1, h2, h3, h4, h5⟩
  · exact .inl ⟨h0, w.set x (some a') s', by rw [h1]; rfl, h2⟩
  · exact .inr ⟨j, junk, s', h0, by rw [h1]; show Result.threw (w.set x (some a) s') = _; rw [World.set_self hx], h2, h3, h4, h5⟩

theorem resizeList_f (dbg : Bool) (dflt : T) {w : World T} (hw : w.Valid) {x : Nat} {a : MArr} (hx : w.objs x = some a) {es : List Nat}
    (hl : es.length = a.ref.extents.length) (hes : ∀ e ∈ es, e ≤ 2 ^ 63 - 1) (hrep : Representable a.ref.bases a.ref.extents) {N : Nat}
    (hN : N = 1 + es.prod + (List.zipWith min es a.ref.extents).prod) :
    (firstThrow N w.st.sched = none ∧ ∃ w', w.step dbg dflt (.resizeList x es) = .ok w' ∧ w'.st.sched = w.st.sched.drop N) ∨
    (∃ j junk s', firstThrow N w.st.sched = some (j, junk) ∧ w.step dbg dflt (.resizeList x es) = .threw { w with st := s' } ∧ s'.sched = w.st.sched.drop (j + 1) ∧
      SameExcept w.st.next w.st s' ∧ SaneHeap s' ∧ Lost w.st s' (if 0 < j ∧ j ≤ es.prod then 1 else 0)) := by
  obtain ⟨n, vs, ho⟩ := hw.owns x a hx
  have hd : a.ref.numDims = n := ho.reach.wf.ext_len
  have hl' : es.length = n := by rw [hl]; exact hd
  simp only [World.step, hx]
  rw [resizeExtents_eq dbg dflt ho hl']
  have hreq : reqExtents (es.map (fun (e : Nat) => ExtentRange.mk2 0 (e : Int))) = es := by
    simp [reqExtents, ExtentRange.mk2, Function.comp_def]
  have key := resizeRun_f dbg dflt ho hw.sane hrep (rs := es.map (fun (e : Nat) => ExtentRange.mk2 0 (e : Int))) (by rw [List.length_map, hl']) (extentList_legal hes) (N := N)
    (by rw [hreq]; exact hN)
  rw [hreq] at key
  rcases key with ⟨h0, a', s', h1, h2⟩ | ⟨j, junk, s', h0, h1, h2, h3, h4, h5⟩
  · exact .inl ⟨h0, w.set x (some a') s', by rw [h1]; rfl, h2⟩
  · exact .inr ⟨j, junk, s', h0, by rw [h1]; show Result.threw (w.set x (some a) s') = _; rw [World.set_self hx], h2, h3, h4, h5⟩

theorem count_of {A : AState T} {x : Nat} {ss : List Sel} {p : APart} (h : A.part x ss = some p) : A.count x ss = p.extents.prod := by
  simp only [AState.count, h]

/-- A legal command that may throw: when it does, and what it leaves. -/
theorem cmd_fires (dbg : Bool) (dflt : T) {L : List Nat} {w : World T} {A : AState T} (h : InvX L w A) (c : Cmd T) (hleg : c.Legal A) {r : Result T}
    (hr : w.mayThrow dbg dflt c = some r) : Exactly L w A c r := by
  obtain ⟨t, hc, h⟩ := h
  obtain ⟨o, s⟩ := w
  simp only at hc h
  have hv : (⟨o, s⟩ : World T).Valid := hc.valid h.valid
  have hdead : ∀ x, A x = none → o x = none := by
    intro x hx
    cases hh : o x with
    | none => rfl
    | some a =>
      obtain ⟨abs, e, _⟩ := h.live x a hh
      rw [hx] at e; cases e
  cases c with
  | construct x i =>
    obtain ⟨hx, hi⟩ := hleg
    refine exactly_alloc hc h (fun _ _ => rfl) ?_
    cases i with
    | default n al =>
      simp only [World.mayThrow, Option.some.injEq] at hr; subst hr
      exact ctor_f dbg dflt hv (i := .default n al) (c := .default n al) rfl trivial
    | extents n es so al =>
      simp only [World.mayThrow, Option.some.injEq] at hr; subst hr
      have key := ctor_f dbg dflt hv (x := x) (i := .extents n es so al) (c := .extents n es so al) rfl hi
      have he : 1 + (Ctor.extents n es so al).elements + (Ctor.extents n es so al).copies = (Cmd.construct x (.extents n es so al) : Cmd T).cost A := by
        show 1 + (es.take n).prod + 0 = 1 + es.prod
        rw [List.take_of_length_le (by rw [hi.2]), Nat.add_zero]
      rw [he] at key
      exact key
    | gen n rs so al =>
      simp only [World.mayThrow, Option.some.injEq] at hr; subst hr
      have key := ctor_f dbg dflt hv (x := x) (i := .gen n rs so al) (c := .gen n rs so al) rfl ⟨hi.1, hi.2.1⟩
      have he : 1 + (Ctor.gen n rs so al).elements + (Ctor.gen n rs so al).copies = (Cmd.construct x (.gen n rs so al) : Cmd T).cost A := by
        show 1 + (rs.map ExtentRange.size).prod + 0 = 1 + (reqExtents rs).prod
        rw [legalExtents_size hi.2.2, Nat.add_zero]
      rw [he] at key
      exact key
    | copy y =>
      simp only [World.mayThrow, Option.some.injEq] at hr; subst hr
      obtain ⟨abs, hA⟩ := hi
      obtain ⟨a, hy, hrep⟩ := h.abs hA
      have hy : o y = some a := hy
      obtain ⟨n, vs, ho⟩ := hv.owns y a hy
      have hd : a.ref.numDims = n := ho.reach.wf.ext_len
      have key := ctor_f dbg dflt hv (x := x) (i := .copy y) (c := .copy a.ref.numDims a) (by simp [Init.ctor, hy]) (by rw [hd]; exact ⟨vs, ho⟩)
      have he : 1 + (Ctor.copy a.ref.numDims a).elements + (Ctor.copy a.ref.numDims a).copies = (Cmd.construct x (.copy y) : Cmd T).cost A := by
        simp only [Cmd.cost, CInit.cost, hA, Ctor.elements, Ctor.copies, hrep.extents]
      rw [he] at key
      exact key
    | convert y ss so al =>
      obtain ⟨p, hp, hpos, hso⟩ := hi
      obtain ⟨a, d, hy, hd, hpo, hA, hw⟩ := h.part (s := s) dbg hp
      simp only [World.mayThrow, hd, Option.some.injEq] at hr; subst hr
      have hel : d.extents.length = p.extents.length := by rw [hpo.extents]
      obtain ⟨n, a1, vs, ha1, ho, hh⟩ := part_live hv (x := y) (d := d) ⟨a, hy, hpo.handle⟩
      have key := ctor_f dbg dflt hv (x := x) (i := .convert y d so al) (c := .convert d.extents.length d so al)
        (by simp only [Init.ctor, show o y = some a from hy]; rfl) ⟨by rw [hel]; exact hpos, by rw [hel]; exact hso, n, a1.ref, ho.reach, hh, ho.live, rfl⟩
      have he : 1 + (Ctor.convert d.extents.length d so al).elements + (Ctor.convert d.extents.length d so al).copies =
          (Cmd.construct x (.convert y ss so al) : Cmd T).cost A := by
        simp only [Cmd.cost, CInit.cost, hA, Ctor.elements, Ctor.copies, hpo.extents]
      rw [he] at key
      exact key
  | destroy x =>
    simp only [World.mayThrow, Option.some.injEq] at hr; subst hr
    obtain ⟨abs, hA⟩ := hleg
    obtain ⟨a, hx, hrep⟩ := h.abs hA
    obtain ⟨s', e1, _⟩ := (hc.owns hrep.owns).dealloc
    have e2 := (takes_ok (Takes.deallocateSpace a s) e1).2
    exact .inl ⟨rfl, World.set ⟨o, s⟩ x none s', by simp only [World.step]; rw [show o x = some a from hx]; simp only [e1], e2⟩
  | on x op =>
    obtain ⟨abs, hA, hl⟩ := hleg
    obtain ⟨a, hx, hrep⟩ := h.abs hA
    have hw := hrep.owns.reach.wf.wellShaped
    have hx : o x = some a := hx
    have hp := hrep.partOf
    simp only [World.mayThrow, hx] at hr
    cases op with
    | write idx v =>
      simp only [Option.some.injEq] at hr; subst hr
      have hin : InBox a.ref.bases a.ref.extents idx := (hrep.inBox idx).mpr hl
      refine exactly_mem (n := 1) (stop := fun _ junk => A.put x idx junk) ?_ rfl (fun _ _ => rfl) (fun _ => rfl)
      unfold writeElem
      rw [accessElement_inBox dbg _ _ hw.1 hin, Exec.lift_ok, pure_bind]
      exact cell_f hc h hx hin v
    | writeChain idx v =>
      simp only [Option.some.injEq] at hr; subst hr
      have hin : InBox a.ref.bases a.ref.extents idx := (hrep.inBox idx).mpr hl
      refine exactly_mem (n := 1) (stop := fun _ junk => A.put x idx junk) ?_ rfl (fun _ _ => rfl) (fun _ => rfl)
      unfold MultiArray.writeChain
      rw [accessChain_full dbg _ _ hw.1 hin, Exec.lift_ok, pure_bind]
      exact cell_f hc h hx hin v
    | assign input =>
      simp only [Option.some.injEq, World.step, hx] at hr; subst hr
      exact exactly_mem (assign_f hc h dbg dflt hx input) rfl (fun _ _ => rfl) (fun _ => rfl)
    | forEach f =>
      simp only [Option.some.injEq] at hr; subst hr
      refine exactly_mem (forEach_f hc h dbg hx hp hw f) (count_of (part_whole hA)) (fun j junk => ?_) (fun _ => rfl)
      simp only [AState.stopped, part_whole hA, Option.bind_some]
    | resize rs =>
      simp only [Option.some.injEq] at hr; subst hr
      refine exactly_alloc hc h (fun _ _ => rfl) (resize_f dbg dflt hv hx ?_ hl.2.1 ?_ ?_)
      · rw [hrep.extents]; exact hl.1
      · rw [hrep.bases, hrep.extents]; exact hl.2.2
      · simp only [Cmd.cost, AState.resizeCost, hA, hrep.extents]
    | resizeList es =>
      simp only [Option.some.injEq] at hr; subst hr
      refine exactly_alloc hc h (fun _ _ => rfl) (resizeList_f dbg dflt hv hx ?_ hl.2.1 ?_ ?_)
      · rw [hrep.extents]; exact hl.1
      · rw [hrep.bases, hrep.extents]; exact hl.2.2
      · simp only [Cmd.cost, AState.resizeCost, hA, hrep.extents]
    | read idx => cases hr
    | readChain idx => cases hr
    | reindex bs => cases hr
    | reindexAll b => cases hr
    | reshape es => cases hr
    | query => cases hr
  | assign x y =>
    simp only [World.mayThrow, Option.some.injEq] at hr; subst hr
    obtain ⟨abs, abs', hA, hA', he⟩ := hleg
    obtain ⟨a, hx, hrep⟩ := h.abs hA
    obtain ⟨a', hy, hrep'⟩ := h.abs hA'
    have hx : o x = some a := hx
    have hy : o y = some a' := hy
    simp only [World.step, hx, hy]
    unfold MArr.assignFrom
    by_cases hxy : x = y
    · rw [decide_eq_true hxy]
      have hcost : (Cmd.assign x y : Cmd T).cost A = 0 := by simp only [Cmd.cost, if_pos hxy]
      exact .inl ⟨by rw [hcost]; rfl, ⟨o, s⟩, rfl, by rw [hcost]; rfl⟩
    · rw [decide_eq_false hxy]
      refine exactly_mem (n := abs.whole.extents.prod) (stop := fun j junk => A.copyStopped x abs.whole y abs'.whole j junk) ?_ ?_ (fun j junk => ?_) (fun _ => rfl)
      · exact (parts_f hc h dbg hx hy hrep.partOf hrep'.partOf hrep.owns.reach.wf.wellShaped hrep'.owns.reach.wf.wellShaped he).1
      · simp only [Cmd.cost, if_neg hxy]; exact count_of (part_whole hA)
      · simp only [AState.stopped, part_whole hA, part_whole hA', Option.bind_some]
  | assignPart x ss y ss' =>
    obtain ⟨p, q, hp, hq, he⟩ := hleg
    obtain ⟨a, d, hx, hd, hpo, hA, hw⟩ := h.part (s := s) dbg hp
    obtain ⟨a', d', hy, hd', hqo, hA', hw'⟩ := h.part (s := s) dbg hq
    simp only [World.mayThrow, hd, hd', Option.some.injEq] at hr; subst hr
    refine exactly_mem (parts_f hc h dbg hx hy hpo hqo hw hw' he).1 (count_of hA) (fun j junk => ?_) (fun _ => rfl)
    simp only [AState.stopped, hA, hA', Option.bind_some]
  | copyArray x ss y ss' =>
    obtain ⟨p, q, hp, hq, he⟩ := hleg
    obtain ⟨a, d, hx, hd, hpo, hA, hw⟩ := h.part (s := s) dbg hp
    obtain ⟨a', d', hy, hd', hqo, hA', hw'⟩ := h.part (s := s) dbg hq
    simp only [World.mayThrow, hd, hd', Option.some.injEq] at hr; subst hr
    refine exactly_mem (parts_f hc h dbg hx hy hpo hqo hw hw' he).2 (count_of hA) (fun j junk => ?_) (fun _ => rfl)
    simp only [AState.stopped, hA, hA', Option.bind_some]
  | write x ss idx v =>
    obtain ⟨p, hp, hin⟩ := hleg
    obtain ⟨a, d, hx, hd, hpo, hA, hw⟩ := h.part (s := s) dbg hp
    simp only [World.mayThrow, hd, Option.some.injEq] at hr; subst hr
    obtain ⟨r1, r2⟩ := hpo.root idx hin
    have hin' : InBox d.bases d.extents idx := by rw [hpo.bases, hpo.extents]; exact hin
    refine exactly_mem (n := 1) (stop := fun _ junk => A.put x (p.root idx) junk) ?_ rfl (fun j junk => ?_) (fun _ => rfl)
    · unfold writeElem
      rw [accessElement_inBox dbg d idx hw.1 hin', Exec.lift_ok, pure_bind, r2]
      exact cell_f hc h hx r1 v
    · simp only [AState.stopped, hA, Option.bind_some]
  | forEach x ss f =>
    obtain ⟨p, hp⟩ := hleg
    obtain ⟨a, d, hx, hd, hpo, hA, hw⟩ := h.part (s := s) dbg hp
    simp only [World.mayThrow, hd, Option.some.injEq] at hr; subst hr
    refine exactly_mem (forEach_f hc h dbg hx hpo hw f) (count_of hA) (fun j junk => ?_) (fun _ => rfl)
    simp only [AState.stopped, hA, Option.bind_some]
  | read x ss idx => cases hr
  | traverse x ss => cases hr
  | equal x ss y ss' => cases hr
  | less x ss y ss' => cases hr
  | shape x ss => cases hr

theorem val?_some {α : Type} {o : Out T α} {r : α × St T} (h : Out.val? o = some r) : o = .ok r.1 r.2 := by
  cases o with
  | ok a s => cases h; rfl
  | throw s => cases h
  | assertFail s => cases h
  | ub => cases h

/-- A command that cannot throw leaves the exceptions that are due alone. -/
theorem reads_due (dbg : Bool) (dflt : T) (eq lt : T → T → Bool) (w : World T) (c : Cmd T) (h1 : w.mayThrow dbg dflt c = none) {o : CObs T} {w' : World T}
    (h2 : w.exec dbg dflt eq lt c = some (o, w')) (A : AState T) : c.cost A = 0 ∧ w'.st.sched = w.st.sched := by
  have t0 : ∀ {α : Type} {x : Exec T α} {r : α × St T}, Takes 0 x → Out.val? (x w.st) = some r → r.2.sched = w.st.sched := by
    intro α x r ht hr
    have := (takes_ok (ht w.st) (val?_some hr)).2
    rw [this, List.drop_zero]
  cases c with
  | construct x i => cases i <;> cases h1
  | destroy x => cases h1
  | assign x y => cases h1
  | assignPart x ss y ss' => cases h1
  | copyArray x ss y ss' => cases h1
  | write x ss idx v => cases h1
  | forEach x ss f => cases h1
  | on x op =>
    simp only [World.exec] at h2
    cases hx : w.objs x with
    | none => rw [hx] at h2; cases h2
    | some a =>
      simp only [World.mayThrow, hx] at h1
      simp only [hx, Option.bind_some, Option.map_eq_some_iff] at h2
      obtain ⟨q, hq, he⟩ := h2
      cases he
      cases op with
      | read idx =>
        simp only [concStep, Option.map_eq_some_iff] at hq
        obtain ⟨q', hq, rfl⟩ := hq
        exact ⟨rfl, t0 (Takes.liftBind fun _ _ => Takes.load _) hq⟩
      | readChain idx =>
        simp only [concStep, Option.map_eq_some_iff] at hq
        obtain ⟨q', hq, rfl⟩ := hq
        exact ⟨rfl, t0 (Takes.liftBind fun _ _ => Takes.load _) hq⟩
      | reindex bs =>
        simp only [concStep, Option.map_eq_some_iff] at hq
        obtain ⟨q', hq, rfl⟩ := hq
        exact ⟨rfl, rfl⟩
      | reindexAll b =>
        simp only [concStep, Option.some.injEq] at hq
        subst hq
        exact ⟨rfl, rfl⟩
      | reshape es =>
        simp only [concStep, Option.map_eq_some_iff] at hq
        obtain ⟨q', hq, rfl⟩ := hq
        exact ⟨rfl, rfl⟩
      | query =>
        simp only [concStep, Option.map_eq_some_iff] at hq
        obtain ⟨q', hq, rfl⟩ := hq
        exact ⟨rfl, rfl⟩
      | write idx v => cases h1
      | writeChain idx v => cases h1
      | assign input => cases h1
      | forEach f => cases h1
      | resize rs => cases h1
      | resizeList es => cases h1
  | read x ss idx =>
    simp only [World.exec, Option.bind_eq_some_iff, Option.map_eq_some_iff] at h2
    obtain ⟨d, _, q, hq, he⟩ := h2
    cases he
    exact ⟨rfl, t0 (Takes.liftBind fun _ _ => Takes.load _) hq⟩
  | traverse x ss =>
    simp only [World.exec, Option.bind_eq_some_iff, Option.map_eq_some_iff] at h2
    obtain ⟨d, _, q, hq, ps, hps, vs, _, he⟩ := h2
    cases he
    exact ⟨rfl, rfl⟩
  | equal x ss y ss' =>
    simp only [World.exec, Option.bind_eq_some_iff, Option.map_eq_some_iff] at h2
    obtain ⟨d, _, d', _, q, hq, he⟩ := h2
    cases he
    exact ⟨rfl, rfl⟩
  | less x ss y ss' =>
    simp only [World.exec, Option.bind_eq_some_iff, Option.map_eq_some_iff] at h2
    obtain ⟨d, _, d', _, q, hq, he⟩ := h2
    cases he
    exact ⟨rfl, rfl⟩
  | shape x ss =>
    simp only [World.exec, Option.map_eq_some_iff] at h2
    obtain ⟨d, _, he⟩ := h2
    cases he
    exact ⟨rfl, rfl⟩

/-- One command: it completes as the abstract machine says if none of its operations throws; otherwise it throws, and the state is exactly as the
abstract machine says. -/
theorem cmd_exact (dbg : Bool) (dflt : T) (eq lt : T → T → Bool) {L : List Nat} {w : World T} {A : AState T} (h : InvX L w A) (c : Cmd T) (hleg : c.Legal A) :
    (firstThrow (c.cost A) w.st.sched = none ∧ ∃ o A' w', A.step dflt eq lt c = some (o, A') ∧ w.execX dbg dflt eq lt c = .done o w' ∧ InvX L w' A' ∧
      w'.st.sched = w.st.sched.drop (c.cost A)) ∨
    (∃ j junk w' L' A', firstThrow (c.cost A) w.st.sched = some (j, junk) ∧ w.execX dbg dflt eq lt c = .threw w' ∧ A.stopped c j junk = some A' ∧
      InvX L' w' A' ∧ w'.st.sched = w.st.sched.drop (j + 1) ∧ (L.Nodup → L'.Nodup) ∧ L'.length = L.length + c.lost j) := by
  rcases cmd_x dbg dflt eq lt h c hleg with ⟨o, A', w', e1, e2, e3⟩ | ⟨w', L', A', e1, e2, e3, e4⟩
  · left
    cases hm : w.mayThrow dbg dflt c with
    | none =>
      simp only [World.execX, hm] at e2
      cases hx : w.exec dbg dflt eq lt c with
      | none => rw [hx] at e2; cases e2
      | some q =>
        obtain ⟨o1, w1⟩ := q
        simp only [hx] at e2; cases e2
        obtain ⟨g1, g2⟩ := reads_due dbg dflt eq lt w c hm hx A
        rw [g1]
        exact ⟨rfl, o, A', w', e1, by simp only [World.execX, hm, hx], e3, by rw [g2, List.drop_zero]⟩
    | some r =>
      rcases cmd_fires dbg dflt h c hleg hm with ⟨g1, w1, rfl, g2⟩ | ⟨j, junk, w1, L1, A1, _, rfl, _⟩
      · simp only [World.execX, hm, Result.toX, XRes.done.injEq] at e2
        obtain ⟨rfl, rfl⟩ := e2
        exact ⟨g1, _, A', w1, e1, by simp only [World.execX, hm, Result.toX], e3, g2⟩
      · simp only [World.execX, hm, Result.toX] at e2; cases e2
  · right
    cases hm : w.mayThrow dbg dflt c with
    | none =>
      simp only [World.execX, hm] at e1
      cases hx : w.exec dbg dflt eq lt c with
      | none => rw [hx] at e1; cases e1
      | some q => simp only [hx] at e1; cases e1
    | some r =>
      rcases cmd_fires dbg dflt h c hleg hm with ⟨g1, w1, rfl, g2⟩ | ⟨j, junk, w1, L1, A1, g1, rfl, g2, g3, g4, g5, g6⟩
      · simp only [World.execX, hm, Result.toX] at e1; cases e1
      · exact ⟨j, junk, w1, L1, A1, g1, by simp only [World.execX, hm, Result.toX], g3, g4, g2, g5, g6⟩

end MultiArray
