import Verif.Lemmas.ProgX

/- Commands interrupted by an exception. -/
set_option autoImplicit false

namespace MultiArray
open Spec Props
variable {T : Type}

/-- One element assignment: completes, or throws and leaves some value. -/
theorem put_x {L : List Nat} {o : Nat → Option MArr} {s t : St T} {A : AState T} (hc : Calm L s t) (hr : (⟨o, t⟩ : World T).Rep A) {x : Nat} {a : MArr}
    (hx : o x = some a) {idx : List Int} (hin : InBox a.ref.bases a.ref.extents idx) (v : T) :
    (∃ s1 t1 A1, assignCell (address a.ref.desc idx) v s = .ok () s1 ∧ A.put x idx v = some A1 ∧ Calm L s1 t1 ∧ (⟨o, t1⟩ : World T).Rep A1) ∨
    (∃ s1 t1 A1 junk, assignCell (address a.ref.desc idx) v s = .throw s1 ∧ A.put x idx junk = some A1 ∧ Calm L s1 t1 ∧ (⟨o, t1⟩ : World T).Rep A1) := by
  obtain ⟨u, g1, _⟩ := hr.get hx hin
  have g2 := hc.get g1
  have hp := hc.blk (get?_heap g1)
  have key : ∀ (z : T) (fs : List (Option T)), ∃ t1 A1, A.put x idx z = some A1 ∧
      Calm L ({ s with sched := fs }.setCell (address a.ref.desc idx) (.obj z)) t1 ∧ (⟨o, t1⟩ : World T).Rep A1 := by
    intro z fs
    obtain ⟨t1, A1, p1, p2, p3⟩ := hr.put hx hin z
    refine ⟨t1, A1, p2, ?_, p3⟩
    have : t1 = t.setCell (address a.ref.desc idx) (.obj z) := by
      unfold assignCell at p1
      rw [g1, hr.sched] at p1
      cases p1; rfl
    rw [this]
    exact hc.setCell hp _ fs
  cases hs : s.sched with
  | nil =>
    obtain ⟨t1, A1, k1, k2, k3⟩ := key v s.sched
    have e : assignCell (address a.ref.desc idx) v s = .ok () (s.setCell (address a.ref.desc idx) (.obj v)) := by
      unfold assignCell; rw [g2, hs]
    exact .inl ⟨_, t1, A1, e, k1, k2, k3⟩
  | cons f fs =>
    cases f with
    | none =>
      obtain ⟨t1, A1, k1, k2, k3⟩ := key v fs
      exact .inl ⟨_, t1, A1, by unfold assignCell; rw [g2, hs], k1, k2, k3⟩
    | some junk =>
      obtain ⟨t1, A1, k1, k2, k3⟩ := key junk fs
      exact .inr ⟨_, t1, A1, junk, by unfold assignCell; rw [g2, hs], k1, k2, k3⟩

/-- A computation that completes, or throws leaving a state that satisfies `P`. -/
def OkOr (L : List Nat) (o : Nat → Option MArr) (s : St T) (e : Exec T Unit) (P : AState T → Prop) : Prop :=
  (∃ s', e s = .ok () s') ∨ (∃ s' t' A', e s = .throw s' ∧ P A' ∧ Calm L s' t' ∧ (⟨o, t'⟩ : World T).Rep A')

theorem copy_x {L : List Nat} {o : Nat → Option MArr} {s t : St T} {A : AState T} (hc : Calm L s t) (h : (⟨o, t⟩ : World T).Rep A) {x y : Nat} {a a' : MArr}
    (hx : o x = some a) (hy : o y = some a') {d d' : Desc} {p q : APart} (hp : PartOf a.ref d p) (hq : PartOf a'.ref d' q)
    (hwd : d.bases.length = d.extents.length) (hwd' : d'.bases.length = d'.extents.length) (he : p.extents = q.extents) (ks : List (List Nat))
    (hks : ∀ k ∈ ks, InShape p.extents k) :
    OkOr L o s (copySeq (ks.map (fun k => (address d' (atPos d'.bases k), address d (atPos d.bases k))))) (fun A' =>
      ∃ done k rest A1 junk, ks = done ++ k :: rest ∧ AState.copy x p y q done A = some A1 ∧ A1.put x (p.root (atPos p.bases k)) junk = some A') := by
  induction ks generalizing s t A with
  | nil => exact .inl ⟨s, rfl⟩
  | cons k ks ih =>
    have hk := hks k (by simp)
    have hin : InBox p.bases p.extents (atPos p.bases k) := by
      rw [← hp.bases]; exact inBox_atPos (by rw [hwd, hp.extents]) hk
    have hin' : InBox q.bases q.extents (atPos q.bases k) := by
      rw [← hq.bases]; exact inBox_atPos (by rw [hwd', hq.extents]) (by rw [← he]; exact hk)
    obtain ⟨r1, r2⟩ := hp.root _ hin
    obtain ⟨r1', r2'⟩ := hq.root _ hin'
    obtain ⟨v, g1, g2⟩ := h.get hy r1'
    have hload : load (address d' (atPos d'.bases k)) s = .ok v s := by
      rw [hq.bases, r2']; exact load_ok (hc.get g1)
    unfold OkOr
    simp only [List.map_cons, copySeq]
    rw [Exec.bind_ok hload]
    have hdst : address d (atPos d.bases k) = address a.ref.desc (p.root (atPos p.bases k)) := by rw [hp.bases, r2]
    rw [hdst]
    rcases put_x hc h hx r1 v with ⟨s1, t1, A1, p1, p2, p3, p4⟩ | ⟨s1, t1, A1, junk, p1, p2, p3, p4⟩
    · rw [Exec.bind_ok p1]
      rcases ih p3 p4 (fun k hk => hks k (by simp [hk])) with hok | ⟨s', t', A', i1, ⟨done, k', rest, A2, junk, i2, i3, i4⟩, i5, i6⟩
      · exact .inl hok
      · refine .inr ⟨s', t', A', i1, ⟨k :: done, k', rest, A2, junk, by rw [i2]; rfl, ?_, i4⟩, i5, i6⟩
        simp only [AState.copy, AState.move, g2, Option.bind_some, p2]
        exact i3
    · rw [Exec.bind_throw p1]
      exact .inr ⟨s1, t1, A1, rfl, ⟨[], k, ks, A, junk, rfl, rfl, p2⟩, p3, p4⟩

theorem map_x {L : List Nat} {o : Nat → Option MArr} {s t : St T} {A : AState T} (hc : Calm L s t) (h : (⟨o, t⟩ : World T).Rep A) {x : Nat} {a : MArr}
    (hx : o x = some a) {d : Desc} {p : APart} (hp : PartOf a.ref d p) (hwd : d.bases.length = d.extents.length) (f : T → T) (ks : List (List Nat))
    (hks : ∀ k ∈ ks, InShape p.extents k) :
    OkOr L o s (mapSeq f (ks.map (fun k => address d (atPos d.bases k)))) (fun A' =>
      ∃ done k rest A1 junk, ks = done ++ k :: rest ∧ AState.map x p f done A = some A1 ∧ A1.put x (p.root (atPos p.bases k)) junk = some A') := by
  induction ks generalizing s t A with
  | nil => exact .inl ⟨s, rfl⟩
  | cons k ks ih =>
    have hk := hks k (by simp)
    have hin : InBox p.bases p.extents (atPos p.bases k) := by
      rw [← hp.bases]; exact inBox_atPos (by rw [hwd, hp.extents]) hk
    obtain ⟨r1, r2⟩ := hp.root _ hin
    obtain ⟨v, g1, g2⟩ := h.get hx r1
    have hdst : address d (atPos d.bases k) = address a.ref.desc (p.root (atPos p.bases k)) := by rw [hp.bases, r2]
    unfold OkOr
    simp only [List.map_cons, mapSeq]
    rw [hdst, Exec.bind_ok (load_ok (hc.get g1))]
    rcases put_x hc h hx r1 (f v) with ⟨s1, t1, A1, p1, p2, p3, p4⟩ | ⟨s1, t1, A1, junk, p1, p2, p3, p4⟩
    · rw [Exec.bind_ok p1]
      rcases ih p3 p4 (fun k hk => hks k (by simp [hk])) with hok | ⟨s', t', A', i1, ⟨done, k', rest, A2, junk, i2, i3, i4⟩, i5, i6⟩
      · exact .inl hok
      · refine .inr ⟨s', t', A', i1, ⟨k :: done, k', rest, A2, junk, by rw [i2]; rfl, ?_, i4⟩, i5, i6⟩
        simp only [AState.map, g2, Option.bind_some, p2]
        exact i3
    · rw [Exec.bind_throw p1]
      exact .inr ⟨s1, t1, A1, rfl, ⟨[], k, ks, A, junk, rfl, rfl, p2⟩, p3, p4⟩

theorem assignLoop_x {L : List Nat} {s t : St T} (hc : Calm L s t) (n : Nat) (p : Ptr) (input : List T)
    (hl : ∀ k : Nat, k < n → ∃ v, t.get? (p.add (k : Int)) = some v) :
    (∃ s', assignLoop n p input s = .ok () s') ∨
    (∃ s' t' k junk, k < n ∧ k < input.length ∧ assignLoop n p input s = .throw s' ∧ assignLoop n p (input.take k ++ [junk]) t = .ok () t' ∧ Calm L s' t') := by
  induction n generalizing p input s t with
  | zero => exact .inl ⟨s, rfl⟩
  | succ n ih =>
    cases input with
    | nil => exact .inl ⟨s, rfl⟩
    | cons v vs =>
      obtain ⟨u, g1⟩ := hl 0 (by omega)
      have g1 : t.get? p = some u := by simpa [Ptr.add] using g1
      have g2 := hc.get g1
      have hp := hc.blk (get?_heap g1)
      have hta : ∀ z, assignCell p z t = .ok () (t.setCell p (.obj z)) := by
        intro z; unfold assignCell; rw [g1, hc.sched]
      have hok : ∀ fs, assignCell p v s = .ok () ({ s with sched := fs }.setCell p (.obj v)) →
          (∃ s', assignLoop (n + 1) p (v :: vs) s = .ok () s') ∨
          (∃ s' t' k junk, k < n + 1 ∧ k < (v :: vs).length ∧ assignLoop (n + 1) p (v :: vs) s = .throw s' ∧
            assignLoop (n + 1) p ((v :: vs).take k ++ [junk]) t = .ok () t' ∧ Calm L s' t') := by
        intro fs e1
        have hl' : ∀ k : Nat, k < n → ∃ w, (t.setCell p (.obj v)).get? ((p.add 1).add (k : Int)) = some w := by
          intro k hk
          obtain ⟨w, hw⟩ := hl (k + 1) (by omega)
          have he : p.add ((k + 1 : Nat) : Int) = (p.add 1).add (k : Int) := by simp [Ptr.add]; ring
          rw [he] at hw
          obtain ⟨t1, f1, f2⟩ := assignCell_updates ⟨u, g1⟩ rfl v (b := p.blk)
          rcases f1 with ⟨_, f1⟩ | ⟨f1, _⟩
          · rw [hta v] at f1; cases f1
            exact f2.live _ ⟨w, hw⟩
          · rw [hta v] at f1; cases f1
        rcases ih (hc.setCell hp (.obj v) fs) (p.add 1) vs hl' with ⟨s', i1⟩ | ⟨s', t', k, junk, i1, i2, i3, i4, i5⟩
        · exact .inl ⟨s', by simp only [assignLoop]; rw [Exec.bind_ok e1]; exact i1⟩
        · refine .inr ⟨s', t', k + 1, junk, by omega, by simp; omega, ?_, ?_, i5⟩
          · simp only [assignLoop]; rw [Exec.bind_ok e1]; exact i3
          · simp only [List.take_succ_cons, List.cons_append, assignLoop]
            rw [Exec.bind_ok (hta v)]; exact i4
      cases hs : s.sched with
      | nil =>
        have e : assignCell p v s = .ok () (s.setCell p (.obj v)) := by unfold assignCell; rw [g2, hs]
        exact hok s.sched e
      | cons f fs =>
        cases f with
        | none => exact hok fs (by unfold assignCell; rw [g2, hs])
        | some junk =>
          refine .inr ⟨{ s with sched := fs }.setCell p (.obj junk), t.setCell p (.obj junk), 0, junk, by omega, by simp, ?_, ?_, hc.setCell hp _ fs⟩
          · simp only [assignLoop]
            exact Exec.bind_throw (by unfold assignCell; rw [g2, hs])
          · simp only [List.take_zero, List.nil_append, assignLoop]
            rw [Exec.bind_ok (hta junk)]
            cases n <;> rfl

/-- What a command that may throw does. -/
def ThrowOK (dbg : Bool) (dflt : T) (L : List Nat) (w : World T) (A : AState T) (c : Cmd T) (r : Result T) : Prop :=
  (∃ w', r = .ok w') ∨
  (∃ w' L' A', r = .threw w' ∧ A.Interrupted c A' ∧ InvX L' w' A' ∧ L'.length ≤ L.length + (if c.allocates then 1 else 0))

theorem throwOK_mem (dbg : Bool) (dflt : T) {L : List Nat} {w : World T} {A : AState T} {c : Cmd T} {e : Exec T Unit} {P : AState T → Prop}
    (h : OkOr L w.objs w.st e P) (hP : ∀ A', P A' → A.Interrupted c A') : ThrowOK dbg dflt L w A c (w.mem e) := by
  rcases h with ⟨s', h⟩ | ⟨s', t', A', h1, h2, h3, h4⟩
  · exact .inl ⟨{ w with st := s' }, by unfold World.mem; rw [h]⟩
  · exact .inr ⟨{ w with st := s' }, L, A', by unfold World.mem; rw [h1], hP A' h2, ⟨t', h3, h4⟩, by omega⟩

/-- A constructor completes, or throws and leaves at most one block. -/
theorem ctor_x (dbg : Bool) (dflt : T) {w : World T} (hw : w.Valid) {x : Nat} {i : Init} (hop : (Op.construct x i : Op T).Legal w) :
    (∃ w', w.step dbg dflt (.construct x i) = .ok w') ∨
    (∃ s', w.step dbg dflt (.construct x i) = .threw { w with st := s' } ∧ SameExcept w.st.next w.st s' ∧ SaneHeap s') := by
  obtain ⟨hx, hi⟩ := hop
  obtain ⟨c, hc, hleg⟩ : ∃ c, i.ctor w.objs = some c ∧ c.Legal w.st := by
    cases i with
    | default n al => exact ⟨_, rfl, trivial⟩
    | extents n es so al => exact ⟨_, rfl, hi⟩
    | gen n rs so al => exact ⟨_, rfl, hi⟩
    | copy y =>
      obtain ⟨a, ha⟩ := hi
      obtain ⟨n, vs, ho⟩ := hw.owns y a ha
      refine ⟨.copy a.ref.numDims a, by simp [Init.ctor, ha], ?_⟩
      have hd : a.ref.numDims = n := ho.reach.wf.ext_len
      rw [hd]
      exact ⟨vs, ho⟩
    | convert y d so al =>
      obtain ⟨hp, hpos, hv⟩ := hi
      obtain ⟨n, a, vs, ha, ho, hh⟩ := part_live hw hp
      exact ⟨.convert d.extents.length d so al, by simp only [Init.ctor, ha]; rfl, hpos, hv, n, a.ref, ho.reach, hh, ho.live, rfl⟩
  obtain ⟨s', h1, h2, h3, j, h4⟩ := ctor_any dbg dflt hw.sane c hleg
  rcases h1 with ⟨m, h1, _⟩ | ⟨h1, _⟩
  · exact .inl ⟨w.set x (some m) s', by simp only [World.step, hc, h1]⟩
  · exact .inr ⟨s', by simp only [World.step, hc, h1], h2, h3⟩

/-- `resize` completes, or throws and leaves at most one block. -/
theorem resize_x (dbg : Bool) (dflt : T) {w : World T} (hw : w.Valid) {x : Nat} {a : MArr} (hx : w.objs x = some a) {rs : List ExtentRange}
    (hl : rs.length = a.ref.extents.length) (hleg : LegalExtents rs) (hrep : Representable a.ref.bases a.ref.extents) :
    (∃ w', w.step dbg dflt (.resize x rs) = .ok w') ∨
    (∃ s', w.step dbg dflt (.resize x rs) = .threw { w with st := s' } ∧ SameExcept w.st.next w.st s' ∧ SaneHeap s') := by
  obtain ⟨n, vs, ho⟩ := hw.owns x a hx
  have hd : a.ref.numDims = n := ho.reach.wf.ext_len
  simp only [World.step, hx, hd]
  obtain ⟨m, s', h1, _, _, _, _, h6, _, _⟩ := resize_any dbg dflt ho hw.sane hrep (by rw [hl]; exact hd) hleg
  rcases h6 with ⟨h6, _⟩ | ⟨h6, _, hse, hsane, _⟩
  · exact .inl ⟨_, by rw [h6]; rfl⟩
  · exact .inr ⟨s', by rw [h6]; show Result.threw (w.set x (some a) s') = _; rw [World.set_self hx], hse, hsane⟩

theorem resizeList_x (dbg : Bool) (dflt : T) {w : World T} (hw : w.Valid) {x : Nat} {a : MArr} (hx : w.objs x = some a) {es : List Nat}
    (hl : es.length = a.ref.extents.length) (hes : ∀ e ∈ es, e ≤ 2 ^ 63 - 1) (hrep : Representable a.ref.bases a.ref.extents) :
    (∃ w', w.step dbg dflt (.resizeList x es) = .ok w') ∨
    (∃ s', w.step dbg dflt (.resizeList x es) = .threw { w with st := s' } ∧ SameExcept w.st.next w.st s' ∧ SaneHeap s') := by
  obtain ⟨n, vs, ho⟩ := hw.owns x a hx
  have hd : a.ref.numDims = n := ho.reach.wf.ext_len
  have hl' : es.length = n := by rw [hl]; exact hd
  simp only [World.step, hx]
  rw [resizeExtents_eq dbg dflt ho hl']
  obtain ⟨m, s', h1, _, _, _, _, h6, _, _⟩ := resize_any dbg dflt ho hw.sane hrep (by rw [List.length_map, hl']) (extentList_legal hes)
  rcases h6 with ⟨h6, _⟩ | ⟨h6, _, hse, hsane, _⟩
  · exact .inl ⟨_, by rw [h6]; rfl⟩
  · exact .inr ⟨s', by rw [h6]; show Result.threw (w.set x (some a) s') = _; rw [World.set_self hx], hse, hsane⟩

theorem throwOK_alloc (dbg : Bool) (dflt : T) {L : List Nat} {w : World T} {t : St T} {A : AState T} {c : Cmd T} (hc : Calm L w.st t)
    (hr : (⟨w.objs, t⟩ : World T).Rep A) (hi : A.Interrupted c A) (ha : c.allocates = true) {r : Result T}
    (h : (∃ w', r = .ok w') ∨ (∃ s', r = .threw { w with st := s' } ∧ SameExcept w.st.next w.st s' ∧ SaneHeap s')) : ThrowOK dbg dflt L w A c r := by
  rcases h with h | ⟨s', h1, h2, h3⟩
  · exact .inl h
  · obtain ⟨L', t', e1, e2, e3⟩ := throw_alloc hc hr h2 h3
    exact .inr ⟨_, L', A, h1, hi, ⟨t', e2, e3⟩, by rw [ha]; exact e1⟩

theorem Spec.World.Rep.part {o : Nat → Option MArr} {s t : St T} {A : AState T} (h : (⟨o, t⟩ : World T).Rep A) (dbg : Bool) {x : Nat} {ss : List Sel}
    {p : APart} (hp : A.Part x ss p) : ∃ a d, o x = some a ∧ (⟨o, s⟩ : World T).lookup dbg x ss = some d ∧ PartOf a.ref d p ∧ A.part x ss = some p ∧
      WellShaped d := by
  obtain ⟨a, d, h1, h2, h3, h4⟩ := h.partOf dbg hp
  obtain ⟨n, hr, _⟩ := h.reach h1
  exact ⟨a, d, h1, h2, h3, h4, partOf_wellShaped hr h3⟩

theorem mem_positions_shape {es k : List Nat} (h : k ∈ positions es) : InShape es k := by
  rw [positions_eq, mem_allPos] at h; exact h

/-- Assignment and `copy_array` between parts. -/
theorem parts_x {L : List Nat} {o : Nat → Option MArr} {s t : St T} {A : AState T} (hc : Calm L s t) (h : (⟨o, t⟩ : World T).Rep A) (dbg : Bool) {x y : Nat}
    {a a' : MArr} (hx : o x = some a) (hy : o y = some a') {d d' : Desc} {p q : APart} (hp : PartOf a.ref d p) (hq : PartOf a'.ref d' q)
    (hw : WellShaped d) (hw' : WellShaped d') (he : p.extents = q.extents) :
    OkOr L o s (assignRef dbg d.extents.length d d') (fun A' => A.CopyStopped x p y q A') ∧
    OkOr L o s (copyArray dbg d' d) (fun A' => A.CopyStopped x p y q A') := by
  have hde : d'.extents = d.extents := by rw [hp.extents, hq.extents, he]
  have key := copy_x hc h hx hy hp hq hw.2 hw'.2 he (positions p.extents) (fun k hk => mem_positions_shape hk)
  rw [positions_eq, ← hp.extents, ← copyPairs_eq_map d' d hw' hw hde] at key
  have key' : OkOr L o s (copySeq (copyPairs d' d)) (fun A' => A.CopyStopped x p y q A') := by
    unfold AState.CopyStopped
    rw [positions_eq, ← hp.extents]
    exact key
  constructor
  · rw [assignRef_eq dbg _ _ hw hw' hde]; exact key'
  · unfold copyArray
    rw [decide_eq_true hde, assertE_true, pure_bind, copyDispatch_eq dbg _ _ hw hw' hde]; exact key'

theorem forEach_x {L : List Nat} {o : Nat → Option MArr} {s t : St T} {A : AState T} (hc : Calm L s t) (h : (⟨o, t⟩ : World T).Rep A) (dbg : Bool) {x : Nat}
    {a : MArr} (hx : o x = some a) {d : Desc} {p : APart} (hp : PartOf a.ref d p) (hw : WellShaped d) (f : T → T) :
    OkOr L o s (MultiArray.forEach dbg f d.extents.length d) (fun A' => A.MapStopped x p f A') := by
  have key := map_x hc h hx hp hw.2 f (positions p.extents) (fun k hk => mem_positions_shape hk)
  rw [positions_eq, ← hp.extents, ← addrs_eq_map d hw] at key
  rw [forEach_eq dbg f d hw]
  unfold AState.MapStopped
  rw [positions_eq, ← hp.extents]
  exact key

theorem cell_x {L : List Nat} {o : Nat → Option MArr} {s t : St T} {A : AState T} (hc : Calm L s t) (hr : (⟨o, t⟩ : World T).Rep A) {x : Nat} {a : MArr}
    (hx : o x = some a) {idx : List Int} (hin : InBox a.ref.bases a.ref.extents idx) (v : T) :
    OkOr L o s (assignCell (address a.ref.desc idx) v) (fun A' => ∃ junk, A.put x idx junk = some A') := by
  rcases put_x hc hr hx hin v with ⟨s1, t1, A1, p1, p2, p3, p4⟩ | ⟨s1, t1, A1, junk, p1, p2, p3, p4⟩
  · exact .inl ⟨s1, p1⟩
  · exact .inr ⟨s1, t1, A1, p1, ⟨junk, p2⟩, p3, p4⟩

theorem assign_x {L : List Nat} {o : Nat → Option MArr} {s t : St T} {A : AState T} (hc : Calm L s t) (hr : (⟨o, t⟩ : World T).Rep A) (dbg : Bool) (dflt : T)
    {x : Nat} {a : MArr} (hx : o x = some a) (input : List T) :
    OkOr L o s (a.ref.assign input) (fun A' => A.Interrupted (.on x (.assign input)) A') := by
  obtain ⟨abs, hA, hrep⟩ := hr.live x a hx
  rcases assignLoop_x hc a.ref.numElems a.ref.base input hrep.owns.live with ⟨s', h⟩ | ⟨s', t', k, junk, h1, h2, h3, h4, h5⟩
  · exact .inl ⟨s', h⟩
  · have hlen : k < abs.vals.length := by rw [hrep.owns.len]; exact h1
    refine .inr ⟨s', t', A.set x (some { abs with vals := input.take k ++ junk :: abs.vals.drop (k + 1) }), h3, ⟨abs, k, junk, hA, h2, hlen, rfl⟩, h5, ?_⟩
    obtain ⟨o1, A1, w1, e1, e2, e3⟩ := step_on dbg dflt (fun _ _ => true) (fun _ _ => true) hr x (.assign (input.take k ++ [junk])) ⟨abs, hA, trivial⟩
    have hex : (⟨o, t⟩ : World T).exec dbg dflt (fun _ _ => true) (fun _ _ => true) (.on x (.assign (input.take k ++ [junk]))) =
        some (.basic .unit, ⟨o, t'⟩) := by
      have : a.ref.assign (input.take k ++ [junk]) t = .ok () t' := h4
      simp only [World.exec, hx, Option.bind_some, concStep, this, Out.val?, Option.map_some]
      rw [World.set_self (by exact hx)]
    rw [hex] at e2
    simp only [AState.step, hA, Option.bind_some, AbsArr.step, Option.map_some, Option.some.injEq, Prod.mk.injEq] at e1 e2
    obtain ⟨_, rfl⟩ := e2
    obtain ⟨_, rfl⟩ := e1
    have hv : (input.take k ++ [junk]).take abs.vals.length ++ abs.vals.drop (input.take k ++ [junk]).length = input.take k ++ junk :: abs.vals.drop (k + 1) := by
      have hl : (input.take k ++ [junk]).length = k + 1 := by simp; omega
      rw [List.take_of_length_le (by omega), hl]
      simp
    rw [hv] at e3
    exact e3

/-- A legal command that may throw does not fail; if it throws, the state is as if interrupted. -/
theorem cmd_throw (dbg : Bool) (dflt : T) {L : List Nat} {w : World T} {A : AState T} (h : InvX L w A) (c : Cmd T) (hleg : c.Legal A) {r : Result T}
    (hr : w.mayThrow dbg dflt c = some r) : ThrowOK dbg dflt L w A c r := by
  obtain ⟨t, hc, h⟩ := h
  obtain ⟨o, s⟩ := w
  simp only at hc h
  have hv : (⟨o, s⟩ : World T).Valid := hc.valid h.valid
  have hdead : ∀ x, A x = none → o x = none := by
    intro x hx
    cases hh : o x with
    | none => rfl
    | some a =>
      obtain ⟨abs, e, _⟩ := h.live x a hh
      rw [hx] at e; cases e
  cases c with
  | construct x i =>
    obtain ⟨hx, hi⟩ := hleg
    refine throwOK_alloc dbg dflt hc h (c := .construct x i) rfl rfl ?_
    cases i with
    | default n al =>
      simp only [World.mayThrow, Option.some.injEq] at hr; subst hr
      exact ctor_x dbg dflt hv ⟨hdead x hx, trivial⟩
    | extents n es so al =>
      simp only [World.mayThrow, Option.some.injEq] at hr; subst hr
      exact ctor_x dbg dflt hv ⟨hdead x hx, hi⟩
    | gen n rs so al =>
      simp only [World.mayThrow, Option.some.injEq] at hr; subst hr
      exact ctor_x dbg dflt hv ⟨hdead x hx, hi.1, hi.2.1⟩
    | copy y =>
      simp only [World.mayThrow, Option.some.injEq] at hr; subst hr
      obtain ⟨abs, hA⟩ := hi
      obtain ⟨a, hy, _⟩ := h.abs hA
      exact ctor_x dbg dflt hv ⟨hdead x hx, a, hy⟩
    | convert y ss so al =>
      obtain ⟨p, hp, hpos, hso⟩ := hi
      obtain ⟨a, d, hy, hd, hpo, hA, hw⟩ := h.part (s := s) dbg hp
      simp only [World.mayThrow, hd, Option.some.injEq] at hr; subst hr
      have he : d.extents.length = p.extents.length := by rw [hpo.extents]
      exact ctor_x dbg dflt hv ⟨hdead x hx, ⟨a, hy, hpo.handle⟩, by rw [he]; exact hpos, by rw [he]; exact hso⟩
  | destroy x =>
    simp only [World.mayThrow, Option.some.injEq] at hr; subst hr
    obtain ⟨abs, hA⟩ := hleg
    obtain ⟨a, hx, hrep⟩ := h.abs hA
    obtain ⟨s', e1, _⟩ := (hc.owns hrep.owns).dealloc
    exact .inl ⟨World.set ⟨o, s⟩ x none s', by simp only [World.step]; rw [show o x = some a from hx]; simp only [e1]⟩
  | on x op =>
    obtain ⟨abs, hA, hl⟩ := hleg
    obtain ⟨a, hx, hrep⟩ := h.abs hA
    have hw := hrep.owns.reach.wf.wellShaped
    have hx : o x = some a := hx
    have hp := hrep.partOf
    simp only [World.mayThrow, hx] at hr
    cases op with
    | write idx v =>
      simp only [Option.some.injEq] at hr; subst hr
      have hin : InBox a.ref.bases a.ref.extents idx := (hrep.inBox idx).mpr hl
      refine throwOK_mem dbg dflt (P := fun A' => ∃ junk, A.put x idx junk = some A') ?_ (fun A' hA' => hA')
      unfold writeElem
      rw [accessElement_inBox dbg _ _ hw.1 hin, Exec.lift_ok, pure_bind]
      exact cell_x hc h hx hin v
    | writeChain idx v =>
      simp only [Option.some.injEq] at hr; subst hr
      have hin : InBox a.ref.bases a.ref.extents idx := (hrep.inBox idx).mpr hl
      refine throwOK_mem dbg dflt (P := fun A' => ∃ junk, A.put x idx junk = some A') ?_ (fun A' hA' => hA')
      unfold MultiArray.writeChain
      rw [accessChain_full dbg _ _ hw.1 hin, Exec.lift_ok, pure_bind]
      exact cell_x hc h hx hin v
    | assign input =>
      simp only [Option.some.injEq, World.step, hx] at hr; subst hr
      exact throwOK_mem dbg dflt (assign_x hc h dbg dflt hx input) (fun A' hA' => hA')
    | forEach f =>
      simp only [Option.some.injEq] at hr; subst hr
      exact throwOK_mem dbg dflt (forEach_x hc h dbg hx hp hw f) (fun A' hA' => ⟨abs.whole, part_whole hA, hA'⟩)
    | resize rs =>
      simp only [Option.some.injEq] at hr; subst hr
      refine throwOK_alloc dbg dflt hc h (c := .on x (.resize rs)) rfl rfl (resize_x dbg dflt hv hx ?_ hl.2.1 ?_)
      · rw [hrep.extents]; exact hl.1
      · rw [hrep.bases, hrep.extents]; exact hl.2.2
    | resizeList es =>
      simp only [Option.some.injEq] at hr; subst hr
      refine throwOK_alloc dbg dflt hc h (c := .on x (.resizeList es)) rfl rfl (resizeList_x dbg dflt hv hx ?_ hl.2.1 ?_)
      · rw [hrep.extents]; exact hl.1
      · rw [hrep.bases, hrep.extents]; exact hl.2.2
    | read idx => cases hr
    | readChain idx => cases hr
    | reindex bs => cases hr
    | reindexAll b => cases hr
    | reshape es => cases hr
    | query => cases hr
  | assign x y =>
    simp only [World.mayThrow, Option.some.injEq] at hr; subst hr
    obtain ⟨abs, abs', hA, hA', he⟩ := hleg
    obtain ⟨a, hx, hrep⟩ := h.abs hA
    obtain ⟨a', hy, hrep'⟩ := h.abs hA'
    have hx : o x = some a := hx
    have hy : o y = some a' := hy
    simp only [World.step, hx, hy]
    unfold MArr.assignFrom
    by_cases hxy : x = y
    · rw [decide_eq_true hxy]
      exact .inl ⟨⟨o, s⟩, rfl⟩
    · rw [decide_eq_false hxy]
      refine throwOK_mem dbg dflt (P := fun A' => A.CopyStopped x abs.whole y abs'.whole A') ?_
        (fun A' hA'' => ⟨hxy, abs.whole, abs'.whole, part_whole hA, part_whole hA', hA''⟩)
      exact (parts_x hc h dbg hx hy hrep.partOf hrep'.partOf hrep.owns.reach.wf.wellShaped hrep'.owns.reach.wf.wellShaped he).1
  | assignPart x ss y ss' =>
    obtain ⟨p, q, hp, hq, he⟩ := hleg
    obtain ⟨a, d, hx, hd, hpo, hA, hw⟩ := h.part (s := s) dbg hp
    obtain ⟨a', d', hy, hd', hqo, hA', hw'⟩ := h.part (s := s) dbg hq
    simp only [World.mayThrow, hd, hd', Option.some.injEq] at hr; subst hr
    exact throwOK_mem dbg dflt (parts_x hc h dbg hx hy hpo hqo hw hw' he).1 (fun A' hA'' => ⟨p, q, hA, hA', hA''⟩)
  | copyArray x ss y ss' =>
    obtain ⟨p, q, hp, hq, he⟩ := hleg
    obtain ⟨a, d, hx, hd, hpo, hA, hw⟩ := h.part (s := s) dbg hp
    obtain ⟨a', d', hy, hd', hqo, hA', hw'⟩ := h.part (s := s) dbg hq
    simp only [World.mayThrow, hd, hd', Option.some.injEq] at hr; subst hr
    exact throwOK_mem dbg dflt (parts_x hc h dbg hx hy hpo hqo hw hw' he).2 (fun A' hA'' => ⟨p, q, hA, hA', hA''⟩)
  | write x ss idx v =>
    obtain ⟨p, hp, hin⟩ := hleg
    obtain ⟨a, d, hx, hd, hpo, hA, hw⟩ := h.part (s := s) dbg hp
    simp only [World.mayThrow, hd, Option.some.injEq] at hr; subst hr
    obtain ⟨r1, r2⟩ := hpo.root idx hin
    have hin' : InBox d.bases d.extents idx := by rw [hpo.bases, hpo.extents]; exact hin
    refine throwOK_mem dbg dflt (P := fun A' => ∃ junk, A.put x (p.root idx) junk = some A') ?_ (fun A' ⟨junk, hj⟩ => ⟨p, junk, hA, hj⟩)
    unfold writeElem
    rw [accessElement_inBox dbg d idx hw.1 hin', Exec.lift_ok, pure_bind, r2]
    exact cell_x hc h hx r1 v
  | forEach x ss f =>
    obtain ⟨p, hp⟩ := hleg
    obtain ⟨a, d, hx, hd, hpo, hA, hw⟩ := h.part (s := s) dbg hp
    simp only [World.mayThrow, hd, Option.some.injEq] at hr; subst hr
    exact throwOK_mem dbg dflt (forEach_x hc h dbg hx hpo hw f) (fun A' hA'' => ⟨p, hA, hA''⟩)
  | read x ss idx => cases hr
  | traverse x ss => cases hr
  | equal x ss y ss' => cases hr
  | less x ss y ss' => cases hr
  | shape x ss => cases hr

/-- One command: it completes as the abstract machine says, or it is interrupted. -/
theorem cmd_x (dbg : Bool) (dflt : T) (eq lt : T → T → Bool) {L : List Nat} {w : World T} {A : AState T} (h : InvX L w A) (c : Cmd T) (hleg : c.Legal A) :
    (∃ o A' w', A.step dflt eq lt c = some (o, A') ∧ w.execX dbg dflt eq lt c = .done o w' ∧ InvX L w' A') ∨
    (∃ w' L' A', w.execX dbg dflt eq lt c = .threw w' ∧ A.Interrupted c A' ∧ InvX L' w' A' ∧
      L'.length ≤ L.length + (if c.allocates then 1 else 0)) := by
  obtain ⟨t, hc, hr⟩ := id h
  obtain ⟨o, A', wt', e1, e2, e3⟩ := cmd_ok dbg dflt eq lt hr c hleg
  have hwc : WCalm L w ⟨w.objs, t⟩ := ⟨rfl, hc⟩
  have fin : ∀ w', WCalm L w' wt' → InvX L w' A' := by
    intro w' hw'
    obtain ⟨f1, f2⟩ := hw'
    exact ⟨wt'.st, f2, by rw [f1]; exact e3⟩
  cases hm : w.mayThrow dbg dflt c with
  | none =>
    obtain ⟨w', f1, f2⟩ := cmd_reads dbg dflt eq lt hwc c hm e2
    exact .inl ⟨o, A', w', e1, by simp only [World.execX, hm, f1], fin w' f2⟩
  | some r =>
    rcases cmd_throw dbg dflt h c hleg hm with ⟨w', rfl⟩ | ⟨w', L', A'', rfl, f2, f3, f4⟩
    · obtain ⟨rfl, f2⟩ := cmd_done dbg dflt eq lt hwc c hm e2
      exact .inl ⟨_, A', w', e1, by simp only [World.execX, hm, Result.toX], fin w' f2⟩
    · exact .inr ⟨w', L', A'', by simp only [World.execX, hm, Result.toX], f2, f3, f4⟩

end MultiArray
