import Verif.Lemmas.HeadersThread

/-
Property theorem C105: threads that share array and view objects.  `HThread`, `Print`, `SeparatedH` are in SpecHeaders.lean, `Pool`, `Step`, `Run`, `Racing` in SpecConc.lean.
-/
set_option autoImplicit false

namespace MultiArray.Props
open MultiArray MultiArray.Spec
variable {T : Type}

/-- Running the threads one after the other is one of the schedules. -/
theorem seq_runH (dbg : Bool) {L : Nat → Prop} (ts : List (HThread T)) (Ps : List Print) (pre : List (Prog (Word T) Unit)) {sc : Scope} {m s : St (Word T)} (hlen : ts.length = Ps.length)
    (hr : HRel L sc m s) (he : ∀ (i : Nat) P, Ps[i]? = some P → Elems L P m) (hu : ∀ (i : Nat) t P, ts[i]? = some t → Ps[i]? = some P → t.Uses P sc) (hsep : SeparatePrints Ps) :
    ∃ sc' m' s' is, execAllH dbg ts sc s = .ok sc' s' ∧ Run ⟨m, pre ++ ts.map (HThread.prog dbg)⟩ is ⟨m', pre ++ ts.map (fun _ => .ret ())⟩ ∧ HRel L sc' m' s' := by
  induction ts generalizing Ps pre sc m s with
  | nil => exact ⟨sc, m, s, [], rfl, .nil, hr⟩
  | cons t ts ih =>
    match Ps, hlen with
    | P :: Ps, hlen =>
      obtain ⟨sc1, m1, s1, e1, e2, e3, e4, e5⟩ := thread_sound dbg t hr (he 0 P rfl) (hu 0 t P rfl rfl)
      obtain ⟨m1', is, f1, f2, _⟩ := exec_runG (t.prog dbg) m (pre ++ t.prog dbg :: ts.map (HThread.prog dbg)) pre.length (by simp) e1.1 hr.calm
      rw [e1.2] at f1; cases f1
      obtain ⟨sc', m', s', js, g1, g2, g3⟩ := ih Ps (pre ++ [.ret ()]) (by simpa using hlen) e3 (fun i Q hQ => e5.elems (he (i + 1) Q hQ))
        (fun i t Q ht hQ => uses_congr t (fun x hx => e4 x (fun hc => by
          have := (hsep 0 (i + 1) P Q (by omega) rfl hQ).2 x hc
          tauto)) (hu (i + 1) t Q ht hQ))
        (fun i j Q Q' hij hQ hQ' => hsep (i + 1) (j + 1) Q Q' (by omega) hQ hQ')
      refine ⟨sc', m', s', is ++ js, ?_, Run.append f2 ?_, g3⟩
      · simp only [execAllH]; rw [Exec.bind_ok e2]; exact g1
      · simpa using g2

theorem _root_.MultiArray.Spec.SeparatedH.rel {ts : List (HThread T)} {Ps : List Print} {sc : Scope} {m : St (Word T)} (h : SeparatedH ts Ps sc m) : HRel (fun x => sc x ≠ none) sc m m :=
  ⟨fun _ => Iff.rfl, h.objects, fun _ _ => rfl, h.nothrow, h.nothrow⟩

theorem _root_.MultiArray.Spec.SeparatedH.elems {ts : List (HThread T)} {Ps : List Print} {sc : Scope} {m : St (Word T)} (h : SeparatedH ts Ps sc m) (i : Nat) (P : Print) (hP : Ps[i]? = some P) :
    Elems (fun x => sc x ≠ none) P m := by
  intro p hp
  obtain ⟨h1, v, hv⟩ := h.elements i P hP p hp
  exact ⟨by simp [h1], .elem v, hv, v, rfl⟩

/-- The cells the threads may use. -/
def printsOf (sc : Scope) (Ps : List Print) : Prints := Ps.map (fun P => (cellsR (fun x => sc x ≠ none) P, cellsW (fun x => sc x ≠ none) P))

theorem _root_.MultiArray.Spec.SeparatedH.prints {ts : List (HThread T)} {Ps : List Print} {sc : Scope} {m : St (Word T)} (h : SeparatedH ts Ps sc m) : Separate (printsOf sc Ps) := by
  intro i j R W R' W' hij hi hj p hp
  simp only [printsOf, List.getElem?_map, Option.map_eq_some_iff] at hi hj
  obtain ⟨P, hP, e⟩ := hi
  obtain ⟨Q, hQ, e'⟩ := hj
  cases e; cases e'
  obtain ⟨s1, s2⟩ := h.separate i j P Q hij hP hQ
  rcases hp with ⟨x, f, rfl, hL, hc⟩ | hp
  · refine ⟨?_, ?_⟩
    · rintro (⟨y, g, hy, _, hc'⟩ | hq)
      · obtain ⟨rfl, rfl⟩ := Field.at_inj hy
        have := s2 x hc
        tauto
      · exact hL (h.elements j Q hQ _ (.inl hq)).1
    · rintro (⟨y, g, hy, _, hc'⟩ | hq)
      · obtain ⟨rfl, rfl⟩ := Field.at_inj hy
        exact (s2 x hc).2 hc'
      · exact hL (h.elements j Q hQ _ (.inr hq)).1
  · refine ⟨?_, ?_⟩
    · rintro (⟨y, g, rfl, hL, _⟩ | hq)
      · exact hL (h.elements i P hP _ (.inr hp)).1
      · exact (s1 p hp).1 hq
    · rintro (⟨y, g, rfl, hL, _⟩ | hq)
      · exact hL (h.elements i P hP _ (.inr hp)).1
      · exact (s1 p hp).2 hq

theorem _root_.MultiArray.Spec.SeparatedH.safe {ts : List (HThread T)} {Ps : List Print} {sc : Scope} {m : St (Word T)} (h : SeparatedH ts Ps sc m) (dbg : Bool) :
    SafeG (printsOf sc Ps) (⟨m, ts.map (HThread.prog dbg)⟩ : Pool (Word T)) := by
  refine ⟨by simpa [printsOf] using h.len, ?_⟩
  intro i t R W ht hfp
  simp only [printsOf, List.getElem?_map, Option.map_eq_some_iff] at ht hfp
  obtain ⟨t', ht', rfl⟩ := ht
  obtain ⟨P, hP, e⟩ := hfp
  cases e
  obtain ⟨_, _, _, e1, _⟩ := thread_sound dbg t' h.rel (h.elems i P hP) (h.uses i t' P ht' hP)
  exact e1.1

/-- **C105.** Threads that share array and view *objects* as well as elements.  If no object changed (reindexed, reshaped, created) by one thread is looked at or changed by another and no element
written by one is used by another, then under every interleaving of the accesses to data members and elements the threads end after the same number of steps; the objects and the elements are
then those of running the threads one after the other in the sequential model; and no schedule gets stuck. -/
theorem C105_schedule_independence (dbg : Bool) (ts : List (HThread T)) (Ps : List Print) (sc : Scope) (m : St (Word T)) (h : SeparatedH ts Ps sc m) :
    ∃ sc' s' N, execAllH dbg ts sc m = .ok sc' s' ∧ ∀ is c, Run ⟨m, ts.map (HThread.prog dbg)⟩ is c →
      is.length ≤ N ∧ (Finished c ↔ is.length = N) ∧
      (Finished c → HoldsAll c.mem sc' ∧ ∀ p, sc p.blk = none → c.mem.get? p = s'.get? p) ∧
      (∀ (i : Nat) t, c.threads[i]? = some t → t ≠ .ret () → ∃ c', Step c i c') := by
  obtain ⟨sc', m', s', is0, e1, e2, e3⟩ := seq_runH dbg ts Ps [] h.len h.rel h.elems h.uses h.separate
  refine ⟨sc', s', is0.length, e1, ?_⟩
  intro is c hr
  have e2' : Run ⟨m, ts.map (HThread.prog dbg)⟩ is0 ⟨m', (ts.map (HThread.prog dbg)).map (fun _ => .ret ())⟩ := by rw [List.map_map]; exact e2
  obtain ⟨g1, g2, g3⟩ := schedulesG _ h.prints _ m m' (h.safe dbg) is0 e2' is c hr
  refine ⟨g1, g2, fun hf => ?_, fun i t ht hne => ((h.safe dbg).run h.prints hr).progress ht hne⟩
  rw [g3 hf]
  exact ⟨e3.objs, fun p hp => e3.same p (by simp [hp])⟩

/-- **C105.** ... and no schedule reaches a data race, neither on elements nor on data members. -/
theorem C105_no_data_race (dbg : Bool) (ts : List (HThread T)) (Ps : List Print) (sc : Scope) (m : St (Word T)) (h : SeparatedH ts Ps sc m) (is : List Nat) (c : Pool (Word T))
    (hr : Run ⟨m, ts.map (HThread.prog dbg)⟩ is c) : ¬ Racing c :=
  ((h.safe dbg).run h.prints hr).no_race h.prints

/-! ### Changing an array while others use views of it -/

/-- The thread `x.reindex(..); x.reshape(..); ...` -/
def changer (x : Nat) (ty : ObjType) (ops : List HdrOp) : HThread T := ops.foldr (fun op k => .change x ty op k) .done

theorem typeOf_apply {op : HdrOp} {o o' : Obj} (h : op.apply o = .ok o') : TypeOf o' = TypeOf o := by
  cases op with
  | reindex bs =>
    cases o with
    | array a =>
      simp only [HdrOp.apply, ARef.reindexList] at h
      cases hc : copyN bs a.numDims with
      | ok bs' => rw [hc] at h; cases h; rfl
      | assertFail => rw [hc] at h; cases h
      | ub => rw [hc] at h; cases h
    | view v =>
      simp only [HdrOp.apply, View.reindexList] at h
      cases hc : copyN bs v.numDims with
      | ok bs' => rw [hc] at h; cases h; rfl
      | assertFail => rw [hc] at h; cases h
      | ub => rw [hc] at h; cases h
  | reindexAll b =>
    cases o with
    | array a => cases h; rfl
    | view v => cases h; rfl
  | reshape dbg es =>
    cases o with
    | array a =>
      simp only [HdrOp.apply] at h
      cases hc : a.reshape dbg es with
      | ok a' =>
        rw [hc] at h; cases h
        unfold ARef.reshape at hc
        cases h1 : Res.assert dbg (decide (a.numElems = product es)) with
        | assertFail => rw [h1] at hc; cases hc
        | ub => rw [h1] at hc; cases hc
        | ok u =>
          rw [h1, Res.bind_ok] at hc
          cases h2 : copyPrefix es a.extents with
          | assertFail => rw [h2] at hc; cases hc
          | ub => rw [h2] at hc; cases hc
          | ok es' =>
            rw [h2, Res.bind_ok] at hc
            cases h3 : computeStrides a.strides es' a.storage with
            | assertFail => rw [h3] at hc; cases hc
            | ub => rw [h3] at hc; cases hc
            | ok ss => 
              rw [h3, Res.bind_ok] at hc; cases hc
              unfold copyPrefix at h2
              split at h2
              · rename_i hle
                cases h2
                simp only [TypeOf, ObjType.mk.injEq, true_and]
                show (es ++ a.extents.drop es.length).length = a.extents.length
                rw [List.length_append, List.length_drop]; omega
              · cases h2
      | assertFail => rw [hc] at h; cases h
      | ub => rw [hc] at h; cases h
    | view v => cases h

/-- What a thread that only changes `x` uses. -/
def changerPrint (x : Nat) : Print := ⟨fun _ => False, (· = x), fun _ => False, fun _ => False⟩

theorem changer_legal (dbg : Bool) {x : Nat} (ops : List HdrOp) {sc sc' : Scope} {o : Obj} (hx : sc x = some o) (hm : sc.modify x ops = .ok sc') :
    (changer x (TypeOf o) ops : HThread T).Uses (changerPrint x) sc ∧ ∀ s, (changer x (TypeOf o) ops : HThread T).exec dbg sc s = .ok sc' s := by
  induction ops generalizing sc o with
  | nil => cases hm; exact ⟨trivial, fun s => rfl⟩
  | cons op ops ih =>
    simp only [Scope.modify, hx] at hm
    cases ha : op.apply o with
    | assertFail => rw [ha] at hm; cases hm
    | ub => rw [ha] at hm; cases hm
    | ok o' =>
      rw [ha, Res.bind_ok] at hm
      have := ih (o := o') (sc := sc.set x (some o')) (by unfold Scope.set; rw [if_pos rfl]) hm
      rw [typeOf_apply ha] at this
      refine ⟨⟨rfl, o, o', hx, rfl, ha, this.1⟩, fun s => ?_⟩
      show HThread.exec dbg (.change x (TypeOf o) op (changer x (TypeOf o) ops)) sc s = _
      simp only [HThread.exec, hx, ha]
      rw [lift_bind]
      exact this.2 s

/-- **C105.** One thread may `reindex` and `reshape` the array `x` while another uses views of `x` made before (or other arrays), and other threads yet other objects: every schedule ends, the user
of the views sees and leaves exactly what it would running alone, and `x` ends reindexed and reshaped. -/
theorem C105_change_while_views_are_used (dbg : Bool) (t : HThread T) (P : Print) (sc sc' : Scope) (m : St (Word T)) (x : Nat) (o : Obj) (ops : List HdrOp) (hx : sc x = some o)
    (hm : sc.modify x ops = .ok sc') (hu : t.Uses P sc) (hfree : ¬ P.looks x ∧ ¬ P.changes x) (hobj : HoldsAll m sc)
    (hel : ∀ p, P.reads p ∨ P.writes p → sc p.blk = none ∧ ∃ v, m.get? p = some (.elem v)) (hs : m.sched = []) :
    ∃ sct s' N, t.exec dbg sc m = .ok sct s' ∧ ∀ is c, Run ⟨m, [t.prog dbg, (changer x (TypeOf o) ops : HThread T).prog dbg]⟩ is c →
      is.length ≤ N ∧ (Finished c ↔ is.length = N) ∧ ¬ Racing c ∧
      (Finished c → HoldsAll c.mem (sct.set x (sc' x)) ∧ ∀ p, sc p.blk = none → c.mem.get? p = s'.get? p) := by
  have hch := changer_legal (T := T) dbg ops hx hm
  have hsep : SeparatedH [t, changer x (TypeOf o) ops] [P, changerPrint x] sc m := by
    refine ⟨rfl, ?_, ?_, hobj, ?_, hs⟩
    · intro i u Q hi hQ
      match i, hi, hQ with
      | 0, hi, hQ => cases hi; cases hQ; exact hu
      | 1, hi, hQ => cases hi; cases hQ; exact hch.1
    · intro i j Q Q' hij hQ hQ'
      match i, j, hij, hQ, hQ' with
      | 0, 0, hij, _, _ => exact absurd rfl hij
      | 1, 1, hij, _, _ => exact absurd rfl hij
      | 0, 1, _, hQ, hQ' =>
        cases hQ; cases hQ'
        exact ⟨fun p _ => ⟨id, id⟩, fun y hy => ⟨id, fun e => hfree.2 (by cases e; exact hy)⟩⟩
      | 1, 0, _, hQ, hQ' =>
        cases hQ; cases hQ'
        exact ⟨fun p hp => hp.elim, fun y hy => by cases hy; exact hfree⟩
    · intro i Q hQ p hp
      match i, hQ with
      | 0, hQ => cases hQ; exact hel p hp
      | 1, hQ => cases hQ; rcases hp with h | h <;> exact h.elim
  obtain ⟨sct, m1, s1, _, e2, e3, e4, _⟩ := thread_sound dbg t hsep.rel (hsep.elems 0 P rfl) hu
  have hx' : sct x = some o := by rw [e4 x hfree.2]; exact hx
  have hmod : ∀ (ops : List HdrOp) (a b a' : Scope), a x = b x → a.modify x ops = .ok a' → b.modify x ops = .ok (b.set x (a' x)) := by
    intro ops
    induction ops with
    | nil =>
      intro a b a' hab ha
      cases ha
      simp only [Scope.modify]
      congr 1
      funext y
      unfold Scope.set
      split
      · rename_i h; subst h; exact hab.symm
      · rfl
    | cons op ops ih =>
      intro a b a' hab ha
      simp only [Scope.modify] at ha ⊢
      rw [hab] at ha
      cases hb : b x with
      | none => rw [hb] at ha; cases ha
      | some ob =>
        rw [hb] at ha
        simp only at ha ⊢
        cases hap : op.apply ob with
        | assertFail => rw [hap] at ha; cases ha
        | ub => rw [hap] at ha; cases ha
        | ok o' =>
          rw [hap, Res.bind_ok] at ha
          rw [Res.bind_ok, ih (a.set x (some o')) (b.set x (some o')) a' (by simp [Scope.set]) ha]
          congr 1
          funext y
          unfold Scope.set
          split <;> rfl
  have hch2 := (changer_legal (T := T) dbg ops hx' (hmod ops sc sct sc' (by rw [hx', hx]) hm)).2
  obtain ⟨scf, sf, N, g1, g2⟩ := C105_schedule_independence dbg _ _ sc m hsep
  have hexec : execAllH dbg [t, changer x (TypeOf o) ops] sc m = .ok (sct.set x (sc' x)) s1 := by
    simp only [execAllH]
    rw [Exec.bind_ok e2, Exec.bind_ok (hch2 s1)]
    rfl
  rw [hexec] at g1
  cases g1
  refine ⟨sct, s1, N, e2, ?_⟩
  intro is c hr
  obtain ⟨k1, k2, k3, _⟩ := g2 is c hr
  exact ⟨k1, k2, C105_no_data_race dbg _ _ sc m hsep is c hr, k3⟩

/-! ### An example, and the hazard -/

/-- The cells of an object. -/
def objCells : Obj → List (Cell (Word Nat))
  | .array a => [.obj (.ptr a.base), .obj (.int a.originOffset), .obj (.size a.numElems), .obj (.sizes a.extents), .obj (.indices a.strides), .obj (.indices a.bases), .obj (.order a.storage),
      .obj (.int a.directionalOffset)]
  | .view v => [.obj (.ptr v.base), .obj (.int v.originOffset), .obj (.size v.numElems), .obj (.sizes v.extents), .obj (.indices v.strides), .obj (.indices v.bases)]

/-- A 2 × 3 array with index bases 10 and 1; the elements are in block 0. -/
def shArr : ARef := ⟨⟨0, 0⟩, StorageOrder.cOrder 2, [2, 3], [3, 1], [10, 1], -31, 0, 6⟩

/-- Its last row, as a view made before. -/
def shView : View := ⟨⟨0, 3⟩, 0, 3, [3], [1], [0]⟩

/-- The array is object 1, the view object 2. -/
def shScope : Scope := fun x => if x = 1 then some (.array shArr) else if x = 2 then some (.view shView) else none

/-- Elements 0, 10, .., 50. -/
def shSt : St (Word Nat) :=
  { heap := fun b => match b with
      | 0 => some ⟨0, [.obj (.elem 0), .obj (.elem 10), .obj (.elem 20), .obj (.elem 30), .obj (.elem 40), .obj (.elem 50)]⟩
      | 1 => some ⟨0, objCells (.array shArr)⟩
      | 2 => some ⟨0, objCells (.view shView)⟩
      | _ => none
    next := 3, sched := [] }

/-- `int t = v(2); v(0) = t + 1;` -/
def shUser : HThread Nat := .read (.obj 2) [2] (fun t => .write (.obj 2) [0] (t + 1) .done)
/-- What it uses. -/
def shPrint : Print := ⟨(· = 2), fun _ => False, (· = ⟨0, 5⟩), (· = ⟨0, 3⟩)⟩

theorem shArr_reachable : Reachable 2 shArr :=
  .reindexList (a := ⟨⟨0, 0⟩, StorageOrder.cOrder 2, [2, 3], [3, 1], [0, 0], 0, 0, 6⟩) (bs := [10, 1]) (.ofExtents (p := ⟨0, 0⟩) (exts := [2, 3]) (so := StorageOrder.cOrder 2) (by decide) rfl) rfl

/-- `shView` is a view of the array: `a[indices[11][range(1,4)]]`. -/
theorem shView_handle : IsHandle shView.desc := by
  let g1 : IndexGen := ⟨1, 0, [IndexRange.single 11]⟩
  let g : IndexGen := ⟨2, 1, [IndexRange.single 11, IndexRange.mk3 1 4]⟩
  have hg : Built g := .range (g := g1) (r := IndexRange.mk3 1 4) (.index (i := 11) .empty (by decide +kernel) (by decide +kernel) (by decide +kernel)) (by decide +kernel)
  refine ⟨2, shArr, shArr_reachable, .view (g := g) (v := shView) .array ?_ hg rfl (by decide +kernel) .refl⟩
  intro j hj
  match j, hj with
  | [i], hj =>
    obtain ⟨h1, h2, _⟩ := hj
    show InBox [10, 1] [2, 3] [11, 1 + i * 1]
    refine ⟨by decide, by decide, ?_, ?_, trivial⟩
    · omega
    · simp only [Nat.cast_ofNat] at h2 ⊢; omega

theorem shSt_holds : HoldsAll shSt shScope := by
  intro x o hx f w hf
  unfold shScope at hx
  split at hx
  · rename_i h; subst h; cases hx
    cases f <;> (cases hf; rfl)
  · split at hx
    · rename_i h; subst h; cases hx
      cases f <;> first | (cases hf; rfl) | cases hf
    · cases hx

/-- Hypotheses of `C105_change_while_views_are_used` (and with it of `C105_schedule_independence`): one thread computes `v(0) = v(2) + 1` through the view made before, the other executes
`a.reshape({{3,2}}); a.reindex(0);`. -/
theorem shSetup : ∃ sc', shScope 1 = some (.array shArr) ∧ shScope.modify 1 [.reshape true [3, 2], .reindexAll 0] = .ok sc' ∧ sc' 1 = some (.array ⟨⟨0, 0⟩, StorageOrder.cOrder 2, [3, 2], [2, 1], [0, 0], 0, 0, 6⟩) ∧
    shUser.Uses shPrint shScope ∧ (¬ shPrint.looks 1 ∧ ¬ shPrint.changes 1) ∧ HoldsAll shSt shScope ∧
    (∀ p, shPrint.reads p ∨ shPrint.writes p → shScope p.blk = none ∧ ∃ v, shSt.get? p = some (.elem v)) ∧ shSt.sched = [] := by
  refine ⟨_, rfl, rfl, rfl, ?_, ⟨show ¬ (1 : Nat) = 2 by decide, id⟩, shSt_holds, ?_, rfl⟩
  · exact ⟨rfl, shView.desc, rfl, shView_handle, by decide, rfl, fun v => ⟨rfl, shView.desc, rfl, shView_handle, by decide, rfl, trivial⟩⟩
  · rintro p (h | h)
    · cases h; exact ⟨rfl, 50, rfl⟩
    · cases h; exact ⟨rfl, 30, rfl⟩

example : ∃ sc' sct s' N, shScope.modify 1 [.reshape true [3, 2], .reindexAll 0] = .ok sc' ∧ shUser.exec true shScope shSt = .ok sct s' ∧
    ∀ is c, Run ⟨shSt, [shUser.prog true, (changer 1 ⟨false, 2⟩ [.reshape true [3, 2], .reindexAll 0] : HThread Nat).prog true]⟩ is c →
      is.length ≤ N := by
  obtain ⟨sc', h1, h2, _, h3, h4, h5, h6, h7⟩ := shSetup
  obtain ⟨sct, s', N, e1, e2⟩ := C105_change_while_views_are_used true shUser shPrint shScope sc' shSt 1 (.array shArr) _ h1 h2 h3 h4 h5 h6 h7
  exact ⟨sc', sct, s', N, h2, e1, fun is c hr => (e2 is c hr).1⟩

/-- A thread that holds a row and makes a view: `auto w = a[indices[10][range(1,3)]]; auto r = a[11]; w(1) = r(3);` is legal as well (the memory of `w` held another view before). -/
example : (HThread.slice (.obj 1) ⟨2, 1, [IndexRange.single 10, IndexRange.mk3 1 3]⟩ 2 (.bracket (.obj 1) 11 (fun r => .read (.sub r) [3] (fun t => .write (.obj 2) [1] t .done))) : HThread Nat).Uses
    ⟨(fun x => x = 1 ∨ x = 2), (· = 2), (· = ⟨0, 5⟩), (· = ⟨0, 1⟩)⟩ shScope := by
  let v : View := ⟨⟨0, 0⟩, 0, 2, [2], [1], [0]⟩
  have hv : IsHandle v.desc := by
    let g : IndexGen := ⟨2, 1, [IndexRange.single 10, IndexRange.mk3 1 3]⟩
    have hg : Built g := .range (r := IndexRange.mk3 1 3) (.index (i := 10) .empty (by decide) (by decide) rfl) rfl
    exact ⟨2, shArr, shArr_reachable, .view (g := g) (v := v) .array (staysInside_of_noOverrun (handle_wellShaped shArr_reachable .array) (by decide) hg rfl rfl) hg rfl rfl .refl⟩
  have hr : IsHandle ⟨⟨0, 2⟩, [3], [1], [1]⟩ := ⟨2, shArr, shArr_reachable, .sub (i := 11) .array rfl⟩
  refine ⟨.inl rfl, rfl, shArr.desc, v, shView, rfl, rfl, rfl, .inl rfl, shArr.desc, ⟨⟨0, 2⟩, [3], [1], [1]⟩, rfl, rfl, .inl rfl, ⟨⟨0, 2⟩, [3], [1], [1]⟩, rfl, hr, by decide, rfl, fun t => ?_⟩
  exact ⟨.inr rfl, v.desc, rfl, hv, by decide, rfl, trivial⟩

/-- Whole-array operations: `r = a[10]; q = a[11]; if (r != q) { r = q; for_each(r, +1); a < a; copy_array(q, r); }` is legal for a thread that may look at `a` and may read all six elements, and write those of row 10. -/
example : (HThread.bracket (.obj 1) 10 (fun r => .bracket (.obj 1) 11 (fun q => .equal 1 (.sub r) (.sub q) (· == ·) (fun b => bif b then .done else .assign 1 (.sub r) (.sub q)
      (.forEach 1 (.sub r) (· + 1) (.less 2 (.obj 1) (.obj 1) (fun x y => decide (x < y)) (fun _ => .copyArray 1 (.sub q) (.sub r) .done)))))) : HThread Nat).Uses
    ⟨(· = 1), (fun _ => False), (fun p => p.blk = 0 ∧ 0 ≤ p.off ∧ p.off < 6), (fun p => p.blk = 0 ∧ 0 ≤ p.off ∧ p.off < 3)⟩ shScope := by
  let r : Desc := ⟨⟨0, -1⟩, [3], [1], [1]⟩
  let q : Desc := ⟨⟨0, 2⟩, [3], [1], [1]⟩
  have hr : IsHandle r := ⟨2, shArr, shArr_reachable, .sub (i := 10) .array rfl⟩
  have hq : IsHandle q := ⟨2, shArr, shArr_reachable, .sub (i := 11) .array rfl⟩
  have ha : IsHandle shArr.desc := ⟨2, shArr, shArr_reachable, .array⟩
  have kr : ∀ idx, InBox r.bases r.extents idx → (address r idx).blk = 0 ∧ 0 ≤ (address r idx).off ∧ (address r idx).off < 3 := by
    intro idx h
    match idx, h with
    | [i], h => simp only [r, InBox, address, dot, Ptr.add] at h ⊢; exact ⟨trivial, by omega, by omega⟩
  have kq : ∀ idx, InBox q.bases q.extents idx → (address q idx).blk = 0 ∧ 0 ≤ (address q idx).off ∧ (address q idx).off < 6 := by
    intro idx h
    match idx, h with
    | [i], h => simp only [q, InBox, address, dot, Ptr.add] at h ⊢; exact ⟨trivial, by omega, by omega⟩
  have ka : ∀ idx, InBox shArr.desc.bases shArr.desc.extents idx → (address shArr.desc idx).blk = 0 ∧ 0 ≤ (address shArr.desc idx).off ∧ (address shArr.desc idx).off < 6 := by
    intro idx h
    match idx, h with
    | [i, j], h => simp only [shArr, ARef.desc, ARef.origin, InBox, address, dot, Ptr.add] at h ⊢; exact ⟨trivial, by omega, by omega⟩
  have kr6 : ∀ idx, InBox r.bases r.extents idx → (address r idx).blk = 0 ∧ 0 ≤ (address r idx).off ∧ (address r idx).off < 6 := by
    intro idx h
    obtain ⟨h1, h2, h3⟩ := kr idx h
    exact ⟨h1, h2, by omega⟩
  refine ⟨rfl, shArr.desc, r, rfl, rfl, rfl, shArr.desc, q, rfl, rfl, rfl, rfl, r, q, rfl, rfl, hr, hq, rfl, rfl, kr6, kq, ?_⟩
  rintro (_ | _)
  · exact ⟨rfl, rfl, r, q, rfl, rfl, hr, hq, rfl, rfl, kq, kr, rfl, r, rfl, hr, rfl, fun idx h => ⟨kr6 idx h, kr idx h⟩, rfl, rfl, shArr.desc, shArr.desc, rfl, rfl, ha, ha, rfl, rfl, ka, ka,
      fun _ => ⟨rfl, rfl, r, q, rfl, rfl, hr, hq, rfl, rfl, kq, kr, trivial⟩⟩
  · trivial

/-- One step of thread `i`, computed. -/
def stepF (c : Pool T) (i : Nat) : Option (Pool T) :=
  match c.threads[i]? with
  | some (.load p k) => match c.mem.get? p with
    | some v => some ⟨c.mem, c.threads.set i (k v)⟩
    | none => none
  | some (.store p v k) => match c.mem.get? p with
    | some _ => some ⟨c.mem.setCell p (.obj v), c.threads.set i k⟩
    | none => none
  | _ => none

theorem stepF_step {c c' : Pool T} {i : Nat} (h : stepF c i = some c') : Step c i c' := by
  obtain ⟨m, ts⟩ := c
  unfold stepF at h
  split at h
  · rename_i p k ht
    split at h
    · rename_i v hv; cases h; exact .load ht hv
    · cases h
  · rename_i p v k ht
    split at h
    · rename_i w hw; cases h; exact .store ht hw
    · cases h
  · cases h

theorem step_stepF {c c' : Pool T} {i : Nat} (h : Step c i c') : stepF c i = some c' := by
  cases h with
  | load ht hv => simp only [stepF, ht, hv]
  | store ht hv => simp only [stepF, ht, hv]

/-- A whole schedule, computed. -/
def runF (c : Pool T) : List Nat → Option (Pool T)
  | [] => some c
  | i :: is => match stepF c i with
    | some c' => runF c' is
    | none => none

theorem runF_run {is : List Nat} {c c' : Pool T} (h : runF c is = some c') : Run c is c' := by
  induction is generalizing c with
  | nil => cases h; exact .nil
  | cons i is ih =>
    unfold runF at h
    split at h
    · rename_i c1 h1; exact .cons (stepF_step h1) (ih h)
    · cases h

/-- `a.reshape({{3,2}});` -/
def shReshape : HThread Nat := .change 1 ⟨false, 2⟩ (.reshape true [3, 2]) .done
/-- `a(11,2) = 7;` -/
def shWrite : HThread Nat := .write (.obj 1) [11, 2] 7 .done

theorem shStuck : ∃ c, runF (⟨shSt, [shReshape, shWrite].map (HThread.prog true)⟩ : Pool (Word Nat)) [1, 1, 0, 0, 0, 0, 0, 0, 0, 0, 0, 0, 0, 1, 1, 1] = some c ∧
    c.threads[1]? = some (.store ⟨0, -7⟩ (.elem 7) (.ret ())) ∧ c.mem.get? ⟨0, -7⟩ = none := ⟨_, rfl, rfl, rfl⟩

/-- **C105, hazard.** Without separation of the objects: `a` is 2 × 3 with index bases 10 and 1, one thread executes `a.reshape({{3,2}})`, another `a(11,2) = 7`.  Index (11,2) is in range before and
after the change, so both sequential orders are fine; but a schedule in which the second thread reads the old origin and the new strides passes all assertions and stores outside the
array's memory. -/
theorem C105_header_race_hazard : Reachable 2 shArr ∧ HoldsAll shSt shScope ∧
    (∃ sc' s', execAllH true [shReshape, shWrite] shScope shSt = .ok sc' s') ∧ (∃ sc' s', execAllH true [shWrite, shReshape] shScope shSt = .ok sc' s') ∧
    ∃ is c v k, Run ⟨shSt, [shReshape, shWrite].map (HThread.prog true)⟩ is c ∧ c.threads[1]? = some (.store ⟨0, -7⟩ v k) ∧ ∀ c', ¬ Step c 1 c' := by
  obtain ⟨c, h1, h2, h3⟩ := shStuck
  refine ⟨shArr_reachable, shSt_holds, ⟨_, _, rfl⟩, ⟨_, _, rfl⟩, _, c, _, _, runF_run h1, h2, ?_⟩
  intro c' hs
  have := step_stepF hs
  simp only [stepF, h2, h3] at this
  cases this

/-- ... and this is a data race in the sense of the C++ memory model: both threads are about to access the same data member, one of them writing it. -/
theorem C105_header_race : ∃ is c, Run (⟨shSt, [shReshape, shWrite].map (HThread.prog true)⟩ : Pool (Word Nat)) is c ∧ Racing c := by
  refine ⟨[0, 0, 1, 1], _, runF_run rfl, 0, 1, Field.extents.at 1, true, false, by decide, .inr ⟨rfl, .sizes [3, 2], ?_⟩, .inl ⟨rfl, ?_⟩, .inl rfl⟩
  · exact ⟨_, rfl⟩
  · exact ⟨_, rfl⟩

end MultiArray.Props
