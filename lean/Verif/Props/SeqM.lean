import Verif.Lemmas.RowsM
import Verif.Props.Seq
import Verif.Props.RowsX

/- Property theorems C98: iterator algorithms on elements and on rows, on a 64-bit machine. -/
set_option autoImplicit false

namespace MultiArray.Props
open MultiArray MultiArray.Spec
variable {T α : Type}

/-! ### Elements -/

/-- **C98, elements.** An algorithm that uses iterators and reverse iterators of one-dimensional parts whose dimension fits does on the 64-bit machine exactly what it does on plain sequences
(as in C75), with the same exceptions: no iterator operation overflows. -/
theorem C98_elements (dbg : Bool) (s : St T) (ds : Nat → Option Desc) (hds : ∀ c d, ds c = some d → ∃ e, LiveRow s d e)
    (hfit : ∀ c d, ds c = some d → DimsFit d.bases d.extents d.strides) (alg : IAlg T α) :
    (∀ a S' sc, alg.run (placeSeqs (fun c => (ds c).map elementPlaces)) (fun _ => none) s.get? s.sched = .done a S' sc →
      ∃ s', alg.execM dbg ds (fun _ => none) s = .ok a s' ∧ (∀ p, s'.get? p = S' p) ∧ s'.sched = sc ∧ SameStorage s s') ∧
    (∀ S' sc, alg.run (placeSeqs (fun c => (ds c).map elementPlaces)) (fun _ => none) s.get? s.sched = .threw S' sc →
      ∃ s', alg.execM dbg ds (fun _ => none) s = .throw s' ∧ (∀ p, s'.get? p = S' p) ∧ s'.sched = sc ∧ SameStorage s s') := by
  have key := execM_elements (placeSim s ds hds) dbg hfit alg (fun _ => none) (fun _ => none) s.get? s (regsRel_none _ _) ⟨fun _ => rfl, fun p v h => ⟨v, h⟩⟩
  obtain ⟨h1, h2⟩ := C75_algorithms_on_rows dbg s ds hds alg
  refine ⟨fun a S' sc hrun => ?_, fun S' sc hrun => ?_⟩
  · rw [key (by rw [hrun]; simp)]; exact h1 a S' sc hrun
  · rw [key (by rw [hrun]; simp)]; exact h2 S' sc hrun

/-- The dimensions of every part - array, subarray or view - of a program whose arrays and views fit do fit, and its handle is the one computed in ideal arithmetic. -/
theorem C98_parts_fit (dbg : Bool) {w : World T} {A : AState T} (hw : w.Rep A) (hA : A.Fits) {x : Nat} {ss : List Sel} {p : APart} (hp : A.Part x ss p) (hv : A.ExprFits x ss) :
    ∃ d, w.lookup dbg x ss = some d ∧ w.lookupM dbg x ss = some d ∧ d.bases = p.bases ∧ d.extents = p.extents ∧ DimsFit d.bases d.extents d.strides := by
  obtain ⟨a, d, h1, h2, h3, h4, h5, h6⟩ := hw.partM (t := w.st) hA dbg hp hv
  exact ⟨d, h2, h3, h4.bases, h4.extents, h6.dims⟩

/-- **C98, `std::reverse`** on the 64-bit machine. -/
theorem C98_std_reverse (dbg : Bool) (s : St T) (d : Desc) (e : Nat) (hd : LiveRow s d e) (hfit : DimsFit d.bases d.extents d.strides) (hs : s.sched = []) :
    ∃ s', (stdReverse (e + 1)).execM dbg (fun c => if c = 0 then some d else none) (fun _ => none) s = .ok true s' ∧
      (∀ k : Nat, k < e → elemAt s' d [k] = elemAt s d [e - 1 - k]) ∧ (∀ p, Outside d p → s'.cell? p = s.cell? p) ∧ SameStorage s s' := by
  obtain ⟨s', h1, h2⟩ := C75_std_reverse dbg s d e hd hs
  refine ⟨s', ?_, h2⟩
  have hlive : ∀ k : Nat, k < e → ∃ v, elemAt s d [k] = some v := by
    intro k hk
    obtain ⟨p, st, b, rfl⟩ := hd.shape
    obtain ⟨v, hv⟩ := hd.live k hk
    exact ⟨v, by unfold elemAt; simp only; rw [address_one]; exact hv⟩
  let xs : List T := List.ofFn (fun k : Fin e => Classical.choose (hlive k.1 k.2))
  have hx : xs.length = e := by simp [xs]
  have hxs : ∀ k : Nat, k < e → elemAt s d [k] = xs[k]? := by
    intro k hk
    rw [Classical.choose_spec (hlive k hk)]
    simp [xs, hk]
  obtain ⟨xs', a1, _⟩ := reverseLoop_run e (e + 1) xs
    (Seqs.setPos (Seqs.setPos (fun _ => none) 0 ⟨0, false, 0⟩) 1 ⟨0, false, e⟩) 0 e hx (Nat.zero_le _) (Nat.le_refl _) rfl rfl (by omega)
  have hrun : (stdReverse (e + 1)).run (oneList e) (fun _ => none) xs s.sched = .done true xs' [] := by rw [hs]; exact a1
  rw [← h1]
  refine execM_elements (listSim s d e hd) dbg (fun c d' h => ?_) (stdReverse (e + 1)) (fun _ => none) (fun _ => none) xs s (regsRel_none _ _) ⟨hx, hxs, fun _ _ => rfl⟩ (by
    rw [hrun]; simp)
  split at h
  · cases h; exact hfit
  · cases h

/-! ### Rows -/

/-- On the 64-bit machine a row algorithm that is legal on plain lists does, step by step and whatever throws, exactly what it does in ideal arithmetic. -/
theorem C98_same_execution (dbg : Bool) (dflt : T) (eq lt : T → T → Bool) (alloc : Nat) {w : World T} {A : AState T} (hw : w.Rep A) (sched : List (Option T))
    {seqs : Nat → Option (Nat × List Sel)} {free : Nat → Nat} {es : List Nat} (S : RowSetup A seqs free es) (F : RowsFit A seqs) {R R' : Rows T} (hR : A.HoldsRows seqs R)
    (hT : R.tmps = fun _ => none) (alg : RAlg T α) {a : α} (hrun : alg.run eq lt (A.rowCount seqs) (fun _ => none) R = some (a, R')) :
    alg.execXM dbg dflt eq lt seqs free alloc (fun _ => none) [] { w with st := { w.st with sched := sched } } =
      alg.execX dbg dflt eq lt seqs free alloc (fun _ => none) [] { w with st := { w.st with sched := sched } } := by
  have h0 : RowInv dbg A seqs free es (fun c => (seqs c).bind (fun x => w.lookup dbg x.1 x.2)) w A R :=
    ⟨hw, fun c x ss h => by simp [h], hR, fun t _ => S.fresh t, fun t v h => by simp [hT] at h, ⟨fun _ _ => rfl, fun _ _ _ _ => rfl⟩, fun t a h => by rw [S.fresh t] at h; cases h⟩
  have hwc : WCalm [] ({ w with st := { w.st with sched := sched } } : World T) w := ⟨rfl, ⟨hw.sched, rfl, fun _ h => (nomatch h), fun _ _ => rfl⟩⟩
  exact rowsM_run dflt eq lt alloc S F alg (fun _ => none) (fun _ => none) [] _ w A R hwc h0 (fun r sp h => by cases h) a R' hrun

/-- **C98, rows.** C97 on the 64-bit machine: if the arrays and views of the program fit, and so do arrays with the shape and the index bases of the rows (the temporaries), then an algorithm
on rows never overflows, whatever throws. -/
theorem C98_rows (dbg : Bool) (dflt : T) (eq lt : T → T → Bool) (alloc : Nat) {w : World T} {A : AState T} (hw : w.Rep A) (sched : List (Option T))
    {seqs : Nat → Option (Nat × List Sel)} {free : Nat → Nat} {es : List Nat} (S : RowSetup A seqs free es) (F : RowsFit A seqs) {R R' : Rows T} (hR : A.HoldsRows seqs R)
    (hT : R.tmps = fun _ => none) (alg : RAlg T α) {a : α} (hrun : alg.run eq lt (A.rowCount seqs) (fun _ => none) R = some (a, R')) :
    (∃ w' A', alg.execXM dbg dflt eq lt seqs free alloc (fun _ => none) [] { w with st := { w.st with sched := sched } } = .done a w' ∧ w'.HoldsAll A' 0 ∧
      A'.HoldsRows seqs R' ∧ A.OnlyRows A' seqs free ∧
      ∀ t, match R'.tmps t with
        | none => A' (free t) = none
        | some v => ∃ m, A' (free t) = some m ∧ m.extents = es ∧ A'.values (free t) m.whole = some v) ∨
    (∃ w' A' Q, alg.execXM dbg dflt eq lt seqs free alloc (fun _ => none) [] { w with st := { w.st with sched := sched } } = .threw w' ∧ w'.HoldsAll A' 1 ∧
      alg.Stopped eq lt (A.rowCount seqs) (fun _ => none) R Q ∧ A'.HoldsRows seqs ⟨Q, fun _ => none⟩ ∧ A.OnlyRows A' seqs free ∧ (∀ t, A' (free t) = none) ∧
      ∃ v, some v ∈ sched) := by
  rw [C98_same_execution dbg dflt eq lt alloc hw sched S F hR hT alg hrun]
  exact C97_rows_under_exceptions dbg dflt eq lt alloc hw sched S hR hT alg hrun

/-! ### When temporaries fit -/

/-- Rows with index bases 0, such as those of arrays and views that are not reindexed, always have temporaries that fit. -/
theorem C98_zero_based_rows_fit {w : World T} {A : AState T} (hw : w.Rep A) (hA : A.Fits) {x : Nat} {ss : List Sel} {p : APart} (hp : A.Part x ss p) (hv : A.ExprFits x ss)
    (h0 : ∀ b ∈ p.bases.tail, b = 0) (so : StorageOrder) (vals : List T) : (⟨p.bases.tail, p.extents.tail, so, vals⟩ : AbsArr T).Fits := by
  obtain ⟨a, d, h1, h2, h3, h4, h5, h6⟩ := hw.partM (t := w.st) hA false hp hv
  have hb := h4.bases
  have he := h4.extents
  have hin := h6.inside
  have hsz := h6.size
  rw [hb, he] at hin
  rw [he] at hsz
  have hz : ∀ (l : List Int), (∀ b ∈ l, b = 0) → ∀ st, absDot l st = 0 := by
    intro l
    induction l with
    | nil => intro _ st; cases st <;> rfl
    | cons b l ih =>
      intro h st
      cases st with
      | nil => rfl
      | cons s st => simp [absDot, h b (by simp), ih (fun b hb => h b (by simp [hb]))]
  refine ⟨?_, ?_⟩
  · rw [hz _ h0, Nat.add_zero]
    refine Nat.lt_of_le_of_lt ?_ hsz
    show sizeBound p.extents.tail ≤ sizeBound p.extents
    cases p.extents with
    | nil => exact Nat.le_refl _
    | cons e es =>
      simp only [sizeBound, List.tail_cons, List.map_cons, List.prod_cons]
      exact Nat.le_mul_of_pos_left _ (by omega)
  · show InsideIndex p.bases.tail p.extents.tail
    cases hpb : p.bases with
    | nil => cases p.extents.tail <;> trivial
    | cons b bs =>
      cases hpe : p.extents with
      | nil => cases bs <;> trivial
      | cons e es => rw [hpb, hpe] at hin; exact hin.2.2

/-- **C98, an instance.** Insertion sort of the rows of any array, subarray or view with rows of index bases 0 in a program that fits, on the 64-bit machine, when anything may throw: as C97. -/
theorem C98_insertion_sort (dbg : Bool) (dflt : T) (eq lt : T → T → Bool) (alloc : Nat) {comp : List T → List T → Bool} (hc : StrictWeak comp) {w : World T} {A : AState T}
    (hw : w.Rep A) (hA : A.Fits) (sched : List (Option T)) {x : Nat} {ss : List Sel} {p : APart} (hp : A.Part x ss p) (hv : A.ExprFits x ss) {b : Int} {bs : List Int} {e : Nat} {es : List Nat}
    (hb : p.bases = b :: bs) (h0 : ∀ b ∈ bs, b = 0)
    (he : p.extents = e :: es) (hes : es ≠ []) {y : Nat} (hy : ∀ t, A (y + t) = none) {fuel : Nat} (hf : e < fuel) :
    ∃ (w' : World T) (A' : AState T) (rows rows' : List (List T)), rows.length = e ∧ rows'.length = e ∧ (∀ i v, rows[i]? = some v → A.values x (p.rowPart i) = some v) ∧
      (∀ i v, rows'[i]? = some v → A'.values x (p.rowPart i) = some v) ∧ (∀ t, A' (y + t) = none) ∧ (∀ z, A'.header z = A.header z) ∧
      (∀ z idx, A.InRange z idx → (z = x → ∀ i, InBox p.bases p.extents i → p.root i ≠ idx) → A'.get z idx = A.get z idx) ∧
      (((insertionSort comp fuel).execXM dbg dflt eq lt (fun c => if c = 0 then some (x, ss) else none) (fun t => y + t) alloc (fun _ => none) []
          { w with st := { w.st with sched := sched } } = .done true w' ∧ w'.HoldsAll A' 0 ∧ rows'.Perm rows ∧ rows'.Pairwise (fun r r' => comp r' r = false)) ∨
       ((insertionSort comp fuel).execXM dbg dflt eq lt (fun c => if c = 0 then some (x, ss) else none) (fun t => y + t) alloc (fun _ => none) []
          { w with st := { w.st with sched := sched } } = .threw w' ∧ w'.HoldsAll A' 1 ∧ (∃ v, some v ∈ sched) ∧
          ∃ i0 : Nat, (∀ (i : Nat) (r : List T), rows'[i]? = some r → i ≠ i0 → r ∈ rows) ∧
            ∀ r, rows'[i0]? = some r → r ∈ rows ∨ ∃ v u j junk, v ∈ rows ∧ u ∈ rows ∧ j < u.length ∧ r = v.take j ++ junk :: u.drop (j + 1))) := by
  have S : RowSetup A (fun c => if c = 0 then some (x, ss) else none) (fun t => y + t) es := by
    refine ⟨hes, ?_, ?_, hy, fun t t' h => by simpa using h⟩
    · intro c x' ss' h
      split at h
      · cases h; exact ⟨p, b, bs, e, hp, hb, he⟩
      · cases h
    · intro c c' x' s1 s2 p1 p2 hne h1 h2
      split at h1
      · split at h2
        · omega
        · cases h2
      · cases h1
  have hpp := part_some hp
  have F : RowsFit A (fun c => if c = 0 then some (x, ss) else none) := by
    refine ⟨hA, ?_, ?_⟩
    · intro c x' ss' h
      split at h
      · cases h; exact hv
      · cases h
    · intro c x' ss' p' h h'
      split at h
      · cases h
        rw [hpp] at h'
        cases h'
        exact C98_zero_based_rows_fit hw hA hp hv (by rw [hb]; exact h0) _ _
      · cases h
  have hcnt : A.rowCount (fun c => if c = 0 then some (x, ss) else none) 0 = some e := by simp [AState.rowCount, hpp, he]
  obtain ⟨R, hR, hT⟩ := C92_rows_exist hw S
  obtain ⟨hl, _⟩ := hR 0 x ss p (by simp) hpp
  rw [he] at hl
  have hl : (R.seqs 0).length = e := hl
  obtain ⟨R', f1, _⟩ := sortLoop_run eq lt hc hcnt fuel hf fuel [] (R.seqs 0)
    (Seqs.setPos (Seqs.setPos (Seqs.setPos (fun _ => none) 0 ⟨0, false, 0⟩) 1 ⟨0, false, 0⟩) 4 ⟨0, false, e⟩) R rfl (by simpa using hl) List.Pairwise.nil hT
    rfl rfl rfl (by omega)
  rw [C98_same_execution dbg dflt eq lt alloc hw sched S F hR hT (insertionSort comp fuel) (a := true) (R' := R') (by
    simp only [insertionSort, RAlg.run, hcnt, Option.bind_some]
    exact f1)]
  exact C97_insertion_sort dbg dflt eq lt alloc hc hw sched hp hb he hes hy hf

/-! ### States that meet the hypotheses -/

/-- Reversing a view with stride -2 of a three-element array on the 64-bit machine. -/
example : ∃ v s', ovArr.desc.slice true exBack = .ok v ∧ LiveRow ovSt v.desc 2 ∧ DimsFit v.desc.bases v.desc.extents v.desc.strides ∧
    (stdReverse 3).execM true (fun c => if c = 0 then some v.desc else none) (fun _ => none) ovSt = .ok true s' ∧ elemAt s' ovArr.desc [2] = some 10 := by
  have h : LiveRow ovSt (theView exBack ovArr.desc).desc 2 :=
    ⟨rfl, 1, ovArr, ovArr_reach, handle_view ovArr_reach.wf (g := exBack) .array (by decide) (.range .empty rfl) rfl rfl .refl, ovSt_live⟩
  have hf : DimsFit (theView exBack ovArr.desc).desc.bases (theView exBack ovArr.desc).desc.extents (theView exBack ovArr.desc).desc.strides := by
    show DimsFit [0] [2] [-2]
    refine ⟨by decide, by decide, by decide, fun i h1 h2 => ?_, trivial⟩
    simp only [Machine.InIndex]
    omega
  obtain ⟨s', h1, h2, h3, _⟩ := C98_std_reverse true ovSt _ 2 h hf rfl
  exact ⟨theView exBack ovArr.desc, s', rfl, h, hf, h1, h2 0 (by decide)⟩

theorem rowsSetup_fits : ∃ (w : World Nat) (A : AState Nat), w.Rep A ∧ A.Fits ∧
    A 1 = some ⟨[1, 0], [3, 2], StorageOrder.fortranOrder 2, [10, 20, 30, 40, 50, 60]⟩ ∧ ∀ t, A (2 + t) = none := by
  obtain ⟨os, A, w, e1, _, e3⟩ := execAll_refines true 0 (fun a b => a == b) (fun a b => decide (a < b)) exchangeSetup start_rep exchangeSetup_legal
  have hA : AState.run 0 (fun a b => a == b) (fun a b => decide (a < b)) exchangeSetup noVars = some (os, A) := e1
  refine ⟨w, A, e3, ?_⟩
  simp [exchangeSetup, AState.run, AState.step, CInit.value, AState.set, noVars, AbsArr.step] at hA
  obtain ⟨_, rfl⟩ := hA
  refine ⟨?_, rfl, fun t => ?_⟩
  · intro x a hx
    by_cases h1 : x = 1
    · subst h1
      rw [AState.set_same] at hx
      cases hx
      exact ⟨by decide, by decide, by decide, by decide, by decide, trivial⟩
    · by_cases h0 : x = 0
      · subst h0
        rw [AState.set_other _ (by decide), AState.set_other _ (by decide), AState.set_same] at hx
        cases hx
        exact ⟨by decide, by decide, by decide, by decide, by decide, trivial⟩
      · rw [AState.set_other _ h1, AState.set_other _ h1, AState.set_other _ h0, AState.set_other _ h0] at hx
        cases hx
  · have h0 : ¬ 2 + t = 0 := by omega
    have h1 : ¬ 2 + t = 1 := by omega
    rw [AState.set_other _ h1, AState.set_other _ h1, AState.set_other _ h0, AState.set_other _ h0]
    rfl

/-- The hypotheses hold for `b(extents[range(1,4)][2], fortran_storage_order())` and the rows of `b` backwards, a view, sorted by their last elements, whatever throws. -/
example (sched : List (Option Nat)) : ∃ (w : World Nat) (A : AState Nat) (w' : World Nat), w.Rep A ∧ A.Fits ∧
    ((insertionSort byLast 4).execXM true 0 (fun a b => a == b) (fun a b => decide (a < b)) (fun c => if c = 0 then some (1, backRows) else none) (fun t => 2 + t) 0 (fun _ => none) []
        { w with st := { w.st with sched := sched } } = .done true w' ∨
     (insertionSort byLast 4).execXM true 0 (fun a b => a == b) (fun a b => decide (a < b)) (fun c => if c = 0 then some (1, backRows) else none) (fun t => 2 + t) 0 (fun _ => none) []
        { w with st := { w.st with sched := sched } } = .threw w') := by
  obtain ⟨w, A, h, hf, h1, h2⟩ := rowsSetup_fits
  obtain ⟨w', A', rows, rows', _, _, _, _, _, _, _, e1⟩ := C98_insertion_sort true 0 (fun a b => a == b) (fun a b => decide (a < b)) 0 byLast_order h hf sched
    (x := 1) (ss := backRows) ⟨_, h1, backRows_legal _ rfl rfl, rfl⟩ (by
      intro a ha
      rw [h1] at ha
      cases ha
      refine ⟨⟨?_, by decide +kernel⟩, trivial⟩
      show RangesFit [1, 0] [3, 2] [1, 3] ([IndexArg.range (IndexRange.mk3 3 0 (-1)), .range (IndexRange.mk3 0 2 1)].map IndexArg.toRange)
      simp only [List.map, IndexArg.toRange, RangesFit, RangeFits]
      decide +kernel)
    (b := 0) (bs := [0]) (e := 3) (es := [2]) (by decide) (by decide) (by decide) (by decide) h2 (fuel := 4) (by decide)
  exact ⟨w, A, w', h, hf, e1.imp (fun h => h.1) (fun h => h.1)⟩

/-- What the library's run on the 64-bit machine leaves in `b`, and whether it threw. -/
def sortSeenM (sched : List (Option Nat)) : Option (Bool × List Nat) :=
  (World.execAll true 0 (fun a b => a == b) (fun a b => decide (a < b)) exchangeSetup (World.start [])).bind (fun r =>
    match (insertionSort byLast 4).execXM true 0 (fun a b => a == b) (fun a b => decide (a < b)) (fun c => if c = 0 then some (1, backRows) else none) (fun t => 2 + t) 0 (fun _ => none) []
        { r.2 with st := { r.2.st with sched := sched } } with
    | .done _ w => (World.execAll true 0 (fun a b => a == b) (fun a b => decide (a < b)) [.traverse 1 []] w).bind (fun q =>
        match q.1 with | [.values vs] => some (true, vs) | _ => none)
    | .threw w => (World.execAll true 0 (fun a b => a == b) (fun a b => decide (a < b)) [.traverse 1 []] w).bind (fun q =>
        match q.1 with | [.values vs] => some (false, vs) | _ => none)
    | .failed => none)

example : sortSeenM [] = some (true, [30, 60, 20, 50, 10, 40]) := by decide +kernel

example : sortSeenM [none, none, none, none, none, none, none, none, none, none, none, none, none, some 7] = some (false, [10, 40, 30, 7, 30, 60]) := by decide +kernel

/-! ### A hazard -/

/-- `a(extents[1][2][4], fortran_storage_order()); a.reindex({0, 2^61, 0})` -/
def hazardSetup : List (Cmd Nat) := [.construct 0 (.extents 3 [1, 2, 4] (StorageOrder.fortranOrder 3) 0), .on 0 (.reindex [0, 2 ^ 61, 0])]

/-- The first row is copied to a temporary. -/
def hazardAlg : RAlg Nat Bool := .begin 0 0 (.take 0 (.row 0) (.ret true))

/-- The condition on temporaries cannot be dropped: the array, with `1 * 0 + 1 * 2^61 + 2 * 0` below 2^63, and its rows fit, but a temporary of its row has the strides 4 and 1 of the C order,
and its constructor overflows in `2^61 * 4`; in ideal arithmetic nothing is wrong. -/
example :
    (⟨[0, 2 ^ 61, 0], [1, 2, 4], StorageOrder.fortranOrder 3, []⟩ : AbsArr Nat).Fits ∧
    ((World.execAll true 0 (fun a b => a == b) (fun a b => decide (a < b)) hazardSetup (World.start [])).map (fun r =>
      match hazardAlg.execX true 0 (fun a b => a == b) (fun a b => decide (a < b)) (fun c => if c = 0 then some (0, []) else none) (fun t => 1 + t) 0 (fun _ => none) [] r.2 with
      | .done a _ => a | _ => false) = some true) ∧
    ((World.execAll true 0 (fun a b => a == b) (fun a b => decide (a < b)) hazardSetup (World.start [])).map (fun r =>
      match hazardAlg.execXM true 0 (fun a b => a == b) (fun a b => decide (a < b)) (fun c => if c = 0 then some (0, []) else none) (fun t => 1 + t) 0 (fun _ => none) [] r.2 with
      | .failed => true | _ => false) = some true) := by
  refine ⟨⟨by decide +kernel, ?_⟩, by decide +kernel, by decide +kernel⟩
  exact ⟨by decide, by decide, by decide, by decide, by decide, by decide, trivial⟩

end MultiArray.Props
