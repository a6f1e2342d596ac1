import Verif.Model.HandleIters
import Verif.Props.Handles

/-
Property theorems C57, second part: iterators over subarrays, and which elements the subarray has that an old iterator is dereferenced to.
-/
set_option autoImplicit false

namespace MultiArray.Props
open MultiArray Spec

/-- The iterators of an object are those of the subarray of depth 0. -/
theorem begin_eq_sub {sc : Scope} {x : Nat} {o : Obj} (ho : sc x = some o) :
    sc.begin x = SubObj.begin sc ⟨o.desc.base, x, 0⟩ ∧ sc.end x = SubObj.end sc ⟨o.desc.base, x, 0⟩ := by
  simp [Scope.begin, Scope.end, SubObj.begin, SubObj.end, SubObj.desc, ho]

theorem drop_cons_of_lt {α : Type} : ∀ (k : Nat) (l : List α), k < l.length → ∃ a, l[k]? = some a ∧ l.drop k = a :: l.drop (k + 1)
  | 0, a :: l, _ => ⟨a, rfl, rfl⟩
  | k + 1, a :: l, h => by
    obtain ⟨b, h1, h2⟩ := drop_cons_of_lt k l (by simpa using h)
    exact ⟨b, by simpa using h1, by simpa using h2⟩

/-- **C57** for iterators over the array or view `x` itself (depth 0) and over every subarray `y` of it, partial.  Let `it + m` be such an iterator, obtained before any
history of `reindex` calls; `e`, `b` and `b'` are the extent and the old and new index base of the dimension it walks.  Then: it is the iterator that was dereferenced to
`y[b + m]`; with assertions disabled it is dereferenced to the same subarray object `s` as before; with assertions enabled it can be dereferenced exactly when `b + m` lies in the *new*
index range; and the elements of `s` at its positions are those it had before, displaced by one distance, which depends on the bases of the remaining dimensions only: they are the same
elements exactly when the distance is 0, in particular when these bases are as before.  Missing: the property as stated, false by `C57_counterexample` and
`C57_counterexample_two_dimensions`. -/
theorem C57_subarray_iterators_partial {x : Nat} {o : Obj} {sc sc' : Scope} (ho : sc x = some o) (hw : WellShaped o.desc) {y : SubObj} (hyo : y.owner = x)
    (hyd : y.depth < o.desc.extents.length) (ops : List HdrOp) (hre : ∀ op ∈ ops, isReindex op) (hrun : Scope.modify x ops sc = .ok sc') (m : Int) :
    ∃ (it : ItObj) (o' : Obj) (e : Nat) (b b' : Int) (s : SubObj) (d d' : Desc), y.begin sc = .ok it ∧ y.end sc = .ok (it.advance (e : Int)) ∧ sc' x = some o' ∧
      o.desc.extents[y.depth]? = some e ∧ o.desc.bases[y.depth]? = some b ∧ o'.desc.bases[y.depth]? = some b' ∧
      (∀ dbg, (it.advance m).deref dbg sc = y.bracket dbg sc (b + m)) ∧
      (it.advance m).deref false sc = .ok s ∧ (it.advance m).deref false sc' = .ok s ∧
      ((it.advance m).deref true sc = if 0 ≤ m ∧ m < (e : Int) then .ok s else .assertFail) ∧
      ((it.advance m).deref true sc' = if b' ≤ b + m ∧ b + m < b' + (e : Int) then .ok s else .assertFail) ∧
      s.desc sc = .ok d ∧ s.desc sc' = .ok d' ∧ d.extents = o.desc.extents.drop (y.depth + 1) ∧ d.strides = o.desc.strides.drop (y.depth + 1) ∧
      d.bases = o.desc.bases.drop (y.depth + 1) ∧
      d'.extents = d.extents ∧ d'.strides = d.strides ∧ d'.bases = o'.desc.bases.drop (y.depth + 1) ∧
      (∀ k, InShape d.extents k → address d' (atPos d'.bases k) = (address d (atPos d.bases k)).add (dot d'.bases d.strides - dot d.bases d.strides)) ∧
      ((∃ k, InShape d.extents k) → (SameElements d d' ↔ dot d'.bases d.strides = dot d.bases d.strides)) ∧
      (d'.bases = d.bases → d' = d) := by
  obtain ⟨o', e1, e2, e3, e4⟩ := modify_reindex ops ho hre hrun
  have e4 := e4 hw.2
  obtain ⟨e, he, hes⟩ := drop_cons_of_lt y.depth o.desc.extents hyd
  obtain ⟨t, ht, hss⟩ := drop_cons_of_lt y.depth o.desc.strides (by rw [hw.1]; exact hyd)
  obtain ⟨b, hb, hbs⟩ := drop_cons_of_lt y.depth o.desc.bases (by rw [hw.2]; exact hyd)
  obtain ⟨b', hb', hbs'⟩ := drop_cons_of_lt y.depth o'.desc.bases (by rw [e4]; exact hyd)
  have hd : ∀ p j, SubObj.desc sc ⟨p, y.owner, j⟩ = .ok ⟨p, o.desc.extents.drop j, o.desc.strides.drop j, o.desc.bases.drop j⟩ := by
    intro p j; simp only [SubObj.desc, hyo, ho]
  have hd' : ∀ p j, SubObj.desc sc' ⟨p, y.owner, j⟩ = .ok ⟨p, o.desc.extents.drop j, o.desc.strides.drop j, o'.desc.bases.drop j⟩ := by
    intro p j; simp only [SubObj.desc, hyo, e1, e2, e3]
  have hfalse : ∀ (bb : Int) (bbs : List Int), access false (b + m) ⟨y.base, e :: o.desc.extents.drop (y.depth + 1), t :: o.desc.strides.drop (y.depth + 1), bb :: bbs⟩ =
      .ok ⟨y.base.add ((b + m) * t), o.desc.extents.drop (y.depth + 1), o.desc.strides.drop (y.depth + 1), bbs⟩ := by
    intro bb bbs; simp [access, Res.assert]
  have htrue : ∀ (bb : Int) (bbs : List Int), (access true (b + m) ⟨y.base, e :: o.desc.extents.drop (y.depth + 1), t :: o.desc.strides.drop (y.depth + 1), bb :: bbs⟩ >>= fun d =>
      Res.ok (SubObj.mk d.base y.owner (y.depth + 1))) =
      if bb ≤ b + m ∧ b + m < bb + (e : Int) then .ok ⟨y.base.add ((b + m) * t), y.owner, y.depth + 1⟩ else .assertFail := by
    intro bb bbs
    by_cases hc : bb ≤ b + m ∧ b + m < bb + (e : Int)
    · rw [if_pos hc, access_ok true _ _ _ _ _ _ _ _ hc.1 hc.2, Res.bind_ok]
    · rw [if_neg hc, access_fail _ _ _ _ _ _ _ _ hc, Res.bind_assertFail]
  refine ⟨⟨b, y.base, y.owner, y.depth⟩, o', e, b, b', ⟨y.base.add ((b + m) * t), y.owner, y.depth + 1⟩, _, _, ?_, ?_, e1, he, hb, hb', ?_, ?_, ?_, ?_, ?_,
    hd _ _, hd' _ _, rfl, rfl, rfl, rfl, rfl, rfl, ?_, ?_, ?_⟩
  · show SubObj.begin sc ⟨y.base, y.owner, y.depth⟩ = _
    simp only [SubObj.begin, hd, Res.bind_ok, Desc.begin, hbs, Res.get, List.getElem?_cons_zero]
  · show SubObj.end sc ⟨y.base, y.owner, y.depth⟩ = _
    simp only [SubObj.end, hd, Res.bind_ok, Desc.end, hbs, hes, Res.get, List.getElem?_cons_zero, ItObj.advance]
  · intro dbg; rfl
  · simp only [ItObj.deref, ItObj.advance, ItObj.desc, hd, hes, hss, hbs, Res.bind_ok, hfalse]
  · simp only [ItObj.deref, ItObj.advance, ItObj.desc, hd', hes, hss, hbs', Res.bind_ok, hfalse]
  · simp only [ItObj.deref, ItObj.advance, ItObj.desc, hd, hes, hss, hbs, Res.bind_ok, htrue]
    have : (b ≤ b + m ∧ b + m < b + (e : Int)) ↔ (0 ≤ m ∧ m < (e : Int)) := by omega
    simp only [this]
  · simp only [ItObj.deref, ItObj.advance, ItObj.desc, hd', hes, hss, hbs', Res.bind_ok, htrue]
  · intro k hk
    exact displaced _ _ _ _ _ (by simp [hw.2]) (by simp [e4]) hk
  · rintro ⟨k, hk⟩
    have h8 := fun {k : List Nat} => @displaced (y.base.add ((b + m) * t)) (o.desc.extents.drop (y.depth + 1)) (o.desc.strides.drop (y.depth + 1)) (o.desc.bases.drop (y.depth + 1))
      (o'.desc.bases.drop (y.depth + 1)) (by simp [hw.2]) (by simp [e4]) k
    constructor
    · intro hs
      have := (hs.2 k hk).symm.trans (h8 hk)
      rw [← Ptr.add_zero (address ⟨y.base.add ((b + m) * t), o.desc.extents.drop (y.depth + 1), o.desc.strides.drop (y.depth + 1), o.desc.bases.drop (y.depth + 1)⟩ _),
        Ptr.add_add, Ptr.add_inj] at this
      simp only
      omega
    · intro he
      refine ⟨rfl, fun k hk => ?_⟩
      rw [h8 hk]
      simp only at he
      rw [he, sub_self, Ptr.add_zero]
  · intro h
    simp only at h
    rw [h]

/-- The iterators of `C57_subarray_iterators_partial` for `y = ⟨origin, x, 0⟩` are those of `x` itself. -/
theorem C57_object_iterators {sc : Scope} {x : Nat} {o : Obj} (ho : sc x = some o) :
    sc.begin x = SubObj.begin sc ⟨o.desc.base, x, 0⟩ ∧ sc.end x = SubObj.end sc ⟨o.desc.base, x, 0⟩ ∧
      ∀ dbg i, sc.bracket dbg x i = SubObj.bracket dbg sc ⟨o.desc.base, x, 0⟩ i := by
  refine ⟨(begin_eq_sub ho).1, (begin_eq_sub ho).2, fun dbg i => ?_⟩
  simp [Scope.bracket, SubObj.bracket, SubObj.desc, ho]

/-- **C57 is false as stated in a second way**: a 2x3 array, `it = a.begin()`, then only the bases of the second dimension are changed, to 5.  `*it` passes all assertions, and so does
`(*it)(6)`; the row it denotes has another first element than before, and `(*it)(6)` is outside the array's storage. -/
theorem C57_counterexample_two_dimensions :
    ∃ (A : ARef) (sc sc' : Scope) (it : ItObj) (s : SubObj), Reachable 2 A ∧ A.numElements = 6 ∧ sc 0 = some (.array A) ∧ sc.begin 0 = .ok it ∧
      Scope.modify 0 [.reindex [0, 5]] sc = .ok sc' ∧ it.deref true sc = .ok s ∧ it.deref true sc' = .ok s ∧
      s.paren true sc [0] = .ok (A.data.add 0) ∧ s.paren true sc' [5] = .ok (A.data.add 5) ∧ s.paren true sc' [6] = .ok (A.data.add 6) :=
  ⟨⟨⟨7, 0⟩, StorageOrder.cOrder 2, [2, 3], [3, 1], [0, 0], 0, 0, 6⟩, _, _, _, _,
    .ofExtents (p := ⟨7, 0⟩) (exts := [2, 3]) (so := StorageOrder.cOrder 2) (by decide) rfl, rfl,
    Scope.set_same (fun _ => none) 0 _, rfl, rfl, rfl, rfl, rfl, rfl, rfl⟩

/-- Hypotheses met: an iterator over the row `x[0][6]` of `exArr` (and, with depth 0, over `exArr` itself), two calls of `reindex`. -/
example := C57_subarray_iterators_partial (sc := exScope) (x := 0) rfl ⟨rfl, rfl⟩ (y := ⟨⟨7, 4⟩, 0, 2⟩) rfl (by decide) [.reindex [9, 5, 1], .reindexAll 4] (by simp [isReindex]) rfl 1
example := C57_subarray_iterators_partial (sc := exScope) (x := 0) rfl ⟨rfl, rfl⟩ (y := ⟨exArr.desc.base, 0, 0⟩) rfl (by decide) [.reindex [9, 5, 1]] (by simp [isReindex]) rfl 1

/-- **C54**, **C57**, what the calls of `reindex` do to the object itself: whatever was called before, the last one decides the index bases (the bases given, in every dimension,
or the same base in all of them), and no other object changes.  With this the theorems above say which handles remain valid in terms of the arguments of `reindex`. -/
theorem C57_bases_after_reindex {x : Nat} {o : Obj} {sc sc' : Scope} (ho : sc x = some o) (hw : WellShaped o.desc) (ops : List HdrOp) (op : HdrOp)
    (hre : ∀ op' ∈ ops ++ [op], isReindex op') (hrun : Scope.modify x (ops ++ [op]) sc = .ok sc') :
    ∃ o', sc' x = some o' ∧ (∀ y, y ≠ x → sc' y = sc y) ∧
      (∀ bs, op = .reindex bs → bs.length = o.desc.extents.length → o'.desc.bases = bs) ∧
      (∀ b, op = .reindexAll b → o'.desc.bases = List.replicate o.desc.extents.length b) := by
  induction ops generalizing sc o with
  | nil =>
    simp only [List.nil_append, Scope.modify, ho] at hrun
    cases ha : op.apply o with
    | assertFail => rw [ha] at hrun; cases hrun
    | ub => rw [ha] at hrun; cases hrun
    | ok o1 =>
      rw [ha, Res.bind_ok] at hrun
      cases hrun
      refine ⟨o1, Scope.set_same _ _ _, fun y hy => by simp [Scope.set, hy], ?_, ?_⟩
      · rintro bs rfl hl
        cases o with
        | array a =>
          simp only [HdrOp.apply, ARef.reindexList, copyN] at ha
          split at ha
          · simp only [Res.bind_ok, Res.ok.injEq] at ha
            subst ha
            exact List.take_of_length_le (by simp only [Obj.desc, ARef.desc] at hl; simp only [ARef.numDims]; omega)
          · cases ha
        | view v =>
          simp only [HdrOp.apply, View.reindexList, copyN] at ha
          split at ha
          · simp only [Res.bind_ok, Res.ok.injEq] at ha
            subst ha
            exact List.take_of_length_le (by simp only [Obj.desc, View.desc] at hl; simp only [View.numDims]; omega)
          · cases ha
      · rintro b rfl
        cases o with
        | array a => simp only [HdrOp.apply, Res.ok.injEq] at ha; subst ha; rfl
        | view v => simp only [HdrOp.apply, Res.ok.injEq] at ha; subst ha; rfl
  | cons op1 ops ih =>
    have hsplit : ∃ sc1, Scope.modify x [op1] sc = .ok sc1 ∧ Scope.modify x (ops ++ [op]) sc1 = .ok sc' := by
      simp only [List.cons_append, Scope.modify, ho] at hrun ⊢
      cases ha : op1.apply o with
      | assertFail => rw [ha] at hrun; cases hrun
      | ub => rw [ha] at hrun; cases hrun
      | ok o1 => rw [ha, Res.bind_ok] at hrun; exact ⟨_, rfl, hrun⟩
    obtain ⟨sc1, g1, g2⟩ := hsplit
    obtain ⟨o1, e1, e2, e3, e4⟩ := modify_reindex [op1] ho (fun p hp => hre p (by simp at hp; simp [hp])) g1
    have hoth : ∀ y, y ≠ x → sc1 y = sc y := by
      intro y hy
      simp only [Scope.modify, ho] at g1
      cases ha : op1.apply o with
      | assertFail => rw [ha] at g1; cases g1
      | ub => rw [ha] at g1; cases g1
      | ok o2 => rw [ha, Res.bind_ok] at g1; cases g1; simp [Scope.set, hy]
    have hw1 : WellShaped o1.desc := ⟨by rw [e2, e3]; exact hw.1, by rw [e2]; exact e4 hw.2⟩
    obtain ⟨o', f1, f2, f3, f4⟩ := ih e1 hw1 (fun p hp => hre p (by
      rw [List.cons_append]; exact List.mem_cons_of_mem _ hp)) g2
    rw [e2] at f3 f4
    exact ⟨o', f1, fun y hy => (f2 y hy).trans (hoth y hy), f3, f4⟩

example := C57_bases_after_reindex (sc := exScope) (x := 0) rfl ⟨rfl, rfl⟩ [.reindex [9, 5, 1]] (.reindexAll 4) (by simp [isReindex]) rfl

end MultiArray.Props
