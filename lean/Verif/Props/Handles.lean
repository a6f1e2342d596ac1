import Verif.Lemmas.Handles
import Verif.Props.Views

/- Property theorems C53, C54, C57, C58: handles held across later changes of the object they came from. -/
set_option autoImplicit false

namespace MultiArray.Props
open MultiArray Spec

/-- Old and new index tuple of one zero-based position. -/
theorem relabel_eq {bs bs' idx : List Int} {es : List Nat} (h : InBox bs es idx) (hb : bs'.length = es.length) :
    relabel bs bs' idx = atPos bs' (posList bs idx) := by
  induction es generalizing bs bs' idx with
  | nil => match bs, idx, h, bs', hb with | [], [], _, [], _ => rfl
  | cons e es ih => match bs, idx, h, bs', hb with
    | b :: bs, i :: idx, h, b' :: bs', hb =>
      obtain ⟨h1, h2, h3⟩ := h
      have := ih h3 (bs' := bs') (by simpa using hb)
      simp only [relabel, atPos, posList] at this
      simp only [relabel, atPos, posList, List.zipWith_cons_cons, this, List.cons.injEq, and_true]
      omega

/-- **C53.** A view `w` taken from the array `x` (or from any subarray or view of it, possibly reindexed itself) is unaffected by any later
history of `reindex` and `reshape` calls on the array: the view object is unchanged; in-range view indices still denote the elements they
denoted when the view was made (`start + j*stride` in the source); each of these is still an element of the array as it is now, and if
the array was only reindexed it is the one with the correspondingly relabelled index. -/
theorem C53_views_survive {n : Nat} {A : ARef} (hA : Reachable n A) {d : Desc} (hd : Handle A d) {g : IndexGen}
    {v v' : View} (hno : StaysInside d g v) (hb : Built g) (hlen : g.ranges.length = d.extents.length)
    (hv : generateArrayView true g d = .ok v) (hh : ViewHistory v v')
    (sc sc' : Scope) (x w : Nat) (hxw : x ≠ w) (hx : sc x = some (.array A)) (hw : sc w = some (.view v'))
    (ops : List HdrOp) (hleg : ∀ op ∈ ops, HdrOp.Legal n A.numElements op) (hrun : Scope.modify x ops sc = .ok sc') :
    sc' w = some (.view v') ∧ ∃ A', sc' x = some (.array A') ∧ A'.data = A.data ∧ A'.numElements = A.numElements ∧
      ∀ dbg j, InBox v'.bases v'.extents j → ∃ p idx idx',
        v'.paren dbg j = .ok p ∧
        accessElement dbg (selected g.ranges d.bases (List.zipWith (· - ·) j v'.bases)) d = .ok p ∧
        InBox A.bases A.extents idx ∧ A.paren dbg idx = .ok p ∧
        InBox A'.bases A'.extents idx' ∧ A'.paren dbg idx' = .ok p ∧
        ((∀ op ∈ ops, isReindex op) → idx' = relabel A.bases A'.bases idx) := by
  obtain ⟨A', e1, e2, e3, e4, e5, e6⟩ := modify_array ops hA hx hleg hrun
  refine ⟨by rw [modify_ne ops hrun w hxw.symm, hw], A', e1, e3, e4, ?_⟩
  intro dbg j hj
  obtain ⟨p, h1, h2⟩ := C16_view_elements hA hd hno hb hlen hv hh dbg j hj
  have hvh : Handle A v'.desc := .view hd hno hb hlen hv hh
  obtain ⟨_, f, hf, _⟩ := hvh.embedding hA.wf
  obtain ⟨f1, f2⟩ := hf j hj
  have hwv := handle_wellShaped hA hvh
  have hp : p = address v'.desc j := by
    have := accessElement_inBox dbg v'.desc j hwv.1 hj
    rw [View.paren, this] at h1
    cases h1; rfl
  have hpA : A.paren dbg (f j) = .ok p := by
    rw [hA.wf.paren_ok dbg f1, hp, f2]; rfl
  have hflat := hA.wf.paren_flat dbg f1
  rw [hpA] at hflat
  have hwA' := e2.wf.wellShaped
  -- the element's place in the block
  have hplace := address_at hA.wf f1
  have hadr : address A.desc (f j) = p := by
    have := accessElement_inBox dbg A.desc (f j) hA.wf.wellShaped.1 f1
    rw [ARef.paren, this] at hpA
    cases hpA; rfl
  have hlt := place_lt hA.wf (posList_inShape f1)
  obtain ⟨k, hk, hke⟩ := place_surj e2.wf (p := place A.storage A.extents (posList A.bases (f j))) (by rw [e4]; exact hlt)
  have hin' : InBox A'.bases A'.extents (atPos A'.bases k) := inBox_atPos hwA'.2 hk
  have hA'p : A'.paren dbg (atPos A'.bases k) = .ok p := by
    have h3 := accessElement_inBox dbg A'.desc _ hwA'.1 hin'
    rw [ARef.paren, h3, address_place e2.wf hk, hke, e3, ← hplace, hadr]
  refine ⟨p, f j, atPos A'.bases k, h1, h2, f1, hpA, hin', hA'p, ?_⟩
  intro hre
  have hext := e6 hre
  rw [relabel_eq f1 (by rw [← hext]; exact hwA'.2)]
  congr 1
  apply place_inj e2.wf hk (by rw [hext]; exact posList_inShape f1)
  rw [hke, e5, hext]

/-- Hypotheses of C53 met: a reversed, strided view of `exArr` (bases -1,5,0), then reindex, reshape and reindex of the array. -/
example : ∃ (g : IndexGen) (v : View) (sc' : Scope), StaysInside exArr.desc g v ∧ Built g ∧
    generateArrayView true g exArr.desc = .ok v ∧ v.extents = [2, 2] ∧
    Scope.modify 0 [.reindexAll 4, .reshape true [4, 1, 6], .reindex [1, 2, 3]]
      (Scope.set (Scope.set (fun _ => none) 0 (some (.array exArr))) 1 (some (.view v))) = .ok sc' ∧
    (∀ op ∈ ([.reindexAll 4, .reshape true [4, 1, 6], .reindex [1, 2, 3]] : List HdrOp), HdrOp.Legal 3 exArr.numElements op) := by
  refine ⟨⟨3, 2, [IndexRange.default, IndexRange.single 6, IndexRange.mk3 3 (-1) (-2)]⟩, _, _, staysInside_of_noOverrun (handle_wellShaped exArr_reachable .array) (by decide) ?_ rfl rfl, ?_, rfl, by decide, rfl, ?_⟩
  · exact .range (.index (.range .empty (r := IndexRange.default) rfl) (i := 6) (by decide) (by decide) rfl) (r := IndexRange.mk3 3 (-1) (-2)) rfl
  · exact .range (.index (.range .empty (r := IndexRange.default) rfl) (i := 6) (by decide) (by decide) rfl) (r := IndexRange.mk3 3 (-1) (-2)) rfl
  · intro op hop
    simp only [List.mem_cons, List.not_mem_nil, or_false] at hop
    rcases hop with rfl | rfl | rfl
    · trivial
    · exact ⟨rfl, by decide⟩
    · rfl

/-! ### C54 -/

/-- **C54**, what actually happens: after any history of `reindex` calls on the owner `x` (array or view), a subarray obtained before has
the same shape and strides, the new index bases, and every element displaced by the *same* distance
`Σ (new base - old base)*stride` over its own dimensions. -/
theorem C54_displacement {x : Nat} {o : Obj} {sc sc' : Scope} (ho : sc x = some o) (hw : WellShaped o.desc) {dbg : Bool} {i : Int}
    {is : List Int} {y : SubObj} (hy : Scope.chain dbg sc x i is = .ok y) (ops : List HdrOp) (hre : ∀ op ∈ ops, isReindex op)
    (hrun : Scope.modify x ops sc = .ok sc') :
    ∃ d d' o', y.desc sc = .ok d ∧ y.desc sc' = .ok d' ∧ sc' x = some o' ∧ d'.extents = d.extents ∧ d'.strides = d.strides ∧
      d.bases = o.desc.bases.drop (is.length + 1) ∧ d'.bases = o'.desc.bases.drop (is.length + 1) ∧
      ∀ k, InShape d.extents k →
        address d' (atPos d'.bases k) = (address d (atPos d.bases k)).add (dot d'.bases d.strides - dot d.bases d.strides) := by
  obtain ⟨o', e1, e2, e3, e4⟩ := modify_reindex ops ho hre hrun
  obtain ⟨h1, h2⟩ := chain_owner dbg sc x i is y hy
  have hd : y.desc sc = .ok ⟨y.base, o.desc.extents.drop y.depth, o.desc.strides.drop y.depth, o.desc.bases.drop y.depth⟩ := by
    unfold SubObj.desc; rw [h1, ho]
  have hd' : y.desc sc' = .ok ⟨y.base, o.desc.extents.drop y.depth, o.desc.strides.drop y.depth, o'.desc.bases.drop y.depth⟩ := by
    unfold SubObj.desc; rw [h1, e1]; simp only [e2, e3]
  refine ⟨_, _, o', hd, hd', e1, rfl, rfl, by rw [h2], by rw [h2], ?_⟩
  intro k hk
  exact displaced y.base _ _ _ _ (by simp [hw.2]) (by simp [e4 hw.2]) hk

/-- **C54**, partial: the subarray keeps denoting the same elements exactly when that distance is 0 (for a non-empty subarray); in particular
when the reindexing leaves the bases of the subarray's own dimensions alone.  Missing: the property as stated, for arbitrary new bases; it is
false, see `C54_counterexample`. -/
theorem C54_subarrays_survive_partial {x : Nat} {o : Obj} {sc sc' : Scope} (ho : sc x = some o) (hw : WellShaped o.desc) {dbg : Bool} {i : Int}
    {is : List Int} {y : SubObj} (hy : Scope.chain dbg sc x i is = .ok y) (ops : List HdrOp) (hre : ∀ op ∈ ops, isReindex op)
    (hrun : Scope.modify x ops sc = .ok sc') :
    ∃ d d' o', y.desc sc = .ok d ∧ y.desc sc' = .ok d' ∧ sc' x = some o' ∧
      ((∃ k, InShape d.extents k) → (SameElements d d' ↔ dot d'.bases d.strides = dot d.bases d.strides)) ∧
      (o'.desc.bases.drop (is.length + 1) = o.desc.bases.drop (is.length + 1) → SameElements d d') := by
  obtain ⟨d, d', o', h1, h2, h3, h4, h5, h6, h7, h8⟩ := C54_displacement ho hw hy ops hre hrun
  refine ⟨d, d', o', h1, h2, h3, ?_, ?_⟩
  · rintro ⟨k, hk⟩
    constructor
    · intro hs
      have := (hs.2 k hk).symm.trans (h8 k hk)
      have h0 : (address d (atPos d.bases k)).add 0 = (address d (atPos d.bases k)).add (dot d'.bases d.strides - dot d.bases d.strides) := by
        rw [Ptr.add_zero]; exact this
      rw [Ptr.add_inj] at h0
      omega
    · intro he
      refine ⟨h4, fun k hk => ?_⟩
      rw [h8 k hk, he, sub_self, Ptr.add_zero]
  · intro he
    refine ⟨h4, fun k hk => ?_⟩
    rw [h8 k hk, h7, he, ← h6, sub_self, Ptr.add_zero]

/-- **C54 is false as stated**: take a 2x3 array, hold `s = a[0]`, and call `a.reindex(5)`.  Now `s.index_bases()` is 5, but the element at
that index is not the former first element: it is `data()[5]` (an element of the *other* row), and `s(6)`, in range and accepted by the
assertions, is outside the array's storage. -/
theorem C54_counterexample :
    ∃ (A : ARef) (sc sc' : Scope) (s : SubObj) (d d' : Desc), Reachable 2 A ∧ A.numElements = 6 ∧ sc 0 = some (.array A) ∧
      sc.bracket true 0 0 = .ok s ∧ Scope.modify 0 [.reindexAll 5] sc = .ok sc' ∧ s.desc sc = .ok d ∧ s.desc sc' = .ok d' ∧
      d.bases = [0] ∧ s.paren true sc [0] = .ok (A.data.add 0) ∧
      d'.bases = [5] ∧ s.paren true sc' [5] = .ok (A.data.add 5) ∧ s.paren true sc' [6] = .ok (A.data.add 6) :=
  ⟨⟨⟨7, 0⟩, StorageOrder.cOrder 2, [2, 3], [3, 1], [0, 0], 0, 0, 6⟩, _, _, _, _, _,
    .ofExtents (p := ⟨7, 0⟩) (exts := [2, 3]) (so := StorageOrder.cOrder 2) (by decide) rfl, rfl,
    Scope.set_same (fun _ => none) 0 _, rfl, rfl, rfl, rfl, rfl, by decide, rfl, by decide, by decide⟩

/-- Hypotheses of `C54_subarrays_survive_partial` met with an actual change: reindexing only the first dimension. -/
example : ∃ (s : SubObj) (sc' : Scope), Scope.chain true (Scope.set (fun _ => none) 0 (some (.array exArr))) 0 0 [] = .ok s ∧
    Scope.modify 0 [.reindex [9, 5, 0]] (Scope.set (fun _ => none) 0 (some (.array exArr))) = .ok sc' ∧
    s.paren true sc' [6, 2] = exArr.paren true [0, 6, 2] := ⟨_, _, rfl, rfl, by decide⟩

/-! ### C57: iterators across reindex -/

/-- **C57**, partial: an iterator into the object `x` obtained before a history of `reindex` calls still refers to the address it referred to before (with
assertions disabled dereferencing yields the same origin; which elements the subarray there has is `C57_subarray_iterators_partial`); with assertions enabled it can be dereferenced exactly when its old index lies in the
*new* index range of the first dimension.  Missing: the property as stated (the iterator can always be dereferenced), false by
`C57_counterexample`. -/
theorem C57_iterators_after_reindex_partial {x : Nat} {o : Obj} {sc sc' : Scope} (ho : sc x = some o) (hw : WellShaped o.desc)
    {it : ItObj} (hit : sc.begin x = .ok it) (m : Int) (ops : List HdrOp) (hre : ∀ op ∈ ops, isReindex op)
    (hrun : Scope.modify x ops sc = .ok sc') :
    ∃ s s' o' e b b', o.desc.extents.head? = some e ∧ o.desc.bases.head? = some b ∧ sc' x = some o' ∧ o'.desc.bases.head? = some b' ∧
      (it.advance m).deref false sc = .ok s ∧ (it.advance m).deref false sc' = .ok s' ∧ s'.base = s.base ∧
      ((∃ t, (it.advance m).deref true sc = .ok t) ↔ 0 ≤ m ∧ m < (e : Int)) ∧
      ((∃ t, (it.advance m).deref true sc' = .ok t) ↔ b' ≤ b + m ∧ b + m < b' + (e : Int)) := by
  obtain ⟨o', e1, e2, e3, e4⟩ := modify_reindex ops ho hre hrun
  have e4' := e4 hw.2
  obtain ⟨w1, w2⟩ := hw
  simp only [Scope.begin, ho, Desc.begin] at hit
  rcases hdo : o.desc with ⟨p, es, ss, bs⟩
  rcases hdo' : o'.desc with ⟨p', es', ss', bs'⟩
  rw [hdo] at hit w1 w2 e2 e3 e4'
  rw [hdo'] at e2 e3 e4'
  simp only at hit w1 w2 e2 e3 e4'
  subst e2 e3
  match es', ss', bs, bs', w1, w2, e4', hit with
  | [], [], [], _, _, _, _, hit => simp [Res.get] at hit
  | e :: es, s :: ss, b :: bs, b' :: bs', _, _, _, hit =>
    simp [Res.get] at hit
    subst hit
    have hd : SubObj.desc sc ⟨p, x, 0⟩ = .ok ⟨p, e :: es, s :: ss, b :: bs⟩ := by
      simp [SubObj.desc, ho, hdo]
    have hd' : SubObj.desc sc' ⟨p, x, 0⟩ = .ok ⟨p, e :: es, s :: ss, b' :: bs'⟩ := by
      simp [SubObj.desc, e1, hdo']
    have hfalse : ∀ bb : Int, ∀ bbs : List Int, access false (b + m) ⟨p, e :: es, s :: ss, bb :: bbs⟩ = .ok ⟨p.add ((b + m) * s), es, ss, bbs⟩ := by
      intro bb bbs; simp [access, Res.assert]
    have htrue : ∀ bb : Int, ∀ bbs : List Int, (∃ t, access true (b + m) ⟨p, e :: es, s :: ss, bb :: bbs⟩ = .ok t) ↔ bb ≤ b + m ∧ b + m < bb + (e : Int) := by
      intro bb bbs
      constructor
      · rintro ⟨t, ht⟩
        by_contra hc
        rw [access_fail _ _ _ _ _ _ _ _ hc] at ht
        cases ht
      · rintro ⟨h1, h2⟩
        exact ⟨_, access_ok true _ _ _ _ _ _ _ _ h1 h2⟩
    have hex : ∀ (sc0 : Scope) (bb : Int) (bbs : List Int), SubObj.desc sc0 ⟨p, x, 0⟩ = .ok ⟨p, e :: es, s :: ss, bb :: bbs⟩ →
        ((∃ t, ItObj.deref true sc0 (ItObj.advance ⟨b, p, x, 0⟩ m) = .ok t) ↔ bb ≤ b + m ∧ b + m < bb + (e : Int)) := by
      intro sc0 bb bbs h0
      rw [← htrue bb bbs]
      simp only [ItObj.deref, ItObj.advance, ItObj.desc, h0, Res.bind_ok]
      constructor
      · rintro ⟨t, ht⟩
        cases ha : access true (b + m) ⟨p, e :: es, s :: ss, bb :: bbs⟩ with
        | ok d => exact ⟨d, rfl⟩
        | assertFail => rw [ha] at ht; cases ht
        | ub => rw [ha] at ht; cases ht
      · rintro ⟨d, hd⟩
        exact ⟨⟨d.base, x, 1⟩, by rw [hd]; rfl⟩
    refine ⟨⟨p.add ((b + m) * s), x, 1⟩, ⟨p.add ((b + m) * s), x, 1⟩, o', e, b, b', rfl, rfl, e1, by rw [hdo']; rfl, ?_, ?_, rfl, ?_, ?_⟩
    · simp [ItObj.deref, ItObj.advance, ItObj.desc, hd, hfalse]
    · simp [ItObj.deref, ItObj.advance, ItObj.desc, hd', hfalse]
    · rw [hex sc b bs hd]; constructor <;> intro h <;> omega
    · rw [hex sc' b' bs' hd']

/-- **C57 is false as stated**: `it = a.begin()` on a 1-dimensional array of 3 elements; after `a.reindex(5)` dereferencing `it` fails an
assertion, although the array still has its first element. -/
theorem C57_counterexample :
    ∃ (A : ARef) (sc sc' : Scope) (it : ItObj), Reachable 1 A ∧ sc 0 = some (.array A) ∧ sc.begin 0 = .ok it ∧
      (it.deref true sc).isOk = true ∧ Scope.modify 0 [.reindexAll 5] sc = .ok sc' ∧ it.deref true sc' = .assertFail :=
  ⟨⟨⟨7, 0⟩, StorageOrder.cOrder 1, [3], [1], [0], 0, 0, 3⟩, _, _, _,
    .ofExtents (p := ⟨7, 0⟩) (exts := [3]) (so := StorageOrder.cOrder 1) (by decide) rfl,
    Scope.set_same (fun _ => none) 0 _, rfl, rfl, rfl, rfl⟩

/-- **C57**, the iterators in question: `begin() + k` dereferences to `x[base + k]`, and `end()` is `begin()` plus the extent - so the theorem above,
for `it.advance m`, covers every iterator into the object, `end()` included. -/
theorem C57_iterators {x : Nat} {o : Obj} {sc : Scope} (ho : sc x = some o) (hw : WellShaped o.desc) (hd : o.desc.extents ≠ []) :
    ∃ e es b bs it, o.desc.extents = e :: es ∧ o.desc.bases = b :: bs ∧ sc.begin x = .ok it ∧ sc.end x = .ok (it.advance (e : Int)) ∧
      ∀ dbg m, (it.advance m).deref dbg sc = sc.bracket dbg x (b + m) := by
  obtain ⟨w1, w2⟩ := hw
  rcases hdo : o.desc with ⟨p, es, ss, bs⟩
  rw [hdo] at hd w1 w2
  match es, ss, bs, hd, w1, w2 with
  | e :: es, s :: ss, b :: bs, _, _, _ =>
    refine ⟨e, es, b, bs, ⟨b, p, x, 0⟩, rfl, rfl, ?_, ?_, ?_⟩
    · simp only [Scope.begin, ho, hdo]; rfl
    · simp only [Scope.end, ho, hdo]; rfl
    · intro dbg m
      simp only [ItObj.deref, ItObj.advance, ItObj.desc, SubObj.desc, Scope.bracket, ho, hdo, List.drop_zero, Res.bind_ok]

example : ∃ it it', (Scope.set (fun _ => none) 0 (some (.array exArr))).begin 0 = .ok it ∧
    (Scope.set (fun _ => none) 0 (some (.array exArr))).end 0 = .ok it' ∧ it'.idx - it.idx = 2 ∧ exArr.desc.extents ≠ [] :=
  ⟨_, _, rfl, rfl, by decide, by decide⟩

/-! ### C58: lifetime of subarrays -/

/-- **C58**, partial: whatever is created, destroyed or changed elsewhere, a subarray keeps denoting the same elements as long as the object it was
taken from exists unchanged.  Missing: the same for subarrays whose array still exists but whose intermediate view does not; false by
`C58_counterexample_temporary_view`. -/
theorem C58_subarray_needs_only_its_owner_partial {sc sc' : Scope} (x : SubObj) (h : sc' x.owner = sc x.owner) (dbg : Bool) (idx : List Int) :
    x.desc sc' = x.desc sc ∧ x.paren dbg sc' idx = x.paren dbg sc idx := by
  have : x.desc sc' = x.desc sc := by unfold SubObj.desc; rw [h]
  exact ⟨this, by unfold SubObj.paren; rw [this]⟩

/-- What a held subarray means: `s = x[i1]...[ik]` (its owner still there and unmodified) is the value of the subscript expression; all its
members give what they give on that value. -/
theorem C58_held_subarray_is_the_expression_partial {x : Nat} {o : Obj} {sc sc' : Scope} (ho : sc x = some o) {dbg : Bool} {i : Int}
    {is : List Int} {y : SubObj} (hy : Scope.chain dbg sc x i is = .ok y) (hsc : sc' x = sc x) :
    ∃ d, (∀ a, o = .array a → (do accessChain dbg is (← a.bracket dbg i)) = .ok d) ∧
      (∀ v, o = .view v → (do accessChain dbg is (← v.bracket dbg i)) = .ok d) ∧ y.desc sc' = .ok d ∧
      (∀ idx, y.paren dbg sc' idx = accessElement dbg idx d) ∧
      (∀ g, y.slice dbg sc' g = generateArrayView dbg g d) ∧
      (∀ j z, y.bracket dbg sc' j = .ok z → ∃ d', access dbg j d = .ok d' ∧ z.desc sc' = .ok d') := by
  have h0 := chain_agrees dbg sc x i is ho
  rw [hy, Res.bind_ok] at h0
  have hds : y.desc sc' = y.desc sc := by
    unfold SubObj.desc; rw [(chain_owner dbg sc x i is y hy).1, hsc]
  obtain ⟨d, hd⟩ : ∃ d, y.desc sc' = .ok d := by
    unfold SubObj.desc; rw [(chain_owner dbg sc x i is y hy).1, hsc, ho]; exact ⟨_, rfl⟩
  have hexp : accessChain dbg (i :: is) o.desc = .ok d := by rw [← h0, ← hds]; exact hd
  refine ⟨d, ?_, ?_, hd, ?_, ?_, ?_⟩
  · rintro a rfl; exact hexp
  · rintro v rfl; exact hexp
  · intro idx; unfold SubObj.paren; rw [hd]; rfl
  · intro g; unfold SubObj.slice; rw [hd]; rfl
  · intro j z hz
    have h1 := subChain_agrees dbg sc' [j] y
    simp only [SubObj.chain, accessChain, hz, hd, Res.bind_ok] at h1
    cases hj : access dbg j d with
    | ok d' => rw [hj] at h1; exact ⟨d', rfl, h1⟩
    | assertFail => rw [hj] at h1; unfold SubObj.bracket at hz; rw [hd, Res.bind_ok, hj] at hz; cases hz
    | ub => rw [hj] at h1; unfold SubObj.bracket at hz; rw [hd, Res.bind_ok, hj] at hz; cases hz

/-- A held row of a 2x3 array, sliced and indexed. -/
example : ∃ (s : SubObj) (v : View), Scope.chain true (Scope.set (fun _ => none) 0 (some (.array exArr))) 0 (-1) [] = .ok s ∧
    s.slice true (Scope.set (fun _ => none) 0 (some (.array exArr))) ⟨2, 1, [IndexRange.single 6, IndexRange.mk3 3 (-1) (-2)]⟩ = .ok v ∧
    v.extents = [2] := ⟨_, _, rfl, rfl, by decide⟩

/-- **C58 is false as stated**: `auto s = a[indices[range()][range()]][0];` - the view is a temporary; once it is gone, every use of `s` reads
through dangling pointers, although the array and its elements still exist. -/
theorem C58_counterexample_temporary_view :
    ∃ (A : ARef) (v : View) (sc : Scope) (s : SubObj), Reachable 2 A ∧ sc 0 = some (.array A) ∧
      A.slice true ⟨2, 2, [IndexRange.default, IndexRange.default]⟩ = .ok v ∧
      (sc.set 1 (some (.view v))).bracket true 1 0 = .ok s ∧
      s.paren true (sc.set 1 (some (.view v))) [2] = .ok (A.data.add 2) ∧
      -- the temporary is destroyed at the end of the full expression
      (sc.set 1 none) 0 = some (.array A) ∧ s.paren true (sc.set 1 none) [2] = .ub :=
  ⟨⟨⟨7, 0⟩, StorageOrder.cOrder 2, [2, 3], [3, 1], [0, 0], 0, 0, 6⟩, _, Scope.set (fun _ => none) 0 _, _,
    .ofExtents (p := ⟨7, 0⟩) (exts := [2, 3]) (so := StorageOrder.cOrder 2) (by decide) rfl,
    Scope.set_same (fun _ => none) 0 _, rfl, rfl, rfl, rfl, rfl⟩

/-! ### Instances: the theorems applied to concrete cases, whose hypotheses are thereby met -/

/-- One array in variable 0. -/
def exScope : Scope := Scope.set (fun _ => none) 0 (some (.array exArr))
example := C54_displacement (sc := exScope) (x := 0) (dbg := true) (i := 0) (is := [6]) rfl ⟨rfl, rfl⟩ rfl [.reindex [9, 5, 1], .reindexAll 4]
  (by simp [isReindex]) rfl
example := C54_subarrays_survive_partial (sc := exScope) (x := 0) (dbg := true) (i := 0) (is := [6]) rfl ⟨rfl, rfl⟩ rfl [.reindex [9, 5, 0]]
  (by simp [isReindex]) rfl
example := C57_iterators_after_reindex_partial (sc := exScope) (x := 0) rfl ⟨rfl, rfl⟩ rfl 1 [.reindexAll 5] (by simp [isReindex]) rfl
example := C58_subarray_needs_only_its_owner_partial (sc := exScope) (sc' := exScope.set 3 (some (.array exArr))) ⟨⟨7, 4⟩, 0, 2⟩ rfl true [2]

/- end of instances -/

end MultiArray.Props
