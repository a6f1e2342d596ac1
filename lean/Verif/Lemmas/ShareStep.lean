import Verif.Lemmas.ShareOps

/- Every command of a program with shared storage, one lemma per kind. -/
set_option autoImplicit false

namespace MultiArray
open Spec Props
variable {T : Type} {g : Ghost}

/-- One command refines its abstract meaning. -/
def SCmdOK (dbg : Bool) (dflt : T) (eq lt : T → T → Bool) (w : SWorld T) (A : SState T) (c : SCmd T) : Prop :=
  ∃ o A' w' g', A.step dflt eq lt c = some (o, A') ∧ w.exec dbg dflt eq lt c = some (o, w') ∧ RepG g' w' A'

theorem sw_mem {α : Type} {w : SWorld T} {e : Exec T α} {v : α} {s' : St T} (obs : α → CObs T) (he : e w.st = .ok v s') :
    w.mem e obs = some (obs v, { w with st := s' }) := by
  simp [SWorld.mem, he, Out.val?]

/-! ### Storage -/

theorem share_buffer (dbg : Bool) (dflt : T) (eq lt : T → T → Bool) {w : SWorld T} {A : SState T} (h : RepG g w A) (x : Nat) (vs : List T)
    (hleg : A.Legal (.buffer x vs)) : SCmdOK dbg dflt eq lt w A (.buffer x vs) := by
  refine ⟨_, _, _, _, rfl, rfl, h.addNew (al := 0) (vs := vs) hleg rfl h.mem.sched (by simp [SWorld.newBuffer])
    (fun b hb => by simp [SWorld.newBuffer, hb]) (fun i => ⟨fun e => e.symm, fun e => e.symm⟩) ?_⟩
  exact ⟨by omega, by simp [Ghost.push], vs, by simp [SState.addStore], rfl⟩

/-- Construction from a freshly initialised header. -/
theorem share_fresh (dflt : T) {w : SWorld T} {A : SState T} (h : RepG g w A) {x : Nat} (hx : A.vars x = none) {n : Nat} {ref : ARef} (hr : Reachable n ref) (al : Nat) :
    ∃ m s' g', MArr.allocateSpace dflt ref al w.st = .ok m s' ∧
      RepG g' (w.setVar x (some (.owner m)) s') (A.addOwner x ⟨ref.bases, ref.extents, ref.storage, List.replicate ref.extents.prod dflt⟩) := by
  obtain ⟨m, s', e1, e2, e3, e4⟩ := fresh_represents dflt hr al h.mem.sane h.mem.sched
  obtain ⟨s1, f1, _, f2, _⟩ := allocateSpace_ok dflt ref al w.st (noThrow_nil h.mem.sched _)
  rw [e1] at f1; cases f1
  obtain ⟨g', hg⟩ := h.addOwner hx e2 e3 f2 e4
  exact ⟨_, _, g', e1, hg⟩

theorem share_construct (dbg : Bool) (dflt : T) (eq lt : T → T → Bool) {w : SWorld T} {A : SState T} (h : RepG g w A) (x : Nat) (i : CInit)
    (hleg : A.Legal (.construct x i)) : SCmdOK dbg dflt eq lt w A (.construct x i) := by
  obtain ⟨hx, hi⟩ := hleg
  cases i with
  | default n al =>
    obtain ⟨ref, hr⟩ := ARef.init_succeeds (n := n) Ptr.null (List.replicate n 0) (es := List.replicate n 0) (cOrder_valid n) (by simp)
    have hof : ARef.ofShape n Ptr.null (StorageOrder.cOrder n) none none = .ok ref := by simp [ARef.ofShape, hr]
    obtain ⟨_, _, h3, h4, h5, _⟩ := ARef.init_ok hr (cOrder_valid n) (by simp)
    obtain ⟨m, s', g', e1, e2⟩ := share_fresh dflt h hx (.ofShape (cOrder_valid n) hof) al
    rw [h3, h4, h5, List.take_of_length_le (by simp)] at e2
    exact ⟨_, _, _, g', rfl, by simp [SWorld.exec, SWorld.ctor, MArr.mkDefault, hof, e1, Out.val?] <;> rfl, e2⟩
  | extents n es so al =>
    obtain ⟨hv, hl⟩ := hi
    obtain ⟨ref, hr⟩ := ARef.init_succeeds (n := n) Ptr.null (List.replicate n 0) (es := es) hv (by omega)
    obtain ⟨_, _, h3, h4, h5, _⟩ := ARef.init_ok hr hv (by simp)
    have hof : ARef.ofExtents n Ptr.null es so = .ok ref := hr
    obtain ⟨m, s', g', e1, e2⟩ := share_fresh dflt h hx (.ofExtents hv hof) al
    rw [h3, h4, h5, List.take_of_length_le (by omega)] at e2
    exact ⟨_, _, _, g', rfl, by simp [SWorld.exec, SWorld.ctor, MArr.mkExtents, hof, e1, Out.val?] <;> rfl, e2⟩
  | gen n rs so al =>
    obtain ⟨hv, hl, hle⟩ := hi
    obtain ⟨ref, hof, hr, _, h3, h4, h5⟩ := ofExtentGen_ok Ptr.null ⟨n, rs⟩ rfl hl hv
    obtain ⟨m, s', g', e1, e2⟩ := share_fresh dflt h hx hr al
    rw [h3, h4, h5, legalExtents_size hle, legalExtents_start] at e2
    exact ⟨_, _, _, g', rfl, by simp [SWorld.exec, SWorld.ctor, MArr.mkExtentGen, hof, e1, Out.val?] <;> rfl, e2⟩
  | copy y =>
    obtain ⟨hh, hA⟩ := hi
    obtain ⟨a, vs, hy, hvs, _, _, hr⟩ := h.represents hA
    obtain ⟨m, s', hm, h1, h2, h3, ⟨_, hj⟩, h5⟩ := mkCopy_spec dflt hr.owns h.mem.sane
    have hnt := noThrow_nil h.mem.sched (1 + a.ref.numElems + a.ref.numElems)
    obtain ⟨h6, h7⟩ := h5 hnt
    rcases h1 with ⟨h1, _, hnx⟩ | ⟨_, h1, _⟩
    · have hr' : Represents s' m ⟨hh.bases, hh.extents, hh.order, vs⟩ := by
        subst hm
        exact ⟨h7, hr.bases, hr.extents, hr.order, h3, by rw [hj, h.mem.sched]; simp⟩
      obtain ⟨g', e2⟩ := h.addOwner hx hr' (by rw [hm] <;> rfl) hnx h2
      exact ⟨.basic .unit, _, _, g', by simp [SState.step, SState.initValue, hA, hvs] <;> rfl, by simp [SWorld.exec, SWorld.ctor, hy, h1, Out.val?], e2⟩
    · exact absurd hnt h1
  | convert y ss so al =>
    obtain ⟨p, hp, hpos, hso⟩ := hi
    obtain ⟨d, hd, hpo, hA, hlive⟩ := h.lookup dbg hp
    have hlen : d.extents.length = p.extents.length := by rw [hpo.extents]
    obtain ⟨m, s', m1, m2, m3, m4, _, h1, h2, h3, ⟨_, hj⟩, h5⟩ := mkConvert_spec dbg dflt hpos hpo.shaped hlen
      (fun idx hi => by
        obtain ⟨v, hv, _⟩ := h.get hpo hlive (idx := idx) (by rw [← hpo.bases, ← hpo.extents]; exact hi)
        exact ⟨v, hv⟩) h.mem.sane hso al
    have hnt := noThrow_nil h.mem.sched (1 + d.extents.prod + d.extents.prod)
    obtain ⟨_, h7⟩ := h5 hnt
    rcases h1 with ⟨h1, ⟨ws, ho⟩, hnx⟩ | ⟨_, h1, _⟩
    · have hws := layout_vals dflt ho (m2.trans hpo.extents) m4 (f := fun k => A.get p (atPos p.bases k)) (fun k hk => by
        rw [h7 k (by rw [hpo.extents]; exact hk)]
        obtain ⟨v, e1, e2⟩ := h.elem hpo hlive hk
        rw [e1, e2])
      have hr' : Represents s' m ⟨p.bases, p.extents, so, ws⟩ :=
        ⟨ho, m3.trans hpo.bases, m2.trans hpo.extents, m4, h3, by rw [hj, h.mem.sched]; simp⟩
      obtain ⟨g', e2⟩ := h.addOwner hx hr' (by rw [m1]) hnx h2
      refine ⟨.basic .unit, _, w.setVar x (some (.owner m)) s', g', by simp [SState.step, SState.initValue, hA] <;> rfl, ?_, ?_⟩
      · simp [SWorld.exec, SWorld.ctor, hd, h1, Out.val?]
      · rw [← hws]; exact e2
    · exact absurd hnt h1

theorem share_destroy (dbg : Bool) (dflt : T) (eq lt : T → T → Bool) {w : SWorld T} {A : SState T} (h : RepG g w A) (x : Nat)
    (hleg : A.Legal (.destroy x)) : SCmdOK dbg dflt eq lt w A (.destroy x) := by
  obtain ⟨v, hA⟩ := hleg
  have plain : ∀ v', A.vars x = some v' → (∀ i, ¬ OwnsStore (some v') i) → RepG g (w.setVar x none w.st) (A.setVar x none) := by
    intro v' hA' hno
    exact h.setPlain x none none trivial (by rw [hA']; exact hno) (fun i hi => hi)
  match v, hA with
  | .owner hh, hA =>
    obtain ⟨a, vs, hx, hvs, hb, _, hr⟩ := h.represents hA
    obtain ⟨s', e1, e2, e3, e4, e5⟩ := hr.owns.dealloc
    refine ⟨.basic .unit, _, w.setVar x none s', g, by simp [SState.step, hA] <;> rfl, by simp [SWorld.exec, hx, e1, Out.val?], ?_⟩
    exact h.release (by rw [hA] <;> rfl) e4 (by rw [e5, h.mem.sched]) (by rw [← hb]; exact e2) (fun b hb' => e3 b (by rw [hb]; exact hb'))
  | .buffer i, hA =>
    obtain ⟨q, n, hx, _, hq, _⟩ := h.buffer hA
    refine ⟨.basic .unit, _, w.setVar x none (SWorld.freeBuffer w.st q), g, by simp [SState.step, hA] <;> rfl, by simp [SWorld.exec, hx], ?_⟩
    subst hq
    exact h.release (by rw [hA] <;> rfl) rfl h.mem.sched (by simp [SWorld.freeBuffer]) (fun b hb => by simp [SWorld.freeBuffer, hb])
  | .ref hh, hA =>
    obtain ⟨a, hx, _⟩ := h.ref hA
    exact ⟨.basic .unit, _, w.setVar x none w.st, g, by simp [SState.step, hA] <;> rfl, by simp [SWorld.exec, hx], plain _ hA (fun _ e => e)⟩
  | .view p, hA =>
    obtain ⟨a, hx, _⟩ := h.view hA
    exact ⟨.basic .unit, _, w.setVar x none w.st, g, by simp [SState.step, hA] <;> rfl, by simp [SWorld.exec, hx], plain _ hA (fun _ e => e)⟩
  | .sub o p, hA =>
    obtain ⟨a, hx, _⟩ := h.sub hA
    exact ⟨.basic .unit, _, w.setVar x none w.st, g, by simp [SState.step, hA] <;> rfl, by simp [SWorld.exec, hx], plain _ hA (fun _ e => e)⟩
  | .stale, hA =>
    obtain ⟨a, hx⟩ := h.stale hA
    exact ⟨.basic .unit, _, w.setVar x none w.st, g, by simp [SState.step, hA] <;> rfl, by simp [SWorld.exec, hx], plain _ hA (fun _ e => e)⟩

/-! ### References and handles -/

theorem RepG.dataOf {w : SWorld T} {A : SState T} (h : RepG g w A) {y i j : Nat} (hy : A.dataOf y = some (i, j)) :
    w.dataOf y = some ⟨g.blk i, (j : Int)⟩ ∧ i < A.count := by
  unfold SState.dataOf at hy
  match hA : A.vars y with
  | some (.owner hh) =>
    rw [hA] at hy; simp only [Option.some.injEq, Prod.mk.injEq] at hy
    obtain ⟨rfl, rfl⟩ := hy
    obtain ⟨a, e1, e2, _⟩ := h.owner hA
    exact ⟨by simp [SWorld.dataOf, e1, e2.data], e2.lt⟩
  | some (.ref hh) =>
    rw [hA] at hy; simp only [Option.some.injEq, Prod.mk.injEq] at hy
    obtain ⟨rfl, rfl⟩ := hy
    obtain ⟨a, e1, e2⟩ := h.ref hA
    exact ⟨by simp [SWorld.dataOf, e1, e2.data], e2.lt⟩
  | some (.buffer k) =>
    rw [hA] at hy; simp only [Option.some.injEq, Prod.mk.injEq] at hy
    obtain ⟨rfl, rfl⟩ := hy
    obtain ⟨q, n, e1, e2, e3, _⟩ := h.buffer hA
    exact ⟨by simp [SWorld.dataOf, e1, e3], e2⟩
  | none | some (.view _) | some (.sub _ _) | some .stale => rw [hA] at hy; cases hy

theorem share_refTo (dbg : Bool) (dflt : T) (eq lt : T → T → Bool) {w : SWorld T} {A : SState T} (h : RepG g w A) (x y first n : Nat) (es : List Nat) (so : StorageOrder)
    (hleg : A.Legal (.refTo x y first n es so)) : SCmdOK dbg dflt eq lt w A (.refTo x y first n es so) := by
  obtain ⟨hx, hv, hl, i, j, vs, hd, hvs, hroom⟩ := hleg
  obtain ⟨d1, d2⟩ := h.dataOf hd
  obtain ⟨ref, hr⟩ := ARef.init_succeeds (n := n) ((⟨g.blk i, (j : Int)⟩ : Ptr).add (first : Int)) (List.replicate n 0) (es := es) hv (by omega)
  have hof : ARef.ofExtents n ((⟨g.blk i, (j : Int)⟩ : Ptr).add (first : Int)) es so = .ok ref := hr
  obtain ⟨_, h2, h3, h4, h5, _⟩ := ARef.init_ok hr hv (by simp)
  rw [List.take_of_length_le (by omega)] at h5
  refine ⟨.basic .unit, _, w.setVar x (some (.ref ref)) w.st, g, by simp [SState.step, hd] <;> rfl, by simp [SWorld.exec, d1, hof, Res.val?], ?_⟩
  refine h.setPlain x _ _ ⟨d2, by rw [hl]; exact .ofExtents hv hof, ?_, h4, h5, h3, ?_⟩ (by rw [hx]; exact fun _ e => e) (fun _ e => e)
  · show ref.base = _
    rw [h2]; simp [Ptr.add]
  · intro vs' hv'
    simp only at hv'
    rw [hvs] at hv'; cases hv'
    exact hroom

theorem share_refGen (dbg : Bool) (dflt : T) (eq lt : T → T → Bool) {w : SWorld T} {A : SState T} (h : RepG g w A) (x y first n : Nat) (rs : List ExtentRange)
    (so : StorageOrder) (hleg : A.Legal (.refGen x y first n rs so)) : SCmdOK dbg dflt eq lt w A (.refGen x y first n rs so) := by
  obtain ⟨hx, hv, hl, hle, i, j, vs, hd, hvs, hroom⟩ := hleg
  obtain ⟨d1, d2⟩ := h.dataOf hd
  obtain ⟨ref, hof, hr, h2, h3, h4, h5⟩ := ofExtentGen_ok ((⟨g.blk i, (j : Int)⟩ : Ptr).add (first : Int)) ⟨n, rs⟩ rfl hl hv
  rw [legalExtents_size hle] at h5
  rw [legalExtents_start] at h4
  refine ⟨.basic .unit, _, w.setVar x (some (.ref ref)) w.st, g, by simp [SState.step, hd] <;> rfl, by simp [SWorld.exec, d1, hof, Res.val?], ?_⟩
  refine h.setPlain x _ _ ⟨d2, ?_, ?_, h4, h5, h3, ?_⟩ (by rw [hx]; exact fun _ e => e) (fun _ e => e)
  · show Reachable (reqExtents rs).length ref
    rw [← h5, hr.wf.ext_len]; exact hr
  · show ref.base = _
    rw [h2]; simp [Ptr.add]
  · intro vs' hv'
    simp only at hv'
    rw [hvs] at hv'; cases hv'
    exact hroom

theorem share_refCopy (dbg : Bool) (dflt : T) (eq lt : T → T → Bool) {w : SWorld T} {A : SState T} (h : RepG g w A) (x y : Nat)
    (hleg : A.Legal (.refCopy x y)) : SCmdOK dbg dflt eq lt w A (.refCopy x y) := by
  obtain ⟨hx, hh, hy⟩ := hleg
  rcases hy with hy | hy
  · obtain ⟨a, e1, e2, _⟩ := h.owner hy
    exact ⟨.basic .unit, _, w.setVar x (some (.ref a.ref)) w.st, g, by simp [SState.step, hy] <;> rfl, by simp [SWorld.exec, e1],
      h.setPlain x _ (some (.ref hh)) e2 (by rw [hx]; exact fun _ e => e) (fun _ e => e)⟩
  · obtain ⟨a, e1, e2⟩ := h.ref hy
    exact ⟨.basic .unit, _, w.setVar x (some (.ref a)) w.st, g, by simp [SState.step, hy] <;> rfl, by simp [SWorld.exec, e1],
      h.setPlain x _ (some (.ref hh)) e2 (by rw [hx]; exact fun _ e => e) (fun _ e => e)⟩

theorem SPart.path_append (p : SPart) (ss ss' : List Sel) : (p.path (ss ++ ss')).extents = ((p.whole.path ss).path ss').extents := by
  simp [SPart.path, APart.path_append]

theorem share_hold (dbg : Bool) (dflt : T) (eq lt : T → T → Bool) {w : SWorld T} {A : SState T} (h : RepG g w A) (x y : Nat) (ss : List Sel) (xs : List IndexArg)
    (hleg : A.Legal (.hold x y ss xs)) : SCmdOK dbg dflt eq lt w A (.hold x y ss xs) := by
  obtain ⟨hx, p, v, p0, h1, h2, h3, h4, rfl⟩ := hleg
  obtain ⟨d0, e1, e2⟩ := h.desc h1 h2
  rw [APart.legalPath_append] at h4
  obtain ⟨h4, h5, _⟩ := h4
  obtain ⟨d, f1, f2⟩ := resolve_partIn dbg ss e2.self h4
  obtain ⟨c1, c2, _, c4, _⟩ := partIn_view dbg f2 h5
  have hpv : PartIn d0 (theView (idxGen xs) d).desc (p0.whole.path (ss ++ [.view xs])) := by
    rw [APart.path_append]; exact partIn_theView dbg f2 h5
  refine ⟨.basic .unit, _, w.setVar x (some (.view (theView (idxGen xs) d))) w.st, g, by simp [SState.step, SState.part, h1, h2] <;> rfl, ?_, ?_⟩
  · simp [SWorld.exec, SWorld.lookup, e1, f1, Res.val?, c1, Desc.slice, c2]
  · exact h.setPlain x _ _ ⟨c4, e2.path hpv⟩ (by rw [hx]; exact fun _ e => e) (fun _ e => e)

theorem share_holdCopy (dbg : Bool) (dflt : T) (eq lt : T → T → Bool) {w : SWorld T} {A : SState T} (h : RepG g w A) (x y : Nat)
    (hleg : A.Legal (.holdCopy x y)) : SCmdOK dbg dflt eq lt w A (.holdCopy x y) := by
  obtain ⟨hx, p, hy⟩ := hleg
  obtain ⟨v, e1, e2, e3⟩ := h.view hy
  exact ⟨.basic .unit, _, w.setVar x (some (.view v)) w.st, g, by simp [SState.step, hy] <;> rfl, by simp [SWorld.exec, e1],
    h.setPlain x _ (some (.view p)) ⟨e2, e3⟩ (by rw [hx]; exact fun _ e => e) (fun _ e => e)⟩

/-- `operator[]` on a subarray, or on an object seen as its own subarray of depth 0. -/
theorem sub_bracket (dbg : Bool) {sc : Scope} {s : SubObj} {d d' : Desc} {i : Int} (hs : s.desc sc = .ok d) (ha : access dbg i d = .ok d') :
    ∃ s', s.bracket dbg sc i = .ok s' ∧ s'.owner = s.owner ∧ s'.desc sc = .ok d' := by
  have hb : s.bracket dbg sc i = .ok ⟨d'.base, s.owner, s.depth + 1⟩ := by simp [SubObj.bracket, hs, ha]
  refine ⟨_, hb, rfl, ?_⟩
  have := subChain_agrees dbg sc [i] s
  simp only [SubObj.chain, hb, Res.bind_ok, hs, accessChain, ha] at this
  exact this

theorem share_holdSub (dbg : Bool) (dflt : T) (eq lt : T → T → Bool) {w : SWorld T} {A : SState T} (h : RepG g w A) (x y : Nat) (i : Int)
    (hleg : A.Legal (.holdSub x y i)) : SCmdOK dbg dflt eq lt w A (.holdSub x y i) := by
  obtain ⟨hx, p, v, p0, h1, h2, h3, h4, rfl⟩ := hleg
  have hwx := h.unset hx
  have main : ∀ {sub : SubObj} {d0 : Desc}, sub.desc w.scope = .ok d0 → PlaceRep g A.stores A.count d0 p0 →
      w.bracket dbg y i = sub.bracket dbg w.scope i → A.objectOf y = sub.owner → SCmdOK dbg dflt eq lt w A (.holdSub x y i) := by
    intro sub d0 hs hp hex hst
    obtain ⟨d', r1, r2⟩ := hp.resolve dbg h4
    have hacc : access dbg i d0 = .ok d' := by
      simp only [resolve, Desc.bracket] at r1
      cases ha : access dbg i d0 with
      | ok d1 => rw [ha] at r1; simpa using r1
      | assertFail => rw [ha] at r1; cases r1
      | ub => rw [ha] at r1; cases r1
    obtain ⟨s', b1, b2, b3⟩ := sub_bracket dbg hs hacc
    refine ⟨.basic .unit, _, w.setVar x (some (.sub s')) w.st, g, by simp [SState.step, SState.part, h1, h2] <;> rfl, ?_, ?_⟩
    · simp only [SWorld.exec, hex, b1, Res.val?, Option.map_some]
    · refine h.setPlain x _ _ ⟨?_, d', ?_, r2⟩ (by rw [hx]; exact fun _ e => e) (fun _ e => e)
      · rw [b2, ← hst]
      · have hne : s'.owner ≠ x := by
          intro e
          unfold SubObj.desc at b3
          rw [e, show w.scope x = none by simp [SWorld.scope, hwx]] at b3
          cases b3
        rw [← b3]
        unfold SubObj.desc
        rw [scope_setVar_ne w hne]
  have obj : ∀ {o : Obj}, w.scope y = some o → w.desc y = some o.desc → (∀ s, w.vars y ≠ some (.sub s)) → (∀ o p, A.vars y ≠ some (.sub o p)) →
      SCmdOK dbg dflt eq lt w A (.holdSub x y i) := by
    intro o hsc hdsc hns hna
    obtain ⟨d0, e1, e2⟩ := h.desc h1 h2
    rw [hdsc] at e1; cases e1
    have hself : SubObj.desc w.scope ⟨o.desc.base, y, 0⟩ = .ok o.desc := by simp [SubObj.desc, hsc]
    refine main hself e2 ?_ ?_
    · rw [← objBracket_agrees dbg w.scope y i hsc, SWorld.bracket]
      match hw : w.vars y with
      | some (.sub s) => exact absurd hw (hns s)
      | none | some (.owner _) | some (.ref _) | some (.view _) | some (.buffer _ _) => rfl
    · rw [SState.objectOf]
      match hA : A.vars y with
      | some (.sub o p) => exact absurd hA (hna o p)
      | none | some (.owner _) | some (.ref _) | some (.view _) | some (.buffer _) | some .stale => rfl
  match v, h1, h2 with
  | .owner hh, h1, h2 =>
    obtain ⟨a, e1, _⟩ := h.owner h1
    exact obj (o := .array a.ref) (by simp [SWorld.scope, e1]) (by simp [SWorld.desc, e1, Obj.desc]) (by simp [e1]) (by simp [h1])
  | .ref hh, h1, h2 =>
    obtain ⟨a, e1, _⟩ := h.ref h1
    exact obj (o := .array a) (by simp [SWorld.scope, e1]) (by simp [SWorld.desc, e1, Obj.desc]) (by simp [e1]) (by simp [h1])
  | .view q, h1, h2 =>
    obtain ⟨a, e1, _⟩ := h.view h1
    exact obj (o := .view a) (by simp [SWorld.scope, e1]) (by simp [SWorld.desc, e1, Obj.desc]) (by simp [e1]) (by simp [h1])
  | .sub o q, h1, h2 =>
    obtain ⟨s, e1, e2, d, e3, e4⟩ := h.sub h1
    cases h2
    exact main e3 e4 (by rw [SWorld.bracket, e1]) (by rw [SState.objectOf, h1, e2])

end MultiArray
