import Verif.Lemmas.ProgOps

/- Every command of a whole program, one lemma per kind. -/
set_option autoImplicit false

namespace MultiArray
open Spec Props
variable {T : Type}

/-- One command refines its abstract meaning. -/
def CmdOK (dbg : Bool) (dflt : T) (eq lt : T → T → Bool) (w : World T) (A : AState T) (c : Cmd T) : Prop :=
  ∃ o A' w', A.step dflt eq lt c = some (o, A') ∧ w.exec dbg dflt eq lt c = some (o, w') ∧ w'.Rep A'

theorem simple_mem {α : Type} {dbg : Bool} {dflt : T} {w : World T} {op : Op T} {e : Exec T α} (hop : w.step dbg dflt op = w.mem e) {v : α} {s' : St T}
    (he : e w.st = .ok v s') : w.simple dbg dflt op = some (.basic .unit, { w with st := s' }) := by
  simp [World.simple, hop, World.mem, he, Result.ok?]

theorem simple_ctor {dbg : Bool} {dflt : T} {w : World T} {x : Nat} {i : Init} {c : Ctor} (hi : i.ctor w.objs = some c) {m : MArr} {s' : St T}
    (he : c.run dbg dflt w.st = .ok m s') : w.simple dbg dflt (.construct x i) = some (.basic .unit, w.set x (some m) s') := by
  simp [World.simple, World.step, hi, he, Result.ok?]

/-- Construction from a freshly initialised header. -/
theorem step_fresh (dbg : Bool) (dflt : T) {w : World T} {A : AState T} (h : w.Rep A) {x : Nat}
    (hx : A x = none) {i : Init} {c : Ctor} (hi : i.ctor w.objs = some c) {n : Nat} {ref : ARef} (hr : Reachable n ref) (al : Nat)
    (hc : c.run dbg dflt w.st = MArr.allocateSpace dflt ref al w.st) :
    ∃ w', w.simple dbg dflt (.construct x i) = some (.basic .unit, w') ∧
      w'.Rep (A.set x (some ⟨ref.bases, ref.extents, ref.storage, List.replicate ref.extents.prod dflt⟩)) := by
  obtain ⟨m, s', e1, e2, e3, e4⟩ := fresh_represents dflt hr al h.valid.sane h.sched
  exact ⟨_, simple_ctor hi (hc.trans e1), rep_new h hx e2 e3 e4⟩

theorem step_construct (dbg : Bool) (dflt : T) (eq lt : T → T → Bool) {w : World T} {A : AState T} (h : w.Rep A) (x : Nat) (i : CInit)
    (hleg : (Cmd.construct x i : Cmd T).Legal A) : CmdOK dbg dflt eq lt w A (.construct x i) := by
  obtain ⟨hx, hi⟩ := hleg
  cases i with
  | default n al =>
    obtain ⟨ref, hr⟩ := ARef.init_succeeds (n := n) Ptr.null (List.replicate n 0) (es := List.replicate n 0) (cOrder_valid n) (by simp)
    have hof : ARef.ofShape n Ptr.null (StorageOrder.cOrder n) none none = .ok ref := by simp [ARef.ofShape, hr]
    obtain ⟨_, _, h3, h4, h5, _⟩ := ARef.init_ok hr (cOrder_valid n) (by simp)
    obtain ⟨w', e1, e2⟩ := step_fresh dbg dflt h hx (i := .default n al) (c := .default n al) rfl (.ofShape (cOrder_valid n) hof) al
      (by simp [Ctor.run, MArr.mkDefault, hof])
    rw [h3, h4, h5, List.take_of_length_le (by simp)] at e2
    exact ⟨_, _, w', rfl, e1, e2⟩
  | extents n es so al =>
    obtain ⟨hv, hl⟩ := hi
    obtain ⟨ref, hr⟩ := ARef.init_succeeds (n := n) Ptr.null (List.replicate n 0) (es := es) hv (by omega)
    obtain ⟨_, _, h3, h4, h5, _⟩ := ARef.init_ok hr hv (by simp)
    have hof : ARef.ofExtents n Ptr.null es so = .ok ref := hr
    obtain ⟨w', e1, e2⟩ := step_fresh dbg dflt h hx (i := .extents n es so al) (c := .extents n es so al) rfl (.ofExtents hv hof) al
      (by simp [Ctor.run, MArr.mkExtents, hof])
    rw [h3, h4, h5, List.take_of_length_le (by omega)] at e2
    exact ⟨_, _, w', rfl, e1, e2⟩
  | gen n rs so al =>
    obtain ⟨hv, hl, hle⟩ := hi
    obtain ⟨ref, hof, hr, _, h3, h4, h5⟩ := ofExtentGen_ok Ptr.null ⟨n, rs⟩ rfl hl hv
    obtain ⟨w', e1, e2⟩ := step_fresh dbg dflt h hx (i := .gen n rs so al) (c := .gen n rs so al) rfl hr al
      (by simp [Ctor.run, MArr.mkExtentGen, hof])
    rw [h3, h4, h5, legalExtents_size hle, legalExtents_start] at e2
    exact ⟨_, _, w', rfl, e1, e2⟩
  | copy y =>
    obtain ⟨abs, hA⟩ := hi
    obtain ⟨a, hy, hr⟩ := h.abs hA
    obtain ⟨m, s', hm, h1, h2, h3, ⟨_, hj⟩, h5⟩ := mkCopy_spec dflt hr.owns h.valid.sane
    have hnt := noThrow_nil h.sched (1 + a.ref.numElems + a.ref.numElems)
    obtain ⟨h6, h7⟩ := h5 hnt
    rcases h1 with ⟨h1, _, _⟩ | ⟨_, h1, _⟩
    · refine ⟨.basic .unit, A.set x (some abs), _, by simp [AState.step, CInit.value, hA], simple_ctor (c := .copy a.ref.numDims a) (by simp [Init.ctor, hy]) h1, ?_⟩
      subst hm
      exact rep_new h hx ⟨h7, hr.bases, hr.extents, hr.order, h3, by rw [hj, h.sched]; simp⟩ rfl h2
    · exact absurd hnt h1
  | convert y ss so al =>
    obtain ⟨p, hp, hpos, hso⟩ := hi
    obtain ⟨a, d, hy, hd, hpo, hA⟩ := h.partOf dbg hp
    obtain ⟨n, hr, hlive⟩ := h.reach hy
    have hw := partOf_wellShaped hr hpo
    have hlen : d.extents.length = p.extents.length := by rw [hpo.extents]
    obtain ⟨m, s', m1, m2, m3, m4, _, h1, h2, h3, ⟨_, hj⟩, h5⟩ := mkConvert_spec dbg dflt hpos hw hlen
      (fun idx hi => hlive.handle hr.wf hpo.handle hi) h.valid.sane hso al
    have hnt := noThrow_nil h.sched (1 + d.extents.prod + d.extents.prod)
    obtain ⟨_, h7⟩ := h5 hnt
    rcases h1 with ⟨h1, ⟨ws, ho⟩, _⟩ | ⟨_, h1, _⟩
    · have hws := layout_vals dflt ho (m2.trans hpo.extents) m4 (f := fun k => A.get y (p.root (atPos p.bases k))) (fun k hk => by
        rw [h7 k (by rw [hpo.extents]; exact hk)]
        obtain ⟨v, e1, e2⟩ := rep_elem h hy hpo hk
        rw [e1, e2])
      refine ⟨.basic .unit, _, w.set x (some m) s', by simp [AState.step, CInit.value, hA]; rfl, ?_, ?_⟩
      · simp only [World.exec, hd, Option.bind_some]
        exact simple_ctor (c := .convert d.extents.length d so al) (by simp [Init.ctor, hy]) h1
      · rw [← hws]
        exact rep_new h hx ⟨ho, m3.trans hpo.bases, m2.trans hpo.extents, m4, h3, by rw [hj, h.sched]; simp⟩ (by rw [m1]) h2
    · exact absurd hnt h1

theorem step_destroy (dbg : Bool) (dflt : T) (eq lt : T → T → Bool) {w : World T} {A : AState T} (h : w.Rep A) (x : Nat)
    (hleg : (Cmd.destroy x : Cmd T).Legal A) : CmdOK dbg dflt eq lt w A (.destroy x) := by
  obtain ⟨abs, hA⟩ := hleg
  obtain ⟨a, hx, hr⟩ := h.abs hA
  obtain ⟨s', e1, e2, e3, e4, e5⟩ := hr.owns.dealloc
  exact ⟨_, _, w.set x none s', rfl, by simp [World.exec, World.simple, World.step, hx, e1, Result.ok?],
    h.remove hx e2 e3 e4 (by rw [e5, h.sched])⟩

theorem step_on (dbg : Bool) (dflt : T) (eq lt : T → T → Bool) {w : World T} {A : AState T} (h : w.Rep A) (x : Nat) (op : AOp T)
    (hleg : (Cmd.on x op : Cmd T).Legal A) : CmdOK dbg dflt eq lt w A (.on x op) := by
  obtain ⟨abs, hA, hl⟩ := hleg
  obtain ⟨a, hx, hr⟩ := h.abs hA
  obtain ⟨o, abs', a', s', e1, e2, e3⟩ := C52_step_refines dbg dflt hr op hl
  refine ⟨.basic o, A.set x (some abs'), w.set x (some a') s', by simp [AState.step, hA, e1], by simp [World.exec, hx, e2], ?_⟩
  rcases concStep_frame dbg dflt hr hl e2 with ⟨f1, f2⟩ | ⟨f1, f2, f3⟩
  · exact h.inplace hx f1 f2 e3
  · refine h.fresh e3 f1 (fun c hc => ?_) (fun c hc1 hc2 => f3 c (hc2 a hx) hc1)
    rw [hx] at hc; cases hc; exact f2

/-- Element-by-element copy between parts of the same shape. -/
theorem step_copy {w : World T} {A : AState T} (h : w.Rep A) (dbg : Bool) {x y : Nat} {a a' : MArr} (hx : w.objs x = some a) (hy : w.objs y = some a')
    {d d' : Desc} {p q : APart} (hp : PartOf a.ref d p) (hq : PartOf a'.ref d' q) (he : p.extents = q.extents) :
    ∃ s' A', assignRef dbg d.extents.length d d' w.st = .ok () s' ∧ copyArray dbg d' d w.st = .ok () s' ∧
      AState.copy x p y q (positions p.extents) A = some A' ∧ ({ w with st := s' } : World T).Rep A' := by
  obtain ⟨_, hr, _⟩ := h.reach hx
  obtain ⟨_, hr', _⟩ := h.reach hy
  have hw := partOf_wellShaped hr hp
  have hw' := partOf_wellShaped hr' hq
  have hde : d'.extents = d.extents := by rw [hp.extents, hq.extents, he]
  obtain ⟨s', A', c1, c2, c3⟩ := rep_copy h hx hy hp hq hw.2 hw'.2 he (positions p.extents) (fun k hk => by
    rw [positions_eq, mem_allPos] at hk; exact hk)
  rw [positions_eq, ← hp.extents, ← copyPairs_eq_map d' d hw' hw hde] at c1
  refine ⟨s', A', by rw [assignRef_eq dbg _ _ hw hw' hde]; exact c1, ?_, c2, c3⟩
  unfold copyArray
  rw [decide_eq_true hde, assertE_true, pure_bind, copyDispatch_eq dbg _ _ hw hw' hde]
  exact c1

theorem part_whole {A : AState T} {x : Nat} {abs : AbsArr T} (hA : A x = some abs) : A.part x [] = some abs.whole := by
  simp [AState.part, hA, APart.path]

theorem Spec.Represents.partOf {s : St T} {a : MArr} {abs : AbsArr T} (h : Represents s a abs) : PartOf a.ref a.ref.desc abs.whole :=
  ⟨.array, h.bases, h.extents, fun idx hin => ⟨(h.inBox idx).mpr hin, rfl⟩⟩

theorem step_assign (dbg : Bool) (dflt : T) (eq lt : T → T → Bool) {w : World T} {A : AState T} (h : w.Rep A) (x y : Nat)
    (hleg : (Cmd.assign x y : Cmd T).Legal A) : CmdOK dbg dflt eq lt w A (.assign x y) := by
  obtain ⟨abs, abs', hA, hA', he⟩ := hleg
  obtain ⟨a, hx, hr⟩ := h.abs hA
  obtain ⟨a', hy, hr'⟩ := h.abs hA'
  have hstep : w.step dbg dflt (.assign x y) = w.mem (a.assignFrom dbg (decide (x = y)) a') := by simp [World.step, hx, hy]
  by_cases hxy : x = y
  · refine ⟨.basic .unit, A, { w with st := w.st }, by simp [AState.step, hxy], ?_, h⟩
    refine simple_mem hstep (v := ()) ?_
    rw [decide_eq_true hxy]; rfl
  · obtain ⟨s', A', c1, _, c2, c3⟩ := step_copy h dbg hx hy hr.partOf hr'.partOf he
    refine ⟨.basic .unit, A', _, by simp [AState.step, hxy, part_whole hA, part_whole hA', c2], simple_mem hstep (v := ()) ?_, c3⟩
    rw [decide_eq_false hxy]
    exact c1

theorem step_assignPart (dbg : Bool) (dflt : T) (eq lt : T → T → Bool) {w : World T} {A : AState T} (h : w.Rep A) (x : Nat) (ss : List Sel)
    (y : Nat) (ss' : List Sel) (hleg : (Cmd.assignPart x ss y ss' : Cmd T).Legal A) :
    CmdOK dbg dflt eq lt w A (.assignPart x ss y ss') ∧ CmdOK dbg dflt eq lt w A (.copyArray x ss y ss') := by
  obtain ⟨p, q, hp, hq, he⟩ := hleg
  obtain ⟨a, d, hx, hd, hpo, hA⟩ := h.partOf dbg hp
  obtain ⟨a', d', hy, hd', hqo, hA'⟩ := h.partOf dbg hq
  obtain ⟨s', A', c1, c1', c2, c3⟩ := step_copy h dbg hx hy hpo hqo he
  constructor
  · refine ⟨_, A', _, by simp [AState.step, hA, hA', c2]; rfl, ?_, c3⟩
    simp only [World.exec, hd, hd', Option.bind_some]
    exact simple_mem (dbg := dbg) (dflt := dflt) (op := .assignPart x d y d') rfl (v := ()) c1
  · refine ⟨_, A', _, by simp [AState.step, hA, hA', c2]; rfl, ?_, c3⟩
    simp only [World.exec, hd, hd', Option.bind_some]
    exact simple_mem (dbg := dbg) (dflt := dflt) (op := .copyArray x d y d') rfl (v := ()) c1'

theorem step_access (dbg : Bool) (dflt : T) (eq lt : T → T → Bool) {w : World T} {A : AState T} (h : w.Rep A) (x : Nat) (ss : List Sel)
    (idx : List Int) (v : T) (hleg : (Cmd.read x ss idx : Cmd T).Legal A) :
    CmdOK dbg dflt eq lt w A (.read x ss idx) ∧ CmdOK dbg dflt eq lt w A (.write x ss idx v) := by
  obtain ⟨p, hp, hin⟩ := hleg
  obtain ⟨a, d, hx, hd, hpo, hA⟩ := h.partOf dbg hp
  obtain ⟨_, hr, _⟩ := h.reach hx
  have hw := partOf_wellShaped hr hpo
  obtain ⟨r1, r2⟩ := hpo.root idx hin
  have hin' : InBox d.bases d.extents idx := by rw [hpo.bases, hpo.extents]; exact hin
  have hacc := accessElement_inBox dbg d idx hw.1 hin'
  constructor
  · obtain ⟨u, g1, g2⟩ := h.get hx r1
    refine ⟨.basic (.value u), A, { w with st := w.st }, by simp [AState.step, hA, g2], ?_, h⟩
    have : readElem dbg d idx w.st = .ok u w.st := by
      unfold readElem
      rw [hacc, Exec.lift_ok, pure_bind, r2]
      exact load_ok g1
    simp [World.exec, hd, this, Out.val?]
  · obtain ⟨s', A', p1, p2, p3⟩ := h.put hx r1 v
    refine ⟨_, A', _, by simp [AState.step, hA, p2]; rfl, ?_, p3⟩
    simp only [World.exec, hd, Option.bind_some]
    refine simple_mem (dbg := dbg) (dflt := dflt) (op := .write x d idx v) rfl (v := ()) ?_
    unfold writeElem
    rw [hacc, Exec.lift_ok, pure_bind, r2]
    exact p1

theorem step_forEach (dbg : Bool) (dflt : T) (eq lt : T → T → Bool) {w : World T} {A : AState T} (h : w.Rep A) (x : Nat) (ss : List Sel)
    (f : T → T) (hleg : (Cmd.forEach x ss f : Cmd T).Legal A) : CmdOK dbg dflt eq lt w A (.forEach x ss f) := by
  obtain ⟨p, hp⟩ := hleg
  obtain ⟨a, d, hx, hd, hpo, hA⟩ := h.partOf dbg hp
  obtain ⟨_, hr, _⟩ := h.reach hx
  have hw := partOf_wellShaped hr hpo
  obtain ⟨s', A', c1, c2, c3⟩ := rep_map h hx hpo hw.2 f (positions p.extents) (fun k hk => by
    rw [positions_eq, mem_allPos] at hk; exact hk)
  rw [positions_eq, ← hpo.extents, ← addrs_eq_map d hw] at c1
  refine ⟨_, A', _, by simp [AState.step, hA, c2]; rfl, ?_, c3⟩
  simp only [World.exec, hd, Option.bind_some]
  refine simple_mem (dbg := dbg) (dflt := dflt) (op := .forEach x d f) rfl (v := ()) ?_
  rw [forEach_eq dbg f d hw]
  exact c1

theorem mapM_some_congr {α β : Type} {f : α → Option β} {g : α → β} {l : List α} (h : ∀ k ∈ l, f k = some (g k)) :
    l.mapM f = some (l.map g) := by
  induction l with
  | nil => rfl
  | cons a l ih =>
    rw [List.mapM_cons, h a (by simp), ih (fun k hk => h k (by simp [hk]))]
    rfl

theorem mem_le_sum {es : List Nat} {e : Nat} (h : e ∈ es) : e ≤ es.sum := by
  induction es with
  | nil => cases h
  | cons a es ih =>
    rw [List.sum_cons]
    rcases List.mem_cons.mp h with rfl | h
    · omega
    · have := ih h; omega

theorem step_traverse (dbg : Bool) (dflt : T) (eq lt : T → T → Bool) {w : World T} {A : AState T} (h : w.Rep A) (x : Nat) (ss : List Sel)
    (hleg : (Cmd.traverse x ss : Cmd T).Legal A) : CmdOK dbg dflt eq lt w A (.traverse x ss) ∧ CmdOK dbg dflt eq lt w A (.shape x ss) := by
  obtain ⟨p, hp⟩ := hleg
  obtain ⟨a, d, hx, hd, hpo, hA⟩ := h.partOf dbg hp
  obtain ⟨_, hr, _⟩ := h.reach hx
  have hw := partOf_wellShaped hr hpo
  constructor
  · have hloop := nestedLoop_spec dbg d.extents.sum d hw (fun e he => mem_le_sum he)
    rw [allIdx_eq_map _ _ hw.2, List.map_map] at hloop
    have key : ∀ k ∈ allPos d.extents, ∃ v, elemAt w.st d k = some v ∧ A.get x (p.root (atPos p.bases k)) = some v := by
      intro k hk
      rw [mem_allPos, hpo.extents] at hk
      exact rep_elem h hx hpo hk
    have h1 : ((allPos d.extents).map (address d ∘ atPos d.bases)).mapM (fun q => w.st.get? q) =
        some ((allPos d.extents).map (fun k => (elemAt w.st d k).getD dflt)) := by
      rw [List.mapM_map]
      apply mapM_some_congr
      intro k hk
      obtain ⟨v, e1, _⟩ := key k hk
      show elemAt w.st d k = _
      rw [e1]; rfl
    have h2 : A.values x p = some ((allPos d.extents).map (fun k => (elemAt w.st d k).getD dflt)) := by
      unfold AState.values
      rw [positions_eq, ← hpo.extents]
      apply mapM_some_congr
      intro k hk
      obtain ⟨v, e1, e2⟩ := key k hk
      rw [e1, e2]; rfl
    refine ⟨.values _, A, w, by simp [AState.step, hA, h2]; rfl, ?_, h⟩
    simp only [World.exec, hd, Option.bind_some, hloop, Res.val?, h1, Option.map_some]
  · exact ⟨.shape p.bases p.extents, A, w, by simp [AState.step, hA], by simp [World.exec, hd, hpo.bases, hpo.extents], h⟩

theorem step_compare (dbg : Bool) (dflt : T) (eq lt : T → T → Bool) {w : World T} {A : AState T} (h : w.Rep A) (x : Nat) (ss : List Sel)
    (y : Nat) (ss' : List Sel) (hleg : (Cmd.equal x ss y ss' : Cmd T).Legal A) :
    CmdOK dbg dflt eq lt w A (.equal x ss y ss') ∧ CmdOK dbg dflt eq lt w A (.less x ss y ss') := by
  obtain ⟨p, q, hp, hq, he⟩ := hleg
  obtain ⟨a, d, hx, hd, hpo, hA⟩ := h.partOf dbg hp
  obtain ⟨a', d', hy, hd', hqo, hA'⟩ := h.partOf dbg hq
  obtain ⟨_, hr, _⟩ := h.reach hx
  obtain ⟨_, hr', _⟩ := h.reach hy
  have hw := partOf_wellShaped hr hpo
  have hw' := partOf_wellShaped hr' hqo
  have hf : Contents w.st d (fun k => (A.get x (p.root (atPos p.bases k))).getD dflt) := by
    intro k hk
    rw [hpo.extents] at hk
    obtain ⟨v, e1, e2⟩ := rep_elem h hx hpo hk
    simp [e1, e2]
  have hg : Contents w.st d' (fun k => (A.get y (q.root (atPos q.bases k))).getD dflt) := by
    intro k hk
    rw [hqo.extents] at hk
    obtain ⟨v, e1, e2⟩ := rep_elem h hy hqo hk
    simp [e1, e2]
  have hlen : d'.extents.length = d.extents.length := by rw [hpo.extents, hqo.extents, he]
  constructor
  · have := equalRef_spec dbg eq w.st d.extents.length d d' hw hw' rfl hlen _ _ hf hg
    refine ⟨_, A, w, by simp only [AState.step, hA, hA', Option.bind_some, Option.map_some]; rfl, ?_, h⟩
    rw [hpo.extents, hqo.extents] at this
    simp only [World.exec, hd, hd', Option.bind_some, hpo.extents, this, Res.val?, Option.map_some]
    congr 3
    by_cases hpq : p.extents = q.extents
    · simp only [hpq, decide_true, Bool.true_and, AState.sameElems]
      rw [positions_eq]
      rw [Bool.eq_iff_iff, List.all_eq_true, List.all_eq_true]
      apply forall_congr'; intro k
      apply forall_congr'; intro hk
      rw [mem_allPos] at hk
      obtain ⟨v, _, e2⟩ := rep_elem h hx hpo (by rw [hpq]; exact hk)
      obtain ⟨v', _, e2'⟩ := rep_elem h hy hqo hk
      simp [e2, e2']
    · simp [hpq]
  · have := lessRef_spec dbg lt w.st d.extents.length d d' hw hw' rfl hlen _ _ hf hg
    refine ⟨_, A, w, by simp only [AState.step, hA, hA', Option.bind_some, Option.map_some]; rfl, ?_, h⟩
    simp only [World.exec, hd, hd', Option.bind_some, this, Res.val?, Option.map_some]
    congr 3
    rw [hpo.extents, hqo.extents, Bool.eq_iff_iff, lexVal_iff]
    exact (@decide_eq_true_iff _ (Classical.propDecidable _)).symm

theorem cmd_ok (dbg : Bool) (dflt : T) (eq lt : T → T → Bool) {w : World T} {A : AState T} (h : w.Rep A) (c : Cmd T) (hleg : c.Legal A) :
    CmdOK dbg dflt eq lt w A c := by
  cases c with
  | construct x i => exact step_construct dbg dflt eq lt h x i hleg
  | destroy x => exact step_destroy dbg dflt eq lt h x hleg
  | on x op => exact step_on dbg dflt eq lt h x op hleg
  | assign x y => exact step_assign dbg dflt eq lt h x y hleg
  | assignPart x ss y ss' => exact (step_assignPart dbg dflt eq lt h x ss y ss' hleg).1
  | copyArray x ss y ss' => exact (step_assignPart dbg dflt eq lt h x ss y ss' hleg).2
  | read x ss idx => exact (step_access dbg dflt eq lt h x ss idx dflt hleg).1
  | write x ss idx v => exact (step_access dbg dflt eq lt h x ss idx v hleg).2
  | forEach x ss f => exact step_forEach dbg dflt eq lt h x ss f hleg
  | traverse x ss => exact (step_traverse dbg dflt eq lt h x ss hleg).1
  | shape x ss => exact (step_traverse dbg dflt eq lt h x ss hleg).2
  | equal x ss y ss' => exact (step_compare dbg dflt eq lt h x ss y ss' hleg).1
  | less x ss y ss' => exact (step_compare dbg dflt eq lt h x ss y ss' hleg).2

end MultiArray
