import Verif.Lemmas.Rows

/- Iterator algorithms on the rows of arrays: every step. -/
set_option autoImplicit false

namespace MultiArray
open Spec Props
variable {T α : Type}
variable {A0 : AState T} {seqs : Nat → Option (Nat × List Sel)} {free : Nat → Nat} {es : List Nat}

theorem simple_some {dbg : Bool} {dflt : T} {w w' : World T} {op : Op T} {o : CObs T} (h : w.simple dbg dflt op = some (o, w')) : Result.ok? (w.step dbg dflt op) = some w' := by
  unfold World.simple at h
  cases hr : Result.ok? (w.step dbg dflt op) with
  | none => rw [hr] at h; cases h
  | some w1 => rw [hr] at h; cases h; rfl

theorem ok?_some {r : Result T} {w' : World T} (h : Result.ok? r = some w') : r = .ok w' := by
  cases r <;> cases h
  rfl

theorem get_some_of_part {w : World T} {A : AState T} (h : w.Rep A) {x : Nat} {ss : List Sel} {p : APart} (hp : A.Part x ss p) {k : List Nat} (hk : InShape p.extents k) :
    ∃ v, A.get x (p.root (atPos p.bases k)) = some v := by
  obtain ⟨m, d, hx, _, hpo, _⟩ := h.partOf false hp
  obtain ⟨v, _, hv⟩ := rep_elem h hx hpo hk
  exact ⟨v, hv⟩

variable {dbg : Bool} {dflt : T} {eq lt : T → T → Bool} {D : Nat → Option Desc} {w : World T} {A : AState T} {R : Rows T}

theorem RowInv.like_header (h : RowInv dbg A0 seqs free es D w A R) {A' : AState T} {t : Nat} (hh : A'.header (free t) = A.header (free t)) (a' : AbsArr T)
    (ha' : A' (free t) = some a') : RowLike A0 seqs a' := by
  simp only [AState.header, ha', Option.map_some] at hh
  cases hx : A (free t) with
  | none => rw [hx] at hh; cases hh
  | some a =>
    rw [hx] at hh
    simp only [Option.map_some, Option.some.injEq, Prod.mk.injEq] at hh
    exact (h.like t a hx).congr hh.1 hh.2.1 hh.2.2

theorem RowInv.like_row (_h : RowInv dbg A0 seqs free es D w A R) {len : Nat → Option Nat} {ps : Nat → Option SPos} {r : Nat} {pl : Plc} {y : Nat} {ss : List Sel} {q : APart}
    (g1 : argPlc (T := T) len ps (.row r) = some pl) (g2 : PlcAt A0 A seqs free pl y ss q) {vals : List T} :
    RowLike A0 seqs ⟨q.bases, q.extents, StorageOrder.cOrder q.extents.length, vals⟩ := by
  simp only [argPlc, Option.bind_eq_some_iff, Option.map_eq_some_iff] at g1
  obtain ⟨sp, _, i, _, rfl⟩ := g1
  obtain ⟨s0, p, h1, h2, h3, rfl, rfl⟩ := g2
  exact ⟨_, y, s0, p, h1, h2, rfl, rfl, rfl⟩

/-- `value_type t(s);` -/
theorem take_ok (dflt : T) (eq lt : T → T → Bool) (alloc : Nat) (S : RowSetup A0 seqs free es) (h : RowInv dbg A0 seqs free es D w A R) {ps : Nat → Option SPos}
    {its : Nat → Option AnyIt} (hr : RowRegs D (A0.rowCount seqs) ps its) {s : RowArg} {v : List T} (hv : R.value (A0.rowCount seqs) ps s = some v) {t : Nat}
    (ht : R.tmps t = none) : ∃ w' A', w.takeRow dbg dflt free alloc its t s = some w' ∧ RowInv dbg A0 seqs free es D w' A' (R.setTmp t (some v)) := by
  obtain ⟨pl, y, ss, q, d, g1, g2, g3, g4, g5, g6, g7, g8⟩ := h.arg S hr hv
  have hA := h.dead t ht
  cases s with
  | row r =>
    have hlen : 0 < q.extents.length := by rw [g4]; exact List.length_pos_iff.mpr S.dims
    obtain ⟨o, A', w', e1, e2, e3⟩ := C67_step_refines dbg dflt eq lt h.rep (.construct (free t) (.convert y ss (StorageOrder.cOrder q.extents.length) alloc))
      ⟨hA, q, g3, hlen, cOrder_valid _⟩
    simp only [AState.step, CInit.value, part_some g3, Option.map_some, Option.some.injEq, Prod.mk.injEq] at e1
    obtain ⟨rfl, rfl⟩ := e1
    simp only [World.exec, g5, Option.bind_some] at e2
    have e2 := ok?_some (simple_some e2)
    obtain ⟨m, _, hm, _⟩ := h.rep.partOf false g3
    simp only [World.step, Init.ctor, hm, Option.map_some] at e2
    have hd : (w.takeRow dbg dflt free alloc its t (.row r)) = some w' ∧ ∃ a s, w' = w.set (free t) (some a) s := by
      simp only [World.takeRow, g6, Option.bind_some]
      rw [show d.extents.length = q.extents.length by rw [g7, g4]]
      rw [show d.extents.length = q.extents.length by rw [g7, g4]] at e2
      cases hc : (Ctor.convert q.extents.length d (StorageOrder.cOrder q.extents.length) alloc).run dbg dflt w.st with
      | ok a s => rw [hc] at e2; cases e2; exact ⟨rfl, a, s, rfl⟩
      | throw s => rw [hc] at e2; cases e2
      | assertFail s => rw [hc] at e2; cases e2
      | ub => rw [hc] at e2; cases e2
    obtain ⟨hd, a, s, rfl⟩ := hd
    refine ⟨_, _, hd, RowInv.tmp S h e3 (fun z hz => AState.set_other _ hz _) (fun z hz => by simp [World.set, hz]) (fun hh => by cases hh) ?_ (fun a ha => by
      rw [AState.set_same] at ha; cases ha; exact h.like_row g1 g2)⟩
    intro u hu
    cases hu
    refine ⟨_, AState.set_same A (free t) _, g4, ?_⟩
    rw [← g8]
    obtain ⟨a0, hA0, _⟩ := id g3
    have gp := h.rep.goodPart hA0 g3
    have gt := e3.good (AState.set_same A (free t) _)
    refine values_congr rfl (fun k hk => ?_)
    obtain ⟨x, hx⟩ := get_some_of_part h.rep g3 hk
    rw [AState.get_set_same, hx]
    exact layout_get gt gp.len rfl hk hx
  | tmp t' =>
    simp only [argPlc, Option.some.injEq] at g1
    subst g1
    obtain ⟨rfl, rfl, a, ha, rfl⟩ := g2
    obtain ⟨o, A', w', e1, e2, e3⟩ := C67_step_refines dbg dflt eq lt h.rep (.construct (free t) (.copy (free t'))) ⟨hA, a, ha⟩
    simp only [AState.step, CInit.value, ha, Option.map_some, Option.some.injEq, Prod.mk.injEq] at e1
    obtain ⟨rfl, rfl⟩ := e1
    simp only [World.exec] at e2
    have e2 := simple_some e2
    have e2' := ok?_some e2
    have hset : ∃ a s, w' = w.set (free t) (some a) s := by
      simp only [World.step] at e2'
      cases hc : (Init.copy (free t')).ctor w.objs with
      | none => rw [hc] at e2'; cases e2'
      | some c =>
        rw [hc] at e2'
        simp only at e2'
        cases hc : c.run dbg dflt w.st with
        | ok a s => rw [hc] at e2'; cases e2'; exact ⟨a, s, rfl⟩
        | throw s => rw [hc] at e2'; cases e2'
        | assertFail s => rw [hc] at e2'; cases e2'
        | ub => rw [hc] at e2'; cases e2'
    obtain ⟨m, s, rfl⟩ := hset
    refine ⟨_, _, e2, RowInv.tmp S h e3 (fun z hz => AState.set_other _ hz _) (fun z hz => by simp [World.set, hz]) (fun hh => by cases hh) ?_ (fun a' ha' => by
      rw [AState.set_same] at ha'; cases ha'; exact h.like t' a ha)⟩
    intro u hu
    cases hu
    refine ⟨_, AState.set_same A (free t) _, g4, ?_⟩
    rw [← g8]
    refine values_congr rfl (fun k hk => ?_)
    rw [AState.get_set_same]
    simp [AState.get, ha]

/-- The end of the lifetime of `t`. -/
theorem drop_ok (dflt : T) (eq lt : T → T → Bool) (S : RowSetup A0 seqs free es) (h : RowInv dbg A0 seqs free es D w A R) {t : Nat} {v : List T}
    (ht : R.tmps t = some v) : ∃ w' A', Result.ok? (w.step dbg dflt (.destroy (free t))) = some w' ∧ RowInv dbg A0 seqs free es D w' A' (R.setTmp t none) := by
  obtain ⟨a, ha, _⟩ := h.live t v ht
  obtain ⟨o, A', w', e1, e2, e3⟩ := C67_step_refines dbg dflt eq lt h.rep (.destroy (free t)) ⟨a, ha⟩
  simp only [AState.step, Option.some.injEq, Prod.mk.injEq] at e1
  obtain ⟨rfl, rfl⟩ := e1
  simp only [World.exec] at e2
  have e2 := simple_some e2
  have hset : ∃ s, w' = w.set (free t) none s := by
    have e2' := ok?_some e2
    simp only [World.step] at e2'
    cases hx : w.objs (free t) with
    | none => rw [hx] at e2'; cases e2'
    | some m =>
      rw [hx] at e2'
      simp only at e2'
      cases hc : m.deallocateSpace w.st with
      | ok a s => rw [hc] at e2'; cases e2'; exact ⟨s, rfl⟩
      | throw s => rw [hc] at e2'; cases e2'
      | assertFail s => rw [hc] at e2'; cases e2'
      | ub => rw [hc] at e2'; cases e2'
  obtain ⟨s, rfl⟩ := hset
  exact ⟨_, _, e2, RowInv.tmp S h e3 (fun z hz => AState.set_other _ hz _) (fun z hz => by simp [World.set, hz]) (fun _ => AState.set_same _ _ _) (fun u hu => by cases hu)
    (fun a ha => by rw [AState.set_same] at ha; cases ha)⟩

/-- `d = s` -/
theorem assign_ok (dflt : T) (eq lt : T → T → Bool) (S : RowSetup A0 seqs free es) (h : RowInv dbg A0 seqs free es D w A R) {ps : Nat → Option SPos}
    {its : Nat → Option AnyIt} (hr : RowRegs D (A0.rowCount seqs) ps its) {d s : RowArg} {v : List T} (hv : R.value (A0.rowCount seqs) ps s = some v) {R' : Rows T}
    (hd : R.assign (A0.rowCount seqs) ps v d = some R') :
    ∃ w' A', w.assignRow dbg dflt free its d s = some w' ∧ RowInv dbg A0 seqs free es D w' A' R' := by
  have hdv : ∃ u, R.value (A0.rowCount seqs) ps d = some u := by
    cases d with
    | tmp t =>
      simp only [Rows.assign] at hd
      cases hx : R.tmps t with
      | none => rw [hx] at hd; cases hd
      | some u => exact ⟨u, hx⟩
    | row r =>
      simp only [Rows.assign] at hd
      cases hp : ps r with
      | none => rw [hp] at hd; cases hd
      | some sp =>
        rw [hp] at hd
        simp only [Option.bind_some] at hd
        cases hi : (rowSeqs (T := T) (A0.rowCount seqs)).elem sp with
        | none => rw [hi] at hd; cases hd
        | some i =>
          obtain ⟨e, d', h1, _⟩ := hr r sp hp
          obtain ⟨_, _, a3⟩ := elem_some h1 hi
          obtain ⟨x, ss, p, b, bs, d', _, _, _, _, _, _, _, _, _, g10⟩ := h.seq S h1
          refine ⟨(R.seqs sp.seq)[i]'(by omega), ?_⟩
          simp only [Rows.value, hp, Option.bind_some, Seqs.valueAt, hi]
          exact List.getElem?_eq_getElem (by omega)
  obtain ⟨u, hu⟩ := hdv
  obtain ⟨pl, y, ss, q, de, g1, g2, g3, g4, g5, g6, g7, g8⟩ := h.arg S hr hv
  obtain ⟨pl', y', ss', q', de', g1', g2', g3', g4', g5', g6', g7', g8'⟩ := h.arg S hr hu
  -- what the assignment of the parts does
  have hdis : y' = y → q' = q ∨ q'.Disjoint q := by
    intro hy
    subst hy
    by_cases hpl : pl' = pl
    · subst hpl; exact .inl (g2'.same g2).2.2
    · exact .inr (PlcAt.apart S h hpl g2' g2)
  obtain ⟨A', w', e2, e3, hh, ho, hval, hn⟩ := exec_assignPart dbg dflt eq lt h.rep g3' g3 (g4'.trans g4.symm) hdis
  have hnew : A'.values y' q' = some v := by rw [← g8]; exact values_congr (g4'.trans g4.symm) hval
  have e2m : Result.ok? (w.mem (assignOp dbg false de' de)) = some w' := by
    simp only [World.exec, g5, g5', Option.bind_some] at e2
    exact simple_some e2
  have hobjs : w'.objs = w.objs := mem_objs (.inl (ok?_some e2m))
  have main : RowInv dbg A0 seqs free es D w' A' R' := by
    cases d with
    | row r =>
      simp only [Rows.assign] at hd
      simp only [argPlc] at g1'
      cases hp : ps r with
      | none => rw [hp] at hd; cases hd
      | some sp =>
        rw [hp] at hd g1'
        simp only [Option.bind_some] at hd g1'
        cases hi : (rowSeqs (T := T) (A0.rowCount seqs)).elem sp with
        | none => rw [hi] at hd; cases hd
        | some i =>
          rw [hi] at hd g1'
          cases hd
          cases g1'
          exact RowInv.row S h g2' e3 hobjs hh ho hnew hn _
    | tmp t =>
      simp only [Rows.assign] at hd
      cases hx : R.tmps t with
      | none => rw [hx] at hd; cases hd
      | some u =>
        rw [hx] at hd
        cases hd
        cases g1'
        obtain ⟨rfl, rfl, a, ha, rfl⟩ := g2'
        refine RowInv.tmp S h e3 ho (fun z _ => by rw [hobjs]) (fun hh => by cases hh) (fun u hu => ?_) (h.like_header (hh (free t)))
        cases hu
        have := hh (free t)
        simp only [AState.header, ha, Option.map_some] at this
        cases hA' : A' (free t) with
        | none => rw [hA'] at this; cases this
        | some a' =>
          rw [hA'] at this
          simp only [Option.map_some, Option.some.injEq, Prod.mk.injEq] at this
          have hw : a'.whole = a.whole := by simp [AbsArr.whole, this.1, this.2.1]
          exact ⟨a', rfl, by rw [this.2.1]; exact g4', by rw [hw]; exact hnew⟩
  have general : ((d.desc dbg free its w).bind (fun d => (s.desc dbg free its w).bind (fun s => Result.ok? (w.mem (assignOp dbg false d s))))) = some w' := by
    simp only [g6, g6', Option.bind_some]; exact e2m
  cases d with
  | row r => exact ⟨w', A', general, main⟩
  | tmp t =>
    cases s with
    | row r' => exact ⟨w', A', general, main⟩
    | tmp t' =>
      cases g1; cases g1'
      obtain ⟨rfl, rfl, a, ha, rfl⟩ := g2
      obtain ⟨rfl, rfl, a', ha', rfl⟩ := g2'
      by_cases htt : free t = free t'
      · have htt' := S.inj _ _ htt
        subst htt'
        obtain ⟨o, A1, w1, f1, f2, f3⟩ := C67_step_refines dbg dflt eq lt h.rep (.assign (free t) (free t)) ⟨a, a, ha, ha, rfl⟩
        simp only [AState.step, if_true, Option.some.injEq, Prod.mk.injEq] at f1
        obtain ⟨rfl, rfl⟩ := f1
        simp only [World.exec] at f2
        have f2 := simple_some f2
        have f2' := ok?_some f2
        refine ⟨w1, A, f2, ?_⟩
        have hR : R' = R.setTmp t (some v) := by
          have hv : R.tmps t = some v := hv
          simp only [Rows.assign, hv, Option.map_some, Option.some.injEq] at hd
          exact hd.symm
        have ho1 : w1.objs = w.objs := by
          simp only [World.step] at f2'
          cases hx : w.objs (free t) with
          | none => rw [hx] at f2'; cases f2'
          | some m => rw [hx] at f2'; exact mem_objs (.inl f2')
        rw [hR]
        exact RowInv.tmp S h f3 (fun _ _ => rfl) (fun z _ => by rw [ho1]) (fun hh => by cases hh) (fun u hu => by cases hu; exact ⟨a, ha, g4, g8⟩) (h.like t)
      · have := exec_assign_whole dbg dflt eq lt w htt
        refine ⟨w', A', ?_, main⟩
        rw [this] at e2
        exact simple_some e2

/-- Looking at a row. -/
theorem look_ok (dflt : T) (eq lt : T → T → Bool) (S : RowSetup A0 seqs free es) (h : RowInv dbg A0 seqs free es D w A R) {ps : Nat → Option SPos}
    {its : Nat → Option AnyIt} (hr : RowRegs D (A0.rowCount seqs) ps its) {s : RowArg} {v : List T} (hv : R.value (A0.rowCount seqs) ps s = some v) :
    ∃ d, s.desc dbg free its w = some d ∧ w.lookAt dbg d = some v := by
  obtain ⟨pl, y, ss, q, d, g1, g2, g3, g4, g5, g6, g7, g8⟩ := h.arg S hr hv
  obtain ⟨o, A', w', e1, e2, e3⟩ := C67_step_refines dbg dflt eq lt h.rep (.traverse y ss) ⟨q, g3⟩
  simp only [AState.step, part_some g3, Option.bind_some, g8, Option.map_some, Option.some.injEq, Prod.mk.injEq] at e1
  obtain ⟨rfl, rfl⟩ := e1
  refine ⟨d, g6, ?_⟩
  simp only [World.exec, g5, Option.bind_some, Option.bind_eq_some_iff, Option.map_eq_some_iff, Prod.mk.injEq, CObs.values.injEq] at e2
  obtain ⟨o, h1, ps', h2, vs, h3, rfl, _⟩ := e2
  simp only [World.lookAt, h1, Option.bind_some, h2, h3]

/-- Comparing rows. -/
theorem compare_ok (dflt : T) (eq lt : T → T → Bool) (S : RowSetup A0 seqs free es) (h : RowInv dbg A0 seqs free es D w A R) {ps : Nat → Option SPos}
    {its : Nat → Option AnyIt} (hr : RowRegs D (A0.rowCount seqs) ps its) {s s' : RowArg} {v v' : List T} (hv : R.value (A0.rowCount seqs) ps s = some v)
    (hv' : R.value (A0.rowCount seqs) ps s' = some v') :
    ∃ d d', s.desc dbg free its w = some d ∧ s'.desc dbg free its w = some d' ∧ Res.val? (equalRef dbg eq w.st d.extents.length d d') = some (rowEqual eq v v') ∧
      Res.val? (lessRef dbg lt w.st d.extents.length d d') = some (rowLess lt v v') := by
  obtain ⟨pl, y, ss, q, d, g1, g2, g3, g4, g5, g6, g7, g8⟩ := h.arg S hr hv
  obtain ⟨pl', y', ss', q', d', g1', g2', g3', g4', g5', g6', g7', g8'⟩ := h.arg S hr hv'
  refine ⟨d, d', g6, g6', ?_, ?_⟩
  · obtain ⟨o, A', w', e1, e2, e3⟩ := C67_step_refines dbg dflt eq lt h.rep (.equal y ss y' ss') ⟨q, q', g3, g3', by rw [g4, g4']⟩
    simp only [AState.step, part_some g3, part_some g3', Option.bind_some, Option.map_some, Option.some.injEq, Prod.mk.injEq] at e1
    obtain ⟨rfl, rfl⟩ := e1
    simp only [World.exec, g5, g5', Option.bind_some, Option.map_eq_some_iff, Prod.mk.injEq, CObs.bool.injEq] at e2
    obtain ⟨b, h1, h2, _⟩ := e2
    rw [h1, h2, g4, g4']
    simp only [decide_true, Bool.true_and, Option.some.injEq]
    unfold AState.values at g8 g8'
    unfold AState.sameElems
    rw [g4] at g8 ⊢
    rw [g4'] at g8'
    exact all_rowEqual eq g8 g8'
  · obtain ⟨o, A', w', e1, e2, e3⟩ := C67_step_refines dbg dflt eq lt h.rep (.less y ss y' ss') ⟨q, q', g3, g3', by rw [g4, g4']⟩
    simp only [AState.step, part_some g3, part_some g3', Option.bind_some, Option.map_some, Option.some.injEq, Prod.mk.injEq] at e1
    obtain ⟨rfl, rfl⟩ := e1
    simp only [World.exec, g5, g5', Option.bind_some, Option.map_eq_some_iff, Prod.mk.injEq, CObs.bool.injEq] at e2
    obtain ⟨b, h1, h2, _⟩ := e2
    rw [h1, h2]
    congr 1
    have := less_flat lt dflt g4 g4' g8 g8'
    rw [g4]
    exact this

/-- The algorithm with the library gives what it gives on plain lists. -/
theorem rowsExec_run (dflt : T) (eq lt : T → T → Bool) (alloc : Nat) (S : RowSetup A0 seqs free es) (alg : RAlg T α) : ∀ (ps : Nat → Option SPos) (its : Nat → Option AnyIt)
    (w : World T) (A : AState T) (R : Rows T), RowInv dbg A0 seqs free es D w A R → RowRegs D (A0.rowCount seqs) ps its →
    ∀ a R', alg.run eq lt (A0.rowCount seqs) ps R = some (a, R') →
    ∃ w' A', alg.exec dbg dflt eq lt seqs free alloc its w = some (a, w') ∧ RowInv dbg A0 seqs free es D w' A' R' := by
  induction alg with
  | ret a => intro ps its w A R h hr a' R' hrun; cases hrun; exact ⟨w, A, rfl, h⟩
  | begin r c k ih =>
    intro ps its w A R h hr a R' hrun
    simp only [RAlg.run, Option.bind_eq_some_iff] at hrun
    obtain ⟨e, he, hrun⟩ := hrun
    obtain ⟨x, ss, p, b, bs, d, g1, g2, g3, g4, g5, g6, g7, g8, g9, g10⟩ := h.seq S he
    have hb : optRes d.begin = some ⟨b, d⟩ := by rw [show d.begin = .ok ⟨b, d⟩ by unfold Desc.begin; rw [g8]; rfl]; rfl
    obtain ⟨w', A', f1, f2⟩ := ih _ _ w A R h (hr.set r (sp := ⟨c, false, 0⟩) (it := .fwd ⟨b, d⟩) he g7 (Nat.zero_le _) (by simp [toIt, g8])) a R' hrun
    exact ⟨w', A', by simp only [RAlg.exec, g1, Option.bind_some, g6, hb]; exact f1, f2⟩
  | fin r c k ih =>
    intro ps its w A R h hr a R' hrun
    simp only [RAlg.run, Option.bind_eq_some_iff] at hrun
    obtain ⟨e, he, hrun⟩ := hrun
    obtain ⟨x, ss, p, b, bs, d, g1, g2, g3, g4, g5, g6, g7, g8, g9, g10⟩ := h.seq S he
    have hb : optRes d.end = some ⟨b + (e : Int), d⟩ := by rw [show d.end = .ok ⟨b + (e : Int), d⟩ by unfold Desc.end; rw [g8, g9]; rfl]; rfl
    obtain ⟨w', A', f1, f2⟩ := ih _ _ w A R h (hr.set r (sp := ⟨c, false, e⟩) (it := .fwd ⟨b + (e : Int), d⟩) he g7 (Nat.le_refl _) (by simp [toIt, g8])) a R' hrun
    exact ⟨w', A', by simp only [RAlg.exec, g1, Option.bind_some, g6, hb]; exact f1, f2⟩
  | rbegin r c k ih =>
    intro ps its w A R h hr a R' hrun
    simp only [RAlg.run, Option.bind_eq_some_iff] at hrun
    obtain ⟨e, he, hrun⟩ := hrun
    obtain ⟨x, ss, p, b, bs, d, g1, g2, g3, g4, g5, g6, g7, g8, g9, g10⟩ := h.seq S he
    have hb : optRes d.rbegin = some ⟨⟨b + (e : Int), d⟩⟩ := by
      rw [show d.rbegin = .ok ⟨⟨b + (e : Int), d⟩⟩ by unfold Desc.rbegin Desc.end; rw [g8, g9]; rfl]; rfl
    obtain ⟨w', A', f1, f2⟩ := ih _ _ w A R h (hr.set r (sp := ⟨c, true, 0⟩) (it := .bwd ⟨⟨b + (e : Int), d⟩⟩) he g7 (Nat.zero_le _) (by simp [toIt, g8])) a R' hrun
    exact ⟨w', A', by simp only [RAlg.exec, g1, Option.bind_some, g6, hb]; exact f1, f2⟩
  | rfin r c k ih =>
    intro ps its w A R h hr a R' hrun
    simp only [RAlg.run, Option.bind_eq_some_iff] at hrun
    obtain ⟨e, he, hrun⟩ := hrun
    obtain ⟨x, ss, p, b, bs, d, g1, g2, g3, g4, g5, g6, g7, g8, g9, g10⟩ := h.seq S he
    have hb : optRes d.rend = some ⟨⟨b, d⟩⟩ := by
      rw [show d.rend = .ok ⟨⟨b, d⟩⟩ by unfold Desc.rend Desc.begin; rw [g8]; rfl]; rfl
    obtain ⟨w', A', f1, f2⟩ := ih _ _ w A R h (hr.set r (sp := ⟨c, true, e⟩) (it := .bwd ⟨⟨b, d⟩⟩) he g7 (Nat.le_refl _) (by simp [toIt, g8])) a R' hrun
    exact ⟨w', A', by simp only [RAlg.exec, g1, Option.bind_some, g6, hb]; exact f1, f2⟩
  | copy r r' k ih =>
    intro ps its w A R h hr a R' hrun
    simp only [RAlg.run, Option.bind_eq_some_iff] at hrun
    obtain ⟨sp, hsp, hrun⟩ := hrun
    obtain ⟨e, d, h1, h2, h3, h4⟩ := hr r' sp hsp
    obtain ⟨w', A', f1, f2⟩ := ih _ _ w A R h (hr.set r h1 h2 h3 rfl) a R' hrun
    exact ⟨w', A', by simp only [RAlg.exec, h4, Option.bind_some]; exact f1, f2⟩
  | base r r' k ih =>
    intro ps its w A R h hr a R' hrun
    simp only [RAlg.run, Option.bind_eq_some_iff] at hrun
    obtain ⟨sp', ⟨sp, hsp, hb⟩, hrun⟩ := hrun
    obtain ⟨e, d, h1, h2, h3, h4⟩ := hr r' sp hsp
    unfold Seqs.baseOf at hb
    rw [show (rowSeqs (T := T) (A0.rowCount seqs)).len sp.seq = some e from h1] at hb
    simp only [Option.bind_some] at hb
    split at hb
    · rename_i hrev
      cases hb
      have hbase : optRes (toIt e (d.bases.headD 0) d sp).base = some (.fwd ⟨d.bases.headD 0 + ((e : Int) - (sp.i : Int)), d⟩) := by
        unfold toIt; rw [if_pos hrev]; rfl
      obtain ⟨w', A', f1, f2⟩ := ih _ _ w A R h (hr.set r (sp := ⟨sp.seq, false, e - sp.i⟩) (it := .fwd ⟨d.bases.headD 0 + ((e : Int) - (sp.i : Int)), d⟩) h1 h2 (Nat.sub_le _ _) (by
        simp only [toIt]
        rw [if_neg (by decide), show ((e - sp.i : Nat) : Int) = (e : Int) - (sp.i : Int) by omega])) a R' hrun
      exact ⟨w', A', by simp only [RAlg.exec, h4, Option.bind_some, hbase]; exact f1, f2⟩
    · cases hb
  | add r n k ih =>
    intro ps its w A R h hr a R' hrun
    simp only [RAlg.run, Option.bind_eq_some_iff] at hrun
    obtain ⟨sp', ⟨sp, hsp, hm⟩, hrun⟩ := hrun
    obtain ⟨e, d, h1, h2, h3, h4⟩ := hr r sp hsp
    obtain ⟨a1, a2, a3⟩ := moved_some h1 hm
    subst a2
    obtain ⟨w', A', f1, f2⟩ := ih _ _ w A R h (hr.set r (sp := { sp with i := ((sp.i : Int) + n).toNat }) h1 h2 a3 (toIt_moved _ _ _ _ _ a1)) a R' hrun
    exact ⟨w', A', by simp only [RAlg.exec, h4, Option.bind_some]; exact f1, f2⟩
  | equal r r' k ih =>
    intro ps its w A R h hr a R' hrun
    simp only [RAlg.run, Option.bind_eq_some_iff] at hrun
    obtain ⟨⟨x, y⟩, hb, hrun⟩ := hrun
    obtain ⟨c1, c2, c3, c4⟩ := both_some hb
    obtain ⟨e, d, h1, h2, h3, h4⟩ := hr r x c1
    obtain ⟨e', d', h1', h2', h3', h4'⟩ := hr r' y c2
    rw [← c3] at h1' h2'
    rw [h1] at h1'; rw [h2] at h2'
    cases h1'; cases h2'
    obtain ⟨w', A', f1, f2⟩ := ih _ _ _ w A R h hr a R' hrun
    exact ⟨w', A', by simp only [RAlg.exec, h4, h4', Option.bind_some, toIt_equal e _ d x y c4, optRes, Res.val?]; exact f1, f2⟩
  | less r r' k ih =>
    intro ps its w A R h hr a R' hrun
    simp only [RAlg.run, Option.bind_eq_some_iff] at hrun
    obtain ⟨⟨x, y⟩, hb, hrun⟩ := hrun
    obtain ⟨c1, c2, c3, c4⟩ := both_some hb
    obtain ⟨e, d, h1, h2, h3, h4⟩ := hr r x c1
    obtain ⟨e', d', h1', h2', h3', h4'⟩ := hr r' y c2
    rw [← c3] at h1' h2'
    rw [h1] at h1'; rw [h2] at h2'
    cases h1'; cases h2'
    obtain ⟨w', A', f1, f2⟩ := ih _ _ _ w A R h hr a R' hrun
    exact ⟨w', A', by simp only [RAlg.exec, h4, h4', Option.bind_some, toIt_less e _ d x y c4, optRes, Res.val?]; exact f1, f2⟩
  | diff r r' k ih =>
    intro ps its w A R h hr a R' hrun
    simp only [RAlg.run, Option.bind_eq_some_iff] at hrun
    obtain ⟨⟨x, y⟩, hb, hrun⟩ := hrun
    obtain ⟨c1, c2, c3, c4⟩ := both_some hb
    obtain ⟨e, d, h1, h2, h3, h4⟩ := hr r x c1
    obtain ⟨e', d', h1', h2', h3', h4'⟩ := hr r' y c2
    rw [← c3] at h1' h2'
    rw [h1] at h1'; rw [h2] at h2'
    cases h1'; cases h2'
    obtain ⟨w', A', f1, f2⟩ := ih _ _ _ w A R h hr a R' hrun
    exact ⟨w', A', by simp only [RAlg.exec, h4, h4', Option.bind_some, toIt_diff e _ d x y c4, optRes, Res.val?]; exact f1, f2⟩
  | take t s k ih =>
    intro ps its w A R h hr a R' hrun
    simp only [RAlg.run, Option.bind_eq_some_iff] at hrun
    obtain ⟨v, hv, hrun⟩ := hrun
    split at hrun
    · rename_i ht
      obtain ⟨w1, A1, f1, f2⟩ := take_ok dflt eq lt alloc S h hr hv (Option.isNone_iff_eq_none.mp ht)
      obtain ⟨w', A', f3, f4⟩ := ih _ _ w1 A1 _ f2 hr a R' hrun
      exact ⟨w', A', by simp only [RAlg.exec, f1, Option.bind_some]; exact f3, f4⟩
    · cases hrun
  | drop t k ih =>
    intro ps its w A R h hr a R' hrun
    simp only [RAlg.run, Option.bind_eq_some_iff] at hrun
    obtain ⟨v, hv, hrun⟩ := hrun
    obtain ⟨w1, A1, f1, f2⟩ := drop_ok dflt eq lt S h hv
    obtain ⟨w', A', f3, f4⟩ := ih _ _ w1 A1 _ f2 hr a R' hrun
    exact ⟨w', A', by simp only [RAlg.exec, f1, Option.bind_some]; exact f3, f4⟩
  | assign d s k ih =>
    intro ps its w A R h hr a R' hrun
    simp only [RAlg.run, Option.bind_eq_some_iff] at hrun
    obtain ⟨v, hv, R1, hd, hrun⟩ := hrun
    obtain ⟨w1, A1, f1, f2⟩ := assign_ok dflt eq lt S h hr hv hd
    obtain ⟨w', A', f3, f4⟩ := ih _ _ w1 A1 _ f2 hr a R' hrun
    exact ⟨w', A', by simp only [RAlg.exec, f1, Option.bind_some]; exact f3, f4⟩
  | look s k ih =>
    intro ps its w A R h hr a R' hrun
    simp only [RAlg.run, Option.bind_eq_some_iff] at hrun
    obtain ⟨v, hv, hrun⟩ := hrun
    obtain ⟨d, f1, f2⟩ := look_ok dflt eq lt S h hr hv
    obtain ⟨w', A', f3, f4⟩ := ih _ _ _ w A R h hr a R' hrun
    exact ⟨w', A', by simp only [RAlg.exec, f1, f2, Option.bind_some]; exact f3, f4⟩
  | rowEq s s' k ih =>
    intro ps its w A R h hr a R' hrun
    simp only [RAlg.run, Option.bind_eq_some_iff] at hrun
    obtain ⟨v, hv, v', hv', hrun⟩ := hrun
    split at hrun
    · obtain ⟨d, d', f1, f2, f3, _⟩ := compare_ok dflt eq lt S h hr hv hv'
      obtain ⟨w', A', f5, f6⟩ := ih _ _ _ w A R h hr a R' hrun
      exact ⟨w', A', by simp only [RAlg.exec, f1, f2, f3, Option.bind_some]; exact f5, f6⟩
    · cases hrun
  | rowLt s s' k ih =>
    intro ps its w A R h hr a R' hrun
    simp only [RAlg.run, Option.bind_eq_some_iff] at hrun
    obtain ⟨v, hv, v', hv', hrun⟩ := hrun
    split at hrun
    · obtain ⟨d, d', f1, f2, _, f4⟩ := compare_ok dflt eq lt S h hr hv hv'
      obtain ⟨w', A', f5, f6⟩ := ih _ _ _ w A R h hr a R' hrun
      exact ⟨w', A', by simp only [RAlg.exec, f1, f2, f4, Option.bind_some]; exact f5, f6⟩
    · cases hrun

end MultiArray
