import Verif.Lemmas.SeqM
import Verif.Lemmas.RowsX
import Verif.Lemmas.ProgXM

/- Iterator algorithms on rows in 64-bit arithmetic compute what they compute in ideal arithmetic, if everything fits. -/
set_option autoImplicit false

namespace MultiArray
open Spec Props
variable {T α : Type}

theorem Spec.AbsArr.Fits.congr {a a' : AbsArr T} (h : a.Fits) (h1 : a'.bases = a.bases) (h2 : a'.extents = a.extents) (h3 : a'.order = a.order) : a'.Fits := by
  unfold AbsArr.Fits AbsArr.strides at h ⊢
  rw [h1, h2, h3]
  exact h

theorem pathFits_snoc (j : Int) : ∀ (ss : List Sel) (p : APart) (st : List Int), p.PathFits st ss → p.PathFits st (ss ++ [.at j])
  | [], _, _, _ => trivial
  | .at i :: ss, p, st, h => pathFits_snoc j ss _ _ h
  | .view xs :: ss, p, st, h => ⟨h.1, pathFits_snoc j ss _ _ h.2⟩
  | .viewFrom xs bs :: ss, p, st, h => ⟨h.1, h.2.1, h.2.2.1, pathFits_snoc j ss _ _ h.2.2.2⟩

variable {A0 : AState T} {seqs : Nat → Option (Nat × List Sel)} {free : Nat → Nat} {es : List Nat}
variable {dbg : Bool} {dflt : T} {eq lt : T → T → Bool} {D : Nat → Option Desc} {w wt : World T} {A : AState T} {R : Rows T}

theorem RowLike.fits (F : RowsFit A0 seqs) {a : AbsArr T} (h : RowLike A0 seqs a) : a.Fits := by
  obtain ⟨c, y, s0, p, g1, g2, g3, g4, g5⟩ := h
  exact (F.rows c y s0 p g1 (part_some g2)).congr g3 g4 (by rw [g5, g4])

theorem RowInv.fits (F : RowsFit A0 seqs) (h : RowInv dbg A0 seqs free es D w A R) : A.Fits := by
  intro x a hx
  by_cases ht : ∃ t, x = free t
  · obtain ⟨t, rfl⟩ := ht
    exact (h.like t a hx).fits F
  · have hh := h.only.1 x (fun t e => ht ⟨t, e⟩)
    simp only [AState.header, hx, Option.map_some] at hh
    cases h0 : A0 x with
    | none => rw [h0] at hh; cases hh
    | some a0 =>
      rw [h0] at hh
      simp only [Option.map_some, Option.some.injEq, Prod.mk.injEq] at hh
      exact (F.arrays x a0 h0).congr hh.1 hh.2.1 hh.2.2

theorem RowInv.exprFits (S : RowSetup A0 seqs free es) (F : RowsFit A0 seqs) (h : RowInv dbg A0 seqs free es D w A R) {c x : Nat} {ss : List Sel} (hc : seqs c = some (x, ss)) :
    A.ExprFits x ss := by
  intro a hx
  have hh := h.only.1 x (S.ne_free hc)
  simp only [AState.header, hx, Option.map_some] at hh
  cases h0 : A0 x with
  | none => rw [h0] at hh; cases hh
  | some a0 =>
    rw [h0] at hh
    simp only [Option.map_some, Option.some.injEq, Prod.mk.injEq] at hh
    have := F.views c x ss hc a0 h0
    rw [show a.whole = a0.whole by simp [AbsArr.whole, hh.1, hh.2.1], show a.strides = a0.strides by simp [AbsArr.strides, hh.2.1, hh.2.2]]
    exact this

/-- The descriptor of a sequence. -/
theorem RowInv.seqM (S : RowSetup A0 seqs free es) (F : RowsFit A0 seqs) (hwc : w.objs = wt.objs) (h : RowInv dbg A0 seqs free es D wt A R) {c e : Nat}
    (hc : A0.rowCount seqs c = some e) :
    ∃ x ss p s st b bs, seqs c = some (x, ss) ∧ D c = some ⟨p, e :: es, s :: st, b :: bs⟩ ∧ w.lookup dbg x ss = some ⟨p, e :: es, s :: st, b :: bs⟩ ∧
      w.lookupM dbg x ss = some ⟨p, e :: es, s :: st, b :: bs⟩ ∧ DimsFit (b :: bs) (e :: es) (s :: st) := by
  obtain ⟨x, ss, p, b, bs, d, g1, g2, g3, g4, g5, g6, g7, g8, g9, g10⟩ := h.seq S hc
  obtain ⟨a, d', _, k2, k3, k4, k5, k6⟩ := Spec.World.Rep.partM (w := w) (t := wt.st) (by rw [hwc]; exact h.rep) (h.fits F) dbg g3 (h.exprFits S F g1)
  have hd : d' = d := by
    rw [show w.lookup dbg x ss = wt.lookup dbg x ss by unfold World.lookup; rw [hwc], g6] at k2
    exact (Option.some.inj k2).symm
  subst hd
  have hdims := k6.dims
  obtain ⟨pp, ee, st, bb⟩ := d'
  simp only at g8 g9
  subst g8 g9
  cases st with
  | nil => exact absurd k5.1 (by simp)
  | cons s st => exact ⟨x, ss, pp, s, st, b, bs, g1, g7, k2, k3, hdims⟩

/-- The descriptor of an argument. -/
theorem RowInv.argM (S : RowSetup A0 seqs free es) (F : RowsFit A0 seqs) (hwc : w.objs = wt.objs) (h : RowInv dbg A0 seqs free es D wt A R) {ps : Nat → Option SPos}
    {its : Nat → Option AnyIt} (hr : RowRegs D (A0.rowCount seqs) ps its) {s : RowArg} {v : List T} (hv : R.value (A0.rowCount seqs) ps s = some v) :
    ∃ pl y ss q d, argPlc (T := T) (A0.rowCount seqs) ps s = some pl ∧ PlcAt A0 A seqs free pl y ss q ∧ A.Part y ss q ∧ A.ExprFits y ss ∧ q.extents = es ∧
      w.lookup dbg y ss = some d ∧ s.desc dbg free its w = some d ∧ s.descM dbg free its w = some d ∧ d.extents = es ∧ WellShaped d ∧ DescFits d := by
  obtain ⟨pl, y, ss, q, d, g1, g2, g3, g4, g5, g6, g7, g8⟩ := h.arg S hr hv
  have hex : A.ExprFits y ss := by
    cases pl with
    | row c i =>
      obtain ⟨s0, p, h1, h2, h3, rfl, rfl⟩ := g2
      exact fun a ha => pathFits_snoc _ _ _ _ (h.exprFits S F h1 a ha)
    | tmp t =>
      obtain ⟨rfl, rfl, _⟩ := g2
      exact fun a _ => trivial
  obtain ⟨a, d', _, k2, _, _, k5, k6⟩ := Spec.World.Rep.partM (w := w) (t := wt.st) (by rw [hwc]; exact h.rep) (h.fits F) dbg g3 hex
  have hlk : w.lookup dbg y ss = wt.lookup dbg y ss := by unfold World.lookup; rw [hwc]
  have hd : d' = d := by
    rw [hlk, g5] at k2
    exact (Option.some.inj k2).symm
  subst hd
  have hds : s.desc dbg free its w = some d' := by rw [desc_objs hwc]; exact g6
  refine ⟨pl, y, ss, q, d', g1, g2, g3, hex, g4, k2, hds, ?_, g7, k5, k6⟩
  cases s with
  | tmp t => exact hds
  | row r =>
    rw [← hds]
    simp only [argPlc, Option.bind_eq_some_iff, Option.map_eq_some_iff] at g1
    obtain ⟨sp, hsp, i, hi, rfl⟩ := g1
    obtain ⟨e, d0, h1, h2, h3, h4⟩ := hr r sp hsp
    obtain ⟨a1, _, _⟩ := elem_some h1 hi
    obtain ⟨x, s1, p, st0, st, b, bs, j1, j2, j3, j4, j5⟩ := h.seqM S F hwc h1
    rw [h2] at j2
    cases j2
    simp only [RowArg.descM, RowArg.desc, h4, Option.bind_some, List.headD_cons]
    rw [toIt_derefM dbg j5 sp a1]

/-! ### The calls -/

theorem takeM_eq (dflt : T) (eq lt : T → T → Bool) (alloc : Nat) (S : RowSetup A0 seqs free es) (F : RowsFit A0 seqs) (hwc : w.objs = wt.objs) (h : RowInv dbg A0 seqs free es D wt A R)
    {ps : Nat → Option SPos} {its : Nat → Option AnyIt} (hr : RowRegs D (A0.rowCount seqs) ps its) {s : RowArg} {v : List T} (hv : R.value (A0.rowCount seqs) ps s = some v)
    {t : Nat} (ht : R.tmps t = none) : w.takeRowXM dbg dflt free alloc its t s = w.takeRowX dbg dflt free alloc its t s := by
  obtain ⟨pl, y, ss, q, d, g1, g2, g3, g4, g5, g6, g7, g8, g9, g10, g11⟩ := h.argM S F hwc hr hv
  have hA := h.dead t ht
  have hrep : (⟨w.objs, wt.st⟩ : World T).Rep A := by rw [hwc]; exact h.rep
  cases s with
  | row r =>
    have hlen : 0 < q.extents.length := by rw [g5]; exact List.length_pos_iff.mpr S.dims
    have hde : d.extents.length = q.extents.length := by rw [g9, g5]
    have hc := ctorsAgree dbg dflt eq lt hrep (h.fits F) (free t) (.convert y ss (StorageOrder.cOrder q.extents.length) alloc) ⟨hA, q, g3, hlen, cOrder_valid _⟩ g4 (by
      intro o A' hs
      simp only [AState.step, CInit.value, part_some g3, Option.map_some, Option.some.injEq, Prod.mk.injEq] at hs
      obtain ⟨_, rfl⟩ := hs
      intro x a hx
      by_cases hxt : x = free t
      · subst hxt
        rw [AState.set_same] at hx
        cases hx
        exact (h.like_row g1 g2).fits F
      · rw [AState.set_other _ hxt] at hx
        exact h.fits F x a hx)
    obtain ⟨a, d', k1, k2, _, k3⟩ := hc
    rw [g6] at k2
    cases k2
    simp only [World.takeRowXM, World.takeRowX, g7, g8, World.ctorX]
    rw [← hde] at k3
    rw [k3]
    cases (Ctor.convert d.extents.length d (StorageOrder.cOrder d.extents.length) alloc).run dbg dflt w.st <;> rfl
  | tmp t' =>
    cases g1
    obtain ⟨rfl, rfl, a, ha, rfl⟩ := g2
    obtain ⟨m, hm, _⟩ := hrep.absAt ha
    simp only [World.takeRowXM, World.takeRowX, hm]
    exact ctorX_eq (by simp [Init.ctor, hm]) rfl

theorem assignM_eq (dflt : T) (S : RowSetup A0 seqs free es) (F : RowsFit A0 seqs) (hwc : w.objs = wt.objs) (h : RowInv dbg A0 seqs free es D wt A R)
    {ps : Nat → Option SPos} {its : Nat → Option AnyIt} (hr : RowRegs D (A0.rowCount seqs) ps its) {s d : RowArg} {v u : List T} (hv : R.value (A0.rowCount seqs) ps s = some v)
    (hu : R.value (A0.rowCount seqs) ps d = some u) : w.assignRowXM dbg free its d s = w.assignRowX dbg dflt free its d s := by
  obtain ⟨pl, y, ss, q, e, g1, g2, g3, g4, g5, g6, g7, g8, g9, g10, g11⟩ := h.argM S F hwc hr hv
  obtain ⟨pl', y', ss', q', e', g1', g2', g3', g4', g5', g6', g7', g8', g9', g10', g11'⟩ := h.argM S F hwc hr hu
  have hop : (Machine.assignOpW dbg false eltCopy e' e : Exec T Unit) = assignOp dbg false e' e := by
    rw [Machine.assignOpW_eq dbg false eltCopy e' e g10' g10 g11'.dims g11.dims (.inl (by rw [g9, g9']))]
    rfl
  have general : w.assignDescM dbg (d.descM dbg free its w) (s.descM dbg free its w) = w.assignDesc dbg (d.desc dbg free its w) (s.desc dbg free its w) := by
    rw [g7, g7', g8, g8']
    simp only [World.assignDescM, World.assignDesc, hop]
  cases d with
  | row r => exact general
  | tmp t =>
    cases s with
    | row r => exact general
    | tmp t' =>
      cases g1; cases g1'
      obtain ⟨rfl, rfl, a, ha, rfl⟩ := g2
      obtain ⟨rfl, rfl, a', ha', rfl⟩ := g2'
      have hrep : (⟨w.objs, wt.st⟩ : World T).Rep A := by rw [hwc]; exact h.rep
      obtain ⟨m, hm, rm⟩ := hrep.absAt ha
      obtain ⟨m', hm', rm'⟩ := hrep.absAt ha'
      simp only [World.assignRowXM, World.assignRowX, World.assignTmpM, World.step, hm, hm']
      have : (Machine.assignFrom dbg (decide (free t = free t')) m' m : Exec T Unit) = m'.assignFrom dbg (decide (free t = free t')) m := by
        unfold Machine.assignFrom MArr.assignFrom
        rw [Machine.assignOpW_eq dbg _ eltCopy m'.ref.desc m.ref.desc rm'.owns.reach.wf.wellShaped rm.owns.reach.wf.wellShaped
          (rm'.descFits (h.fits F _ _ ha')).dims (rm.descFits (h.fits F _ _ ha)).dims (.inl (by
            show m'.ref.extents = m.ref.extents
            rw [rm'.extents, rm.extents]
            exact g5'.trans g5.symm))]
        rfl
      rw [this]

/-! ### The whole algorithm -/

theorem assign_value {ps : Nat → Option SPos} {its : Nat → Option AnyIt} (S : RowSetup A0 seqs free es) (h : RowInv dbg A0 seqs free es D w A R)
    (hr : RowRegs D (A0.rowCount seqs) ps its) {d : RowArg} {v : List T} {R' : Rows T} (hd : R.assign (A0.rowCount seqs) ps v d = some R') :
    ∃ u, R.value (A0.rowCount seqs) ps d = some u := by
  cases d with
  | tmp t =>
    simp only [Rows.assign] at hd
    cases hx : R.tmps t with
    | none => rw [hx] at hd; cases hd
    | some u => exact ⟨u, hx⟩
  | row r =>
    simp only [Rows.assign] at hd
    cases hp : ps r with
    | none => rw [hp] at hd; cases hd
    | some sp =>
      rw [hp] at hd
      simp only [Option.bind_some] at hd
      cases hi : (rowSeqs (T := T) (A0.rowCount seqs)).elem sp with
      | none => rw [hi] at hd; cases hd
      | some i =>
        obtain ⟨e, d', h1, _⟩ := hr r sp hp
        obtain ⟨_, _, a3⟩ := elem_some h1 hi
        obtain ⟨x, ss, p, b, bs, d', _, _, _, _, _, _, _, _, _, g10⟩ := h.seq S h1
        refine ⟨(R.seqs sp.seq)[i]'(by omega), ?_⟩
        simp only [Rows.value, hp, Option.bind_some, Seqs.valueAt, hi]
        exact List.getElem?_eq_getElem (by omega)

theorem rowsM_run (dflt : T) (eq lt : T → T → Bool) (alloc : Nat) (S : RowSetup A0 seqs free es) (F : RowsFit A0 seqs) {L : List Nat} (alg : RAlg T α) : ∀ (ps : Nat → Option SPos)
    (its : Nat → Option AnyIt) (live : List Nat) (w wt : World T) (A : AState T) (R : Rows T), WCalm L w wt → RowInv dbg A0 seqs free es D wt A R →
    RowRegs D (A0.rowCount seqs) ps its → ∀ a R', alg.run eq lt (A0.rowCount seqs) ps R = some (a, R') →
    alg.execXM dbg dflt eq lt seqs free alloc its live w = alg.execX dbg dflt eq lt seqs free alloc its live w := by
  induction alg with
  | ret a => intro ps its live w wt A R hwc h hr a' R' hrun; rfl
  | begin r c k ih =>
    intro ps its live w wt A R hwc h hr a R' hrun
    simp only [RAlg.run, Option.bind_eq_some_iff] at hrun
    obtain ⟨e, he, hrun⟩ := hrun
    obtain ⟨x, ss, p, s, st, b, bs, j1, j2, j3, j4, j5⟩ := h.seqM S F hwc.1 he
    simp only [RAlg.execXM, RAlg.execX, j1, j3, j4, Option.bind_some, Machine.begin, Desc.begin, Res.get, List.getElem?_cons_zero, Res.bind_ok, optRes, Res.val?, RowOut.ofOption]
    exact ih _ _ live w wt A R hwc h (hr.set r (sp := ⟨c, false, 0⟩) he j2 (Nat.zero_le _) (by simp [toIt])) a R' hrun
  | fin r c k ih =>
    intro ps its live w wt A R hwc h hr a R' hrun
    simp only [RAlg.run, Option.bind_eq_some_iff] at hrun
    obtain ⟨e, he, hrun⟩ := hrun
    obtain ⟨x, ss, p, s, st, b, bs, j1, j2, j3, j4, j5⟩ := h.seqM S F hwc.1 he
    simp only [RAlg.execXM, RAlg.execX, j1, j3, j4, Option.bind_some, endM_ok j5, Desc.end, Res.get, List.getElem?_cons_zero, Res.bind_ok, optRes, Res.val?, RowOut.ofOption]
    exact ih _ _ live w wt A R hwc h (hr.set r (sp := ⟨c, false, e⟩) he j2 (Nat.le_refl _) (by simp [toIt])) a R' hrun
  | rbegin r c k ih =>
    intro ps its live w wt A R hwc h hr a R' hrun
    simp only [RAlg.run, Option.bind_eq_some_iff] at hrun
    obtain ⟨e, he, hrun⟩ := hrun
    obtain ⟨x, ss, p, s, st, b, bs, j1, j2, j3, j4, j5⟩ := h.seqM S F hwc.1 he
    simp only [RAlg.execXM, RAlg.execX, j1, j3, j4, Option.bind_some, Machine.rbegin, Desc.rbegin, endM_ok j5, Desc.end, Res.get, List.getElem?_cons_zero, Res.bind_ok, optRes,
      Res.val?, RowOut.ofOption]
    exact ih _ _ live w wt A R hwc h (hr.set r (sp := ⟨c, true, 0⟩) he j2 (Nat.zero_le _) (by simp [toIt])) a R' hrun
  | rfin r c k ih =>
    intro ps its live w wt A R hwc h hr a R' hrun
    simp only [RAlg.run, Option.bind_eq_some_iff] at hrun
    obtain ⟨e, he, hrun⟩ := hrun
    obtain ⟨x, ss, p, s, st, b, bs, j1, j2, j3, j4, j5⟩ := h.seqM S F hwc.1 he
    simp only [RAlg.execXM, RAlg.execX, j1, j3, j4, Option.bind_some, Machine.rend, Desc.rend, Machine.begin, Desc.begin, Res.get, List.getElem?_cons_zero, Res.bind_ok, optRes,
      Res.val?, RowOut.ofOption]
    exact ih _ _ live w wt A R hwc h (hr.set r (sp := ⟨c, true, e⟩) he j2 (Nat.le_refl _) (by simp [toIt])) a R' hrun
  | copy r r' k ih =>
    intro ps its live w wt A R hwc h hr a R' hrun
    simp only [RAlg.run, Option.bind_eq_some_iff] at hrun
    obtain ⟨sp, hsp, hrun⟩ := hrun
    obtain ⟨e, d, h1, h2, h3, h4⟩ := hr r' sp hsp
    simp only [RAlg.execXM, RAlg.execX, h4, RowOut.ofOption]
    exact ih _ _ live w wt A R hwc h (hr.set r h1 h2 h3 rfl) a R' hrun
  | base r r' k ih =>
    intro ps its live w wt A R hwc h hr a R' hrun
    simp only [RAlg.run, Option.bind_eq_some_iff] at hrun
    obtain ⟨sp', ⟨sp, hsp, hb⟩, hrun⟩ := hrun
    obtain ⟨e, d, h1, h2, h3, h4⟩ := hr r' sp hsp
    unfold Seqs.baseOf at hb
    rw [show (rowSeqs (T := T) (A0.rowCount seqs)).len sp.seq = some e from h1] at hb
    simp only [Option.bind_some] at hb
    split at hb
    · rename_i hrev
      cases hb
      have hbase : optRes (toIt e (d.bases.headD 0) d sp).base = some (.fwd ⟨d.bases.headD 0 + ((e : Int) - (sp.i : Int)), d⟩) := by
        unfold toIt; rw [if_pos hrev]; rfl
      simp only [RAlg.execXM, RAlg.execX, h4, Option.bind_some, hbase, RowOut.ofOption]
      exact ih _ _ live w wt A R hwc h (hr.set r (sp := ⟨sp.seq, false, e - sp.i⟩) (it := .fwd ⟨d.bases.headD 0 + ((e : Int) - (sp.i : Int)), d⟩) h1 h2 (Nat.sub_le _ _) (by
        simp only [toIt]
        rw [if_neg (by decide), show ((e - sp.i : Nat) : Int) = (e : Int) - (sp.i : Int) by omega])) a R' hrun
    · cases hb
  | add r n k ih =>
    intro ps its live w wt A R hwc h hr a R' hrun
    simp only [RAlg.run, Option.bind_eq_some_iff] at hrun
    obtain ⟨sp', ⟨sp, hsp, hm⟩, hrun⟩ := hrun
    obtain ⟨e, d, h1, h2, h3, h4⟩ := hr r sp hsp
    obtain ⟨a1, a2, a3⟩ := moved_some h1 hm
    subst a2
    obtain ⟨x, ss, p, s, st, b, bs, j1, j2, j3, j4, j5⟩ := h.seqM S F hwc.1 h1
    rw [h2] at j2
    cases j2
    have key := toIt_addM j5 ⟨p, e :: es, s :: st, b :: bs⟩ sp n h3 a1 a3
    simp only [RAlg.execXM, RAlg.execX, h4, List.headD_cons, Option.bind_some, key, optRes, Res.val?, RowOut.ofOption]
    exact ih _ _ live w wt A R hwc h (hr.set r (sp := { sp with i := ((sp.i : Int) + n).toNat }) h1 h2 a3 (toIt_moved _ _ _ _ _ a1)) a R' hrun
  | equal r r' k ih =>
    intro ps its live w wt A R hwc h hr a R' hrun
    simp only [RAlg.run, Option.bind_eq_some_iff] at hrun
    obtain ⟨⟨x, y⟩, hb, hrun⟩ := hrun
    obtain ⟨c1, c2, c3, c4⟩ := both_some hb
    obtain ⟨e, d, h1, h2, h3, h4⟩ := hr r x c1
    obtain ⟨e', d', h1', h2', h3', h4'⟩ := hr r' y c2
    rw [← c3] at h1' h2'
    rw [h1] at h1'; rw [h2] at h2'
    cases h1'; cases h2'
    simp only [RAlg.execXM, RAlg.execX, h4, h4', Option.bind_some, toIt_equal e _ d x y c4, optRes, Res.val?, RowOut.ofOption]
    exact ih _ _ _ live w wt A R hwc h hr a R' hrun
  | less r r' k ih =>
    intro ps its live w wt A R hwc h hr a R' hrun
    simp only [RAlg.run, Option.bind_eq_some_iff] at hrun
    obtain ⟨⟨x, y⟩, hb, hrun⟩ := hrun
    obtain ⟨c1, c2, c3, c4⟩ := both_some hb
    obtain ⟨e, d, h1, h2, h3, h4⟩ := hr r x c1
    obtain ⟨e', d', h1', h2', h3', h4'⟩ := hr r' y c2
    rw [← c3] at h1' h2'
    rw [h1] at h1'; rw [h2] at h2'
    cases h1'; cases h2'
    obtain ⟨x', ss, p, s, st, b, bs, j1, j2, j3, j4, j5⟩ := h.seqM S F hwc.1 h1
    rw [h2] at j2
    cases j2
    simp only [RAlg.execXM, RAlg.execX, h4, h4', Option.bind_some, List.headD_cons, toIt_less e _ _ x y c4, toIt_lessM j5 _ x y c4 h3 h3', optRes, Res.val?, RowOut.ofOption]
    exact ih _ _ _ live w wt A R hwc h hr a R' hrun
  | diff r r' k ih =>
    intro ps its live w wt A R hwc h hr a R' hrun
    simp only [RAlg.run, Option.bind_eq_some_iff] at hrun
    obtain ⟨⟨x, y⟩, hb, hrun⟩ := hrun
    obtain ⟨c1, c2, c3, c4⟩ := both_some hb
    obtain ⟨e, d, h1, h2, h3, h4⟩ := hr r x c1
    obtain ⟨e', d', h1', h2', h3', h4'⟩ := hr r' y c2
    rw [← c3] at h1' h2'
    rw [h1] at h1'; rw [h2] at h2'
    cases h1'; cases h2'
    obtain ⟨x', ss, p, s, st, b, bs, j1, j2, j3, j4, j5⟩ := h.seqM S F hwc.1 h1
    rw [h2] at j2
    cases j2
    simp only [RAlg.execXM, RAlg.execX, h4, h4', Option.bind_some, List.headD_cons, toIt_diff e _ _ x y c4, toIt_diffM j5 _ x y c4 h3 h3', optRes, Res.val?, RowOut.ofOption]
    exact ih _ _ _ live w wt A R hwc h hr a R' hrun
  | take t s k ih =>
    intro ps its live w wt A R hwc h hr a R' hrun
    simp only [RAlg.run, Option.bind_eq_some_iff] at hrun
    obtain ⟨v, hv, hrun⟩ := hrun
    split at hrun
    · rename_i ht
      have ht := Option.isNone_iff_eq_none.mp ht
      have key := takeM_eq dflt eq lt alloc S F hwc.1 h hr hv ht
      rcases rowTake_x dflt eq lt alloc S hwc h hr hv ht with ⟨w1, wt1, A1, f1, f2, f3, f4⟩ | ⟨w1, wt1, L1, f1, f2, f3, f4, f5⟩
      · simp only [RAlg.execXM, RAlg.execX, key, f1, RowOut.after]
        exact ih _ _ (t :: live) w1 wt1 A1 _ f2 f3 hr a R' hrun
      · simp only [RAlg.execXM, RAlg.execX, key, f1, RowOut.after]
    · cases hrun
  | drop t k ih =>
    intro ps its live w wt A R hwc h hr a R' hrun
    simp only [RAlg.run, Option.bind_eq_some_iff] at hrun
    obtain ⟨v, hv, hrun⟩ := hrun
    obtain ⟨w1, wt1, A1, f1, f2, f3, f4⟩ := rowDrop_x dflt eq lt S hwc h hv
    simp only [RAlg.execXM, RAlg.execX, f1, RowOut.after]
    exact ih _ _ (live.erase t) w1 wt1 A1 _ f2 f3 hr a R' hrun
  | assign d s k ih =>
    intro ps its live w wt A R hwc h hr a R' hrun
    simp only [RAlg.run, Option.bind_eq_some_iff] at hrun
    obtain ⟨v, hv, R1, hd, hrun⟩ := hrun
    obtain ⟨u, hu⟩ := assign_value S h hr hd
    have key := assignM_eq dflt S F hwc.1 h hr hv hu
    rcases rowAssign_x dflt eq lt S hwc h hr hv hd with ⟨w1, wt1, A1, f1, f2, f3, f4⟩ | ⟨w1, wt1, L1, A1, u, j, junk, R2, f1, f2, f3, f4, f5, f6, f7, f8⟩
    · simp only [RAlg.execXM, RAlg.execX, key, f1, RowOut.after]
      exact ih _ _ live w1 wt1 A1 _ f2 f3 hr a R' hrun
    · simp only [RAlg.execXM, RAlg.execX, key, f1, RowOut.after]
  | look s k ih =>
    intro ps its live w wt A R hwc h hr a R' hrun
    simp only [RAlg.run, Option.bind_eq_some_iff] at hrun
    obtain ⟨v, hv, hrun⟩ := hrun
    obtain ⟨pl, y, ss, q, d, g1, g2, g3, g4, g5, g6, g7, g8, g9, g10, g11⟩ := h.argM S F hwc.1 hr hv
    obtain ⟨d', f1, f2⟩ := look_ok dflt eq lt S h hr hv
    have hl := look_x hwc f1 f2
    have hm : w.lookAtM dbg d = w.lookAt dbg d := by
      unfold World.lookAtM World.lookAt
      rw [C51_iteration dbg _ d g10 (fun e he => mem_le_sum he) g11.dims, nestedLoop_spec dbg _ d g10 (fun e he => mem_le_sum he)]
    rw [g7] at hl
    simp only [Option.bind_some] at hl
    simp only [RAlg.execXM, RAlg.execX, g7, g8, Option.bind_some, hm, hl, RowOut.ofOption]
    exact ih _ _ _ live w wt A R hwc h hr a R' hrun
  | rowEq s s' k ih =>
    intro ps its live w wt A R hwc h hr a R' hrun
    simp only [RAlg.run, Option.bind_eq_some_iff] at hrun
    obtain ⟨v, hv, v', hv', hrun⟩ := hrun
    split at hrun
    · obtain ⟨d0, d0', f1, f2, f3, f4⟩ := compare_ok dflt eq lt S h hr hv hv'
      have hl := (compare_x hwc f1 f2 f3 f4).1
      obtain ⟨pl, y, ss, q, d, g1, g2, g3, g4, g5, g6, g7, g8, g9, g10, g11⟩ := h.argM S F hwc.1 hr hv
      obtain ⟨pl', y', ss', q', d', g1', g2', g3', g4', g5', g6', g7', g8', g9', g10', g11'⟩ := h.argM S F hwc.1 hr hv'
      rw [g7, g7'] at hl
      simp only [Option.bind_some] at hl
      simp only [RAlg.execXM, RAlg.execX, g7, g8, g7', g8', Option.bind_some, Machine.equalRef_eq dbg eq w.st _ d d' g10 g10' rfl g11.dims g11'.dims, hl, RowOut.ofOption]
      exact ih _ _ _ live w wt A R hwc h hr a R' hrun
    · cases hrun
  | rowLt s s' k ih =>
    intro ps its live w wt A R hwc h hr a R' hrun
    simp only [RAlg.run, Option.bind_eq_some_iff] at hrun
    obtain ⟨v, hv, v', hv', hrun⟩ := hrun
    split at hrun
    · obtain ⟨d0, d0', f1, f2, f3, f4⟩ := compare_ok dflt eq lt S h hr hv hv'
      have hl := (compare_x hwc f1 f2 f3 f4).2
      obtain ⟨pl, y, ss, q, d, g1, g2, g3, g4, g5, g6, g7, g8, g9, g10, g11⟩ := h.argM S F hwc.1 hr hv
      obtain ⟨pl', y', ss', q', d', g1', g2', g3', g4', g5', g6', g7', g8', g9', g10', g11'⟩ := h.argM S F hwc.1 hr hv'
      rw [g7, g7'] at hl
      simp only [Option.bind_some] at hl
      simp only [RAlg.execXM, RAlg.execX, g7, g8, g7', g8', Option.bind_some, Machine.lessRef_eq dbg lt w.st _ d d' g10 g10' rfl (by rw [g9, g9']) g11.dims g11'.dims, hl, RowOut.ofOption]
      exact ih _ _ _ live w wt A R hwc h hr a R' hrun
    · cases hrun

end MultiArray
