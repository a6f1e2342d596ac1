import Verif.SpecRowsX
import Verif.Lemmas.RowsExec
import Verif.Lemmas.ProgThrow
import Verif.Lemmas.Fair

/- Iterator algorithms on the rows of arrays, with exceptions. -/
set_option autoImplicit false

namespace MultiArray
open Spec Props
variable {T α β : Type}

/-! ### An interrupted copy -/

theorem mapM_append {γ : Type} {f : β → Option γ} : ∀ {l l' : List β} {v : List γ}, (l ++ l').mapM f = some v →
    ∃ v1 v2, l.mapM f = some v1 ∧ l'.mapM f = some v2 ∧ v = v1 ++ v2 ∧ v1.length = l.length
  | [], l', v, h => ⟨[], v, rfl, h, rfl, rfl⟩
  | k :: l, l', v, h => by
    simp only [List.cons_append, List.mapM_cons] at h
    cases hk : f k with
    | none => rw [hk] at h; cases h
    | some x =>
      rw [hk] at h
      cases hl : (l ++ l').mapM f with
      | none => rw [hl] at h; cases h
      | some xs =>
        rw [hl] at h
        cases h
        obtain ⟨v1, v2, h1, h2, h3, h4⟩ := mapM_append hl
        exact ⟨x :: v1, v2, by simp [List.mapM_cons, hk, h1], h2, by simp [h3], by simp [h4]⟩

theorem mapM_agree {γ : Type} {f g : β → Option γ} : ∀ {l : List β}, (∀ k ∈ l, f k = g k) → l.mapM f = l.mapM g
  | [], _ => rfl
  | k :: l, h => by simp only [List.mapM_cons]; rw [h k (by simp), mapM_agree (fun k hk => h k (by simp [hk]))]

theorem mapM_join {γ : Type} {f : β → Option γ} : ∀ {l : List β} {k : β} {l' : List β} {v1 v2 : List γ} {x : γ}, l.mapM f = some v1 → f k = some x → l'.mapM f = some v2 →
    (l ++ k :: l').mapM f = some (v1 ++ x :: v2)
  | [], k, l', v1, v2, x, h1, h2, h3 => by cases h1; simp [List.mapM_cons, h2, h3]
  | y :: l, k, l', v1, v2, x, h1, h2, h3 => by
    simp only [List.mapM_cons] at h1
    cases hk : f y with
    | none => rw [hk] at h1; cases h1
    | some z =>
      rw [hk] at h1
      cases hl : l.mapM f with
      | none => rw [hl] at h1; cases h1
      | some xs =>
        rw [hl] at h1
        cases h1
        have := mapM_join hl h2 h3
        simp [List.mapM_cons, hk, this]

/-- What an interrupted copy between parts that are the same or have no common element has done. -/
theorem copy_stopped {w : World T} {A A' : AState T} (h : w.Rep A) {x y : Nat} {p q : APart} {ss ss' : List Sel} (hp : A.Part x ss p)
    (hq : A.Part y ss' q) (he : p.extents = q.extents) (hdis : x = y → p = q ∨ p.Disjoint q) {u v : List T} (hu : A.values x p = some u) (hv : A.values y q = some v)
    (hs : A.CopyStopped x p y q A') :
    (∀ z, A'.header z = A.header z) ∧ (∀ z, z ≠ x → A' z = A z) ∧
      (∃ j junk, j < u.length ∧ A'.values x p = some (v.take j ++ junk :: u.drop (j + 1))) ∧
      (∀ idx, A.InRange x idx → (∀ i, InBox p.bases p.extents i → p.root i ≠ idx) → A'.get x idx = A.get x idx) := by
  obtain ⟨dn, k, rest, A1, junk, hks, hc, hput⟩ := hs
  obtain ⟨a, hA, _⟩ := id hp
  obtain ⟨b, hB, _⟩ := id hq
  have gp := h.goodPart hA hp
  have gq := h.goodPart hB hq
  have inq : ∀ k, InShape p.extents k → InShape q.extents k := fun k hk => by rw [← he]; exact hk
  have hg := h.good hA
  have hin : ∀ k' ∈ dn ++ k :: rest, InShape p.extents k' := fun k' hk' => mem_positions.mp (by rw [hks]; exact hk')
  have hnd : (dn ++ k :: rest).Nodup := by rw [← hks]; exact positions_nodup _
  have hnd' := List.nodup_append.mp hnd
  obtain ⟨vs, e1, e2, e3, e4⟩ := copy_law dn hA hg
    (fun k' hk => gp.inBox _ (gp.pos (hin k' (by simp [hk]))))
    (fun hxy k' hk => by
      subst hxy; rw [hA] at hB; cases hB
      exact gq.inBox _ (gq.pos (inq k' (hin k' (by simp [hk])))))
    (by
      refine List.Pairwise.imp_of_mem ?_ hnd'.1
      intro k1 k2 hk hk' hne
      have hk := hin k1 (by simp [hk])
      have hk' := hin k2 (by simp [hk'])
      refine ⟨fun e => hne (gp.pos_inj hk hk' e), fun hxy => ?_⟩
      rcases hdis hxy with rfl | hd
      · exact fun e => hne (gp.pos_inj hk hk' e)
      · exact hd _ _ (gp.pos hk) (gq.pos (inq k2 hk')))
    hc
  have hA1 : A1 x = some { a with vals := vs } := by rw [e1]; exact AState.set_same _ _ _
  have hk := hin k (by simp)
  have hpk : InBox a.bases a.extents (p.root (atPos p.bases k)) := gp.inBox _ (gp.pos hk)
  have hA' : A' = A1.set x (some { a with vals := vs.set (a.at_ (p.root (atPos p.bases k))) junk }) := by
    have : A1.put x (p.root (atPos p.bases k)) junk = some (A1.set x (some { a with vals := vs.set (a.at_ (p.root (atPos p.bases k))) junk })) := by
      unfold AState.put; rw [hA1]; rfl
    rw [this] at hput
    cases hput; rfl
  have hat : A'.get x (p.root (atPos p.bases k)) = some junk := by
    rw [hA', AState.get_set_same]
    show (vs.set _ junk)[a.at_ _]? = _
    rw [List.getElem?_set_self (by rw [e2]; exact hg.lt _ hpk)]
  have hoth : ∀ idx, InBox a.bases a.extents idx → p.root (atPos p.bases k) ≠ idx → A'.get x idx = A1.get x idx := by
    intro idx hi hne
    rw [hA', AState.get_set_same]
    show (vs.set _ junk)[a.at_ idx]? = _
    rw [List.getElem?_set_ne (fun h => hne (hg.inj _ _ hpk hi h))]
    simp only [AState.get, hA1]
    rfl
  have hne1 : ∀ k' ∈ dn, k' ≠ k := fun k' hk' e => (hnd'.2.2 k' hk' k (by simp)) e
  have hne2 : ∀ k' ∈ rest, k' ≠ k := by
    intro k' hk' e
    subst e
    exact (List.nodup_cons.mp hnd'.2.1).1 hk'
  have hne3 : ∀ k1 ∈ dn, ∀ k2 ∈ rest, k1 ≠ k2 := fun k1 h1 k2 h2 => hnd'.2.2 k1 h1 k2 (by simp [h2])
  refine ⟨?_, ?_, ?_, ?_⟩
  · intro z
    rw [hA', e1]
    by_cases hz : z = x
    · subst hz; simp [AState.header, AState.set, hA]
    · simp [AState.header, AState.set, hz]
  · intro z hz; rw [hA', AState.set_other _ hz, e1]; exact AState.set_other _ hz _
  · unfold AState.values at hu hv ⊢
    rw [← he] at hv
    rw [hks] at hu hv ⊢
    obtain ⟨u1, u2, a1, a2, a3, a4⟩ := mapM_append hu
    obtain ⟨v1, v2, b1, b2, b3, b4⟩ := mapM_append hv
    obtain ⟨u3, u4, c1, c2, c3, c4⟩ := mapM_append (l := [k]) (l' := rest) a2
    refine ⟨dn.length, junk, ?_, ?_⟩
    · rw [a3, c3]
      have c4 : u3.length = 1 := c4
      simp only [List.length_append]; omega
    · have hv' : v.take dn.length = v1 := by rw [b3, ← b4]; simp
      have hu' : u.drop (dn.length + 1) = u4 := by
        have c4 : u3.length = 1 := c4
        rw [a3, c3, ← List.append_assoc, show dn.length + 1 = (u1 ++ u3).length by rw [List.length_append, a4, c4]]
        simp
      rw [hv', hu']
      refine mapM_join ?_ hat ?_
      · rw [← b1]
        refine mapM_agree (fun k' hk' => ?_)
        have hs := hin k' (by simp [hk'])
        rw [hoth _ (gp.inBox _ (gp.pos hs)) (fun e => hne1 k' hk' (gp.pos_inj hk hs e).symm), e3 k' hk']
      · rw [← c2]
        refine mapM_agree (fun k' hk' => ?_)
        have hs := hin k' (by simp [hk'])
        rw [hoth _ (gp.inBox _ (gp.pos hs)) (fun e => hne2 k' hk' (gp.pos_inj hk hs e).symm)]
        exact e4 _ (gp.inBox _ (gp.pos hs)) (fun k2 hk2 e => hne3 k2 hk2 k' hk' (gp.pos_inj (hin k2 (by simp [hk2])) hs e))
  · rintro idx ⟨a', ha', hi⟩ hne
    rw [hA] at ha'; cases ha'
    rw [hoth idx hi (hne _ (gp.pos hk))]
    exact e4 idx hi (fun k2 hk2 => hne _ (gp.pos (hin k2 (by simp [hk2]))))

variable {A0 : AState T} {seqs : Nat → Option (Nat × List Sel)} {free : Nat → Nat} {es : List Nat}
variable {dbg : Bool} {dflt : T} {eq lt : T → T → Bool} {D : Nat → Option Desc} {w wt : World T} {A : AState T} {R : Rows T}

/-- The invariant depends on the objects and on what the memory represents. -/
theorem RowInv.world {w' : World T} (h : RowInv dbg A0 seqs free es D w A R) (ho : w'.objs = w.objs) (hr : w'.Rep A) : RowInv dbg A0 seqs free es D w' A R := by
  refine ⟨hr, fun c x ss hc => ?_, h.rows, h.dead, h.live, h.only, h.like⟩
  rw [← h.heads c x ss hc]
  unfold World.lookup
  rw [ho]

/-! ### The calls, and what they do without exceptions -/

theorem takeRow_eq (dbg : Bool) (dflt : T) (free : Nat → Nat) (alloc : Nat) (its : Nat → Option AnyIt) (w : World T) (t : Nat) (s : RowArg) :
    w.takeRow dbg dflt free alloc its t s = Result.ok? (w.takeRowX dbg dflt free alloc its t s) := by
  cases s with
  | tmp t' => rfl
  | row r =>
    simp only [World.takeRow, World.takeRowX]
    cases hd : (RowArg.row r).desc dbg free its w with
    | none => rfl
    | some d =>
      simp only [Option.bind_some]
      cases hc : (Ctor.convert d.extents.length d (StorageOrder.cOrder d.extents.length) alloc).run dbg dflt w.st <;> rfl

theorem assignRow_eq (dbg : Bool) (dflt : T) (free : Nat → Nat) (its : Nat → Option AnyIt) (w : World T) (d s : RowArg) :
    w.assignRow dbg dflt free its d s = Result.ok? (w.assignRowX dbg dflt free its d s) := by
  have key : ∀ d s : Option Desc, (d.bind (fun d => s.bind (fun s => Result.ok? (w.mem (assignOp dbg false d s))))) = Result.ok? (w.assignDesc dbg d s) := by
    intro d s
    cases d <;> cases s <;> rfl
  cases d <;> cases s <;> first | rfl | exact key _ _

theorem desc_objs {w w' : World T} (h : w'.objs = w.objs) (dbg : Bool) (free : Nat → Nat) (its : Nat → Option AnyIt) (s : RowArg) :
    s.desc dbg free its w' = s.desc dbg free its w := by
  cases s with
  | row r => rfl
  | tmp t => simp only [RowArg.desc, h]

/-- A call that is an operation `op` and a command `c`. -/
theorem call_x (dbg : Bool) (dflt : T) {L : List Nat} {wt' : World T} (hwc : WCalm L w wt) (hrep : wt.Rep A) {c : Cmd T} (hleg : c.Legal A) {op : Op T} {r rt : Result T}
    (hm : w.mayThrow dbg dflt c = some r) (h1 : r = w.step dbg dflt op) (h2 : rt = wt.step dbg dflt op) (hok : rt = .ok wt') :
    (∃ w', r = .ok w' ∧ WCalm L w' wt' ∧ due w'.st ≤ due w.st) ∨
    (∃ w' L' A', r = .threw w' ∧ A.Interrupted c A' ∧ InvX L' w' A' ∧ L'.length ≤ L.length + (if c.allocates then 1 else 0) ∧ due w'.st < due w.st) := by
  have hinv : InvX L w A := ⟨wt.st, hwc.2, by rw [hwc.1]; exact hrep⟩
  have hf := fair_mayThrow dbg dflt w c hm
  rcases cmd_throw dbg dflt hinv c hleg hm with ⟨w', e⟩ | ⟨w', L', A', e, f2, f3, f4⟩
  · rw [e] at hf
    exact .inl ⟨w', e, step_done dbg dflt hwc op (h1 ▸ e) (h2 ▸ hok), hf⟩
  · rw [e] at hf
    exact .inr ⟨w', L', A', e, f2, f3, f4, hf⟩

/-- `value_type t(s);` -/
theorem rowTake_x (dflt : T) (eq lt : T → T → Bool) (alloc : Nat) (S : RowSetup A0 seqs free es) {L : List Nat} (hwc : WCalm L w wt) (h : RowInv dbg A0 seqs free es D wt A R)
    {ps : Nat → Option SPos} {its : Nat → Option AnyIt} (hr : RowRegs D (A0.rowCount seqs) ps its) {s : RowArg} {v : List T} (hv : R.value (A0.rowCount seqs) ps s = some v)
    {t : Nat} (ht : R.tmps t = none) :
    (∃ w' wt' A', w.takeRowX dbg dflt free alloc its t s = .ok w' ∧ WCalm L w' wt' ∧ RowInv dbg A0 seqs free es D wt' A' (R.setTmp t (some v)) ∧ due w'.st ≤ due w.st) ∨
    (∃ w' wt' L', w.takeRowX dbg dflt free alloc its t s = .threw w' ∧ WCalm L' w' wt' ∧ RowInv dbg A0 seqs free es D wt' A R ∧ L'.length ≤ L.length + 1 ∧
      due w'.st < due w.st) := by
  obtain ⟨wt', A', f1, f2⟩ := take_ok dflt eq lt alloc S h hr hv ht
  rw [takeRow_eq] at f1
  have f1 := ok?_some f1
  obtain ⟨pl, y, ss, q, d, g1, g2, g3, g4, g5, g6, g7, g8⟩ := h.arg S hr hv
  have hA := h.dead t ht
  have key : ∃ c op, c.Legal A ∧ c.allocates = true ∧ (∀ A', A.Interrupted c A' → A' = A) ∧ (∀ w : World T, w.objs = wt.objs → w.mayThrow dbg dflt c =
      some (w.takeRowX dbg dflt free alloc its t s) ∧ w.takeRowX dbg dflt free alloc its t s = w.step dbg dflt op) ∧ ∃ i, op = .construct (free t) i := by
    cases s with
    | row r =>
      have hlen : 0 < q.extents.length := by rw [g4]; exact List.length_pos_iff.mpr S.dims
      obtain ⟨m, _, hm, _⟩ := h.rep.partOf false g3
      have hde : d.extents.length = q.extents.length := by rw [g7, g4]
      have hstep : ∀ w : World T, w.objs = wt.objs → w.takeRowX dbg dflt free alloc its t (.row r) =
          w.step dbg dflt (.construct (free t) (.convert y d (StorageOrder.cOrder q.extents.length) alloc)) := by
        intro w ho
        have hm : w.objs y = some m := by rw [ho]; exact hm
        have g6 : (RowArg.row r).desc dbg free its w = some d := by rw [desc_objs ho]; exact g6
        simp only [World.takeRowX, g6, World.step, Init.ctor, hm, Option.map_some, hde]
        cases (Ctor.convert q.extents.length d (StorageOrder.cOrder q.extents.length) alloc).run dbg dflt w.st <;> rfl
      refine ⟨.construct (free t) (.convert y ss (StorageOrder.cOrder q.extents.length) alloc), _, ⟨hA, q, g3, hlen, cOrder_valid _⟩, rfl, fun A' h => h,
        fun w ho => ⟨?_, hstep w ho⟩, _, rfl⟩
      have g5 : w.lookup dbg y ss = some d := by unfold World.lookup at g5 ⊢; rw [ho]; exact g5
      rw [hstep w ho]
      simp only [World.mayThrow, g5]
    | tmp t' =>
      simp only [argPlc, Option.some.injEq] at g1
      subst g1
      obtain ⟨rfl, rfl, a, ha, rfl⟩ := g2
      exact ⟨.construct (free t) (.copy (free t')), _, ⟨hA, a, ha⟩, rfl, fun A' h => h, fun w ho => ⟨rfl, rfl⟩, _, rfl⟩
  obtain ⟨c, op, k1, k2, k3, k4, i, rfl⟩ := key
  rcases call_x dbg dflt hwc h.rep k1 (k4 w hwc.1).1 (k4 w hwc.1).2 (k4 wt rfl).2 f1 with ⟨w', e1, e2, e3⟩ | ⟨w', L', A'', e1, e2, ⟨t', e3, e4⟩, e5, e6⟩
  · exact .inl ⟨w', wt', A', e1, e2, f2, e3⟩
  · rw [k3 A'' e2] at e4
    rw [k2, if_pos rfl] at e5
    have ho : w'.objs = w.objs := by
      rw [(k4 w hwc.1).2] at e1
      simp only [World.step] at e1
      cases hc : i.ctor w.objs with
      | none => rw [hc] at e1; cases e1
      | some cc =>
        rw [hc] at e1
        simp only at e1
        cases hc : cc.run dbg dflt w.st <;> rw [hc] at e1 <;> cases e1
        rfl
    exact .inr ⟨w', ⟨w'.objs, t'⟩, L', e1, ⟨rfl, e3⟩, h.world (ho.trans hwc.1) e4, e5, e6⟩

/-- The end of the lifetime of `t`. -/
theorem rowDrop_x (dflt : T) (eq lt : T → T → Bool) (S : RowSetup A0 seqs free es) {L : List Nat} (hwc : WCalm L w wt) (h : RowInv dbg A0 seqs free es D wt A R) {t : Nat} {v : List T}
    (ht : R.tmps t = some v) : ∃ w' wt' A', w.step dbg dflt (.destroy (free t)) = .ok w' ∧ WCalm L w' wt' ∧ RowInv dbg A0 seqs free es D wt' A' (R.setTmp t none) ∧
      due w'.st ≤ due w.st := by
  obtain ⟨wt', A', f1, f2⟩ := drop_ok dflt eq lt S h ht
  obtain ⟨a, ha, _⟩ := h.live t v ht
  rcases call_x (c := .destroy (free t)) (op := .destroy (free t)) dbg dflt hwc h.rep ⟨a, ha⟩ rfl rfl rfl (ok?_some f1) with ⟨w', e1, e2, e3⟩ | ⟨w', L', A'', e1, e2, _⟩
  · exact ⟨w', wt', A', e1, e2, f2, e3⟩
  · exact absurd e2 (by intro hh; exact hh)

/-- Destroying all temporaries. -/
theorem rowUnwind_x (dflt : T) (eq lt : T → T → Bool) (S : RowSetup A0 seqs free es) {L : List Nat} : ∀ (live : List Nat) (w wt : World T) (A : AState T) (R : Rows T),
    WCalm L w wt → RowInv dbg A0 seqs free es D wt A R → live.Nodup → (∀ t, t ∈ live ↔ R.tmps t ≠ none) →
    ∃ w' wt' A', w.unwind dbg dflt free live = some w' ∧ WCalm L w' wt' ∧ RowInv dbg A0 seqs free es D wt' A' ⟨R.seqs, fun _ => none⟩ ∧ due w'.st ≤ due w.st := by
  intro live
  induction live with
  | nil =>
    intro w wt A R hwc h _ hl
    have : R = ⟨R.seqs, fun _ => none⟩ := by
      obtain ⟨a, b⟩ := R
      congr 1
      funext t
      by_contra hh
      exact absurd ((hl t).mpr hh) (by simp)
    exact ⟨w, wt, A, rfl, hwc, this ▸ h, Nat.le_refl _⟩
  | cons t live ih =>
    intro w wt A R hwc h hnd hl
    rw [List.nodup_cons] at hnd
    cases hv : R.tmps t with
    | none => exact absurd hv ((hl t).mp (by simp))
    | some v =>
      obtain ⟨w1, wt1, A1, e1, e2, e3, e4⟩ := rowDrop_x dflt eq lt S hwc h hv
      obtain ⟨w', wt', A', f1, f2, f3, f4⟩ := ih w1 wt1 A1 (R.setTmp t none) e2 e3 hnd.2 (by
        intro t'
        simp only [Rows.setTmp]
        by_cases htt : t' = t
        · subst htt; simp [hnd.1]
        · have := hl t'
          simp only [List.mem_cons, htt, false_or] at this
          simp [htt, this])
      exact ⟨w', wt', A', by simp only [World.unwind, e1, Result.ok?, Option.bind_some]; exact f1, f2, f3, Nat.le_trans f4 e4⟩

theorem value_of_assign (S : RowSetup A0 seqs free es) (h : RowInv dbg A0 seqs free es D w A R) {ps : Nat → Option SPos} {its : Nat → Option AnyIt}
    (hr : RowRegs D (A0.rowCount seqs) ps its) {d : RowArg} {v : List T} {R' : Rows T} (hd : R.assign (A0.rowCount seqs) ps v d = some R') :
    ∃ u, R.value (A0.rowCount seqs) ps d = some u := by
  cases d with
  | tmp t =>
    simp only [Rows.assign] at hd
    cases hx : R.tmps t with
    | none => rw [hx] at hd; cases hd
    | some u => exact ⟨u, hx⟩
  | row r =>
    simp only [Rows.assign] at hd
    cases hp : ps r with
    | none => rw [hp] at hd; cases hd
    | some sp =>
      rw [hp] at hd
      simp only [Option.bind_some] at hd
      cases hi : (rowSeqs (T := T) (A0.rowCount seqs)).elem sp with
      | none => rw [hi] at hd; cases hd
      | some i =>
        obtain ⟨e, d', h1, _⟩ := hr r sp hp
        obtain ⟨_, _, a3⟩ := elem_some h1 hi
        obtain ⟨x, ss, p, b, bs, d', _, _, _, _, _, _, _, _, _, g10⟩ := h.seq S h1
        refine ⟨(R.seqs sp.seq)[i]'(by omega), ?_⟩
        simp only [Rows.value, hp, Option.bind_some, Seqs.valueAt, hi]
        exact List.getElem?_eq_getElem (by omega)

theorem assign_any {len : Nat → Option Nat} {ps : Nat → Option SPos} {d : RowArg} {v : List T} {R' : Rows T} (hd : R.assign len ps v d = some R') (v' : List T) :
    ∃ R'', R.assign len ps v' d = some R'' := by
  cases d with
  | tmp t =>
    simp only [Rows.assign, Option.map_eq_some_iff] at hd ⊢
    obtain ⟨x, hx, _⟩ := hd
    exact ⟨_, x, hx, rfl⟩
  | row r =>
    simp only [Rows.assign, Option.bind_eq_some_iff, Option.map_eq_some_iff] at hd ⊢
    obtain ⟨x, hx, i, hi, _⟩ := hd
    exact ⟨_, x, hx, i, hi, rfl⟩

/-- The invariant after the elements of an argument have got new values. -/
theorem RowInv.assigned {w' : World T} {A' : AState T} (S : RowSetup A0 seqs free es) (h : RowInv dbg A0 seqs free es D w A R) {ps : Nat → Option SPos} {its : Nat → Option AnyIt}
    (hr : RowRegs D (A0.rowCount seqs) ps its) {d : RowArg} {u : List T} (hu : R.value (A0.rowCount seqs) ps d = some u) {pl : Plc} {y : Nat} {ss : List Sel} {q : APart}
    (g1 : argPlc (T := T) (A0.rowCount seqs) ps d = some pl) (g2 : PlcAt A0 A seqs free pl y ss q) (g4 : q.extents = es) (hrep : w'.Rep A') (hobjs : w'.objs = w.objs)
    (hh : ∀ z, A'.header z = A.header z) (ho : ∀ z, z ≠ y → A' z = A z) {v : List T} (hnew : A'.values y q = some v)
    (hn : ∀ idx, A.InRange y idx → (∀ i, InBox q.bases q.extents i → q.root i ≠ idx) → A'.get y idx = A.get y idx) {R' : Rows T}
    (hd : R.assign (A0.rowCount seqs) ps v d = some R') : RowInv dbg A0 seqs free es D w' A' R' := by
  cases d with
  | row r =>
    simp only [Rows.assign] at hd
    simp only [argPlc] at g1
    cases hp : ps r with
    | none => rw [hp] at hd; cases hd
    | some sp =>
      rw [hp] at hd g1
      simp only [Option.bind_some] at hd g1
      cases hi : (rowSeqs (T := T) (A0.rowCount seqs)).elem sp with
      | none => rw [hi] at hd; cases hd
      | some i =>
        rw [hi] at hd g1
        cases hd
        cases g1
        exact RowInv.row S h g2 hrep hobjs hh ho hnew hn _
  | tmp t =>
    simp only [Rows.assign] at hd
    cases hx : R.tmps t with
    | none => rw [hx] at hd; cases hd
    | some u =>
      rw [hx] at hd
      cases hd
      cases g1
      obtain ⟨rfl, rfl, a, ha, rfl⟩ := g2
      refine RowInv.tmp S h hrep ho (fun z _ => by rw [hobjs]) (fun hh => by cases hh) (fun u hu => ?_) (h.like_header (hh (free t)))
      cases hu
      have := hh (free t)
      simp only [AState.header, ha, Option.map_some] at this
      cases hA' : A' (free t) with
      | none => rw [hA'] at this; cases this
      | some a' =>
        rw [hA'] at this
        simp only [Option.map_some, Option.some.injEq, Prod.mk.injEq] at this
        have hw : a'.whole = a.whole := by simp [AbsArr.whole, this.1, this.2.1]
        exact ⟨a', rfl, by rw [this.2.1]; exact g4, by rw [hw]; exact hnew⟩

/-- `d = s` -/
theorem rowAssign_x (dflt : T) (eq lt : T → T → Bool) (S : RowSetup A0 seqs free es) {L : List Nat} (hwc : WCalm L w wt) (h : RowInv dbg A0 seqs free es D wt A R)
    {ps : Nat → Option SPos} {its : Nat → Option AnyIt} (hr : RowRegs D (A0.rowCount seqs) ps its) {d s : RowArg} {v : List T}
    (hv : R.value (A0.rowCount seqs) ps s = some v) {R' : Rows T} (hd : R.assign (A0.rowCount seqs) ps v d = some R') :
    (∃ w' wt' A', w.assignRowX dbg dflt free its d s = .ok w' ∧ WCalm L w' wt' ∧ RowInv dbg A0 seqs free es D wt' A' R' ∧ due w'.st ≤ due w.st) ∨
    (∃ w' wt' L' A' u j junk R'', w.assignRowX dbg dflt free its d s = .threw w' ∧ WCalm L' w' wt' ∧ R.value (A0.rowCount seqs) ps d = some u ∧ j < u.length ∧
      R.assign (A0.rowCount seqs) ps (v.take j ++ junk :: u.drop (j + 1)) d = some R'' ∧ RowInv dbg A0 seqs free es D wt' A' R'' ∧ L'.length ≤ L.length ∧
      due w'.st < due w.st) := by
  obtain ⟨wt', A', f1, f2⟩ := assign_ok dflt eq lt S h hr hv hd
  rw [assignRow_eq] at f1
  have f1 := ok?_some f1
  obtain ⟨u, hu⟩ := value_of_assign S h hr hd
  obtain ⟨pl, y, ss, q, de, g1, g2, g3, g4, g5, g6, g7, g8⟩ := h.arg S hr hv
  obtain ⟨pl', y', ss', q', de', g1', g2', g3', g4', g5', g6', g7', g8'⟩ := h.arg S hr hu
  have hdis : y' = y → q' = q ∨ q'.Disjoint q := by
    intro hy
    subst hy
    by_cases hpl : pl' = pl
    · subst hpl; exact .inl (g2'.same g2).2.2
    · exact .inr (PlcAt.apart S h hpl g2' g2)
  have key : ∃ c op, c.Legal A ∧ c.allocates = false ∧ (∀ A', A.Interrupted c A' → A.CopyStopped y' q' y q A') ∧ (∀ w : World T, w.objs = wt.objs → w.mayThrow dbg dflt c =
      some (w.assignRowX dbg dflt free its d s) ∧ w.assignRowX dbg dflt free its d s = w.step dbg dflt op) ∧
      (∀ (w w' : World T), w.step dbg dflt op = .threw w' → w'.objs = w.objs) := by
    have general : (∀ w : World T, w.assignRowX dbg dflt free its d s = w.assignDesc dbg (d.desc dbg free its w) (s.desc dbg free its w)) →
        ∃ c op, c.Legal A ∧ c.allocates = false ∧ (∀ A', A.Interrupted c A' → A.CopyStopped y' q' y q A') ∧ (∀ w : World T, w.objs = wt.objs → w.mayThrow dbg dflt c =
        some (w.assignRowX dbg dflt free its d s) ∧ w.assignRowX dbg dflt free its d s = w.step dbg dflt op) ∧
        (∀ (w w' : World T), w.step dbg dflt op = .threw w' → w'.objs = w.objs) := by
      intro hgen
      have hstep : ∀ w : World T, w.objs = wt.objs → w.assignRowX dbg dflt free its d s = w.step dbg dflt (.assignPart y' de' y de) := by
        intro w ho
        rw [hgen, desc_objs ho, desc_objs ho, g6, g6']
        rfl
      refine ⟨.assignPart y' ss' y ss, .assignPart y' de' y de, ⟨q', q, g3', g3, g4'.trans g4.symm⟩, rfl, ?_, fun w ho => ⟨?_, hstep w ho⟩, fun w w' hw => mem_objs (.inr hw)⟩
      · rintro A' ⟨p1, p2, h1, h2, h3⟩
        rw [part_some g3'] at h1
        rw [part_some g3] at h2
        cases h1; cases h2
        exact h3
      · have l1 : w.lookup dbg y ss = some de := by unfold World.lookup at g5 ⊢; rw [ho]; exact g5
        have l2 : w.lookup dbg y' ss' = some de' := by unfold World.lookup at g5' ⊢; rw [ho]; exact g5'
        rw [hstep w ho]
        simp only [World.mayThrow, l1, l2]
    cases d with
    | row r => exact general (fun w => rfl)
    | tmp t =>
      cases s with
      | row r' => exact general (fun w => rfl)
      | tmp t' =>
        cases g1; cases g1'
        obtain ⟨rfl, rfl, a, ha, rfl⟩ := g2
        obtain ⟨rfl, rfl, a', ha', rfl⟩ := g2'
        refine ⟨.assign (free t) (free t'), .assign (free t) (free t'), ⟨a', a, ha', ha, ?_⟩, rfl, ?_, fun w ho => ⟨rfl, rfl⟩, ?_⟩
        · exact g4'.trans g4.symm
        · rintro A' ⟨_, p1, p2, h1, h2, h3⟩
          rw [part_some g3'] at h1
          rw [part_some g3] at h2
          cases h1; cases h2
          exact h3
        · intro w w' hw
          simp only [World.step] at hw
          cases hx : w.objs (free t) with
          | none => rw [hx] at hw; cases hw
          | some m =>
            cases hy : w.objs (free t') with
            | none => rw [hx, hy] at hw; cases hw
            | some m' => rw [hx, hy] at hw; exact mem_objs (.inr hw)
  obtain ⟨c, op, k1, k2, k3, k4, k5⟩ := key
  rcases call_x dbg dflt hwc h.rep k1 (k4 w hwc.1).1 (k4 w hwc.1).2 (k4 wt rfl).2 f1 with ⟨w', e1, e2, e3⟩ | ⟨w', L', A'', e1, e2, ⟨t', e3, e4⟩, e5, e6⟩
  · exact .inl ⟨w', wt', A', e1, e2, f2, e3⟩
  · have ho : w'.objs = w.objs := k5 w w' ((k4 w hwc.1).2 ▸ e1)
    rw [k2] at e5
    obtain ⟨c1, c2, ⟨j, junk, c3, c4⟩, c5⟩ := copy_stopped h.rep g3' g3 (g4'.trans g4.symm) hdis g8' g8 (k3 A'' e2)
    obtain ⟨R'', hR''⟩ := assign_any hd (v.take j ++ junk :: u.drop (j + 1))
    exact .inr ⟨w', ⟨w'.objs, t'⟩, L', A'', u, j, junk, R'', e1, ⟨rfl, e3⟩, hu, c3, hR'',
      h.assigned S hr hu g1' g2' g4' e4 (ho.trans hwc.1) c1 c2 c4 c5 hR'', by simpa using e5, e6⟩

/-! ### Looking: the same in both -/

theorem look_x {L : List Nat} (hwc : WCalm L w wt) {s : RowArg} {its : Nat → Option AnyIt} {d : Desc} {v : List T} (h1 : s.desc dbg free its wt = some d)
    (h : wt.lookAt dbg d = some v) : (s.desc dbg free its w).bind (fun d => w.lookAt dbg d) = some v := by
  rw [desc_objs hwc.1, h1]
  simp only [World.lookAt, Option.bind_some, Option.bind_eq_some_iff] at h ⊢
  obtain ⟨a, e1, b, e2, e3⟩ := h
  exact ⟨a, e1, b, e2, hwc.2.mapM b e3⟩

theorem compare_x {L : List Nat} (hwc : WCalm L w wt) {s s' : RowArg} {its : Nat → Option AnyIt} {d d' : Desc} {b b' : Bool} (h1 : s.desc dbg free its wt = some d)
    (h2 : s'.desc dbg free its wt = some d') (h3 : Res.val? (equalRef dbg eq wt.st d.extents.length d d') = some b)
    (h4 : Res.val? (lessRef dbg lt wt.st d.extents.length d d') = some b') :
    (s.desc dbg free its w).bind (fun d => (s'.desc dbg free its w).bind (fun d' => Res.val? (equalRef dbg eq w.st d.extents.length d d'))) = some b ∧
    (s.desc dbg free its w).bind (fun d => (s'.desc dbg free its w).bind (fun d' => Res.val? (lessRef dbg lt w.st d.extents.length d d'))) = some b' := by
  rw [desc_objs hwc.1, desc_objs hwc.1, h1, h2]
  simp only [Option.bind_some]
  have q1 : equalRef dbg eq w.st d.extents.length d d' = .ok b := Reads.equalRef dbg eq d.extents.length d d' L _ _ _ hwc.2 (res_val? h3)
  have q2 : lessRef dbg lt w.st d.extents.length d d' = .ok b' := Reads.lessRef dbg lt d.extents.length d d' L _ _ _ hwc.2 (res_val? h4)
  rw [q1, q2]
  exact ⟨rfl, rfl⟩

/-! ### The whole algorithm -/

/-- How an algorithm may end: completed, or left by an exception with rows that satisfy `P`. -/
def RowsEnd (dbg : Bool) (A0 : AState T) (seqs : Nat → Option (Nat × List Sel)) (free : Nat → Nat) (es : List Nat) (D : Nat → Option Desc) (L : List Nat) (n : Nat)
    (a : α) (R' : Rows T) (P : (Nat → List (List T)) → Prop) (out : RowOut T α) : Prop :=
  (∃ w' wt' A', out = .done a w' ∧ WCalm L w' wt' ∧ RowInv dbg A0 seqs free es D wt' A' R' ∧ due w'.st ≤ n) ∨
  (∃ w' wt' L' A' Q, out = .threw w' ∧ P Q ∧ WCalm L' w' wt' ∧ RowInv dbg A0 seqs free es D wt' A' ⟨Q, fun _ => none⟩ ∧ L'.length ≤ L.length + 1 ∧ due w'.st < n)

theorem RowsEnd.mono {L : List Nat} {n n' : Nat} {a : α} {R' : Rows T} {P P' : (Nat → List (List T)) → Prop} {out out' : RowOut T α}
    (h : RowsEnd dbg A0 seqs free es D L n a R' P out) (ho : out' = out) (hn : n ≤ n') (hP : ∀ Q, P Q → P' Q) : RowsEnd dbg A0 seqs free es D L n' a R' P' out' := by
  subst ho
  rcases h with ⟨w', wt', A', h1, h2, h3, h4⟩ | ⟨w', wt', L', A', Q, h1, h2, h3, h4, h5, h6⟩
  · exact .inl ⟨w', wt', A', h1, h2, h3, Nat.le_trans h4 hn⟩
  · exact .inr ⟨w', wt', L', A', Q, h1, hP Q h2, h3, h4, h5, Nat.lt_of_lt_of_le h6 hn⟩

theorem leave_x (dflt : T) (eq lt : T → T → Bool) (S : RowSetup A0 seqs free es) {L L' : List Nat} {w' wt' : World T} {A' : AState T} {R1 : Rows T} {n : Nat} {a : α} {R' : Rows T}
    {P : (Nat → List (List T)) → Prop} (hwc : WCalm L' w' wt') (h : RowInv dbg A0 seqs free es D wt' A' R1) {live : List Nat} (hnd : live.Nodup)
    (hl : ∀ t, t ∈ live ↔ R1.tmps t ≠ none) (hP : P R1.seqs) (hL : L'.length ≤ L.length + 1) (hd : due w'.st < n) :
    RowsEnd dbg A0 seqs free es D L n a R' P (w'.leave dbg dflt free live) := by
  obtain ⟨w2, wt2, A2, f1, f2, f3, f4⟩ := rowUnwind_x dflt eq lt S live w' wt' A' R1 hwc h hnd hl
  exact .inr ⟨w2, wt2, L', A2, R1.seqs, by simp only [World.leave, f1, RowOut.ofOption], hP, f2, f3, hL, Nat.lt_of_le_of_lt f4 hd⟩

theorem assign_tmps {len : Nat → Option Nat} {ps : Nat → Option SPos} {d : RowArg} {v : List T} {R' : Rows T} (hd : R.assign len ps v d = some R') (t : Nat) :
    R'.tmps t ≠ none ↔ R.tmps t ≠ none := by
  cases d with
  | tmp t' =>
    simp only [Rows.assign, Option.map_eq_some_iff] at hd
    obtain ⟨x, hx, rfl⟩ := hd
    simp only [Rows.setTmp]
    by_cases h : t = t'
    · subst h; simp [hx]
    · simp [h]
  | row r =>
    simp only [Rows.assign, Option.bind_eq_some_iff, Option.map_eq_some_iff] at hd
    obtain ⟨x, hx, i, hi, rfl⟩ := hd
    rfl

/-- The algorithm with the library, whatever throws. -/
theorem rowsX_run (dflt : T) (eq lt : T → T → Bool) (alloc : Nat) (S : RowSetup A0 seqs free es) {L : List Nat} (alg : RAlg T α) : ∀ (ps : Nat → Option SPos)
    (its : Nat → Option AnyIt) (live : List Nat) (w wt : World T) (A : AState T) (R : Rows T), WCalm L w wt → RowInv dbg A0 seqs free es D wt A R →
    RowRegs D (A0.rowCount seqs) ps its → live.Nodup → (∀ t, t ∈ live ↔ R.tmps t ≠ none) → ∀ a R', alg.run eq lt (A0.rowCount seqs) ps R = some (a, R') →
    RowsEnd dbg A0 seqs free es D L (due w.st) a R' (alg.Stopped eq lt (A0.rowCount seqs) ps R) (alg.execX dbg dflt eq lt seqs free alloc its live w) := by
  induction alg with
  | ret a => intro ps its live w wt A R hwc h hr hnd hl a' R' hrun; cases hrun; exact .inl ⟨w, wt, A, rfl, hwc, h, Nat.le_refl _⟩
  | begin r c k ih =>
    intro ps its live w wt A R hwc h hr hnd hl a R' hrun
    simp only [RAlg.run, Option.bind_eq_some_iff] at hrun
    obtain ⟨e, he, hrun⟩ := hrun
    obtain ⟨x, ss, p, b, bs, d, g1, g2, g3, g4, g5, g6, g7, g8, g9, g10⟩ := h.seq S he
    rw [← hwc.lookup dbg] at g6
    have hb : optRes d.begin = some ⟨b, d⟩ := by rw [show d.begin = .ok ⟨b, d⟩ by unfold Desc.begin; rw [g8]; rfl]; rfl
    exact (ih _ _ live w wt A R hwc h (hr.set r (sp := ⟨c, false, 0⟩) (it := .fwd ⟨b, d⟩) he g7 (Nat.zero_le _) (by simp [toIt, g8])) hnd hl a R' hrun).mono
      (by simp only [RAlg.execX, g1, Option.bind_some, g6, hb, RowOut.ofOption]) (Nat.le_refl _) (fun Q hQ => ⟨e, he, hQ⟩)
  | fin r c k ih =>
    intro ps its live w wt A R hwc h hr hnd hl a R' hrun
    simp only [RAlg.run, Option.bind_eq_some_iff] at hrun
    obtain ⟨e, he, hrun⟩ := hrun
    obtain ⟨x, ss, p, b, bs, d, g1, g2, g3, g4, g5, g6, g7, g8, g9, g10⟩ := h.seq S he
    rw [← hwc.lookup dbg] at g6
    have hb : optRes d.end = some ⟨b + (e : Int), d⟩ := by rw [show d.end = .ok ⟨b + (e : Int), d⟩ by unfold Desc.end; rw [g8, g9]; rfl]; rfl
    exact (ih _ _ live w wt A R hwc h (hr.set r (sp := ⟨c, false, e⟩) (it := .fwd ⟨b + (e : Int), d⟩) he g7 (Nat.le_refl _) (by simp [toIt, g8])) hnd hl a R' hrun).mono
      (by simp only [RAlg.execX, g1, Option.bind_some, g6, hb, RowOut.ofOption]) (Nat.le_refl _) (fun Q hQ => ⟨e, he, hQ⟩)
  | rbegin r c k ih =>
    intro ps its live w wt A R hwc h hr hnd hl a R' hrun
    simp only [RAlg.run, Option.bind_eq_some_iff] at hrun
    obtain ⟨e, he, hrun⟩ := hrun
    obtain ⟨x, ss, p, b, bs, d, g1, g2, g3, g4, g5, g6, g7, g8, g9, g10⟩ := h.seq S he
    rw [← hwc.lookup dbg] at g6
    have hb : optRes d.rbegin = some ⟨⟨b + (e : Int), d⟩⟩ := by
      rw [show d.rbegin = .ok ⟨⟨b + (e : Int), d⟩⟩ by unfold Desc.rbegin Desc.end; rw [g8, g9]; rfl]; rfl
    exact (ih _ _ live w wt A R hwc h (hr.set r (sp := ⟨c, true, 0⟩) (it := .bwd ⟨⟨b + (e : Int), d⟩⟩) he g7 (Nat.zero_le _) (by simp [toIt, g8])) hnd hl a R' hrun).mono
      (by simp only [RAlg.execX, g1, Option.bind_some, g6, hb, RowOut.ofOption]) (Nat.le_refl _) (fun Q hQ => ⟨e, he, hQ⟩)
  | rfin r c k ih =>
    intro ps its live w wt A R hwc h hr hnd hl a R' hrun
    simp only [RAlg.run, Option.bind_eq_some_iff] at hrun
    obtain ⟨e, he, hrun⟩ := hrun
    obtain ⟨x, ss, p, b, bs, d, g1, g2, g3, g4, g5, g6, g7, g8, g9, g10⟩ := h.seq S he
    rw [← hwc.lookup dbg] at g6
    have hb : optRes d.rend = some ⟨⟨b, d⟩⟩ := by
      rw [show d.rend = .ok ⟨⟨b, d⟩⟩ by unfold Desc.rend Desc.begin; rw [g8]; rfl]; rfl
    exact (ih _ _ live w wt A R hwc h (hr.set r (sp := ⟨c, true, e⟩) (it := .bwd ⟨⟨b, d⟩⟩) he g7 (Nat.le_refl _) (by simp [toIt, g8])) hnd hl a R' hrun).mono
      (by simp only [RAlg.execX, g1, Option.bind_some, g6, hb, RowOut.ofOption]) (Nat.le_refl _) (fun Q hQ => ⟨e, he, hQ⟩)
  | copy r r' k ih =>
    intro ps its live w wt A R hwc h hr hnd hl a R' hrun
    simp only [RAlg.run, Option.bind_eq_some_iff] at hrun
    obtain ⟨sp, hsp, hrun⟩ := hrun
    obtain ⟨e, d, h1, h2, h3, h4⟩ := hr r' sp hsp
    exact (ih _ _ live w wt A R hwc h (hr.set r h1 h2 h3 rfl) hnd hl a R' hrun).mono
      (by simp only [RAlg.execX, h4, RowOut.ofOption]) (Nat.le_refl _) (fun Q hQ => ⟨sp, hsp, hQ⟩)
  | base r r' k ih =>
    intro ps its live w wt A R hwc h hr hnd hl a R' hrun
    simp only [RAlg.run, Option.bind_eq_some_iff] at hrun
    obtain ⟨sp', ⟨sp, hsp, hb⟩, hrun⟩ := hrun
    obtain ⟨e, d, h1, h2, h3, h4⟩ := hr r' sp hsp
    have hb0 : (ps r').bind (rowSeqs (T := T) (A0.rowCount seqs)).baseOf = some sp' := by rw [hsp]; exact hb
    unfold Seqs.baseOf at hb
    rw [show (rowSeqs (T := T) (A0.rowCount seqs)).len sp.seq = some e from h1] at hb
    simp only [Option.bind_some] at hb
    split at hb
    · rename_i hrev
      cases hb
      have hbase : optRes (toIt e (d.bases.headD 0) d sp).base = some (.fwd ⟨d.bases.headD 0 + ((e : Int) - (sp.i : Int)), d⟩) := by
        unfold toIt; rw [if_pos hrev]; rfl
      exact (ih _ _ live w wt A R hwc h (hr.set r (sp := ⟨sp.seq, false, e - sp.i⟩) (it := .fwd ⟨d.bases.headD 0 + ((e : Int) - (sp.i : Int)), d⟩) h1 h2 (Nat.sub_le _ _) (by
        simp only [toIt]
        rw [if_neg (by decide), show ((e - sp.i : Nat) : Int) = (e : Int) - (sp.i : Int) by omega])) hnd hl a R' hrun).mono
        (by simp only [RAlg.execX, h4, Option.bind_some, hbase, RowOut.ofOption]) (Nat.le_refl _) (fun Q hQ => ⟨_, hb0, hQ⟩)
    · cases hb
  | add r n k ih =>
    intro ps its live w wt A R hwc h hr hnd hl a R' hrun
    simp only [RAlg.run, Option.bind_eq_some_iff] at hrun
    obtain ⟨sp', ⟨sp, hsp, hm⟩, hrun⟩ := hrun
    obtain ⟨e, d, h1, h2, h3, h4⟩ := hr r sp hsp
    have hm0 : (ps r).bind (fun p => (rowSeqs (T := T) (A0.rowCount seqs)).moved p n) = some sp' := by rw [hsp]; exact hm
    obtain ⟨a1, a2, a3⟩ := moved_some h1 hm
    subst a2
    exact (ih _ _ live w wt A R hwc h (hr.set r (sp := { sp with i := ((sp.i : Int) + n).toNat }) h1 h2 a3 (toIt_moved _ _ _ _ _ a1)) hnd hl a R' hrun).mono
      (by simp only [RAlg.execX, h4, RowOut.ofOption]) (Nat.le_refl _) (fun Q hQ => ⟨_, hm0, hQ⟩)
  | equal r r' k ih =>
    intro ps its live w wt A R hwc h hr hnd hl a R' hrun
    simp only [RAlg.run, Option.bind_eq_some_iff] at hrun
    obtain ⟨⟨x, y⟩, hb, hrun⟩ := hrun
    obtain ⟨c1, c2, c3, c4⟩ := both_some hb
    obtain ⟨e, d, h1, h2, h3, h4⟩ := hr r x c1
    obtain ⟨e', d', h1', h2', h3', h4'⟩ := hr r' y c2
    rw [← c3] at h1' h2'
    rw [h1] at h1'; rw [h2] at h2'
    cases h1'; cases h2'
    exact (ih _ _ _ live w wt A R hwc h hr hnd hl a R' hrun).mono
      (by simp only [RAlg.execX, h4, h4', Option.bind_some, toIt_equal e _ d x y c4, optRes, Res.val?, RowOut.ofOption]) (Nat.le_refl _) (fun Q hQ => ⟨_, hb, hQ⟩)
  | less r r' k ih =>
    intro ps its live w wt A R hwc h hr hnd hl a R' hrun
    simp only [RAlg.run, Option.bind_eq_some_iff] at hrun
    obtain ⟨⟨x, y⟩, hb, hrun⟩ := hrun
    obtain ⟨c1, c2, c3, c4⟩ := both_some hb
    obtain ⟨e, d, h1, h2, h3, h4⟩ := hr r x c1
    obtain ⟨e', d', h1', h2', h3', h4'⟩ := hr r' y c2
    rw [← c3] at h1' h2'
    rw [h1] at h1'; rw [h2] at h2'
    cases h1'; cases h2'
    exact (ih _ _ _ live w wt A R hwc h hr hnd hl a R' hrun).mono
      (by simp only [RAlg.execX, h4, h4', Option.bind_some, toIt_less e _ d x y c4, optRes, Res.val?, RowOut.ofOption]) (Nat.le_refl _) (fun Q hQ => ⟨_, hb, hQ⟩)
  | diff r r' k ih =>
    intro ps its live w wt A R hwc h hr hnd hl a R' hrun
    simp only [RAlg.run, Option.bind_eq_some_iff] at hrun
    obtain ⟨⟨x, y⟩, hb, hrun⟩ := hrun
    obtain ⟨c1, c2, c3, c4⟩ := both_some hb
    obtain ⟨e, d, h1, h2, h3, h4⟩ := hr r x c1
    obtain ⟨e', d', h1', h2', h3', h4'⟩ := hr r' y c2
    rw [← c3] at h1' h2'
    rw [h1] at h1'; rw [h2] at h2'
    cases h1'; cases h2'
    exact (ih _ _ _ live w wt A R hwc h hr hnd hl a R' hrun).mono
      (by simp only [RAlg.execX, h4, h4', Option.bind_some, toIt_diff e _ d x y c4, optRes, Res.val?, RowOut.ofOption]) (Nat.le_refl _) (fun Q hQ => ⟨_, hb, hQ⟩)
  | take t s k ih =>
    intro ps its live w wt A R hwc h hr hnd hl a R' hrun
    simp only [RAlg.run, Option.bind_eq_some_iff] at hrun
    obtain ⟨v, hv, hrun⟩ := hrun
    split at hrun
    · rename_i ht
      have ht := Option.isNone_iff_eq_none.mp ht
      have htl : t ∉ live := fun hm => (hl t).mp hm ht
      rcases rowTake_x dflt eq lt alloc S hwc h hr hv ht with ⟨w1, wt1, A1, f1, f2, f3, f4⟩ | ⟨w1, wt1, L1, f1, f2, f3, f4, f5⟩
      · refine (ih _ _ (t :: live) w1 wt1 A1 _ f2 f3 hr (List.nodup_cons.mpr ⟨htl, hnd⟩) ?_ a R' hrun).mono
          (by simp only [RAlg.execX, f1, RowOut.after]) f4 (fun Q hQ => .inr ⟨v, hv, hQ⟩)
        intro t'
        simp only [Rows.setTmp, List.mem_cons]
        by_cases htt : t' = t
        · simp [htt]
        · simp [htt, hl t']
      · simp only [RAlg.execX, f1, RowOut.after]
        exact leave_x dflt eq lt S f2 f3 hnd hl (.inl rfl) f4 f5
    · cases hrun
  | drop t k ih =>
    intro ps its live w wt A R hwc h hr hnd hl a R' hrun
    simp only [RAlg.run, Option.bind_eq_some_iff] at hrun
    obtain ⟨v, hv, hrun⟩ := hrun
    obtain ⟨w1, wt1, A1, f1, f2, f3, f4⟩ := rowDrop_x dflt eq lt S hwc h hv
    refine (ih _ _ (live.erase t) w1 wt1 A1 _ f2 f3 hr (hnd.erase t) ?_ a R' hrun).mono
      (by simp only [RAlg.execX, f1, RowOut.after]) f4 (fun Q hQ => hQ)
    intro t'
    rw [hnd.mem_erase_iff]
    simp only [Rows.setTmp]
    by_cases htt : t' = t
    · simp [htt]
    · simp [htt, hl t']
  | assign d s k ih =>
    intro ps its live w wt A R hwc h hr hnd hl a R' hrun
    simp only [RAlg.run, Option.bind_eq_some_iff] at hrun
    obtain ⟨v, hv, R1, hd, hrun⟩ := hrun
    rcases rowAssign_x dflt eq lt S hwc h hr hv hd with ⟨w1, wt1, A1, f1, f2, f3, f4⟩ | ⟨w1, wt1, L1, A1, u, j, junk, R2, f1, f2, f3, f4, f5, f6, f7, f8⟩
    · exact (ih _ _ live w1 wt1 A1 _ f2 f3 hr hnd (fun t => (hl t).trans (assign_tmps hd t).symm) a R' hrun).mono
        (by simp only [RAlg.execX, f1, RowOut.after]) f4 (fun Q hQ => ⟨v, hv, .inr ⟨R1, hd, hQ⟩⟩)
    · simp only [RAlg.execX, f1, RowOut.after]
      exact leave_x dflt eq lt S f2 f6 hnd (fun t => (hl t).trans (assign_tmps f5 t).symm) ⟨v, hv, .inl ⟨u, j, junk, R2, f3, f4, f5, rfl⟩⟩ (by omega) f8
  | look s k ih =>
    intro ps its live w wt A R hwc h hr hnd hl a R' hrun
    simp only [RAlg.run, Option.bind_eq_some_iff] at hrun
    obtain ⟨v, hv, hrun⟩ := hrun
    obtain ⟨d, f1, f2⟩ := look_ok dflt eq lt S h hr hv
    exact (ih _ _ _ live w wt A R hwc h hr hnd hl a R' hrun).mono
      (by simp only [RAlg.execX, look_x hwc f1 f2, RowOut.ofOption]) (Nat.le_refl _) (fun Q hQ => ⟨v, hv, hQ⟩)
  | rowEq s s' k ih =>
    intro ps its live w wt A R hwc h hr hnd hl a R' hrun
    simp only [RAlg.run, Option.bind_eq_some_iff] at hrun
    obtain ⟨v, hv, v', hv', hrun⟩ := hrun
    split at hrun
    · obtain ⟨d, d', f1, f2, f3, f4⟩ := compare_ok dflt eq lt S h hr hv hv'
      exact (ih _ _ _ live w wt A R hwc h hr hnd hl a R' hrun).mono
        (by simp only [RAlg.execX, (compare_x hwc f1 f2 f3 f4).1, RowOut.ofOption]) (Nat.le_refl _) (fun Q hQ => ⟨v, v', hv, hv', hQ⟩)
    · cases hrun
  | rowLt s s' k ih =>
    intro ps its live w wt A R hwc h hr hnd hl a R' hrun
    simp only [RAlg.run, Option.bind_eq_some_iff] at hrun
    obtain ⟨v, hv, v', hv', hrun⟩ := hrun
    split at hrun
    · obtain ⟨d, d', f1, f2, f3, f4⟩ := compare_ok dflt eq lt S h hr hv hv'
      exact (ih _ _ _ live w wt A R hwc h hr hnd hl a R' hrun).mono
        (by simp only [RAlg.execX, (compare_x hwc f1 f2 f3 f4).2, RowOut.ofOption]) (Nat.le_refl _) (fun Q hQ => ⟨v, v', hv, hv', hQ⟩)
    · cases hrun

end MultiArray
