import Verif.Lemmas.Mem
import Verif.Lemmas.Orders

/- The nested copy loops are sequences of element copies in lexicographic order. -/
set_option autoImplicit false

namespace MultiArray
open Spec
variable {T : Type}

/-- Element addresses of a handle in lexicographic index order. -/
def addrs (d : Desc) : List Ptr := (allIdx d.bases d.extents).map (address d)

/-- Source and destination addresses of an element-wise copy. -/
def copyPairs (src dst : Desc) : List (Ptr × Ptr) := (addrs src).zip (addrs dst)

theorem addrs_length (d : Desc) (hw : WellShaped d) : (addrs d).length = d.extents.prod := by
  simp [addrs, allIdx_length _ _ hw.2]

theorem addrs_cons (p : Ptr) (e : Nat) (es : List Nat) (s : Int) (ss : List Int) (b : Int) (bs : List Int) :
    addrs ⟨p, e :: es, s :: ss, b :: bs⟩ = (List.range e).flatMap (fun k => addrs (subAt p es s ss b bs k)) := by
  simp only [addrs, allIdx, List.map_flatMap, List.map_map]
  apply List.flatMap_congr
  intro k _
  apply List.map_congr_left
  intro idx _
  simp [address, subAt, dot, Ptr.add_add]

theorem addrs_nil (p : Ptr) : addrs ⟨p, [], [], []⟩ = [p] := by simp [addrs, allIdx, address, dot]

theorem zip_flatMap {α β γ : Type} (l : List α) (f : α → List β) (g : α → List γ)
    (h : ∀ x ∈ l, (f x).length = (g x).length) :
    (l.flatMap f).zip (l.flatMap g) = l.flatMap (fun x => (f x).zip (g x)) := by
  induction l with
  | nil => rfl
  | cons x xs ih =>
    simp only [List.flatMap_cons]
    rw [List.zip_append (h x (by simp)), ih (fun y hy => h y (by simp [hy]))]

theorem wellShaped_subAt {p : Ptr} {e : Nat} {es : List Nat} {s : Int} {ss : List Int} {b : Int} {bs : List Int}
    (hw : WellShaped ⟨p, e :: es, s :: ss, b :: bs⟩) (k : Nat) : WellShaped (subAt p es s ss b bs k) :=
  ⟨by simpa [subAt] using hw.1, by simpa [subAt] using hw.2⟩

theorem copyPairs_cons (p p' : Ptr) (e : Nat) (es : List Nat) (s s' : Int) (ss ss' : List Int) (b b' : Int)
    (bs bs' : List Int) (hw : WellShaped ⟨p, e :: es, s :: ss, b :: bs⟩)
    (hw' : WellShaped ⟨p', e :: es, s' :: ss', b' :: bs'⟩) :
    copyPairs ⟨p, e :: es, s :: ss, b :: bs⟩ ⟨p', e :: es, s' :: ss', b' :: bs'⟩ =
      (List.range e).flatMap (fun k => copyPairs (subAt p es s ss b bs k) (subAt p' es s' ss' b' bs' k)) := by
  rw [copyPairs, addrs_cons, addrs_cons, zip_flatMap]
  · rfl
  · intro k _
    rw [addrs_length _ (wellShaped_subAt hw k), addrs_length _ (wellShaped_subAt hw' k)]
    rfl

theorem stdCopy_spec (body : It → It → Exec T Unit) (D D' : Desc) (b b' : Int) (F : Nat → List (Ptr × Ptr)) (m j : Nat)
    (h : ∀ k, j ≤ k → k < j + m → body ⟨b + (k : Int), D⟩ ⟨b' + (k : Int), D'⟩ = copySeq (F k)) :
    stdCopy body m ⟨b + (j : Int), D⟩ ⟨b' + (j : Int), D'⟩ = copySeq ((List.range' j m).flatMap F) := by
  induction m generalizing j with
  | zero => simp [stdCopy, copySeq]
  | succ m ih =>
    simp only [stdCopy, It.increment]
    rw [h j (by omega) (by omega), List.range'_succ, List.flatMap_cons, copySeq_append,
      show b + (j : Int) + 1 = b + ((j + 1 : Nat) : Int) by push_cast; ring,
      show b' + (j : Int) + 1 = b' + ((j + 1 : Nat) : Int) by push_cast; ring,
      ih (j + 1) (fun k h1 h2 => h k (by omega) (by omega))]

theorem stdCopy_spec0 (body : It → It → Exec T Unit) (D D' : Desc) (b b' : Int) (F : Nat → List (Ptr × Ptr)) (m : Nat)
    (h : ∀ k, k < m → body ⟨b + (k : Int), D⟩ ⟨b' + (k : Int), D'⟩ = copySeq (F k)) :
    stdCopy body m ⟨b, D⟩ ⟨b', D'⟩ = copySeq ((List.range m).flatMap F) := by
  have := stdCopy_spec body D D' b b' F m 0 (fun k _ h2 => h k (by omega))
  simpa [List.range_eq_range'] using this

/-- A sequence of element assignments: each pair is (source, destination). -/
def eltSeq (elt : Ptr → Ptr → Exec T Unit) : List (Ptr × Ptr) → Exec T Unit
  | [] => pure ()
  | (src, dst) :: ps => do
    elt dst src
    eltSeq elt ps

theorem eltSeq_append (elt : Ptr → Ptr → Exec T Unit) (l1 l2 : List (Ptr × Ptr)) :
    eltSeq elt (l1 ++ l2) = (do eltSeq elt l1; eltSeq elt l2) := by
  induction l1 with
  | nil => simp [eltSeq]
  | cons p l1 ih => obtain ⟨a, b⟩ := p; simp only [List.cons_append, eltSeq, ih, bind_assoc]

theorem eltSeq_copy (l : List (Ptr × Ptr)) : (eltSeq eltCopy l : Exec T Unit) = copySeq l := by
  induction l with
  | nil => rfl
  | cons p l ih => obtain ⟨a, b⟩ := p; simp only [eltSeq, copySeq, ih, eltCopy, bind_assoc]

theorem stdCopyW_spec (elt : Ptr → Ptr → Exec T Unit) (body : It → It → Exec T Unit) (D D' : Desc) (b b' : Int) (F : Nat → List (Ptr × Ptr)) (m j : Nat)
    (h : ∀ k, j ≤ k → k < j + m → body ⟨b + (k : Int), D⟩ ⟨b' + (k : Int), D'⟩ = eltSeq elt (F k)) :
    stdCopy body m ⟨b + (j : Int), D⟩ ⟨b' + (j : Int), D'⟩ = eltSeq elt ((List.range' j m).flatMap F) := by
  induction m generalizing j with
  | zero => simp [stdCopy, eltSeq]
  | succ m ih =>
    simp only [stdCopy, It.increment]
    rw [h j (by omega) (by omega), List.range'_succ, List.flatMap_cons, eltSeq_append,
      show b + (j : Int) + 1 = b + ((j + 1 : Nat) : Int) by push_cast; ring,
      show b' + (j : Int) + 1 = b' + ((j + 1 : Nat) : Int) by push_cast; ring,
      ih (j + 1) (fun k h1 h2 => h k (by omega) (by omega))]

theorem stdCopyW_spec0 (elt : Ptr → Ptr → Exec T Unit) (body : It → It → Exec T Unit) (D D' : Desc) (b b' : Int) (F : Nat → List (Ptr × Ptr)) (m : Nat)
    (h : ∀ k, k < m → body ⟨b + (k : Int), D⟩ ⟨b' + (k : Int), D'⟩ = eltSeq elt (F k)) :
    stdCopy body m ⟨b, D⟩ ⟨b', D'⟩ = eltSeq elt ((List.range m).flatMap F) := by
  have := stdCopyW_spec elt body D D' b b' F m 0 (fun k _ h2 => h k (by omega))
  simpa [List.range_eq_range'] using this

/-- `operator=` on arrays of equal shape, as a sequence of element assignments. -/
theorem assignRefW_eq (dbg : Bool) (elt : Ptr → Ptr → Exec T Unit) (dst src : Desc) (hd : WellShaped dst) (hs : WellShaped src)
    (he : src.extents = dst.extents) : assignRefW dbg elt dst.extents.length dst src = eltSeq elt (copyPairs src dst) := by
  obtain ⟨p, es, ss, bs⟩ := src
  obtain ⟨p', es', ss', bs'⟩ := dst
  simp only at he
  subst he
  induction es generalizing p p' ss ss' bs bs' with
  | nil =>
    match ss, bs, ss', bs', hd, hs with
    | [], [], [], [], _, _ =>
      simp only [List.length_nil, assignRefW, copyPairs, addrs_nil, List.zip_cons_cons, List.zip_nil_right, eltSeq]
      exact (bind_pure _).symm
  | cons e es ih =>
    match ss, bs, ss', bs', hd, hs with
    | s :: ss, b :: bs, s' :: ss', b' :: bs', hd, hs =>
      simp only [List.length_cons, assignRefW, decide_true, assertE_true, pure_bind, begin_cons, end_cons, Exec.lift_ok]
      rw [copyPairs_cons _ _ _ _ _ _ _ _ _ _ _ _ hs hd]
      rw [show (It.sub ⟨b + (e : Int), (⟨p, e :: es, s :: ss, b :: bs⟩ : Desc)⟩ ⟨b, ⟨p, e :: es, s :: ss, b :: bs⟩⟩).toNat = e
        by simp [It.sub, It.distanceTo]]
      apply stdCopyW_spec0
      intro k hk
      rw [It.deref_in dbg p e es s ss b bs k hk, It.deref_in dbg p' e es s' ss' b' bs' k hk]
      simp only [Exec.lift_ok, pure_bind]
      exact ih _ _ _ (wellShaped_subAt hs k) _ _ _ (wellShaped_subAt hd k)

/-- `copy_array`'s recursion on arrays of equal shape. -/
theorem copyDispatchW_eq (dbg : Bool) (elt : Ptr → Ptr → Exec T Unit) (dst src : Desc) (hd : WellShaped dst) (hs : WellShaped src)
    (he : src.extents = dst.extents) : copyDispatchW dbg elt src.extents.length src dst = eltSeq elt (copyPairs src dst) := by
  obtain ⟨p, es, ss, bs⟩ := src
  obtain ⟨p', es', ss', bs'⟩ := dst
  simp only at he
  subst he
  induction es generalizing p p' ss ss' bs bs' with
  | nil =>
    match ss, bs, ss', bs', hd, hs with
    | [], [], [], [], _, _ =>
      simp only [List.length_nil, copyDispatchW, copyPairs, addrs_nil, List.zip_cons_cons, List.zip_nil_right, eltSeq]
      exact (bind_pure _).symm
  | cons e es ih =>
    match ss, bs, ss', bs', hd, hs with
    | s :: ss, b :: bs, s' :: ss', b' :: bs', hd, hs =>
      simp only [List.length_cons, copyDispatchW, decide_true, assertE_true, pure_bind, begin_cons, end_cons, Exec.lift_ok]
      rw [copyPairs_cons _ _ _ _ _ _ _ _ _ _ _ _ hs hd]
      rw [show (It.sub ⟨b + (e : Int), (⟨p, e :: es, s :: ss, b :: bs⟩ : Desc)⟩ ⟨b, ⟨p, e :: es, s :: ss, b :: bs⟩⟩).toNat = e
        by simp [It.sub, It.distanceTo]]
      apply stdCopyW_spec0
      intro k hk
      rw [It.deref_in dbg p e es s ss b bs k hk, It.deref_in dbg p' e es s' ss' b' bs' k hk]
      simp only [Exec.lift_ok, pure_bind]
      exact ih _ _ _ (wellShaped_subAt hs k) _ _ _ (wellShaped_subAt hd k)

/-- `operator=` on arrays of equal shape, as a sequence of element copies. -/
theorem assignRef_eq (dbg : Bool) (dst src : Desc) (hd : WellShaped dst) (hs : WellShaped src)
    (he : src.extents = dst.extents) :
    (assignRef dbg dst.extents.length dst src : Exec T Unit) = copySeq (copyPairs src dst) := by
  rw [assignRef, assignRefW_eq dbg _ dst src hd hs he, eltSeq_copy]

/-- `copy_array`'s recursion on arrays of equal shape. -/
theorem copyDispatch_eq (dbg : Bool) (dst src : Desc) (hd : WellShaped dst) (hs : WellShaped src)
    (he : src.extents = dst.extents) :
    (copyDispatch dbg src.extents.length src dst : Exec T Unit) = copySeq (copyPairs src dst) := by
  rw [copyDispatch, copyDispatchW_eq dbg _ dst src hd hs he, eltSeq_copy]

/-- The copy in the converting constructors. -/
theorem convertCopy_eq (dbg : Bool) (p p' : Ptr) (e : Nat) (es : List Nat) (s s' : Int) (ss ss' : List Int) (b b' : Int)
    (bs bs' : List Int) (hs : WellShaped ⟨p, e :: es, s :: ss, b :: bs⟩)
    (hd : WellShaped ⟨p', e :: es, s' :: ss', b' :: bs'⟩) :
    (stdCopy (fun i o => do
        let x ← Exec.lift (i.deref dbg)
        let y ← Exec.lift (o.deref dbg)
        assignRef dbg es.length y x) e ⟨b, ⟨p, e :: es, s :: ss, b :: bs⟩⟩ ⟨b', ⟨p', e :: es, s' :: ss', b' :: bs'⟩⟩
      : Exec T Unit) = copySeq (copyPairs ⟨p, e :: es, s :: ss, b :: bs⟩ ⟨p', e :: es, s' :: ss', b' :: bs'⟩) := by
  rw [copyPairs_cons _ _ _ _ _ _ _ _ _ _ _ _ hs hd]
  apply stdCopy_spec0
  intro k hk
  rw [It.deref_in dbg p e es s ss b bs k hk, It.deref_in dbg p' e es s' ss' b' bs' k hk]
  simp only [Exec.lift_ok, pure_bind]
  exact assignRef_eq dbg (subAt p' es s' ss' b' bs' k) (subAt p es s ss b bs k) (wellShaped_subAt hd k)
    (wellShaped_subAt hs k) rfl

/-- Transform elements one at a time. -/
def mapSeq (f : T → T) : List Ptr → Exec T Unit
  | [] => pure ()
  | p :: ps => do
    let v ← load p
    assignCell p (f v)
    mapSeq f ps

theorem mapSeq_append (f : T → T) (l1 l2 : List Ptr) : mapSeq f (l1 ++ l2) = (do mapSeq f l1; mapSeq f l2) := by
  induction l1 with
  | nil => simp [mapSeq]
  | cons p l1 ih => simp only [List.cons_append, mapSeq, ih, bind_assoc]

/-- Transform elements one at a time with a stateful function. -/
def mapAccSeq {σ : Type} (f : σ → T → T × σ) : List Ptr → σ → Exec T σ
  | [], q => pure q
  | p :: ps, q => do
    let v ← load p
    assignCell p (f q v).1
    mapAccSeq f ps (f q v).2

theorem mapAccSeq_append {σ : Type} (f : σ → T → T × σ) (l1 l2 : List Ptr) (q : σ) :
    mapAccSeq f (l1 ++ l2) q = (do let q' ← mapAccSeq f l1 q; mapAccSeq f l2 q') := by
  induction l1 generalizing q with
  | nil => simp [mapAccSeq]
  | cons p l1 ih => simp only [List.cons_append, mapAccSeq, ih, bind_assoc]

theorem mapAccSeq_unit (f : T → T) (l : List Ptr) : mapAccSeq (fun (_ : Unit) v => (f v, ())) l () = mapSeq f l := by
  induction l with
  | nil => rfl
  | cons p l ih => simp only [mapAccSeq, mapSeq, ih]

theorem stdForEach_spec {σ : Type} (f : σ → T → T × σ) (body : It → σ → Exec T σ) (D : Desc) (b : Int) (F : Nat → List Ptr) (m j : Nat)
    (h : ∀ k q, j ≤ k → k < j + m → body ⟨b + (k : Int), D⟩ q = mapAccSeq f (F k) q) (q : σ) :
    stdForEach body m ⟨b + (j : Int), D⟩ q = mapAccSeq f ((List.range' j m).flatMap F) q := by
  induction m generalizing j q with
  | zero => simp [stdForEach, mapAccSeq]
  | succ m ih =>
    simp only [stdForEach, It.increment]
    rw [h j q (by omega) (by omega), List.range'_succ, List.flatMap_cons, mapAccSeq_append,
      show b + (j : Int) + 1 = b + ((j + 1 : Nat) : Int) by push_cast; ring]
    congr 1
    funext q'
    exact ih (j + 1) (fun k q h1 h2 => h k q (by omega) (by omega)) q'

theorem forEachAcc_zero {σ : Type} (dbg : Bool) (f : σ → T → T × σ) (a : Desc) (q : σ) :
    forEachAcc dbg f 0 a q = (do let v ← load a.base; assignCell a.base (f q v).1; pure (f q v).2) := by
  simp only [forEachAcc, forEachX, pure_bind]

theorem forEachAcc_succ {σ : Type} (dbg : Bool) (f : σ → T → T × σ) (n : Nat) (a : Desc) (q : σ) :
    forEachAcc dbg f (n + 1) a q = (do
      let first ← Exec.lift a.begin
      let last ← Exec.lift a.end
      stdForEach (fun i q => do
          let s ← Exec.lift (i.deref dbg)
          forEachAcc dbg f n s q)
        (last.sub first).toNat first q) := rfl

theorem forEachAcc_eq {σ : Type} (dbg : Bool) (f : σ → T → T × σ) (d : Desc) (hw : WellShaped d) (q : σ) :
    forEachAcc dbg f d.extents.length d q = mapAccSeq f (addrs d) q := by
  obtain ⟨p, es, ss, bs⟩ := d
  induction es generalizing p ss bs q with
  | nil =>
    match ss, bs, hw with
    | [], [], _ => simp [forEachAcc_zero, addrs_nil, mapAccSeq]
  | cons e es ih =>
    match ss, bs, hw with
    | s :: ss, b :: bs, hw =>
      simp only [List.length_cons, forEachAcc_succ, begin_cons, end_cons, Exec.lift_ok, pure_bind]
      rw [addrs_cons,
        show (It.sub ⟨b + (e : Int), (⟨p, e :: es, s :: ss, b :: bs⟩ : Desc)⟩ ⟨b, ⟨p, e :: es, s :: ss, b :: bs⟩⟩).toNat = e
        by simp [It.sub, It.distanceTo]]
      have := stdForEach_spec f (fun i q => do
        let s ← Exec.lift (i.deref dbg)
        forEachAcc dbg f es.length s q) ⟨p, e :: es, s :: ss, b :: bs⟩ b (fun k => addrs (subAt p es s ss b bs k)) e 0
        (by
          intro k q _ hk
          rw [It.deref_in dbg p e es s ss b bs k (by omega)]
          simp only [Exec.lift_ok, pure_bind]
          exact ih q _ _ _ (wellShaped_subAt hw k)) q
      simpa [List.range_eq_range'] using this

theorem forEach_eq (dbg : Bool) (f : T → T) (d : Desc) (hw : WellShaped d) :
    forEach dbg f d.extents.length d = mapSeq f (addrs d) := by
  rw [forEach, forEachAcc_eq dbg _ d hw, mapAccSeq_unit]

theorem mapSeq_ok (f : T → T) (ps : List Ptr) (s : St T) (hl : ∀ p ∈ ps, ∃ v, s.get? p = some v) (hnd : ps.Nodup)
    (hthrow : NoThrow ps.length s.sched) :
    ∃ s', mapSeq f ps s = .ok () s' ∧ (∀ p ∈ ps, s'.get? p = (s.get? p).map f) ∧
      (∀ q, q ∉ ps → s'.cell? q = s.cell? q) ∧ SameBlocks s s' ∧ s'.sched = s.sched.drop ps.length := by
  induction ps generalizing s with
  | nil => exact ⟨s, rfl, by simp, by simp, .refl s, by simp⟩
  | cons p ps ih =>
    obtain ⟨v, hv⟩ := hl p (by simp)
    obtain ⟨hs1, hs2⟩ := noThrow_succ hthrow
    obtain ⟨s1, h1, h2, h3, h4⟩ := assignCell_ok hv (f v) hs1
    simp only [List.nodup_cons] at hnd
    have hkeep : ∀ q, q ≠ p → s1.cell? q = s.cell? q := fun q hq => by rw [h2, if_neg hq]
    have hne : ∀ q ∈ ps, q ≠ p := by rintro q hq rfl; exact hnd.1 hq
    have hg : ∀ q ∈ ps, s1.get? q = s.get? q := fun q hq => by unfold St.get?; rw [hkeep q (hne q hq)]
    obtain ⟨s', e1, e2, e3, e4, e5⟩ := ih s1 (fun q hq => by rw [hg q hq]; exact hl q (by simp [hq])) hnd.2
      (by rw [h4]; exact hs2)
    refine ⟨s', ?_, ?_, ?_, h3.trans e4, by rw [e5, h4]; simp⟩
    · simp only [mapSeq]
      rw [Exec.bind_ok (load_ok hv), Exec.bind_ok h1, e1]
    · intro q hq
      rcases List.mem_cons.mp hq with rfl | hq
      · rw [hv, Option.map_some, St.get?_eq_some, e3 q hnd.1, h2, if_pos rfl]
      · rw [e2 q hq, hg q hq]
    · intro q hq
      simp only [List.mem_cons, not_or] at hq
      rw [e3 q hq.2, hkeep q hq.1]

/-- The values after `mapAccSeq`, and its result. -/
theorem mapAccSeq_ok {σ : Type} (f : σ → T → T × σ) (ps : List Ptr) (vs : List T) (q : σ) (s : St T) (hlen : vs.length = ps.length)
    (hl : ∀ (i : Nat) p v, ps[i]? = some p → vs[i]? = some v → s.get? p = some v) (hnd : ps.Nodup)
    (hthrow : NoThrow ps.length s.sched) :
    ∃ s', mapAccSeq f ps q s = .ok (applySeq f q vs).2 s' ∧
      (∀ (i : Nat) p, ps[i]? = some p → s'.get? p = (applySeq f q vs).1[i]?) ∧
      (∀ p, p ∉ ps → s'.cell? p = s.cell? p) ∧ SameBlocks s s' ∧ s'.sched = s.sched.drop ps.length := by
  induction ps generalizing s vs q with
  | nil =>
    match vs, hlen with
    | [], _ => exact ⟨s, rfl, by simp, by simp, .refl s, by simp⟩
  | cons p ps ih =>
    match vs, hlen with
    | v :: vs, hlen =>
    have hv : s.get? p = some v := hl 0 p v rfl rfl
    obtain ⟨hs1, hs2⟩ := noThrow_succ hthrow
    obtain ⟨s1, h1, h2, h3, h4⟩ := assignCell_ok hv (f q v).1 hs1
    simp only [List.nodup_cons] at hnd
    have hkeep : ∀ r, r ≠ p → s1.cell? r = s.cell? r := fun r hr => by rw [h2, if_neg hr]
    have hne : ∀ r ∈ ps, r ≠ p := by rintro r hr rfl; exact hnd.1 hr
    have hg : ∀ r ∈ ps, s1.get? r = s.get? r := fun r hr => by unfold St.get?; rw [hkeep r (hne r hr)]
    obtain ⟨s', e1, e2, e3, e4, e5⟩ := ih vs (f q v).2 s1 (by simpa using hlen)
      (fun i r w hr hw => by rw [hg r (List.mem_of_getElem? hr)]; exact hl (i + 1) r w hr hw) hnd.2
      (by rw [h4]; exact hs2)
    refine ⟨s', ?_, ?_, ?_, h3.trans e4, by rw [e5, h4]; simp⟩
    · simp only [mapAccSeq]
      rw [Exec.bind_ok (load_ok hv), Exec.bind_ok h1, e1]
      rfl
    · intro i r hr
      cases i with
      | zero =>
        cases hr
        simp only [applySeq, List.getElem?_cons_zero]
        rw [St.get?_eq_some, e3 p hnd.1, h2, if_pos rfl]
      | succ i => simpa [applySeq] using e2 i r hr
    · intro r hr
      simp only [List.mem_cons, not_or] at hr
      rw [e3 r hr.2, hkeep r hr.1]

/-! ### Membership -/

/-- Zero-based positions in lexicographic order. -/
def allPos : List Nat → List (List Nat)
  | [] => [[]]
  | e :: es => (List.range e).flatMap (fun k => (allPos es).map (k :: ·))

theorem positions_eq (es : List Nat) : Spec.positions es = allPos es := by
  induction es with
  | nil => rfl
  | cons e es ih => simp only [Spec.positions, allPos, ih]

theorem mem_allPos (es k : List Nat) : k ∈ allPos es ↔ InShape es k := by
  induction es generalizing k with
  | nil => cases k <;> simp [allPos, InShape]
  | cons e es ih =>
    cases k with
    | nil => simp [allPos, InShape]
    | cons x k =>
      simp only [allPos, List.mem_flatMap, List.mem_range, List.mem_map, List.cons.injEq, InShape, ← ih]
      constructor
      · rintro ⟨y, hy, z, hz, rfl, rfl⟩; exact ⟨hy, hz⟩
      · rintro ⟨h1, h2⟩; exact ⟨x, h1, k, h2, rfl, rfl⟩

theorem allIdx_eq_map (bs : List Int) (es : List Nat) (h : bs.length = es.length) :
    allIdx bs es = (allPos es).map (atPos bs) := by
  induction es generalizing bs with
  | nil => match bs, h with | [], _ => rfl
  | cons e es ih => match bs, h with
    | b :: bs, h =>
      simp only [allIdx, allPos, List.map_flatMap, List.map_map]
      apply List.flatMap_congr
      intro k _
      rw [ih bs (by simpa using h), List.map_map]
      rfl

theorem allPos_length (es : List Nat) : (allPos es).length = es.prod := by
  induction es with
  | nil => rfl
  | cons e es ih => simp [allPos, List.length_flatMap, ih]

theorem addrs_eq_map (d : Desc) (hw : WellShaped d) :
    addrs d = (allPos d.extents).map (fun k => address d (atPos d.bases k)) := by
  rw [addrs, allIdx_eq_map _ _ hw.2, List.map_map]; rfl

theorem copyPairs_eq_map (src dst : Desc) (hs : WellShaped src) (hd : WellShaped dst) (he : src.extents = dst.extents) :
    copyPairs src dst = (allPos dst.extents).map
      (fun k => (address src (atPos src.bases k), address dst (atPos dst.bases k))) := by
  rw [copyPairs, addrs_eq_map _ hs, addrs_eq_map _ hd, he, List.zip_map']

theorem copyPairs_snd (src dst : Desc) (hs : WellShaped src) (hd : WellShaped dst) (he : src.extents = dst.extents) :
    (copyPairs src dst).map Prod.snd = addrs dst := by
  rw [copyPairs_eq_map _ _ hs hd he, addrs_eq_map _ hd, List.map_map]; rfl

theorem mem_addrs (d : Desc) (p : Ptr) : p ∈ addrs d ↔ ∃ idx, InBox d.bases d.extents idx ∧ p = address d idx := by
  simp only [addrs, List.mem_map, mem_allIdx]
  constructor
  · rintro ⟨i, h, rfl⟩; exact ⟨i, h, rfl⟩
  · rintro ⟨i, h, rfl⟩; exact ⟨i, h, rfl⟩

end MultiArray
