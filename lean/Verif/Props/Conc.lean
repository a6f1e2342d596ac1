import Verif.Lemmas.Conc
import Verif.Lemmas.Abs
import Verif.Props.Copy

/-
Property theorem C62: threads working on separate parts of arrays.
`Pool`, `Step`, `Run`, `Thread`, `Uses`, `Separate` are in SpecConc.lean; `execAll` runs the threads one after the other with the sequential model.
-/
set_option autoImplicit false

namespace MultiArray.Props
open MultiArray MultiArray.Spec
variable {T : Type}

theorem _root_.MultiArray.Spec.IsHandle.wellShaped {d : Desc} (h : IsHandle d) : WellShaped d := by
  obtain ⟨n, root, hr, h⟩ := h
  exact handle_wellShaped hr h

theorem uses_confined (dbg : Bool) {R W : Ptr → Prop} (t : Thread T) (h : t.Uses R W) : Confined R W (t.prog dbg) := by
  induction t with
  | done => trivial
  | read d idx k ih =>
    obtain ⟨hd, hin, hR, hk⟩ := h
    refine Confined.bind ?_ (fun v => ih v (hk v))
    rw [readElemP, accessElement_inBox dbg d idx hd.wellShaped.1 hin]
    exact ⟨hR, fun _ => trivial⟩
  | write d idx v k ih =>
    obtain ⟨hd, hin, hW, hk⟩ := h
    refine Confined.bind ?_ (fun _ => ih hk)
    rw [writeElemP, accessElement_inBox dbg d idx hd.wellShaped.1 hin]
    exact ⟨hW, trivial⟩
  | assign dst src k ih =>
    obtain ⟨hd, hs, he, hR, hW, hk⟩ := h
    refine Confined.bind ?_ (fun _ => ih hk)
    refine (confined_assignP dbg dst src hd.wellShaped hs.wellShaped he).mono ?_ ?_
    · intro p hp
      obtain ⟨idx, hi, rfl⟩ := (mem_addrs _ _).mp hp
      exact hR idx hi
    · intro p hp
      obtain ⟨idx, hi, rfl⟩ := (mem_addrs _ _).mp hp
      exact hW idx hi
  | copyArray src dst k ih =>
    obtain ⟨hd, hs, he, hR, hW, hk⟩ := h
    refine Confined.bind ?_ (fun _ => ih hk)
    refine (confined_copyArrayP dbg dst src hd.wellShaped hs.wellShaped he).mono ?_ ?_
    · intro p hp
      obtain ⟨idx, hi, rfl⟩ := (mem_addrs _ _).mp hp
      exact hR idx hi
    · intro p hp
      obtain ⟨idx, hi, rfl⟩ := (mem_addrs _ _).mp hp
      exact hW idx hi
  | forEach d f k ih =>
    obtain ⟨hd, hRW, hk⟩ := h
    refine Confined.bind ?_ (fun _ => ih hk)
    refine (confined_forEachAccP dbg _ d hd.wellShaped ()).mono ?_ ?_
    · intro p hp
      obtain ⟨idx, hi, rfl⟩ := (mem_addrs _ _).mp hp
      exact (hRW idx hi).1
    · intro p hp
      obtain ⟨idx, hi, rfl⟩ := (mem_addrs _ _).mp hp
      exact (hRW idx hi).2
  | fill a input k ih =>
    obtain ⟨⟨n, ha⟩, hW, hk⟩ := h
    refine Confined.bind ?_ (fun _ => ih hk)
    refine confined_assignLoopP _ _ _ (fun j hj => ?_)
    obtain ⟨k', hk', he⟩ := place_surj ha.wf (p := j) hj
    have := hW _ (inBox_atPos ha.wf.wellShaped.2 hk')
    rw [address_place ha.wf hk', he] at this
    exact this
  | equal a b eq k ih =>
    obtain ⟨ha, hb, hn, hRa, hRb, hk⟩ := h
    refine Confined.bind ?_ (fun r => ih r (hk r))
    refine confined_equalP dbg eq R W _ a b ha.wellShaped hb.wellShaped rfl hn.symm ?_
    rintro p (hp | hp)
    · obtain ⟨idx, hi, rfl⟩ := (mem_addrs _ _).mp hp
      exact hRa idx hi
    · obtain ⟨idx, hi, rfl⟩ := (mem_addrs _ _).mp hp
      exact hRb idx hi
  | less a b lt k ih =>
    obtain ⟨ha, hb, hn, hRa, hRb, hk⟩ := h
    refine Confined.bind ?_ (fun r => ih r (hk r))
    refine confined_lessP dbg lt R W _ a b ha.wellShaped hb.wellShaped rfl hn.symm ?_
    rintro p (hp | hp)
    · obtain ⟨idx, hi, rfl⟩ := (mem_addrs _ _).mp hp
      exact hRa idx hi
    · obtain ⟨idx, hi, rfl⟩ := (mem_addrs _ _).mp hp
      exact hRb idx hi

theorem seqAll_execAll (dbg : Bool) (ts : List (Thread T)) : seqAll (ts.map (Thread.prog dbg)) = execAll dbg ts := by
  induction ts with
  | nil => rfl
  | cons t ts ih => simp only [List.map_cons, seqAll, execAll, exec_thread, ih]

/-- The hypotheses of C62: thread `i` is legal and stays within the elements `fp[i]`, no element written by one thread is used by another, all these
elements are live objects, and element operations do not throw. -/
structure Separated (ts : List (Thread T)) (fp : List ((Ptr → Prop) × (Ptr → Prop))) (s : St T) : Prop where
  len : ts.length = fp.length
  uses : ∀ (i : Nat) t R W, ts[i]? = some t → fp[i]? = some (R, W) → t.Uses R W
  separate : Separate fp
  live : ∀ (i : Nat) R W, fp[i]? = some (R, W) → ∀ p, R p ∨ W p → ∃ v, s.get? p = some v
  nothrow : s.sched = []

theorem Separated.safe {ts : List (Thread T)} {fp : List ((Ptr → Prop) × (Ptr → Prop))} {s : St T} (h : Separated ts fp s) (dbg : Bool) :
    Safe fp (⟨s, ts.map (Thread.prog dbg)⟩ : Pool T) := by
  refine ⟨by simpa using h.len, ?_, h.live⟩
  intro i t R W ht hfp
  simp only [List.getElem?_map, Option.map_eq_some_iff] at ht
  obtain ⟨t', ht', rfl⟩ := ht
  exact uses_confined dbg t' (h.uses i t' R W ht' hfp)

/-- **C62.** Threads that use the library on separate elements: every schedule, whatever the interleaving of their element accesses, ends after the
same number of steps with the memory that running the threads one after the other produces; no schedule gets stuck (undefined behaviour
or failed assertion). -/
theorem C62_schedule_independence (dbg : Bool) (ts : List (Thread T)) (fp : List ((Ptr → Prop) × (Ptr → Prop))) (s : St T) (h : Separated ts fp s) :
    ∃ s' N, execAll dbg ts s = .ok () s' ∧ ∀ is c, Run ⟨s, ts.map (Thread.prog dbg)⟩ is c →
      is.length ≤ N ∧ (Finished c ↔ is.length = N) ∧ (Finished c → c.mem = s') ∧
      (∀ (i : Nat) t, c.threads[i]? = some t → t ≠ .ret () → ∃ c', Step c i c') := by
  obtain ⟨s', N, h1, h2⟩ := schedules fp h.separate _ s (h.safe dbg) h.nothrow
  rw [seqAll_execAll] at h1
  refine ⟨s', N, h1, ?_⟩
  intro is c hr
  obtain ⟨e1, e2, e3, _⟩ := h2 is c hr
  exact ⟨e1, e2, e3, fun i t ht hne => ((h.safe dbg).run hr).progress ht hne⟩

/-- **C62.** ... and no schedule reaches a data race: two threads never are about to access the same element with one of them writing. -/
theorem C62_no_data_race (dbg : Bool) (ts : List (Thread T)) (fp : List ((Ptr → Prop) × (Ptr → Prop))) (s : St T) (h : Separated ts fp s)
    (is : List Nat) (c : Pool T) (hr : Run ⟨s, ts.map (Thread.prog dbg)⟩ is c) : ¬ Racing c := by
  have hs := (h.safe dbg).run hr
  have key : ∀ i p w, NextAccess c i p w → ∃ R W, fp[i]? = some (R, W) ∧ (R p ∨ W p) ∧ (w = true → W p) := by
    rintro i p w (⟨rfl, k, hk⟩ | ⟨rfl, v, k, hk⟩)
    · obtain ⟨R, W, hfp, hc⟩ := hs.print hk
      exact ⟨R, W, hfp, .inl hc.1, fun h => by cases h⟩
    · obtain ⟨R, W, hfp, hc⟩ := hs.print hk
      exact ⟨R, W, hfp, .inr hc.1, fun _ => hc.1⟩
  rintro ⟨i, j, p, w, w', hij, hi, hj, hw⟩
  obtain ⟨R, W, hfp, hp, hW⟩ := key i p w hi
  obtain ⟨R', W', hfp', hp', hW'⟩ := key j p w' hj
  rcases hw with hw | hw
  · have := h.separate i j R W R' W' hij hfp hfp' p (hW hw)
    tauto
  · have := h.separate j i R' W' R W (fun e => hij e.symm) hfp' hfp p (hW' hw)
    tauto

/-- Only-reading threads do not change memory. -/
theorem run_readers {fp : List ((Ptr → Prop) × (Ptr → Prop))} (hro : ∀ x ∈ fp, ∀ p, ¬ x.2 p) {c c' : Pool T} {is : List Nat} (hs : Safe fp c)
    (hr : Run c is c') : c'.mem = c.mem := by
  induction hr with
  | nil => rfl
  | cons h1 _ ih =>
    rw [ih (hs.step h1)]
    cases h1 with
    | load _ _ => rfl
    | store ht _ =>
      obtain ⟨R, W, hfp, hc⟩ := hs.print ht
      exact (hro _ (List.mem_of_getElem? hfp) _ hc.1).elim

/-- **C62.** Any number of threads may concurrently read and compare the same arrays: nothing is ever written and there is no race. -/
theorem C62_concurrent_readers (dbg : Bool) (ts : List (Thread T)) (R : Ptr → Prop) (s : St T) (huse : ∀ t ∈ ts, t.Uses R (fun _ => False))
    (hlive : ∀ p, R p → ∃ v, s.get? p = some v) (hsched : s.sched = []) (is : List Nat) (c : Pool T)
    (hr : Run ⟨s, ts.map (Thread.prog dbg)⟩ is c) : c.mem = s ∧ ¬ Racing c ∧
      (∀ (i : Nat) t, c.threads[i]? = some t → t ≠ .ret () → ∃ c', Step c i c') := by
  have hsep : Separated ts (List.replicate ts.length (R, fun _ => False)) s := by
    refine ⟨by simp, ?_, ?_, ?_, hsched⟩
    · intro i t R' W' ht hfp
      have := (List.mem_replicate.mp (List.mem_of_getElem? hfp)).2
      cases this
      exact huse t (List.mem_of_getElem? ht)
    · intro i j R1 W1 R2 W2 _ hfp _ p hp
      have := (List.mem_replicate.mp (List.mem_of_getElem? hfp)).2
      cases this
      exact hp.elim
    · intro i R' W' hfp p hp
      have := (List.mem_replicate.mp (List.mem_of_getElem? hfp)).2
      cases this
      exact hlive p (hp.resolve_right id)
  refine ⟨?_, C62_no_data_race dbg ts _ s hsep is c hr, fun i t ht hne => ((hsep.safe dbg).run hr).progress ht hne⟩
  exact run_readers (fun x hx p hp => by rw [(List.mem_replicate.mp hx).2] at hp; exact hp) (hsep.safe dbg) hr

/-! ### Which parts are separate -/

/-- **C62.** Different rows of the same array, subarray or view share no element. -/
theorem C62_rows_disjoint {n : Nat} {root : ARef} (hr : Reachable n root) {d d1 d2 : Desc} (h : Handle root d) {i j : Int} (hij : i ≠ j)
    (h1 : access true i d = .ok d1) (h2 : access true j d = .ok d2) : NoOverlap d1 d2 := by
  have hw := handle_wellShaped hr h
  have hinj := fun a b (ha : InBox d.bases d.extents a) (hb : InBox d.bases d.extents b) => h.address_inj hr.wf ha hb
  obtain ⟨p, es, ss, bs⟩ := d
  match es, ss, bs, hw with
  | [], [], [], _ => cases h1
  | e :: es, s :: ss, b :: bs, hw =>
    have hi : b ≤ i ∧ i < b + (e : Int) := by
      by_contra hc
      rw [access_fail i p e es s ss b bs hc] at h1
      cases h1
    have hj : b ≤ j ∧ j < b + (e : Int) := by
      by_contra hc
      rw [access_fail j p e es s ss b bs hc] at h2
      cases h2
    rw [access_ok true i p e es s ss b bs hi.1 hi.2] at h1
    rw [access_ok true j p e es s ss b bs hj.1 hj.2] at h2
    cases h1; cases h2
    intro x y hx hy he
    have hne : i :: x ≠ j :: y := by simp [hij]
    apply hne
    apply hinj (i :: x) (j :: y) ⟨hi.1, hi.2, hx⟩ ⟨hj.1, hj.2, hy⟩
    simpa [address, dot, Ptr.add_add] using he

/-- **C62.** Parts of arrays in different blocks (for instance of two `multi_array` objects) share no element. -/
theorem C62_arrays_disjoint {n1 n2 : Nat} {r1 r2 : ARef} (h1 : Reachable n1 r1) (h2 : Reachable n2 r2) (hb : r1.data.blk ≠ r2.data.blk)
    {d1 d2 : Desc} (hd1 : Handle r1 d1) (hd2 : Handle r2 d2) : NoOverlap d1 d2 := by
  intro i j hi hj he
  obtain ⟨k, _, e1⟩ := hd1.address_in_block h1.wf hi
  obtain ⟨l, _, e2⟩ := hd2.address_in_block h2.wf hj
  rw [e1, e2] at he
  exact hb (show (r1.data.add (k : Int)).blk = (r2.data.add (l : Int)).blk from congrArg Ptr.blk he)

/-! ### Parallel loops over rows -/

theorem noOverlap_addrs {d d' : Desc} (h : NoOverlap d d') {p : Ptr} (h1 : p ∈ addrs d) (h2 : p ∈ addrs d') : False := by
  obtain ⟨i, hi, rfl⟩ := (mem_addrs _ _).mp h1
  obtain ⟨j, hj, he⟩ := (mem_addrs _ _).mp h2
  exact h i j hi hj he

/-- The rows `d[base], d[base+1], ...` of `d`. -/
def RowsOf (d : Desc) (rows : List Desc) : Prop :=
  d.extents.head? = some rows.length ∧ ∀ (k : Nat) r, rows[k]? = some r → access true (d.bases.headD 0 + (k : Int)) d = .ok r

theorem RowsOf.eq {p : Ptr} {e : Nat} {es : List Nat} {s : Int} {ss : List Int} {b : Int} {bs : List Int} {rows : List Desc}
    (h : RowsOf ⟨p, e :: es, s :: ss, b :: bs⟩ rows) : rows = (List.range e).map (subAt p es s ss b bs) := by
  obtain ⟨h1, h2⟩ := h
  simp only [List.head?_cons, Option.some.injEq] at h1
  apply List.ext_getElem?
  intro k
  by_cases hk : k < e
  · rw [List.getElem?_map, List.getElem?_range hk]
    have := h2 k _ (List.getElem?_eq_getElem (by omega))
    simp only [List.headD_cons] at this
    rw [access_ok true _ p e es s ss b bs (by omega) (by omega)] at this
    injection this with this
    rw [List.getElem?_eq_getElem (by omega), ← this]
    rfl
  · rw [List.getElem?_eq_none (by omega), List.getElem?_eq_none (by simpa using hk)]

theorem execAll_forEach (dbg : Bool) (f : T → T) (rows : List Desc) (hw : ∀ r ∈ rows, WellShaped r) :
    execAll dbg (rows.map (fun r => Thread.forEach r f .done)) = mapSeq f (rows.flatMap addrs) := by
  induction rows with
  | nil => rfl
  | cons r rows ih =>
    simp only [List.map_cons, execAll, Thread.exec, List.flatMap_cons, mapSeq_append]
    rw [ih (fun x hx => hw x (by simp [hx])), forEach_eq dbg f r (hw r (by simp))]
    simp

theorem execAll_assign (dbg : Bool) (ps : List (Desc × Desc)) (hw : ∀ x ∈ ps, WellShaped x.1 ∧ WellShaped x.2 ∧ x.2.extents = x.1.extents) :
    (execAll dbg (ps.map (fun x => Thread.assign x.1 x.2 .done)) : Exec T Unit) = copySeq (ps.flatMap (fun x => copyPairs x.2 x.1)) := by
  induction ps with
  | nil => rfl
  | cons r rows ih =>
    obtain ⟨h1, h2, h3⟩ := hw r (by simp)
    simp only [List.map_cons, execAll, Thread.exec, List.flatMap_cons, copySeq_append]
    rw [ih (fun x hx => hw x (by simp [hx])), assignRef_eq dbg r.1 r.2 h1 h2 h3]
    simp

theorem rows_handle {n : Nat} {root : ARef} {d : Desc} (hr : Reachable n root) (h : Handle root d) {rows : List Desc} (hrows : RowsOf d rows) {k : Nat} {r : Desc}
    (hk : rows[k]? = some r) : IsHandle r := ⟨n, root, hr, .sub h (hrows.2 k r hk)⟩

/-- **C62.** A parallel loop over rows: one thread per row `d[i]`, each running `for_each(d[i], f)`.  Under every schedule the result is that of
`for_each(d, f)`. -/
theorem C62_parallel_for_each {n : Nat} {root : ARef} (hr : Reachable n root) {d : Desc} (h : Handle root d) (dbg : Bool) (f : T → T)
    {rows : List Desc} (hrows : RowsOf d rows) (s : St T) (hl : Live s root) (hsched : s.sched = []) :
    ∃ s' N, forEach dbg f d.extents.length d s = .ok () s' ∧
      ∀ is c, Run ⟨s, rows.map (fun r => (Thread.forEach r f .done).prog dbg)⟩ is c →
        is.length ≤ N ∧ (Finished c ↔ is.length = N) ∧ (Finished c → c.mem = s') ∧ ¬ Racing c := by
  have hw := handle_wellShaped hr h
  have hdis : ∀ (i j : Nat) r r', i ≠ j → rows[i]? = some r → rows[j]? = some r' → NoOverlap r r' := by
    intro i j r r' hij hi hj
    exact C62_rows_disjoint hr h (by omega) (hrows.2 i r hi) (hrows.2 j r' hj)
  have hrl : ∀ r ∈ rows, ∀ p ∈ addrs r, ∃ v, s.get? p = some v := by
    intro r hrm p hp
    obtain ⟨k, hk⟩ := List.getElem?_of_mem hrm
    obtain ⟨i, hi, rfl⟩ := (mem_addrs _ _).mp hp
    exact hl.handle hr.wf (.sub h (hrows.2 k r hk)) hi
  let ts := rows.map (fun r => Thread.forEach r f .done)
  have hsep : Separated ts (rows.map (fun r => ((· ∈ addrs r), (· ∈ addrs r)))) s := by
    refine ⟨by simp [ts], ?_, ?_, ?_, hsched⟩
    · intro i t R W ht hfp
      simp only [ts, List.getElem?_map, Option.map_eq_some_iff] at ht hfp
      obtain ⟨r, hi, rfl⟩ := ht
      obtain ⟨r', hi', e⟩ := hfp
      rw [hi] at hi'; cases hi'; cases e
      exact ⟨rows_handle hr h hrows hi, fun idx hidx => ⟨(mem_addrs _ _).mpr ⟨idx, hidx, rfl⟩, (mem_addrs _ _).mpr ⟨idx, hidx, rfl⟩⟩, trivial⟩
    · intro i j R W R' W' hij hfp hfp' p hp
      simp only [List.getElem?_map, Option.map_eq_some_iff] at hfp hfp'
      obtain ⟨r, hi, e⟩ := hfp
      obtain ⟨r', hj, e'⟩ := hfp'
      cases e; cases e'
      have := fun hp' => noOverlap_addrs (hdis i j r r' hij hi hj) hp hp'
      exact ⟨this, this⟩
    · intro i R W hfp p hp
      simp only [List.getElem?_map, Option.map_eq_some_iff] at hfp
      obtain ⟨r, hi, e⟩ := hfp
      cases e
      exact hrl r (List.mem_of_getElem? hi) p (hp.elim id id)
  obtain ⟨s', N, h1, h2⟩ := C62_schedule_independence dbg ts _ s hsep
  refine ⟨s', N, ?_, ?_⟩
  · rw [← h1, forEach_eq dbg f d hw, execAll_forEach dbg f rows (fun r hrm => by
      obtain ⟨k, hk⟩ := List.getElem?_of_mem hrm
      exact (rows_handle hr h hrows hk).wellShaped)]
    obtain ⟨p, es, ss, bs⟩ := d
    match es, ss, bs, hw, hrows with
    | [], _, _, _, hrows => cases hrows.1
    | e :: es, s :: ss, b :: bs, hw, hrows =>
      rw [addrs_cons, hrows.eq, List.flatMap_map]
  · intro is c hrun
    have hmap : rows.map (fun r => (Thread.forEach r f .done).prog dbg) = ts.map (Thread.prog dbg) := by simp [ts]
    rw [hmap] at hrun
    obtain ⟨e1, e2, e3, _⟩ := h2 is c hrun
    exact ⟨e1, e2, e3, C62_no_data_race dbg ts _ s hsep is c hrun⟩

/-- **C62.** A parallel copy: one thread per row, each running `dst[i] = src[i]` on arrays that share no element.  Under every schedule the result is that
of `dst = src`. -/
theorem C62_parallel_assign {n1 n2 : Nat} {r1 r2 : ARef} (h1 : Reachable n1 r1) (h2 : Reachable n2 r2) {dst src : Desc} (hd : Handle r1 dst)
    (hs : Handle r2 src) (he : src.extents = dst.extents) (hno : NoOverlap src dst) (dbg : Bool) {drows srows : List Desc}
    (hdr : RowsOf dst drows) (hsr : RowsOf src srows) (s : St T) (l1 : Live s r1) (l2 : Live s r2) (hsched : s.sched = []) :
    ∃ s' N, assignRef dbg dst.extents.length dst src s = .ok () s' ∧
      ∀ is c, Run ⟨s, (drows.zip srows).map (fun x => (Thread.assign x.1 x.2 .done).prog dbg)⟩ is c →
        is.length ≤ N ∧ (Finished c ↔ is.length = N) ∧ (Finished c → c.mem = s') ∧ ¬ Racing c := by
  have hwd := handle_wellShaped h1 hd
  have hws := handle_wellShaped h2 hs
  have hlen : srows.length = drows.length := by
    have := hdr.1; rw [← he, hsr.1] at this; simpa using this
  have hzip : ∀ (i : Nat) x, (drows.zip srows)[i]? = some x → drows[i]? = some x.1 ∧ srows[i]? = some x.2 := by
    intro i x hx
    exact List.getElem?_zip_eq_some.mp hx
  have hext : ∀ (i : Nat) x, (drows.zip srows)[i]? = some x → x.2.extents = x.1.extents := by
    intro i x hx
    obtain ⟨e1, e2⟩ := hzip i x hx
    have a1 := hdr.2 i _ e1
    have a2 := hsr.2 i _ e2
    have b1 := (hdr.1)
    have b2 := (hsr.1)
    have c1 := (List.getElem?_eq_some_iff.mp e1).1
    have c2 := (List.getElem?_eq_some_iff.mp e2).1
    obtain ⟨p, es, ss, bs⟩ := dst
    obtain ⟨p', es', ss', bs'⟩ := src
    simp only at he
    subst he
    match es', ss, bs, ss', bs', hwd, hws with
    | [], _, _, _, _, _, _ => cases b1
    | e :: es, s :: ss, b :: bs, s' :: ss', b' :: bs', _, _ =>
      simp only [List.head?_cons, Option.some.injEq] at b1 b2
      simp only [List.headD_cons] at a1 a2
      rw [access_ok true _ p e es s ss b bs (by omega) (by omega)] at a1
      rw [access_ok true _ p' e es s' ss' b' bs' (by omega) (by omega)] at a2
      injection a1 with a1
      injection a2 with a2
      rw [← a1, ← a2]
  have hsrc : ∀ (i : Nat) r, srows[i]? = some r → ∀ q ∈ addrs r, q ∈ addrs src := by
    intro i r hi q hq
    obtain ⟨p', es', ss', bs'⟩ := src
    have b2 := hsr.1
    match es', ss', bs', hws, hsr with
    | [], _, _, _, hsr => cases hsr.1
    | e :: es, s' :: ss', b' :: bs', _, hsr =>
      have := hsr.eq
      subst this
      simp only [List.getElem?_map, Option.map_eq_some_iff] at hi
      obtain ⟨k, hk, rfl⟩ := hi
      exact mem_addrs_sub (List.mem_range.mp (List.mem_of_getElem? hk)) hq
  have hdst : ∀ (i : Nat) r, drows[i]? = some r → ∀ q ∈ addrs r, q ∈ addrs dst := by
    intro i r hi q hq
    obtain ⟨p', es', ss', bs'⟩ := dst
    match es', ss', bs', hwd, hdr with
    | [], _, _, _, hdr => cases hdr.1
    | e :: es, s' :: ss', b' :: bs', _, hdr =>
      have := hdr.eq
      subst this
      simp only [List.getElem?_map, Option.map_eq_some_iff] at hi
      obtain ⟨k, hk, rfl⟩ := hi
      exact mem_addrs_sub (List.mem_range.mp (List.mem_of_getElem? hk)) hq
  let ts : List (Thread T) := (drows.zip srows).map (fun x => Thread.assign x.1 x.2 .done)
  have hsep : Separated ts ((drows.zip srows).map (fun x => ((· ∈ addrs x.2), (· ∈ addrs x.1)))) s := by
    refine ⟨by simp [ts], ?_, ?_, ?_, hsched⟩
    · intro i t R W ht hfp
      simp only [ts, List.getElem?_map, Option.map_eq_some_iff] at ht hfp
      obtain ⟨x, hi, rfl⟩ := ht
      obtain ⟨x', hi', e⟩ := hfp
      rw [hi] at hi'; cases hi'; cases e
      obtain ⟨e1, e2⟩ := hzip i x hi
      exact ⟨rows_handle h1 hd hdr e1, rows_handle h2 hs hsr e2, hext i x hi, fun idx hidx => (mem_addrs _ _).mpr ⟨idx, hidx, rfl⟩,
        fun idx hidx => (mem_addrs _ _).mpr ⟨idx, hidx, rfl⟩, trivial⟩
    · intro i j R W R' W' hij hfp hfp' p hp
      simp only [List.getElem?_map, Option.map_eq_some_iff] at hfp hfp'
      obtain ⟨x, hi, e⟩ := hfp
      obtain ⟨x', hj, e'⟩ := hfp'
      cases e; cases e'
      obtain ⟨e1, e2⟩ := hzip i x hi
      obtain ⟨e3, e4⟩ := hzip j x' hj
      refine ⟨fun hp' => noOverlap_addrs hno (hsrc j _ e4 p hp') (hdst i _ e1 p hp), fun hp' => ?_⟩
      exact noOverlap_addrs (C62_rows_disjoint h1 hd (by omega) (hdr.2 i _ e1) (hdr.2 j _ e3)) hp hp'
    · intro i R W hfp p hp
      simp only [List.getElem?_map, Option.map_eq_some_iff] at hfp
      obtain ⟨x, hi, e⟩ := hfp
      cases e
      obtain ⟨e1, e2⟩ := hzip i x hi
      rcases hp with hp | hp
      · obtain ⟨idx, hidx, rfl⟩ := (mem_addrs _ _).mp hp
        exact l2.handle h2.wf (.sub hs (hsr.2 i _ e2)) hidx
      · obtain ⟨idx, hidx, rfl⟩ := (mem_addrs _ _).mp hp
        exact l1.handle h1.wf (.sub hd (hdr.2 i _ e1)) hidx
  obtain ⟨s', N, g1, g2⟩ := C62_schedule_independence dbg ts _ s hsep
  refine ⟨s', N, ?_, ?_⟩
  · rw [← g1, assignRef_eq dbg dst src hwd hws he, execAll_assign dbg _ (fun x hx => by
      obtain ⟨k, hk⟩ := List.getElem?_of_mem hx
      obtain ⟨e1, e2⟩ := hzip k x hk
      exact ⟨(rows_handle h1 hd hdr e1).wellShaped, (rows_handle h2 hs hsr e2).wellShaped, hext k x hk⟩)]
    obtain ⟨p, es, ss, bs⟩ := dst
    obtain ⟨p', es', ss', bs'⟩ := src
    simp only at he
    subst he
    match es', ss, bs, ss', bs', hwd, hws, hdr, hsr with
    | [], _, _, _, _, _, _, hdr, _ => cases hdr.1
    | e :: es, s :: ss, b :: bs, s' :: ss', b' :: bs', hwd, hws, hdr, hsr =>
      rw [copyPairs_cons _ _ _ _ _ _ _ _ _ _ _ _ hws hwd, hdr.eq, hsr.eq, List.zip_map', List.flatMap_map]
  · intro is c hrun
    have hmap : (drows.zip srows).map (fun x => (Thread.assign x.1 x.2 .done).prog dbg) = ts.map (Thread.prog dbg) := by simp [ts]
    rw [hmap] at hrun
    obtain ⟨e1, e2, e3, _⟩ := g2 is c hrun
    exact ⟨e1, e2, e3, C62_no_data_race dbg ts _ s hsep is c hrun⟩

/-! ### Concrete cases -/

/-- The rows of `exArr` (shape 2x3x4, one dimension descending). -/
example : ∃ rows, RowsOf exArr.desc rows ∧ rows.length = 2 := by
  have h : ∀ k : Nat, k < 2 → ∃ r, access true (exArr.desc.bases.headD 0 + (k : Int)) exArr.desc = .ok r := by
    intro k hk
    interval_cases k
    · exact ⟨_, rfl⟩
    · exact ⟨_, rfl⟩
  obtain ⟨r0, h0⟩ := h 0 (by omega)
  obtain ⟨r1, h1⟩ := h 1 (by omega)
  refine ⟨[r0, r1], ⟨rfl, ?_⟩, rfl⟩
  intro k r hk
  match k, hk with
  | 0, hk => cases hk; exact h0
  | 1, hk => cases hk; exact h1

/-- Two threads on the three-element array `ovArr`: one computes `a[0] = 2*a[0]`, the other `a[1] = a[2]` when `a[2]` is 30. -/
def exThreads : List (Thread Nat) :=
  [.read ovArr.desc [0] (fun v => .write ovArr.desc [0] (2 * v) .done),
   .read ovArr.desc [2] (fun v => if v = 30 then .write ovArr.desc [1] v .done else .done)]

/-- Hypotheses of C62 met by a thread that fills an array. -/
example : (Thread.fill ovArr [4, 5, 6] .done : Thread Nat).Uses (fun _ => False) (fun p => p.blk = 1) :=
  ⟨⟨1, .ofExtents (p := ⟨1, 0⟩) (exts := [3]) (so := StorageOrder.cOrder 1) (by decide) rfl⟩, fun _ _ => rfl, trivial⟩

theorem ovArr_handle : IsHandle ovArr.desc :=
  ⟨1, ovArr, .ofExtents (p := ⟨1, 0⟩) (exts := [3]) (so := StorageOrder.cOrder 1) (by decide) rfl, .array⟩

theorem exThreads_separated : Separated exThreads [((· = ⟨1, 0⟩), (· = ⟨1, 0⟩)), ((· = ⟨1, 2⟩), (· = ⟨1, 1⟩))] ovSt := by
  refine ⟨rfl, ?_, ?_, ?_, rfl⟩
  · intro i t R W ht hfp
    match i, ht, hfp with
    | 0, ht, hfp =>
      cases ht; cases hfp
      exact ⟨ovArr_handle, by decide, rfl, fun v => ⟨ovArr_handle, by decide, rfl, trivial⟩⟩
    | 1, ht, hfp =>
      cases ht; cases hfp
      refine ⟨ovArr_handle, by decide, rfl, fun v => ?_⟩
      simp only
      split
      · exact ⟨ovArr_handle, by decide, rfl, trivial⟩
      · trivial
  · intro i j R W R' W' hij hfp hfp' p hp
    match i, j, hij, hfp, hfp' with
    | 0, 0, hij, _, _ => exact absurd rfl hij
    | 1, 1, hij, _, _ => exact absurd rfl hij
    | 0, 1, _, hfp, hfp' => cases hfp; cases hfp'; subst hp; decide
    | 1, 0, _, hfp, hfp' => cases hfp; cases hfp'; subst hp; decide
  · intro i R W hfp p hp
    match i, hfp with
    | 0, hfp =>
      cases hfp
      rcases hp with hp | hp <;> (subst hp; exact ⟨10, rfl⟩)
    | 1, hfp =>
      cases hfp
      rcases hp with hp | hp
      · subst hp; exact ⟨30, rfl⟩
      · subst hp; exact ⟨20, rfl⟩

/-- **C62, hazard.** Without separation the result depends on the schedule: two threads executing `a[0] = 1` and `a[0] = 2` can end either way, and they
race. -/
theorem C62_race_hazard : ∃ (ts : List (Thread Nat)) (c1 c2 : Pool Nat), Racing (⟨ovSt, ts.map (Thread.prog true)⟩ : Pool Nat) ∧
    Run ⟨ovSt, ts.map (Thread.prog true)⟩ [0, 1] c1 ∧ Run ⟨ovSt, ts.map (Thread.prog true)⟩ [1, 0] c2 ∧ Finished c1 ∧ Finished c2 ∧
    elemAt c1.mem ovArr.desc [0] = some 2 ∧ elemAt c2.mem ovArr.desc [0] = some 1 := by
  let t1 : Thread Nat := .write ovArr.desc [0] 1 .done
  let t2 : Thread Nat := .write ovArr.desc [0] 2 .done
  have e1 : t1.prog true = .store ⟨1, 0⟩ 1 (.ret ()) := rfl
  have e2 : t2.prog true = .store ⟨1, 0⟩ 2 (.ret ()) := rfl
  refine ⟨[t1, t2], ⟨(ovSt.setCell ⟨1, 0⟩ (.obj 1)).setCell ⟨1, 0⟩ (.obj 2), [.ret (), .ret ()]⟩,
    ⟨(ovSt.setCell ⟨1, 0⟩ (.obj 2)).setCell ⟨1, 0⟩ (.obj 1), [.ret (), .ret ()]⟩, ?_, ?_, ?_, ?_, ?_, rfl, rfl⟩
  · exact ⟨0, 1, ⟨1, 0⟩, true, true, by decide, .inr ⟨rfl, 1, .ret (), rfl⟩, .inr ⟨rfl, 2, .ret (), rfl⟩, .inl rfl⟩
  · exact .cons (.store (i := 0) (p := ⟨1, 0⟩) (w := 10) rfl rfl) (.cons (.store (i := 1) (p := ⟨1, 0⟩) (w := 1) rfl rfl) .nil)
  · exact .cons (.store (i := 1) (p := ⟨1, 0⟩) (w := 10) rfl rfl) (.cons (.store (i := 0) (p := ⟨1, 0⟩) (w := 2) rfl rfl) .nil)
  · intro t ht; simpa using ht
  · intro t ht; simpa using ht

/-! ### Instances: the theorems applied to concrete cases, whose hypotheses are thereby met -/

example := C62_schedule_independence true exThreads _ ovSt exThreads_separated
example := C62_no_data_race true exThreads _ ovSt exThreads_separated
example := C62_rows_disjoint exArr_reachable .array (i := -1) (j := 0) (by decide) rfl rfl
example := C62_arrays_disjoint exArr_reachable exArr2_reachable (by decide) .array .array

/- end of instances -/

end MultiArray.Props
