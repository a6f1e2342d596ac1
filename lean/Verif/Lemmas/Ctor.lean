import Verif.Lemmas.Resize

/- Constructors that copy. -/
set_option autoImplicit false

namespace MultiArray
open Spec
variable {T : Type}

theorem NoThrow.mono {m m' : Nat} {sched : List (Option T)} (h : NoThrow m sched) (hle : m' ≤ m) : NoThrow m' sched := by
  intro y hy
  apply h y
  rw [List.mem_take_iff_getElem] at hy ⊢
  obtain ⟨i, hi, rfl⟩ := hy
  exact ⟨i, by omega, rfl⟩

theorem NoThrow.drop {m j : Nat} {sched : List (Option T)} (h : NoThrow (j + m) sched) : NoThrow m (sched.drop j) := by
  intro y hy
  apply h y
  rw [List.mem_take_iff_getElem] at hy ⊢
  obtain ⟨i, hi, rfl⟩ := hy
  simp only [List.length_drop] at hi
  exact ⟨j + i, by omega, by rw [List.getElem_drop]⟩

/-- Allocation followed by element copies into the new block. -/
theorem ctorCopy_spec {n : Nat} {ref : ARef} (hr : Reachable n ref) (dflt : T) (al : Nat) {s : St T} (hs : SaneHeap s)
    (body : MArr → Exec T Unit) (ps : List (Ptr × Ptr)) {m : MArr}
    (hm : m = ⟨{ ref with base := ⟨s.next, 0⟩ }, ⟨s.next, 0⟩, ref.numElems, al⟩)
    (hbody : body m = copySeq ps)
    (hsrc : ∀ p ∈ ps, ∃ v, s.get? p.1 = some v)
    (hdst : ∀ p ∈ ps, ∃ k : Nat, k < ref.numElems ∧ p.2 = ⟨s.next, (k : Int)⟩) (hnd : (ps.map Prod.snd).Nodup) :
    ∃ s', (((do let a ← MArr.allocateSpace dflt ref al; body a; pure a) s = .ok m s' ∧
            (∃ ws, OwnsVals s' n m ws) ∧ s'.next = s.next + 1) ∨
          ((do let a ← MArr.allocateSpace dflt ref al; body a; pure a : Exec T MArr) s = .throw s' ∧
            ¬ NoThrow (1 + ref.numElems + ps.length) s.sched ∧ s'.next ≤ s.next + 1)) ∧
      SameExcept s.next s s' ∧ SaneHeap s' ∧ (∃ j, s'.sched = s.sched.drop j) ∧
      (NoThrow (1 + ref.numElems + ps.length) s.sched →
        s'.sched = s.sched.drop (1 + ref.numElems + ps.length) ∧ (∀ p ∈ ps, s'.cell? p.2 = s.cell? p.1) ∧
        ∀ k : Nat, k < ref.numElems → (∀ p ∈ ps, p.2 ≠ ⟨s.next, (k : Int)⟩) →
          s'.get? ⟨s.next, (k : Int)⟩ = some dflt) := by
  obtain ⟨s1, h1, h2, h3, j1, hj1⟩ := allocateSpace_any dflt ref al s
  rcases h1 with ⟨h1, hb1, hn1⟩ | ⟨⟨h1, hnt⟩, hleak⟩
  · rw [← hm] at h1
    have hown : OwnsVals s1 n m (List.replicate ref.numElems dflt) := by rw [hm]; exact fresh_owns hr dflt _ hs hb1
    have hsane1 := sane_fresh hs hn1 h2
    have hblk : ∀ p ∈ ps, p.1.blk ≠ s.next := by
      intro p hp hc
      obtain ⟨v, hv⟩ := hsrc p hp
      rw [St.get?_eq_some] at hv
      unfold St.cell? at hv
      rw [hc, hs.2 _ (Nat.le_refl _)] at hv
      cases hv
    have hcell : ∀ q : Ptr, q.blk ≠ s.next → s1.cell? q = s.cell? q := by
      intro q hq
      unfold St.cell?
      rw [h2 _ hq]
    have hsrc1 : ∀ p ∈ ps, ∃ v, s1.get? p.1 = some v := by
      intro p hp
      obtain ⟨v, hv⟩ := hsrc p hp
      refine ⟨v, ?_⟩
      rw [St.get?_eq_some, hcell _ (hblk p hp)]
      exact St.get?_eq_some.mp hv
    have hget1 : ∀ k : Nat, k < ref.numElems → s1.get? ⟨s.next, (k : Int)⟩ = some dflt := by
      intro k hk
      rw [St.get?_eq_some, cell?_of_heap hb1, List.getElem?_replicate, if_pos hk]
    have hdst1 : ∀ p ∈ ps, ∃ v, s1.get? p.2 = some v := by
      intro p hp
      obtain ⟨k, hk, he⟩ := hdst p hp
      exact ⟨dflt, by rw [he]; exact hget1 k hk⟩
    have hdisj : ∀ p ∈ ps, ∀ q ∈ ps, p.1 ≠ q.2 := by
      intro p hp q hq hc
      obtain ⟨k, hk, he⟩ := hdst q hq
      exact hblk p hp (by rw [hc, he])
    have hpost : ∀ s2 : St T, (∀ q, q ∉ ps.map Prod.snd → s2.cell? q = s1.cell? q) →
        (∀ q, (∃ v, s1.get? q = some v) → ∃ v, s2.get? q = some v) → SameBlocks s1 s2 →
        SameExcept s.next s s2 ∧ SaneHeap s2 ∧ ∃ ws, OwnsVals s2 n m ws := by
      intro s2 g1 g2 g3
      have hse : SameExcept s.next s s2 := by
        intro c hc
        rw [← h2 c hc]
        apply heap_ext _ (g3.len c)
        intro off
        apply g1
        intro hmem
        obtain ⟨p, hp, he⟩ := List.mem_map.mp hmem
        obtain ⟨k, hk, he'⟩ := hdst p hp
        rw [he'] at he
        have := congrArg Ptr.blk he
        exact hc this.symm
      refine ⟨hse, sane_fresh hs (by rw [g3.next, hn1]) hse, ?_⟩
      obtain ⟨ws, e1, e2⟩ := block_live hown.block (g3.len _) g2
      exact ⟨ws, hown.reach, hown.start, hown.notNull, hown.own, hown.count, e1, by rw [e2, hown.len]⟩
    have hrun : (do let a ← MArr.allocateSpace dflt ref al; body a; pure a : Exec T MArr) s =
        (do copySeq ps; pure m : Exec T MArr) s1 := by
      rw [Exec.bind_ok h1, hbody]
    rw [hrun]
    by_cases hnt : NoThrow (1 + ref.numElems + ps.length) s.sched
    · have hsch := h3 (hnt.mono (by omega))
      obtain ⟨s2, e1, e2, e3, e4, e5⟩ := copySeq_ok ps s1 hsrc1 hdst1 hnd hdisj (by rw [hsch]; exact hnt.drop)
      have hlive : ∀ q, (∃ v, s1.get? q = some v) → ∃ v, s2.get? q = some v := by
        rintro q ⟨w, hw⟩
        by_cases hq : q ∈ ps.map Prod.snd
        · obtain ⟨p, hp, rfl⟩ := List.mem_map.mp hq
          obtain ⟨v, hv⟩ := hsrc1 p hp
          exact ⟨v, by rw [St.get?_eq_some, e2 p hp]; exact St.get?_eq_some.mp hv⟩
        · exact ⟨w, by rw [St.get?_eq_some, e3 q hq]; exact St.get?_eq_some.mp hw⟩
      obtain ⟨p1, p2, p3⟩ := hpost s2 e3 hlive e4
      refine ⟨s2, .inl ⟨by rw [Exec.bind_ok e1]; rfl, p3, by rw [e4.next, hn1]⟩, p1, p2,
        ⟨j1 + ps.length, by rw [e5, hj1, List.drop_drop]⟩, fun _ => ⟨?_, ?_, ?_⟩⟩
      · rw [e5, hsch, List.drop_drop]
      · intro p hp
        rw [e2 p hp, hcell _ (hblk p hp)]
      · intro k hk hnot
        rw [St.get?_eq_some, e3, ← St.get?_eq_some]
        · exact hget1 k hk
        · intro hmem
          obtain ⟨p, hp, he⟩ := List.mem_map.mp hmem
          exact hnot p hp he
    · obtain ⟨s2, e1, e2, e3, e4, j2, e5⟩ := copySeq_any ps s1 hsrc1 hdst1
      obtain ⟨p1, p2, p3⟩ := hpost s2 e2 e3 e4
      refine ⟨s2, ?_, p1, p2, ⟨j1 + j2, by rw [e5, hj1, List.drop_drop]⟩, fun h => absurd h hnt⟩
      rcases e1 with e1 | e1
      · left
        exact ⟨by rw [Exec.bind_ok e1]; rfl, p3, by rw [e4.next, hn1]⟩
      · right
        exact ⟨by rw [Exec.bind_throw e1], hnt, by rw [e4.next, hn1]⟩
  · have hnt' : ¬ NoThrow (1 + ref.numElems + ps.length) s.sched := fun h => hnt (h.mono (by omega))
    refine ⟨s1, .inr ⟨by rw [Exec.bind_throw h1], hnt', ?_⟩, h2, ?_, ⟨j1, hj1⟩, fun h => absurd h hnt'⟩
    · rcases hleak with ⟨_, hl2⟩ | ⟨_, hl2⟩ <;> omega
    · rcases hleak with ⟨hl1, hl2⟩ | ⟨hl1, hl2⟩
      · refine ⟨by rw [hl2]; exact hs.1, fun b hb => ?_⟩
        by_cases hbn : b = s.next
        · rw [hbn, hl1]; exact hs.2 _ (by omega)
        · rw [h2 b hbn]; exact hs.2 b (by omega)
      · exact sane_fresh hs hl2 h2

theorem copyNElems_eq (m : Nat) (src dst : Ptr) :
    (MArr.copyNElems m src dst : Exec T Unit) =
      copySeq ((List.range m).map (fun (k : Nat) => (src.add (k : Int), dst.add (k : Int)))) := by
  induction m generalizing src dst with
  | zero => rfl
  | succ m ih =>
    rw [List.range_succ_eq_map]
    simp only [MArr.copyNElems, List.map_cons, List.map_map, copySeq, ih]
    have h0 : ∀ p : Ptr, p.add ((0 : Nat) : Int) = p := by intro p; simp [Ptr.add]
    have h1 : ∀ (p : Ptr), (fun (k : Nat) => (p.add 1).add (k : Int)) = (fun (k : Nat) => p.add ((k.succ : Nat) : Int)) := by
      intro p; funext k; simp [Ptr.add]; ring
    rw [h0, h0]
    congr 1; funext v; congr 1; funext _; congr 1
    apply List.map_congr_left
    intro k _
    simp only [Function.comp, Prod.mk.injEq]
    exact ⟨congrFun (h1 src) k, congrFun (h1 dst) k⟩

/-- The copy constructor under any schedule. -/
theorem mkCopy_spec (dflt : T) {n : Nat} {s : St T} {a : MArr} {vs : List T} (ha : OwnsVals s n a vs) (hs : SaneHeap s) :
    ∃ (m : MArr) (s' : St T), m = ⟨{ a.ref with base := ⟨s.next, 0⟩ }, ⟨s.next, 0⟩, a.ref.numElems, a.alloc⟩ ∧
      ((MArr.mkCopy dflt a s = .ok m s' ∧ (∃ ws, OwnsVals s' n m ws) ∧ s'.next = s.next + 1) ∨
        (MArr.mkCopy dflt a s = .throw s' ∧ ¬ NoThrow (1 + a.ref.numElems + a.ref.numElems) s.sched ∧
          s'.next ≤ s.next + 1)) ∧
      SameExcept s.next s s' ∧ SaneHeap s' ∧ (∃ j, s'.sched = s.sched.drop j) ∧
      (NoThrow (1 + a.ref.numElems + a.ref.numElems) s.sched →
        s'.sched = s.sched.drop (1 + a.ref.numElems + a.ref.numElems) ∧ OwnsVals s' n m vs) := by
  let ps : List (Ptr × Ptr) := (List.range a.ref.numElems).map
    (fun (k : Nat) => (a.ownBase.add (k : Int), (⟨s.next, 0⟩ : Ptr).add (k : Int)))
  have hpl : ps.length = a.ref.numElems := by simp [ps]
  obtain ⟨s', h1, h2, h3, h4, h5⟩ := ctorCopy_spec (n := n) (ref := a.ref) ha.reach dflt a.alloc hs
    (fun m => MArr.copyNElems a.ref.numElems a.ownBase m.ownBase) ps rfl (copyNElems_eq _ _ _)
    (by
      intro p hp
      obtain ⟨k, hk, rfl⟩ := List.mem_map.mp hp
      rw [List.mem_range] at hk
      simp only
      rw [ha.own]
      exact ha.live k hk)
    (by
      intro p hp
      obtain ⟨k, hk, rfl⟩ := List.mem_map.mp hp
      rw [List.mem_range] at hk
      exact ⟨k, hk, by simp [Ptr.add]⟩)
    (by
      rw [List.map_map]
      apply List.Nodup.map_on _ List.nodup_range
      intro x _ y _ hxy
      simp only [Function.comp, Ptr.add_inj] at hxy
      exact_mod_cast hxy)
  rw [hpl] at h1 h5
  have hrun : (MArr.mkCopy dflt a : Exec T MArr) = (do
      let m ← MArr.allocateSpace dflt a.ref a.alloc
      MArr.copyNElems a.ref.numElems a.ownBase m.ownBase
      pure m) := rfl
  refine ⟨_, s', rfl, by rw [hrun]; exact h1, h2, h3, h4, ?_⟩
  intro hnt
  obtain ⟨e1, e2, _⟩ := h5 hnt
  refine ⟨e1, ?_⟩
  rcases h1 with ⟨_, ⟨ws, hws⟩, _⟩ | ⟨_, hc, _⟩
  · have : ws = vs := by
      apply List.ext_getElem?
      intro k
      rw [← hws.get k, ← ha.get k]
      by_cases hk : k < a.ref.numElems
      · have := e2 (a.ownBase.add (k : Int), (⟨s.next, 0⟩ : Ptr).add (k : Int))
          (List.mem_map.mpr ⟨k, List.mem_range.mpr hk, rfl⟩)
        simp only at this
        rw [ha.own] at this
        unfold St.get?
        rw [show ({ a.ref with base := ⟨s.next, 0⟩ } : ARef).data = ⟨s.next, 0⟩ from rfl, this]
      · have l1 := hws.len
        have l2 := ha.len
        simp only [ARef.numElements] at l1 l2
        rw [hws.get k, ha.get k, List.getElem?_eq_none (by omega), List.getElem?_eq_none (by omega)]
    rw [this] at hws
    exact hws
  · exact absurd hnt hc

theorem begin_ok (d : Desc) (e : Nat) (es : List Nat) (b : Int) (bs : List Int) (he : d.extents = e :: es) (hb : d.bases = b :: bs) :
    d.begin = .ok ⟨b, d⟩ ∧ d.end = .ok ⟨b + (e : Int), d⟩ := by
  obtain ⟨p, es', ss, bs'⟩ := d
  simp only at he hb
  subst he; subst hb
  exact ⟨rfl, rfl⟩

theorem convertBody_eq (dbg : Bool) (src dst : Desc) (hw : WellShaped src) (hd : WellShaped dst)
    (he : dst.extents = src.extents) (hne : src.extents ≠ []) :
    (do
      let first ← Exec.lift src.begin
      let last ← Exec.lift src.end
      let out ← Exec.lift dst.begin
      stdCopy (fun i o => do
          let s ← Exec.lift (i.deref dbg)
          let d ← Exec.lift (o.deref dbg)
          assignRef dbg (src.extents.length - 1) d s)
        (last.sub first).toNat first out : Exec T Unit) = copySeq (copyPairs src dst) := by
  obtain ⟨p, es, ss, bs⟩ := src
  obtain ⟨p', es', ss', bs'⟩ := dst
  simp only at he hne
  subst he
  have w1 := hw.1
  have w2 := hw.2
  have d1 := hd.1
  have d2 := hd.2
  match es', ss, bs, ss', bs', hne, w1, w2, d1, d2 with
  | e :: es, s0 :: ss, b :: bs, s1 :: ss', b' :: bs', _, _, _, _, _ =>
    rw [(begin_ok ⟨p, e :: es, s0 :: ss, b :: bs⟩ e es b bs rfl rfl).1,
      (begin_ok ⟨p, e :: es, s0 :: ss, b :: bs⟩ e es b bs rfl rfl).2,
      (begin_ok ⟨p', e :: es, s1 :: ss', b' :: bs'⟩ e es b' bs' rfl rfl).1]
    simp only [Exec.lift_ok, pure_bind]
    rw [show ((It.sub ⟨b + (e : Int), ⟨p, e :: es, s0 :: ss, b :: bs⟩⟩ ⟨b, ⟨p, e :: es, s0 :: ss, b :: bs⟩⟩).toNat) = e by
      simp [It.sub, It.distanceTo]]
    exact convertCopy_eq dbg p p' e es s0 s1 ss ss' b b' bs bs' hw hd

/-- The converting constructor under any schedule. -/
theorem mkConvert_spec (dbg : Bool) (dflt : T) {n : Nat} (hn : 0 < n) {s : St T} {src : Desc} (hw : WellShaped src)
    (hlen : src.extents.length = n) (hlive : ∀ idx, InBox src.bases src.extents idx → ∃ v, s.get? (address src idx) = some v)
    (hs : SaneHeap s) {so : StorageOrder} (hso : ValidOrder n so) (al : Nat) :
    ∃ (m : MArr) (s' : St T), m.ref.data = ⟨s.next, 0⟩ ∧ m.ref.extents = src.extents ∧ m.ref.bases = src.bases ∧
      m.ref.storage = so ∧ m.alloc = al ∧
      ((MArr.mkConvert dbg dflt src so al s = .ok m s' ∧ (∃ ws, OwnsVals s' n m ws) ∧ s'.next = s.next + 1) ∨
        (MArr.mkConvert dbg dflt src so al s = .throw s' ∧
          ¬ NoThrow (1 + src.extents.prod + src.extents.prod) s.sched ∧ s'.next ≤ s.next + 1)) ∧
      SameExcept s.next s s' ∧ SaneHeap s' ∧ (∃ j, s'.sched = s.sched.drop j) ∧
      (NoThrow (1 + src.extents.prod + src.extents.prod) s.sched →
        s'.sched = s.sched.drop (1 + src.extents.prod + src.extents.prod) ∧
        ∀ k, InShape src.extents k → elemAt s' m.ref.desc k = elemAt s src k) := by
  have hbl : src.bases.length = n := by rw [hw.2, hlen]
  obtain ⟨ref, hinit⟩ := ARef.init_succeeds Ptr.null src.bases (so := so) (es := src.extents) (n := n) hso (by omega)
  have href : ARef.ofShape n Ptr.null so (some src.bases) (some src.extents) = .ok ref := by
    unfold ARef.ofShape
    simp only [copyN_self hbl, Res.bind_ok]
    exact hinit
  obtain ⟨hwf, _, r2, r3, r4, _⟩ := ARef.init_ok hinit hso hbl
  rw [List.take_of_length_le (by omega)] at r4
  have hreach : Reachable n ref := .ofShape hso href
  have hnum : ref.numElems = src.extents.prod := by rw [hwf.num_eq, product_eq, r4]
  generalize hm : (⟨{ ref with base := ⟨s.next, 0⟩ }, ⟨s.next, 0⟩, ref.numElems, al⟩ : MArr) = m
  have hmext : m.ref.extents = src.extents := by rw [← hm]; exact r4
  have hmbas : m.ref.bases = src.bases := by rw [← hm]; exact r3
  have hmreach : Reachable n m.ref := by rw [← hm]; exact hreach.setBase _
  have hmw := hmreach.wf.wellShaped
  have hmdata : m.ref.data = ⟨s.next, 0⟩ := by rw [← hm]; rfl
  have hmnum : m.ref.numElements = ref.numElems := by rw [← hm]; rfl
  have hpl : (copyPairs src m.ref.desc).length = src.extents.prod := by
    rw [copyPairs_eq_map _ _ hw hmw hmext.symm, List.length_map, allPos_length]
    show m.ref.extents.prod = _
    rw [hmext]
  -- the copying loop
  let body : MArr → Exec T Unit := fun a => do
    let first ← Exec.lift src.begin
    let last ← Exec.lift src.end
    let out ← Exec.lift a.ref.desc.begin
    stdCopy (fun i o => do
        let s ← Exec.lift (i.deref dbg)
        let d ← Exec.lift (o.deref dbg)
        assignRef dbg (src.extents.length - 1) d s)
      (last.sub first).toNat first out
  have hbody : body m = copySeq (copyPairs src m.ref.desc) := by
    exact convertBody_eq dbg src m.ref.desc hw hmw hmext (by
      intro h; rw [h] at hlen; simp at hlen; omega)
  have hrun : (MArr.mkConvert dbg dflt src so al : Exec T MArr) = (do
      let a ← MArr.allocateSpace dflt ref al
      body a
      pure a) := by
    unfold MArr.mkConvert
    rw [hlen, href]
    simp only [Exec.lift_ok, pure_bind, body, bind_assoc, hlen]
  have hadr : ∀ k, InShape src.extents k → ∃ j : Nat, j < ref.numElems ∧
      address m.ref.desc (atPos m.ref.desc.bases k) = ⟨s.next, (j : Int)⟩ := by
    intro k hk
    obtain ⟨j, hj, he⟩ := Handle.array.address_in_block hmreach.wf
      (inBox_atPos hmw.2 (show InShape m.ref.extents k by rw [hmext]; exact hk))
    exact ⟨j, by rw [← hmnum]; exact hj, by rw [he, hmdata]; simp [Ptr.add]⟩
  obtain ⟨s', h1, h2, h3, h4, h5⟩ := ctorCopy_spec (n := n) hreach dflt al hs body (copyPairs src m.ref.desc) hm.symm hbody
    (by
      intro p hp
      rw [copyPairs_eq_map _ _ hw hmw hmext.symm] at hp
      obtain ⟨k, hk, rfl⟩ := List.mem_map.mp hp
      rw [mem_allPos] at hk
      exact hlive _ (inBox_atPos hw.2 (by rw [← hmext]; exact hk)))
    (by
      intro p hp
      rw [copyPairs_eq_map _ _ hw hmw hmext.symm] at hp
      obtain ⟨k, hk, rfl⟩ := List.mem_map.mp hp
      rw [mem_allPos] at hk
      exact hadr k (by rw [← hmext]; exact hk))
    (by
      rw [copyPairs_snd _ _ hw hmw hmext.symm]
      exact addrs_nodup hmreach.wf .array)
  rw [hpl, hnum] at h1 h5
  refine ⟨m, s', hmdata, hmext, hmbas, by rw [← hm]; exact r2, by rw [← hm], by rw [hrun]; exact h1, h2, h3, h4, ?_⟩
  intro hnt
  obtain ⟨e1, e2, _⟩ := h5 hnt
  refine ⟨e1, ?_⟩
  intro k hk
  have := e2 (address src (atPos src.bases k), address m.ref.desc (atPos m.ref.desc.bases k)) (by
    rw [copyPairs_eq_map _ _ hw hmw hmext.symm]
    exact List.mem_map.mpr ⟨k, (mem_allPos _ _).mpr (show InShape m.ref.extents k by rw [hmext]; exact hk), rfl⟩)
  simp only at this
  unfold elemAt St.get?
  rw [this]

end MultiArray
