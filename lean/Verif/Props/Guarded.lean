import Verif.Lemmas.Guarded
import Verif.Lemmas.Exchange
import Verif.Props.Log

/- Property theorems C95: element types whose assignment has a precondition, in particular arrays of arrays. -/
set_option autoImplicit false

namespace MultiArray.Props
open MultiArray MultiArray.Spec
variable {T α : Type}

/-! ### Constructors -/

/-- What assigning into a freshly allocated array comes to. -/
private theorem fresh_guarded (ok : T → T → Bool) (dflt : T) (ref : ARef) (al : Nat) (F : MArr → Code T α) (H : Code T α) (hH : Code.NoStores H) (l : List (Ptr × Ptr)) {s : St T} (hs : SaneHeap s)
    (hF : ∀ s1, (F (MArr.spaceAt s.next ref al)).overwrites s1 = (Code.ofProg (copyCode l : Prog T Unit)).overwrites s1)
    (hsrc : ∀ r ∈ l, ∃ v, s.get? r.1 = some v) (hdst : ∀ r ∈ l, ∃ j : Nat, j < ref.numElems ∧ r.2 = ⟨s.next, (j : Int)⟩) (hnd : (l.map Prod.snd).Nodup) :
    let x := (MArr.allocateSpaceC dflt ref al).elim F H
    ((∀ r ∈ l, ∀ v, s.get? r.1 = some v → ok dflt v = true) → x.execG ok s = x.exec s) ∧
    (s.sched = [] → (∃ r ∈ l, ∃ v, s.get? r.1 = some v ∧ ok dflt v = false) → ∃ s', x.execG ok s = .assertFail s') := by
  intro x
  have hover : x.overwrites s = Code.afterOver ((MArr.allocateSpaceC dflt ref al).exec s) F H := by
    rw [Code.overwrites_elim, (noStores_allocateSpaceC dflt ref al).overwrites]; rfl
  rw [MArr.exec_allocateSpaceC] at hover
  obtain ⟨s1, h1, h2, h3, _⟩ := allocateSpace_any dflt ref al s
  have hblk : ∀ r ∈ l, r.1.blk ≠ s.next := by
    intro r hr he
    obtain ⟨v, hv⟩ := hsrc r hr
    exact get?_heap hv (hs.2 _ (by omega))
  have hold : ∀ r ∈ l, s1.get? r.1 = s.get? r.1 := fun r hr => get?_congr (h2 _ (hblk r hr))
  rcases h1 with ⟨e, hb, _⟩ | ⟨⟨e, hth⟩, _⟩
  · rw [e] at hover
    have hover : x.overwrites s = (Code.ofProg (copyCode l : Prog T Unit)).overwrites s1 := hover.trans (hF s1)
    have hnew : ∀ r ∈ l, s1.get? r.2 = some dflt := by
      intro r hr
      obtain ⟨j, hj, he⟩ := hdst r hr
      rw [St.get?_eq_some, he, cell?_of_heap hb, List.getElem?_replicate, if_pos hj]
    obtain ⟨g1, g2⟩ := copyCode_guarded ok l s1 (fun r hr => by rw [hold r hr]; exact hsrc r hr) (fun r hr => ⟨dflt, hnew r hr⟩) hnd
      (fun r hr r' hr' he => by
        obtain ⟨j, _, he'⟩ := hdst r' hr'
        exact hblk r hr (by rw [he, he']))
    refine ⟨fun h => Code.execG_ok ok x s ?_, fun hsc h => Code.execG_bad ok x s ?_⟩
    · rw [hover]
      refine g1 (fun r hr u v hu hv => ?_)
      rw [hnew r hr] at hu
      cases hu
      exact h r hr v (by rw [← hold r hr]; exact hv)
    · rw [hover]
      obtain ⟨r, hr, v, hv, hb⟩ := h
      refine g2 ?_ ⟨r, hr, dflt, v, hnew r hr, by rw [hold r hr]; exact hv, hb⟩
      rw [h3 (by rw [hsc]; exact NoThrow.nil _), hsc, List.drop_nil]
  · rw [e] at hover
    refine ⟨fun _ => Code.execG_ok ok x s (by rw [hover]; intro r hr; simp only [Code.afterOver, hH.overwrites] at hr; cases hr), fun hsc _ => ?_⟩
    exact absurd (by rw [hsc]; exact NoThrow.nil _) hth

/-- **C95.** The constructors that take no source of elements (default, extent list, extent generator) assign no element: whatever the element type asserts in its assignment, they behave
the same. -/
theorem C95_plain_constructors (ok : T → T → Bool) (dflt : T) (s : St T) (n al : Nat) (es : List Nat) (g : ExtentGen) (so : StorageOrder) :
    (MArr.mkDefaultC dflt n al).execG ok s = MArr.mkDefault dflt n al s ∧
    (MArr.mkExtentsC dflt n es so al).execG ok s = MArr.mkExtents dflt n es so al s ∧
    (MArr.mkExtentGenC dflt g so al).execG ok s = MArr.mkExtentGen dflt g so al s := by
  rw [← MArr.exec_mkDefaultC, ← MArr.exec_mkExtentsC, ← MArr.exec_mkExtentGenC]
  refine ⟨Code.execG_ok _ _ _ ?_, Code.execG_ok _ _ _ ?_, Code.execG_ok _ _ _ ?_⟩
  all_goals
    intro r hr
    rw [Code.NoStores.overwrites] at hr
    · cases hr
    · exact Code.NoStores.bind (Code.NoStores.lift _) (fun _ => noStores_allocateSpaceC _ _ _)

/-- **C95.** The copy constructor assigns each element over a value-initialised one: it behaves as for any other element type if that is allowed for every element of the original; otherwise
the assertion of the element type fails. -/
theorem C95_copy_constructor (ok : T → T → Bool) (dflt : T) {n : Nat} {s : St T} {a : MArr} {vs : List T} (ha : OwnsVals s n a vs) (hs : SaneHeap s) :
    ((∀ v ∈ vs, ok dflt v = true) → (MArr.mkCopyC dflt a).execG ok s = MArr.mkCopy dflt a s) ∧
    (s.sched = [] → (∃ v ∈ vs, ok dflt v = false) → ∃ s', (MArr.mkCopyC dflt a).execG ok s = .assertFail s') := by
  have hlen : a.ref.numElems = vs.length := ha.len.symm
  have hget : ∀ i : Nat, s.get? (a.ownBase.add (i : Int)) = vs[i]? := fun i => by rw [ha.own]; exact ha.get i
  have := fresh_guarded ok dflt a.ref a.alloc (fun m => MArr.copyNElemsC a.ref.numElems a.ownBase m.ownBase >>= fun _ => pure m) .throw trivial
    ((List.range a.ref.numElems).map (fun (i : Nat) => (a.ownBase.add (i : Int), (⟨s.next, 0⟩ : Ptr).add (i : Int)))) hs
    (fun s1 => by
      rw [Code.overwrites_bind, MArr.copyNElemsC_eq]
      show _ ++ _ = _
      rw [show (MArr.spaceAt s.next a.ref a.alloc).ownBase = ⟨s.next, 0⟩ from rfl]
      generalize (Code.ofProg (copyCode (List.map (fun (i : Nat) => (a.ownBase.add (i : Int), (⟨s.next, 0⟩ : Ptr).add (i : Int))) (List.range a.ref.numElems)) : Prog T Unit)) = y
      cases y.exec s1 <;> exact List.append_nil _)
    (fun r hr => by
      rw [List.mem_map] at hr
      obtain ⟨i, hi, rfl⟩ := hr
      rw [List.mem_range, hlen] at hi
      exact ⟨vs[i], by rw [hget]; exact List.getElem?_eq_getElem hi⟩)
    (fun r hr => by
      rw [List.mem_map] at hr
      obtain ⟨i, hi, rfl⟩ := hr
      rw [List.mem_range] at hi
      exact ⟨i, hi, by simp [Ptr.add]⟩)
    (by
      rw [List.map_map]
      refine List.Nodup.map ?_ List.nodup_range
      intro i j h
      simp only [Function.comp, Ptr.add, Ptr.mk.injEq, true_and] at h
      omega)
  have hx : (MArr.allocateSpaceC dflt a.ref a.alloc).elim (fun m => MArr.copyNElemsC a.ref.numElems a.ownBase m.ownBase >>= fun _ => pure m) .throw = MArr.mkCopyC dflt a := rfl
  simp only [hx] at this
  rw [← MArr.exec_mkCopyC]
  refine ⟨fun h => this.1 ?_, fun hsc h => this.2 hsc ?_⟩
  · intro r hr v hv
    rw [List.mem_map] at hr
    obtain ⟨i, hi, rfl⟩ := hr
    simp only at hv
    rw [hget] at hv
    exact h v (List.mem_of_getElem? hv)
  · obtain ⟨v, hv, hb⟩ := h
    obtain ⟨i, hi, he⟩ := List.getElem_of_mem hv
    refine ⟨_, List.mem_map.mpr ⟨i, List.mem_range.mpr (by rw [hlen]; exact hi), rfl⟩, v, ?_, hb⟩
    simp only
    rw [hget, List.getElem?_eq_getElem hi, he]

/-- The converting constructors as allocation followed by element copies. -/
private theorem convert_code (dbg : Bool) (dflt : T) {n : Nat} (hn : 0 < n) {src : Desc} (hw : WellShaped src) (hlen : src.extents.length = n) {so : StorageOrder} (hv : ValidOrder n so) (al : Nat) :
    ∃ ref, Reachable n ref ∧ ref.extents = src.extents ∧ ref.numElems = src.extents.prod ∧ ∃ B : MArr → Code T Unit,
      (∀ b, B (MArr.spaceAt b ref al) = Code.ofProg (copyCode (copyPairs src (MArr.spaceAt b ref al).ref.desc))) ∧
      MArr.mkConvertC dbg dflt src so al = (MArr.allocateSpaceC dflt ref al >>= fun m => B m >>= fun _ => pure m) := by
  have hbl : src.bases.length = n := by rw [hw.2, hlen]
  obtain ⟨ref, hinit⟩ := ARef.init_succeeds Ptr.null src.bases (so := so) (es := src.extents) (n := n) hv (by omega)
  have href : ARef.ofShape n Ptr.null so (some src.bases) (some src.extents) = .ok ref := by
    unfold ARef.ofShape
    simp only [copyN_self hbl, Res.bind_ok]
    exact hinit
  obtain ⟨hwf, _, r2, r3, r4, _⟩ := ARef.init_ok hinit hv hbl
  rw [List.take_of_length_le (by omega)] at r4
  have hreach : Reachable n ref := .ofShape hv href
  have hnum : ref.numElems = src.extents.prod := by rw [hwf.num_eq, product_eq, r4]
  refine ⟨ref, hreach, r4, hnum, (fun m => (do
        let first ← Code.lift src.begin
        let last ← Code.lift src.end
        let out ← Code.lift m.ref.desc.begin
        Code.ofProg (stdCopyP (fun i o => do
            let s ← Prog.lift (i.deref dbg)
            let d ← Prog.lift (o.deref dbg)
            assignP dbg (src.extents.length - 1) d s)
          (last.sub first).toNat first out) : Code T Unit)), ?_, ?_⟩
  · intro b
    have hmw : WellShaped (MArr.spaceAt b ref al).ref.desc := (hreach.setBase ⟨b, 0⟩).wf.wellShaped
    have hext : src.extents = (MArr.spaceAt b ref al).ref.desc.extents := r4.symm
    rw [← assignP_eq dbg _ _ hmw hw hext, ← hext]
    dsimp only
    generalize (MArr.spaceAt b ref al).ref.desc = dst at hmw hext
    obtain ⟨p, es, ss, bs⟩ := src
    obtain ⟨p', es', ss', bs'⟩ := dst
    simp only at hext hlen
    subst hext
    match es, ss, bs, ss', bs', (show es.length ≠ 0 by omega), hw, hmw with
    | [], _, _, _, _, h, _, _ => exact absurd rfl h
    | e :: es, s :: ss, b :: bs, s' :: ss', b' :: bs', _, _, _ =>
      simp only [List.length_cons, assignP, begin_cons, end_cons, decide_true, Res.assert_true, Prog.lift_ok, pure_bind, Nat.add_sub_cancel]
      rfl
  · simp only [MArr.mkConvertC, hlen, href]
    show (MArr.allocateSpaceC dflt ref al >>= fun m => _) = _
    congr 1
    funext m
    simp only [Code.bind_assoc]

/-- The addresses of the elements of a freshly allocated array. -/
private theorem fresh_address {n : Nat} {ref : ARef} (hr : Reachable n ref) (b al : Nat) {k : List Nat} (hk : InShape ref.extents k) :
    ∃ j : Nat, j < ref.numElems ∧ address (MArr.spaceAt b ref al).ref.desc (atPos (MArr.spaceAt b ref al).ref.desc.bases k) = ⟨b, (j : Int)⟩ := by
  have hr' := hr.setBase ⟨b, 0⟩
  obtain ⟨j, hj, he⟩ := Handle.array.address_in_block hr'.wf (inBox_atPos hr'.wf.wellShaped.2 (show InShape _ k from hk))
  refine ⟨j, hj, he.trans ?_⟩
  simp [ARef.data, Ptr.add]

/-- Positions of a handle have distinct addresses. -/
private theorem dst_nodup {n : Nat} {root : ARef} (hr : Reachable n root) {d : Desc} (hd : Handle root d) (g : List Nat → Ptr) :
    (((allPos d.extents).map (fun k => (g k, address d (atPos d.bases k)))).map Prod.snd).Nodup := by
  have := addrs_nodup hr.wf hd
  rw [addrs_eq_map _ (handle_wellShaped hr hd)] at this
  rw [List.map_map]
  exact this

/-- **C95.** Converting construction (any storage order) from an array, subarray or view: likewise, for every element of the source. -/
theorem C95_convert (ok : T → T → Bool) (dbg : Bool) (dflt : T) {n : Nat} (hn : 0 < n) {s : St T} (hs : SaneHeap s) {src : Desc} (hsrc : Readable s n src)
    {so : StorageOrder} (hv : ValidOrder n so) (al : Nat) :
    ((∀ k v, InShape src.extents k → elemAt s src k = some v → ok dflt v = true) → (MArr.mkConvertC dbg dflt src so al).execG ok s = MArr.mkConvert dbg dflt src so al s) ∧
    (s.sched = [] → (∃ k v, InShape src.extents k ∧ elemAt s src k = some v ∧ ok dflt v = false) → ∃ s', (MArr.mkConvertC dbg dflt src so al).execG ok s = .assertFail s') := by
  obtain ⟨m, root, hr, hh, hl, hlen⟩ := hsrc
  have hw := handle_wellShaped hr hh
  obtain ⟨ref, hreach, hext, hnum, B, hB, hx⟩ := convert_code dbg dflt hn hw hlen hv al
  have hmw : WellShaped (MArr.spaceAt s.next ref al).ref.desc := (hreach.setBase ⟨s.next, 0⟩).wf.wellShaped
  have hpairs := copyPairs_eq_map src (MArr.spaceAt s.next ref al).ref.desc hw hmw hext.symm
  have hde : (MArr.spaceAt s.next ref al).ref.desc.extents = src.extents := hext
  rw [← MArr.exec_mkConvertC, hx]
  have := fresh_guarded ok dflt ref al (fun m => B m >>= fun _ => pure m) .throw trivial (copyPairs src (MArr.spaceAt s.next ref al).ref.desc) hs
    (fun s1 => by
      rw [Code.overwrites_bind, hB]
      generalize (Code.ofProg (copyCode (copyPairs src (MArr.spaceAt s.next ref al).ref.desc) : Prog T Unit)) = y
      cases y.exec s1 <;> exact List.append_nil _)
    (fun r hr' => by
      rw [hpairs, List.mem_map] at hr'
      obtain ⟨k, hk, rfl⟩ := hr'
      rw [mem_allPos, hde] at hk
      exact Live.handle hr.wf hl hh (inBox_atPos hw.2 hk))
    (fun r hr' => by
      rw [hpairs, List.mem_map] at hr'
      obtain ⟨k, hk, rfl⟩ := hr'
      rw [mem_allPos, hde, ← hext] at hk
      exact fresh_address hreach s.next al hk)
    (by rw [hpairs]; exact dst_nodup (hreach.setBase ⟨s.next, 0⟩) .array _)
  refine ⟨fun h => this.1 ?_, fun hsc h => this.2 hsc ?_⟩
  · intro r hr' v hv
    rw [hpairs, List.mem_map] at hr'
    obtain ⟨k, hk, rfl⟩ := hr'
    rw [mem_allPos, hde] at hk
    exact h k v hk hv
  · obtain ⟨k, v, hk, hv, hb⟩ := h
    refine ⟨(address src (atPos src.bases k), address (MArr.spaceAt s.next ref al).ref.desc (atPos (MArr.spaceAt s.next ref al).ref.desc.bases k)), ?_, v, hv, hb⟩
    rw [hpairs, List.mem_map]
    exact ⟨k, by rw [mem_allPos, hde]; exact hk, rfl⟩

/-! ### Resize -/

/-- **C95.** `resize` assigns each retained element (each element of the old array that lies in both shapes, by position) over a value-initialised one: it behaves as for any other element type if
that is allowed for every retained element; otherwise the assertion of the element type fails. -/
theorem C95_resize (ok : T → T → Bool) (dbg : Bool) (dflt : T) {n : Nat} {s : St T} {a : MArr} {vs : List T} (ha : OwnsVals s n a vs) (hs : SaneHeap s)
    (hra : Representable a.ref.bases a.ref.extents) {rs : List ExtentRange} (hl : rs.length = n) (hleg : LegalExtents rs) :
    ((∀ k v, InShape (reqExtents rs) k → InShape a.ref.extents k → elemAt s a.ref.desc k = some v → ok dflt v = true) →
      (MArr.resizeC dbg dflt ⟨n, rs⟩ a).execG ok s = (MArr.resizeC dbg dflt ⟨n, rs⟩ a).exec s) ∧
    (s.sched = [] → (∃ k v, InShape (reqExtents rs) k ∧ InShape a.ref.extents k ∧ elemAt s a.ref.desc k = some v ∧ ok dflt v = false) →
      ∃ s', (MArr.resizeC dbg dflt ⟨n, rs⟩ a).execG ok s = .assertFail s') := by
  obtain ⟨ref, href, hreach, _, _, hbs, hes⟩ := ofExtentGen_ok Ptr.null ⟨n, rs⟩ rfl hl ha.reach.wf.order
  have hes : ref.extents = reqExtents rs := by rw [hes]; exact legalExtents_size hleg
  have hbs : ref.bases = reqBases rs := hbs
  have hrr : Representable ref.bases ref.extents := by rw [hes, hbs]; exact legalExtents_rep hleg
  have hlen : ref.extents.length = a.ref.extents.length := by rw [ha.reach.wf.ext_len, hreach.wf.ext_len]
  have hin : ∀ k, InShape (List.zipWith Nat.min ref.extents a.ref.extents) k ↔ InShape (reqExtents rs) k ∧ InShape a.ref.extents k := by
    intro k
    rw [← hes]
    exact inShape_zipMin _ _ k hlen
  let b := MArr.spaceAt s.next ref a.alloc
  obtain ⟨l, hl1, hl2⟩ := MArr.resizeFillC_eq (T := T) dbg (a := a) (m := b) ha.reach.wf.wellShaped (hreach.setBase ⟨s.next, 0⟩).wf.wellShaped hlen hra hrr
  have hl3 : l = (positions (List.zipWith Nat.min ref.extents a.ref.extents)).map
      (fun k => (address a.ref.desc (atPos a.ref.desc.bases k), address b.ref.desc (atPos b.ref.desc.bases k))) := by
    apply pairLog_inj
    rw [hl2, pairLog, List.flatMap_map]; rfl
  have hmk : (MArr.mkExtentGenC dflt ⟨n, rs⟩ a.ref.storage a.alloc : Code T MArr) = MArr.allocateSpaceC dflt ref a.alloc := by
    unfold MArr.mkExtentGenC; rw [href]; rfl
  have hno : ∀ (r : Option Unit) (m : MArr), Code.NoStores ((match r with
        | none => pure (none, a)
        | some _ => Code.attempt (MArr.deallocateSpaceC (MArr.swapAll a m).2) >>= fun r3 => pure (r3, (MArr.swapAll a m).1)) : Code T (Option Unit × MArr)) := by
    intro r m
    cases r with
    | none => trivial
    | some _ => exact Code.NoStores.bind (Code.NoStores.attempt (noStores_deallocateSpaceC _)) (fun _ => trivial)
  have e : MArr.resizeC dbg dflt ⟨n, rs⟩ a = (MArr.allocateSpaceC dflt ref a.alloc).elim (fun newArr => Code.attempt (Code.onThrow (MArr.resizeFillC dbg a newArr) (MArr.deallocateSpaceC newArr)) >>= fun r2 =>
        match r2 with
        | none => pure (none, a)
        | some _ => Code.attempt (MArr.deallocateSpaceC (MArr.swapAll a newArr).2) >>= fun r3 => pure (r3, (MArr.swapAll a newArr).1)) (pure (none, a)) := by
    unfold MArr.resizeC
    rw [hmk, Code.attempt_bind]
    rfl
  rw [e]
  have := fresh_guarded ok dflt ref a.alloc (fun newArr => Code.attempt (Code.onThrow (MArr.resizeFillC dbg a newArr) (MArr.deallocateSpaceC newArr)) >>= fun r2 =>
        match r2 with
        | none => pure (none, a)
        | some _ => Code.attempt (MArr.deallocateSpaceC (MArr.swapAll a newArr).2) >>= fun r3 => pure (r3, (MArr.swapAll a newArr).1)) (pure (none, a)) trivial l hs
    (fun s1 => by
      rw [Code.attempt_bind]
      rw [Code.overwrites_elim_none _ (fun u => hno (some u) _) (hno none (MArr.spaceAt s.next ref a.alloc))]
      unfold Code.onThrow
      rw [Code.overwrites_elim_none (f := Code.ret) _ (fun _ => trivial) (Code.NoStores.elim (f := fun _ => Code.throw) (h := Code.throw) (noStores_deallocateSpaceC _) (fun _ => trivial) trivial)]
      rw [hl1])
    (fun r hr => by
      rw [hl3, List.mem_map] at hr
      obtain ⟨k, hk, rfl⟩ := hr
      rw [positions_eq, mem_allPos, hin] at hk
      exact Live.handle ha.reach.wf ha.live .array (inBox_atPos ha.reach.wf.wellShaped.2 hk.2))
    (fun r hr => by
      rw [hl3, List.mem_map] at hr
      obtain ⟨k, hk, rfl⟩ := hr
      rw [positions_eq, mem_allPos, hin] at hk
      exact fresh_address hreach s.next a.alloc (by rw [hes]; exact hk.1))
    (by
      rw [hl3, List.map_map]
      have hnd := dst_nodup (hreach.setBase ⟨s.next, 0⟩) .array (fun _ => Ptr.null)
      rw [List.map_map] at hnd
      refine List.Nodup.map_on ?_ (positions_nodup _)
      intro k hk k' hk' he
      rw [positions_eq, mem_allPos, hin] at hk hk'
      exact List.inj_on_of_nodup_map hnd (by rw [mem_allPos]; show InShape ref.extents k; rw [hes]; exact hk.1)
        (by rw [mem_allPos]; show InShape ref.extents k'; rw [hes]; exact hk'.1) he)
  refine ⟨fun h => this.1 ?_, fun hsc h => this.2 hsc ?_⟩
  · intro r hr v hv
    rw [hl3, List.mem_map] at hr
    obtain ⟨k, hk, rfl⟩ := hr
    rw [positions_eq, mem_allPos, hin] at hk
    exact h k v hk.1 hk.2 hv
  · obtain ⟨k, v, hk, hk', hv, hb⟩ := h
    refine ⟨(address a.ref.desc (atPos a.ref.desc.bases k), address b.ref.desc (atPos b.ref.desc.bases k)), ?_, v, hv, hb⟩
    rw [hl3, List.mem_map]
    exact ⟨k, by rw [positions_eq, mem_allPos, hin]; exact ⟨hk, hk'⟩, rfl⟩

/-! ### Assignment -/

/-- **C95.** Assignment between arrays, subarrays and views of the same shape that share no element, and `copy_array`: as for any other element type if at every position the element may be assigned
to; otherwise the assertion of the element type fails. -/
theorem C95_assignment (ok : T → T → Bool) (dbg : Bool) {n1 n2 : Nat} {r1 r2 : ARef} (h1 : Reachable n1 r1) (h2 : Reachable n2 r2) {dst src : Desc} (hd : Handle r1 dst) (hs : Handle r2 src)
    (he : src.extents = dst.extents) (hno : NoOverlap src dst) (s : St T) (l1 : Live s r1) (l2 : Live s r2) :
    ((∀ k u v, InShape dst.extents k → elemAt s dst k = some u → elemAt s src k = some v → ok u v = true) →
      (Code.ofProg (assignP dbg dst.extents.length dst src)).execG ok s = assignRef dbg dst.extents.length dst src s ∧ (Code.ofProg (copyArrayP dbg src dst)).execG ok s = copyArray dbg src dst s) ∧
    (s.sched = [] → (∃ k u v, InShape dst.extents k ∧ elemAt s dst k = some u ∧ elemAt s src k = some v ∧ ok u v = false) →
      (∃ s', (Code.ofProg (assignP dbg dst.extents.length dst src)).execG ok s = .assertFail s') ∧ ∃ s', (Code.ofProg (copyArrayP dbg src dst)).execG ok s = .assertFail s') := by
  have hwd := handle_wellShaped h1 hd
  have hws := handle_wellShaped h2 hs
  have hp := copyPairs_eq_map src dst hws hwd he
  obtain ⟨g1, g2⟩ := copyCode_guarded ok (copyPairs src dst) s
    (fun r hr => by
      rw [hp, List.mem_map] at hr
      obtain ⟨k, hk, rfl⟩ := hr
      rw [mem_allPos, ← he] at hk
      exact Live.handle h2.wf l2 hs (inBox_atPos hws.2 hk))
    (fun r hr => by
      rw [hp, List.mem_map] at hr
      obtain ⟨k, hk, rfl⟩ := hr
      rw [mem_allPos] at hk
      exact Live.handle h1.wf l1 hd (inBox_atPos hwd.2 hk))
    (by rw [hp]; exact dst_nodup h1 hd _)
    (fun r hr r' hr' => by
      rw [hp, List.mem_map] at hr hr'
      obtain ⟨k, hk, rfl⟩ := hr
      obtain ⟨k', hk', rfl⟩ := hr'
      rw [mem_allPos] at hk hk'
      exact hno _ _ (inBox_atPos hws.2 (by rw [he]; exact hk)) (inBox_atPos hwd.2 hk'))
  rw [← exec_assignP, ← exec_copyArrayP, ← Code.exec_ofProg, ← Code.exec_ofProg, assignP_eq dbg _ _ hwd hws he, copyArrayP_eq dbg _ _ hwd hws he]
  refine ⟨fun h => ?_, fun hsc h => ?_⟩
  · have := Code.execG_ok ok (Code.ofProg (copyCode (copyPairs src dst))) s (g1 (fun r hr u v hu hv => by
      rw [hp, List.mem_map] at hr
      obtain ⟨k, hk, rfl⟩ := hr
      rw [mem_allPos] at hk
      exact h k u v hk hu hv))
    exact ⟨this, this⟩
  · obtain ⟨k, u, v, hk, hu, hv, hb⟩ := h
    have := Code.execG_bad ok (Code.ofProg (copyCode (copyPairs src dst))) s (g2 hsc ⟨(address src (atPos src.bases k), address dst (atPos dst.bases k)), by
      rw [hp, List.mem_map]; exact ⟨k, by rw [mem_allPos]; exact hk, rfl⟩, u, v, hu, hv, hb⟩)
    exact ⟨this, this⟩

/-- **C95.** `assign(first, last)`: likewise for every element that is filled. -/
theorem C95_assign_range (ok : T → T → Bool) {n : Nat} {a : ARef} (_ha : Reachable n a) (input : List T) (s : St T) (hl : Live s a) :
    ((∀ (k : Nat) u v, k < a.numElements → s.get? (a.data.add (k : Int)) = some u → input[k]? = some v → ok u v = true) →
      (Code.ofProg (assignLoopP a.numElems a.base input)).execG ok s = a.assign input s) ∧
    (s.sched = [] → (∃ (k : Nat) (u v : T), k < a.numElements ∧ s.get? (a.data.add (k : Int)) = some u ∧ input[k]? = some v ∧ ok u v = false) →
      ∃ s', (Code.ofProg (assignLoopP a.numElems a.base input)).execG ok s = .assertFail s') := by
  have := assignLoop_guarded ok a.numElems a.base input 0 s (fun j _ hj => hl j (by show j < a.numElems; simpa using hj))
  simp only [Nat.zero_add, Nat.cast_zero, Ptr.add_zero] at this
  have hx : (Code.ofProg (assignLoopP a.numElems a.base input)).exec s = a.assign input s := by
    rw [Code.exec_ofProg, exec_assignLoopP]; rfl
  rw [← hx]
  exact ⟨fun h => Code.execG_ok ok _ s (this.1 h), fun hsc h => Code.execG_bad ok _ s (this.2 hsc h)⟩

/-! ### Arrays of arrays -/

/-- **C95.** Copying an array of arrays (of `m` dimensions each) succeeds exactly if every inner array is of the default shape: in particular an array with at least one inner array that has been given a
nonzero extent cannot be copied - the copy constructor assigns the inner arrays over default-constructed ones, and that asserts equal shapes. -/
theorem C95_copy_arrays_of_arrays {X : Type} (m : Nat) {n : Nat} {s : St (Inner X)} {a : MArr} {vs : List (Inner X)} (ha : OwnsVals s n a vs) (hs : SaneHeap s) (hsched : s.sched = []) :
    (∃ c s', (MArr.mkCopyC (Inner.empty m) a).execG Inner.assignable s = .ok c s') ↔ ∀ v ∈ vs, v.shape = List.replicate m 0 := by
  obtain ⟨g1, g2⟩ := C95_copy_constructor Inner.assignable (Inner.empty m) ha hs
  constructor
  · rintro ⟨c, s', h⟩ v hv
    by_contra hne
    obtain ⟨s'', h'⟩ := g2 hsched ⟨v, hv, decide_eq_false hne⟩
    rw [h] at h'; cases h'
  · intro h
    have : Nonempty (Inner X) := ⟨Inner.empty m⟩
    obtain ⟨c, s', hc, _⟩ := C34_copy_equal (Inner.empty m) ha hs hsched
    exact ⟨c, s', by rw [g1 (fun v hv => decide_eq_true (h v hv)), hc]⟩

/-- **C95.** Assigning an array of arrays to another one of the same shape succeeds exactly if the inner arrays have the same shapes, position by position. -/
theorem C95_assign_arrays_of_arrays {X : Type} (dbg : Bool) {n : Nat} {s : St (Inner X)} {a b : MArr} {vs ws : List (Inner X)} (ha : OwnsVals s n a vs) (hb : OwnsVals s n b ws)
    (hne : a.ref.data.blk ≠ b.ref.data.blk) (he : b.ref.extents = a.ref.extents) (hsched : s.sched = []) :
    (∃ s', (MArr.assignFromC dbg false a b).execG Inner.assignable s = .ok () s') ↔
      ∀ k u v, InShape a.ref.extents k → elemAt s a.ref.desc k = some u → elemAt s b.ref.desc k = some v → v.shape = u.shape := by
  have hno : NoOverlap b.ref.desc a.ref.desc := by
    intro i j hi hj hadr
    obtain ⟨x, _, hx⟩ := Handle.array.address_in_block hb.reach.wf hi
    obtain ⟨y, _, hy⟩ := Handle.array.address_in_block ha.reach.wf hj
    rw [hx, hy] at hadr
    exact hne (congrArg Ptr.blk hadr).symm
  obtain ⟨g1, g2⟩ := C95_assignment (Inner.assignable (X := X)) dbg ha.reach hb.reach .array .array he hno s ha.live hb.live
  have hx : (MArr.assignFromC dbg false a b : Code (Inner X) Unit) = Code.ofProg (assignP dbg a.ref.desc.extents.length a.ref.desc b.ref.desc) := rfl
  rw [hx]
  constructor
  · rintro ⟨s', h⟩ k u v hk hu hv
    by_contra hne
    obtain ⟨⟨s'', h'⟩, _⟩ := g2 hsched ⟨k, u, v, hk, hu, hv, decide_eq_false hne⟩
    rw [h] at h'; cases h'
  · intro h
    rw [(g1 (fun k u v hk hu hv => decide_eq_true (h k u v hk hu hv))).1]
    have : Nonempty (Inner X) := ⟨Inner.empty 0⟩
    obtain ⟨s', hs', _⟩ := C30_multi_array_assignment ⟨_, ha⟩ ⟨_, hb⟩ hne he hsched dbg
    exact ⟨s', hs'⟩

/-! ### Concrete cases -/

/-- A memory with an array of two inner vectors, of sizes `i` and `j`, and one of two inner vectors of size 1. -/
private def nestSt (i j : Nat) : St (Inner Nat) :=
  ⟨fun b => if b = 1 then some ⟨0, [.obj ⟨[i], List.replicate i 7⟩, .obj ⟨[j], List.replicate j 8⟩]⟩
    else if b = 2 then some ⟨0, [.obj ⟨[1], [5]⟩, .obj ⟨[1], [6]⟩]⟩ else none, 3, []⟩

private def nestB : MArr := ⟨⟨⟨2, 0⟩, ⟨[0], [true]⟩, [2], [1], [3], -3, 0, 2⟩, ⟨2, 0⟩, 2, 0⟩

private theorem nestA_owns (i j : Nat) : OwnsVals (nestSt i j) 1 smallM [⟨[i], List.replicate i 7⟩, ⟨[j], List.replicate j 8⟩] :=
  ⟨(smallM_owns []).reach, rfl, by decide, rfl, rfl, rfl, rfl⟩

private theorem nestB_owns (i j : Nat) : OwnsVals (nestSt i j) 1 nestB [⟨[1], [5]⟩, ⟨[1], [6]⟩] :=
  ⟨(smallM_owns []).reach.setBase ⟨2, 0⟩, rfl, by decide, rfl, rfl, rfl, rfl⟩

private theorem nest_sane (i j : Nat) : SaneHeap (nestSt i j) :=
  ⟨(by decide : 0 < 3), fun b hb => by
    have hb : 3 ≤ b := hb
    show (if b = 1 then _ else if b = 2 then _ else none) = _
    rw [if_neg (by omega), if_neg (by omega)]⟩

/-- Two empty inner vectors can be copied; as soon as one of them has an element, the copy constructor asserts. -/
example : (∃ c s', (MArr.mkCopyC (Inner.empty 1) smallM).execG Inner.assignable (nestSt 0 0) = .ok c s') ∧
    ¬ ∃ c s', (MArr.mkCopyC (Inner.empty 1) smallM).execG Inner.assignable (nestSt 0 1) = .ok c s' := by
  rw [C95_copy_arrays_of_arrays 1 (nestA_owns 0 0) (nest_sane 0 0) rfl, C95_copy_arrays_of_arrays 1 (nestA_owns 0 1) (nest_sane 0 1) rfl]
  decide

/-- Resizing an array of inner vectors of sizes 0 and 1: to one element it works (the nonempty inner vector is not retained), to three elements it asserts. -/
example : (MArr.resizeC true (Inner.empty 1) ⟨1, [⟨0, 1⟩]⟩ smallM).execG Inner.assignable (nestSt 0 1) = (MArr.resizeC true (Inner.empty 1) ⟨1, [⟨0, 1⟩]⟩ smallM).exec (nestSt 0 1) ∧
    ∃ s', (MArr.resizeC true (Inner.empty 1) ⟨1, [⟨0, 3⟩]⟩ smallM).execG Inner.assignable (nestSt 0 1) = .assertFail s' := by
  constructor
  · refine (C95_resize Inner.assignable true (Inner.empty 1) (nestA_owns 0 1) (nest_sane 0 1) (by decide : Representable [3] [2]) rfl (by decide)).1 ?_
    intro k v hk _ hv
    match k, hk with
    | [0], _ => cases hv; decide
  · exact (C95_resize Inner.assignable true (Inner.empty 1) (nestA_owns 0 1) (nest_sane 0 1) (by decide : Representable [3] [2]) rfl (by decide)).2 rfl
      ⟨[1], ⟨[1], [8]⟩, by decide, by decide, by decide +kernel, by decide⟩

/-- Assigning an array of inner vectors of size 1 to one with the same inner sizes, and to one with other inner sizes. -/
example : (∃ s', (MArr.assignFromC true false smallM nestB).execG Inner.assignable (nestSt 1 1) = .ok () s') ∧
    ¬ ∃ s', (MArr.assignFromC true false smallM nestB).execG Inner.assignable (nestSt 1 2) = .ok () s' := by
  constructor
  · rw [C95_assign_arrays_of_arrays true (nestA_owns 1 1) (nestB_owns 1 1) (by decide) rfl rfl]
    intro k u v hk hu hv
    match k, hk with
    | [0], _ => cases hu; cases hv; rfl
    | [1], _ => cases hu; cases hv; rfl
  · rw [C95_assign_arrays_of_arrays true (nestA_owns 1 2) (nestB_owns 1 2) (by decide) rfl rfl]
    intro h
    have := h [1] ⟨[2], [8, 8]⟩ ⟨[1], [6]⟩ (by decide) (by decide +kernel) (by decide +kernel)
    exact absurd this (by decide)

/-- Converting construction and `assign(first, last)`. -/
example : (∃ s', (MArr.mkConvertC true (Inner.empty 1) smallM.ref.desc (StorageOrder.fortranOrder 1) 0).execG Inner.assignable (nestSt 0 1) = .assertFail s') ∧
    (∃ s', (Code.ofProg (assignLoopP smallM.ref.numElems smallM.ref.base [⟨[0], []⟩, ⟨[2], [1, 1]⟩])).execG Inner.assignable (nestSt 0 1) = .assertFail s') ∧
    (Code.ofProg (assignLoopP smallM.ref.numElems smallM.ref.base [⟨[0], []⟩])).execG Inner.assignable (nestSt 0 1) = smallM.ref.assign [⟨[0], []⟩] (nestSt 0 1) := by
  refine ⟨(C95_convert Inner.assignable true (Inner.empty 1) Nat.one_pos (nest_sane 0 1) (owns_readable (nestA_owns 0 1)) (fortranOrder_valid 1) 0).2 rfl
    ⟨[1], ⟨[1], [8]⟩, by decide, by decide +kernel, by decide⟩,
    (C95_assign_range Inner.assignable (nestA_owns 0 1).reach [⟨[0], []⟩, ⟨[2], [1, 1]⟩] _ (nestA_owns 0 1).live).2 rfl
      ⟨1, ⟨[1], [8]⟩, ⟨[2], [1, 1]⟩, by decide, by decide +kernel, rfl, by decide⟩,
    (C95_assign_range Inner.assignable (nestA_owns 0 1).reach [⟨[0], []⟩] _ (nestA_owns 0 1).live).1 ?_⟩
  intro k u v hk hu hv
  match k, hv with
  | 0, hv => cases hu; cases hv; rfl

end MultiArray.Props
