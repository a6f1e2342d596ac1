import Verif.Lemmas.Work
import Verif.Props.Resize
import Verif.Props.Assign

/- Property theorems C81: the exact number of allocations, element constructions and element assignments of every operation. -/
set_option autoImplicit false

namespace MultiArray.Props
open MultiArray MultiArray.Spec
variable {T α : Type}

/-- **C81.** What `Performs` says about completion: the operation completes if and only if none of its `k` operations throws. -/
theorem C81_completes_iff {k : Nat} {s : St T} {o : Out T α} (h : Performs k s o) :
    ((∃ a s', o = .ok a s') ↔ ∀ i, i < k → ¬ ThrowsAt s i) ∧ ((∃ s', o = .throw s') ↔ ∃ i, i < k ∧ ThrowsAt s i) := by
  cases o with
  | ok a s' =>
    refine ⟨⟨fun _ => h.1, fun _ => ⟨a, s', rfl⟩⟩, ⟨(by rintro ⟨s', h⟩; cases h), ?_⟩⟩
    rintro ⟨i, hi, ht⟩
    exact absurd ht (h.1 i hi)
  | throw s' =>
    obtain ⟨j, h1, h2, h3, h4⟩ := h
    exact ⟨⟨(by rintro ⟨a, s', h⟩; cases h), fun h => absurd h3 (h j h1)⟩, ⟨fun _ => ⟨j, h1, h3⟩, fun _ => ⟨s', rfl⟩⟩⟩
  | assertFail s' => exact h.elim
  | ub => exact h.elim

/-- Live addresses stay live and assignments to them complete or throw. -/
private theorem assign_any {s : St T} {p : Ptr} (h : ∃ v, s.get? p = some v) (v : T) :
    ∃ s', (assignCell p v s = .ok () s' ∨ assignCell p v s = .throw s') ∧ ∀ q, (∃ u, s.get? q = some u) → ∃ u, s'.get? q = some u := by
  obtain ⟨old, ho⟩ := h
  have live : ∀ (s' : St T) (u : T), (∀ q, s'.cell? q = if q = p then some (.obj u) else s.cell? q) →
      ∀ q, (∃ u, s.get? q = some u) → ∃ u, s'.get? q = some u := by
    rintro s' u h q ⟨x, hx⟩
    by_cases hq : q = p
    · exact ⟨u, by rw [St.get?_eq_some, h, if_pos hq]⟩
    · exact ⟨x, by rw [St.get?_eq_some, h, if_neg hq]; exact St.get?_eq_some.mp hx⟩
  rcases hs : s.sched with _ | ⟨_ | junk, fs⟩
  · obtain ⟨s', h1, h2, _⟩ := assignCell_ok ho v (.inl hs)
    exact ⟨s', .inl h1, live s' _ h2⟩
  · obtain ⟨s', h1, h2, _⟩ := assignCell_ok ho v (.inr ⟨fs, hs⟩)
    exact ⟨s', .inl h1, live s' _ h2⟩
  · obtain ⟨s', h1, h2, _⟩ := assignCell_throw ho v junk hs
    exact ⟨s', .inr h1, live s' _ h2⟩

private theorem flatForEach_any {σ : Type} (f : σ → T → T × σ) (d : Desc) (ks : List (List Nat)) (q : σ) (s : St T)
    (hl : ∀ k ∈ ks, ∃ v, s.get? (posAddr d k) = some v) :
    (∃ q' s', flatForEach (fun q v => pure (f q v)) d ks q s = .ok q' s') ∨ ∃ s', flatForEach (fun q v => pure (f q v)) d ks q s = .throw s' := by
  induction ks generalizing q s with
  | nil => exact .inl ⟨q, s, rfl⟩
  | cons k ks ih =>
    obtain ⟨v, hv⟩ := hl k (by simp)
    obtain ⟨s', h1, h2⟩ := assign_any ⟨v, hv⟩ (f q v).1
    rcases h1 with h1 | h1
    · have := ih (f q v).2 s' (fun k' hk' => h2 _ (hl k' (by simp [hk'])))
      simp only [flatForEach]
      rw [Exec.bind_ok (load_ok hv), Exec.bind_ok (show (pure (f q v) : Exec T (T × σ)) s = .ok (f q v) s from rfl), Exec.bind_ok h1]
      exact this
    · right
      refine ⟨s', ?_⟩
      simp only [flatForEach]
      rw [Exec.bind_ok (load_ok hv), Exec.bind_ok (show (pure (f q v) : Exec T (T × σ)) s = .ok (f q v) s from rfl), Exec.bind_throw h1]

private theorem assignLoop_any (n : Nat) (p : Ptr) (input : List T) (s : St T) (hl : ∀ k : Nat, k < n → ∃ v, s.get? (p.add (k : Int)) = some v) :
    (∃ a s', assignLoop n p input s = .ok a s') ∨ ∃ s', assignLoop n p input s = .throw s' := by
  induction n generalizing p input s with
  | zero => exact .inl ⟨(), s, rfl⟩
  | succ n ih =>
    cases input with
    | nil => exact .inl ⟨(), s, rfl⟩
    | cons v vs =>
      have h0 := hl 0 (by omega)
      simp only [Nat.cast_zero, Ptr.add_zero] at h0
      obtain ⟨s', h1, h2⟩ := assign_any h0 v
      simp only [assignLoop]
      rcases h1 with h1 | h1
      · rw [Exec.bind_ok h1]
        refine ih (p.add 1) vs s' (fun k hk => h2 _ ?_)
        have := hl (k + 1) (by omega)
        rw [Ptr.add_add, show (1 : Int) + (k : Int) = ((k + 1 : Nat) : Int) by push_cast; ring]
        exact this
      · rw [Exec.bind_throw h1]
        exact .inr ⟨s', rfl⟩

/-- **C81.** Every constructor, with legal arguments: one allocation, one construction per element and, for the copy and the converting constructors, one
assignment per element - nothing else, and exactly one new block on completion. -/
theorem C81_construction (dbg : Bool) (dflt : T) {s : St T} (hs : SaneHeap s) (c : Ctor) (hc : c.Legal s) :
    Performs (1 + c.elements + c.copies) s (c.run dbg dflt s) ∧ ∀ m s', c.run dbg dflt s = .ok m s' → s'.next = s.next + 1 := by
  obtain ⟨s1, h1, _⟩ := ctor_any dbg dflt hs c hc
  have hdef : (∃ a s', c.run dbg dflt s = .ok a s') ∨ ∃ s', c.run dbg dflt s = .throw s' := by
    rcases h1 with ⟨m, h1, _⟩ | ⟨h1, _⟩
    · exact .inl ⟨m, s1, h1⟩
    · exact .inr ⟨s1, h1⟩
  refine ⟨Performs.of_takes ?_ hdef, ?_⟩
  · have plain : ∀ {n : Nat} {ref : ARef} (al k : Nat) (r : Res ARef), r = .ok ref → Reachable n ref → ref.extents.prod = k →
        Takes (1 + k + 0) (Exec.lift r >>= fun ref => MArr.allocateSpace dflt ref al : Exec T MArr) := by
      intro n ref al k r hr hreach hk
      refine Takes.liftBind fun ref' h' => ?_
      rw [hr] at h'; cases h'
      refine (Takes.allocateSpace dflt ref al).cast ?_
      rw [hreach.wf.num_eq, product_eq, hk]; rfl
    cases c with
    | default n al =>
      have hv : ValidOrder n (StorageOrder.cOrder n) := cOrder_valid n
      obtain ⟨ref, h⟩ := ARef.init_succeeds Ptr.null (List.replicate n 0) (so := StorageOrder.cOrder n)
        (es := List.replicate n 0) (n := n) hv (by simp)
      have h' : ARef.ofShape n Ptr.null (StorageOrder.cOrder n) none none = .ok ref := h
      obtain ⟨_, _, _, _, r4, _⟩ := ARef.init_ok h hv (by simp)
      exact plain al _ _ h' (.ofShape hv h') (by rw [r4, List.take_of_length_le (by simp)]; rfl) s
    | extents n es so al =>
      obtain ⟨hv, hl⟩ := hc
      obtain ⟨ref, h⟩ := ARef.init_succeeds Ptr.null (List.replicate n 0) (so := so) (es := es) (n := n) hv (by omega)
      obtain ⟨_, _, _, _, r4, _⟩ := ARef.init_ok h hv (by simp)
      exact plain al _ _ (show ARef.ofExtents n Ptr.null es so = .ok ref from h) (.ofExtents hv h) (by rw [r4]; rfl) s
    | gen n rs so al =>
      obtain ⟨hv, hl⟩ := hc
      obtain ⟨ref, h, hr, _, _, _, he⟩ := ofExtentGen_ok Ptr.null ⟨n, rs⟩ rfl hl hv
      exact plain al _ _ h hr (by rw [he]; rfl) s
    | copy n a =>
      obtain ⟨vs, ha⟩ := hc
      have hnum : a.ref.numElems = a.ref.extents.prod := by rw [ha.reach.wf.num_eq, product_eq]
      have h : Takes (1 + a.ref.numElems + (a.ref.numElems + 0)) (MArr.mkCopy dflt a) := Takes.bind (Takes.allocateSpace _ _ _) fun _ => Takes.bind (Takes.copyNElems _ _ _) fun _ => Takes.pure _
      exact (h.cast (by rw [hnum]; rfl)) s
    | convert n src so al =>
      obtain ⟨hn, hv, k, root, hr, hh, hl, hlen⟩ := hc
      have hw := handle_wellShaped hr hh
      have hbl : src.bases.length = src.extents.length := hw.2
      obtain ⟨ref, hinit⟩ := ARef.init_succeeds Ptr.null src.bases (so := so) (es := src.extents) (n := src.extents.length) (by rw [hlen]; exact hv) (by omega)
      have href : ARef.ofShape src.extents.length Ptr.null so (some src.bases) (some src.extents) = .ok ref := by
        unfold ARef.ofShape
        simp only [copyN_self hbl, Res.bind_ok]
        exact hinit
      obtain ⟨hwf, _, _, _, r4, _⟩ := ARef.init_ok hinit (by rw [hlen]; exact hv) hbl
      rw [List.take_of_length_le (by omega)] at r4
      have hnum : ref.numElems = src.extents.prod := by rw [hwf.num_eq, product_eq, r4]
      have h : Takes (1 + src.extents.prod + (src.extents.prod + 0)) (MArr.mkConvert dbg dflt src so al) := by
        refine Takes.liftBind fun ref' h' => ?_
        rw [href] at h'; cases h'
        refine Takes.bind ((Takes.allocateSpace dflt ref al).cast (by rw [hnum])) fun m => ?_
        exact Takes.liftBind fun x hx => Takes.liftBind fun y hy => Takes.liftBind fun o _ =>
          Takes.bind (Takes.convertLoop dbg src hx hy) fun _ => Takes.pure _
      exact h s
  · intro m s' h
    rcases h1 with ⟨m', h1, _, _, h4⟩ | ⟨h1, _⟩
    · rw [h1] at h; cases h; exact h4
    · rw [h1] at h; cases h

/-- **C81.** `resize`: one allocation, one construction per element of the new shape, one assignment per element that exists in both shapes; exactly one new block. -/
theorem C81_resize (dbg : Bool) (dflt : T) {n : Nat} {s : St T} {a : MArr} (ha : Owns s n a)
    (hs : SaneHeap s) (hra : Representable a.ref.bases a.ref.extents) {rs : List ExtentRange} (hl : rs.length = n) (hleg : LegalExtents rs) :
    Performs (1 + (reqExtents rs).prod + (List.zipWith min (reqExtents rs) a.ref.extents).prod) s (MArr.resize dbg dflt ⟨n, rs⟩ a s).1 ∧
      ∀ u s', (MArr.resize dbg dflt ⟨n, rs⟩ a s).1 = .ok u s' → s'.next = s.next + 1 := by
  obtain ⟨vs, ha⟩ := ha
  have ht := Takes.resize dbg dflt ha.reach hra ⟨n, rs⟩ rfl hl (by rw [legalExtents_start, legalExtents_size hleg]; exact legalExtents_rep hleg) s
  rw [legalExtents_size hleg] at ht
  obtain ⟨a', s', _, _, _, _, _, h6, _⟩ := resize_any dbg dflt ha hs hra hl hleg
  rcases h6 with ⟨h6, _, h7, _⟩ | ⟨h6, _⟩
  · refine ⟨Performs.of_takes ht (.inl ⟨(), s', by rw [h6]⟩), ?_⟩
    intro u s'' h
    rw [h6] at h; cases h; exact h7
  · refine ⟨Performs.of_takes ht (.inr ⟨s', by rw [h6]⟩), ?_⟩
    intro u s'' h
    rw [h6] at h; cases h

/-- **C81.** `dst = src` and `copy_array(src, dst)`, overlapping or not: one assignment per element; no allocation, no construction. -/
theorem C81_assignment {n1 n2 : Nat} {r1 r2 : ARef} (h1 : Reachable n1 r1) (h2 : Reachable n2 r2)
    {dst src : Desc} (hd : Handle r1 dst) (hs : Handle r2 src) (he : src.extents = dst.extents) (s : St T)
    (l1 : Live s r1) (l2 : Live s r2) (dbg : Bool) :
    Performs dst.extents.prod s (assignOp dbg false dst src s) ∧ Performs dst.extents.prod s (copyArray dbg src dst s) := by
  have key : Performs dst.extents.prod s (assignOp dbg false dst src s) := by
    obtain ⟨s', e, _⟩ := copy_any (copySetup h1 h2 hd hs he l1 l2)
    have heq : assignOp dbg false dst src s = copySeq (copyPairs src dst) s := by
      show assignRef dbg dst.extents.length dst src s = _
      rw [assignRef_eq dbg dst src (handle_wellShaped h1 hd) (handle_wellShaped h2 hs) he]
    have ht := Takes.assignRef (T := T) dbg dst.extents.length dst src s
    rw [he, List.take_length] at ht
    refine Performs.of_takes ht ?_
    rw [heq]
    rcases e with e | e
    · exact .inl ⟨(), s', e⟩
    · exact .inr ⟨s', e⟩
  exact ⟨key, by rw [C36_copy_array_eq_assignment h1 h2 hd hs he]; exact key⟩

/-- **C81.** `a.assign(first, last)`: one assignment per element stored, i.e. as many as the shorter of the input and the array has. -/
theorem C81_assign_range {n : Nat} {a : ARef} (_ha : Reachable n a) (input : List T) (s : St T) (hl : Live s a) :
    Performs (min a.numElements input.length) s (a.assign input s) :=
  Performs.of_takes (Takes.assignLoop _ _ _ s) (assignLoop_any _ _ _ s hl)

/-- **C81.** `for_each(a, f)` with a functor that does not itself allocate or assign: one assignment per element. -/
theorem C81_for_each {n : Nat} {root : ARef} (hr : Reachable n root) {d : Desc} (h : Handle root d) (dbg : Bool) {σ : Type}
    (f : σ → T → T × σ) (q : σ) (s : St T) (hl : Live s root) :
    Performs d.extents.prod s (forEachAcc dbg f d.extents.length d q s) := by
  have hw := handle_wellShaped hr h
  unfold forEachAcc
  rw [C64_for_each_is_flat_loop hr h]
  have hlen : (positions d.extents).length = d.extents.prod := by
    have := congrArg List.length (C64_positions d.extents).2
    simpa using this
  have ht := Takes.flatForEach (T := T) (f := fun q v => (pure (f q v) : Exec T (T × σ))) (m := 0) (fun q v => Takes.pure _) d (positions d.extents) q s
  rw [hlen, Nat.zero_add, Nat.mul_one] at ht
  refine Performs.of_takes ht (flatForEach_any f d _ q s ?_)
  intro k hk
  exact hl.handle hr.wf h (inBox_atPos hw.2 (((C64_positions d.extents).1 k).mp hk))

/-- **C81.** Element access: reading performs nothing that can throw; writing is one assignment; destruction performs nothing that can throw, and neither does
self-assignment. -/
theorem C81_element_access {n : Nat} {root : ARef} (hr : Reachable n root) {d : Desc} (h : Handle root d) (dbg : Bool) {idx : List Int}
    (hidx : InBox d.bases d.extents idx) (v : T) (s : St T) (hl : Live s root) :
    Performs 0 s (readElem dbg d idx s) ∧ Performs 1 s (writeElem dbg d idx v s) := by
  have hw := handle_wellShaped hr h
  obtain ⟨u, hu⟩ := hl.handle hr.wf h hidx
  have hacc : accessElement dbg idx d = .ok (address d idx) := accessElement_inBox dbg d idx hw.1 hidx
  have hread : Takes 0 (readElem dbg d idx : Exec T T) := Takes.liftBind fun _ _ => Takes.load _
  have hwrite : Takes 1 (writeElem dbg d idx v) := Takes.liftBind fun _ _ => Takes.assignCell _ _
  refine ⟨Performs.of_takes (hread s) (.inl ⟨u, s, ?_⟩), Performs.of_takes (hwrite s) ?_⟩
  · unfold readElem
    rw [hacc]
    exact load_ok hu
  · obtain ⟨s', h1, _⟩ := assign_any ⟨u, hu⟩ v
    have : writeElem dbg d idx v s = assignCell (address d idx) v s := by unfold writeElem; rw [hacc]; rfl
    rw [this]
    rcases h1 with h1 | h1
    · exact .inl ⟨(), s', h1⟩
    · exact .inr ⟨s', h1⟩

/-- **C81.** The destructor performs nothing that can throw. -/
theorem C81_destruction {n : Nat} {s : St T} {a : MArr} (ha : Owns s n a) : Performs 0 s (a.deallocateSpace s) := by
  obtain ⟨vs, ha⟩ := ha
  obtain ⟨s', h, _⟩ := ha.dealloc
  exact Performs.of_takes (Takes.deallocateSpace a s) (.inl ⟨(), s', h⟩)

/-- Non-vacuity: assigning the first two of three elements to the last two is two assignments - the schedule `[none, none, some 99]` loses exactly two entries and
the assignment completes; with `[none, some 99]` it throws. -/
example : (∃ (v1 v2 : View) (s' : St Nat), ovArr.slice true ⟨1, 1, [IndexRange.mk3 1 3]⟩ = .ok v1 ∧ ovArr.slice true ⟨1, 1, [IndexRange.mk3 0 2]⟩ = .ok v2 ∧
    assignOp true false v1.desc v2.desc { ovSt with sched := [none, none, some 99] } = .ok () s' ∧ s'.sched = [some 99]) ∧
    (∃ (v1 v2 : View) (s' : St Nat), ovArr.slice true ⟨1, 1, [IndexRange.mk3 1 3]⟩ = .ok v1 ∧ ovArr.slice true ⟨1, 1, [IndexRange.mk3 0 2]⟩ = .ok v2 ∧
    assignOp true false v1.desc v2.desc { ovSt with sched := [none, some 99] } = .throw s') :=
  ⟨⟨_, _, _, rfl, rfl, rfl, rfl⟩, ⟨_, _, _, rfl, rfl, rfl⟩⟩

/-- Non-vacuity of the constructor and `resize` claims: the 2x3x4 example can be copied and resized. -/
example : (Ctor.copy 3 exM).Legal exSt ∧ (Ctor.copy 3 exM).elements = 24 ∧ SaneHeap exSt ∧ Owns exSt 3 exM ∧ LegalExtents [⟨-1, 2⟩, ⟨0, 2⟩, ⟨5, 10⟩] ∧
    1 + (reqExtents [⟨-1, 2⟩, ⟨0, 2⟩, ⟨5, 10⟩]).prod + (List.zipWith min (reqExtents [⟨-1, 2⟩, ⟨0, 2⟩, ⟨5, 10⟩]) exM.ref.extents).prod = 47 :=
  ⟨⟨_, exM_owns⟩, by decide, exSt_sane, ⟨_, exM_owns⟩, by decide, by decide⟩

/-! ### Instances: the theorems applied to concrete cases, whose hypotheses are thereby met -/

example := C81_construction true 0 (smallSt_sane [none, none, some 9]) (.copy 1 smallM) ⟨_, smallM_owns _⟩
example := C81_resize true 0 ⟨_, smallM_owns [none, some 5]⟩ (smallSt_sane _) (by decide) (rs := [⟨0, 3⟩]) rfl (by decide)
example := C81_assignment exArr2_reachable exArr_reachable .array .array rfl { exSt2 with sched := [none, some 5] } exSt2_live2 exSt2_live true
example := C81_assign_range exArr_reachable [1, 2, 3] { exSt with sched := [none, some 5] } exSt_live
example := C81_for_each exArr_reachable .array true (fun (q x : Nat) => (x + q, q + 1)) 0 { exSt with sched := [none, some 5] } exSt_live
example := C81_element_access exArr_reachable .array true (idx := [0, 6, 2]) (by decide) 5 { exSt with sched := [some 5] } exSt_live
example := C81_completes_iff (C81_assign_range exArr_reachable [1, 2, 3] { exSt with sched := [none, some 5] } exSt_live)

/- end of instances -/

end MultiArray.Props
