import Verif.SpecAlloc
import Verif.Props.Hist

/-
Property theorem C66: allocators.  Every block records the allocator that provided it, and returning a block through another
allocator is an outcome `ub` of the memory model (Model/Memory.lean, `deallocate`); so "the program does not fail" says
that storage goes back where it came from.
-/
set_option autoImplicit false

namespace MultiArray.Props
open MultiArray MultiArray.Spec
variable {T α β : Type}

private theorem bind_ok_inv {x : Exec T α} {f : α → Exec T β} {s s' : St T} {b : β} (h : (x >>= f) s = .ok b s') :
    ∃ a s1, x s = .ok a s1 ∧ f a s1 = .ok b s' := by
  change Exec.bind x f s = _ at h
  unfold Exec.bind at h
  cases hx : x s with
  | ok a s1 => rw [hx] at h; exact ⟨a, s1, rfl, h⟩
  | throw _ => rw [hx] at h; cases h
  | assertFail _ => rw [hx] at h; cases h
  | ub => rw [hx] at h; cases h

private theorem allocateSpace_alloc {dflt : T} {ref : ARef} {al : Nat} {s s' : St T} {m : MArr}
    (h : MArr.allocateSpace dflt ref al s = .ok m s') : m.alloc = al := by
  unfold MArr.allocateSpace at h
  obtain ⟨p, s1, _, h⟩ := bind_ok_inv h
  obtain ⟨_, s2, _, h⟩ := bind_ok_inv h
  cases h; rfl

/-- The allocator named by a constructor call. -/
private def ctorAlloc : Ctor → Nat
  | .default _ al => al
  | .extents _ _ _ al => al
  | .gen _ _ _ al => al
  | .copy _ a => a.alloc
  | .convert _ _ _ al => al

private theorem ctor_alloc {dbg : Bool} {dflt : T} {c : Ctor} {s s' : St T} {m : MArr} (h : c.run dbg dflt s = .ok m s') :
    m.alloc = ctorAlloc c := by
  cases c with
  | default n al =>
    obtain ⟨_, _, _, h⟩ := bind_ok_inv (show MArr.mkDefault dflt n al s = _ from h)
    exact allocateSpace_alloc h
  | extents n es so al =>
    obtain ⟨_, _, _, h⟩ := bind_ok_inv (show MArr.mkExtents dflt n es so al s = _ from h)
    exact allocateSpace_alloc h
  | gen n rs so al =>
    obtain ⟨_, _, _, h⟩ := bind_ok_inv (show MArr.mkExtentGen dflt ⟨n, rs⟩ so al s = _ from h)
    exact allocateSpace_alloc h
  | copy n a =>
    obtain ⟨m', s1, h1, h⟩ := bind_ok_inv (show MArr.mkCopy dflt a s = _ from h)
    obtain ⟨_, s2, _, h⟩ := bind_ok_inv h
    cases h
    exact allocateSpace_alloc h1
  | convert n d so al =>
    obtain ⟨r, s1, _, h⟩ := bind_ok_inv (show MArr.mkConvert dbg dflt d so al s = _ from h)
    obtain ⟨m', s2, h1, h⟩ := bind_ok_inv h
    obtain ⟨_, _, _, h⟩ := bind_ok_inv h
    obtain ⟨_, _, _, h⟩ := bind_ok_inv h
    obtain ⟨_, _, _, h⟩ := bind_ok_inv h
    obtain ⟨_, _, _, h⟩ := bind_ok_inv h
    cases h
    exact allocateSpace_alloc h1

private theorem mem_objs {w w' : World T} {e : Exec T α} : (w.mem e = .ok w' ∨ w.mem e = .threw w') → w'.objs = w.objs := by
  unfold World.mem
  cases e w.st <;> rintro (h | h) <;> cases h <;> rfl

/-- The allocators held by the variables of a world. -/
def heldAllocators (w : World T) (x : Nat) : Option Nat := (w.objs x).map MArr.alloc

private theorem held_set {w : World T} {x : Nat} {a m : MArr} (hx : w.objs x = some a) (hm : m.alloc = a.alloc) (s : St T) :
    heldAllocators (w.set x (some m) s) = heldAllocators w := by
  funext y
  unfold heldAllocators
  by_cases hy : y = x
  · subst hy; rw [World.set_same, hx, Option.map_some, Option.map_some, hm]
  · rw [World.set_other _ hy]

/-- One legal operation. -/
theorem step_allocators (dbg : Bool) (dflt : T) {w : World T} (hw : w.Valid) {op : Op T} (hop : op.Legal w) (w' : World T) :
    (w.step dbg dflt op = .ok w' → heldAllocators w' = op.allocators (heldAllocators w)) ∧
    (w.step dbg dflt op = .threw w' → heldAllocators w' = heldAllocators w) := by
  have hmem : ∀ {α : Type} (e : Exec T α), (w.mem e = .ok w' → heldAllocators w' = heldAllocators w) ∧
      (w.mem e = .threw w' → heldAllocators w' = heldAllocators w) := by
    intro α e
    constructor <;> intro h
    · unfold heldAllocators; rw [mem_objs (.inl h)]
    · unfold heldAllocators; rw [mem_objs (.inr h)]
  have hheader : ∀ (x : Nat) (a : MArr) (r : Res ARef), w.objs x = some a →
      (w.header x a r = .ok w' → heldAllocators w' = heldAllocators w) ∧ (w.header x a r = .threw w' → heldAllocators w' = heldAllocators w) := by
    intro x a r hx
    unfold World.header
    cases r <;> constructor <;> intro h <;> cases h
    exact held_set hx (by rfl) _
  have hmember : ∀ (x : Nat) (a : MArr) (r : Out T Unit × MArr), w.objs x = some a → r.2.alloc = a.alloc →
      (w.member x r = .ok w' → heldAllocators w' = heldAllocators w) ∧ (w.member x r = .threw w' → heldAllocators w' = heldAllocators w) := by
    intro x a r hx hr
    obtain ⟨o, m⟩ := r
    unfold World.member
    cases o <;> constructor <;> intro h <;> cases h
    · exact held_set hx hr _
    · exact held_set hx hr _
  cases op with
  | construct x i =>
    simp only [World.step]
    cases hc : i.ctor w.objs with
    | none => constructor <;> intro h <;> cases h
    | some c =>
      simp only
      cases hr : c.run dbg dflt w.st with
      | ok a s =>
        constructor <;> intro h <;> cases h
        have ha := ctor_alloc hr
        funext y
        show heldAllocators (w.set x (some a) s) y = if y = x then i.allocator (heldAllocators w) else heldAllocators w y
        unfold heldAllocators
        by_cases hy : y = x
        · subst hy
          rw [World.set_same, if_pos rfl, Option.map_some, ha]
          cases i with
          | default n al => cases hc; rfl
          | extents n es so al => cases hc; rfl
          | gen n rs so al => cases hc; rfl
          | copy z =>
            simp only [Init.ctor] at hc
            cases hz : w.objs z with
            | none => rw [hz] at hc; cases hc
            | some b =>
              rw [hz] at hc
              cases hc
              simp only [Init.allocator, hz]; rfl
          | convert z d so al =>
            simp only [Init.ctor] at hc
            cases hz : w.objs z with
            | none => rw [hz] at hc; cases hc
            | some b => rw [hz] at hc; cases hc; rfl
        · rw [World.set_other _ hy, if_neg hy]
      | throw s => constructor <;> intro h <;> cases h; rfl
      | assertFail s => constructor <;> intro h <;> cases h
      | ub => constructor <;> intro h <;> cases h
  | destroy x =>
    obtain ⟨a, hx⟩ := hop
    obtain ⟨n, vs, ho⟩ := hw.owns x a hx
    obtain ⟨s', h1, _⟩ := ho.dealloc
    simp only [World.step, hx, h1]
    constructor <;> intro h <;> cases h
    funext y
    show heldAllocators (w.set x none s') y = if y = x then none else heldAllocators w y
    unfold heldAllocators
    by_cases hy : y = x
    · subst hy; rw [World.set_same, if_pos rfl]; rfl
    · rw [World.set_other _ hy, if_neg hy]
  | assign x y =>
    obtain ⟨a, a', hx, hy, _⟩ := hop
    simp only [World.step, hx, hy]; exact hmem _
  | assignPart x d y d' => exact hmem _
  | copyArray x d y d' => exact hmem _
  | fill x input => obtain ⟨a, hx⟩ := hop; simp only [World.step, hx]; exact hmem _
  | write x d idx v => exact hmem _
  | read x d idx => exact hmem _
  | forEach x d f => exact hmem _
  | resize x rs =>
    obtain ⟨a, hx, hl, hleg, hrep⟩ := hop
    obtain ⟨n, vs, ho⟩ := hw.owns x a hx
    have hd : a.ref.numDims = n := ho.reach.wf.ext_len
    simp only [World.step, hx, hd]
    obtain ⟨m, s', _, _, h3, _, _, h6, _⟩ := resize_any dbg dflt ho hw.sane hrep (by rw [hl]; exact hd) hleg
    apply hmember x a _ hx
    rcases h6 with ⟨h6, _⟩ | ⟨h6, _⟩ <;> rw [h6]
    exact h3
  | resizeList x es =>
    obtain ⟨a, hx, hl, hes, hrep⟩ := hop
    obtain ⟨n, vs, ho⟩ := hw.owns x a hx
    have hd : a.ref.numDims = n := ho.reach.wf.ext_len
    have hl' : es.length = n := by rw [hl]; exact hd
    simp only [World.step, hx]
    rw [resizeExtents_eq dbg dflt ho hl']
    obtain ⟨m, s', _, _, h3, _, _, h6, _⟩ := resize_any dbg dflt ho hw.sane hrep
      (by rw [List.length_map, hl']) (extentList_legal hes)
    apply hmember x a _ hx
    rcases h6 with ⟨h6, _⟩ | ⟨h6, _⟩ <;> rw [h6]
    exact h3
  | reindex x bs => obtain ⟨a, hx, _⟩ := hop; simp only [World.step, hx]; exact hheader x a _ hx
  | reindexAll x b => obtain ⟨a, hx⟩ := hop; simp only [World.step, hx]; exact hheader x a _ hx
  | reshape x es => obtain ⟨a, hx, _⟩ := hop; simp only [World.step, hx]; exact hheader x a _ hx

private theorem run_allocators (dbg : Bool) (dflt : T) (prog : List (Op T)) {w : World T} (hw : w.Valid)
    (hleg : w.LegalRun dbg dflt prog) :
    ∃ w', w.run dbg dflt prog = some w' ∧ w'.Valid ∧ heldAllocators w' = w.allocatorsAfter dbg dflt prog (heldAllocators w) := by
  induction prog generalizing w with
  | nil => exact ⟨w, rfl, hw, rfl⟩
  | cons op ops ih =>
    obtain ⟨w1, h1, h2, _⟩ := step_ok dbg dflt hw hleg.1
    have ha := step_allocators dbg dflt hw hleg.1 w1
    rcases h1 with ⟨h1, _⟩ | ⟨h1, _⟩
    · obtain ⟨w', e1, e2, e3⟩ := ih h2 (hleg.2 w1 (.inl h1))
      exact ⟨w', by simp only [World.run, h1, e1], e2, by simp only [World.allocatorsAfter, h1, e3, ha.1 h1]⟩
    · obtain ⟨w', e1, e2, e3⟩ := ih h2 (hleg.2 w1 (.inr h1))
      exact ⟨w', by simp only [World.run, h1, e1], e2, by simp only [World.allocatorsAfter, h1, e3, ha.2 h1]⟩

/-- **C66.** Whatever exceptions occur, in any program of legal operations, with any number of different allocators: no
storage is ever returned to an allocator other than the one that provided it (the program does not fail); at every point,
every variable holds the allocator it was constructed with (the constructor's argument, or the copied array's), which no
assignment, resize, reindex or reshape changes; and its elements live in storage which that very allocator provided. -/
theorem C66_allocators_paired (dbg : Bool) (dflt : T) (sched : List (Option T)) (prog : List (Op T))
    (hleg : (World.start sched).LegalRun dbg dflt prog) :
    ∃ w, (World.start sched).run dbg dflt prog = some w ∧
      (∀ x, (w.objs x).map MArr.alloc = (World.start sched).allocatorsAfter dbg dflt prog (fun _ => none) x) ∧
      (∀ x a, w.objs x = some a → ∃ cells, w.st.heap a.ref.data.blk = some ⟨a.alloc, cells⟩) := by
  obtain ⟨w, h1, h2, h3⟩ := run_allocators dbg dflt prog (start_valid sched) hleg
  refine ⟨w, h1, fun x => congrFun h3 x, ?_⟩
  intro x a hx
  obtain ⟨n, vs, ho⟩ := h2.owns x a hx
  exact ⟨_, ho.block⟩

/-- **C66**, what "does not fail" covers: `deallocate` through an allocator other than the provider of the block is an
error in every memory, whatever the block holds; so is one that names no live block. -/
theorem C66_wrong_allocator_fails (al : Nat) (p : Ptr) (n : Nat) (s : St T)
    (h : ∀ k, s.heap p.blk = some k → k.provider ≠ al) : deallocate al p n s = .ub := by
  unfold deallocate
  cases hk : s.heap p.blk with
  | none => rfl
  | some k =>
    simp only
    rw [if_neg (fun hc => h k hk hc.2.1)]

/-- **C66**, destruction: destroying a live array with an allocator member other than the one that provided its storage
would be an error, so destructors depend on the pairing. -/
theorem C66_mismatch_is_detected {n : Nat} {a : MArr} {vs : List T} (s : St T) (ho : OwnsVals s n a vs) (al : Nat)
    (hne : al ≠ a.alloc) : MArr.deallocateSpace { a with alloc := al } s = .ub := by
  have hd := ho.data_eq
  have hn : a.ownBase ≠ Ptr.null := by
    rw [ho.own, hd]
    intro hc
    exact ho.notNull (by simpa [Ptr.null] using hc)
  unfold MArr.deallocateSpace
  rw [if_pos hn]
  simp only
  rw [ho.own, ho.count]
  rw [hd]
  obtain ⟨s1, e1, _, _, e4, _⟩ := destroyN_ok a.ref.data.blk a.ref.numElements s (fun k hk => by
    obtain ⟨v, hv⟩ := ho.live k hk
    rw [hd] at hv
    exact ⟨v, by simpa [Ptr.add] using hv⟩)
  rw [Exec.bind_ok e1]
  apply C66_wrong_allocator_fails
  intro k hk hc
  have := e4.len a.ref.data.blk
  unfold St.len at this
  rw [hk, ho.block] at this
  simp only [Option.map_some, Option.some.injEq, Prod.mk.injEq] at this
  exact hne (hc.symm.trans this.1)

/-- A program with three allocators: 5 for the first array, 6 for the second, the copy takes 5. -/
def exAllocProg : List (Op Nat) :=
  [.construct 0 (.gen 1 [⟨3, 5⟩] (StorageOrder.cOrder 1) 5), .construct 1 (.extents 1 [2] (StorageOrder.cOrder 1) 6),
   .construct 2 (.copy 0), .assign 1 0, .destroy 0]

theorem exAllocProg_legal : (World.start []).LegalRun true 0 exAllocProg := by
  refine ⟨⟨rfl, by decide, rfl⟩, fun w hw => ?_⟩
  rcases hw with hw | hw <;> cases hw
  refine ⟨⟨rfl, by decide, rfl⟩, fun w hw => ?_⟩
  rcases hw with hw | hw <;> cases hw
  refine ⟨⟨rfl, _, rfl⟩, fun w hw => ?_⟩
  rcases hw with hw | hw <;> cases hw
  refine ⟨⟨_, _, rfl, rfl, rfl⟩, fun w hw => ?_⟩
  rcases hw with hw | hw <;> cases hw
  refine ⟨⟨_, rfl⟩, fun w hw => ?_⟩
  trivial

/-- After it, variable 1 still has allocator 6 although it was assigned from an array with allocator 5; the copy has 5. -/
example : let p := (World.start []).allocatorsAfter true 0 exAllocProg (fun _ => none)
    p 0 = none ∧ p 1 = some 6 ∧ p 2 = some 5 := ⟨rfl, rfl, rfl⟩

/-- Destroying `smallM` (allocator 0) through allocator 3 fails. -/
example : MArr.deallocateSpace { smallM with alloc := 3 } (smallSt []) = .ub :=
  C66_mismatch_is_detected _ (smallM_owns []) 3 (by decide)

/-! ### Instances: the theorems applied to concrete cases, whose hypotheses are thereby met -/

example := C66_allocators_paired true 0 [] exAllocProg exAllocProg_legal
example := C66_wrong_allocator_fails 3 smallM.ref.data 2 (smallSt []) (by rintro k hk; cases hk; decide)

/- end of instances -/

end MultiArray.Props
