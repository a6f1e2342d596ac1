import Verif.Lemmas.Lives
import Verif.Lemmas.ClientCode
import Verif.Props.Work
import Verif.Props.ProgX

/- Property theorems C88: which element operations each call performs, on which objects, in which order. -/
set_option autoImplicit false

namespace MultiArray.Props
open MultiArray MultiArray.Spec
variable {T α : Type}

/-! ### Constructors -/

theorem ctor_exec (dbg : Bool) (dflt : T) (c : Ctor) : (c.code dbg dflt).exec = c.run dbg dflt := by
  cases c with
  | default n al => exact MArr.exec_mkDefaultC ..
  | extents n es so al => exact MArr.exec_mkExtentsC ..
  | gen n rs so al => exact MArr.exec_mkExtentGenC ..
  | copy n a => exact MArr.exec_mkCopyC ..
  | convert n src so al => exact MArr.exec_mkConvertC ..

/-- What is proved about each constructor, for all memories. -/
private def CtorLog (dbg : Bool) (dflt : T) (c : Ctor) (ref : ARef) : Prop :=
  ∀ s : St T,
    (∀ a s', (c.code dbg dflt).exec s = .ok a s' → a = MArr.spaceAt s.next ref c.alloc ∧
      (c.code dbg dflt).log s = .allocate c.alloc c.elements ⟨s.next, 0⟩ :: constructing ⟨s.next, 0⟩ c.elements ++ c.copyLog (MArr.spaceAt s.next ref c.alloc)) ∧
    (∀ s', (c.code dbg dflt).exec s = .throw s' → FailedAllocation c.alloc c.elements ⟨s.next, 0⟩ ((c.code dbg dflt).log s) ∨
      ∃ l, Interrupted (c.copyLog (MArr.spaceAt s.next ref c.alloc)) l ∧
        (c.code dbg dflt).log s = .allocate c.alloc c.elements ⟨s.next, 0⟩ :: constructing ⟨s.next, 0⟩ c.elements ++ l)

private theorem plain_log {n : Nat} {r : Res ARef} {ref : ARef} (hr : r = .ok ref) (hreach : Reachable n ref) (dflt : T) (al k : Nat) (hk : ref.extents.prod = k) (s : St T) :
    (∀ a s', (Code.lift r >>= fun ref => MArr.allocateSpaceC dflt ref al : Code T MArr).exec s = .ok a s' → a = MArr.spaceAt s.next ref al ∧
      (Code.lift r >>= fun ref => MArr.allocateSpaceC dflt ref al : Code T MArr).log s = .allocate al k ⟨s.next, 0⟩ :: constructing ⟨s.next, 0⟩ k ++ []) ∧
    (∀ s', (Code.lift r >>= fun ref => MArr.allocateSpaceC dflt ref al : Code T MArr).exec s = .throw s' →
      FailedAllocation al k ⟨s.next, 0⟩ ((Code.lift r >>= fun ref => MArr.allocateSpaceC dflt ref al : Code T MArr).log s) ∨
      ∃ l, Interrupted [] l ∧ (Code.lift r >>= fun ref => MArr.allocateSpaceC dflt ref al : Code T MArr).log s = .allocate al k ⟨s.next, 0⟩ :: constructing ⟨s.next, 0⟩ k ++ l) := by
  subst hr
  have hn : ref.numElems = k := by rw [hreach.wf.num_eq, product_eq, hk]
  have := MArr.log_allocateSpaceC dflt ref al s
  rw [hn] at this
  exact ⟨fun a s' h => ⟨(this.1 a s' h).1, by rw [List.append_nil]; exact (this.1 a s' h).2⟩, fun s' h => .inl (this.2 s' h)⟩

/-- A copying part after the allocation. -/
private theorem copied_log (dflt : T) (ref : ARef) (al k : Nat) (hn : ref.numElems = k) (B : MArr → Code T Unit) (l : List (Ptr × Ptr)) (s : St T)
    (hB : B (MArr.spaceAt s.next ref al) = Code.ofProg (copyCode l)) :
    let x : Code T MArr := MArr.allocateSpaceC dflt ref al >>= fun a => B a >>= fun _ => pure a
    (∀ a s', x.exec s = .ok a s' → a = MArr.spaceAt s.next ref al ∧
      x.log s = .allocate al k ⟨s.next, 0⟩ :: constructing ⟨s.next, 0⟩ k ++ pairLog l) ∧
    (∀ s', x.exec s = .throw s' → FailedAllocation al k ⟨s.next, 0⟩ (x.log s) ∨
      ∃ l', Interrupted (pairLog l) l' ∧ x.log s = .allocate al k ⟨s.next, 0⟩ :: constructing ⟨s.next, 0⟩ k ++ l') := by
  intro x
  subst hn
  obtain ⟨g1, g2⟩ := MArr.log_allocateSpaceC dflt ref al s
  have hx : x = (MArr.allocateSpaceC dflt ref al >>= fun a => B a >>= fun _ => pure a : Code T MArr) := rfl
  constructor
  · intro a s' h
    obtain ⟨a1, s1, h1, h2⟩ := Code.bind_ok_inv h
    obtain ⟨e, hlog⟩ := g1 a1 s1 h1
    subst e
    obtain ⟨_, s2, h3, h4⟩ := Code.bind_ok_inv h2
    cases h4
    refine ⟨rfl, ?_⟩
    rw [hx, Code.log_bind_ok h1, Code.log_bind_ok h3, hlog]
    rw [hB] at h3 ⊢
    rw [(log_copyCode _ s1).1 _ _ h3]
    simp [Code.pure_eq, Code.log]
  · intro s' h
    rcases Code.bind_throw_inv h with h1 | ⟨a1, s1, h1, h2⟩
    · left
      rw [hx, Code.log_bind_throw h1]
      exact g2 s' h1
    · right
      obtain ⟨e, hlog⟩ := g1 a1 s1 h1
      subst e
      rcases Code.bind_throw_inv h2 with h3 | ⟨_, s2, _, h4⟩
      · rw [hx, Code.log_bind_ok h1, Code.log_bind_throw h3, hlog]
        rw [hB] at h3 ⊢
        exact ⟨_, (log_copyCode _ s1).2 _ h3, rfl⟩
      · cases h4

private theorem ctor_log (dbg : Bool) (dflt : T) {s0 : St T} (c : Ctor) (hc : c.Legal s0) : ∃ ref, CtorLog dbg dflt c ref := by
  cases c with
  | default n al =>
    have hv : ValidOrder n (StorageOrder.cOrder n) := cOrder_valid n
    obtain ⟨ref, h⟩ := ARef.init_succeeds Ptr.null (List.replicate n 0) (so := StorageOrder.cOrder n)
      (es := List.replicate n 0) (n := n) hv (by simp)
    have h' : ARef.ofShape n Ptr.null (StorageOrder.cOrder n) none none = .ok ref := h
    obtain ⟨_, _, _, _, r4, _⟩ := ARef.init_ok h hv (by simp)
    exact ⟨ref, fun s => plain_log h' (.ofShape hv h') dflt al _ (by rw [r4, List.take_of_length_le (by simp)]; rfl) s⟩
  | extents n es so al =>
    obtain ⟨hv, hl⟩ := hc
    obtain ⟨ref, h⟩ := ARef.init_succeeds Ptr.null (List.replicate n 0) (so := so) (es := es) (n := n) hv (by omega)
    obtain ⟨_, _, _, _, r4, _⟩ := ARef.init_ok h hv (by simp)
    exact ⟨ref, fun s => plain_log (show ARef.ofExtents n Ptr.null es so = .ok ref from h) (.ofExtents hv h) dflt al _ (by rw [r4]; rfl) s⟩
  | gen n rs so al =>
    obtain ⟨hv, hl⟩ := hc
    obtain ⟨ref, h, hr, _, _, _, he⟩ := ofExtentGen_ok Ptr.null ⟨n, rs⟩ rfl hl hv
    exact ⟨ref, fun s => plain_log h hr dflt al _ (by rw [he]; rfl) s⟩
  | copy n a =>
    obtain ⟨vs, ha⟩ := hc
    have hnum : a.ref.numElems = a.ref.extents.prod := by rw [ha.reach.wf.num_eq, product_eq]
    refine ⟨a.ref, fun s => ?_⟩
    have := copied_log dflt a.ref a.alloc _ hnum (fun m => MArr.copyNElemsC a.ref.numElems a.ownBase m.ownBase) _ s (MArr.copyNElemsC_eq _ _ _)
    simp only [MArr.pairLog_flat] at this
    rw [ha.own, hnum] at this
    have e : ((Ctor.copy n a).code dbg dflt : Code T MArr) = (MArr.allocateSpaceC dflt a.ref a.alloc >>= fun m =>
        MArr.copyNElemsC a.ref.extents.prod a.ref.data m.ownBase >>= fun _ => pure m) := by
      simp only [Ctor.code, MArr.mkCopyC, hnum, ha.own]
    rw [e]
    exact this
  | convert n src so al =>
    obtain ⟨hn, hv, k, root, hr, hh, _, hlen⟩ := hc
    have hw := handle_wellShaped hr hh
    have hbl : src.bases.length = n := by rw [hw.2, hlen]
    obtain ⟨ref, hinit⟩ := ARef.init_succeeds Ptr.null src.bases (so := so) (es := src.extents) (n := n) hv (by omega)
    have href : ARef.ofShape n Ptr.null so (some src.bases) (some src.extents) = .ok ref := by
      unfold ARef.ofShape
      simp only [copyN_self hbl, Res.bind_ok]
      exact hinit
    obtain ⟨hwf, _, r2, r3, r4, _⟩ := ARef.init_ok hinit hv hbl
    rw [List.take_of_length_le (by omega)] at r4
    have hreach : Reachable n ref := .ofShape hv href
    have hnum : ref.numElems = src.extents.prod := by rw [hwf.num_eq, product_eq, r4]
    refine ⟨ref, fun s => ?_⟩
    have hmw : WellShaped (MArr.spaceAt s.next ref al).ref.desc := (hreach.setBase ⟨s.next, 0⟩).wf.wellShaped
    have hext : src.extents = (MArr.spaceAt s.next ref al).ref.desc.extents := r4.symm
    have hB : (do
        let first ← Code.lift src.begin
        let last ← Code.lift src.end
        let out ← Code.lift (MArr.spaceAt s.next ref al).ref.desc.begin
        Code.ofProg (stdCopyP (fun i o => do
            let s ← Prog.lift (i.deref dbg)
            let d ← Prog.lift (o.deref dbg)
            assignP dbg (src.extents.length - 1) d s)
          (last.sub first).toNat first out) : Code T Unit) = Code.ofProg (copyCode (copyPairs src (MArr.spaceAt s.next ref al).ref.desc)) := by
      rw [← assignP_eq dbg _ _ hmw hw hext, ← hext]
      generalize (MArr.spaceAt s.next ref al).ref.desc = dst at hmw hext
      obtain ⟨p, es, ss, bs⟩ := src
      obtain ⟨p', es', ss', bs'⟩ := dst
      simp only at hext hlen
      subst hext
      match es, ss, bs, ss', bs', (show es.length ≠ 0 by omega), hw, hmw with
      | [], _, _, _, _, h, _, _ => exact absurd rfl h
      | e :: es, s :: ss, b :: bs, s' :: ss', b' :: bs', _, _, _ =>
        simp only [List.length_cons, assignP, begin_cons, end_cons, decide_true, Res.assert_true, Prog.lift_ok, pure_bind, Nat.add_sub_cancel]
        rfl
    have := copied_log dflt ref al _ hnum (fun m => (do
        let first ← Code.lift src.begin
        let last ← Code.lift src.end
        let out ← Code.lift m.ref.desc.begin
        Code.ofProg (stdCopyP (fun i o => do
            let s ← Prog.lift (i.deref dbg)
            let d ← Prog.lift (o.deref dbg)
            assignP dbg (src.extents.length - 1) d s)
          (last.sub first).toNat first out) : Code T Unit)) _ s hB
    rw [pairLog_copyPairs _ _ hw hmw hext, ← hext] at this
    have e : ((Ctor.convert n src so al).code dbg dflt : Code T MArr) = (MArr.allocateSpaceC dflt ref al >>= fun m => (do
        let first ← Code.lift src.begin
        let last ← Code.lift src.end
        let out ← Code.lift m.ref.desc.begin
        Code.ofProg (stdCopyP (fun i o => do
            let s ← Prog.lift (i.deref dbg)
            let d ← Prog.lift (o.deref dbg)
            assignP dbg (src.extents.length - 1) d s)
          (last.sub first).toNat first out)) >>= fun _ => pure m) := by
      simp only [Ctor.code, MArr.mkConvertC, hlen, href]
      show (MArr.allocateSpaceC dflt ref al >>= fun m => _) = _
      congr 1
      funext m
      simp only [Code.bind_assoc]
    rw [e]
    exact this

private theorem legal_sched (s : St T) (fs : List (Option T)) {c : Ctor} (hc : c.Legal s) : c.Legal ({ s with sched := fs } : St T) := by
  cases c with
  | default n al => trivial
  | extents n es so al => exact hc
  | gen n rs so al => exact hc
  | copy n a =>
    obtain ⟨vs, h⟩ := hc
    exact ⟨vs, h.reach, h.start, h.notNull, h.own, h.count, h.block, h.len⟩
  | convert n src so al => exact hc

/-- **C88.** Every constructor, with legal arguments.  `a` is the array that the call returns if nothing throws.  The call allocates its block; constructs the elements from the first
to the last in memory order; and then (copy and converting constructors) copies element after element - nothing else.  If the allocator or the constructor of an element throws, the elements already
constructed are destroyed in reverse order; if an element assignment throws, nothing more happens. -/
theorem C88_construction (dbg : Bool) (dflt : T) {s : St T} (hs : SaneHeap s) (c : Ctor) (hc : c.Legal s) :
    ∃ a s0, c.run dbg dflt { s with sched := [] } = .ok a s0 ∧ a.ref.data = ⟨s.next, 0⟩ ∧
      match c.run dbg dflt s with
      | .ok a' _ => a' = a ∧
          (c.code dbg dflt).log s = .allocate c.alloc c.elements a.ref.data :: constructing a.ref.data c.elements ++ c.copyLog a
      | .throw _ => FailedAllocation c.alloc c.elements a.ref.data ((c.code dbg dflt).log s) ∨
          ∃ l, Interrupted (c.copyLog a) l ∧
            (c.code dbg dflt).log s = .allocate c.alloc c.elements a.ref.data :: constructing a.ref.data c.elements ++ l
      | _ => False := by
  obtain ⟨ref, hlog⟩ := ctor_log dbg dflt c hc
  obtain ⟨s0, h0, _⟩ := ctor_any dbg dflt (s := { s with sched := [] }) hs c (legal_sched s [] hc)
  have h0 : ∃ m, c.run dbg dflt { s with sched := [] } = .ok m s0 := by
    rcases h0 with ⟨m, h, _⟩ | ⟨_, h⟩
    · exact ⟨m, h⟩
    · exact absurd rfl h
  obtain ⟨m, h0⟩ := h0
  have hm := ((hlog { s with sched := [] }).1 m s0 (by rw [ctor_exec]; exact h0)).1
  subst hm
  refine ⟨_, s0, h0, rfl, ?_⟩
  obtain ⟨s1, h1, _⟩ := ctor_any dbg dflt hs c hc
  obtain ⟨g1, g2⟩ := hlog s
  rw [ctor_exec] at g1 g2
  rcases h1 with ⟨m, h1, _⟩ | ⟨h1, _⟩
  · rw [h1]
    exact g1 m s1 h1
  · rw [h1]
    exact g2 s1 h1

/-! ### Destruction -/

/-- **C88.** `~multi_array` destroys the elements from the last to the first in memory order and then releases the block. -/
theorem C88_destruction {n : Nat} {s : St T} {a : MArr} (ha : Owns s n a) :
    (∃ s', a.deallocateSpace s = .ok () s') ∧
      (MArr.deallocateSpaceC a : Code T Unit).log s = destroying a.ref.data a.ref.extents.prod ++ [.release a.alloc a.ref.data a.ref.extents.prod] := by
  obtain ⟨vs, ha⟩ := ha
  obtain ⟨s', h, _⟩ := ha.dealloc
  have hnum : a.allocated = a.ref.extents.prod := by rw [ha.count]; show a.ref.numElems = _; rw [ha.reach.wf.num_eq, product_eq]
  refine ⟨⟨s', h⟩, ?_⟩
  have hnull : a.ownBase ≠ Ptr.null := by
    rw [ha.own]
    intro h
    exact ha.notNull (congrArg Ptr.blk h)
  have := MArr.log_deallocateSpaceC hnull (s := s) (s' := s') (u := ()) (by rw [MArr.exec_deallocateSpaceC]; exact h)
  rw [this, ha.own, hnum]

/-! ### Assignment -/

private theorem follows_copy {l : List (Ptr × Ptr)} {plan : List Event} (hp : pairLog l = plan) {x : Prog T Unit} (hx : x = copyCode l) {s : St T}
    {k : Nat} (h : Performs k s (x.exec s)) : FollowsPlan plan (Code.ofProg x) s := by
  subst hx
  unfold FollowsPlan
  obtain ⟨g1, g2⟩ := log_copyCode l s
  rw [Code.exec_ofProg] at g1 g2 ⊢
  rw [hp] at g1 g2
  cases hr : (copyCode l : Prog T Unit).exec s with
  | ok u s' => exact g1 u s' hr
  | throw s' => exact g2 s' hr
  | assertFail s' => rw [hr] at h; exact h
  | ub => rw [hr] at h; exact h

/-- **C88.** Assignment between arrays, subarrays and views of the same shape (overlapping or not), and `copy_array`: element after element, in lexicographic order of the positions, the source
element is read and assigned to the destination element; if an assignment throws, nothing more happens.  In particular nothing is constructed, destroyed, allocated or released. -/
theorem C88_assignment {n1 n2 : Nat} {r1 r2 : ARef} (h1 : Reachable n1 r1) (h2 : Reachable n2 r2)
    {dst src : Desc} (hd : Handle r1 dst) (hs : Handle r2 src) (he : src.extents = dst.extents) (s : St T)
    (l1 : Live s r1) (l2 : Live s r2) (dbg : Bool) :
    FollowsPlan (copying dst.extents src dst) (Code.ofProg (assignP dbg dst.extents.length dst src : Prog T Unit)) s ∧
    FollowsPlan (copying dst.extents src dst) (Code.ofProg (copyArrayP dbg src dst : Prog T Unit)) s := by
  have hwd := handle_wellShaped h1 hd
  have hws := handle_wellShaped h2 hs
  obtain ⟨p1, p2⟩ := C81_assignment h1 h2 hd hs he s l1 l2 dbg
  refine ⟨follows_copy (pairLog_copyPairs _ _ hws hwd he) (assignP_eq dbg _ _ hwd hws he) (k := dst.extents.prod) ?_,
    follows_copy (pairLog_copyPairs _ _ hws hwd he) (copyArrayP_eq dbg _ _ hwd hws he) (k := dst.extents.prod) ?_⟩
  · rw [exec_assignP]; exact p1
  · rw [exec_copyArrayP]; exact p2

/-- **C88.** `a = b` between two `multi_array`s of the same shape; self-assignment performs no operation at all. -/
theorem C88_assign_arrays {n : Nat} {s : St T} {a b : MArr} (ha : Owns s n a) (hb : Owns s n b) (he : b.ref.extents = a.ref.extents) (dbg : Bool) :
    FollowsPlan (copying a.ref.extents b.ref.desc a.ref.desc) (MArr.assignFromC dbg false a b : Code T Unit) s ∧
    (MArr.assignFromC dbg true a a : Code T Unit).log s = [] := by
  obtain ⟨vs, ha⟩ := ha
  obtain ⟨ws, hb⟩ := hb
  exact ⟨(C88_assignment ha.reach hb.reach .array .array he s ha.live hb.live dbg).1, rfl⟩

/-- **C88.** `for_each(a, f)`: element after element, in lexicographic order of the positions, the element is read (and handed to the functor) and then assigned. -/
theorem C88_for_each {n : Nat} {root : ARef} (hr : Reachable n root) {d : Desc} (h : Handle root d) (dbg : Bool) {σ : Type}
    (f : σ → T → T × σ) (q : σ) (s : St T) (hl : Live s root) :
    FollowsPlan (copying d.extents d d) (Code.ofProg (forEachAccP dbg f d.extents.length d q)) s := by
  have hw := handle_wellShaped hr h
  have hp := C81_for_each hr h dbg f q s hl
  rw [← exec_forEachAccP, forEachAccP_eq f dbg d hw q] at hp
  rw [forEachAccP_eq f dbg d hw q]
  unfold FollowsPlan
  obtain ⟨g1, g2⟩ := log_eachCode f (addrs d) q s
  rw [pairLog_each d hw] at g1 g2
  rw [Code.exec_ofProg] at g1 g2 ⊢
  cases hr : (eachCode f (addrs d) q : Prog T σ).exec s with
  | ok u s' => exact g1 u s' hr
  | throw s' => exact g2 s' hr
  | assertFail s' => rw [hr] at hp; exact hp
  | ub => rw [hr] at hp; exact hp

/-- **C88.** `a.assign(first, last)`: one assignment to each element in memory order, until the input or the array ends. -/
theorem C88_assign_range {n : Nat} {a : ARef} (ha : Reachable n a) (input : List T) (s : St T) (hl : Live s a) :
    FollowsPlan ((List.range (min a.numElements input.length)).map (fun (i : Nat) => .assign (a.data.add (i : Int))))
      (Code.ofProg (assignLoopP a.numElems a.base input)) s := by
  have hp := C81_assign_range ha input s hl
  have hp' : Performs (min a.numElements input.length) s (assignLoop a.numElems a.base input s) := hp
  rw [← exec_assignLoopP] at hp'
  have hadd : a.base.add ((0 : Nat) : Int) = a.base := by simp [Ptr.add]
  obtain ⟨g1, g2⟩ := log_assignLoopP a.numElems a.base input 0 s
  rw [hadd, ← List.range_eq_range'] at g1 g2
  unfold FollowsPlan
  rw [Code.exec_ofProg] at g1 g2 ⊢
  cases hr : (assignLoopP a.numElems a.base input : Prog T Unit).exec s with
  | ok u s' => exact g1 u s' hr
  | throw s' => exact g2 s' hr
  | assertFail s' => rw [hr] at hp'; exact hp'
  | ub => rw [hr] at hp'; exact hp'

/-! ### resize -/

/-- **C88.** `resize`.  `b` is the array it leaves if nothing throws.  It allocates the new block; constructs *all* new elements from the first to the last; copies the elements whose
positions exist in both shapes, in lexicographic order; only then destroys the old elements from the last to the first; and releases the old block.  If the allocator or the constructor of an element
throws, the new elements already constructed are destroyed in reverse order; if an assignment throws, all new elements are destroyed from the last to the first and the new block is released; in both cases
no old element is touched other than by reading. -/
theorem C88_resize (dbg : Bool) (dflt : T) {n : Nat} {s : St T} {a : MArr} (ha : Owns s n a) (hs : SaneHeap s)
    (hra : Representable a.ref.bases a.ref.extents) {rs : List ExtentRange} (hl : rs.length = n) (hleg : LegalExtents rs) :
    ∃ b s0, MArr.resize dbg dflt ⟨n, rs⟩ a { s with sched := [] } = (.ok () s0, b) ∧ b.ref.data = ⟨s.next, 0⟩ ∧
      match MArr.resize dbg dflt ⟨n, rs⟩ a s with
      | (.ok _ _, a') => a' = b ∧ (MArr.resizeC dbg dflt ⟨n, rs⟩ a).log s =
          .allocate a.alloc (reqExtents rs).prod b.ref.data :: constructing b.ref.data (reqExtents rs).prod ++
          copying (List.zipWith min (reqExtents rs) a.ref.extents) a.ref.desc b.ref.desc ++
          destroying a.ref.data a.ref.extents.prod ++ [.release a.alloc a.ref.data a.ref.extents.prod]
      | (.throw _, a') => a' = a ∧ (FailedAllocation a.alloc (reqExtents rs).prod b.ref.data ((MArr.resizeC dbg dflt ⟨n, rs⟩ a).log s) ∨
          ∃ l, Interrupted (copying (List.zipWith min (reqExtents rs) a.ref.extents) a.ref.desc b.ref.desc) l ∧
            (MArr.resizeC dbg dflt ⟨n, rs⟩ a).log s =
              .allocate a.alloc (reqExtents rs).prod b.ref.data :: constructing b.ref.data (reqExtents rs).prod ++ l ++
              destroying b.ref.data (reqExtents rs).prod ++ [.release a.alloc b.ref.data (reqExtents rs).prod])
      | _ => False := by
  obtain ⟨vs, ha⟩ := ha
  have ha0 : OwnsVals ({ s with sched := [] } : St T) n a vs := ⟨ha.reach, ha.start, ha.notNull, ha.own, ha.count, ha.block, ha.len⟩
  have hnum : a.allocated = a.ref.extents.prod := by rw [ha.count]; show a.ref.numElems = _; rw [ha.reach.wf.num_eq, product_eq]
  have hnull : a.ownBase ≠ Ptr.null := by
    rw [ha.own]
    intro h
    exact ha.notNull (congrArg Ptr.blk h)
  obtain ⟨ref, href, hreach, _, _, hbs, hes⟩ := ofExtentGen_ok Ptr.null ⟨n, rs⟩ rfl hl ha.reach.wf.order
  have hes : ref.extents = reqExtents rs := by rw [hes]; exact legalExtents_size hleg
  have hbs : ref.bases = reqBases rs := hbs
  have hrr : Representable ref.bases ref.extents := by rw [hes, hbs]; exact legalExtents_rep hleg
  obtain ⟨b, s0, hb, _, _, _, _, _, _, hdata, _⟩ := resize_ok dbg dflt ha0 hs rfl hra hl hleg
  have hlog0 := (MArr.log_resizeC dbg dflt ha.reach hnull hra href hreach hrr ({ s with sched := [] } : St T) hs.1).1 () b s0 (by
    rw [MArr.exec_resizeC, hb]; rfl)
  obtain ⟨g1, g2⟩ := MArr.log_resizeC dbg dflt ha.reach hnull hra href hreach hrr s hs.1
  have hbeq : b = (MArr.swapAll a (MArr.spaceAt s.next ref a.alloc)).1 := hlog0.1
  have hdesc : b.ref.desc = (MArr.spaceAt s.next ref a.alloc).ref.desc := by rw [hbeq]; rfl
  have hdata : b.ref.data = ⟨s.next, 0⟩ := hdata
  refine ⟨b, s0, hb, hdata, ?_⟩
  rw [MArr.exec_resizeC] at g1 g2
  rw [hes, ha.own, hnum] at g1
  rw [hes] at g2
  rw [hdata, hdesc]
  have hmin : List.zipWith min (reqExtents rs) a.ref.extents = List.zipWith Nat.min (reqExtents rs) a.ref.extents := rfl
  rw [hmin]
  obtain ⟨a', s', _, _, _, _, _, hout, _⟩ := resize_any dbg dflt ha hs hra hl hleg
  rcases hout with ⟨hout, _⟩ | ⟨hout, _⟩
  · rw [hout]
    obtain ⟨e1, e2⟩ := g1 () a' s' (by rw [hout]; rfl)
    exact ⟨e1.trans hbeq.symm, e2⟩
  · rw [hout]
    exact ⟨rfl, g2 a s' (by rw [hout]; rfl)⟩

/-! ### Whatever is run -/

/-- **C88.** Any sequence of library operations and program steps that completes or throws, from any memory: every operation in its log respects object lifetimes (only live objects
are read, assigned or destroyed; objects are only constructed in existing storage with no object in it; only whole blocks without objects are released, to the allocator that provided them), and
the log accounts for everything: it leads exactly from the objects and blocks there were to those there are. -/
theorem C88_lifetimes (x : Code T α) {s s' : St T} (hs : SaneHeap s) (h : (∃ a, x.exec s = .ok a s') ∨ x.exec s = .throw s') :
    (livesOf s).AllowsAll (x.log s) (livesOf s') := (code_ran x hs h).allows

/-- **C88.** Nothing changes that the log does not show: a cell none of the logged operations may change has not changed. -/
theorem C88_nothing_else (x : Code T α) {s s' : St T} (hs : SaneHeap s) (h : (∃ a, x.exec s = .ok a s') ∨ x.exec s = .throw s') (p : Ptr)
    (hp : ∀ e ∈ x.log s, ¬ e.Changes p) : s'.cell? p = s.cell? p := (code_ran x hs h).frame p hp

open Classical in
/-- **C88.** Accounting: for every address, objects there before + constructions = destructions + objects there after; for every block, likewise with allocations and releases. -/
theorem C88_balance (x : Code T α) {s s' : St T} (hs : SaneHeap s) (h : (∃ a, x.exec s = .ok a s') ∨ x.exec s = .throw s') :
    (∀ p, (if ∃ v, s.get? p = some v then 1 else 0) + (x.log s).count (.construct p) = (x.log s).count (.destroy p) + (if ∃ v, s'.get? p = some v then 1 else 0)) ∧
    (∀ al n b, (if s.len b = some (al, n) then 1 else 0) + (x.log s).count (.allocate al n ⟨b, 0⟩) = (x.log s).count (.release al ⟨b, 0⟩ n) + (if s'.len b = some (al, n) then 1 else 0)) :=
  ⟨fun p => counts_live (code_ran x hs h).allows p, fun al n b => counts_blocks (code_ran x hs h).allows al n b⟩

/-- **C88.** Whole programs.  Whatever a program does with any number of arrays within the documented preconditions, and whatever exceptions are thrown at it: from the empty memory on, every operation respects object
lifetimes; and if no allocating command threw, then when the last array is gone every element that was constructed has been destroyed exactly as often as it was constructed, and every block
has been released exactly as often as it was allocated. -/
theorem C88_program (dbg : Bool) (dflt : T) (eq lt : T → T → Bool) (k : Client T) (hk : k.Legal dflt eq lt) (sched : List (Option T)) (n : Nat) :
    ∃ tr w, k.run dbg dflt eq lt n [] (World.start sched) = some (tr, w) ∧
      let log := (k.code dbg dflt eq lt n [] (fun _ => none)).log (World.start sched : World T).st
      Lives.AllowsAll ⟨fun _ => none, fun _ => False⟩ log (livesOf w.st) ∧
      ((∀ x, w.objs x = none) → thrownAllocs tr = 0 →
        (∀ p, log.count (.construct p) = log.count (.destroy p)) ∧ (∀ al n b, log.count (.allocate al n ⟨b, 0⟩) = log.count (.release al ⟨b, 0⟩ n))) := by
  classical
  obtain ⟨tr, w, A, h1, _, _, _, _, _, _, L, hL, hheap⟩ := C71_client_under_exceptions dbg dflt eq lt k hk sched n
  refine ⟨tr, w, h1, ?_⟩
  intro log
  have hsane : SaneHeap (World.start sched : World T).st := ⟨Nat.one_pos, fun _ _ => rfl⟩
  have hex := exec_client dbg dflt eq lt k n h1
  have hr := code_ran (k.code dbg dflt eq lt n [] (fun _ => none)) hsane (s' := w.st) (.inl ⟨_, hex⟩)
  have he : livesOf (World.start sched : World T).st = ⟨fun _ => none, fun _ => False⟩ := by
    refine lives_ext (fun _ => rfl) (fun p => ?_)
    rw [live_iff]
    exact ⟨fun ⟨v, hv⟩ => (by cases hv), fun h => h.elim⟩
  have ha := hr.allows
  rw [he] at ha
  refine ⟨ha, fun hobj hthr => ?_⟩
  have hnone : ∀ b, w.st.heap b = none := by
    intro b
    cases hb : w.st.heap b with
    | none => rfl
    | some blk =>
      rcases hheap b (by rw [hb]; simp) with h | ⟨x, a, hx, _⟩
      · have : L = [] := List.length_eq_zero_iff.mp (by omega)
        rw [this] at h; cases h
      · rw [hobj x] at hx; cases hx
  have hlive : ∀ p, ¬ (livesOf w.st).live p := by
    intro p h
    rw [live_iff] at h
    obtain ⟨v, hv⟩ := h
    unfold St.cell? at hv
    rw [hnone] at hv
    cases hv
  have hblock : ∀ b, (livesOf w.st).block b = none := fun b => by show (w.st.heap b).map _ = none; rw [hnone]; rfl
  refine ⟨fun p => ?_, fun al n b => ?_⟩
  · have := counts_live ha p
    rw [if_neg (hlive p), if_neg (fun h => h)] at this
    simpa using this
  · have := counts_blocks ha al n b
    rw [hblock, if_neg (by simp)] at this
    simpa using this

/-! ### Concrete cases -/

/-- A `resize` of two elements to three: the log in full. -/
example : (MArr.resizeC true 0 ⟨1, [⟨0, 3⟩]⟩ smallM).log (smallSt []) =
    [.allocate 0 3 ⟨2, 0⟩, .construct ⟨2, 0⟩, .construct ⟨2, 1⟩, .construct ⟨2, 2⟩,
     .read ⟨1, 0⟩, .assign ⟨2, 0⟩, .read ⟨1, 1⟩, .assign ⟨2, 1⟩,
     .destroy ⟨1, 1⟩, .destroy ⟨1, 0⟩, .release 0 ⟨1, 0⟩ 2] := by decide +kernel

/-- The same `resize` when the second assignment throws. -/
example : (MArr.resizeC true 0 ⟨1, [⟨0, 3⟩]⟩ smallM).log (smallSt [none, none, none, none, none, some 99]) =
    [.allocate 0 3 ⟨2, 0⟩, .construct ⟨2, 0⟩, .construct ⟨2, 1⟩, .construct ⟨2, 2⟩,
     .read ⟨1, 0⟩, .assign ⟨2, 0⟩, .read ⟨1, 1⟩, .assignThrew ⟨2, 1⟩,
     .destroy ⟨2, 2⟩, .destroy ⟨2, 1⟩, .destroy ⟨2, 0⟩, .release 0 ⟨2, 0⟩ 3] := by decide +kernel

/-- And when the third construction throws. -/
example : (MArr.resizeC true 0 ⟨1, [⟨0, 3⟩]⟩ smallM).log (smallSt [none, none, none, some 99]) =
    [.allocate 0 3 ⟨2, 0⟩, .construct ⟨2, 0⟩, .construct ⟨2, 1⟩, .constructThrew ⟨2, 2⟩, .destroy ⟨2, 1⟩, .destroy ⟨2, 0⟩] := by decide +kernel

/-- The hypotheses of `C88_resize`, `C88_destruction` and of `C88_construction` for the copy constructor. -/
example (sched : List (Option Nat)) : Owns (smallSt sched) 1 smallM ∧ SaneHeap (smallSt sched) ∧ Representable smallM.ref.bases smallM.ref.extents ∧
    LegalExtents [⟨0, 3⟩] ∧ (Ctor.copy 1 smallM).Legal (smallSt sched) :=
  ⟨⟨_, smallM_owns sched⟩, ⟨Nat.two_pos, fun b hb => if_neg (by have : 2 ≤ b := hb; omega)⟩, (by decide : Representable [3] [2]), by decide, ⟨_, smallM_owns sched⟩⟩

/-- Copy construction and destruction of it, in full. -/
example : ((Ctor.copy 1 smallM).code true 0).log (smallSt []) =
      [.allocate 0 2 ⟨2, 0⟩, .construct ⟨2, 0⟩, .construct ⟨2, 1⟩, .read ⟨1, 0⟩, .assign ⟨2, 0⟩, .read ⟨1, 1⟩, .assign ⟨2, 1⟩] ∧
    (MArr.deallocateSpaceC smallM : Code Nat Unit).log (smallSt []) = [.destroy ⟨1, 1⟩, .destroy ⟨1, 0⟩, .release 0 ⟨1, 0⟩ 2] := by decide +kernel

/-- Assignment of an array to itself through a reference to it. -/
example (sched : List (Option Nat)) : FollowsPlan [.read ⟨1, 0⟩, .assign ⟨1, 0⟩, .read ⟨1, 1⟩, .assign ⟨1, 1⟩]
    (Code.ofProg (assignP true 1 smallM.ref.desc smallM.ref.desc : Prog Nat Unit)) (smallSt sched) :=
  (C88_assignment (smallM_owns sched).reach (smallM_owns sched).reach .array .array rfl _ (smallM_owns sched).live (smallM_owns sched).live true).1

/-- `for_each` and `assign(first, last)` on the small array, also when an assignment throws. -/
example (sched : List (Option Nat)) :
    FollowsPlan [.read ⟨1, 0⟩, .assign ⟨1, 0⟩, .read ⟨1, 1⟩, .assign ⟨1, 1⟩] (Code.ofProg (forEachAccP true (fun (q : Nat) v => (v + q, q + 1)) 1 smallM.ref.desc 0)) (smallSt sched) ∧
    FollowsPlan [.assign ⟨1, 0⟩, .assign ⟨1, 1⟩] (Code.ofProg (assignLoopP 2 ⟨1, 0⟩ [7, 8, 9])) (smallSt sched) :=
  ⟨C88_for_each (smallM_owns sched).reach .array true _ 0 _ (smallM_owns sched).live, C88_assign_range (smallM_owns sched).reach [7, 8, 9] _ (smallM_owns sched).live⟩

/-- `C88_program` for a client that copies, resizes and destroys, run without exceptions: no variables are left and no allocation threw. -/
example : ((demoClient.run true 0 (fun a b => a == b) (fun a b => decide (a < b)) 20 [] (World.start [])).map
      (fun r => ((r.2.objs 0).isNone, (r.2.objs 1).isNone, thrownAllocs r.1))) = some (true, true, 0) ∧
    (((demoClient.code true 0 (fun a b => a == b) (fun a b => decide (a < b)) 20 [] (fun _ => none)).log (World.start [] : World Nat).st).countP
      (fun e => match e with | .construct _ => true | _ => false)) = 18 := by decide +kernel

/-! ### Instances: the theorems applied to concrete cases, whose hypotheses are thereby met -/

example := C88_construction true 0 (smallSt_sane [none, none, some 9]) (.copy 1 smallM) ⟨_, smallM_owns _⟩
example := C88_destruction ⟨_, smallM_owns [none, some 5]⟩
example := C88_resize true 0 ⟨_, smallM_owns [none, some 5]⟩ (smallSt_sane _) (by decide) (rs := [⟨0, 3⟩]) rfl (by decide)
example := C88_assign_arrays (a := exM2) (b := exM) (s := exSt2) ⟨List.replicate 24 99, exArr2_reachable, rfl, by decide, rfl, rfl, rfl, rfl⟩
  ⟨List.range 24, exArr_reachable, rfl, by decide, rfl, rfl, rfl, rfl⟩ rfl true
example : ∃ s', (livesOf (smallSt [])).AllowsAll ((MArr.deallocateSpaceC smallM : Code Nat Unit).log (smallSt [])) (livesOf s') ∧
    s'.cell? ⟨9, 0⟩ = (smallSt []).cell? ⟨9, 0⟩ := by
  have h : ∃ s', (MArr.deallocateSpaceC smallM : Code Nat Unit).exec (smallSt []) = .ok () s' := ⟨_, rfl⟩
  obtain ⟨s', h⟩ := h
  have := C88_balance _ (smallSt_sane []) (.inl ⟨_, h⟩)
  exact ⟨s', C88_lifetimes _ (smallSt_sane []) (.inl ⟨_, h⟩), C88_nothing_else _ (smallSt_sane []) (.inl ⟨_, h⟩) ⟨9, 0⟩ (by
    rw [show (MArr.deallocateSpaceC smallM : Code Nat Unit).log (smallSt []) = [.destroy ⟨1, 1⟩, .destroy ⟨1, 0⟩, .release 0 ⟨1, 0⟩ 2] by decide +kernel]
    simp [Event.Changes])⟩

/- end of instances -/

end MultiArray.Props
