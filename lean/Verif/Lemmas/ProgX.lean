import Verif.Lemmas.Sim

/- One command of a whole program, with exceptions. -/
set_option autoImplicit false

namespace MultiArray
open Spec Props
variable {T : Type}

/-- The running program `w` represents `A`, with the blocks `L` leaked and any exceptions due. -/
def InvX (L : List Nat) (w : World T) (A : AState T) : Prop := ∃ t, Calm L w.st t ∧ (⟨w.objs, t⟩ : World T).Rep A

theorem Calm.sane {L : List Nat} {s t : St T} (h : Calm L s t) (ht : SaneHeap t) : SaneHeap s := by
  refine ⟨by rw [← h.next]; exact ht.1, fun b hb => ?_⟩
  have hbL : b ∉ L := fun hm => by have := (h.leaked b hm).2.2; omega
  rw [← h.same b hbL]
  exact ht.2 b (by rw [h.next]; exact hb)

theorem Calm.owns {L : List Nat} {s t : St T} (h : Calm L s t) {n : Nat} {a : MArr} {vs : List T} (ho : OwnsVals t n a vs) : OwnsVals s n a vs :=
  ho.mono (h.heapEq (by rw [ho.block]; simp))

theorem Calm.valid {L : List Nat} {s t : St T} (h : Calm L s t) {o : Nat → Option MArr} (hv : (⟨o, t⟩ : World T).Valid) : (⟨o, s⟩ : World T).Valid := by
  refine ⟨h.sane hv.sane, fun x a hx => ?_, hv.distinct⟩
  obtain ⟨n, vs, ho⟩ := hv.owns x a hx
  exact ⟨n, vs, h.owns ho⟩

/-- Only the allocation counter changes. -/
theorem Spec.World.Rep.reheap {o : Nat → Option MArr} {t t' : St T} {A : AState T} (h : (⟨o, t⟩ : World T).Rep A) (hh : t'.heap = t.heap)
    (hs : SaneHeap t') (hsched : t'.sched = []) : (⟨o, t'⟩ : World T).Rep A := by
  refine ⟨⟨hs, fun x a hx => ?_, h.valid.distinct⟩, ?_, hsched, fun x a hx => ?_, h.dead⟩
  · obtain ⟨n, vs, ho⟩ := h.valid.owns x a hx
    exact ⟨n, vs, ho.mono (by show t'.heap _ = t.heap _; rw [hh])⟩
  · intro b hb
    exact h.noLeak b (by show t.heap b ≠ none; rw [← hh]; exact hb)
  · obtain ⟨abs, e1, e2⟩ := h.live x a hx
    exact ⟨abs, e1, e2.mono hs hsched (by show t'.heap _ = t.heap _; rw [hh])⟩

/-- An exception during allocation leaves at most one new block behind. -/
theorem throw_alloc {L : List Nat} {o : Nat → Option MArr} {s s' t : St T} {A : AState T} (hc : Calm L s t) (hr : (⟨o, t⟩ : World T).Rep A)
    (hse : SameExcept s.next s s') (hsane : SaneHeap s') : ∃ L' t', L'.length ≤ L.length + 1 ∧ Calm L' s' t' ∧ (⟨o, t'⟩ : World T).Rep A := by
  have hts := hr.valid.sane
  have hnew : t.heap s.next = none := hts.2 _ (by show t.next ≤ _; rw [hc.next])
  have hnL : s.next ∉ L := fun hm => by have := (hc.leaked _ hm).2.2; omega
  have hL : ∀ b ∈ L, t.heap b = none ∧ s'.heap b ≠ none ∧ b < s'.next := by
    intro b hb
    obtain ⟨e1, e2, e3⟩ := hc.leaked b hb
    have he : s'.heap b ≠ none := by rw [hse b (by omega)]; exact e2
    refine ⟨e1, he, ?_⟩
    by_contra hn
    exact he (hsane.2 b (by omega))
  have ht' : SaneHeap ({ t with next := s'.next } : St T) := by
    refine ⟨hsane.1, fun b hb => ?_⟩
    show t.heap b = none
    by_cases hbL : b ∈ L
    · exact (hc.leaked b hbL).1
    · by_cases hbn : b = s.next
      · rw [hbn]; exact hnew
      · rw [hc.same b hbL, ← hse b hbn]
        exact hsane.2 b hb
  have hrep := hr.reheap (t' := { t with next := s'.next }) rfl ht' hr.sched
  by_cases hnone : s'.heap s.next = none
  · refine ⟨L, { t with next := s'.next }, by omega, ⟨hr.sched, rfl, hL, fun b hb => ?_⟩, hrep⟩
    show t.heap b = s'.heap b
    by_cases hbn : b = s.next
    · rw [hbn, hnew, hnone]
    · rw [hse b hbn]; exact hc.same b hb
  · refine ⟨s.next :: L, { t with next := s'.next }, by simp, ⟨hr.sched, rfl, fun b hb => ?_, fun b hb => ?_⟩, hrep⟩
    · rcases List.mem_cons.mp hb with rfl | hb
      · refine ⟨hnew, hnone, ?_⟩
        by_contra hn
        exact hnone (hsane.2 _ (by omega))
      · exact hL b hb
    · rw [List.mem_cons, not_or] at hb
      show t.heap b = s'.heap b
      rw [hse b hb.1]; exact hc.same b hb.2

/-! ### Commands that complete -/

/-- The same objects, and related memories. -/
def WCalm (L : List Nat) (w wt : World T) : Prop := w.objs = wt.objs ∧ Calm L w.st wt.st

theorem mem_done {α : Type} {L : List Nat} {w wt w' wt' : World T} {e : Exec T α} (he : Agree e) (h : WCalm L w wt) (h1 : w.mem e = .ok w')
    (h2 : wt.mem e = .ok wt') : WCalm L w' wt' := by
  unfold World.mem at h1 h2
  cases hs : e w.st with
  | ok v s =>
    cases ht : e wt.st with
    | ok v' t =>
      rw [hs] at h1; rw [ht] at h2
      cases h1; cases h2
      exact ⟨h.1, (he L _ _ _ _ _ _ h.2 hs ht).2⟩
    | throw t => rw [ht] at h2; cases h2
    | assertFail t => rw [ht] at h2; cases h2
    | ub => rw [ht] at h2; cases h2
  | throw s => rw [hs] at h1; cases h1
  | assertFail s => rw [hs] at h1; cases h1
  | ub => rw [hs] at h1; cases h1

theorem WCalm.set {L : List Nat} {w wt : World T} (h : WCalm L w wt) (x : Nat) (a : Option MArr) {s t : St T} (hs : Calm L s t) :
    WCalm L (w.set x a s) (wt.set x a t) := ⟨by simp only [World.set, h.1], hs⟩

theorem member_done {L : List Nat} {w wt w' wt' : World T} {m : Member T Unit} (hm : AgreeM m) (h : WCalm L w wt) (x : Nat) (a : MArr)
    (h1 : w.member x (m a w.st) = .ok w') (h2 : wt.member x (m a wt.st) = .ok wt') : WCalm L w' wt' := by
  have key := hm L a w.st wt.st
  unfold World.member at h1 h2
  rcases hs : m a w.st with ⟨r, b⟩
  rcases ht : m a wt.st with ⟨r', b'⟩
  rw [hs] at h1 key; rw [ht] at h2 key
  cases r with
  | ok v s =>
    cases r' with
    | ok v' t =>
      cases h1; cases h2
      obtain ⟨_, e1, e2⟩ := key v s v' t h.2 rfl rfl
      simp only at e2
      subst e2
      exact h.set x _ e1
    | throw t => cases h2
    | assertFail t => cases h2
    | ub => cases h2
  | throw s => cases h1
  | assertFail s => cases h1
  | ub => cases h1

theorem Agree.copyDispatch (dbg : Bool) (n : Nat) (src dst : Desc) : Agree (copyDispatch dbg n src dst : Exec T Unit) := by
  induction n generalizing dst src with
  | zero => exact Agree.bind (Agree.load _) (fun _ => Agree.assignCell _ _)
  | succ n ih =>
    refine Agree.bind (Agree.lift _) fun _ => Agree.bind (Agree.lift _) fun _ => Agree.bind (Agree.lift _) fun _ => Agree.stdCopy (fun i o => ?_) _ _ _
    exact Agree.bind (Agree.lift _) fun _ => Agree.bind (Agree.lift _) fun _ => ih _ _

theorem Agree.mapSeq (f : T → T) (ps : List Ptr) : Agree (mapSeq f ps) := by
  induction ps with
  | nil => exact Agree.pure ()
  | cons p ps ih => exact Agree.bind (Agree.load _) fun _ => Agree.bind (Agree.assignCell _ _) fun _ => ih

theorem Agree.assignLoop (n : Nat) (p : Ptr) (input : List T) : Agree (assignLoop n p input) := by
  induction n generalizing p input with
  | zero => exact Agree.pure ()
  | succ n ih =>
    cases input with
    | nil => exact Agree.pure ()
    | cons v vs => exact Agree.bind (Agree.assignCell _ _) fun _ => ih _ _

theorem Agree.writeElem (dbg : Bool) (d : Desc) (idx : List Int) (v : T) : Agree (writeElem dbg d idx v) :=
  Agree.bind (Agree.lift _) fun _ => Agree.assignCell _ _

theorem Agree.writeChain (dbg : Bool) (d : Desc) (idx : List Int) (v : T) : Agree (writeChain dbg d idx v) :=
  Agree.bind (Agree.lift _) fun _ => Agree.assignCell _ _

theorem Agree.stdForEach {σ : Type} {body : It → σ → Exec T σ} (hb : ∀ i q, Agree (body i q)) (n : Nat) (i : It) (q : σ) : Agree (stdForEach body n i q) := by
  induction n generalizing i q with
  | zero => exact Agree.pure _
  | succ n ih => exact Agree.bind (hb i q) (fun _ => ih _ _)

theorem Agree.forEachX {σ : Type} (dbg : Bool) {f : σ → T → Exec T (T × σ)} (hf : ∀ q v, Agree (f q v)) (n : Nat) (a : Desc) (q : σ) :
    Agree (forEachX dbg f n a q) := by
  induction n generalizing a q with
  | zero => exact Agree.bind (Agree.load _) fun _ => Agree.bind (hf _ _) fun _ => Agree.bind (Agree.assignCell _ _) fun _ => Agree.pure _
  | succ n ih =>
    exact Agree.bind (Agree.lift _) fun _ => Agree.bind (Agree.lift _) fun _ =>
      Agree.stdForEach (fun _ _ => Agree.bind (Agree.lift _) fun _ => ih _ _) _ _ _

theorem Agree.forEach (dbg : Bool) (f : T → T) (n : Nat) (a : Desc) : Agree (forEach dbg f n a) :=
  Agree.forEachX dbg (fun _ _ => Agree.pure _) n a ()

/-- An operation of C47 that completes in both. -/
theorem step_done (dbg : Bool) (dflt : T) {L : List Nat} {w wt w' wt' : World T} (h : WCalm L w wt) (op : Op T)
    (h1 : w.step dbg dflt op = .ok w') (h2 : wt.step dbg dflt op = .ok wt') : WCalm L w' wt' := by
  have ho := h.1
  cases op with
  | construct x i =>
    simp only [World.step, ho] at h1 h2
    cases hi : i.ctor wt.objs with
    | none => rw [hi] at h1; cases h1
    | some c =>
      rw [hi] at h1 h2
      simp only at h1 h2
      cases hs : c.run dbg dflt w.st <;> rw [hs] at h1 <;> cases h1
      cases ht : c.run dbg dflt wt.st <;> rw [ht] at h2 <;> cases h2
      obtain ⟨rfl, e⟩ := Agree.ctor dbg dflt c L _ _ _ _ _ _ h.2 hs ht
      exact h.set x _ e
  | destroy x =>
    simp only [World.step, ho] at h1 h2
    cases hx : wt.objs x with
    | none => rw [hx] at h1; cases h1
    | some a =>
      rw [hx] at h1 h2
      simp only at h1 h2
      cases hs : a.deallocateSpace w.st <;> rw [hs] at h1 <;> cases h1
      cases ht : a.deallocateSpace wt.st <;> rw [ht] at h2 <;> cases h2
      obtain ⟨_, e⟩ := Agree.deallocateSpace a L _ _ _ _ _ _ h.2 hs ht
      exact h.set x _ e
  | assign x y =>
    simp only [World.step, ho] at h1 h2
    cases hx : wt.objs x <;> rw [hx] at h1 h2
    · cases h1
    cases hy : wt.objs y <;> rw [hy] at h1 h2
    · cases h1
    refine mem_done ?_ h h1 h2
    unfold MArr.assignFrom assignOp
    split
    · split
      · exact Agree.pure _
      · exact Agree.assignRef _ _ _ _
    · exact Agree.pure _
  | assignPart x d y d' => exact mem_done (Agree.assignRef _ _ _ _) h h1 h2
  | copyArray x d y d' => exact mem_done (Agree.bind (Agree.lift _) fun _ => Agree.copyDispatch _ _ _ _) h h1 h2
  | fill x input =>
    simp only [World.step, ho] at h1 h2
    cases hx : wt.objs x <;> rw [hx] at h1 h2
    · cases h1
    exact mem_done (Agree.assignLoop _ _ _) h h1 h2
  | write x d idx v => exact mem_done (Agree.writeElem _ _ _ _) h h1 h2
  | read x d idx => exact mem_done (Agree.bind (Agree.lift _) fun _ => Agree.load _) h h1 h2
  | forEach x d f => exact mem_done (Agree.forEach _ _ _ _) h h1 h2
  | resize x rs =>
    simp only [World.step, ho] at h1 h2
    cases hx : wt.objs x <;> rw [hx] at h1 h2
    · cases h1
    exact member_done (AgreeM.resize _ _ _) h x _ h1 h2
  | resizeList x es =>
    simp only [World.step, ho] at h1 h2
    cases hx : wt.objs x <;> rw [hx] at h1 h2
    · cases h1
    exact member_done (AgreeM.resizeExtents _ _ _) h x _ h1 h2
  | reindex x bs =>
    simp only [World.step, ho] at h1 h2
    cases hx : wt.objs x with
    | none => rw [hx] at h1; cases h1
    | some a =>
      rw [hx] at h1 h2
      simp only [World.header] at h1 h2
      cases hr : a.ref.reindexList bs <;> rw [hr] at h1 h2 <;> cases h1
      cases h2
      exact h.set x _ h.2
  | reindexAll x b =>
    simp only [World.step, ho] at h1 h2
    cases hx : wt.objs x <;> rw [hx] at h1 h2
    · cases h1
    cases h1; cases h2
    exact h.set x _ h.2
  | reshape x es =>
    simp only [World.step, ho] at h1 h2
    cases hx : wt.objs x with
    | none => rw [hx] at h1; cases h1
    | some a =>
      rw [hx] at h1 h2
      simp only [World.header] at h1 h2
      cases hr : a.ref.reshape dbg es <;> rw [hr] at h1 h2 <;> cases h1
      cases h2
      exact h.set x _ h.2

theorem simple_inv {dbg : Bool} {dflt : T} {w w' : World T} {op : Op T} {o : CObs T} (h : w.simple dbg dflt op = some (o, w')) :
    o = .basic .unit ∧ w.step dbg dflt op = .ok w' := by
  unfold World.simple at h
  cases hs : w.step dbg dflt op <;> rw [hs] at h <;> simp only [Result.ok?, Option.map_some, Option.map_none] at h <;> cases h
  exact ⟨rfl, rfl⟩

theorem WCalm.lookup {L : List Nat} {w wt : World T} (h : WCalm L w wt) (dbg : Bool) (x : Nat) (ss : List Sel) : w.lookup dbg x ss = wt.lookup dbg x ss := by
  unfold World.lookup; rw [h.1]

theorem on_inv {dbg : Bool} {dflt : T} {eq lt : T → T → Bool} {w w' : World T} {x : Nat} {op : AOp T} {o : CObs T} {a : MArr} (hx : w.objs x = some a)
    (h : w.exec dbg dflt eq lt (.on x op) = some (o, w')) :
    ∃ o' a' s', concStep dbg dflt a w.st op = some (o', a', s') ∧ o = .basic o' ∧ w' = w.set x (some a') s' := by
  simp only [World.exec, hx, Option.bind_some] at h
  cases hc : concStep dbg dflt a w.st op with
  | none => rw [hc] at h; cases h
  | some r =>
    rw [hc] at h
    simp only [Option.map_some, Option.some.injEq, Prod.mk.injEq] at h
    exact ⟨r.1, r.2.1, r.2.2, rfl, h.1.symm, h.2.symm⟩

theorem on_mem {w wt w' wt' : World T} {L : List Nat} (h : WCalm L w wt) {e : Exec T Unit} (he : Agree e) {x : Nat} {a a' : MArr}
    (hx : wt.objs x = some a) {o' : Obs T} {s' : St T} (hc : (Out.val? (e wt.st)).map (fun r => (Obs.unit, a, r.2)) = some (o', a', s'))
    (hw : wt' = wt.set x (some a') s') (h1 : w.mem e = .ok w') : CObs.basic o' = .basic .unit ∧ WCalm L w' wt' := by
  cases ht : e wt.st <;> rw [ht] at hc <;> simp only [Out.val?, Option.map_some, Option.map_none] at hc <;> cases hc
  refine ⟨rfl, mem_done he h h1 ?_⟩
  rw [World.set_self hx] at hw
  unfold World.mem
  rw [ht, hw]

/-- A command that may throw, where it completes. -/
theorem cmd_done (dbg : Bool) (dflt : T) (eq lt : T → T → Bool) {L : List Nat} {w wt w' wt' : World T} (h : WCalm L w wt) (c : Cmd T) {o : CObs T}
    (h1 : w.mayThrow dbg dflt c = some (.ok w')) (h2 : wt.exec dbg dflt eq lt c = some (o, wt')) : o = .basic .unit ∧ WCalm L w' wt' := by
  have hl := h.lookup dbg
  have base : ∀ op, w.step dbg dflt op = .ok w' → wt.simple dbg dflt op = some (o, wt') → o = .basic .unit ∧ WCalm L w' wt' := by
    intro op e1 e2
    obtain ⟨e3, e4⟩ := simple_inv e2
    exact ⟨e3, step_done dbg dflt h op e1 e4⟩
  cases c with
  | construct x i =>
    cases i with
    | default n al => simp only [World.mayThrow, Option.some.injEq] at h1; exact base _ h1 h2
    | extents n es so al => simp only [World.mayThrow, Option.some.injEq] at h1; exact base _ h1 h2
    | gen n rs so al => simp only [World.mayThrow, Option.some.injEq] at h1; exact base _ h1 h2
    | copy y => simp only [World.mayThrow, Option.some.injEq] at h1; exact base _ h1 h2
    | convert y ss so al =>
      simp only [World.mayThrow, Option.some.injEq, hl] at h1
      simp only [World.exec] at h2
      cases hd : wt.lookup dbg y ss <;> rw [hd] at h1 h2
      · cases h1
      · exact base _ h1 h2
  | destroy x => simp only [World.mayThrow, Option.some.injEq] at h1; exact base _ h1 h2
  | on x op =>
    simp only [World.mayThrow, h.1] at h1
    cases hx : wt.objs x with
    | none => rw [hx] at h1; cases h1
    | some a =>
      rw [hx] at h1
      obtain ⟨o', a', s', e1, rfl, e3⟩ := on_inv hx h2
      cases op with
      | write idx v => simp only [Option.some.injEq] at h1; exact on_mem h (Agree.writeElem _ _ _ _) hx e1 e3 h1
      | writeChain idx v => simp only [Option.some.injEq] at h1; exact on_mem h (Agree.writeChain _ _ _ _) hx e1 e3 h1
      | assign input =>
        simp only [Option.some.injEq, World.step, h.1, hx] at h1
        exact on_mem h (Agree.assignLoop _ _ _) hx e1 e3 h1
      | forEach f => simp only [Option.some.injEq] at h1; exact on_mem h (Agree.forEach _ _ _ _) hx e1 e3 h1
      | resize rs =>
        simp only [Option.some.injEq, World.step, h.1, hx] at h1
        simp only [concStep] at e1
        rcases hr : MArr.resize dbg dflt ⟨a.ref.numDims, rs⟩ a wt.st with ⟨r, b⟩
        rw [hr] at e1
        cases r <;> simp only [Out.val?, Option.map_some, Option.map_none] at e1 <;> cases e1
        refine ⟨rfl, member_done (AgreeM.resize _ _ _) h x a h1 ?_⟩
        rw [hr, e3]; rfl
      | resizeList es =>
        simp only [Option.some.injEq, World.step, h.1, hx] at h1
        simp only [concStep] at e1
        rcases hr : MArr.resizeExtents dbg dflt es a wt.st with ⟨r, b⟩
        rw [hr] at e1
        cases r <;> simp only [Out.val?, Option.map_some, Option.map_none] at e1 <;> cases e1
        refine ⟨rfl, member_done (AgreeM.resizeExtents _ _ _) h x a h1 ?_⟩
        rw [hr, e3]; rfl
      | read idx => cases h1
      | readChain idx => cases h1
      | reindex bs => cases h1
      | reindexAll b => cases h1
      | reshape es => cases h1
      | query => cases h1
  | assign x y => simp only [World.mayThrow, Option.some.injEq] at h1; exact base _ h1 h2
  | assignPart x ss y ss' =>
    simp only [World.mayThrow, Option.some.injEq, hl] at h1
    simp only [World.exec] at h2
    cases hd : wt.lookup dbg x ss <;> rw [hd] at h1 h2
    · cases h1
    cases hd' : wt.lookup dbg y ss' <;> rw [hd'] at h1 h2
    · cases h1
    exact base _ h1 h2
  | copyArray x ss y ss' =>
    simp only [World.mayThrow, Option.some.injEq, hl] at h1
    simp only [World.exec] at h2
    cases hd : wt.lookup dbg x ss <;> rw [hd] at h1 h2
    · cases h1
    cases hd' : wt.lookup dbg y ss' <;> rw [hd'] at h1 h2
    · cases h1
    exact base _ h1 h2
  | write x ss idx v =>
    simp only [World.mayThrow, Option.some.injEq, hl] at h1
    simp only [World.exec] at h2
    cases hd : wt.lookup dbg x ss <;> rw [hd] at h1 h2
    · cases h1
    exact base _ h1 h2
  | forEach x ss f =>
    simp only [World.mayThrow, Option.some.injEq, hl] at h1
    simp only [World.exec] at h2
    cases hd : wt.lookup dbg x ss <;> rw [hd] at h1 h2
    · cases h1
    exact base _ h1 h2
  | read x ss idx => cases h1
  | traverse x ss => cases h1
  | equal x ss y ss' => cases h1
  | less x ss y ss' => cases h1
  | shape x ss => cases h1

theorem readElem_calm {L : List Nat} {s t t' : St T} (h : Calm L s t) {r : Res Ptr} {v : T} (hr : (Exec.lift r >>= load) t = .ok v t') :
    (Exec.lift r >>= load) s = .ok v s ∧ t' = t := by
  obtain ⟨p, t1, e1, e2⟩ := bind_ok_inv hr
  cases r with
  | ok q =>
    cases e1
    unfold load at e2
    cases hg : t.get? p with
    | none => rw [hg] at e2; cases e2
    | some u =>
      rw [hg] at e2; cases e2
      exact ⟨by rw [Exec.lift_ok, pure_bind]; exact load_ok (h.get hg), rfl⟩
  | assertFail => cases e1
  | ub => cases e1

theorem res_val? {α : Type} {r : Res α} {v : α} (h : Res.val? r = some v) : r = .ok v := by
  cases r <;> simp only [Res.val?, Option.some.injEq] at h
  · rw [h]
  · cases h
  · cases h

theorem out_val? {α : Type} {r : Out T α} {v : α × St T} (h : Out.val? r = some v) : r = .ok v.1 v.2 := by
  cases r <;> simp only [Out.val?, Option.some.injEq] at h
  · rw [← h]
  · cases h
  · cases h
  · cases h

/-- A command that never throws. -/
theorem cmd_reads (dbg : Bool) (dflt : T) (eq lt : T → T → Bool) {L : List Nat} {w wt wt' : World T} (h : WCalm L w wt) (c : Cmd T) {o : CObs T}
    (h1 : w.mayThrow dbg dflt c = none) (h2 : wt.exec dbg dflt eq lt c = some (o, wt')) :
    ∃ w', w.exec dbg dflt eq lt c = some (o, w') ∧ WCalm L w' wt' := by
  have hl := h.lookup dbg
  obtain ⟨wo, ws⟩ := w
  obtain ⟨wto, wts⟩ := wt
  obtain ⟨ho, hc⟩ := h
  simp only at ho hc
  subst ho
  cases c with
  | construct x i => cases i <;> cases h1
  | destroy x => cases h1
  | assign x y => cases h1
  | assignPart x ss y ss' => cases h1
  | copyArray x ss y ss' => cases h1
  | write x ss idx v => cases h1
  | forEach x ss f => cases h1
  | on x op =>
    simp only [World.mayThrow] at h1
    cases hx : wo x with
    | none => rw [hx] at h1; cases h1
    | some a =>
      rw [hx] at h1
      obtain ⟨o', a', s', e1, rfl, rfl⟩ := on_inv (by exact hx) h2
      simp only at e1
      have fin : ∀ s1, concStep dbg dflt a ws op = some (o', a', s1) → Calm L s1 s' →
          ∃ w', World.exec dbg dflt eq lt ⟨wo, ws⟩ (.on x op) = some (.basic o', w') ∧ WCalm L w' (World.set ⟨wo, wts⟩ x (some a') s') := by
        intro s1 f1 f2
        exact ⟨World.set ⟨wo, ws⟩ x (some a') s1, by simp only [World.exec, hx, Option.bind_some, f1, Option.map_some], rfl, f2⟩
      cases op with
      | read idx =>
        simp only [concStep, Option.map_eq_some_iff] at e1
        obtain ⟨r, e1, e2⟩ := e1
        obtain ⟨g1, g2⟩ := readElem_calm hc (out_val? e1)
        simp only [Prod.mk.injEq] at e2
        obtain ⟨rfl, rfl, rfl⟩ := e2
        exact fin ws (by simp only [concStep]; rw [show readElem dbg a.ref.desc idx ws = .ok r.1 ws from g1]; rfl) (by rw [g2]; exact hc)
      | readChain idx =>
        simp only [concStep, Option.map_eq_some_iff] at e1
        obtain ⟨r, e1, e2⟩ := e1
        have e3 := out_val? e1
        simp only [Prod.mk.injEq] at e2
        obtain ⟨rfl, rfl, rfl⟩ := e2
        unfold MultiArray.readChain at e3
        obtain ⟨d, t1, f1, f2⟩ := bind_ok_inv e3
        cases hch : accessChain dbg idx a.ref.desc with
        | ok q =>
          rw [hch] at f1
          cases f1
          obtain ⟨g1, g2⟩ := readElem_calm (r := .ok d.base) hc f2
          refine fin ws ?_ (by rw [g2]; exact hc)
          have : MultiArray.readChain dbg a.ref.desc idx ws = .ok r.1 ws := by
            unfold MultiArray.readChain
            rw [hch]
            exact g1
          simp only [concStep, this]; rfl
        | assertFail => rw [hch] at f1; cases f1
        | ub => rw [hch] at f1; cases f1
      | reindex bs =>
        simp only [concStep, Option.map_eq_some_iff] at e1
        obtain ⟨r, e1, e2⟩ := e1
        simp only [Prod.mk.injEq] at e2
        obtain ⟨rfl, rfl, rfl⟩ := e2
        exact fin ws (by simp only [concStep, e1]; rfl) hc
      | reindexAll b =>
        simp only [concStep, Option.some.injEq, Prod.mk.injEq] at e1
        obtain ⟨rfl, rfl, rfl⟩ := e1
        exact fin ws rfl hc
      | reshape es =>
        simp only [concStep, Option.map_eq_some_iff] at e1
        obtain ⟨r, e1, e2⟩ := e1
        simp only [Prod.mk.injEq] at e2
        obtain ⟨rfl, rfl, rfl⟩ := e2
        exact fin ws (by simp only [concStep, e1]; rfl) hc
      | query =>
        simp only [concStep, Option.map_eq_some_iff] at e1
        obtain ⟨r, e1, e2⟩ := e1
        simp only [Prod.mk.injEq] at e2
        obtain ⟨rfl, rfl, rfl⟩ := e2
        exact fin ws (by simp only [concStep, e1]; rfl) hc
      | write idx v => cases h1
      | writeChain idx v => cases h1
      | assign input => cases h1
      | forEach f => cases h1
      | resize rs => cases h1
      | resizeList es => cases h1
  | read x ss idx =>
    simp only [World.exec, hl, Option.bind_eq_some_iff, Option.map_eq_some_iff] at h2 ⊢
    obtain ⟨d, hd, r, e1, e2⟩ := h2
    obtain ⟨g1, g2⟩ := readElem_calm hc (out_val? e1)
    simp only [Prod.mk.injEq] at e2
    obtain ⟨rfl, rfl⟩ := e2
    exact ⟨⟨wo, ws⟩, ⟨d, hd, (r.1, ws), by rw [show readElem dbg d idx ws = .ok r.1 ws from g1]; rfl, rfl⟩, rfl, by rw [g2]; exact hc⟩
  | traverse x ss =>
    simp only [World.exec, hl, Option.bind_eq_some_iff, Option.map_eq_some_iff] at h2 ⊢
    obtain ⟨d, hd, ps, e1, qs, e2, vs, e3, e4⟩ := h2
    simp only [Prod.mk.injEq] at e4
    obtain ⟨rfl, rfl⟩ := e4
    exact ⟨⟨wo, ws⟩, ⟨d, hd, ps, e1, qs, e2, vs, hc.mapM qs e3, rfl⟩, rfl, hc⟩
  | equal x ss y ss' =>
    simp only [World.exec, hl, Option.bind_eq_some_iff, Option.map_eq_some_iff] at h2 ⊢
    obtain ⟨d, hd, d', hd', b, e1, e2⟩ := h2
    simp only [Prod.mk.injEq] at e2
    obtain ⟨rfl, rfl⟩ := e2
    have := Reads.equalRef dbg eq d.extents.length d d' L _ _ _ hc (res_val? e1)
    exact ⟨⟨wo, ws⟩, ⟨d, hd, d', hd', b, by simp only [this]; rfl, rfl⟩, rfl, hc⟩
  | less x ss y ss' =>
    simp only [World.exec, hl, Option.bind_eq_some_iff, Option.map_eq_some_iff] at h2 ⊢
    obtain ⟨d, hd, d', hd', b, e1, e2⟩ := h2
    simp only [Prod.mk.injEq] at e2
    obtain ⟨rfl, rfl⟩ := e2
    have := Reads.lessRef dbg lt d.extents.length d d' L _ _ _ hc (res_val? e1)
    exact ⟨⟨wo, ws⟩, ⟨d, hd, d', hd', b, by simp only [this]; rfl, rfl⟩, rfl, hc⟩
  | shape x ss =>
    simp only [World.exec, hl, Option.map_eq_some_iff] at h2 ⊢
    obtain ⟨d, hd, e2⟩ := h2
    simp only [Prod.mk.injEq] at e2
    obtain ⟨rfl, rfl⟩ := e2
    exact ⟨⟨wo, ws⟩, ⟨d, hd, rfl⟩, rfl, hc⟩

end MultiArray
