import Verif.Lemmas.ShareX
import Verif.Lemmas.Fair

/- Programs with shared storage, with exceptions: one command. -/
set_option autoImplicit false

namespace MultiArray
open Spec Props
variable {T : Type} {g : Ghost}

/-- The same variables, and related memories. -/
def SCalm (L : List Nat) (w wt : SWorld T) : Prop := w.vars = wt.vars ∧ Calm L w.st wt.st

theorem lookup_vars (dbg : Bool) (o : Nat → Option CVar) (s t : St T) (x : Nat) (ss : List Sel) :
    (⟨o, s⟩ : SWorld T).lookup dbg x ss = (⟨o, t⟩ : SWorld T).lookup dbg x ss := rfl

/-- A constructor command is one of the constructors. -/
theorem sctor_run (dbg : Bool) (dflt : T) (o : Nat → Option CVar) (i : CInit) :
    (∀ s : St T, (⟨o, s⟩ : SWorld T).ctor dbg dflt i = none) ∨ ∃ c : Ctor, ∀ s : St T, (⟨o, s⟩ : SWorld T).ctor dbg dflt i = some (c.run dbg dflt s) := by
  cases i with
  | default n al => exact .inr ⟨.default n al, fun _ => rfl⟩
  | extents n es so al => exact .inr ⟨.extents n es so al, fun _ => rfl⟩
  | gen n rs so al => exact .inr ⟨.gen n rs so al, fun _ => rfl⟩
  | copy y =>
    match hy : o y with
    | none => exact .inl fun s => by simp only [SWorld.ctor, hy]
    | some (.owner a) => exact .inr ⟨.copy 0 a, fun s => by simp only [SWorld.ctor, hy]; rfl⟩
    | some (.ref a) => exact .inl fun s => by simp only [SWorld.ctor, hy]
    | some (.view a) => exact .inl fun s => by simp only [SWorld.ctor, hy]
    | some (.sub a) => exact .inl fun s => by simp only [SWorld.ctor, hy]
    | some (.buffer p n) => exact .inl fun s => by simp only [SWorld.ctor, hy]
  | convert y ss so al =>
    by_cases hd : ∃ d, ∀ s : St T, (⟨o, s⟩ : SWorld T).lookup dbg y ss = some d
    · obtain ⟨d, hd⟩ := hd
      exact .inr ⟨.convert 0 d so al, fun s => by simp only [SWorld.ctor, hd, Option.map_some]; rfl⟩
    · refine .inl fun s => ?_
      simp only [SWorld.ctor]
      cases hs : (⟨o, s⟩ : SWorld T).lookup dbg y ss with
      | none => rfl
      | some d => exact absurd ⟨d, fun t => hs⟩ hd

theorem memX_done {α : Type} {L : List Nat} {o : Nat → Option CVar} {s t : St T} {e : Exec T α} (he : Agree e) (h : Calm L s t) {ob ob' : CObs T} {w' wt' : SWorld T}
    (h1 : (⟨o, s⟩ : SWorld T).memX e = .done ob w') (h2 : (⟨o, t⟩ : SWorld T).mem e (fun _ => .basic .unit) = some (ob', wt')) : ob = ob' ∧ SCalm L w' wt' := by
  unfold SWorld.memX at h1
  unfold SWorld.mem at h2
  simp only at h1 h2
  cases hs : e s with
  | ok v s1 =>
    cases ht : e t with
    | ok v' t1 =>
      rw [hs] at h1; rw [ht] at h2
      cases h1; cases h2
      exact ⟨rfl, rfl, (he L _ _ _ _ _ _ h hs ht).2⟩
    | throw t => rw [ht] at h2; cases h2
    | assertFail t => rw [ht] at h2; cases h2
    | ub => rw [ht] at h2; cases h2
  | throw s => rw [hs] at h1; cases h1
  | assertFail s => rw [hs] at h1; cases h1
  | ub => rw [hs] at h1; cases h1

theorem Agree.assignOp (dbg so : Bool) (d d' : Desc) : Agree (assignOp dbg so d d' : Exec T Unit) := by
  cases so
  · exact Agree.assignRef _ _ _ _
  · exact Agree.pure _

theorem Agree.copyArray (dbg : Bool) (d d' : Desc) : Agree (copyArray dbg d d' : Exec T Unit) :=
  Agree.bind (Agree.lift _) fun _ => Agree.copyDispatch _ _ _ _

/-- A command that may throw, where it completes. -/
theorem smay_done (dbg : Bool) (dflt : T) (eq lt : T → T → Bool) {L : List Nat} {o : Nat → Option CVar} {s t : St T} (h : Calm L s t) (c : SCmd T)
    {ob ob' : CObs T} {w' wt' : SWorld T} (h1 : (⟨o, s⟩ : SWorld T).mayThrow dbg dflt c = some (.done ob w'))
    (h2 : (⟨o, t⟩ : SWorld T).exec dbg dflt eq lt c = some (ob', wt')) : ob = ob' ∧ SCalm L w' wt' := by
  have hl : ∀ x ss, (⟨o, s⟩ : SWorld T).lookup dbg x ss = (⟨o, t⟩ : SWorld T).lookup dbg x ss := fun _ _ => rfl
  cases c with
  | construct x i =>
    simp only [SWorld.mayThrow, Option.some.injEq] at h1
    simp only [SWorld.exec] at h2
    rcases sctor_run dbg dflt o i with hn | ⟨c, hc⟩
    · rw [hn] at h1; cases h1
    · rw [hc] at h1 h2
      simp only [Option.bind_some] at h2
      cases hs : c.run dbg dflt s with
      | ok m s1 =>
        cases ht : c.run dbg dflt t with
        | ok m' t1 =>
          rw [hs] at h1; rw [ht] at h2
          cases h1; cases h2
          obtain ⟨e1, e2⟩ := Agree.ctor dbg dflt c L _ _ _ _ _ _ h hs ht
          subst e1
          exact ⟨rfl, rfl, e2⟩
        | throw t => rw [ht] at h2; cases h2
        | assertFail t => rw [ht] at h2; cases h2
        | ub => rw [ht] at h2; cases h2
      | throw s => rw [hs] at h1; cases h1
      | assertFail s => rw [hs] at h1; cases h1
      | ub => rw [hs] at h1; cases h1
  | resize x rs =>
    simp only [SWorld.mayThrow, Option.some.injEq] at h1
    simp only [SWorld.exec] at h2
    match hx : o x with
    | some (.owner a) =>
      simp only [hx] at h1 h2
      have key := AgreeM.resize dbg dflt ⟨a.ref.numDims, rs⟩ L a s t
      rcases hs : MArr.resize dbg dflt ⟨a.ref.numDims, rs⟩ a s with ⟨r, b⟩
      rcases ht : MArr.resize dbg dflt ⟨a.ref.numDims, rs⟩ a t with ⟨r', b'⟩
      rw [hs] at h1 key; rw [ht] at h2 key
      cases r with
      | ok v s1 =>
        cases r' with
        | ok v' t1 =>
          cases h1; cases h2
          obtain ⟨_, e1, e2⟩ := key v s1 v' t1 h rfl rfl
          simp only at e2
          subst e2
          exact ⟨rfl, rfl, e1⟩
        | throw t => cases h2
        | assertFail t => cases h2
        | ub => cases h2
      | throw s => cases h1
      | assertFail s => cases h1
      | ub => cases h1
    | none => simp only [hx] at h1; cases h1
    | some (.ref a) => simp only [hx] at h1; cases h1
    | some (.view a) => simp only [hx] at h1; cases h1
    | some (.sub a) => simp only [hx] at h1; cases h1
    | some (.buffer p n) => simp only [hx] at h1; cases h1
  | fill x input =>
    simp only [SWorld.mayThrow, Option.some.injEq] at h1
    simp only [SWorld.exec] at h2
    match hx : o x with
    | some (.owner a) => simp only [hx] at h1 h2; exact memX_done (Agree.assignLoop _ _ _) h h1 h2
    | some (.ref a) => simp only [hx] at h1 h2; exact memX_done (Agree.assignLoop _ _ _) h h1 h2
    | none => simp only [hx] at h1; cases h1
    | some (.view a) => simp only [hx] at h1; cases h1
    | some (.sub a) => simp only [hx] at h1; cases h1
    | some (.buffer p n) => simp only [hx] at h1; cases h1
  | assign x ss y ss' =>
    simp only [SWorld.mayThrow, Option.some.injEq, hl] at h1
    simp only [SWorld.exec] at h2
    cases hd : (⟨o, t⟩ : SWorld T).lookup dbg x ss <;> simp only [hd] at h1 h2
    · cases h1
    cases hd' : (⟨o, t⟩ : SWorld T).lookup dbg y ss' <;> simp only [hd'] at h1 h2
    · cases h1
    exact memX_done (Agree.assignOp _ _ _ _) h h1 h2
  | copyArray x ss y ss' =>
    simp only [SWorld.mayThrow, Option.some.injEq, hl] at h1
    simp only [SWorld.exec] at h2
    cases hd : (⟨o, t⟩ : SWorld T).lookup dbg x ss <;> simp only [hd] at h1 h2
    · cases h1
    cases hd' : (⟨o, t⟩ : SWorld T).lookup dbg y ss' <;> simp only [hd'] at h1 h2
    · cases h1
    exact memX_done (Agree.copyArray _ _ _) h h1 h2
  | write x ss idx v =>
    simp only [SWorld.mayThrow, Option.some.injEq, hl] at h1
    simp only [SWorld.exec] at h2
    cases hd : (⟨o, t⟩ : SWorld T).lookup dbg x ss <;> simp only [hd] at h1 h2
    · cases h1
    exact memX_done (Agree.writeElem _ _ _ _) h h1 h2
  | forEach x ss f =>
    simp only [SWorld.mayThrow, Option.some.injEq, hl] at h1
    simp only [SWorld.exec] at h2
    cases hd : (⟨o, t⟩ : SWorld T).lookup dbg x ss <;> simp only [hd] at h1 h2
    · cases h1
    exact memX_done (Agree.forEach _ _ _ _) h h1 h2
  | buffer x vs => cases h1
  | refTo x y first n es so => cases h1
  | refGen x y first n rs so => cases h1
  | refCopy x y => cases h1
  | hold x y ss xs => cases h1
  | holdCopy x y => cases h1
  | holdSub x y i => cases h1
  | destroy x => cases h1
  | reindex x bs => cases h1
  | reshape x es => cases h1
  | read x ss idx => cases h1
  | traverse x ss => cases h1
  | equal x ss y ss' => cases h1
  | less x ss y ss' => cases h1
  | shape x ss => cases h1

/-! ### Commands that throw -/

/-- What a command that may throw does. -/
def SThrowOK (L : List Nat) (A : SState T) (c : SCmd T) (r : SXRes T) : Prop :=
  (∃ ob w', r = .done ob w') ∨
  (∃ w' L' A', r = .threw w' ∧ A.Interrupted c A' ∧ InvS L' w' A' ∧ L'.length ≤ L.length + (if c.allocates then 1 else 0))

theorem sthrowOK_mem {L : List Nat} {o : Nat → Option CVar} {s : St T} {A : SState T} {c : SCmd T} {e : Exec T Unit} {P : SState T → Prop}
    (h : OkOrS L g o s e P) (hP : ∀ A', P A' → A.Interrupted c A') : SThrowOK L A c ((⟨o, s⟩ : SWorld T).memX e) := by
  rcases h with ⟨s', h⟩ | ⟨s', t', A', h1, h2, h3, h4⟩
  · exact .inl ⟨.basic .unit, ⟨o, s'⟩, by simp only [SWorld.memX, h]⟩
  · exact .inr ⟨⟨o, s'⟩, L, A', by simp only [SWorld.memX, h1], hP A' h2, ⟨t', g, h3, h4⟩, by omega⟩

theorem sthrowOK_ctor (dbg : Bool) (dflt : T) {L : List Nat} {o : Nat → Option CVar} {s t : St T} {A : SState T} (hc : Calm L s t)
    (hr : RepG g (⟨o, t⟩ : SWorld T) A) (x : Nat) (i : CInit) {e : Exec T MArr} (hi : (⟨o, s⟩ : SWorld T).ctor dbg dflt i = some (e s)) (hm : Mono e)
    (h : (∃ m s', e s = .ok m s') ∨ (∃ s', e s = .throw s' ∧ SameExcept s.next s s' ∧ SaneHeap s')) {r : SXRes T}
    (h1 : (⟨o, s⟩ : SWorld T).mayThrow dbg dflt (.construct x i) = some r) : SThrowOK L A (.construct x i) r := by
  simp only [SWorld.mayThrow, Option.some.injEq, hi] at h1
  rcases h with ⟨m, s', h⟩ | ⟨s', h2, h3, h4⟩
  · simp only [h] at h1
    exact .inl ⟨_, _, h1.symm⟩
  · simp only [h2] at h1
    have hmono := hm s
    rw [h2] at hmono
    obtain ⟨L', t', e1, e2, e3⟩ := throw_allocS hc hr h3 h4 hmono
    exact .inr ⟨_, L', A, h1.symm, rfl, ⟨t', g, e2, e3⟩, e1⟩

theorem smay_throw (dbg : Bool) (dflt : T) {L : List Nat} {o : Nat → Option CVar} {s t : St T} {A : SState T} (hc : Calm L s t)
    (h : RepG g (⟨o, t⟩ : SWorld T) A) (c : SCmd T) (hleg : A.Legal c) {r : SXRes T}
    (h1 : (⟨o, s⟩ : SWorld T).mayThrow dbg dflt c = some r) : SThrowOK L A c r := by
  have hss : SaneHeap s := hc.sane h.mem.sane
  have hl : ∀ x ss, (⟨o, s⟩ : SWorld T).lookup dbg x ss = (⟨o, t⟩ : SWorld T).lookup dbg x ss := fun _ _ => rfl
  cases c with
  | construct x i =>
    obtain ⟨hx, hi⟩ := hleg
    have fin : ∀ k : Ctor, k.Legal s → (∃ m s', k.run dbg dflt s = .ok m s') ∨ (∃ s', k.run dbg dflt s = .throw s' ∧ SameExcept s.next s s' ∧ SaneHeap s') := by
      intro k hk
      obtain ⟨s', e1, e2, e3, _⟩ := ctor_any dbg dflt hss k hk
      rcases e1 with ⟨m, e1, _⟩ | ⟨e1, _⟩
      · exact .inl ⟨m, s', e1⟩
      · exact .inr ⟨s', e1, e2, e3⟩
    cases i with
    | default n al => exact sthrowOK_ctor dbg dflt hc h x _ (e := (Ctor.default n al).run dbg dflt) rfl (Mono.ctor _ _ _) (fin (.default n al) trivial) h1
    | extents n es so al => exact sthrowOK_ctor dbg dflt hc h x _ (e := (Ctor.extents n es so al).run dbg dflt) rfl (Mono.ctor _ _ _) (fin (.extents n es so al) hi) h1
    | gen n rs so al =>
      exact sthrowOK_ctor dbg dflt hc h x _ (e := (Ctor.gen n rs so al).run dbg dflt) rfl (Mono.ctor _ _ _) (fin (.gen n rs so al) ⟨hi.1, hi.2.1⟩) h1
    | copy y =>
      obtain ⟨hh, hA⟩ := hi
      obtain ⟨a, vs, hy, hvs, _, _, hr⟩ := h.represents hA
      simp only at hy
      have ho := hc.owns hr.owns
      exact sthrowOK_ctor dbg dflt hc h x _ (e := (Ctor.copy _ a).run dbg dflt) (by simp only [SWorld.ctor, hy]; rfl) (Mono.ctor _ _ _) (fin (.copy _ a) ⟨vs, ho⟩) h1
    | convert y ss so al =>
      obtain ⟨p, hp, hpos, hso⟩ := hi
      obtain ⟨d, hd, hpo, hA, hlive⟩ := h.lookup dbg hp
      have hlen : d.extents.length = p.extents.length := by rw [hpo.extents]
      obtain ⟨m, s', _, _, _, _, _, e1, e2, e3, _⟩ := mkConvert_spec dbg dflt hpos hpo.shaped hlen
        (fun idx hi => by
          obtain ⟨v, hv, _⟩ := h.get hpo hlive (idx := idx) (by rw [← hpo.bases, ← hpo.extents]; exact hi)
          exact ⟨v, hc.get hv⟩) hss hso al
      refine sthrowOK_ctor dbg dflt hc h x _ (e := (Ctor.convert 0 d so al).run dbg dflt) ?_ (Mono.ctor _ _ _) ?_ h1
      · simp only [SWorld.ctor, hl, hd, Option.map_some]; rfl
      · rcases e1 with ⟨e1, _⟩ | ⟨e1, _⟩
        · exact .inl ⟨m, s', e1⟩
        · exact .inr ⟨s', e1, e2, e3⟩
  | resize x rs =>
    obtain ⟨hh, hx, hlen, hle, hrep⟩ := hleg
    obtain ⟨a, vs, hw, hvs, hb, hal, hr⟩ := h.represents hx
    simp only at hw
    have ho := hc.owns hr.owns
    have hd : a.ref.numDims = hh.extents.length := ho.reach.wf.ext_len
    simp only [SWorld.mayThrow, Option.some.injEq, hw, hd] at h1
    obtain ⟨m, s', _, _, _, _, _, h6, _, _⟩ := resize_any dbg dflt ho hss (by rw [hr.bases, hr.extents]; exact hrep) hlen hle
    rcases h6 with ⟨h6, _⟩ | ⟨h6, _, hse, hsane, _⟩
    · simp only [h6] at h1
      exact .inl ⟨_, _, h1.symm⟩
    · simp only [h6] at h1
      have hmono := MonoM.resize dbg dflt ⟨hh.extents.length, rs⟩ a s
      rw [h6] at hmono
      obtain ⟨L', t', e1, e2, e3⟩ := throw_allocS hc h hse hsane hmono
      refine .inr ⟨_, L', A, h1.symm, rfl, ⟨t', g, e2, ?_⟩, e1⟩
      have : (SWorld.setVar (⟨o, s⟩ : SWorld T) x (some (.owner a)) s').vars = o := by
        funext y
        simp only [SWorld.setVar]
        split
        · rename_i hy; rw [hy, hw]
        · rfl
      rw [this]
      exact e3
  | fill x input =>
    obtain ⟨hh, hx, hlive⟩ := hleg
    obtain ⟨vs, hvs⟩ := Option.ne_none_iff_exists'.mp hlive
    simp only [SWorld.mayThrow, Option.some.injEq] at h1
    have hP : ∀ A', (∃ k junk, k < input.length ∧ k < hh.extents.prod ∧
      A' = A.setStore hh.store (some (vs.take hh.first ++ input.take k ++ junk :: vs.drop (hh.first + k + 1)))) → A.Interrupted (.fill x input) A' := by
      rintro A' ⟨k, junk, f1, f2, f3⟩
      exact ⟨hh, vs, k, junk, hx, hvs, f1, f2, f3⟩
    rcases hx with hx | hx
    · obtain ⟨a, e1, e2, _⟩ := h.owner hx
      simp only at e1
      simp only [e1] at h1
      rw [← h1]
      exact sthrowOK_mem (fill_s hc h e2 hvs input) hP
    · obtain ⟨a, e1, e2⟩ := h.ref hx
      simp only at e1
      simp only [e1] at h1
      rw [← h1]
      exact sthrowOK_mem (fill_s hc h e2 hvs input) hP
  | assign x ss y ss' =>
    obtain ⟨p, q, hp, hq, he⟩ := hleg
    obtain ⟨d, hd, hpo, hA, lp⟩ := h.lookup dbg hp
    obtain ⟨d', hd', hqo, hA', lq⟩ := h.lookup dbg hq
    simp only [SWorld.mayThrow, Option.some.injEq, hl, hd, hd'] at h1
    rw [← h1]
    by_cases hself : x = y ∧ ss = [] ∧ ss' = []
    · refine .inl ⟨.basic .unit, ⟨o, s⟩, ?_⟩
      obtain ⟨rfl, rfl, rfl⟩ := hself
      rw [show (decide (x = x) && ([] : List Sel).isEmpty && ([] : List Sel).isEmpty) = true by simp]
      rfl
    · have hb : (decide (x = y) && ss.isEmpty && ss'.isEmpty) = false := by
        rw [Bool.eq_false_iff]
        intro hb
        simp only [Bool.and_eq_true, decide_eq_true_eq, List.isEmpty_iff] at hb
        exact hself ⟨hb.1.1, hb.1.2, hb.2⟩
      rw [hb]
      refine sthrowOK_mem (g := g) (P := fun A' => A.CopyStopped p q A') ?_ (fun A' hs => ⟨hself, p, q, hA, hA', hs⟩)
      unfold assignOp
      exact (parts_s hc h dbg hpo hqo lp lq he).1
  | copyArray x ss y ss' =>
    obtain ⟨p, q, hp, hq, he⟩ := hleg
    obtain ⟨d, hd, hpo, hA, lp⟩ := h.lookup dbg hp
    obtain ⟨d', hd', hqo, hA', lq⟩ := h.lookup dbg hq
    simp only [SWorld.mayThrow, Option.some.injEq, hl, hd, hd'] at h1
    rw [← h1]
    exact sthrowOK_mem (parts_s hc h dbg hpo hqo lp lq he).2 (fun A' hs => ⟨p, q, hA, hA', hs⟩)
  | write x ss idx v =>
    obtain ⟨p, hp, hin⟩ := hleg
    obtain ⟨d, hd, hpo, hA, lp⟩ := h.lookup dbg hp
    simp only [SWorld.mayThrow, Option.some.injEq, hl, hd] at h1
    rw [← h1]
    have hacc := accessElement_inBox dbg d idx hpo.shaped.1 (by rw [hpo.bases, hpo.extents]; exact hin)
    refine sthrowOK_mem (g := g) (P := fun A' => ∃ junk, A.put p idx junk = some A') ?_ (fun A' ⟨junk, hj⟩ => ⟨p, junk, hA, hj⟩)
    unfold OkOrS writeElem
    rw [hacc, Exec.lift_ok, pure_bind]
    rcases put_s hc h hpo lp hin v with ⟨s1, t1, A1, p1, p2, p3, p4, _⟩ | ⟨s1, t1, A1, junk, p1, p2, p3, p4⟩
    · exact .inl ⟨s1, p1⟩
    · exact .inr ⟨s1, t1, A1, p1, ⟨junk, p2⟩, p3, p4⟩
  | forEach x ss f =>
    obtain ⟨p, hp⟩ := hleg
    obtain ⟨d, hd, hpo, hA, lp⟩ := h.lookup dbg hp
    simp only [SWorld.mayThrow, Option.some.injEq, hl, hd] at h1
    rw [← h1]
    exact sthrowOK_mem (forEach_s hc h dbg hpo lp f) (fun A' hs => ⟨p, hA, hs⟩)
  | buffer x vs => cases h1
  | refTo x y first n es so => cases h1
  | refGen x y first n rs so => cases h1
  | refCopy x y => cases h1
  | hold x y ss xs => cases h1
  | holdCopy x y => cases h1
  | holdSub x y i => cases h1
  | destroy x => cases h1
  | reindex x bs => cases h1
  | reshape x es => cases h1
  | read x ss idx => cases h1
  | traverse x ss => cases h1
  | equal x ss y ss' => cases h1
  | less x ss y ss' => cases h1
  | shape x ss => cases h1

/-! ### Commands that never throw -/

theorem Calm.newBuffer {L : List Nat} {s t : St T} (h : Calm L s t) (vs : List T) : Calm L (SWorld.newBuffer s vs) (SWorld.newBuffer t vs) := by
  refine ⟨h.sched, by simp only [SWorld.newBuffer, h.next], fun b hb => ?_, fun b hb => ?_⟩
  · obtain ⟨e1, e2, e3⟩ := h.leaked b hb
    have hne : b ≠ s.next := by omega
    refine ⟨?_, ?_, ?_⟩
    · simp only [SWorld.newBuffer, h.next, hne, if_false]; exact e1
    · simp only [SWorld.newBuffer, hne, if_false]; exact e2
    · show b < s.next + 1
      omega
  · simp only [SWorld.newBuffer, h.next]
    split
    · rfl
    · exact h.same b hb

theorem Calm.freeBuffer {L : List Nat} {s t : St T} (h : Calm L s t) {p : Ptr} (hp : t.heap p.blk ≠ none) : Calm L (SWorld.freeBuffer s p) (SWorld.freeBuffer t p) := by
  have hnp := h.blk hp
  refine ⟨h.sched, h.next, fun b hb => ?_, fun b hb => ?_⟩
  · obtain ⟨e1, e2, e3⟩ := h.leaked b hb
    have hne : b ≠ p.blk := fun e => hnp (e ▸ hb)
    refine ⟨?_, ?_, e3⟩
    · simp only [SWorld.freeBuffer, hne, if_false]; exact e1
    · simp only [SWorld.freeBuffer, hne, if_false]; exact e2
  · simp only [SWorld.freeBuffer]
    split
    · rfl
    · exact h.same b hb

theorem scmd_reads (dbg : Bool) (dflt : T) (eq lt : T → T → Bool) {L : List Nat} {o : Nat → Option CVar} {s t : St T} {A : SState T} (hc : Calm L s t)
    (h : RepG g (⟨o, t⟩ : SWorld T) A) (c : SCmd T) (hleg : A.Legal c) {ob : CObs T} {wt' : SWorld T} (h1 : (⟨o, s⟩ : SWorld T).mayThrow dbg dflt c = none)
    (h2 : (⟨o, t⟩ : SWorld T).exec dbg dflt eq lt c = some (ob, wt')) :
    ∃ w', (⟨o, s⟩ : SWorld T).exec dbg dflt eq lt c = some (ob, w') ∧ SCalm L w' wt' := by
  have hl : ∀ x ss, (⟨o, s⟩ : SWorld T).lookup dbg x ss = (⟨o, t⟩ : SWorld T).lookup dbg x ss := fun _ _ => rfl
  have hd : ∀ x, (⟨o, s⟩ : SWorld T).dataOf x = (⟨o, t⟩ : SWorld T).dataOf x := fun _ => rfl
  have hb : ∀ x i, (⟨o, s⟩ : SWorld T).bracket dbg x i = (⟨o, t⟩ : SWorld T).bracket dbg x i := fun _ _ => rfl
  cases c with
  | construct x i => cases h1
  | resize x rs => cases h1
  | fill x input => cases h1
  | assign x ss y ss' => cases h1
  | copyArray x ss y ss' => cases h1
  | write x ss idx v => cases h1
  | forEach x ss f => cases h1
  | buffer x vs =>
    simp only [SWorld.exec, Option.some.injEq, Prod.mk.injEq] at h2 ⊢
    obtain ⟨rfl, rfl⟩ := h2
    exact ⟨_, ⟨rfl, rfl⟩, by simp only [SWorld.setVar, hc.next], hc.newBuffer vs⟩
  | refTo x y first n es so =>
    simp only [SWorld.exec, hd, Option.bind_eq_some_iff, Option.map_eq_some_iff, Prod.mk.injEq] at h2 ⊢
    obtain ⟨p, e1, a, e2, rfl, rfl⟩ := h2
    exact ⟨_, ⟨p, e1, a, e2, rfl, rfl⟩, rfl, hc⟩
  | refGen x y first n rs so =>
    simp only [SWorld.exec, hd, Option.bind_eq_some_iff, Option.map_eq_some_iff, Prod.mk.injEq] at h2 ⊢
    obtain ⟨p, e1, a, e2, rfl, rfl⟩ := h2
    exact ⟨_, ⟨p, e1, a, e2, rfl, rfl⟩, rfl, hc⟩
  | refCopy x y =>
    simp only [SWorld.exec] at h2 ⊢
    match hy : o y with
    | some (.owner a) => simp only [hy] at h2 ⊢; cases h2; exact ⟨_, rfl, rfl, hc⟩
    | some (.ref a) => simp only [hy] at h2 ⊢; cases h2; exact ⟨_, rfl, rfl, hc⟩
    | none => simp only [hy] at h2; cases h2
    | some (.view a) => simp only [hy] at h2; cases h2
    | some (.sub a) => simp only [hy] at h2; cases h2
    | some (.buffer p n) => simp only [hy] at h2; cases h2
  | hold x y ss xs =>
    simp only [SWorld.exec, hl, Option.bind_eq_some_iff, Option.map_eq_some_iff, Prod.mk.injEq] at h2 ⊢
    obtain ⟨p, e1, a, e2, rfl, rfl⟩ := h2
    exact ⟨_, ⟨p, e1, a, e2, rfl, rfl⟩, rfl, hc⟩
  | holdCopy x y =>
    simp only [SWorld.exec] at h2 ⊢
    match hy : o y with
    | some (.view a) => simp only [hy] at h2 ⊢; cases h2; exact ⟨_, rfl, rfl, hc⟩
    | none => simp only [hy] at h2; cases h2
    | some (.owner a) => simp only [hy] at h2; cases h2
    | some (.ref a) => simp only [hy] at h2; cases h2
    | some (.sub a) => simp only [hy] at h2; cases h2
    | some (.buffer p n) => simp only [hy] at h2; cases h2
  | holdSub x y i =>
    simp only [SWorld.exec, hb, Option.map_eq_some_iff, Prod.mk.injEq] at h2 ⊢
    obtain ⟨a, e2, rfl, rfl⟩ := h2
    exact ⟨_, ⟨a, e2, rfl, rfl⟩, rfl, hc⟩
  | destroy x =>
    obtain ⟨v, hA⟩ := hleg
    have plain : ∀ v', o x = some v' → (∀ a, v' ≠ .owner a) → (∀ p n, v' ≠ .buffer p n) →
        ∃ w', (⟨o, s⟩ : SWorld T).exec dbg dflt eq lt (.destroy x) = some (ob, w') ∧ SCalm L w' wt' := by
      intro v' hx n1 n2
      simp only [SWorld.exec, hx] at h2 ⊢
      cases v' with
      | owner a => exact absurd rfl (n1 a)
      | buffer p n => exact absurd rfl (n2 p n)
      | ref a => cases h2; exact ⟨_, rfl, rfl, hc⟩
      | view a => cases h2; exact ⟨_, rfl, rfl, hc⟩
      | sub a => cases h2; exact ⟨_, rfl, rfl, hc⟩
    match v, hA with
    | .owner hh, hA =>
      obtain ⟨a, vs, hx, hvs, _, _, hr⟩ := h.represents hA
      obtain ⟨t', e1, _⟩ := hr.owns.dealloc
      obtain ⟨s', f1, _⟩ := (hc.owns hr.owns).dealloc
      simp only at hx e1
      simp only [SWorld.exec, hx, e1, Out.val?, Option.map_some, Option.some.injEq, Prod.mk.injEq] at h2
      obtain ⟨rfl, rfl⟩ := h2
      refine ⟨SWorld.setVar ⟨o, s⟩ x none s', by simp only [SWorld.exec, hx, f1, Out.val?, Option.map_some], rfl, ?_⟩
      exact (Agree.deallocateSpace a L _ _ _ _ _ _ hc f1 e1).2
    | .buffer i, hA =>
      obtain ⟨q, n, hx, _, hq, vs, hvs, _⟩ := h.buffer hA
      simp only at hx
      simp only [SWorld.exec, hx, Option.some.injEq, Prod.mk.injEq] at h2
      obtain ⟨rfl, rfl⟩ := h2
      refine ⟨SWorld.setVar ⟨o, s⟩ x none (SWorld.freeBuffer s q), by simp only [SWorld.exec, hx], rfl, hc.freeBuffer ?_⟩
      rw [hq, show t.heap (g.blk i) = _ from (h.block hvs).2]
      exact Option.some_ne_none _
    | .ref hh, hA =>
      obtain ⟨a, hx, _⟩ := h.ref hA
      exact plain _ hx (fun _ e => nomatch e) (fun _ _ e => nomatch e)
    | .view p, hA =>
      obtain ⟨a, hx, _⟩ := h.view hA
      exact plain _ hx (fun _ e => nomatch e) (fun _ _ e => nomatch e)
    | .sub o p, hA =>
      obtain ⟨a, hx, _⟩ := h.sub hA
      exact plain _ hx (fun _ e => nomatch e) (fun _ _ e => nomatch e)
    | .stale, hA =>
      obtain ⟨a, hx⟩ := h.stale hA
      exact plain _ hx (fun _ e => nomatch e) (fun _ _ e => nomatch e)
  | reindex x bs =>
    simp only [SWorld.exec] at h2 ⊢
    match hx : o x with
    | some (.owner a) =>
      simp only [hx, Option.map_eq_some_iff, Prod.mk.injEq] at h2 ⊢
      obtain ⟨a', e1, rfl, rfl⟩ := h2
      exact ⟨_, ⟨a', e1, rfl, rfl⟩, rfl, hc⟩
    | some (.ref a) =>
      simp only [hx, Option.map_eq_some_iff, Prod.mk.injEq] at h2 ⊢
      obtain ⟨a', e1, rfl, rfl⟩ := h2
      exact ⟨_, ⟨a', e1, rfl, rfl⟩, rfl, hc⟩
    | some (.view a) =>
      simp only [hx, Option.map_eq_some_iff, Prod.mk.injEq] at h2 ⊢
      obtain ⟨a', e1, rfl, rfl⟩ := h2
      exact ⟨_, ⟨a', e1, rfl, rfl⟩, rfl, hc⟩
    | none => simp only [hx] at h2; cases h2
    | some (.sub a) => simp only [hx] at h2; cases h2
    | some (.buffer p n) => simp only [hx] at h2; cases h2
  | reshape x es =>
    simp only [SWorld.exec] at h2 ⊢
    match hx : o x with
    | some (.owner a) =>
      simp only [hx, Option.map_eq_some_iff, Prod.mk.injEq] at h2 ⊢
      obtain ⟨a', e1, rfl, rfl⟩ := h2
      exact ⟨_, ⟨a', e1, rfl, rfl⟩, rfl, hc⟩
    | some (.ref a) =>
      simp only [hx, Option.map_eq_some_iff, Prod.mk.injEq] at h2 ⊢
      obtain ⟨a', e1, rfl, rfl⟩ := h2
      exact ⟨_, ⟨a', e1, rfl, rfl⟩, rfl, hc⟩
    | none => simp only [hx] at h2; cases h2
    | some (.view a) => simp only [hx] at h2; cases h2
    | some (.sub a) => simp only [hx] at h2; cases h2
    | some (.buffer p n) => simp only [hx] at h2; cases h2
  | read x ss idx =>
    simp only [SWorld.exec, SWorld.mem, hl, Option.bind_eq_some_iff, Option.map_eq_some_iff] at h2 ⊢
    obtain ⟨d, hd, r, e1, e2⟩ := h2
    obtain ⟨g1, g2⟩ := readElem_calm hc (out_val? e1)
    simp only [Prod.mk.injEq] at e2
    obtain ⟨rfl, rfl⟩ := e2
    exact ⟨⟨o, s⟩, ⟨d, hd, (r.1, s), by rw [show readElem dbg d idx s = .ok r.1 s from g1]; rfl, rfl⟩, rfl, by rw [g2]; exact hc⟩
  | traverse x ss =>
    simp only [SWorld.exec, hl, Option.bind_eq_some_iff, Option.map_eq_some_iff] at h2 ⊢
    obtain ⟨d, hd, ps, e1, qs, e2, vs, e3, e4⟩ := h2
    simp only [Prod.mk.injEq] at e4
    obtain ⟨rfl, rfl⟩ := e4
    exact ⟨⟨o, s⟩, ⟨d, hd, ps, e1, qs, e2, vs, hc.mapM qs e3, rfl⟩, rfl, hc⟩
  | equal x ss y ss' =>
    simp only [SWorld.exec, hl, Option.bind_eq_some_iff, Option.map_eq_some_iff] at h2 ⊢
    obtain ⟨d, hd, d', hd', b, e1, e2⟩ := h2
    simp only [Prod.mk.injEq] at e2
    obtain ⟨rfl, rfl⟩ := e2
    have := Reads.equalRef dbg eq d.extents.length d d' L _ _ _ hc (res_val? e1)
    exact ⟨⟨o, s⟩, ⟨d, hd, d', hd', b, by simp only [this]; rfl, rfl⟩, rfl, hc⟩
  | less x ss y ss' =>
    simp only [SWorld.exec, hl, Option.bind_eq_some_iff, Option.map_eq_some_iff] at h2 ⊢
    obtain ⟨d, hd, d', hd', b, e1, e2⟩ := h2
    simp only [Prod.mk.injEq] at e2
    obtain ⟨rfl, rfl⟩ := e2
    have := Reads.lessRef dbg lt d.extents.length d d' L _ _ _ hc (res_val? e1)
    exact ⟨⟨o, s⟩, ⟨d, hd, d', hd', b, by simp only [this]; rfl, rfl⟩, rfl, hc⟩
  | shape x ss =>
    simp only [SWorld.exec, hl, Option.map_eq_some_iff] at h2 ⊢
    obtain ⟨d, hd, e2⟩ := h2
    simp only [Prod.mk.injEq] at e2
    obtain ⟨rfl, rfl⟩ := e2
    exact ⟨⟨o, s⟩, ⟨d, hd, rfl⟩, rfl, hc⟩

/-- One command: it completes as the abstract machine says, or it is interrupted. -/
theorem scmd_x (dbg : Bool) (dflt : T) (eq lt : T → T → Bool) {L : List Nat} {w : SWorld T} {A : SState T} (h : InvS L w A) (c : SCmd T) (hleg : A.Legal c) :
    (∃ ob A' w', A.step dflt eq lt c = some (ob, A') ∧ w.execX dbg dflt eq lt c = .done ob w' ∧ InvS L w' A') ∨
    (∃ w' L' A', w.execX dbg dflt eq lt c = .threw w' ∧ A.Interrupted c A' ∧ InvS L' w' A' ∧
      L'.length ≤ L.length + (if c.allocates then 1 else 0)) := by
  obtain ⟨o, s⟩ := w
  obtain ⟨t, g, hc, hr⟩ := h
  simp only at hc hr
  obtain ⟨ob, A', wt', g', e1, e2, e3⟩ := scmd_ok dbg dflt eq lt hr c hleg
  have fin : ∀ w', SCalm L w' wt' → InvS L w' A' := by
    intro w' hw'
    obtain ⟨f1, f2⟩ := hw'
    exact ⟨wt'.st, g', f2, by rw [f1]; exact e3⟩
  cases hm : (⟨o, s⟩ : SWorld T).mayThrow dbg dflt c with
  | none =>
    obtain ⟨w', f1, f2⟩ := scmd_reads dbg dflt eq lt hc hr c hleg hm e2
    exact .inl ⟨ob, A', w', e1, by simp only [SWorld.execX, hm, f1], fin w' f2⟩
  | some r =>
    rcases smay_throw dbg dflt hc hr c hleg hm with ⟨ob', w', rfl⟩ | ⟨w', L', A'', rfl, f2, f3, f4⟩
    · obtain ⟨rfl, f2⟩ := smay_done dbg dflt eq lt hc c hm e2
      exact .inl ⟨_, A', w', e1, by simp only [SWorld.execX, hm], fin w' f2⟩
    · exact .inr ⟨w', L', A'', by simp only [SWorld.execX, hm], f2, f3, f4⟩

/-! ### No command throws unless an exception was due -/

/-- A command uses up exceptions: it does not create any, and one that threw used at least one. -/
def Spec.SXRes.fair (n : Nat) : SXRes T → Prop
  | .done _ w => due w.st ≤ n
  | .threw w => due w.st < n
  | .failed => True

theorem fair_memX {α : Type} {e : Exec T α} (h : Fair e) (w : SWorld T) : (w.memX e).fair (due w.st) := by
  have h1 := h w.st
  unfold SWorld.memX
  cases he : e w.st <;> rw [he] at h1 <;> first | exact h1 | trivial

theorem sfair_mayThrow (dbg : Bool) (dflt : T) (w : SWorld T) (c : SCmd T) {r : SXRes T} (h : w.mayThrow dbg dflt c = some r) : r.fair (due w.st) := by
  cases c with
  | construct x i =>
    obtain ⟨o, s⟩ := w
    simp only [SWorld.mayThrow, Option.some.injEq] at h
    rcases sctor_run dbg dflt o i with hn | ⟨c, hc⟩
    · rw [hn] at h; rw [← h]; trivial
    · rw [hc] at h
      have h1 := Fair.ctor dbg dflt c s
      cases he : c.run dbg dflt s <;> rw [he] at h h1 <;> rw [← h] <;> first | exact h1 | trivial
  | resize x rs =>
    simp only [SWorld.mayThrow, Option.some.injEq] at h
    match hx : w.vars x with
    | some (.owner a) =>
      rw [hx] at h
      simp only at h
      have h1 := FairM.resize dbg dflt ⟨a.ref.numDims, rs⟩ a w.st
      rcases he : MArr.resize dbg dflt ⟨a.ref.numDims, rs⟩ a w.st with ⟨q, b⟩
      rw [he] at h h1
      cases q <;> simp only at h <;> rw [← h] <;> first | exact h1 | trivial
    | none => rw [hx] at h; simp only at h; rw [← h]; trivial
    | some (.ref a) => rw [hx] at h; simp only at h; rw [← h]; trivial
    | some (.view a) => rw [hx] at h; simp only at h; rw [← h]; trivial
    | some (.sub a) => rw [hx] at h; simp only at h; rw [← h]; trivial
    | some (.buffer p n) => rw [hx] at h; simp only at h; rw [← h]; trivial
  | fill x input =>
    simp only [SWorld.mayThrow, Option.some.injEq] at h
    match hx : w.vars x with
    | some (.owner a) => rw [hx] at h; simp only at h; rw [← h]; exact fair_memX (Fair.assignLoop _ _ _) w
    | some (.ref a) => rw [hx] at h; simp only at h; rw [← h]; exact fair_memX (Fair.assignLoop _ _ _) w
    | none => rw [hx] at h; simp only at h; rw [← h]; trivial
    | some (.view a) => rw [hx] at h; simp only at h; rw [← h]; trivial
    | some (.sub a) => rw [hx] at h; simp only at h; rw [← h]; trivial
    | some (.buffer p n) => rw [hx] at h; simp only at h; rw [← h]; trivial
  | assign x ss y ss' =>
    simp only [SWorld.mayThrow, Option.some.injEq] at h
    cases hd : w.lookup dbg x ss <;> rw [hd] at h
    · simp only at h; rw [← h]; trivial
    cases hd' : w.lookup dbg y ss' <;> rw [hd'] at h
    · simp only at h; rw [← h]; trivial
    simp only at h
    rw [← h]; exact fair_memX (Fair.assignOp _ _ _ _) w
  | copyArray x ss y ss' =>
    simp only [SWorld.mayThrow, Option.some.injEq] at h
    cases hd : w.lookup dbg x ss <;> rw [hd] at h
    · simp only at h; rw [← h]; trivial
    cases hd' : w.lookup dbg y ss' <;> rw [hd'] at h
    · simp only at h; rw [← h]; trivial
    simp only at h
    rw [← h]; exact fair_memX (Fair.copyArray _ _ _) w
  | write x ss idx v =>
    simp only [SWorld.mayThrow, Option.some.injEq] at h
    cases hd : w.lookup dbg x ss <;> rw [hd] at h <;> simp only at h
    · rw [← h]; trivial
    rw [← h]; exact fair_memX (Fair.writeElem _ _ _ _) w
  | forEach x ss f =>
    simp only [SWorld.mayThrow, Option.some.injEq] at h
    cases hd : w.lookup dbg x ss <;> rw [hd] at h <;> simp only at h
    · rw [← h]; trivial
    rw [← h]; exact fair_memX (Fair.forEach _ _ _ _) w
  | buffer x vs => cases h
  | refTo x y first n es so => cases h
  | refGen x y first n rs so => cases h
  | refCopy x y => cases h
  | hold x y ss xs => cases h
  | holdCopy x y => cases h
  | holdSub x y i => cases h
  | destroy x => cases h
  | reindex x bs => cases h
  | reshape x es => cases h
  | read x ss idx => cases h
  | traverse x ss => cases h
  | equal x ss y ss' => cases h
  | less x ss y ss' => cases h
  | shape x ss => cases h

theorem sfair_reads (dbg : Bool) (dflt : T) (eq lt : T → T → Bool) (w : SWorld T) (c : SCmd T) (h1 : w.mayThrow dbg dflt c = none) {o : CObs T} {w' : SWorld T}
    (h2 : w.exec dbg dflt eq lt c = some (o, w')) : due w'.st ≤ due w.st := by
  cases c with
  | construct x i => cases h1
  | resize x rs => cases h1
  | fill x input => cases h1
  | assign x ss y ss' => cases h1
  | copyArray x ss y ss' => cases h1
  | write x ss idx v => cases h1
  | forEach x ss f => cases h1
  | buffer x vs => cases h2; exact Nat.le_refl _
  | refTo x y first n es so =>
    simp only [SWorld.exec, Option.bind_eq_some_iff, Option.map_eq_some_iff, Prod.mk.injEq] at h2
    obtain ⟨p, e1, a, e2, rfl, rfl⟩ := h2
    exact Nat.le_refl _
  | refGen x y first n rs so =>
    simp only [SWorld.exec, Option.bind_eq_some_iff, Option.map_eq_some_iff, Prod.mk.injEq] at h2
    obtain ⟨p, e1, a, e2, rfl, rfl⟩ := h2
    exact Nat.le_refl _
  | refCopy x y =>
    simp only [SWorld.exec] at h2
    split at h2 <;> cases h2 <;> exact Nat.le_refl _
  | hold x y ss xs =>
    simp only [SWorld.exec, Option.bind_eq_some_iff, Option.map_eq_some_iff, Prod.mk.injEq] at h2
    obtain ⟨p, e1, a, e2, rfl, rfl⟩ := h2
    exact Nat.le_refl _
  | holdCopy x y =>
    simp only [SWorld.exec] at h2
    split at h2 <;> cases h2 <;> exact Nat.le_refl _
  | holdSub x y i =>
    simp only [SWorld.exec, Option.map_eq_some_iff, Prod.mk.injEq] at h2
    obtain ⟨a, e2, rfl, rfl⟩ := h2
    exact Nat.le_refl _
  | destroy x =>
    simp only [SWorld.exec] at h2
    split at h2
    · simp only [Option.map_eq_some_iff, Prod.mk.injEq] at h2
      obtain ⟨r, e1, _, rfl⟩ := h2
      exact fair_val? (Fair.deallocateSpace _) e1
    · cases h2; exact Nat.le_refl _
    · cases h2; exact Nat.le_refl _
  | reindex x bs =>
    simp only [SWorld.exec] at h2
    split at h2
    · simp only [Option.map_eq_some_iff, Prod.mk.injEq] at h2; obtain ⟨r, e1, _, rfl⟩ := h2; exact Nat.le_refl _
    · simp only [Option.map_eq_some_iff, Prod.mk.injEq] at h2; obtain ⟨r, e1, _, rfl⟩ := h2; exact Nat.le_refl _
    · simp only [Option.map_eq_some_iff, Prod.mk.injEq] at h2; obtain ⟨r, e1, _, rfl⟩ := h2; exact Nat.le_refl _
    · cases h2
  | reshape x es =>
    simp only [SWorld.exec] at h2
    split at h2
    · simp only [Option.map_eq_some_iff, Prod.mk.injEq] at h2; obtain ⟨r, e1, _, rfl⟩ := h2; exact Nat.le_refl _
    · simp only [Option.map_eq_some_iff, Prod.mk.injEq] at h2; obtain ⟨r, e1, _, rfl⟩ := h2; exact Nat.le_refl _
    · cases h2
  | read x ss idx =>
    simp only [SWorld.exec, SWorld.mem, Option.bind_eq_some_iff, Option.map_eq_some_iff, Prod.mk.injEq] at h2
    obtain ⟨d, _, q, e1, _, rfl⟩ := h2
    exact fair_val? (e := readElem dbg d idx) (Fair.bind (Fair.lift _) fun _ => Fair.load _) e1
  | traverse x ss =>
    simp only [SWorld.exec, Option.bind_eq_some_iff, Option.map_eq_some_iff, Prod.mk.injEq] at h2
    obtain ⟨d, _, q, _, r, _, vs, _, _, rfl⟩ := h2
    exact Nat.le_refl _
  | equal x ss y ss' =>
    simp only [SWorld.exec, Option.bind_eq_some_iff, Option.map_eq_some_iff, Prod.mk.injEq] at h2
    obtain ⟨d, _, d', _, b, _, _, rfl⟩ := h2
    exact Nat.le_refl _
  | less x ss y ss' =>
    simp only [SWorld.exec, Option.bind_eq_some_iff, Option.map_eq_some_iff, Prod.mk.injEq] at h2
    obtain ⟨d, _, d', _, b, _, _, rfl⟩ := h2
    exact Nat.le_refl _
  | shape x ss =>
    simp only [SWorld.exec, Option.map_eq_some_iff, Prod.mk.injEq] at h2
    obtain ⟨d, _, _, rfl⟩ := h2
    exact Nat.le_refl _

theorem sfair (dbg : Bool) (dflt : T) (eq lt : T → T → Bool) (w : SWorld T) (c : SCmd T) : (w.execX dbg dflt eq lt c).fair (due w.st) := by
  unfold SWorld.execX
  cases hm : w.mayThrow dbg dflt c with
  | some r => exact sfair_mayThrow dbg dflt w c hm
  | none =>
    cases he : w.exec dbg dflt eq lt c with
    | none => trivial
    | some q => exact sfair_reads dbg dflt eq lt w c hm he

end MultiArray
