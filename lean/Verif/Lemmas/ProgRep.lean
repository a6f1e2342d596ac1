import Verif.Lemmas.Prog

/- The relation between a running program and its abstract state under element reads, writes and new storage. -/
set_option autoImplicit false

namespace MultiArray
open Spec Props
variable {T : Type}

theorem Spec.AState.set_same (A : AState T) (x : Nat) (a : Option (AbsArr T)) : A.set x a x = a := by simp [AState.set]

theorem Spec.AState.set_other (A : AState T) {x y : Nat} (h : y ≠ x) (a : Option (AbsArr T)) : A.set x a y = A y := by simp [AState.set, h]

theorem Spec.AState.set_self {A : AState T} {x : Nat} {a : Option (AbsArr T)} (h : A x = a) : A.set x a = A := by
  funext y
  by_cases hy : y = x
  · subst hy; rw [AState.set_same, h]
  · rw [AState.set_other _ hy]

theorem Spec.World.Rep.abs {w : World T} {A : AState T} (h : w.Rep A) {x : Nat} {abs : AbsArr T} (hA : A x = some abs) :
    ∃ a, w.objs x = some a ∧ Represents w.st a abs := by
  cases hx : w.objs x with
  | none => rw [h.dead x hx] at hA; cases hA
  | some a =>
    obtain ⟨abs', e1, e2⟩ := h.live x a hx
    rw [hA] at e1
    cases e1
    exact ⟨a, rfl, e2⟩

theorem Spec.Represents.mono {s s' : St T} {a : MArr} {abs : AbsArr T} (h : Represents s a abs) (hs : SaneHeap s') (hsched : s'.sched = [])
    (hb : s'.heap a.ref.data.blk = s.heap a.ref.data.blk) : Represents s' a abs :=
  ⟨h.owns.mono hb, h.bases, h.extents, h.order, hs, hsched⟩

theorem Spec.Represents.inBox {s : St T} {a : MArr} {abs : AbsArr T} (h : Represents s a abs) (idx : List Int) :
    InBox a.ref.bases a.ref.extents idx ↔ InBox abs.bases abs.extents idx := by rw [h.bases, h.extents]

/-- The element at an index, in memory and in the abstract array. -/
theorem Spec.Represents.get {s : St T} {a : MArr} {abs : AbsArr T} (h : Represents s a abs) {idx : List Int}
    (hin : InBox a.ref.bases a.ref.extents idx) :
    ∃ v, s.get? (address a.ref.desc idx) = some v ∧ abs.vals[abs.at_ idx]? = some v := by
  obtain ⟨v, hv⟩ := h.owns.live.handle h.owns.reach.wf .array hin
  refine ⟨v, hv, ?_⟩
  rw [← hv, address_at h.owns.reach.wf hin, h.owns.get, h.order, h.extents, h.bases]
  rfl

theorem Spec.World.Rep.get {w : World T} {A : AState T} (h : w.Rep A) {x : Nat} {a : MArr} (hx : w.objs x = some a) {idx : List Int}
    (hin : InBox a.ref.bases a.ref.extents idx) : ∃ v, w.st.get? (address a.ref.desc idx) = some v ∧ A.get x idx = some v := by
  obtain ⟨abs, e1, e2⟩ := h.live x a hx
  obtain ⟨v, h1, h2⟩ := e2.get hin
  exact ⟨v, h1, by simp [AState.get, e1, h2]⟩

/-- An update of elements of one variable, possibly with a new header over the same block. -/
theorem Spec.World.Rep.inplace {w : World T} {A : AState T} (h : w.Rep A) {x : Nat} {a a' : MArr} (hx : w.objs x = some a) {s' : St T}
    {abs' : AbsArr T} (hb : a'.ref.data.blk = a.ref.data.blk) (u : Upd a.ref.data.blk w.st s') (hr : Represents s' a' abs') :
    (w.set x (some a') s').Rep (A.set x (some abs')) := by
  have key : ∀ y c, (w.set x (some a') s').objs y = some c → (y = x ∧ c = a') ∨ (y ≠ x ∧ w.objs y = some c) := by
    intro y c hc
    by_cases hy : y = x
    · subst hy; rw [World.set_same] at hc; cases hc; exact .inl ⟨rfl, rfl⟩
    · rw [World.set_other _ hy] at hc; exact .inr ⟨hy, hc⟩
  have hlive : ∀ y c, (w.set x (some a') s').objs y = some c → ∃ abs, A.set x (some abs') y = some abs ∧ Represents s' c abs := by
    intro y c hc
    rcases key y c hc with ⟨rfl, rfl⟩ | ⟨hy, hc⟩
    · exact ⟨abs', AState.set_same _ _ _, hr⟩
    · obtain ⟨abs, e1, e2⟩ := h.live y c hc
      refine ⟨abs, by rw [AState.set_other _ hy]; exact e1, e2.mono hr.sane hr.sched (u.heap ?_)⟩
      intro hbc
      exact hy (h.valid.distinct y x c a hc hx hbc)
  refine ⟨⟨hr.sane, fun y c hc => ?_, ?_⟩, ?_, hr.sched, hlive, ?_⟩
  · obtain ⟨abs, _, e⟩ := hlive y c hc
    exact ⟨_, _, e.owns⟩
  · intro y z c c' hc hc' hbc
    rcases key y c hc with ⟨rfl, rfl⟩ | ⟨hy, hd⟩ <;> rcases key z c' hc' with ⟨rfl, rfl⟩ | ⟨hz, hd'⟩
    · rfl
    · exact absurd (h.valid.distinct z y c' a hd' hx (by rw [← hbc, hb])) hz
    · exact absurd (h.valid.distinct y z c a hd hx (by rw [hbc, hb])) hy
    · exact h.valid.distinct y z c c' hd hd' hbc
  · intro b hb'
    obtain ⟨y, c, hc, hcb⟩ := h.noLeak b (fun hn => hb' ((u.none_iff b).mpr hn))
    by_cases hy : y = x
    · subst hy
      rw [hx] at hc; cases hc
      exact ⟨y, a', World.set_same _ _ _ _, by rw [hb, hcb]⟩
    · exact ⟨y, c, by rw [World.set_other _ hy]; exact hc, hcb⟩
  · intro y hy
    by_cases hyx : y = x
    · subst hyx; rw [World.set_same] at hy; cases hy
    · rw [World.set_other _ hyx] at hy
      rw [AState.set_other _ hyx]; exact h.dead y hy

/-- An array over a block that did not exist; the variable's old block (if any) has been released. -/
theorem Spec.World.Rep.fresh {w : World T} {A : AState T} (h : w.Rep A) {x : Nat} {m : MArr} {s' : St T} {abs' : AbsArr T}
    (hr : Represents s' m abs') (hm : m.ref.data.blk = w.st.next) (hold : ∀ a, w.objs x = some a → s'.heap a.ref.data.blk = none)
    (hs : ∀ c, c ≠ w.st.next → (∀ a, w.objs x = some a → c ≠ a.ref.data.blk) → s'.heap c = w.st.heap c) :
    (w.set x (some m) s').Rep (A.set x (some abs')) := by
  have hlt : ∀ y c, w.objs y = some c → c.ref.data.blk < w.st.next := by
    intro y c hy
    obtain ⟨n, vs, h'⟩ := h.valid.owns y c hy
    exact h'.blk_lt h.valid.sane
  have key : ∀ y c, (w.set x (some m) s').objs y = some c → (y = x ∧ c = m) ∨ (y ≠ x ∧ w.objs y = some c) := by
    intro y c hc
    by_cases hy : y = x
    · subst hy; rw [World.set_same] at hc; cases hc; exact .inl ⟨rfl, rfl⟩
    · rw [World.set_other _ hy] at hc; exact .inr ⟨hy, hc⟩
  have hlive : ∀ y c, (w.set x (some m) s').objs y = some c → ∃ abs, A.set x (some abs') y = some abs ∧ Represents s' c abs := by
    intro y c hc
    rcases key y c hc with ⟨rfl, rfl⟩ | ⟨hy, hc⟩
    · exact ⟨abs', AState.set_same _ _ _, hr⟩
    · obtain ⟨abs, e1, e2⟩ := h.live y c hc
      refine ⟨abs, by rw [AState.set_other _ hy]; exact e1, e2.mono hr.sane hr.sched (hs _ ?_ ?_)⟩
      · have := hlt y c hc; omega
      · intro a ha hbc
        exact hy (h.valid.distinct y x c a hc ha hbc)
  refine ⟨⟨hr.sane, fun y c hc => ?_, ?_⟩, ?_, hr.sched, hlive, ?_⟩
  · obtain ⟨abs, _, e⟩ := hlive y c hc
    exact ⟨_, _, e.owns⟩
  · intro y z c c' hc hc' hbc
    rcases key y c hc with ⟨rfl, rfl⟩ | ⟨hy, hd⟩ <;> rcases key z c' hc' with ⟨rfl, rfl⟩ | ⟨hz, hd'⟩
    · rfl
    · have := hlt z c' hd'; omega
    · have := hlt y c hd; omega
    · exact h.valid.distinct y z c c' hd hd' hbc
  · intro b hb'
    by_cases hbn : b = w.st.next
    · exact ⟨x, m, World.set_same _ _ _ _, by rw [hm, hbn]⟩
    · by_cases hbo : ∃ a, w.objs x = some a ∧ b = a.ref.data.blk
      · obtain ⟨a, ha, rfl⟩ := hbo
        exact absurd (hold a ha) hb'
      · have hbo' : ∀ a, w.objs x = some a → b ≠ a.ref.data.blk := fun a ha hab => hbo ⟨a, ha, hab⟩
        obtain ⟨y, c, hc, hcb⟩ := h.noLeak b (by
          intro hn
          apply hb'
          show s'.heap b = none
          rw [hs b hbn hbo', hn])
        by_cases hy : y = x
        · subst hy
          exact absurd hcb.symm (hbo' c hc)
        · exact ⟨y, c, by rw [World.set_other _ hy]; exact hc, hcb⟩
  · intro y hy
    by_cases hyx : y = x
    · subst hyx; rw [World.set_same] at hy; cases hy
    · rw [World.set_other _ hyx] at hy
      rw [AState.set_other _ hyx]; exact h.dead y hy

/-- Destruction. -/
theorem Spec.World.Rep.remove {w : World T} {A : AState T} (h : w.Rep A) {x : Nat} {a : MArr} (hx : w.objs x = some a) {s' : St T}
    (hb : s'.heap a.ref.data.blk = none) (hs : SameExcept a.ref.data.blk w.st s') (hn : s'.next = w.st.next) (hsched : s'.sched = []) :
    (w.set x none s').Rep (A.set x none) := by
  obtain ⟨v1, v2⟩ := valid_remove h.valid hx hb hs hn
  refine ⟨v1, v2 h.noLeak, hsched, ?_, ?_⟩
  · intro y c hc
    by_cases hy : y = x
    · subst hy; rw [World.set_same] at hc; cases hc
    · rw [World.set_other _ hy] at hc
      obtain ⟨abs, e1, e2⟩ := h.live y c hc
      refine ⟨abs, by rw [AState.set_other _ hy]; exact e1, e2.mono v1.sane hsched (hs _ ?_)⟩
      intro hbc
      exact hy (h.valid.distinct y x c a hc hx hbc)
  · intro y hy
    by_cases hyx : y = x
    · subst hyx; rw [AState.set_same]
    · rw [World.set_other _ hyx] at hy
      rw [AState.set_other _ hyx]; exact h.dead y hy

/-- A single element assignment. -/
theorem Spec.World.Rep.put {w : World T} {A : AState T} (h : w.Rep A) {x : Nat} {a : MArr} (hx : w.objs x = some a) {idx : List Int}
    (hin : InBox a.ref.bases a.ref.extents idx) (v : T) :
    ∃ s' A', assignCell (address a.ref.desc idx) v w.st = .ok () s' ∧ A.put x idx v = some A' ∧ ({ w with st := s' } : World T).Rep A' := by
  obtain ⟨abs, e1, e2⟩ := h.live x a hx
  have hw := e2.owns.reach.wf.wellShaped
  obtain ⟨s', h1, _, h2⟩ := write_represents false e2 ((e2.inBox idx).mp hin) v
  unfold writeElem at h1
  rw [accessElement_inBox false _ _ hw.1 hin, Exec.lift_ok, pure_bind] at h1
  have u : Upd a.ref.data.blk w.st s' :=
    updates_ok (assignCell_updates (e2.owns.live.handle e2.owns.reach.wf .array hin) (handle_blk e2.owns.reach .array hin) v) h1
  refine ⟨s', _, h1, by rw [AState.put, e1]; rfl, ?_⟩
  have := h.inplace hx rfl u h2
  rw [World.set_self hx] at this
  exact this

theorem Spec.World.Rep.partOf {w : World T} {A : AState T} (h : w.Rep A) (dbg : Bool) {x : Nat} {ss : List Sel} {p : APart}
    (hp : A.Part x ss p) : ∃ a d, w.objs x = some a ∧ w.lookup dbg x ss = some d ∧ PartOf a.ref d p ∧ A.part x ss = some p := by
  obtain ⟨abs, hA, hleg, rfl⟩ := hp
  obtain ⟨a, hx, hr⟩ := h.abs hA
  obtain ⟨d, e1, e2⟩ := resolve_ok hr.owns.reach.wf dbg ss (d := a.ref.desc) (p := abs.whole)
    ⟨.array, hr.bases, hr.extents, fun idx hin => ⟨(hr.inBox idx).mpr hin, rfl⟩⟩ hleg
  exact ⟨a, d, hx, by simp [World.lookup, hx, e1, Res.val?], e2, by simp [AState.part, hA]⟩

/-- Copying elements, in any order of positions. -/
theorem rep_copy {w : World T} {A : AState T} (h : w.Rep A) {x y : Nat} {a a' : MArr} (hx : w.objs x = some a) (hy : w.objs y = some a')
    {d d' : Desc} {p q : APart} (hp : PartOf a.ref d p) (hq : PartOf a'.ref d' q) (hwd : d.bases.length = d.extents.length)
    (hwd' : d'.bases.length = d'.extents.length) (he : p.extents = q.extents) (ks : List (List Nat))
    (hks : ∀ k ∈ ks, InShape p.extents k) :
    ∃ s' A', copySeq (ks.map (fun k => (address d' (atPos d'.bases k), address d (atPos d.bases k)))) w.st = .ok () s' ∧
      AState.copy x p y q ks A = some A' ∧ ({ w with st := s' } : World T).Rep A' := by
  induction ks generalizing w A with
  | nil => exact ⟨w.st, A, rfl, rfl, h⟩
  | cons k ks ih =>
    have hk := hks k (by simp)
    have hin : InBox p.bases p.extents (atPos p.bases k) := by
      rw [← hp.bases]; exact inBox_atPos (by rw [hwd, hp.extents]) hk
    have hin' : InBox q.bases q.extents (atPos q.bases k) := by
      rw [← hq.bases]; exact inBox_atPos (by rw [hwd', hq.extents]) (by rw [← he]; exact hk)
    obtain ⟨r1, r2⟩ := hp.root _ hin
    obtain ⟨r1', r2'⟩ := hq.root _ hin'
    obtain ⟨v, g1, g2⟩ := h.get hy r1'
    obtain ⟨s1, A1, p1, p2, p3⟩ := h.put hx r1 v
    obtain ⟨s', A', c1, c2, c3⟩ := ih (w := { w with st := s1 }) p3 hx hy (fun k hk => hks k (by simp [hk]))
    refine ⟨s', A', ?_, ?_, c3⟩
    · simp only [List.map_cons, copySeq]
      rw [hq.bases, hp.bases, r2', r2] at *
      rw [Exec.bind_ok (load_ok g1), Exec.bind_ok p1]
      exact c1
    · simp only [AState.copy, AState.move, g2, Option.bind_some, p2]
      exact c2

/-- Transforming elements. -/
theorem rep_map {w : World T} {A : AState T} (h : w.Rep A) {x : Nat} {a : MArr} (hx : w.objs x = some a)
    {d : Desc} {p : APart} (hp : PartOf a.ref d p) (hwd : d.bases.length = d.extents.length) (f : T → T) (ks : List (List Nat))
    (hks : ∀ k ∈ ks, InShape p.extents k) :
    ∃ s' A', mapSeq f (ks.map (fun k => address d (atPos d.bases k))) w.st = .ok () s' ∧
      AState.map x p f ks A = some A' ∧ ({ w with st := s' } : World T).Rep A' := by
  induction ks generalizing w A with
  | nil => exact ⟨w.st, A, rfl, rfl, h⟩
  | cons k ks ih =>
    have hk := hks k (by simp)
    have hin : InBox p.bases p.extents (atPos p.bases k) := by
      rw [← hp.bases]; exact inBox_atPos (by rw [hwd, hp.extents]) hk
    obtain ⟨r1, r2⟩ := hp.root _ hin
    obtain ⟨v, g1, g2⟩ := h.get hx r1
    obtain ⟨s1, A1, p1, p2, p3⟩ := h.put hx r1 (f v)
    obtain ⟨s', A', c1, c2, c3⟩ := ih (w := { w with st := s1 }) p3 hx (fun k hk => hks k (by simp [hk]))
    refine ⟨s', A', ?_, ?_, c3⟩
    · simp only [List.map_cons, mapSeq]
      rw [hp.bases, r2] at *
      rw [Exec.bind_ok (load_ok g1), Exec.bind_ok p1]
      exact c1
    · simp only [AState.map, g2, Option.bind_some, p2]
      exact c2

end MultiArray
