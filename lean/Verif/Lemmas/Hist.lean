import Verif.SpecHist
import Verif.Props.Resize
import Verif.Props.Relabel

/- Lemmas about client programs (SpecHist.lean). -/
set_option autoImplicit false

namespace MultiArray
open Spec Props
variable {T : Type}

/-! ### Computations that only update live elements of one block -/

/-- `s'` differs from `s` only in values of live objects of block `b` (and in the exceptions still to come). -/
structure Upd (b : Nat) (s s' : St T) : Prop where
  outside : ∀ q : Ptr, q.blk ≠ b → s'.cell? q = s.cell? q
  live : ∀ q, (∃ v, s.get? q = some v) → ∃ v, s'.get? q = some v
  blocks : SameBlocks s s'
  sched : ∃ k, s'.sched = s.sched.drop k

theorem Upd.refl (b : Nat) (s : St T) : Upd b s s := ⟨fun _ _ => rfl, fun _ h => h, .refl s, 0, rfl⟩

theorem Upd.trans {b : Nat} {s s' s'' : St T} (h : Upd b s s') (h' : Upd b s' s'') : Upd b s s'' := by
  refine ⟨fun q hq => (h'.outside q hq).trans (h.outside q hq), fun q hq => h'.live q (h.live q hq), h.blocks.trans h'.blocks, ?_⟩
  obtain ⟨k, hk⟩ := h.sched
  obtain ⟨k', hk'⟩ := h'.sched
  exact ⟨k + k', by rw [hk', hk, List.drop_drop]⟩

theorem Upd.nil {b : Nat} {s s' : St T} (h : Upd b s s') (hs : s.sched = []) : s'.sched = [] := by
  obtain ⟨k, hk⟩ := h.sched
  rw [hk, hs]; simp

theorem Upd.heap {b : Nat} {s s' : St T} (h : Upd b s s') {c : Nat} (hc : c ≠ b) : s'.heap c = s.heap c :=
  heap_ext (fun _ => h.outside _ hc) (h.blocks.len c)

/-- The computation completes or throws, having only updated live elements of block `b`. -/
def Updates {α : Type} (x : Exec T α) (b : Nat) (s : St T) : Prop :=
  ∃ s', ((∃ v, x s = .ok v s') ∨ (x s = .throw s' ∧ s.sched ≠ [])) ∧ Upd b s s'

theorem Updates.pure {α : Type} (v : α) (b : Nat) (s : St T) : Updates (pure v : Exec T α) b s := ⟨s, .inl ⟨v, rfl⟩, .refl b s⟩

theorem Updates.bind {α β : Type} {x : Exec T α} {f : α → Exec T β} {b : Nat} {s : St T} (h : Updates x b s)
    (hf : ∀ v s', x s = .ok v s' → Upd b s s' → Updates (f v) b s') : Updates (x >>= f) b s := by
  obtain ⟨s', h1, h2⟩ := h
  rcases h1 with ⟨v, h1⟩ | ⟨h1, hne⟩
  · obtain ⟨s'', e1, e2⟩ := hf v s' h1 h2
    refine ⟨s'', ?_, h2.trans e2⟩
    rw [Exec.bind_ok h1]
    rcases e1 with e1 | ⟨e1, hne⟩
    · exact .inl e1
    · exact .inr ⟨e1, fun hs => hne (h2.nil hs)⟩
  · exact ⟨s', .inr ⟨Exec.bind_throw h1, hne⟩, h2⟩

theorem load_updates {p : Ptr} (b : Nat) {s : St T} (h : ∃ v, s.get? p = some v) : Updates (load p) b s := by
  obtain ⟨v, hv⟩ := h
  exact ⟨s, .inl ⟨v, load_ok hv⟩, .refl b s⟩

theorem assignCell_updates {p : Ptr} {b : Nat} {s : St T} (h : ∃ v, s.get? p = some v) (hb : p.blk = b) (v : T) :
    Updates (assignCell p v) b s := by
  obtain ⟨old, ho⟩ := h
  have key : ∀ (s' : St T) (w : T), (∀ q, s'.cell? q = if q = p then some (.obj w) else s.cell? q) → SameBlocks s s' →
      (∃ k, s'.sched = s.sched.drop k) → Upd b s s' := by
    intro s' w h1 h2 h3
    refine ⟨fun q hq => by rw [h1, if_neg]; rintro rfl; exact hq hb, ?_, h2, h3⟩
    rintro q ⟨u, hu⟩
    by_cases hqp : q = p
    · exact ⟨w, by rw [St.get?_eq_some, h1, if_pos hqp]⟩
    · exact ⟨u, by rw [St.get?_eq_some, h1, if_neg hqp]; exact St.get?_eq_some.mp hu⟩
  rcases sched_cases s with hs | ⟨junk, fs, hs⟩
  · obtain ⟨s', e1, e2, e3, e4⟩ := assignCell_ok ho v hs
    exact ⟨s', .inl ⟨(), e1⟩, key s' v e2 e3 ⟨1, by rw [e4]; simp⟩⟩
  · obtain ⟨s', e1, e2, e3, e4⟩ := assignCell_throw ho v junk hs
    exact ⟨s', .inr ⟨e1, by rw [hs]; simp⟩, key s' junk e2 e3 ⟨1, by rw [e4, hs]; simp⟩⟩

theorem copySeq_updates (ps : List (Ptr × Ptr)) (b : Nat) (s : St T) (hsrc : ∀ p ∈ ps, ∃ v, s.get? p.1 = some v)
    (hdst : ∀ p ∈ ps, (∃ v, s.get? p.2 = some v) ∧ p.2.blk = b) : Updates (copySeq ps) b s := by
  induction ps generalizing s with
  | nil => exact .pure () b s
  | cons p ps ih =>
    obtain ⟨p1, p2⟩ := p
    simp only [copySeq]
    apply (load_updates b (hsrc (p1, p2) (by simp))).bind
    intro v s1 _ u1
    apply (assignCell_updates (u1.live _ (hdst (p1, p2) (by simp)).1) (hdst (p1, p2) (by simp)).2 v).bind
    intro _ s2 _ u2
    exact ih s2 (fun q hq => u2.live _ (u1.live _ (hsrc q (by simp [hq]))))
      (fun q hq => ⟨u2.live _ (u1.live _ (hdst q (by simp [hq])).1), (hdst q (by simp [hq])).2⟩)

theorem mapSeq_updates (f : T → T) (ps : List Ptr) (b : Nat) (s : St T)
    (hdst : ∀ p ∈ ps, (∃ v, s.get? p = some v) ∧ p.blk = b) : Updates (mapSeq f ps) b s := by
  induction ps generalizing s with
  | nil => exact .pure () b s
  | cons p ps ih =>
    simp only [mapSeq]
    apply (load_updates b (hdst p (by simp)).1).bind
    intro v s1 _ u1
    apply (assignCell_updates (u1.live _ (hdst p (by simp)).1) (hdst p (by simp)).2 (f v)).bind
    intro _ s2 _ u2
    exact ih s2 (fun q hq => ⟨u2.live _ (u1.live _ (hdst q (by simp [hq])).1), (hdst q (by simp [hq])).2⟩)

theorem assignLoop_updates (n : Nat) (p : Ptr) (input : List T) (b : Nat) (s : St T) (hb : p.blk = b)
    (hdst : ∀ k : Nat, k < n → ∃ v, s.get? (p.add (k : Int)) = some v) : Updates (assignLoop n p input) b s := by
  induction n generalizing p input s with
  | zero => exact .pure () b s
  | succ n ih =>
    cases input with
    | nil => exact .pure () b s
    | cons v vs =>
      simp only [assignLoop]
      apply (assignCell_updates (by simpa [Ptr.add] using hdst 0 (by omega)) hb v).bind
      intro _ s1 _ u1
      refine ih (p.add 1) vs s1 hb ?_
      intro k hk
      have := u1.live _ (hdst (k + 1) (by omega))
      have he : p.add ((k + 1 : Nat) : Int) = (p.add 1).add (k : Int) := by simp [Ptr.add]; ring
      rw [he] at this
      exact this

/-! ### Ownership under updates -/

theorem Spec.OwnsVals.upd {n : Nat} {s s' : St T} {a : MArr} {vs : List T} {b : Nat} (h : OwnsVals s n a vs) (u : Upd b s s') :
    ∃ vs', OwnsVals s' n a vs' := by
  obtain ⟨vs', e1, e2⟩ := block_live h.block (u.blocks.len _) u.live
  exact ⟨vs', h.reach, h.start, h.notNull, h.own, h.count, e1, by rw [e2, h.len]⟩

theorem Upd.none_iff {b : Nat} {s s' : St T} (u : Upd b s s') (c : Nat) : s'.heap c = none ↔ s.heap c = none := by
  have := u.blocks.len c
  unfold St.len at this
  cases h1 : s'.heap c <;> cases h2 : s.heap c <;> rw [h1, h2] at this <;> simp_all

/-- A block that exists is below the allocation counter. -/
theorem Upd.saneHeap {b : Nat} {s s' : St T} (u : Upd b s s') (h : SaneHeap s) : SaneHeap s' :=
  ⟨by rw [u.blocks.next]; exact h.1, fun c hc => by rw [u.none_iff]; exact h.2 c (by rw [← u.blocks.next]; exact hc)⟩

theorem valid_upd {w : World T} (hw : w.Valid) {b : Nat} {s' : St T} (u : Upd b w.st s') :
    ({ w with st := s' } : World T).Valid ∧ (w.NoLeak → ({ w with st := s' } : World T).NoLeak) := by
  refine ⟨⟨u.saneHeap hw.sane, ?_, hw.distinct⟩, ?_⟩
  · intro x a hx
    obtain ⟨n, vs, ho⟩ := hw.owns x a hx
    obtain ⟨vs', h'⟩ := ho.upd u
    exact ⟨n, vs', h'⟩
  · intro hn c hc
    exact hn c (fun h => hc ((u.none_iff c).mpr h))

/-- What one legal operation does to the invariants. -/
def StepOK (alloc : Bool) (w : World T) (r : Result T) : Prop :=
  ∃ w', (r = .ok w' ∧ (w.NoLeak → w'.NoLeak) ∨ r = .threw w' ∧ w.st.sched ≠ [] ∧ (alloc = false → w.NoLeak → w'.NoLeak)) ∧ w'.Valid ∧
    (w.st.sched = [] → w'.st.sched = [])

theorem stepOK_mem {α : Type} {w : World T} (hw : w.Valid) {e : Exec T α} {b : Nat} (h : Updates e b w.st) : StepOK false w (w.mem e) := by
  obtain ⟨s', h1, u⟩ := h
  obtain ⟨v1, v2⟩ := valid_upd hw u
  refine ⟨{ w with st := s' }, ?_, v1, u.nil⟩
  unfold World.mem
  rcases h1 with ⟨v, h1⟩ | ⟨h1, hne⟩
  · rw [h1]; exact .inl ⟨rfl, v2⟩
  · rw [h1]; exact .inr ⟨rfl, hne, fun _ => v2⟩

theorem World.set_same (w : World T) (x : Nat) (a : Option MArr) (s : St T) : (w.set x a s).objs x = a := by simp [World.set]

theorem World.set_other (w : World T) {x y : Nat} (h : y ≠ x) (a : Option MArr) (s : St T) : (w.set x a s).objs y = w.objs y := by
  simp [World.set, h]

/-- Replacing the header of a variable by another reachable header over the same block. -/
theorem valid_header {w : World T} (hw : w.Valid) {x : Nat} {a : MArr} (hx : w.objs x = some a) {ref : ARef} {n : Nat} {vs : List T}
    (ho : OwnsVals w.st n a vs) (hr : Reachable n ref) (hd : ref.data = a.ref.data) (hn : ref.numElements = a.ref.numElements) :
    (w.set x (some { a with ref := ref }) w.st).Valid ∧ (w.NoLeak → (w.set x (some { a with ref := ref }) w.st).NoLeak) := by
  have ho' : OwnsVals w.st n { a with ref := ref } vs := by
    refine ⟨hr, ?_, ?_, ?_, ?_, ?_, ?_⟩
    · rw [hd]; exact ho.start
    · rw [hd]; exact ho.notNull
    · show a.ownBase = ref.data
      rw [hd]; exact ho.own
    · show a.allocated = ref.numElements
      rw [hn]; exact ho.count
    · rw [hd]; exact ho.block
    · rw [ho.len, hn]
  have hblk : ∀ y c, (w.set x (some { a with ref := ref }) w.st).objs y = some c →
      ∃ c', w.objs y = some c' ∧ c.ref.data.blk = c'.ref.data.blk := by
    intro y c hc
    by_cases hy : y = x
    · subst hy
      rw [World.set_same] at hc
      cases hc
      exact ⟨a, hx, by rw [hd]⟩
    · rw [World.set_other _ hy] at hc
      exact ⟨c, hc, rfl⟩
  refine ⟨⟨hw.sane, ?_, ?_⟩, ?_⟩
  · intro y c hc
    by_cases hy : y = x
    · subst hy
      rw [World.set_same] at hc
      cases hc
      exact ⟨n, vs, ho'⟩
    · rw [World.set_other _ hy] at hc
      exact hw.owns y c hc
  · intro y z c c' hy hz heq
    obtain ⟨d, h1, h2⟩ := hblk y c hy
    obtain ⟨d', h1', h2'⟩ := hblk z c' hz
    exact hw.distinct y z d d' h1 h1' (by rw [← h2, ← h2', heq])
  · intro hnl b hb
    obtain ⟨y, c, hy, hc⟩ := hnl b hb
    by_cases hyx : y = x
    · subst hyx
      rw [hx] at hy; cases hy
      exact ⟨y, _, World.set_same _ _ _ _, by rw [← hc, ← hd]⟩
    · exact ⟨y, c, by rw [World.set_other _ hyx]; exact hy, hc⟩

theorem stepOK_header {w : World T} (hw : w.Valid) {x : Nat} {a : MArr} (hx : w.objs x = some a) {ref : ARef} {n : Nat} {vs : List T}
    (ho : OwnsVals w.st n a vs) (hr : Reachable n ref) (hd : ref.data = a.ref.data) (hn : ref.numElements = a.ref.numElements) :
    StepOK false w (w.header x a (.ok ref)) := by
  obtain ⟨v1, v2⟩ := valid_header hw hx ho hr hd hn
  exact ⟨_, .inl ⟨rfl, v2⟩, v1, id⟩

/-- Removing a variable whose block is released. -/
theorem valid_remove {w : World T} (hw : w.Valid) {x : Nat} {a : MArr} (hx : w.objs x = some a) {s' : St T}
    (hb : s'.heap a.ref.data.blk = none) (hs : SameExcept a.ref.data.blk w.st s') (hn : s'.next = w.st.next) :
    (w.set x none s').Valid ∧ (w.NoLeak → (w.set x none s').NoLeak) := by
  refine ⟨⟨⟨by show 0 < s'.next; rw [hn]; exact hw.sane.1, ?_⟩, ?_, ?_⟩, ?_⟩
  · intro c hc
    by_cases hcb : c = a.ref.data.blk
    · rw [hcb]; exact hb
    · have : w.st.next ≤ c := by rw [← hn]; exact hc
      show s'.heap c = none
      rw [hs c hcb]; exact hw.sane.2 c this
  · intro y c hc
    by_cases hy : y = x
    · subst hy; rw [World.set_same] at hc; cases hc
    · rw [World.set_other _ hy] at hc
      obtain ⟨n, vs, ho⟩ := hw.owns y c hc
      exact ⟨n, vs, ho.mono (hs _ (fun h => hy (hw.distinct y x c a hc hx h)))⟩
  · intro y z c c' hy hz heq
    have hy' : y ≠ x := by rintro rfl; rw [World.set_same] at hy; cases hy
    have hz' : z ≠ x := by rintro rfl; rw [World.set_same] at hz; cases hz
    rw [World.set_other _ hy'] at hy
    rw [World.set_other _ hz'] at hz
    exact hw.distinct y z c c' hy hz heq
  · intro hnl b hbl
    have hbl' : s'.heap b ≠ none := hbl
    have hne : b ≠ a.ref.data.blk := by rintro rfl; exact hbl' hb
    rw [hs b hne] at hbl'
    obtain ⟨y, c, hy, hc⟩ := hnl b hbl'
    have hyx : y ≠ x := by
      rintro rfl
      rw [hx] at hy; cases hy
      exact hne hc.symm
    exact ⟨y, c, by rw [World.set_other _ hyx]; exact hy, hc⟩

/-- Setting a variable to an array over a block that did not exist, the variable's old block (if any) being released. -/
theorem valid_fresh {w : World T} (hw : w.Valid) {x : Nat} {m : MArr} {n : Nat} {s' : St T} (ho : Owns s' n m)
    (hm : m.ref.data.blk = w.st.next) (hnext : s'.next = w.st.next + 1)
    (hold : ∀ a, w.objs x = some a → s'.heap a.ref.data.blk = none)
    (hs : ∀ c, c ≠ w.st.next → (∀ a, w.objs x = some a → c ≠ a.ref.data.blk) → s'.heap c = w.st.heap c) :
    (w.set x (some m) s').Valid ∧ (w.NoLeak → (w.set x (some m) s').NoLeak) := by
  have hlt : ∀ y c, w.objs y = some c → c.ref.data.blk < w.st.next := by
    intro y c hy
    obtain ⟨n, vs, h⟩ := hw.owns y c hy
    exact h.blk_lt hw.sane
  refine ⟨⟨⟨by show 0 < s'.next; omega, ?_⟩, ?_, ?_⟩, ?_⟩
  · intro c hc
    have hc' : s'.next ≤ c := hc
    show s'.heap c = none
    rw [hs c (by omega) (fun a ha => by have := hlt x a ha; omega)]
    exact hw.sane.2 c (by omega)
  · intro y c hc
    by_cases hy : y = x
    · subst hy; rw [World.set_same] at hc; cases hc; exact ⟨n, ho⟩
    · rw [World.set_other _ hy] at hc
      obtain ⟨n', vs, h⟩ := hw.owns y c hc
      have := hlt y c hc
      exact ⟨n', vs, h.mono (hs _ (by omega) (fun a ha heq => hy (hw.distinct y x c a hc ha heq)))⟩
  · intro y z c c' hy hz heq
    by_cases hyx : y = x <;> by_cases hzx : z = x
    · rw [hyx, hzx]
    · exfalso
      subst hyx
      rw [World.set_same] at hy; cases hy
      rw [World.set_other _ hzx] at hz
      have := hlt z c' hz
      omega
    · exfalso
      subst hzx
      rw [World.set_same] at hz; cases hz
      rw [World.set_other _ hyx] at hy
      have := hlt y c hy
      omega
    · rw [World.set_other _ hyx] at hy
      rw [World.set_other _ hzx] at hz
      exact hw.distinct y z c c' hy hz heq
  · intro hnl b hbl
    have hbl' : s'.heap b ≠ none := hbl
    by_cases hbn : b = w.st.next
    · exact ⟨x, m, World.set_same _ _ _ _, by rw [hm, hbn]⟩
    · have hno : ∀ a, w.objs x = some a → b ≠ a.ref.data.blk := by
        intro a ha heq
        exact hbl' (by rw [heq]; exact hold a ha)
      rw [hs b hbn hno] at hbl'
      obtain ⟨y, c, hy, hc⟩ := hnl b hbl'
      have hyx : y ≠ x := by
        rintro rfl
        exact hno c hy hc.symm
      exact ⟨y, c, by rw [World.set_other _ hyx]; exact hy, hc⟩

/-- An exception that leaves at most one new block behind. -/
theorem valid_throw {w : World T} (hw : w.Valid) {s' : St T} (hs : SameExcept w.st.next w.st s') (hsane : SaneHeap s') :
    ({ w with st := s' } : World T).Valid := by
  refine ⟨hsane, ?_, hw.distinct⟩
  intro y c hc
  obtain ⟨n, vs, h⟩ := hw.owns y c hc
  have := h.blk_lt hw.sane
  exact ⟨n, vs, h.mono (hs _ (by omega))⟩

theorem World.set_self {w : World T} {x : Nat} {a : MArr} (hx : w.objs x = some a) (s : St T) :
    w.set x (some a) s = { w with st := s } := by
  unfold World.set
  congr 1
  funext y
  by_cases hy : y = x
  · subst hy; rw [if_pos rfl, hx]
  · rw [if_neg hy]

theorem part_live {w : World T} (hw : w.Valid) {x : Nat} {d : Desc} (h : w.Part x d) :
    ∃ n a vs, w.objs x = some a ∧ OwnsVals w.st n a vs ∧ Handle a.ref d := by
  obtain ⟨a, hx, hh⟩ := h
  obtain ⟨n, vs, ho⟩ := hw.owns x a hx
  exact ⟨n, a, vs, hx, ho, hh⟩

theorem handle_blk {n : Nat} {r : ARef} (hr : Reachable n r) {d : Desc} (hh : Handle r d) {idx : List Int}
    (hi : InBox d.bases d.extents idx) : (address d idx).blk = r.data.blk := by
  obtain ⟨k, _, he⟩ := hh.address_in_block hr.wf hi
  rw [he]; rfl

theorem copy_updates {w : World T} (hw : w.Valid) {x y : Nat} {d d' : Desc} (h : w.Part x d) (h' : w.Part y d')
    (he : d.extents = d'.extents) : ∃ b, Updates (copySeq (copyPairs d' d)) b w.st ∧ WellShaped d ∧ WellShaped d' := by
  obtain ⟨n, a, vs, hx, ho, hh⟩ := part_live hw h
  obtain ⟨n', a', vs', hy, ho', hh'⟩ := part_live hw h'
  have hc := copySetup ho.reach ho'.reach hh hh' he.symm ho.live ho'.live
  refine ⟨a.ref.data.blk, copySeq_updates _ _ _ hc.live1 (fun p hp => ⟨hc.live2 p hp, ?_⟩), hc.wd, hc.ws⟩
  have : p.2 ∈ addrs d := by rw [← hc.snd]; exact List.mem_map.mpr ⟨p, hp, rfl⟩
  rw [mem_addrs] at this
  obtain ⟨idx, hi, hp⟩ := this
  rw [hp]; exact handle_blk ho.reach hh hi

/-- Every legal operation on a valid world completes or throws, and keeps the world valid. -/
theorem step_ok (dbg : Bool) (dflt : T) {w : World T} (hw : w.Valid) {op : Op T} (hop : op.Legal w) : StepOK op.allocates w (w.step dbg dflt op) := by
  cases op with
  | construct x i =>
    obtain ⟨hx, hi⟩ := hop
    obtain ⟨c, hc, hleg⟩ : ∃ c, i.ctor w.objs = some c ∧ c.Legal w.st := by
      cases i with
      | default n al => exact ⟨_, rfl, trivial⟩
      | extents n es so al => exact ⟨_, rfl, hi⟩
      | gen n rs so al => exact ⟨_, rfl, hi⟩
      | copy y =>
        obtain ⟨a, ha⟩ := hi
        obtain ⟨n, vs, ho⟩ := hw.owns y a ha
        refine ⟨.copy a.ref.numDims a, by simp [Init.ctor, ha], ?_⟩
        have hd : a.ref.numDims = n := ho.reach.wf.ext_len
        rw [hd]
        exact ⟨vs, ho⟩
      | convert y d so al =>
        obtain ⟨hp, hpos, hv⟩ := hi
        obtain ⟨n, a, vs, ha, ho, hh⟩ := part_live hw hp
        exact ⟨.convert d.extents.length d so al, by simp only [Init.ctor, ha]; rfl, hpos, hv, n, a.ref, ho.reach, hh, ho.live, rfl⟩
    obtain ⟨s', h1, h2, h3, j, h4⟩ := ctor_any dbg dflt hw.sane c hleg
    have hs' : w.st.sched = [] → s'.sched = [] := fun h => by rw [h4, h]; simp
    rcases h1 with ⟨m, h1, ⟨ws, h5⟩, h6, h7⟩ | ⟨h1, h5⟩
    · obtain ⟨v1, v2⟩ := valid_fresh hw (x := x) (m := m) (s' := s') ⟨ws, h5⟩ (by rw [h6]) h7 (by rw [hx]; simp)
        (fun c hc _ => h2 c hc)
      exact ⟨_, .inl ⟨by simp only [World.step, hc, h1], v2⟩, v1, hs'⟩
    · exact ⟨_, .inr ⟨by simp only [World.step, hc, h1], h5, fun h => by cases h⟩, valid_throw hw h2 h3, hs'⟩
  | destroy x =>
    obtain ⟨a, hx⟩ := hop
    obtain ⟨n, vs, ho⟩ := hw.owns x a hx
    obtain ⟨s', h1, h2, h3, h4, h5⟩ := ho.dealloc
    obtain ⟨v1, v2⟩ := valid_remove hw hx h2 h3 h4
    exact ⟨_, .inl ⟨by simp only [World.step, hx, h1], v2⟩, v1, fun h => by show s'.sched = []; rw [h5, h]⟩
  | assign x y =>
    obtain ⟨a, a', hx, hy, he⟩ := hop
    simp only [World.step, hx, hy]
    unfold MArr.assignFrom
    by_cases hxy : x = y
    · have : decide (x = y) = true := by simp [hxy]
      rw [this]
      exact stepOK_mem hw (Updates.pure () 0 w.st)
    · have : decide (x = y) = false := by simp [hxy]
      rw [this]
      obtain ⟨b, hu, w1, w2⟩ := copy_updates hw (d := a.ref.desc) (d' := a'.ref.desc) ⟨a, hx, .array⟩ ⟨a', hy, .array⟩ he
      apply stepOK_mem hw (b := b)
      show Updates (assignRef dbg a.ref.desc.extents.length a.ref.desc a'.ref.desc) b w.st
      rw [assignRef_eq dbg _ _ w1 w2 he.symm]
      exact hu
  | assignPart x d y d' =>
    obtain ⟨h1, h2, he⟩ := hop
    obtain ⟨b, hu, w1, w2⟩ := copy_updates hw h1 h2 he
    apply stepOK_mem hw (b := b)
    show Updates (assignRef dbg d.extents.length d d') b w.st
    rw [assignRef_eq dbg _ _ w1 w2 he.symm]
    exact hu
  | copyArray x d y d' =>
    obtain ⟨h1, h2, he⟩ := hop
    obtain ⟨b, hu, w1, w2⟩ := copy_updates hw h1 h2 he
    apply stepOK_mem hw (b := b)
    unfold MultiArray.copyArray
    rw [copyDispatch_eq dbg _ _ w1 w2 he.symm, decide_eq_true he.symm, assertE_true, pure_bind]
    exact hu
  | fill x input =>
    obtain ⟨a, hx⟩ := hop
    obtain ⟨n, vs, ho⟩ := hw.owns x a hx
    simp only [World.step, hx]
    exact stepOK_mem hw (assignLoop_updates _ _ _ _ _ rfl ho.live)
  | write x d idx v =>
    obtain ⟨hp, hi⟩ := hop
    obtain ⟨n, a, vs, hx, ho, hh⟩ := part_live hw hp
    apply stepOK_mem hw (b := a.ref.data.blk)
    unfold writeElem
    rw [accessElement_inBox dbg d idx (handle_wellShaped ho.reach hh).1 hi]
    simp only [Exec.lift_ok, pure_bind]
    exact assignCell_updates (ho.live.handle ho.reach.wf hh hi) (handle_blk ho.reach hh hi) v
  | read x d idx =>
    obtain ⟨hp, hi⟩ := hop
    obtain ⟨n, a, vs, hx, ho, hh⟩ := part_live hw hp
    apply stepOK_mem hw (b := a.ref.data.blk)
    unfold readElem
    rw [accessElement_inBox dbg d idx (handle_wellShaped ho.reach hh).1 hi]
    simp only [Exec.lift_ok, pure_bind]
    exact load_updates _ (ho.live.handle ho.reach.wf hh hi)
  | forEach x d f =>
    obtain ⟨n, a, vs, hx, ho, hh⟩ := part_live hw hop
    apply stepOK_mem hw (b := a.ref.data.blk)
    rw [forEach_eq dbg f d (handle_wellShaped ho.reach hh)]
    apply mapSeq_updates
    intro p hp
    rw [mem_addrs] at hp
    obtain ⟨idx, hi, rfl⟩ := hp
    exact ⟨ho.live.handle ho.reach.wf hh hi, handle_blk ho.reach hh hi⟩
  | resize x rs =>
    obtain ⟨a, hx, hl, hleg, hrep⟩ := hop
    obtain ⟨n, vs, ho⟩ := hw.owns x a hx
    have hd : a.ref.numDims = n := ho.reach.wf.ext_len
    simp only [World.step, hx, hd]
    obtain ⟨m, s', h1, _, _, _, _, h6, ⟨j, hj⟩, _⟩ := resize_any dbg dflt ho hw.sane hrep (by rw [hl]; exact hd) hleg
    have hs' : w.st.sched = [] → s'.sched = [] := fun h => by rw [hj, h]; simp
    rcases h6 with ⟨h6, hold, hnext, hoth, hown⟩ | ⟨h6, hnt, hse, hsane, _⟩
    · obtain ⟨v1, v2⟩ := valid_fresh hw (x := x) (m := m) (s' := s') hown (by rw [h1]) hnext
        (fun c hc => by rw [hx] at hc; cases hc; exact hold) (fun c hc h => hoth c (h a hx) hc)
      exact ⟨_, .inl ⟨by rw [h6]; rfl, v2⟩, v1, hs'⟩
    · refine ⟨w.set x (some a) s', .inr ⟨by rw [h6]; rfl, fun h => hnt (noThrow_nil h _), fun h => by cases h⟩, ?_, hs'⟩
      rw [World.set_self hx]
      exact valid_throw hw hse hsane
  | resizeList x es =>
    obtain ⟨a, hx, hl, hes, hrep⟩ := hop
    obtain ⟨n, vs, ho⟩ := hw.owns x a hx
    have hd : a.ref.numDims = n := ho.reach.wf.ext_len
    have hl' : es.length = n := by rw [hl]; exact hd
    simp only [World.step, hx]
    rw [resizeExtents_eq dbg dflt ho hl']
    obtain ⟨m, s', h1, _, _, _, _, h6, ⟨j, hj⟩, _⟩ := resize_any dbg dflt ho hw.sane hrep
      (by rw [List.length_map, hl']) (extentList_legal hes)
    have hs' : w.st.sched = [] → s'.sched = [] := fun h => by rw [hj, h]; simp
    rcases h6 with ⟨h6, hold, hnext, hoth, hown⟩ | ⟨h6, hnt, hse, hsane, _⟩
    · obtain ⟨v1, v2⟩ := valid_fresh hw (x := x) (m := m) (s' := s') hown (by rw [h1]) hnext
        (fun c hc => by rw [hx] at hc; cases hc; exact hold) (fun c hc h => hoth c (h a hx) hc)
      exact ⟨_, .inl ⟨by rw [h6]; rfl, v2⟩, v1, hs'⟩
    · refine ⟨w.set x (some a) s', .inr ⟨by rw [h6]; rfl, fun h => hnt (noThrow_nil h _), fun h => by cases h⟩, ?_, hs'⟩
      rw [World.set_self hx]
      exact valid_throw hw hse hsane
  | reindex x bs =>
    obtain ⟨a, hx, hl⟩ := hop
    obtain ⟨n, vs, ho⟩ := hw.owns x a hx
    obtain ⟨r, h1, _, _, _, _, h2, h3, _⟩ := C11_reindex_relabels ho.reach bs (by rw [hl]; exact ho.reach.wf.ext_len)
    simp only [World.step, hx, h1]
    exact stepOK_header hw hx ho (.reindexList ho.reach h1) h2 h3
  | reindexAll x b =>
    obtain ⟨a, hx⟩ := hop
    obtain ⟨n, vs, ho⟩ := hw.owns x a hx
    simp only [World.step, hx]
    exact stepOK_header hw hx ho (.reindexAll ho.reach) rfl rfl
  | reshape x es =>
    obtain ⟨a, hx, hl, hp⟩ := hop
    obtain ⟨n, vs, ho⟩ := hw.owns x a hx
    have hl' : es.length = n := by rw [hl]; exact ho.reach.wf.ext_len
    have hp' : es.prod = a.ref.numElements := by rw [hp]; show _ = a.ref.numElems; rw [ho.reach.wf.num_eq, product_eq]
    obtain ⟨r, h1, _, h2, h3, _⟩ := C13_reshape_preserves ho.reach dbg es hl' hp'
    simp only [World.step, hx, h1]
    exact stepOK_header hw hx ho (.reshape ho.reach hl' hp' h1) h2 h3

end MultiArray
