import Verif.Lemmas.ShareStep

/- Commands that change shape or elements, in programs with shared storage. -/
set_option autoImplicit false

namespace MultiArray
open Spec Props
variable {T : Type} {g : Ghost}

/-! ### Shape -/

theorem HdrRep.reindex {st : Nat → Option (List T)} {c : Nat} {a : ARef} {h : SArr} (hh : HdrRep g st c a h) {bs : List Int} (hl : bs.length = h.extents.length) :
    ∃ a', a.reindexList bs = .ok a' ∧ a'.data = a.data ∧ a'.numElements = a.numElements ∧ HdrRep g st c a' { h with bases := bs } := by
  obtain ⟨a', e1, e2, e3, _, e5, e6, e7, _⟩ := C11_reindex_relabels hh.reach bs hl
  exact ⟨a', e1, e6, e7, hh.lt, .reindexList hh.reach e1, by rw [e6]; exact hh.data, e2, by rw [e3]; exact hh.extents, by rw [e5]; exact hh.order, hh.bound⟩

theorem HdrRep.num {st : Nat → Option (List T)} {c : Nat} {a : ARef} {h : SArr} (hh : HdrRep g st c a h) : a.numElements = h.extents.prod := by
  rw [show a.numElements = a.numElems from rfl, hh.reach.wf.num_eq, product_eq, hh.extents]

theorem HdrRep.reshape (dbg : Bool) {st : Nat → Option (List T)} {c : Nat} {a : ARef} {h : SArr} (hh : HdrRep g st c a h) {es : List Nat} (hl : es.length = h.extents.length)
    (hp : es.prod = h.extents.prod) :
    ∃ a', a.reshape dbg es = .ok a' ∧ a'.data = a.data ∧ a'.numElements = a.numElements ∧ HdrRep g st c a' { h with extents := es } := by
  have hp' : es.prod = a.numElements := by rw [hh.num]; exact hp
  obtain ⟨a', e1, e2, e3, e4, e5, e6, _⟩ := C13_reshape_preserves hh.reach dbg es hl hp'
  refine ⟨a', e1, e3, e4, hh.lt, ?_, by rw [e3]; exact hh.data, by rw [e5]; exact hh.bases, e2, by rw [e6]; exact hh.order, fun vs hv => by
    show h.first + es.prod ≤ vs.length
    rw [hp]; exact hh.bound vs hv⟩
  show Reachable es.length a'
  rw [hl]
  exact .reshape hh.reach hl hp' e1

theorem inBox_shift {bs bs' : List Int} {es : List Nat} {idx : List Int} (h : InBox bs es idx) (hl : bs'.length = es.length) :
    InBox bs' es (List.zipWith (· + ·) bs' (List.zipWith (· - ·) idx bs)) ∧
    List.zipWith (· - ·) (List.zipWith (· + ·) bs' (List.zipWith (· - ·) idx bs)) bs' = List.zipWith (· - ·) idx bs := by
  induction es generalizing bs bs' idx with
  | nil =>
    match bs, idx, bs', h, hl with
    | [], [], [], h, _ => exact ⟨trivial, rfl⟩
  | cons e es ih =>
    match bs, idx, bs', h, hl with
    | b :: bs, i :: idx, b' :: bs', h, hl =>
      obtain ⟨h1, h2, h3⟩ := h
      obtain ⟨r1, r2⟩ := ih (bs' := bs') h3 (by simpa using hl)
      simp only [List.zipWith_cons_cons]
      refine ⟨⟨by omega, by omega, r1⟩, ?_⟩
      rw [r2]
      congr 1
      omega

theorem PlaceRep.reindex {st : Nat → Option (List T)} {c : Nat} {v : View} {p : SPart} (hw : v.WF) (hp : PlaceRep g st c v.desc p) {bs : List Int}
    (hl : bs.length = p.extents.length) : ∃ v', v.reindexList bs = .ok v' ∧ v'.WF ∧ PlaceRep g st c v'.desc (p.reindex bs) := by
  have hve : v.extents = p.extents := hp.extents
  have hvb : v.bases = p.bases := hp.bases
  have hri : v.reindexList bs = .ok { v with bases := bs, originOffset := calcIndexingOffset v.strides bs } := by
    unfold View.reindexList
    simp only [copyN, View.numDims, hve, ← hl, Nat.le_refl, if_true, List.take_length, Res.bind_ok]
  have hw' : ({ v with bases := bs, originOffset := calcIndexingOffset v.strides bs } : View).WF :=
    ⟨hw.strides_len, by simp [hve, hl], rfl, hw.num_eq⟩
  have key : ∀ idx, InBox bs p.extents idx → InBox p.bases p.extents (List.zipWith (· + ·) p.bases (List.zipWith (· - ·) idx bs)) ∧
      address ({ v with bases := bs, originOffset := calcIndexingOffset v.strides bs } : View).desc idx =
        address v.desc (List.zipWith (· + ·) p.bases (List.zipWith (· - ·) idx bs)) := by
    intro idx hi
    obtain ⟨r1, r2⟩ := inBox_shift hi (bs' := p.bases) (by rw [← hvb, hw.bases_len, hve])
    refine ⟨r1, ?_⟩
    rw [hw'.address idx (by rw [hi.length.1]; exact hve ▸ rfl), hw.address _ (by rw [r1.length.1, hve])]
    simp only [relPos, hvb, r2]
  refine ⟨_, hri, hw', hp.lt, hw'.wellShaped, rfl, hve, ?_, ?_⟩
  · intro idx hi
    rw [(key idx hi).2]
    exact hp.addr _ (key idx hi).1
  · intro vs hv idx hi
    exact hp.bound vs hv _ (key idx hi).1

theorem share_reindex (dbg : Bool) (dflt : T) (eq lt : T → T → Bool) {w : SWorld T} {A : SState T} (h : RepG g w A) (x : Nat) (bs : List Int)
    (hleg : A.Legal (.reindex x bs)) : SCmdOK dbg dflt eq lt w A (.reindex x bs) := by
  rcases hleg with ⟨hh, hx, hl⟩ | ⟨p, hx, hl⟩
  · rcases hx with hx | hx
    · obtain ⟨a, e1, e2, e3, e4, e5, e6, e7⟩ := h.owner hx
      obtain ⟨a', f1, f2, f3, f4⟩ := e2.reindex hl
      refine ⟨.basic .unit, _, w.setVar x (some (.owner { a with ref := a' })) w.st, g, by simp [SState.step, hx] <;> rfl,
        by simp [SWorld.exec, e1, f1, Res.val?], ?_⟩
      exact h.setSame x _ _ ⟨f4, e3, by show a.ownBase = a'.data; rw [f2]; exact e4, by show a.allocated = a'.numElements; rw [f3]; exact e5, e6, e7⟩
        (by rw [hx]; exact fun _ => Iff.rfl)
    · obtain ⟨a, e1, e2⟩ := h.ref hx
      obtain ⟨a', f1, f2, f3, f4⟩ := e2.reindex hl
      refine ⟨.basic .unit, _, w.setVar x (some (.ref a')) w.st, g, by simp [SState.step, hx] <;> rfl,
        by simp [SWorld.exec, e1, f1, Res.val?], ?_⟩
      exact h.setSame x _ _ f4 (by rw [hx]; exact fun _ => Iff.rfl)
  · obtain ⟨v, e1, e2, e3⟩ := h.view hx
    obtain ⟨v', f1, f2, f3⟩ := e3.reindex e2 hl
    refine ⟨.basic .unit, _, w.setVar x (some (.view v')) w.st, g, by simp [SState.step, hx] <;> rfl,
        by simp [SWorld.exec, e1, f1, Res.val?], ?_⟩
    exact h.setSame x _ _ ⟨f2, f3⟩ (by rw [hx]; exact fun _ => Iff.rfl)

theorem share_reshape (dbg : Bool) (dflt : T) (eq lt : T → T → Bool) {w : SWorld T} {A : SState T} (h : RepG g w A) (x : Nat) (es : List Nat)
    (hleg : A.Legal (.reshape x es)) : SCmdOK dbg dflt eq lt w A (.reshape x es) := by
  obtain ⟨hh, hx, hl, hp⟩ := hleg
  rcases hx with hx | hx
  · obtain ⟨a, e1, e2, e3, e4, e5, e6, vs, e7, e8⟩ := h.owner hx
    obtain ⟨a', f1, f2, f3, f4⟩ := e2.reshape dbg hl hp
    refine ⟨.basic .unit, _, w.setVar x (some (.owner { a with ref := a' })) w.st, g, by simp [SState.step, hx] <;> rfl,
      by simp [SWorld.exec, e1, f1, Res.val?], ?_⟩
    exact h.setSame x _ _ ⟨f4, e3, by show a.ownBase = a'.data; rw [f2]; exact e4, by show a.allocated = a'.numElements; rw [f3]; exact e5, e6,
      vs, e7, by show vs.length = es.prod; rw [hp]; exact e8⟩ (by rw [hx]; exact fun _ => Iff.rfl)
  · obtain ⟨a, e1, e2⟩ := h.ref hx
    obtain ⟨a', f1, f2, f3, f4⟩ := e2.reshape dbg hl hp
    refine ⟨.basic .unit, _, w.setVar x (some (.ref a')) w.st, g, by simp [SState.step, hx] <;> rfl,
      by simp [SWorld.exec, e1, f1, Res.val?], ?_⟩
    exact h.setSame x _ _ f4 (by rw [hx]; exact fun _ => Iff.rfl)

theorem share_resize (dbg : Bool) (dflt : T) (eq lt : T → T → Bool) {w : SWorld T} {A : SState T} (h : RepG g w A) (x : Nat) (rs : List ExtentRange)
    (hleg : A.Legal (.resize x rs)) : SCmdOK dbg dflt eq lt w A (.resize x rs) := by
  obtain ⟨hh, hx, hl, hle, hrep⟩ := hleg
  obtain ⟨a, vs, hw, hvs, hb, hal, hr⟩ := h.represents hx
  have hi := (h.block hvs).1
  obtain ⟨o, abs', a', s', e1, e2, e3⟩ := C52_step_refines dbg dflt hr (.resize rs) ⟨hl, hle, hrep⟩
  obtain ⟨a1, s1, f1, f2, f3, f4, f5, _, _, f8, _, _, f11, f12, f13, f14⟩ := resize_ok dbg dflt hr.owns h.mem.sane h.mem.sched
    (by rw [hr.bases, hr.extents]; exact hrep) hl hle
  have hnd : a.ref.numDims = hh.extents.length := congrArg List.length hr.extents
  simp only [concStep, hnd, f1, Out.val?, Option.map_some, Option.some.injEq, Prod.mk.injEq] at e2
  obtain ⟨rfl, rfl, rfl⟩ := e2
  simp only [AbsArr.step, Option.some.injEq, Prod.mk.injEq, true_and] at e1
  subst e1
  have hlt : w.st.next < s1.next := by
    by_contra hc
    have := f14.2 w.st.next (by omega)
    have hblk := e3.owns.block
    rw [f8] at hblk
    rw [this] at hblk
    cases hblk
  have hoth : ∀ b, b ≠ g.blk hh.store → b ≠ w.st.next → s1.heap b = w.st.heap b := fun b h1 h2 => f12 b (by rw [hb]; exact h1) h2
  have hm := h.mem.new (stores0 := fun j => if j = hh.store then none else A.stores j) (al := a1.alloc) (vs := AbsArr.resizedVals dflt ⟨hh.bases, hh.extents, hh.order, vs⟩ (reqExtents rs))
    hlt f14 f13 (by have := e3.owns.block; rw [f8] at this; exact this)
    (fun i hic => by
      by_cases hie : i = hh.store
      · subst hie
        simp only [if_true, Option.map_none]
        rw [← hb]; exact f11
      · simp only [hie, if_false]
        rw [hoth _ (fun e => hie (h.mem.inj i _ hic hi e)) (by have := h.mem.pos i hic; omega)]
        exact h.mem.val i hic)
    (fun i hic => by
      have : ¬ i = hh.store := by omega
      simp only [this, if_false]
      exact h.mem.fresh i hic)
    (fun b h1 h2 => by
      by_cases hbe : b = g.blk hh.store
      · rw [hbe, (h.block hvs).2]; simp
      · rw [← hoth b hbe h1]; exact h2)
  refine ⟨.basic .unit, _, w.setVar x (some (.owner a1)) s1, g.push A.count w.st.next a1.alloc, by simp [SState.step, hx, hvs] <;> rfl,
    by simp [SWorld.exec, hw, hnd, f1, Out.val?], ?_⟩
  have hown : ∀ y i, y ≠ x → OwnsStore (A.vars y) i → i < A.count ∧ ¬ i = hh.store ∧ A.stores i ≠ none := by
    intro y i hy ho
    refine ⟨(h.ownsLive ho).1, fun e => hy (h.uniq y x i ho (by rw [hx]; exact e.symm)), (h.ownsLive ho).2⟩
  have key : RepG (g.push A.count w.st.next a1.alloc) (w.setVar x (some (.owner a1)) s1)
      ⟨fun j => if j = A.count then some (AbsArr.resizedVals dflt ⟨hh.bases, hh.extents, hh.order, vs⟩ (reqExtents rs)) else
        (fun j => if j = hh.store then none else A.stores j) j, A.count + 1,
        (A.setVar x (some (.owner ⟨A.count, 0, reqBases rs, reqExtents rs, hh.order⟩))).vars⟩ := by
   refine h.setVar x _ (some (.owner ⟨A.count, 0, reqBases rs, reqExtents rs, hh.order⟩)) hm (grow_push g _ _ _ ?_) ?_ ?_ ?_ ?_
   · intro i _ vs' hv
     by_cases hie : i = hh.store
     · simp [hie] at hv
     · simpa [hie] using hv
   · exact varRep_owner (abs := ⟨reqBases rs, reqExtents rs, hh.order, AbsArr.resizedVals dflt ⟨hh.bases, hh.extents, hh.order, vs⟩ (reqExtents rs)⟩)
       (Nat.lt_succ_self A.count) e3 (by rw [f8]; simp [Ghost.push]) (by simp [Ghost.push]) (by simp)
   · intro y i hy ho
     obtain ⟨o1, o2, o3⟩ := hown y i hy ho
     have hne : ¬ i = A.count := by omega
     simpa [hne, o2] using o3
   · intro y i hy ho ho'
     have := (hown y i hy ho').1
     have hic : A.count = i := ho
     omega
   · intro i hi'
     by_cases hic : i = A.count
     · exact .inl hic.symm
     · by_cases hie : i = hh.store
       · simp [hic, hie] at hi'
         exact absurd hi' (by omega)
       · have : A.stores i ≠ none := by simpa [hic, hie] using hi'
         obtain ⟨y, hy⟩ := h.owned i this
         refine .inr ⟨y, fun e => hie ?_, hy⟩
         rw [e, hx] at hy
         exact hy.symm
  exact key

/-! ### Elements -/

theorem fill_step {vs : List T} {k : Nat} (v : T) (ws : List T) (hk : k < vs.length) :
    (vs.set k v).take (k + 1) ++ ws ++ (vs.set k v).drop (k + 1 + ws.length) = vs.take k ++ (v :: ws) ++ vs.drop (k + (v :: ws).length) := by
  have h1 : (vs.set k v).take (k + 1) = vs.take k ++ [v] := by
    rw [List.take_succ_eq_append_getElem (by simpa using hk), List.take_set_of_le (by omega)]
    simp
  have h2 : (vs.set k v).drop (k + 1 + ws.length) = vs.drop (k + (v :: ws).length) := by
    rw [List.drop_set_of_lt (by omega)]
    congr 1
    simp; omega
  rw [h1, h2]; simp

theorem assignLoop_block {b al : Nat} (n : Nat) (input : List T) (k : Nat) {s : St T} {vs : List T} (hb : s.heap b = some ⟨al, vs.map .obj⟩) (hs : s.sched = [])
    (hk : k + n ≤ vs.length) :
    ∃ s', assignLoop n ⟨b, (k : Int)⟩ input s = .ok () s' ∧
      s'.heap b = some ⟨al, (vs.take k ++ input.take n ++ vs.drop (k + (input.take n).length)).map .obj⟩ ∧ (∀ c, c ≠ b → s'.heap c = s.heap c) ∧
      s'.next = s.next ∧ s'.sched = [] := by
  induction n generalizing input k s vs with
  | zero => exact ⟨s, rfl, by simpa using hb, fun _ _ => rfl, rfl, hs⟩
  | succ n ih =>
    cases input with
    | nil => exact ⟨s, rfl, by simpa using hb, fun _ _ => rfl, rfl, hs⟩
    | cons v input =>
      obtain ⟨s1, e1, e2, e3, e4, e5⟩ := assignCell_block hb hs (show k < vs.length by omega) v
      obtain ⟨s', f1, f2, f3, f4, f5⟩ := ih input (k + 1) e2 e5 (by simp; omega)
      refine ⟨s', ?_, ?_, fun c hc => (f3 c hc).trans (e3 c hc), f4.trans e4, f5⟩
      · simp only [assignLoop]
        rw [Exec.bind_ok e1, show (⟨b, (k : Int)⟩ : Ptr).add 1 = ⟨b, ((k + 1 : Nat) : Int)⟩ by simp [Ptr.add]]
        exact f1
      · rw [f2, List.take_succ_cons, fill_step v _ (by omega)]

theorem share_fill (dbg : Bool) (dflt : T) (eq lt : T → T → Bool) {w : SWorld T} {A : SState T} (h : RepG g w A) (x : Nat) (input : List T)
    (hleg : A.Legal (.fill x input)) : SCmdOK dbg dflt eq lt w A (.fill x input) := by
  obtain ⟨hh, hx, hlive⟩ := hleg
  obtain ⟨vs, hvs⟩ := Option.ne_none_iff_exists'.mp hlive
  have main : ∀ {a : ARef}, HdrRep g A.stores A.count a hh → ∃ s', a.assign input w.st = .ok () s' ∧
      RepG g { w with st := s' } (A.setStore hh.store (some (
          vs.take hh.first ++ input.take hh.extents.prod ++ vs.drop (hh.first + (input.take hh.extents.prod).length)))) := by
    intro a ha
    have hbd := ha.bound vs hvs
    obtain ⟨s', e1, e2, e3, e4, e5⟩ := assignLoop_block hh.extents.prod input hh.first (h.block hvs).2 h.mem.sched hbd
    refine ⟨s', ?_, h.sameShape (sameShape_setStore A hvs ?_) (h.mem.update ha.lt e2 e3 e4 e5)⟩
    · unfold ARef.assign
      rw [show a.numElems = hh.extents.prod from ha.num, show a.base = ⟨g.blk hh.store, (hh.first : Int)⟩ from ha.data]
      exact e1
    · simp; omega
  rcases hx with hx | hx
  · obtain ⟨a, e1, e2, _⟩ := h.owner hx
    obtain ⟨s', f1, f2⟩ := main e2
    exact ⟨.basic .unit, _, _, g, by simp [SState.step, hx, hvs] <;> rfl, by simp only [SWorld.exec, e1]; exact sw_mem _ f1, f2⟩
  · obtain ⟨a, e1, e2⟩ := h.ref hx
    obtain ⟨s', f1, f2⟩ := main e2
    exact ⟨.basic .unit, _, _, g, by simp [SState.step, hx, hvs] <;> rfl, by simp only [SWorld.exec, e1]; exact sw_mem _ f1, f2⟩

/-- Element-by-element copy between parts of the same shape. -/
theorem share_copy {w : SWorld T} {A : SState T} (h : RepG g w A) (dbg : Bool) {d d' : Desc} {p q : SPart} (hp : PlaceRep g A.stores A.count d p)
    (hq : PlaceRep g A.stores A.count d' q) (lp : A.stores p.store ≠ none) (lq : A.stores q.store ≠ none) (he : p.extents = q.extents) :
    ∃ s' A', assignRef dbg d.extents.length d d' w.st = .ok () s' ∧ MultiArray.copyArray dbg d' d w.st = .ok () s' ∧
      SState.copy p q (positions p.extents) A = some A' ∧ RepG g { w with st := s' } A' := by
  have hw := hp.shaped
  have hw' := hq.shaped
  have hde : d'.extents = d.extents := by rw [hp.extents, hq.extents, he]
  obtain ⟨s', A', c1, c2, c3, _⟩ := h.copy hp hq lp lq he (positions p.extents) (fun k hk => by
    rw [positions_eq, mem_allPos] at hk; exact hk)
  rw [positions_eq, ← hp.extents, ← copyPairs_eq_map d' d hw' hw hde] at c1
  refine ⟨s', A', by rw [assignRef_eq dbg _ _ hw hw' hde]; exact c1, ?_, c2, c3⟩
  unfold copyArray
  rw [decide_eq_true hde, assertE_true, pure_bind, copyDispatch_eq dbg _ _ hw hw' hde]
  exact c1

theorem share_assign (dbg : Bool) (dflt : T) (eq lt : T → T → Bool) {w : SWorld T} {A : SState T} (h : RepG g w A) (x : Nat) (ss : List Sel)
    (y : Nat) (ss' : List Sel) (hleg : A.Legal (.assign x ss y ss')) :
    SCmdOK dbg dflt eq lt w A (.assign x ss y ss') ∧ SCmdOK dbg dflt eq lt w A (.copyArray x ss y ss') := by
  obtain ⟨p, q, hp, hq, he⟩ := hleg
  obtain ⟨d, hd, hpo, hA, lp⟩ := h.lookup dbg hp
  obtain ⟨d', hd', hqo, hA', lq⟩ := h.lookup dbg hq
  obtain ⟨s', A', c1, c1', c2, c3⟩ := share_copy h dbg hpo hqo lp lq he
  constructor
  · by_cases hself : x = y ∧ ss = [] ∧ ss' = []
    · obtain ⟨rfl, rfl, rfl⟩ := hself
      rw [hA] at hA'; cases hA'
      have hcs : SState.copy p p (positions p.extents) A = some A := SState.copy_self p _ A (fun k hk => by
        rw [positions_eq, mem_allPos] at hk
        obtain ⟨v, _, e⟩ := h.elem hpo lp hk
        exact ⟨v, e⟩)
      refine ⟨.basic .unit, A, { w with st := w.st }, g, by simp [SState.step, hA, hcs], ?_, h⟩
      rw [hd] at hd'; cases hd'
      simp only [SWorld.exec, hd, Option.bind_some, decide_true, List.isEmpty_nil, Bool.and_self]
      exact sw_mem (v := ()) _ rfl
    · refine ⟨.basic .unit, A', _, g, by simp [SState.step, hA, hA', c2], ?_, c3⟩
      have hf : (decide (x = y) && ss.isEmpty && ss'.isEmpty) = false := by
        by_contra hc
        simp only [Bool.not_eq_false, Bool.and_eq_true, decide_eq_true_eq, List.isEmpty_iff] at hc
        exact hself ⟨hc.1.1, hc.1.2, hc.2⟩
      simp only [SWorld.exec, hd, hd', Option.bind_some, hf]
      refine sw_mem (v := ()) _ ?_
      rw [assignOp_eq]
      exact c1
  · refine ⟨.basic .unit, A', _, g, by simp [SState.step, hA, hA', c2], ?_, c3⟩
    simp only [SWorld.exec, hd, hd', Option.bind_some]
    exact sw_mem (v := ()) _ c1'

theorem share_access (dbg : Bool) (dflt : T) (eq lt : T → T → Bool) {w : SWorld T} {A : SState T} (h : RepG g w A) (x : Nat) (ss : List Sel)
    (idx : List Int) (v : T) (hleg : A.Legal (.read x ss idx)) :
    SCmdOK dbg dflt eq lt w A (.read x ss idx) ∧ SCmdOK dbg dflt eq lt w A (.write x ss idx v) := by
  obtain ⟨p, hp, hin⟩ := hleg
  obtain ⟨d, hd, hpo, hA, lp⟩ := h.lookup dbg hp
  have hin' : InBox d.bases d.extents idx := by rw [hpo.bases, hpo.extents]; exact hin
  have hacc := accessElement_inBox dbg d idx hpo.shaped.1 hin'
  constructor
  · obtain ⟨u, g1, g2⟩ := h.get hpo lp hin
    refine ⟨.basic (.value u), A, { w with st := w.st }, g, by simp [SState.step, hA, g2], ?_, h⟩
    have : readElem dbg d idx w.st = .ok u w.st := by
      unfold readElem
      rw [hacc, Exec.lift_ok, pure_bind]
      exact load_ok g1
    simp only [SWorld.exec, hd, Option.bind_some]
    exact sw_mem _ this
  · obtain ⟨s', A', p1, p2, p3, _⟩ := h.put hpo lp hin v
    refine ⟨.basic .unit, A', _, g, by simp [SState.step, hA, p2], ?_, p3⟩
    simp only [SWorld.exec, hd, Option.bind_some]
    refine sw_mem (v := ()) _ ?_
    unfold writeElem
    rw [hacc, Exec.lift_ok, pure_bind]
    exact p1

theorem share_forEach (dbg : Bool) (dflt : T) (eq lt : T → T → Bool) {w : SWorld T} {A : SState T} (h : RepG g w A) (x : Nat) (ss : List Sel)
    (f : T → T) (hleg : A.Legal (.forEach x ss f)) : SCmdOK dbg dflt eq lt w A (.forEach x ss f) := by
  obtain ⟨p, hp⟩ := hleg
  obtain ⟨d, hd, hpo, hA, lp⟩ := h.lookup dbg hp
  obtain ⟨s', A', c1, c2, c3, _⟩ := h.map hpo lp f (positions p.extents) (fun k hk => by
    rw [positions_eq, mem_allPos] at hk; exact hk)
  rw [positions_eq, ← hpo.extents, ← addrs_eq_map d hpo.shaped] at c1
  refine ⟨.basic .unit, A', _, g, by simp [SState.step, hA, c2], ?_, c3⟩
  simp only [SWorld.exec, hd, Option.bind_some]
  refine sw_mem (v := ()) _ ?_
  rw [forEach_eq dbg f d hpo.shaped]
  exact c1

theorem share_traverse (dbg : Bool) (dflt : T) (eq lt : T → T → Bool) {w : SWorld T} {A : SState T} (h : RepG g w A) (x : Nat) (ss : List Sel)
    (hleg : A.Legal (.traverse x ss)) : SCmdOK dbg dflt eq lt w A (.traverse x ss) ∧ SCmdOK dbg dflt eq lt w A (.shape x ss) := by
  obtain ⟨p, hp⟩ := hleg
  obtain ⟨d, hd, hpo, hA, lp⟩ := h.lookup dbg hp
  have hw := hpo.shaped
  constructor
  · have hloop := nestedLoop_spec dbg d.extents.sum d hw (fun e he => mem_le_sum he)
    rw [allIdx_eq_map _ _ hw.2, List.map_map] at hloop
    have key : ∀ k ∈ allPos d.extents, ∃ v, elemAt w.st d k = some v ∧ A.get p (atPos p.bases k) = some v := by
      intro k hk
      rw [mem_allPos, hpo.extents] at hk
      exact h.elem hpo lp hk
    have h1 : ((allPos d.extents).map (address d ∘ atPos d.bases)).mapM (fun q => w.st.get? q) =
        some ((allPos d.extents).map (fun k => (elemAt w.st d k).getD dflt)) := by
      rw [List.mapM_map]
      apply mapM_some_congr
      intro k hk
      obtain ⟨v, e1, _⟩ := key k hk
      show elemAt w.st d k = _
      rw [e1]; rfl
    have h2 : A.values p = some ((allPos d.extents).map (fun k => (elemAt w.st d k).getD dflt)) := by
      unfold SState.values
      rw [positions_eq, ← hpo.extents]
      apply mapM_some_congr
      intro k hk
      obtain ⟨v, e1, e2⟩ := key k hk
      rw [e1, e2]; rfl
    refine ⟨.values _, A, w, g, by simp [SState.step, hA, h2] <;> rfl, ?_, h⟩
    simp only [SWorld.exec, hd, Option.bind_some, hloop, Res.val?, h1, Option.map_some]
  · exact ⟨.shape p.bases p.extents, A, w, g, by simp [SState.step, hA], by simp [SWorld.exec, hd, hpo.bases, hpo.extents], h⟩

theorem share_compare (dbg : Bool) (dflt : T) (eq lt : T → T → Bool) {w : SWorld T} {A : SState T} (h : RepG g w A) (x : Nat) (ss : List Sel)
    (y : Nat) (ss' : List Sel) (hleg : A.Legal (.equal x ss y ss')) :
    SCmdOK dbg dflt eq lt w A (.equal x ss y ss') ∧ SCmdOK dbg dflt eq lt w A (.less x ss y ss') := by
  obtain ⟨p, q, hp, hq, he⟩ := hleg
  obtain ⟨d, hd, hpo, hA, lp⟩ := h.lookup dbg hp
  obtain ⟨d', hd', hqo, hA', lq⟩ := h.lookup dbg hq
  have hf : Contents w.st d (fun k => (A.get p (atPos p.bases k)).getD dflt) := by
    intro k hk
    rw [hpo.extents] at hk
    obtain ⟨v, e1, e2⟩ := h.elem hpo lp hk
    simp [e1, e2]
  have hg : Contents w.st d' (fun k => (A.get q (atPos q.bases k)).getD dflt) := by
    intro k hk
    rw [hqo.extents] at hk
    obtain ⟨v, e1, e2⟩ := h.elem hqo lq hk
    simp [e1, e2]
  have hlen : d'.extents.length = d.extents.length := by rw [hpo.extents, hqo.extents, he]
  constructor
  · have := equalRef_spec dbg eq w.st d.extents.length d d' hpo.shaped hqo.shaped rfl hlen _ _ hf hg
    refine ⟨_, A, w, g, by simp only [SState.step, hA, hA', Option.bind_some, Option.map_some]; rfl, ?_, h⟩
    rw [hpo.extents, hqo.extents] at this
    simp only [SWorld.exec, hd, hd', Option.bind_some, hpo.extents, this, Res.val?, Option.map_some]
    congr 3
    by_cases hpq : p.extents = q.extents
    · simp only [hpq, decide_true, Bool.true_and, SState.sameElems]
      rw [positions_eq]
      rw [Bool.eq_iff_iff, List.all_eq_true, List.all_eq_true]
      apply forall_congr'; intro k
      apply forall_congr'; intro hk
      rw [mem_allPos] at hk
      obtain ⟨v, _, e2⟩ := h.elem hpo lp (by rw [hpq]; exact hk)
      obtain ⟨v', _, e2'⟩ := h.elem hqo lq hk
      simp [e2, e2']
    · simp [hpq]
  · have := lessRef_spec dbg lt w.st d.extents.length d d' hpo.shaped hqo.shaped rfl hlen _ _ hf hg
    refine ⟨_, A, w, g, by simp only [SState.step, hA, hA', Option.bind_some, Option.map_some]; rfl, ?_, h⟩
    simp only [SWorld.exec, hd, hd', Option.bind_some, this, Res.val?, Option.map_some]
    congr 3
    rw [hpo.extents, hqo.extents, Bool.eq_iff_iff, lexVal_iff]
    exact (@decide_eq_true_iff _ (Classical.propDecidable _)).symm

theorem scmd_ok (dbg : Bool) (dflt : T) (eq lt : T → T → Bool) {w : SWorld T} {A : SState T} (h : RepG g w A) (c : SCmd T) (hleg : A.Legal c) :
    SCmdOK dbg dflt eq lt w A c := by
  cases c with
  | buffer x vs => exact share_buffer dbg dflt eq lt h x vs hleg
  | construct x i => exact share_construct dbg dflt eq lt h x i hleg
  | refTo x y first n es so => exact share_refTo dbg dflt eq lt h x y first n es so hleg
  | refGen x y first n rs so => exact share_refGen dbg dflt eq lt h x y first n rs so hleg
  | refCopy x y => exact share_refCopy dbg dflt eq lt h x y hleg
  | hold x y ss xs => exact share_hold dbg dflt eq lt h x y ss xs hleg
  | holdCopy x y => exact share_holdCopy dbg dflt eq lt h x y hleg
  | holdSub x y i => exact share_holdSub dbg dflt eq lt h x y i hleg
  | destroy x => exact share_destroy dbg dflt eq lt h x hleg
  | reindex x bs => exact share_reindex dbg dflt eq lt h x bs hleg
  | reshape x es => exact share_reshape dbg dflt eq lt h x es hleg
  | resize x rs => exact share_resize dbg dflt eq lt h x rs hleg
  | fill x input => exact share_fill dbg dflt eq lt h x input hleg
  | assign x ss y ss' => exact (share_assign dbg dflt eq lt h x ss y ss' hleg).1
  | copyArray x ss y ss' => exact (share_assign dbg dflt eq lt h x ss y ss' hleg).2
  | read x ss idx => exact (share_access dbg dflt eq lt h x ss idx dflt hleg).1
  | write x ss idx v => exact (share_access dbg dflt eq lt h x ss idx v hleg).2
  | forEach x ss f => exact share_forEach dbg dflt eq lt h x ss f hleg
  | traverse x ss => exact (share_traverse dbg dflt eq lt h x ss hleg).1
  | shape x ss => exact (share_traverse dbg dflt eq lt h x ss hleg).2
  | equal x ss y ss' => exact (share_compare dbg dflt eq lt h x ss y ss' hleg).1
  | less x ss y ss' => exact (share_compare dbg dflt eq lt h x ss y ss' hleg).2

end MultiArray
