import Verif.Lemmas.Stable
import Verif.Props.ProgX
import Verif.Props.Resize

/- Property theorems C89: which pointers, references, iterators, subarrays and views a command invalidates. -/
set_option autoImplicit false

namespace MultiArray.Props
open MultiArray MultiArray.Spec
variable {T : Type}

theorem inv_holds {L : List Nat} {w : World T} {A : AState T} (h : InvX L w A) {y : Nat} {a : MArr} (hy : w.objs y = some a) :
    ∃ abs, A y = some abs ∧ Holds w.st a abs := by
  obtain ⟨t, hc, hr⟩ := h
  obtain ⟨abs, h1, h2⟩ := hr.live y a hy
  exact ⟨abs, h1, hc.owns h2.owns, h2.bases, h2.extents, h2.order⟩

private theorem inv_sane {L : List Nat} {w : World T} {A : AState T} (h : InvX L w A) : SaneHeap w.st := by
  obtain ⟨t, hc, hr⟩ := h
  exact hc.sane hr.valid.sane

private theorem legal_not_new {L : List Nat} {w : World T} {A : AState T} (h : InvX L w A) {y : Nat} {a : MArr} (hy : w.objs y = some a) {c : Cmd T} (hl : c.Legal A) :
    ∀ i, c ≠ .construct y i := by
  rintro i rfl
  obtain ⟨abs, h1, _⟩ := inv_holds h hy
  have := hl.1
  rw [h1] at this; cases this

/-- `resize` on a live array. -/
private theorem resize_out (dbg : Bool) (dflt : T) {s : St T} (hs : SaneHeap s) {a : MArr} {abs : AbsArr T} (h : Holds s a abs) {rs : List ExtentRange}
    (hl : rs.length = abs.extents.length) (hleg : LegalExtents rs) (hrep : Representable abs.bases abs.extents) :
    ∃ s' a', (MArr.resize dbg dflt ⟨a.ref.numDims, rs⟩ a s = (.ok () s', a') ∧ s'.heap a.ref.data.blk = none) ∨ MArr.resize dbg dflt ⟨a.ref.numDims, rs⟩ a s = (.throw s', a) := by
  have hd : a.ref.numDims = abs.extents.length := h.owns.reach.wf.ext_len
  obtain ⟨a', s', _, _, _, _, _, h6, _, _⟩ := resize_any dbg dflt h.owns hs (by rw [h.bases, h.extents]; exact hrep) hl hleg
  rw [hd]
  rcases h6 with ⟨h6, h7, _⟩ | ⟨h6, _⟩
  · exact ⟨s', a', .inl ⟨h6, h7⟩⟩
  · exact ⟨s', a', .inr h6⟩

private theorem resizeList_out (dbg : Bool) (dflt : T) {s : St T} (hs : SaneHeap s) {a : MArr} {abs : AbsArr T} (h : Holds s a abs) {es : List Nat}
    (hl : es.length = abs.extents.length) (hes : ∀ e ∈ es, e ≤ 2 ^ 63 - 1) (hrep : Representable abs.bases abs.extents) :
    ∃ s' a', (MArr.resizeExtents dbg dflt es a s = (.ok () s', a') ∧ s'.heap a.ref.data.blk = none) ∨ MArr.resizeExtents dbg dflt es a s = (.throw s', a) := by
  have hd : a.ref.numDims = abs.extents.length := h.owns.reach.wf.ext_len
  rw [resizeExtents_eq dbg dflt h.owns hl, ← hd]
  exact resize_out dbg dflt hs h (by rw [List.length_map, hl]) (extentList_legal hes) hrep

/-- One command. -/
theorem stable_step (dbg : Bool) (dflt : T) (eq lt : T → T → Bool) {L : List Nat} {w : World T} {A : AState T} (h : InvX L w A) (c : Cmd T) (hl : c.Legal A) :
    (∃ o A' w', A.step dflt eq lt c = some (o, A') ∧ w.execX dbg dflt eq lt c = .done o w' ∧ InvX L w' A' ∧
      ∀ y a, w.objs y = some a → (¬ c.Drops y → KeepsVar y a (¬ c.Relabels y) w' ∧ (c.target ≠ some y → A' y = A y)) ∧ (c.Drops y → Gone a w'.st)) ∨
    (∃ w' L' A', w.execX dbg dflt eq lt c = .threw w' ∧ A.Interrupted c A' ∧ InvX L' w' A' ∧
      ∀ y a, w.objs y = some a → KeepsVar y a True w' ∧ (c.target ≠ some y → A' y = A y)) := by
  rcases cmd_x dbg dflt eq lt h c hl with ⟨o, A', w', e1, e2, e3⟩ | ⟨w', L', A', e1, e2, e3, _⟩
  · refine .inl ⟨o, A', w', e1, e2, e3, fun y a hy => ⟨fun hd => ⟨done_keeps hy (legal_not_new h hy hl) hd e2, step_other e1⟩, fun hd => ?_⟩⟩
    obtain ⟨abs, hA, hh⟩ := inv_holds h hy
    cases c with
    | destroy x =>
      have hx : x = y := hd
      subst hx
      have e2 := toX_done e2
      simp only [World.step, hy] at e2
      obtain ⟨s', h1, h2, _⟩ := hh.owns.dealloc
      rw [h1] at e2
      cases e2
      exact h2
    | on x op =>
      cases op with
      | resize rs =>
        have hx : x = y := hd
        subst hx
        simp only [World.execX, World.mayThrow, hy, World.step] at e2
        have e2 := toX_done e2
        obtain ⟨abs', hA', l1, l2, l3⟩ := hl
        rw [hA] at hA'; cases hA'
        obtain ⟨s', a', ⟨g1, g2⟩ | g1⟩ := resize_out dbg dflt (inv_sane h) hh l1 l2 l3
        · rw [g1] at e2; cases e2; exact g2
        · rw [g1] at e2; cases e2
      | resizeList es =>
        have hx : x = y := hd
        subst hx
        simp only [World.execX, World.mayThrow, hy, World.step] at e2
        have e2 := toX_done e2
        obtain ⟨abs', hA', l1, l2, l3⟩ := hl
        rw [hA] at hA'; cases hA'
        obtain ⟨s', a', ⟨g1, g2⟩ | g1⟩ := resizeList_out dbg dflt (inv_sane h) hh l1 l2 l3
        · rw [g1] at e2; cases e2; exact g2
        · rw [g1] at e2; cases e2
      | _ => exact hd.elim
    | _ => exact hd.elim
  · refine .inr ⟨w', L', A', e1, e2, e3, fun y a hy => ⟨?_, interrupted_other e2⟩⟩
    obtain ⟨abs, hA, hh⟩ := inv_holds h hy
    refine threw_keeps hy (legal_not_new h hy hl) (fun e => by rw [e] at e2; exact e2) (fun rs e => ?_) (fun es e => ?_) e1
    · subst e
      obtain ⟨abs', hA', l1, l2, l3⟩ := hl
      rw [hA] at hA'; cases hA'
      obtain ⟨s', a', ⟨g1, g2⟩ | g1⟩ := resize_out dbg dflt (inv_sane h) hh l1 l2 l3
      · exact .inr (fun s e => by rw [g1] at e; cases e)
      · exact .inl (by rw [g1])
    · subst e
      obtain ⟨abs', hA', l1, l2, l3⟩ := hl
      rw [hA] at hA'; cases hA'
      obtain ⟨s', a', ⟨g1, g2⟩ | g1⟩ := resizeList_out dbg dflt (inv_sane h) hh l1 l2 l3
      · exact .inr (fun s e => by rw [g1] at e; cases e)
      · exact .inl (by rw [g1])

/-- What happens to a variable that is not dropped, in any number of commands. -/
private theorem many_steps (dbg : Bool) (dflt : T) (eq lt : T → T → Bool) (k : Client T) (hk : k.Legal dflt eq lt) (m : Nat) {tr : Trace T}
    {L : List Nat} {w : World T} {A : AState T} (hr : k.Reaches dflt eq lt tr A) (h : InvX L w A) :
    ∃ new L' w' A', k.run dbg dflt eq lt m tr w = some (tr ++ new, w') ∧ k.Reaches dflt eq lt (tr ++ new) A' ∧ InvX L' w' A' ∧
      ∀ y a, w.objs y = some a → (∀ e ∈ new, e.2 ≠ none → ¬ e.1.Drops y) →
        ∃ a', w'.objs y = some a' ∧ SameStore a a' ∧ ((∀ e ∈ new, e.2 ≠ none → ¬ e.1.Relabels y) → a' = a) ∧ ((∀ e ∈ new, e.1.target ≠ some y) → A' y = A y) := by
  induction m generalizing tr L w A with
  | zero =>
    refine ⟨[], L, w, A, by rw [List.append_nil]; rfl, by rw [List.append_nil]; exact hr, h, fun y a hy _ => ⟨a, hy, .refl a, fun _ => rfl, fun _ => rfl⟩⟩
  | succ m ih =>
    cases hc : k tr with
    | none => exact ⟨[], L, w, A, by simp only [Client.run, hc, List.append_nil], by rw [List.append_nil]; exact hr, h, fun y a hy _ => ⟨a, hy, .refl a, fun _ => rfl, fun _ => rfl⟩⟩
    | some c =>
      rcases stable_step dbg dflt eq lt h c (hk tr A c hr hc) with ⟨o, A1, w1, e1, e2, e3, e4⟩ | ⟨w1, L1, A1, e1, e2, e3, e4⟩
      · obtain ⟨new, L', w', A', f1, f2, f3, f4⟩ := ih (hr.done hc e1) e3
        refine ⟨(c, some o) :: new, L', w', A', ?_, ?_, f3, fun y a hy hd => ?_⟩
        · simp only [Client.run, hc, e2]; rw [f1, List.append_assoc]; rfl
        · rw [List.append_assoc] at f2; exact f2
        · obtain ⟨⟨a1, g1, g2, g3⟩, g4⟩ := (e4 y a hy).1 (hd (c, some o) (by simp) (by simp))
          obtain ⟨a', j1, j2, j3, j4⟩ := f4 y a1 g1 (fun e he => hd e (by simp [he]))
          exact ⟨a', j1, g2.trans j2, fun ht => (j3 (fun e he => ht e (by simp [he]))).trans (g3 (ht (c, some o) (by simp) (by simp))),
            fun ht => (j4 (fun e he => ht e (by simp [he]))).trans (g4 (ht (c, some o) (by simp)))⟩
      · obtain ⟨new, L', w', A', f1, f2, f3, f4⟩ := ih (hr.threw hc e2) e3
        refine ⟨(c, none) :: new, L', w', A', ?_, ?_, f3, fun y a hy hd => ?_⟩
        · simp only [Client.run, hc, e1]; rw [f1, List.append_assoc]; rfl
        · rw [List.append_assoc] at f2; exact f2
        · obtain ⟨⟨a1, g1, g2, g3⟩, g4⟩ := e4 y a hy
          obtain ⟨a', j1, j2, j3, j4⟩ := f4 y a1 g1 (fun e he => hd e (by simp [he]))
          exact ⟨a', j1, g2.trans j2, fun ht => (j3 (fun e he => ht e (by simp [he]))).trans (g3 trivial),
            fun ht => (j4 (fun e he => ht e (by simp [he]))).trans (g4 (ht (c, none) (by simp)))⟩

private theorem not_relabels {c : Cmd T} {y : Nat} (h : c.target ≠ some y) : ¬ c.Relabels y := by
  intro hr
  cases c with
  | on x op =>
    have hx : x ≠ y := fun e => h (by rw [e]; rfl)
    cases op <;> first | exact hx hr | exact hr
  | _ => exact hr

private theorem start_inv (sched : List (Option T)) : InvX [] (World.start sched : World T) (fun _ => none) :=
  ⟨(World.start [] : World T).st, ⟨rfl, rfl, fun _ h => (nomatch h), fun _ _ => rfl⟩, start_rep⟩

private theorem still_valid {L L' : List Nat} {w w' : World T} {A A' : AState T} (h : InvX L w A) (h' : InvX L' w' A') {y : Nat} {a a' : MArr} (hy : w.objs y = some a)
    (hy' : w'.objs y = some a') (hs : SameStore a a') : StillValid a y w' := by
  obtain ⟨abs, _, hh⟩ := inv_holds h hy
  obtain ⟨abs', _, hh'⟩ := inv_holds h' hy'
  refine ⟨⟨a', hy', hs.base, hs.num, hs.alloc⟩, fun d hd idx hidx => ?_⟩
  have hl : Live w'.st a.ref := by
    intro i hi
    have := hh'.owns.live i (by show i < a'.ref.numElems; rw [hs.num]; exact hi)
    have e : a'.ref.data = a.ref.data := hs.base
    rwa [e] at this
  exact hl.handle hh.owns.reach.wf hd hidx

/-- **C89.** A whole client program, after its first `n` commands in state `w` and after up to `m` more in state `w'`, with any exceptions.  Take any array `a` that variable `y` holds in `w`.  If none of the
commands in between destroyed or (successfully) resized `y`, then every pointer, reference and view that was obtained from `a` before still denotes live elements, in the same
storage, whatever else has been done to `y` (writes, assignments, `reindex`, `reshape`, failed `resize`s) and to all other variables; if moreover none of them completed a `reindex` or `reshape` of
`y`, then the array object is unchanged, header included, so that subarrays and iterators, which read the extents and strides of the array they came from, are still valid, too; and if none of them
targeted `y` at all, then all its elements are unchanged as well. -/
theorem C89_still_valid (dbg : Bool) (dflt : T) (eq lt : T → T → Bool) (k : Client T) (hk : k.Legal dflt eq lt) (sched : List (Option T)) (n m : Nat) :
    ∃ tr w new w', k.run dbg dflt eq lt n [] (World.start sched) = some (tr, w) ∧ k.run dbg dflt eq lt m tr w = some (tr ++ new, w') ∧
      ∀ y a, w.objs y = some a → (∀ e ∈ new, e.2 ≠ none → ¬ e.1.Drops y) →
        StillValid a y w' ∧
        ((∀ e ∈ new, e.2 ≠ none → ¬ e.1.Relabels y) → w'.objs y = some a) ∧
        ((∀ e ∈ new, e.1.target ≠ some y) → w'.objs y = some a ∧ ∀ p : Ptr, p.blk = a.ref.data.blk → w'.st.cell? p = w.st.cell? p) := by
  obtain ⟨tr, L, w, A, f1, f2, f3, _⟩ := many_steps dbg dflt eq lt k hk n Client.Reaches.start (start_inv sched)
  rw [List.nil_append] at f1 f2
  obtain ⟨new, L', w', A', g1, g2, g3, g4⟩ := many_steps dbg dflt eq lt k hk m f2 f3
  refine ⟨tr, w, new, w', f1, g1, fun y a hy hd => ?_⟩
  obtain ⟨a', h1, h2, h3, h5⟩ := g4 y a hy hd
  refine ⟨still_valid f3 g3 hy h1 h2, fun ht => by rw [h1, h3 ht], fun ht => ?_⟩
  have h4 := h3 (fun e he _ => not_relabels (ht e he))
  have h5 := h5 ht
  subst h4
  refine ⟨h1, fun p hp => ?_⟩
  obtain ⟨abs, j1, j2⟩ := inv_holds f3 hy
  obtain ⟨abs', j3, j4⟩ := inv_holds g3 h1
  rw [h5, j1] at j3
  cases j3
  have hb : w'.st.heap p.blk = w.st.heap p.blk := by rw [hp, j2.owns.block, j4.owns.block]
  unfold St.cell?
  rw [hb]

/-- **C89.** Conversely: a command that destroys or successfully resizes `y` invalidates all of them - the storage is gone, so any later use of an old pointer, reference, iterator, subarray or
view of `y` is undefined - and invalidates nothing of any other variable; every other command leaves pointers, references and views valid, and unless it is a `reindex` or `reshape` of `y` leaves
the header that subarrays and iterators of `y` read as it was; a command that throws invalidates nothing. -/
theorem C89_invalidated_exactly (dbg : Bool) (dflt : T) (eq lt : T → T → Bool) (k : Client T) (hk : k.Legal dflt eq lt) (sched : List (Option T)) (n : Nat) :
    ∃ tr w, k.run dbg dflt eq lt n [] (World.start sched) = some (tr, w) ∧ ∀ c, k tr = some c → ∀ y a, w.objs y = some a →
      match w.execX dbg dflt eq lt c with
      | .done _ w' => (c.Drops y → Gone a w'.st) ∧ (¬ c.Drops y → StillValid a y w' ∧ (¬ c.Relabels y → w'.objs y = some a))
      | .threw w' => StillValid a y w' ∧ w'.objs y = some a
      | .failed => False := by
  obtain ⟨tr, L, w, A, f1, f2, f3, _⟩ := many_steps dbg dflt eq lt k hk n Client.Reaches.start (start_inv sched)
  rw [List.nil_append] at f1 f2
  refine ⟨tr, w, f1, fun c hc y a hy => ?_⟩
  rcases stable_step dbg dflt eq lt f3 c (hk tr A c f2 hc) with ⟨o, A1, w1, e1, e2, e3, e4⟩ | ⟨w1, L1, A1, e1, e2, e3, e4⟩
  · rw [e2]
    refine ⟨(e4 y a hy).2, fun hd => ?_⟩
    obtain ⟨⟨a1, g1, g2, g3⟩, _⟩ := (e4 y a hy).1 hd
    exact ⟨still_valid f3 e3 hy g1 g2, fun hr => by rw [g1, g3 hr]⟩
  · rw [e1]
    obtain ⟨⟨a1, g1, g2, g3⟩, _⟩ := e4 y a hy
    exact ⟨still_valid f3 e3 hy g1 g2, by rw [g1, g3 trivial]⟩

/-- **C89.** Use through an old pointer after the storage is gone is undefined. -/
theorem C89_gone_is_undefined {a : MArr} {s : St T} (h : Gone a s) {p : Ptr} (hp : p.blk = a.ref.data.blk) (v : T) :
    load p s = .ub ∧ assignCell p v s = .ub := by
  have hg : s.get? p = none := by
    have hc : s.cell? p = none := by unfold St.cell?; rw [hp, h]
    unfold St.get?
    rw [hc]
  exact ⟨by unfold load; rw [hg], by unfold assignCell; rw [hg]⟩

/-! ### A concrete run -/

/-- In the demonstration program: variable 0 survives everything up to its own destruction, variable 1 is given up by its `resize`; the run contains exceptions. -/
example : (∀ c ∈ demoCmds.take 6, ¬ c.Drops 0 ∧ ¬ c.Relabels 0) ∧ (Cmd.on 0 (.reshape [3, 2]) : Cmd Nat).Relabels 0 ∧ (∃ c ∈ demoCmds, c.Drops 1) ∧ (∃ c ∈ demoCmds, c.Drops 0) ∧
    ((demoClient.run true 0 (fun a b => a == b) (fun a b => decide (a < b)) 2 [] (World.start [])).map (fun r => (r.2.objs 0).isSome)) = some true :=
  ⟨fun c hc => by
    simp only [demoCmds, List.take_succ_cons, List.take_zero, List.mem_cons, List.not_mem_nil, or_false] at hc
    rcases hc with rfl | rfl | rfl | rfl | rfl | rfl <;> simp [Cmd.Drops, Cmd.Relabels],
   rfl,
   ⟨_, List.mem_of_getElem? (show demoCmds[3]? = some _ from rfl), rfl⟩, ⟨_, List.mem_of_getElem? (show demoCmds[6]? = some _ from rfl), rfl⟩, by decide +kernel⟩

end MultiArray.Props
