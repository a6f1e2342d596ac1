import Verif.Lemmas.ExactX
import Verif.Props.Held
import Verif.Props.LayoutFree
import Verif.Props.Stable

/-
Property theorems C103: which commands throw, what they leave behind and how much storage is lost is completely determined by the abstract machine and the
exceptions that are due.
-/
set_option autoImplicit false

namespace MultiArray.Props
open MultiArray MultiArray.Spec
variable {T : Type}

/-- One command of a client, exactly. -/
theorem exact_step (dbg : Bool) (dflt : T) (eq lt : T → T → Bool) {L : List Nat} {w : World T} {M : AMach T} {its : CRegs} (hi : InvX L w M.vars)
    (hr : RegInv dbg w M.vars M.regs its) (hs : w.st.sched = M.due) (hn : L.Nodup) (hL : L.length = M.lost) {h : HCmd T} (hl : h.LegalIn M) :
    ∃ o M', M.step dflt eq lt h = some (o, M') ∧ ∃ w' L' its', (w.execH dbg dflt eq lt its h = match o with | some o => .done o w' its' | none => .threw w' its') ∧
      InvX L' w' M'.vars ∧ RegInv dbg w' M'.vars M'.regs its' ∧ w'.st.sched = M'.due ∧ L'.Nodup ∧ L'.length = M'.lost := by
  rcases hl with ⟨c, hc, hlc⟩ | ⟨⟨o, ρ'⟩, hreg⟩
  · have he := cmd_exec dflt eq lt hi hr hc hlc
    rcases cmd_exact dbg dflt eq lt hi c hlc with ⟨f1, o, A', w', e1, e2, e3, e4⟩ | ⟨j, junk, w', L', A', f1, e1, e2, e3, e4, e5, e6⟩
    · rw [hs] at f1 e4
      refine ⟨some (.cmd o), ⟨A', M.regs.after c, M.due.drop (c.cost M.vars), M.lost⟩, by simp only [AMach.step, hc, f1, e1, Option.map_some], w', L, its, by rw [he, e2]; rfl, e3, ?_, e4, hn, hL⟩
      rcases stable_step dbg dflt eq lt hi c hlc with ⟨o1, A1, w1, g1, g2, g3, g4⟩ | ⟨w1, L1, A1, g1, _⟩
      · rw [e2] at g2; cases g2
        exact hr.done hi e3 (fun y a hy hd => ((g4 y a hy).1 hd).1)
      · rw [e2] at g1; cases g1
    · rw [hs] at f1 e4
      refine ⟨none, ⟨A', M.regs, M.due.drop (j + 1), M.lost + c.lost j⟩, by simp only [AMach.step, hc, f1, e2, Option.map_some], w', L', its, by rw [he, e1]; rfl, e3, ?_, e4, e5 hn, by rw [e6, hL]⟩
      rcases stable_step dbg dflt eq lt hi c hlc with ⟨o1, A1, w1, g1, g2, g3, g4⟩ | ⟨w1, L1, A1, g1, g2, g3, g4⟩
      · rw [e1] at g2; cases g2
      · rw [e1] at g1; cases g1
        exact hr.threw hi e3 (fun y a hy => (g4 y a hy).1)
  · obtain ⟨its', k1, k2⟩ := reg_exec hi hr hreg
    have hc : h.cmd M.vars M.regs = none := by
      cases hc : h.cmd M.vars M.regs with
      | none => rfl
      | some c => rw [regStep_none hc] at hreg; cases hreg
    exact ⟨some o, { M with regs := ρ' }, by simp only [AMach.step, hc, hreg, Option.map_some], w, L, its', by rw [(regStep_execH hreg).1, k1]; rfl, hi, k2, hs, hn, hL⟩

/-- One more command at the end of a run. -/
theorem run_snoc (dbg : Bool) (dflt : T) (eq lt : T → T → Bool) (k : HClient T) (n : Nat) (tr : HTrace T) (w : World T) (its : CRegs) :
    k.run dbg dflt eq lt (n + 1) tr w its = (k.run dbg dflt eq lt n tr w its).bind (fun r => k.run dbg dflt eq lt 1 r.1 r.2.1 r.2.2) := by
  induction n generalizing tr w its with
  | zero => rfl
  | succ n ih =>
    rw [HClient.run]
    conv => rhs; rw [HClient.run]
    cases hk : k tr with
    | none =>
      simp only [Option.bind_some, HClient.run, hk]
    | some h =>
      cases he : w.execH dbg dflt eq lt its h with
      | done o w' its' => simp only [he]; exact ih _ _ _
      | threw w' its' => simp only [he]; exact ih _ _ _
      | failed => simp only [he, Option.bind_none]

theorem exact_run (dbg : Bool) (dflt : T) (eq lt : T → T → Bool) (k : HClient T) (due : List (Option T)) (hk : k.LegalWith dflt eq lt due) (n : Nat) :
    ∃ tr M, k.predict dflt eq lt due n = some (tr, M) ∧ ∃ w its L, k.run dbg dflt eq lt n [] (World.start due) (fun _ => none) = some (tr, w, its) ∧
      InvX L w M.vars ∧ RegInv dbg w M.vars M.regs its ∧ w.st.sched = M.due ∧ L.Nodup ∧ L.length = M.lost ∧ (tr.length = n ∨ k tr = none) := by
  induction n with
  | zero => exact ⟨[], .start due, rfl, World.start due, fun _ => none, [], rfl, held_start due, fun _ _ h => (nomatch h), rfl, List.nodup_nil, rfl, .inl rfl⟩
  | succ n ih =>
    obtain ⟨tr, M, h1, w, its, L, h2, h3, h4, h5, h6, h7, h8⟩ := ih
    cases hc : k tr with
    | none =>
      refine ⟨tr, M, by simp only [HClient.predict, h1, Option.bind_some, hc], w, its, L, ?_, h3, h4, h5, h6, h7, .inr hc⟩
      rw [run_snoc, h2]
      simp only [Option.bind_some, HClient.run, hc]
    | some h =>
      obtain ⟨o, M', e1, w', L', its', e2, e3, e4, e5, e6, e7⟩ := exact_step dbg dflt eq lt h3 h4 h5 h6 h7 (hk n tr M h h1 hc)
      have hlen : (tr ++ [(h, o)]).length = n + 1 := by
        rcases h8 with h8 | h8
        · simp [h8]
        · rw [hc] at h8; cases h8
      refine ⟨tr ++ [(h, o)], M', by simp only [HClient.predict, h1, Option.bind_some, hc, e1, Option.map_some], w', its', L', ?_, e3, e4, e5, e6, e7, .inl hlen⟩
      rw [run_snoc, h2]
      cases o <;> simp only at e2 <;> simp only [Option.bind_some, HClient.run, hc, e2]

/-- **C103.** For any number `n` of commands of a client and any exceptions `due`: the run is exactly the one that the abstract machine predicts.  The same commands
complete and the same throw, they return the same, the arrays hold what the abstract machine says - in particular an interrupted copy, `assign` or `for_each`
has completed exactly the element assignments before the one that threw -, the exceptions that are still due are the same, and the storage that exists is
that of the variables and exactly as many lost blocks as predicted: one for every constructor that threw after its allocation and for every `resize` in which constructing the new
elements threw, and none for anything else.  The preconditions are needed only in this one run. -/
theorem C103_run_is_predicted (dbg : Bool) (dflt : T) (eq lt : T → T → Bool) (k : HClient T) (due : List (Option T)) (hk : k.LegalWith dflt eq lt due) (n : Nat) :
    ∃ tr M w its, k.predict dflt eq lt due n = some (tr, M) ∧ k.run dbg dflt eq lt n [] (World.start due) (fun _ => none) = some (tr, w, its) ∧
      (tr.length = n ∨ k tr = none) ∧
      (∀ x, w.objs x = none ↔ M.vars x = none) ∧
      (∀ x a abs, w.objs x = some a → M.vars x = some abs → Holds w.st a abs) ∧
      w.st.sched = M.due ∧
      (∃ L : List Nat, L.Nodup ∧ L.length = M.lost ∧ (∀ b ∈ L, ∀ x a, w.objs x = some a → a.ref.data.blk ≠ b) ∧
        ∀ b, w.st.heap b ≠ none ↔ b ∈ L ∨ ∃ x a, w.objs x = some a ∧ a.ref.data.blk = b) ∧
      (∀ r h, M.regs r = some (.handle h) → ∃ d, its r = some (.handle d) ∧ w.lookup dbg h.1 h.2 = some d) ∧
      (∀ r p, M.regs r = some (.it p) → ∃ d i, its r = some (.it i) ∧ w.lookup dbg p.var p.path = some d ∧ freshIt d p.rev p.i = some i) := by
  obtain ⟨tr, M, e1, w, its, L, e2, ⟨t, hc, hr⟩, e4, e5, e6, e7, e8⟩ := exact_run dbg dflt eq lt k due hk n
  have owned : ∀ x a, w.objs x = some a → t.heap a.ref.data.blk ≠ none := by
    intro x a hx
    obtain ⟨abs, h1, h2⟩ := hr.live x a hx
    rw [h2.owns.block]; simp
  refine ⟨tr, M, w, its, e1, e2, e8, ?_, ?_, e5, ⟨L, e6, e7, ?_, ?_⟩, regOk_fresh e4⟩
  · intro x
    refine ⟨hr.dead x, fun hA => ?_⟩
    cases hx : w.objs x with
    | none => rfl
    | some a =>
      obtain ⟨abs, h1, _⟩ := hr.live x a hx
      rw [hA] at h1; cases h1
  · intro x a abs hx hA
    obtain ⟨abs', h1, h2⟩ := hr.live x a hx
    rw [hA] at h1; cases h1
    exact ⟨hc.owns h2.owns, h2.bases, h2.extents, h2.order⟩
  · intro b hb x a hx he
    exact owned x a hx (by rw [he]; exact (hc.leaked b hb).1)
  · intro b
    refine ⟨fun hb => ?_, ?_⟩
    · by_cases hbL : b ∈ L
      · exact .inl hbL
      · exact .inr (hr.noLeak b (by show t.heap b ≠ none; rw [hc.same b hbL]; exact hb))
    · rintro (hb | ⟨x, a, hx, rfl⟩)
      · exact (hc.leaked b hb).2.1
      · have := owned x a hx
        rw [hc.heapEq this]; exact this

/-! ### Clients that are legal whatever happens -/

theorem positions_split {es : List Nat} {j : Nat} (hj : j < es.prod) : ∃ k, (positions es)[j]? = some k ∧ positions es = (positions es).take j ++ k :: (positions es).drop (j + 1) := by
  have hl : j < (positions es).length := by rw [positions_length]; exact hj
  exact ⟨_, List.getElem?_eq_getElem hl, by rw [List.getElem_cons_drop]; exact (List.take_append_drop j _).symm⟩

theorem copyStopped_of {A B : AState T} {x y : Nat} {p q : APart} {j : Nat} {junk : T} (hj : j < p.extents.prod) (h : A.copyStopped x p y q j junk = some B) :
    A.CopyStopped x p y q B := by
  obtain ⟨k, h1, h2⟩ := positions_split hj
  unfold AState.copyStopped at h
  obtain ⟨A1, e1, e2⟩ := Option.bind_eq_some_iff.mp h
  rw [h1] at e2
  exact ⟨_, k, _, A1, junk, h2, e1, e2⟩

theorem mapStopped_of {A B : AState T} {x : Nat} {p : APart} {f : T → T} {j : Nat} {junk : T} (hj : j < p.extents.prod) (h : A.mapStopped x p f j junk = some B) :
    A.MapStopped x p f B := by
  obtain ⟨k, h1, h2⟩ := positions_split hj
  unfold AState.mapStopped at h
  obtain ⟨A1, e1, e2⟩ := Option.bind_eq_some_iff.mp h
  rw [h1] at e2
  exact ⟨_, k, _, A1, junk, h2, e1, e2⟩

/-- What the machine predicts for a command that throws is one of the possibilities. -/
theorem stopped_interrupted {A B : AState T} {c : Cmd T} {j : Nat} {junk : T} (hw : ∀ x a, A x = some a → a.vals.length = a.extents.prod) (hj : j < c.cost A) (h : A.stopped c j junk = some B) : A.Interrupted c B := by
  cases c with
  | construct x i => cases h; rfl
  | on x op =>
    cases op with
    | resize rs => cases h; rfl
    | resizeList es => cases h; rfl
    | write idx v => exact ⟨junk, h⟩
    | writeChain idx v => exact ⟨junk, h⟩
    | assign input =>
      simp only [AState.stopped, Option.map_eq_some_iff] at h
      obtain ⟨a, h1, rfl⟩ := h
      have h2 : j < min (A.count x []) input.length := hj
      simp only [AState.count, AState.part, h1, AbsArr.whole, APart.path, Option.map_some] at h2
      exact ⟨a, j, junk, h1, by omega, by rw [hw x a h1]; omega, rfl⟩
    | forEach f =>
      simp only [AState.stopped, Option.bind_eq_some_iff] at h
      obtain ⟨p, h1, h2⟩ := h
      have hj' : j < A.count x [] := hj
      simp only [AState.count, h1] at hj'
      exact ⟨p, h1, mapStopped_of hj' h2⟩
    | _ => cases h
  | assign x y =>
    simp only [AState.stopped, Option.bind_eq_some_iff] at h
    obtain ⟨p, h1, q, h2, h3⟩ := h
    have hj' : j < if x = y then 0 else A.count x [] := hj
    by_cases hxy : x = y
    · rw [if_pos hxy] at hj'; omega
    · rw [if_neg hxy] at hj'
      simp only [AState.count, h1] at hj'
      exact ⟨hxy, p, q, h1, h2, copyStopped_of hj' h3⟩
  | assignPart x ss y ss' =>
    simp only [AState.stopped, Option.bind_eq_some_iff] at h
    obtain ⟨p, h1, q, h2, h3⟩ := h
    have hj' : j < A.count x ss := hj
    simp only [AState.count, h1] at hj'
    exact ⟨p, q, h1, h2, copyStopped_of hj' h3⟩
  | copyArray x ss y ss' =>
    simp only [AState.stopped, Option.bind_eq_some_iff] at h
    obtain ⟨p, h1, q, h2, h3⟩ := h
    have hj' : j < A.count x ss := hj
    simp only [AState.count, h1] at hj'
    exact ⟨p, q, h1, h2, copyStopped_of hj' h3⟩
  | write x ss idx v =>
    simp only [AState.stopped, Option.bind_eq_some_iff] at h
    obtain ⟨p, h1, h2⟩ := h
    exact ⟨p, junk, h1, h2⟩
  | forEach x ss f =>
    simp only [AState.stopped, Option.bind_eq_some_iff] at h
    obtain ⟨p, h1, h2⟩ := h
    have hj' : j < A.count x ss := hj
    simp only [AState.count, h1] at hj'
    exact ⟨p, h1, mapStopped_of hj' h2⟩
  | _ => cases h

theorem inv_vals_len {L : List Nat} {w : World T} {A : AState T} (h : InvX L w A) {x : Nat} {a : AbsArr T} (hx : A x = some a) : a.vals.length = a.extents.prod := by
  obtain ⟨t, _, hrep⟩ := h
  obtain ⟨m, k1, k2⟩ := hrep.abs hx
  have := k2.owns.len
  rw [this, show m.ref.numElements = m.ref.numElems from rfl, k2.owns.reach.wf.num_eq, product_eq, k2.extents]

theorem predict_reaches {dflt : T} {eq lt : T → T → Bool} {k : HClient T} (hk : k.Legal dflt eq lt) {due : List (Option T)} {n : Nat} {tr : HTrace T} {M : AMach T}
    (h : k.predict dflt eq lt due n = some (tr, M)) : k.Reaches dflt eq lt tr M.vars M.regs ∧ ∃ (w : World T) (its : CRegs) (L : List Nat), InvX L w M.vars ∧ RegInv true w M.vars M.regs its ∧ w.st.sched = M.due ∧ L.Nodup ∧ L.length = M.lost := by
  induction n generalizing tr M with
  | zero =>
    cases h
    exact ⟨.start, World.start due, fun _ => none, [], held_start due, fun _ _ h => (nomatch h), rfl, List.nodup_nil, rfl⟩
  | succ n ih =>
    rw [HClient.predict] at h
    obtain ⟨⟨tr0, M0⟩, h1, h2⟩ := Option.bind_eq_some_iff.mp h
    obtain ⟨hr, w, its, L, i1, i2, i3, i4, i5⟩ := ih h1
    simp only at h2
    cases hc : k tr0 with
    | none => rw [hc] at h2; cases h2; exact ⟨hr, w, its, L, i1, i2, i3, i4, i5⟩
    | some c =>
      rw [hc] at h2
      simp only [Option.map_eq_some_iff, Prod.mk.injEq] at h2
      obtain ⟨⟨o, M1⟩, e1, e2, e3⟩ := h2
      simp only at e2 e3
      subst e2 e3
      obtain ⟨o', M', f1, w', L', its', f2, f3, f4, f5, f6, f7⟩ := exact_step true dflt eq lt i1 i2 i3 i4 i5 (hk _ _ _ _ hr hc)
      rw [e1] at f1; cases f1
      refine ⟨?_, w', its', L', f3, f4, f5, f6, f7⟩
      unfold AMach.step at e1
      cases hcm : c.cmd M0.vars M0.regs with
      | none =>
        simp only [hcm, Option.map_eq_some_iff, Prod.mk.injEq] at e1
        obtain ⟨⟨o1, ρ1⟩, g1, rfl, rfl⟩ := e1
        exact hr.reg hc g1
      | some d =>
        simp only [hcm] at e1
        cases hf : firstThrow (d.cost M0.vars) M0.due with
        | none =>
          simp only [hf, Option.map_eq_some_iff, Prod.mk.injEq] at e1
          obtain ⟨⟨o1, A1⟩, g1, rfl, rfl⟩ := e1
          exact hr.done hc hcm g1
        | some jj =>
          obtain ⟨j, junk⟩ := jj
          simp only [hf, Option.map_eq_some_iff, Prod.mk.injEq] at e1
          obtain ⟨A1, g1, rfl, rfl⟩ := e1
          exact hr.threw hc hcm (stopped_interrupted (fun _ _ hx => inv_vals_len i1 hx) (firstThrow_lt hf) g1)

/-- **C103.** A client that respects the preconditions whatever happens does so for any exceptions. -/
theorem C103_legal_if_always_legal {dflt : T} {eq lt : T → T → Bool} {k : HClient T} (hk : k.Legal dflt eq lt) (due : List (Option T)) : k.LegalWith dflt eq lt due :=
  fun _ _ _ _ h hc => hk _ _ _ _ (predict_reaches hk h).1 hc

/-- **C103.** The assertions make no difference to a legal client, whatever exceptions are due: with and without them it observes the same. -/
theorem C103_build_modes_agree (dflt : T) (eq lt : T → T → Bool) (k : HClient T) (due : List (Option T)) (hk : k.LegalWith dflt eq lt due) (n : Nat) :
    ∃ tr w its w' its', k.run true dflt eq lt n [] (World.start due) (fun _ => none) = some (tr, w, its) ∧
      k.run false dflt eq lt n [] (World.start due) (fun _ => none) = some (tr, w', its') ∧ w.st.sched = w'.st.sched := by
  obtain ⟨tr, M, w, its, e1, e2, _, _, _, e3, _⟩ := C103_run_is_predicted true dflt eq lt k due hk n
  obtain ⟨tr', M', w', its', f1, f2, _, _, _, f3, _⟩ := C103_run_is_predicted false dflt eq lt k due hk n
  rw [e1] at f1; cases f1
  exact ⟨tr, w, its, w', its', e2, f2, by rw [e3, f3]⟩

/-! ### On a 64-bit machine -/

/-- One command on the 64-bit machine. -/
theorem exact_stepM (dbg : Bool) (dflt : T) (eq lt : T → T → Bool) {L : List Nat} {w : World T} {M : AMach T} {its : CRegs} (hi : InvX L w M.vars)
    (hr : RegInv dbg w M.vars M.regs its) (hs : w.st.sched = M.due) {h : HCmd T} (hl : h.LegalIn M) (hA : M.vars.Fits) (hrf : RegFits M.vars M.regs)
    (hv : h.ViewsFit M.vars M.regs) (hn : ∀ c, h.cmd M.vars M.regs = some c → c.ViewsFit M.vars ∧ NewFits dflt M.vars c) :
    w.execHM dbg dflt eq lt its h = w.execH dbg dflt eq lt its h ∧
      ∀ o M', M.step dflt eq lt h = some (o, M') → M'.vars.Fits ∧ RegFits M'.vars M'.regs := by
  rcases hl with ⟨c, hc, hlc⟩ | ⟨⟨o, ρ'⟩, hreg⟩
  · refine ⟨cmd_execM dflt eq lt hi hr hA hrf hc hlc (hn c hc).1 (hn c hc).2, ?_⟩
    intro o M' hst
    unfold AMach.step at hst
    rcases cmd_exact dbg dflt eq lt hi c hlc with ⟨f1, o1, A', w', e1, e2, e3, e4⟩ | ⟨j, junk, w', L', A', f1, e1, e2, e3, e4, e5, e6⟩
    · rw [hs] at f1
      simp only [hc, f1, e1, Option.map_some, Option.some.injEq, Prod.mk.injEq] at hst
      obtain ⟨rfl, rfl⟩ := hst
      refine ⟨C74_only_new_shapes dflt eq lt hA (hn c hc).2 e1, ?_⟩
      rcases stable_step dbg dflt eq lt hi c hlc with ⟨o2, A2, w2, g1, g2, g3, g4⟩ | ⟨w2, L2, A2, g1, _⟩
      · rw [e2] at g2; cases g2
        intro r hd hrr
        obtain ⟨h1, h2, h3⟩ := after_some hrr
        obtain ⟨cc, h4, h5⟩ := hr r hd h1
        obtain ⟨ss, p, hp⟩ := h5.part
        obtain ⟨a, ha⟩ := part_obj hi hp
        obtain ⟨a', k1, _, k3⟩ := ((g4 _ a ha).1 h2).1
        rw [k3 h3] at k1
        exact keep_fits hi e3 ha k1 (hrf r hd h1)
      · rw [e2] at g1; cases g1
    · rw [hs] at f1
      simp only [hc, f1, e2, Option.map_some, Option.some.injEq, Prod.mk.injEq] at hst
      obtain ⟨rfl, rfl⟩ := hst
      refine ⟨fits_interrupted hA (stopped_interrupted (fun _ _ hx => inv_vals_len hi hx) (firstThrow_lt f1) e2), ?_⟩
      rcases stable_step dbg dflt eq lt hi c hlc with ⟨o2, A2, w2, g1, g2, g3, g4⟩ | ⟨w2, L2, A2, g1, g2, g3, g4⟩
      · rw [e1] at g2; cases g2
      · rw [e1] at g1; cases g1
        intro r hd h1
        obtain ⟨cc, h4, h5⟩ := hr r hd h1
        obtain ⟨ss, p, hp⟩ := h5.part
        obtain ⟨a, ha⟩ := part_obj hi hp
        obtain ⟨a', k1, _, k3⟩ := (g4 _ a ha).1
        rw [k3 trivial] at k1
        exact keep_fits hi e3 ha k1 (hrf r hd h1)
  · obtain ⟨k1, k2⟩ := reg_execM hi hr hA hrf hreg hv
    obtain ⟨x1, x2⟩ := regStep_execH (dbg := dbg) (dflt := dflt) (eq := eq) (lt := lt) (w := w) (its := its) hreg
    refine ⟨by rw [x1, x2, k1], fun o' M' hst => ?_⟩
    have hc : h.cmd M.vars M.regs = none := by
      cases hc : h.cmd M.vars M.regs with
      | none => rfl
      | some c => rw [regStep_none hc] at hreg; cases hreg
    simp only [AMach.step, hc, hreg, Option.map_some, Option.some.injEq, Prod.mk.injEq] at hst
    obtain ⟨rfl, rfl⟩ := hst
    exact ⟨hA, k2⟩

theorem runM_snoc (dbg : Bool) (dflt : T) (eq lt : T → T → Bool) (k : HClient T) (n : Nat) (tr : HTrace T) (w : World T) (its : CRegs) :
    k.runM dbg dflt eq lt (n + 1) tr w its = (k.runM dbg dflt eq lt n tr w its).bind (fun r => k.runM dbg dflt eq lt 1 r.1 r.2.1 r.2.2) := by
  induction n generalizing tr w its with
  | zero => rfl
  | succ n ih =>
    rw [HClient.runM]
    conv => rhs; rw [HClient.runM]
    cases hk : k tr with
    | none =>
      simp only [Option.bind_some, HClient.runM, hk]
    | some h =>
      cases he : w.execHM dbg dflt eq lt its h with
      | done o w' its' => simp only [he]; exact ih _ _ _
      | threw w' its' => simp only [he]; exact ih _ _ _
      | failed => simp only [he, Option.bind_none]

theorem exact_runM (dbg : Bool) (dflt : T) (eq lt : T → T → Bool) (k : HClient T) (due : List (Option T)) (hk : k.LegalWith dflt eq lt due) (hf : k.FitsWith dflt eq lt due) (n : Nat) :
    k.runM dbg dflt eq lt n [] (World.start due) (fun _ => none) = k.run dbg dflt eq lt n [] (World.start due) (fun _ => none) ∧
      ∀ tr M, k.predict dflt eq lt due n = some (tr, M) → M.vars.Fits ∧ RegFits M.vars M.regs := by
  induction n with
  | zero =>
    refine ⟨rfl, fun tr M h => ?_⟩
    cases h
    exact ⟨fun _ _ h => (nomatch h), fun _ _ h => (nomatch h)⟩
  | succ n ih =>
    obtain ⟨i1, i2⟩ := ih
    obtain ⟨tr, M, h1, w, its, L, h2, h3, h4, h5, h6, h7, h8⟩ := exact_run dbg dflt eq lt k due hk n
    obtain ⟨f1, f2⟩ := i2 tr M h1
    rw [run_snoc, runM_snoc, i1, h2]
    cases hc : k tr with
    | none =>
      refine ⟨by simp only [Option.bind_some, HClient.run, HClient.runM, hc], fun tr' M' hp => ?_⟩
      simp only [HClient.predict, h1, Option.bind_some, hc] at hp
      cases hp
      exact ⟨f1, f2⟩
    | some h =>
      obtain ⟨g1, g2⟩ := hf n tr M h h1 hc
      obtain ⟨e1, e2⟩ := exact_stepM dbg dflt eq lt h3 h4 h5 (hk n tr M h h1 hc) f1 f2 g1 g2
      refine ⟨by simp only [Option.bind_some, HClient.run, HClient.runM, hc, e1], fun tr' M' hp => ?_⟩
      simp only [HClient.predict, h1, Option.bind_some, hc, Option.map_eq_some_iff] at hp
      obtain ⟨⟨o, N⟩, p1, p2⟩ := hp
      cases p2
      exact e2 o N p1

/-- **C103.** The same on the 64-bit machine, if in this run the client uses only views that fit and creates only arrays that fit. -/
theorem C103_run_is_predicted_on_machine (dbg : Bool) (dflt : T) (eq lt : T → T → Bool) (k : HClient T) (due : List (Option T)) (hk : k.LegalWith dflt eq lt due)
    (hf : k.FitsWith dflt eq lt due) (n : Nat) :
    ∃ tr M w its, k.predict dflt eq lt due n = some (tr, M) ∧ k.runM dbg dflt eq lt n [] (World.start due) (fun _ => none) = some (tr, w, its) ∧
      (tr.length = n ∨ k tr = none) ∧
      (∀ x, w.objs x = none ↔ M.vars x = none) ∧
      (∀ x a abs, w.objs x = some a → M.vars x = some abs → Holds w.st a abs) ∧
      w.st.sched = M.due ∧
      (∃ L : List Nat, L.Nodup ∧ L.length = M.lost ∧ (∀ b ∈ L, ∀ x a, w.objs x = some a → a.ref.data.blk ≠ b) ∧
        ∀ b, w.st.heap b ≠ none ↔ b ∈ L ∨ ∃ x a, w.objs x = some a ∧ a.ref.data.blk = b) := by
  obtain ⟨tr, M, w, its, e1, e2, e3, e4, e5, e6, e7, _⟩ := C103_run_is_predicted dbg dflt eq lt k due hk n
  exact ⟨tr, M, w, its, e1, by rw [(exact_runM dbg dflt eq lt k due hk hf n).1, e2], e3, e4, e5, e6, e7⟩

theorem fitsWith_of_fits {dflt : T} {eq lt : T → T → Bool} {k : HClient T} (hk : k.Legal dflt eq lt) (hf : k.Fits dflt eq lt) (due : List (Option T)) :
    k.FitsWith dflt eq lt due := fun _ _ _ _ h hc => hf _ _ _ _ (predict_reaches hk h).1 hc

/-! ### Storage orders -/

theorem _root_.MultiArray.SAlike.resizeCost {A A' : AState T} (h : SAlike A A') (x : Nat) (es : List Nat) : A.resizeCost x es = A'.resizeCost x es := by
  unfold AState.resizeCost
  cases hx : A x with
  | none => rw [h.ofNone hx]
  | some a =>
    obtain ⟨a', h1, h2⟩ := h.ofSome hx
    rw [h1]
    simp only [h2.extents]

theorem _root_.MultiArray.SAlike.count {A A' : AState T} (h : SAlike A A') (x : Nat) (ss : List Sel) : A.count x ss = A'.count x ss := by
  unfold AState.count
  rw [h.part]

theorem _root_.MultiArray.SAlike.costInit {A A' : AState T} (h : SAlike A A') {i i' : CInit} (hi : i.Alike i') : i.cost A = i'.cost A' := by
  cases hi with
  | default n al al' => rfl
  | extents n es so so' al al' hr => rfl
  | gen n rs so so' al al' hr => rfl
  | copy y =>
    simp only [CInit.cost]
    cases hx : A y with
    | none => rw [h.ofNone hx]
    | some a =>
      obtain ⟨a', h1, h2⟩ := h.ofSome hx
      rw [h1]
      simp only [h2.extents]
  | convert y ss so so' al al' hr => simp only [CInit.cost, h.part]

theorem _root_.MultiArray.SAlike.cost {A A' : AState T} (h : SAlike A A') {c c' : Cmd T} (hc : c.Alike c') : c.cost A = c'.cost A' := by
  cases hc with
  | construct x i i' hi => exact h.costInit hi
  | same _ hm =>
    cases c with
    | construct x i => exact h.costInit (Spec.CInit.Alike.refl i)
    | on x op => cases op <;> simp only [Cmd.cost, h.resizeCost, h.count]
    | _ => simp only [Cmd.cost, h.count]

theorem alike_lost {c c' : Cmd T} (hc : c.Alike c') (j : Nat) : c.lost j = c'.lost j := by
  cases hc with
  | construct x i i' hi => rfl
  | same _ hm => rfl

theorem _root_.MultiArray.SAlike.copyStoppedAt {A A' B : AState T} (h : SAlike A A') {x y : Nat} {ss ss' : List Sel} {p q : APart} (hp : A.Part x ss p) (hq : A.Part y ss' q)
    (he : p.extents = q.extents) {j : Nat} {junk : T} (hc : A.copyStopped x p y q j junk = some B) : ∃ B', A'.copyStopped x p y q j junk = some B' ∧ SAlike B B' := by
  unfold AState.copyStopped at hc ⊢
  obtain ⟨A1, e1, e2⟩ := Option.bind_eq_some_iff.mp hc
  obtain ⟨k, e3, e4⟩ := Option.bind_eq_some_iff.mp e2
  have hin : ∀ j, j ∈ positions p.extents → InShape p.extents j := fun j hj => mem_positions.mp hj
  obtain ⟨B1, f1, f2, f3⟩ := h.copy _ (fun j hj => h.inRangePos hp (hin j (List.mem_of_mem_take hj)))
    (fun j hj => h.inRangePos hq (by rw [← he]; exact hin j (List.mem_of_mem_take hj))) e1
  obtain ⟨B', f4, f5⟩ := f2.put (f3 _ _ (h.inRangePos hp (hin k (List.mem_of_getElem? e3)))) e4
  exact ⟨B', by rw [f1, Option.bind_some, e3, Option.bind_some, f4], f5⟩

theorem _root_.MultiArray.SAlike.mapStoppedAt {A A' B : AState T} (h : SAlike A A') {x : Nat} {ss : List Sel} {p : APart} {f : T → T} (hp : A.Part x ss p)
    {j : Nat} {junk : T} (hc : A.mapStopped x p f j junk = some B) : ∃ B', A'.mapStopped x p f j junk = some B' ∧ SAlike B B' := by
  unfold AState.mapStopped at hc ⊢
  obtain ⟨A1, e1, e2⟩ := Option.bind_eq_some_iff.mp hc
  obtain ⟨k, e3, e4⟩ := Option.bind_eq_some_iff.mp e2
  have hin : ∀ j, j ∈ positions p.extents → InShape p.extents j := fun j hj => mem_positions.mp hj
  obtain ⟨B1, f1, f2, f3⟩ := h.map _ (fun j hj => h.inRangePos hp (hin j (List.mem_of_mem_take hj))) e1
  obtain ⟨B', f4, f5⟩ := f2.put (f3 _ _ (h.inRangePos hp (hin k (List.mem_of_getElem? e3)))) e4
  exact ⟨B', by rw [f1, Option.bind_some, e3, Option.bind_some, f4], f5⟩

theorem _root_.MultiArray.SAlike.stopped {A A' B : AState T} (h : SAlike A A') {c c' : Cmd T} (hc : c.Alike c') (hl : c.Legal A) {j : Nat} {junk : T} (hs : A.stopped c j junk = some B) :
    ∃ B', A'.stopped c' j junk = some B' ∧ SAlike B B' := by
  cases hc with
  | construct x i i' hi => cases hs; exact ⟨_, rfl, h⟩
  | same _ hm =>
    cases c with
    | construct x i => cases hs; exact ⟨_, rfl, h⟩
    | on x op =>
      obtain ⟨a, ha, hop⟩ := hl
      have pa : A.Part x [] a.whole := ⟨a, ha, trivial, rfl⟩
      cases op with
      | resize rs => cases hs; exact ⟨_, rfl, h⟩
      | resizeList es => cases hs; exact ⟨_, rfl, h⟩
      | write idx v => exact h.put ⟨a, ha, hop⟩ hs
      | writeChain idx v => exact h.put ⟨a, ha, hop⟩ hs
      | forEach f =>
        simp only [AState.stopped, part_of_Part pa, Option.bind_some] at hs
        simp only [AState.stopped, part_of_Part (h.Part pa), Option.bind_some]
        exact h.mapStoppedAt pa hs
      | assign input => exact hm.elim
      | _ => cases hs
    | assign x y =>
      obtain ⟨a, b, ha, hb, he⟩ := hl
      have pa : A.Part x [] a.whole := ⟨a, ha, trivial, rfl⟩
      have pb : A.Part y [] b.whole := ⟨b, hb, trivial, rfl⟩
      simp only [AState.stopped, part_of_Part pa, part_of_Part pb, Option.bind_some] at hs
      simp only [AState.stopped, part_of_Part (h.Part pa), part_of_Part (h.Part pb), Option.bind_some]
      exact h.copyStoppedAt pa pb he hs
    | assignPart x ss y ss' =>
      obtain ⟨p, q, pa, pb, he⟩ := hl
      simp only [AState.stopped, part_of_Part pa, part_of_Part pb, Option.bind_some] at hs
      simp only [AState.stopped, part_of_Part (h.Part pa), part_of_Part (h.Part pb), Option.bind_some]
      exact h.copyStoppedAt pa pb he hs
    | copyArray x ss y ss' =>
      obtain ⟨p, q, pa, pb, he⟩ := hl
      simp only [AState.stopped, part_of_Part pa, part_of_Part pb, Option.bind_some] at hs
      simp only [AState.stopped, part_of_Part (h.Part pa), part_of_Part (h.Part pb), Option.bind_some]
      exact h.copyStoppedAt pa pb he hs
    | write x ss idx v =>
      obtain ⟨p, pa, hin⟩ := hl
      simp only [AState.stopped, part_of_Part pa, Option.bind_some] at hs
      simp only [AState.stopped, part_of_Part (h.Part pa), Option.bind_some]
      exact h.put (h.inRange pa hin) hs
    | forEach x ss f =>
      obtain ⟨p, pa⟩ := hl
      simp only [AState.stopped, part_of_Part pa, Option.bind_some] at hs
      simp only [AState.stopped, part_of_Part (h.Part pa), Option.bind_some]
      exact h.mapStoppedAt pa hs
    | _ => cases hs

/-- Alike commands have alike effects on the machine, and are legal together. -/
theorem alike_mach {dflt : T} {eq lt : T → T → Bool} {M M' : AMach T} (h : SAlike M.vars M'.vars) (hr : M.regs = M'.regs) (hd : M.due = M'.due) (hlo : M.lost = M'.lost)
    {c c' : HCmd T} (hc : c.Alike c') (hl : c.LegalIn M) {o : Option (HObs T)} {N : AMach T} (hs : M.step dflt eq lt c = some (o, N)) :
    ∃ o' N', M'.step dflt eq lt c' = some (o', N') ∧ o.map HObs.noStrides = o'.map HObs.noStrides ∧ SAlike N.vars N'.vars ∧ N.regs = N'.regs ∧ N.due = N'.due ∧ N.lost = N'.lost := by
  unfold AMach.step at hs
  cases hcm : c.cmd M.vars M.regs with
  | some d =>
    have hl : d.Legal M.vars := by
      rcases hl with ⟨d', l1, l2⟩ | ⟨r, l⟩
      · rw [hcm] at l1; cases l1; exact l2
      · rw [regStep_none hcm] at l; cases l
    obtain ⟨d', g1, g2⟩ := h.cmd hc hcm
    simp only [hcm] at hs
    rw [hr] at g1
    have hcost := h.cost g2
    cases hf : firstThrow (d.cost M.vars) M.due with
    | none =>
      simp only [hf, Option.map_eq_some_iff, Prod.mk.injEq] at hs
      obtain ⟨⟨o1, A1⟩, s1, rfl, rfl⟩ := hs
      obtain ⟨o', B', s2, s3, s4⟩ := h.step g2 hl s1
      rw [hcost, hd] at hf
      refine ⟨some (.cmd o'), ⟨B', M'.regs.after d', M'.due.drop (d'.cost M'.vars), M'.lost⟩, ?_, ?_, s4, ?_, ?_, hlo⟩
      · unfold AMach.step
        simp only [g1, hf, s2, Option.map_some]
      · simp only [Option.map_some, HObs.noStrides, s3]
      · show M.regs.after d = M'.regs.after d'
        rw [hr, after_alike g2]
      · show M.due.drop _ = M'.due.drop _
        rw [hd, hcost]
    | some jj =>
      obtain ⟨j, junk⟩ := jj
      simp only [hf, Option.map_eq_some_iff, Prod.mk.injEq] at hs
      obtain ⟨A1, s1, rfl, rfl⟩ := hs
      obtain ⟨B', s2, s4⟩ := h.stopped g2 hl s1
      rw [hcost, hd] at hf
      refine ⟨none, ⟨B', M'.regs, M'.due.drop (j + 1), M'.lost + d'.lost j⟩, ?_, rfl, s4, hr, ?_, ?_⟩
      · unfold AMach.step
        simp only [g1, hf, s2, Option.map_some]
      · show M.due.drop _ = M'.due.drop _
        rw [hd]
      · show M.lost + _ = M'.lost + _
        rw [hlo, alike_lost g2]
  | none =>
    simp only [hcm, Option.map_eq_some_iff, Prod.mk.injEq] at hs
    obtain ⟨⟨o1, ρ1⟩, s1, rfl, rfl⟩ := hs
    have he := hc.reg s1
    subst he
    rw [h.regStep, hr] at s1
    have hcm' : c.cmd M'.vars M'.regs = none := by
      cases hx : c.cmd M'.vars M'.regs with
      | none => rfl
      | some d => rw [regStep_none hx] at s1; cases s1
    refine ⟨some o1, { M' with regs := ρ1 }, ?_, rfl, h, rfl, hd, hlo⟩
    unfold AMach.step
    simp only [hcm', s1, Option.map_some]

theorem alike_predict {dflt : T} {eq lt : T → T → Bool} {k k' : HClient T} (ha : k.Alike k') {due : List (Option T)} (hk : k.LegalWith dflt eq lt due) {n : Nat} {tr : HTrace T} {M : AMach T}
    (h : k.predict dflt eq lt due n = some (tr, M)) : ∃ tr' M', k'.predict dflt eq lt due n = some (tr', M') ∧ HTrace.Alike tr tr' ∧ SAlike M.vars M'.vars ∧ M.regs = M'.regs ∧ M.due = M'.due ∧ M.lost = M'.lost := by
  induction n generalizing tr M with
  | zero => cases h; exact ⟨[], .start due, rfl, .nil, fun _ => .none, rfl, rfl, rfl⟩
  | succ n ih =>
    rw [HClient.predict] at h
    obtain ⟨⟨tr0, M0⟩, h1, h2⟩ := Option.bind_eq_some_iff.mp h
    obtain ⟨tr0', M0', i1, i2, i3, i4, i5, i6⟩ := ih h1
    simp only at h2
    rcases ha _ _ i2 with ⟨c1, c2⟩ | ⟨c, c', c1, c2, c3⟩
    · rw [c1] at h2; cases h2
      exact ⟨tr0', M0', by simp only [HClient.predict, i1, Option.bind_some, c2], i2, i3, i4, i5, i6⟩
    · rw [c1] at h2
      simp only [Option.map_eq_some_iff, Prod.mk.injEq] at h2
      obtain ⟨⟨o, M1⟩, e1, e2, e3⟩ := h2
      simp only at e2 e3
      subst e2 e3
      obtain ⟨o', N', f1, f2, f3⟩ := alike_mach i3 i4 i5 i6 c3 (hk n _ _ _ h1 c1) e1
      exact ⟨tr0' ++ [(c', o')], N', by simp only [HClient.predict, i1, Option.bind_some, c2, f1, Option.map_some], traceAlike_snoc i2 c3 f2, f3⟩

theorem alike_legalIn {M M' : AMach T} (h : SAlike M.vars M'.vars) (hr : M.regs = M'.regs) {c c' : HCmd T} (hc : c.Alike c') (hl : c.LegalIn M) : c'.LegalIn M' := by
  rcases hl with ⟨d, l1, l2⟩ | ⟨r, l⟩
  · obtain ⟨d', g1, g2⟩ := h.cmd hc l1
    exact .inl ⟨d', by rw [← hr]; exact g1, h.legal g2 l2⟩
  · have he := hc.reg l
    subst he
    exact .inr ⟨r, by rw [← h.regStep, ← hr]; exact l⟩

/-- **C102.** The same with exceptions.  Two clients that differ only in the storage orders and allocators they ask for and that do not ask about memory, the first of which respects
the preconditions when the exceptions `due` are thrown.  Run both with these exceptions: the same commands throw in both, everything they observe is the same but for the
strides, at the end the same variables exist and hold the same elements at the same indices - also where an interrupted command left them half done -,
and the same exceptions are still due. -/
theorem C102_storage_order_unobservable_with_exceptions (dbg dbg' : Bool) (dflt : T) (eq lt : T → T → Bool) (k k' : HClient T) (ha : k.Alike k') (due : List (Option T))
    (hk : k.LegalWith dflt eq lt due) (n : Nat) :
    ∃ tr w its tr' w' its', k.run dbg dflt eq lt n [] (World.start due) (fun _ => none) = some (tr, w, its) ∧
      k'.run dbg' dflt eq lt n [] (World.start due) (fun _ => none) = some (tr', w', its') ∧
      HTrace.Alike tr tr' ∧ (tr.length = n ∨ k tr = none) ∧
      (∀ x, w.objs x = none ↔ w'.objs x = none) ∧
      (∀ x a a', w.objs x = some a → w'.objs x = some a' → SameArray w.st a w'.st a') ∧ w.st.sched = w'.st.sched := by
  have hk' : k'.LegalWith dflt eq lt due := by
    intro m tr' M' h' hp hc
    obtain ⟨tr0, M0, _, _, i0, _⟩ := C103_run_is_predicted dbg dflt eq lt k due hk m
    obtain ⟨tr1, M1, i1, i2, i3, i4, _⟩ := alike_predict ha hk i0
    rw [hp] at i1; cases i1
    rcases ha _ _ i2 with ⟨_, e⟩ | ⟨c, c', e1, e2, e3⟩
    · rw [hc] at e; cases e
    · rw [hc] at e2; cases e2
      exact alike_legalIn i3 i4 e3 (hk _ _ _ _ i0 e1)
  obtain ⟨tr, M, w, its, e1, e2, e3, e4, e5, e6, _⟩ := C103_run_is_predicted dbg dflt eq lt k due hk n
  obtain ⟨tr', M', w', its', f1, f2, f3, f4, f5, f6, _⟩ := C103_run_is_predicted dbg' dflt eq lt k' due hk' n
  obtain ⟨tr2, M2, g1, g2, g3, g4, g5, g6⟩ := alike_predict ha hk e1
  rw [f1] at g1; cases g1
  refine ⟨tr, w, its, tr', w', its', e2, f2, g2, e3, ?_, ?_, by rw [e6, f6, g5]⟩
  · intro x
    rw [e4, f4]
    exact ⟨g3.ofNone, g3.symm.ofNone⟩
  · intro x a a' hx hx'
    cases hA : M.vars x with
    | none => rw [(e4 x).mpr hA] at hx; cases hx
    | some abs =>
      obtain ⟨abs', hA', hal⟩ := g3.ofSome hA
      exact sameArray_of (e5 x a abs hx hA) (f5 x a' abs' hx' hA') hal

/-! ### Clients that meet the hypotheses -/

example (due : List (Option Nat)) (n : Nat) := C103_run_is_predicted true 0 (fun a b => a == b) (fun a b => decide (a < b)) heldClient due
  (C103_legal_if_always_legal (heldClient_legal _ _) due) n

example (due : List (Option Nat)) (n : Nat) := C103_build_modes_agree 0 (fun a b => a == b) (fun a b => decide (a < b)) heldClient due
  (C103_legal_if_always_legal (heldClient_legal _ _) due) n

example (due : List (Option Nat)) (n : Nat) := C103_run_is_predicted_on_machine true 0 (fun a b => a == b) (fun a b => decide (a < b)) heldClient due
  (C103_legal_if_always_legal (heldClient_legal _ _) due) (fitsWith_of_fits (heldClient_legal _ _) (heldClient_fits _ _) due) n

example (so so' : StorageOrder) (h : ValidOrder 2 so) (h' : ValidOrder 2 so') (due : List (Option Nat)) (n : Nat) :=
  C102_storage_order_unobservable_with_exceptions true false 0 (fun a b => a == b) (fun a b => decide (a < b))
    (layoutClient (StorageOrder.cOrder 2) (StorageOrder.cOrder 2)) (layoutClient so so') (layoutClient_alike h h') due
    (C103_legal_if_always_legal (layoutClient_legal _ _) due) n

/-- A copy construction interrupted at its third element construction and retried, in C and in Fortran order: the same commands throw. -/
example : ((layoutClient (StorageOrder.cOrder 2) (StorageOrder.cOrder 2)).run true 0 (fun a b => a == b) (fun a b => decide (a < b)) 12 []
      (World.start (List.replicate 11 none ++ [some 0])) (fun _ => none)).map (fun r => r.1.map (fun p => p.2.isSome)) =
    ((layoutClient (StorageOrder.fortranOrder 2) (StorageOrder.fortranOrder 2)).run true 0 (fun a b => a == b) (fun a b => decide (a < b)) 12 []
      (World.start (List.replicate 11 none ++ [some 0])) (fun _ => none)).map (fun r => r.1.map (fun p => p.2.isSome)) ∧
    ((layoutClient (StorageOrder.cOrder 2) (StorageOrder.cOrder 2)).run true 0 (fun a b => a == b) (fun a b => decide (a < b)) 12 []
      (World.start (List.replicate 11 none ++ [some 0])) (fun _ => none)).map (fun r => r.1.map (fun p => p.2.isSome)) =
      some [true, true, true, true, false, true, true, true, true] := by
  decide +kernel

/-- What the counts say about particular commands: a 2 x 3 array is constructed with one allocation and six element constructions; if the allocation throws nothing is lost, and one
block if an element construction throws.  Resizing it to 2 x 2 takes one allocation, four constructions and four assignments; nothing is lost if an assignment throws. -/
example : (Cmd.construct 0 (.extents 2 [2, 3] (StorageOrder.cOrder 2) 0) : Cmd Nat).cost (fun _ => none) = 7 ∧
    (Cmd.construct 0 (.extents 2 [2, 3] (StorageOrder.cOrder 2) 0) : Cmd Nat).lost 0 = 0 ∧
    (Cmd.construct 0 (.extents 2 [2, 3] (StorageOrder.cOrder 2) 0) : Cmd Nat).lost 3 = 1 ∧
    (Cmd.on 0 (.resizeList [2, 2]) : Cmd Nat).cost (fun _ => some ⟨[0, 0], [2, 3], StorageOrder.cOrder 2, [1, 2, 3, 4, 5, 6]⟩) = 9 ∧
    (Cmd.on 0 (.resizeList [2, 2]) : Cmd Nat).lost 4 = 1 ∧ (Cmd.on 0 (.resizeList [2, 2]) : Cmd Nat).lost 5 = 0 := by
  decide +kernel

end MultiArray.Props
