import Verif.Lemmas.HeldM
import Verif.Props.ProgX

/-
Property theorems C99: whole client programs that hold iterators, subarrays and views in variables of their own, under exceptions and on a 64-bit
machine.
-/
set_option autoImplicit false

namespace MultiArray.Props
open MultiArray Spec
variable {T : Type}

theorem hThrownAllocs_snoc (tr : HTrace T) (c : HCmd T) (o : Option (HObs T)) :
    hThrownAllocs (tr ++ [(c, o)]) = hThrownAllocs tr + (if c.allocates && o.isNone then 1 else 0) := by
  unfold hThrownAllocs
  rw [List.filter_append, List.length_append]
  by_cases h : (c.allocates && o.isNone) = true
  · simp [h]
  · simp [h]

theorem hThrows_snoc (tr : HTrace T) (c : HCmd T) (o : Option (HObs T)) : hThrows (tr ++ [(c, o)]) = hThrows tr + (if o.isNone then 1 else 0) := by
  unfold hThrows
  rw [List.filter_append, List.length_append]
  cases o <;> simp

theorem allocates_of_cmd {A : AState T} {ρ : ARegs} {h : HCmd T} {c : Cmd T} (hc : h.cmd A ρ = some c) : h.allocates = c.allocates := by
  cases h with
  | plain c' => cases hc; rfl
  | part p =>
    simp only [HCmd.cmd, Option.map_eq_some_iff] at hc
    obtain ⟨p', h1, rfl⟩ := hc
    cases p with
    | convert | read | write | forEach | traverse | shape =>
      simp only [PCmd.eval, Option.map_eq_some_iff] at h1
      obtain ⟨_, _, rfl⟩ := h1
      rfl
    | assign | copyArray | equal | less =>
      simp only [PCmd.eval, Option.bind_eq_some_iff, Option.map_eq_some_iff] at h1
      obtain ⟨_, _, _, _, rfl⟩ := h1
      rfl
  | _ => cases hc

theorem regStep_execH {dbg : Bool} {dflt : T} {eq lt : T → T → Bool} {w : World T} {A : AState T} {ρ : ARegs} {its : CRegs} {h : HCmd T} {r : HObs T × ARegs}
    (hs : A.regStep ρ h = some r) : w.execH dbg dflt eq lt its h = .ofReg w (w.regX dbg its h) ∧ w.execHM dbg dflt eq lt its h = .ofReg w (w.regXM dbg its h) := by
  cases h with
  | plain c => cases hs
  | part c => cases hs
  | _ => exact ⟨rfl, rfl⟩

theorem regStep_none {A : AState T} {ρ : ARegs} {h : HCmd T} {c : Cmd T} (hc : h.cmd A ρ = some c) : A.regStep ρ h = none := by
  cases h with
  | plain c => rfl
  | part c => rfl
  | _ => cases hc

/-- One command of a client: the library does what the abstract machine allows. -/
theorem held_step (dbg : Bool) (dflt : T) (eq lt : T → T → Bool) {L : List Nat} {w : World T} {A : AState T} {ρ : ARegs} {its : CRegs} (hi : InvX L w A)
    (hr : RegInv dbg w A ρ its) {h : HCmd T} (hl : (∃ c, h.cmd A ρ = some c ∧ c.Legal A) ∨ ∃ r, A.regStep ρ h = some r) :
    (∃ c o A' w', h.cmd A ρ = some c ∧ c.Legal A ∧ A.step dflt eq lt c = some (o, A') ∧ w.execX dbg dflt eq lt c = .done o w' ∧ w.execH dbg dflt eq lt its h = .done (.cmd o) w' its ∧ InvX L w' A' ∧
      RegInv dbg w' A' (ρ.after c) its ∧ ∀ y a, w.objs y = some a → ¬ c.Drops y → KeepsVar y a (¬ c.Relabels y) w') ∨
    (∃ c w' L' A', h.cmd A ρ = some c ∧ c.Legal A ∧ A.Interrupted c A' ∧ w.execX dbg dflt eq lt c = .threw w' ∧ w.execH dbg dflt eq lt its h = .threw w' its ∧ InvX L' w' A' ∧
      L'.length ≤ L.length + (if c.allocates then 1 else 0) ∧ RegInv dbg w' A' ρ its ∧ ∀ y a, w.objs y = some a → KeepsVar y a True w') ∨
    (∃ o ρ' its', A.regStep ρ h = some (o, ρ') ∧ w.execH dbg dflt eq lt its h = .done o w its' ∧ RegInv dbg w A ρ' its') := by
  rcases hl with ⟨c, hc, hlc⟩ | ⟨⟨o, ρ'⟩, hs⟩
  · have he := cmd_exec dflt eq lt hi hr hc hlc
    rcases stable_step dbg dflt eq lt hi c hlc with ⟨o, A', w', e1, e2, e3, e4⟩ | ⟨w', L', A', e1, e2, e3, e4⟩
    · have hk : ∀ y a, w.objs y = some a → ¬ c.Drops y → KeepsVar y a (¬ c.Relabels y) w' := fun y a hy hd => ((e4 y a hy).1 hd).1
      exact .inl ⟨c, o, A', w', hc, hlc, e1, e2, by rw [he, e2]; rfl, e3, hr.done hi e3 hk, hk⟩
    · rcases cmd_x dbg dflt eq lt hi c hlc with ⟨o, A1, w1, f1, f2, f3⟩ | ⟨w1, L1, A1, f1, f2, f3, f4⟩
      · rw [e1] at f2; cases f2
      · rw [e1] at f1; cases f1
        have hk : ∀ y a, w.objs y = some a → KeepsVar y a True w' := fun y a hy => (e4 y a hy).1
        exact .inr (.inl ⟨c, w', L1, A1, hc, hlc, f2, e1, by rw [he, e1]; rfl, f3, by cases hca : c.allocates <;> simp [hca] at f4 ⊢ <;> omega, hr.threw hi f3 hk, hk⟩)
  · obtain ⟨its', k1, k2⟩ := reg_exec hi hr hs
    exact .inr (.inr ⟨o, ρ', its', hs, by rw [(regStep_execH hs).1, k1]; rfl, k2⟩)

theorem held_run (dbg : Bool) (dflt : T) (eq lt : T → T → Bool) (k : HClient T) (hk : k.Legal dflt eq lt) (n : Nat) {tr : HTrace T}
    {L : List Nat} {w : World T} {A : AState T} {ρ : ARegs} {its : CRegs} (hr : k.Reaches dflt eq lt tr A ρ) (h : InvX L w A) (hreg : RegInv dbg w A ρ its)
    (hL : L.length ≤ hThrownAllocs tr) {m : Nat} (hm : hThrows tr + due w.st ≤ m) :
    ∃ tr' L' w' A' ρ' its', hThrows tr' + due w'.st ≤ m ∧ k.run dbg dflt eq lt n tr w its = some (tr', w', its') ∧ k.Reaches dflt eq lt tr' A' ρ' ∧ InvX L' w' A' ∧
      RegInv dbg w' A' ρ' its' ∧ L'.length ≤ hThrownAllocs tr' ∧ (tr'.length = tr.length + n ∨ k tr' = none) := by
  induction n generalizing tr L w A ρ its with
  | zero => exact ⟨tr, L, w, A, ρ, its, hm, rfl, hr, h, hreg, hL, .inl rfl⟩
  | succ n ih =>
    cases hc : k tr with
    | none => exact ⟨tr, L, w, A, ρ, its, hm, by simp only [HClient.run, hc], hr, h, hreg, hL, .inr hc⟩
    | some c =>
      have len : ∀ {tr' : HTrace T} {x : HCmd T × Option (HObs T)}, (tr'.length = (tr ++ [x]).length + n ∨ k tr' = none) →
          tr'.length = tr.length + (n + 1) ∨ k tr' = none := by
        rintro tr' x (f | f)
        · exact .inl (by rw [f, List.length_append]; simp; omega)
        · exact .inr f
      rcases held_step dbg dflt eq lt h hreg (hk tr A ρ c hr hc) with ⟨c', o, A1, w1, e1, _, e2, e3, e4, e5, e6, _⟩ | ⟨c', w1, L1, A1, e1, _, e2, e3, e4, e5, e6, e7, _⟩ | ⟨o, ρ1, its1, e1, e2, e3⟩
      · obtain ⟨tr', L', w', A', ρ', its', f0, f1, f2, f3, f4, f5, f6⟩ := ih (hr.done hc e1 e2) e5 e6 (by rw [hThrownAllocs_snoc]; omega)
          (by have := fair_done dbg dflt eq lt e3; rw [hThrows_snoc]; simp; omega)
        exact ⟨tr', L', w', A', ρ', its', f0, by simp only [HClient.run, hc, e4]; exact f1, f2, f3, f4, f5, len f6⟩
      · have ha := allocates_of_cmd e1
        obtain ⟨tr', L', w', A', ρ', its', f0, f1, f2, f3, f4, f5, f6⟩ := ih (hr.threw hc e1 e2) e5 e7
          (by rw [hThrownAllocs_snoc, ha]; cases hca : c'.allocates <;> simp [hca] at e6 ⊢ <;> omega)
          (by have := fair_threw dbg dflt eq lt e3; rw [hThrows_snoc]; simp; omega)
        exact ⟨tr', L', w', A', ρ', its', f0, by simp only [HClient.run, hc, e4]; exact f1, f2, f3, f4, f5, len f6⟩
      · obtain ⟨tr', L', w', A', ρ', its', f0, f1, f2, f3, f4, f5, f6⟩ := ih (hr.reg hc e1) h e3 (by rw [hThrownAllocs_snoc]; omega)
          (by rw [hThrows_snoc]; simp; omega)
        exact ⟨tr', L', w', A', ρ', its', f0, by simp only [HClient.run, hc, e2]; exact f1, f2, f3, f4, f5, len f6⟩

/-- What a register of the library program is, if the abstract register is valid: a held handle is the descriptor that the expression it stands for
denotes now, and a held iterator is the iterator one gets by taking it anew now. -/
theorem regOk_fresh {dbg : Bool} {w : World T} {A : AState T} {ρ : ARegs} {its : CRegs} (hr : RegInv dbg w A ρ its) :
    (∀ r h, ρ r = some (.handle h) → ∃ d, its r = some (.handle d) ∧ w.lookup dbg h.1 h.2 = some d) ∧
    (∀ r p, ρ r = some (.it p) → ∃ d i, its r = some (.it i) ∧ w.lookup dbg p.var p.path = some d ∧ freshIt d p.rev p.i = some i) := by
  refine ⟨fun r h hh => ?_, fun r p hp => ?_⟩
  · obtain ⟨c, h1, h2⟩ := hr r _ hh
    cases c with
    | it i => exact h2.elim
    | handle d => exact ⟨d, h1, h2.2⟩
  · obtain ⟨c, h1, h2⟩ := hr r _ hp
    cases c with
    | handle d => exact h2.elim
    | it i =>
      obtain ⟨q, e, es, b, bs, d, g1, g2, g3, g4, g5, g6, g7, rfl⟩ := h2
      refine ⟨d, _, h1, g4, ?_⟩
      obtain ⟨pt, ee, st, bb⟩ := d
      simp only at g5 g6
      subst g5 g6
      have hmov := toIt_moved e b (⟨pt, e :: es, st, b :: bs⟩ : Desc) ⟨0, p.rev, 0⟩ (p.i : Int) (by simp)
      have hb : (⟨pt, e :: es, st, b :: bs⟩ : Desc).begin = .ok ⟨b, ⟨pt, e :: es, st, b :: bs⟩⟩ := rfl
      have hrb : (⟨pt, e :: es, st, b :: bs⟩ : Desc).rbegin = .ok ⟨⟨b + (e : Int), ⟨pt, e :: es, st, b :: bs⟩⟩⟩ := rfl
      unfold freshIt
      cases hrev : p.rev with
      | true =>
        rw [hrev] at hmov
        rw [hrb]
        simpa [toIt, Res.val?] using hmov
      | false =>
        rw [hrev] at hmov
        rw [hb]
        simpa [toIt, Res.val?] using hmov

theorem held_start (sched : List (Option T)) : InvX [] (World.start sched : World T) (fun _ => none) :=
  ⟨(World.start [] : World T).st, ⟨rfl, rfl, fun _ h => (nomatch h), fun _ _ => rfl⟩, start_rep⟩

/-- A whole client program that keeps handles and iterators in variables of its own, for any number `n` of commands and any exceptions `sched`.  If the
client respects the preconditions whatever happens - in particular it uses no handle or iterator into an array that was destroyed, resized, reindexed or
reshaped since -, the library runs into no undefined behaviour and no failed assertion in either build mode, and everything it returned and threw is
possible on the abstract machine, where a held iterator is just a position and a held view is just the expression it was made from.  At the end everything is as
in C71, every held handle that is still valid is the one its expression denotes now, and every valid iterator is the one one would get by taking it anew now. -/
theorem C99_held_client (dbg : Bool) (dflt : T) (eq lt : T → T → Bool) (k : HClient T) (hk : k.Legal dflt eq lt) (sched : List (Option T)) (n : Nat) :
    ∃ tr w A ρ its, k.run dbg dflt eq lt n [] (World.start sched) (fun _ => none) = some (tr, w, its) ∧ k.Reaches dflt eq lt tr A ρ ∧
      (tr.length = n ∨ k tr = none) ∧ hThrows tr ≤ (sched.filter Option.isSome).length ∧
      (∀ x, w.objs x = none ↔ A x = none) ∧
      (∀ x a abs, w.objs x = some a → A x = some abs → Holds w.st a abs) ∧
      (∀ x y a b, w.objs x = some a → w.objs y = some b → x ≠ y → a.ref.data.blk ≠ b.ref.data.blk) ∧
      (∃ L : List Nat, L.length ≤ hThrownAllocs tr ∧ ∀ b, w.st.heap b ≠ none → b ∈ L ∨ ∃ x a, w.objs x = some a ∧ a.ref.data.blk = b) ∧
      (∀ r h, ρ r = some (.handle h) → ∃ d, its r = some (.handle d) ∧ w.lookup dbg h.1 h.2 = some d) ∧
      (∀ r p, ρ r = some (.it p) → ∃ d i, its r = some (.it i) ∧ w.lookup dbg p.var p.path = some d ∧ freshIt d p.rev p.i = some i) := by
  obtain ⟨tr, L, w, A, ρ, its, e0, e1, e2, ⟨t, hc, hr⟩, e6, e4, e5⟩ :=
    held_run dbg dflt eq lt k hk n HClient.Reaches.start (held_start sched) (fun _ _ h => (nomatch h)) (Nat.le_refl 0) (m := (sched.filter Option.isSome).length)
      (by show 0 + _ ≤ _; rw [Nat.zero_add]; exact Nat.le_refl _)
  refine ⟨tr, w, A, ρ, its, e1, e2, ?_, by omega, ?_, ?_, ?_, ⟨L, e4, ?_⟩, regOk_fresh e6⟩
  · simpa using e5
  · intro x
    refine ⟨hr.dead x, fun hA => ?_⟩
    cases hx : w.objs x with
    | none => rfl
    | some a =>
      obtain ⟨abs, h1, _⟩ := hr.live x a hx
      rw [hA] at h1; cases h1
  · intro x a abs hx hA
    obtain ⟨abs', h1, h2⟩ := hr.live x a hx
    rw [hA] at h1; cases h1
    exact ⟨hc.owns h2.owns, h2.bases, h2.extents, h2.order⟩
  · intro x y a b hx hy hne
    exact fun he => hne (hr.valid.distinct x y a b hx hy he)
  · intro b hb
    by_cases hbL : b ∈ L
    · exact .inl hbL
    · right
      exact hr.noLeak b (by show t.heap b ≠ none; rw [hc.same b hbL]; exact hb)

/-- Holding a handle or an iterator makes no difference: after any number of commands and any exceptions, every legal command that names its parts through held
handles and iterators - the client's next one or any other - does exactly what it does with the expressions they stand for spelled out. -/
theorem C99_same_as_spelled_out (dbg : Bool) (dflt : T) (eq lt : T → T → Bool) (k : HClient T) (hk : k.Legal dflt eq lt) (sched : List (Option T)) (n : Nat) :
    ∃ tr w A ρ its, k.run dbg dflt eq lt n [] (World.start sched) (fun _ => none) = some (tr, w, its) ∧ k.Reaches dflt eq lt tr A ρ ∧
      ∀ h c, h.cmd A ρ = some c → c.Legal A → w.execH dbg dflt eq lt its h = HRes.ofX its (w.execX dbg dflt eq lt c) := by
  obtain ⟨tr, L, w, A, ρ, its, e0, e1, e2, e3, e4, e5, e6⟩ :=
    held_run dbg dflt eq lt k hk n HClient.Reaches.start (held_start sched) (fun _ _ h => (nomatch h)) (Nat.le_refl 0) (m := (sched.filter Option.isSome).length)
      (by show 0 + _ ≤ _; rw [Nat.zero_add]; exact Nat.le_refl _)
  exact ⟨tr, w, A, ρ, its, e1, e2, fun h c he hl => cmd_exec dflt eq lt e3 e4 he hl⟩

/-! ### On a 64-bit machine -/

/-- Every array that ever exists in a run of such a client fits. -/
theorem held_fits {dflt : T} {eq lt : T → T → Bool} {k : HClient T} (hf : k.Fits dflt eq lt) {tr : HTrace T} {A : AState T} {ρ : ARegs}
    (hr : k.Reaches dflt eq lt tr A ρ) : A.Fits := by
  induction hr with
  | start => intro x a h; cases h
  | done h1 hc he hs ih => exact C74_only_new_shapes dflt eq lt ih ((hf _ _ _ _ h1 hc).2 _ he).2 hs
  | threw h1 hc he hs ih => exact fits_interrupted ih hs
  | reg h1 hc hs ih => exact ih

theorem held_runM (dbg : Bool) (dflt : T) (eq lt : T → T → Bool) (k : HClient T) (hk : k.Legal dflt eq lt) (hf : k.Fits dflt eq lt) (n : Nat)
    {tr : HTrace T} {L : List Nat} {w : World T} {A : AState T} {ρ : ARegs} {its : CRegs} (hr : k.Reaches dflt eq lt tr A ρ) (h : InvX L w A)
    (hreg : RegInv dbg w A ρ its) (hrf : RegFits A ρ) :
    k.runM dbg dflt eq lt n tr w its = k.run dbg dflt eq lt n tr w its := by
  induction n generalizing tr L w A ρ its with
  | zero => rfl
  | succ n ih =>
    cases hc : k tr with
    | none => simp only [HClient.run, HClient.runM, hc]
    | some c =>
      have hA := held_fits hf hr
      obtain ⟨hv, hn⟩ := hf tr A ρ c hr hc
      rcases held_step dbg dflt eq lt h hreg (hk tr A ρ c hr hc) with ⟨c', o, A1, w1, e1, el, e2, e3, e4, e5, e6, e7⟩ | ⟨c', w1, L1, A1, e1, el, e2, e3, e4, e5, e6, e7, e8⟩ | ⟨o, ρ1, its1, e1, e2, e3⟩
      · have he := cmd_execM dflt eq lt h hreg hA hrf e1 el (hn c' e1).1 (hn c' e1).2
        simp only [HClient.run, HClient.runM, hc, he, e4]
        refine ih (hr.done hc e1 e2) e5 e6 ?_
        intro r hd hrr
        obtain ⟨h1, h2, h3⟩ := after_some hrr
        obtain ⟨cc, h4, h5⟩ := hreg r hd h1
        obtain ⟨ss, p, hp⟩ := h5.part
        obtain ⟨a, ha⟩ := part_obj h hp
        obtain ⟨a', k1, _, k3⟩ := e7 _ a ha h2
        rw [k3 h3] at k1
        exact keep_fits h e5 ha k1 (hrf r hd h1)
      · have he := cmd_execM dflt eq lt h hreg hA hrf e1 el (hn c' e1).1 (hn c' e1).2
        simp only [HClient.run, HClient.runM, hc, he, e4]
        refine ih (hr.threw hc e1 e2) e5 e7 ?_
        intro r hd h1
        obtain ⟨cc, h4, h5⟩ := hreg r hd h1
        obtain ⟨ss, p, hp⟩ := h5.part
        obtain ⟨a, ha⟩ := part_obj h hp
        obtain ⟨a', k1, _, k3⟩ := e8 _ a ha
        rw [k3 trivial] at k1
        exact keep_fits h e5 ha k1 (hrf r hd h1)
      · obtain ⟨k1, k2⟩ := reg_execM h hreg hA hrf e1 hv
        obtain ⟨x1, x2⟩ := regStep_execH (dbg := dbg) (dflt := dflt) (eq := eq) (lt := lt) (w := w) (its := its) e1
        have he : w.execHM dbg dflt eq lt its c = w.execH dbg dflt eq lt its c := by rw [x1, x2, k1]
        simp only [HClient.run, HClient.runM, hc, he, e2]
        exact ih (hr.reg hc e1) h e3 k2

/-- The same on the 64-bit machine: if moreover the client only uses views and (tries to) create arrays that fit, the 64-bit library does exactly what the
ideal one does - nothing overflows, also not in the iterators and views that are held -, so that everything `C99_held_client` says holds of it. -/
theorem C99_held_client_on_machine (dbg : Bool) (dflt : T) (eq lt : T → T → Bool) (k : HClient T) (hk : k.Legal dflt eq lt) (hf : k.Fits dflt eq lt)
    (sched : List (Option T)) (n : Nat) :
    k.runM dbg dflt eq lt n [] (World.start sched) (fun _ => none) = k.run dbg dflt eq lt n [] (World.start sched) (fun _ => none) ∧
    ∃ r, k.run dbg dflt eq lt n [] (World.start sched) (fun _ => none) = some r := by
  obtain ⟨tr, w, A, ρ, its, e1, _⟩ := C99_held_client dbg dflt eq lt k hk sched n
  exact ⟨held_runM dbg dflt eq lt k hk hf n .start (held_start sched) (fun _ _ h => (nomatch h)) (fun _ _ h => (nomatch h)), _, e1⟩

/-! ### A client that meets the hypotheses -/

/-- The last row, from the back, with indices from 5. -/
def heldView : List Sel := [.viewFrom [.index 1, .range (IndexRange.mk3 2 (-1) (-1))] [5]]

/-- A program that holds a view and four iterators across constructions and writes; every command is retried until it does not throw. -/
def heldCmds : List (HCmd Nat) :=
  [.plain (.construct 0 (.extents 2 [2, 3] (StorageOrder.cOrder 2) 0)),
   .plain (.on 0 (.assign [1, 2, 3, 4, 5, 6])),
   .hold 0 (.var 0 heldView),
   .begin 1 (.var 0 []),
   .inc 1,
   .plain (.construct 1 (.copy 0)),
   .part (.write (.deref 1 []) [2] 60),
   .part (.traverse (.held 0 [])),
   .part (.forEach (.held 0 []) (· + 1)),
   .rfin 2 (.deref 1 []),
   .dec 2,
   .part (.traverse (.deref 2 [])),
   .fin 3 (.var 0 []),
   .diff 3 1,
   .part (.traverse (.index 1 (-1) [])),
   .begin 4 (.held 0 []),
   .part (.traverse (.deref 4 [])),
   .plain (.destroy 0)]

def hCompleted (tr : HTrace T) : Nat := (tr.filter (fun p => p.2.isSome)).length

theorem hCompleted_snoc (tr : HTrace T) (c : HCmd T) (o : Option (HObs T)) : hCompleted (tr ++ [(c, o)]) = hCompleted tr + (if o.isSome then 1 else 0) := by
  unfold hCompleted
  rw [List.filter_append, List.length_append]
  cases o <;> simp

def heldClient : HClient Nat := fun tr => heldCmds[hCompleted tr]?

/-- The registers when `n` commands have completed. -/
def heldRegs (n : Nat) : ARegs := fun r =>
  match r with
  | 0 => if 3 ≤ n then some (.handle (0, heldView)) else none
  | 1 => if n ≤ 3 then none else some (.it ⟨0, [], false, if n = 4 then 0 else 1⟩)
  | 2 => if n ≤ 9 then none else some (.it ⟨0, [.at 1], true, if n = 10 then 3 else 2⟩)
  | 3 => if n ≤ 12 then none else some (.it ⟨0, [], false, 2⟩)
  | 4 => if n ≤ 15 then none else some (.it ⟨0, heldView, false, 0⟩)
  | _ => none

/-- Variable `x` is a 2 by 3 array. -/
def TwoByThree (A : AState Nat) (x : Nat) : Prop := ∃ vs, A x = some ⟨[0, 0], [2, 3], StorageOrder.cOrder 2, vs⟩

def heldInv (n : Nat) (A : AState Nat) (ρ : ARegs) : Prop :=
  n ≤ 17 → ρ = heldRegs n ∧ (n = 0 → A = noVars) ∧ (1 ≤ n → TwoByThree A 0) ∧ (n ≤ 5 → A 1 = none)

theorem twoByThree_put {A A' : AState Nat} {x y : Nat} {idx : List Int} {v : Nat} (h : TwoByThree A y) (hp : A.put x idx v = some A') : TwoByThree A' y := by
  obtain ⟨vs, h⟩ := h
  unfold AState.put at hp
  cases hx : A x with
  | none => rw [hx] at hp; cases hp
  | some a =>
    rw [hx] at hp
    cases hp
    by_cases hy : y = x
    · subst hy
      rw [h] at hx; cases hx
      exact ⟨vs.set (AbsArr.at_ ⟨[0, 0], [2, 3], StorageOrder.cOrder 2, vs⟩ idx) v, by simp only [AState.set, if_true]⟩
    · exact ⟨vs, by simp only [AState.set, if_neg hy, h]⟩

theorem twoByThree_map {A A' : AState Nat} {x y : Nat} {p : APart} {f : Nat → Nat} {ks : List (List Nat)} (h : TwoByThree A y)
    (hc : AState.map x p f ks A = some A') : TwoByThree A' y := by
  induction ks generalizing A with
  | nil => cases hc; exact h
  | cons k ks ih =>
    simp only [AState.map, Option.bind_eq_some_iff] at hc
    obtain ⟨v, _, A1, h2, h3⟩ := hc
    exact ih (twoByThree_put h h2) h3

theorem legalPath_of {A : AState T} {ρ : ARegs} {e : Ex} {h : Nat × List Sel} {p : APart} (h1 : A.path ρ e = some h) (h2 : A.Part h.1 h.2 p) :
    A.legalPath ρ e = some h := by
  unfold AState.legalPath
  rw [h1, Option.bind_some, if_pos ⟨p, h2⟩]

theorem range_of {A : AState T} {ρ : ARegs} {e : Ex} {h : Nat × List Sel} {p : APart} {n : Nat} (h1 : A.path ρ e = some h) (h2 : A.Part h.1 h.2 p)
    (h3 : p.extents.head? = some n) : A.range ρ e = some (h, n) := by
  unfold AState.range AState.length
  rw [legalPath_of h1 h2, Option.bind_some, part_some h2, Option.bind_some, h3]
  rfl

theorem after_same {ρ : ARegs} {c : Cmd T} (h : ∀ y, ¬ c.Drops y) (h' : ∀ y, ¬ c.Relabels y) : ρ.after c = ρ := by
  funext r
  unfold ARegs.after
  cases ρ r with
  | none => rfl
  | some a => rw [Option.bind_some, if_neg (fun e => e.elim (h _) (h' _))]

theorem whole_part {A : AState T} {x : Nat} {a : AbsArr T} (h : A x = some a) : A.Part x [] a.whole := ⟨a, h, trivial, rfl⟩

theorem row_part {A : AState Nat} {x : Nat} {vs : List Nat} (h : A x = some ⟨[0, 0], [2, 3], StorageOrder.cOrder 2, vs⟩) {i : Int} (hi : 0 ≤ i) (hi' : i < 2) :
    A.Part x [.at i] ((AbsArr.whole ⟨[0, 0], [2, 3], StorageOrder.cOrder 2, vs⟩).path [.at i]) :=
  ⟨_, h, ⟨⟨0, [0], 2, [3], rfl, rfl, hi, by simpa using hi'⟩, trivial⟩, rfl⟩

/-- The element of the held array that iterator 2 points to. -/
theorem elem_part {A : AState Nat} {x : Nat} {vs : List Nat} (h : A x = some ⟨[0, 0], [2, 3], StorageOrder.cOrder 2, vs⟩) :
    A.Part x [.at 1, .at 0] ((AbsArr.whole ⟨[0, 0], [2, 3], StorageOrder.cOrder 2, vs⟩).path [.at 1, .at 0]) :=
  ⟨_, h, ⟨⟨0, [0], 2, [3], rfl, rfl, by decide, by decide⟩, ⟨0, [], 3, [], rfl, rfl, by decide, by decide⟩, trivial⟩, rfl⟩

/-- The expressions in the program. -/
theorem path_deref1 {A : AState Nat} {n : Nat} (h : TwoByThree A 0) (hn : 5 ≤ n) : A.path (heldRegs n) (.deref 1 []) = some (0, [.at 1]) := by
  obtain ⟨vs, h⟩ := h
  have : heldRegs n 1 = some (.it ⟨0, [], false, 1⟩) := by
    simp only [heldRegs]
    rw [if_neg (by omega), if_neg (by omega)]
  simp [AState.path, ARegs.iter, this, AState.elemAt, AState.part, h, AbsArr.whole, APart.path]

theorem path_index1 {A : AState Nat} {n : Nat} (h : TwoByThree A 0) (hn : 5 ≤ n) : A.path (heldRegs n) (.index 1 (-1) []) = some (0, [.at 0]) := by
  obtain ⟨vs, h⟩ := h
  have : heldRegs n 1 = some (.it ⟨0, [], false, 1⟩) := by
    simp only [heldRegs]
    rw [if_neg (by omega), if_neg (by omega)]
  simp [AState.path, ARegs.iter, this, AState.elemAt, AState.part, h, AbsArr.whole, APart.path]

theorem path_deref2 {A : AState Nat} {n : Nat} (h : TwoByThree A 0) (hn : 11 ≤ n) : A.path (heldRegs n) (.deref 2 []) = some (0, [.at 1, .at 0]) := by
  obtain ⟨vs, h⟩ := h
  have : heldRegs n 2 = some (.it ⟨0, [.at 1], true, 2⟩) := by
    simp only [heldRegs]
    rw [if_neg (by omega), if_neg (by omega)]
  simp [AState.path, ARegs.iter, this, AState.elemAt, AState.part, h, AbsArr.whole, APart.path, APart.sel]

/-- The first element of the view. -/
theorem view_elem_part {A : AState Nat} {x : Nat} {vs : List Nat} (h : A x = some ⟨[0, 0], [2, 3], StorageOrder.cOrder 2, vs⟩) :
    A.Part x (heldView ++ [.at 5]) ((AbsArr.whole ⟨[0, 0], [2, 3], StorageOrder.cOrder 2, vs⟩).path (heldView ++ [.at 5])) :=
  ⟨_, h, ⟨(demoView_legal vs).1, ⟨5, [], 3, [], rfl, rfl, by decide, by decide⟩, trivial⟩, rfl⟩

theorem path_deref4 {A : AState Nat} {n : Nat} (h : TwoByThree A 0) (hn : 16 ≤ n) : A.path (heldRegs n) (.deref 4 []) = some (0, heldView ++ [.at 5]) := by
  obtain ⟨vs, h⟩ := h
  have : heldRegs n 4 = some (.it ⟨0, heldView, false, 0⟩) := by
    simp only [heldRegs]
    rw [if_neg (by omega)]
  simp only [AState.path, ARegs.iter, this, Option.bind_some, AState.elemAt, AState.part, h, Option.map_some]
  rfl

theorem path_held0 {A : AState Nat} {n : Nat} (hn : 3 ≤ n) : A.path (heldRegs n) (.held 0 []) = some (0, heldView) := by
  have : heldRegs n 0 = some (.handle (0, heldView)) := by
    simp only [heldRegs]
    rw [if_pos hn]
  simp [AState.path, this]

/-- The registers after an operation on registers. -/
theorem setReg_eq {n r : Nat} {a : Held (Nat × List Sel) ItPos} (h : heldRegs (n + 1) r = some a) (h' : ∀ r', r' ≠ r → heldRegs (n + 1) r' = heldRegs n r') :
    setReg (heldRegs n) r a = heldRegs (n + 1) := by
  funext r'
  unfold setReg
  by_cases hr : r' = r
  · rw [if_pos hr, hr, h]
  · rw [if_neg hr, h' r' hr]

theorem heldInv_reg {n : Nat} {A : AState Nat} {ρ : ARegs} (h : heldInv n A ρ) (hn : 1 ≤ n) : heldInv (n + 1) A (heldRegs (n + 1)) := by
  intro hn'
  obtain ⟨_, _, h2, h3⟩ := h (by omega)
  exact ⟨rfl, by omega, fun _ => h2 hn, fun _ => h3 (by omega)⟩

/-- A command that changes at most the elements of variable 0. -/
theorem heldInv_cmd {n : Nat} {A A' : AState Nat} {ρ : ARegs} {c : Cmd Nat} (h : heldInv n A ρ) (hn : 1 ≤ n) (hn5 : 5 < n) (hreg : heldRegs (n + 1) = heldRegs n)
    (hd : ∀ y, ¬ c.Drops y) (hr : ∀ y, ¬ c.Relabels y) (hA : TwoByThree A 0 → TwoByThree A' 0) : heldInv (n + 1) A' (ρ.after c) := by
  intro hn'
  obtain ⟨h1, _, h2, h3⟩ := h (by omega)
  exact ⟨by rw [after_same hd hr, hreg, h1], by omega, fun _ => hA (h2 hn), fun _ => by omega⟩

theorem heldInv_stop {n : Nat} {A A' : AState Nat} {ρ : ARegs} (h : heldInv n A ρ) (hn : 1 ≤ n) (hn5 : 5 < n) (hA : TwoByThree A 0 → TwoByThree A' 0) : heldInv n A' ρ := by
  intro hn'
  obtain ⟨h1, _, h2, h3⟩ := h hn'
  exact ⟨h1, by omega, fun _ => hA (h2 hn), fun _ => by omega⟩

/-- Every command of the program: it is legal and fits, and the invariant is preserved. -/
theorem heldInv_step {n : Nat} {A : AState Nat} {ρ : ARegs} {eq lt : Nat → Nat → Bool} (h : heldInv n A ρ) {c : HCmd Nat} (hc : heldCmds[n]? = some c) :
    (∃ c', c.cmd A ρ = some c' ∧ c'.Legal A ∧ c'.ViewsFit A ∧ NewFits 0 A c' ∧ (∀ o A', A.step 0 eq lt c' = some (o, A') → heldInv (n + 1) A' (ρ.after c')) ∧
      ∀ A', A.Interrupted c' A' → heldInv n A' ρ) ∨
    (∃ o, A.regStep ρ c = some (o, heldRegs (n + 1)) ∧ heldInv (n + 1) A (heldRegs (n + 1)) ∧ c.ViewsFit A ρ) := by
  match n, hc with
  | 0, hc =>
    cases hc; obtain ⟨h0, h1, _⟩ := h (by decide)
    cases h1 rfl
    refine .inl ⟨_, rfl, ⟨rfl, cOrder_valid 2, rfl⟩, trivial, fun a h => by cases h; decide, fun o A' hs => ?_, fun A' hs => by cases hs; exact h⟩
    cases hs
    intro _
    refine ⟨(after_same (by intro _ e; exact e) (by intro _ e; exact e)).trans (h0.trans ?_), fun e => (nomatch e), fun _ => ⟨_, rfl⟩, fun _ => rfl⟩
    funext r
    rcases r with _ | _ | _ | _ | _ | r <;> rfl
  | 1, hc =>
    cases hc; obtain ⟨h0, _, h1, h2⟩ := h (by decide)
    obtain ⟨vs, h1⟩ := h1 (by decide)
    refine .inl ⟨_, rfl, ⟨_, h1, trivial⟩, trivial, trivial, fun o A' hs => ?_, fun A' hs => ?_⟩
    · simp only [AState.step, h1, Option.bind_some, AbsArr.step, Option.map_some, Option.some.injEq, Prod.mk.injEq] at hs
      obtain ⟨_, rfl⟩ := hs
      intro _
      refine ⟨(after_same (by intro _ e; exact e) (by intro _ e; exact e)).trans (h0.trans ?_), fun e => (nomatch e), fun _ => ⟨_, rfl⟩, fun _ => h2 (by decide)⟩
      funext r
      rcases r with _ | _ | _ | _ | _ | r <;> rfl
    · obtain ⟨a, k, junk, e1, _, _, rfl⟩ := hs
      rw [h1] at e1
      cases e1
      exact fun _ => ⟨h0, fun e => (nomatch e), fun _ => ⟨_, rfl⟩, fun _ => h2 (by decide)⟩
  | 2, hc =>
    cases hc; obtain ⟨h0, _, h1, _⟩ := h (by decide)
    obtain ⟨vs, h1⟩ := h1 (by decide)
    refine .inr ⟨.unit, ?_, heldInv_reg h (by decide), fun _ e => by cases e; exact exprFits_of h1 (demoPath_fits vs)⟩
    subst h0
    simp only [AState.regStep]
    rw [legalPath_of (h := (0, heldView)) rfl ⟨_, h1, demoView_legal vs, rfl⟩, Option.map_some,
      setReg_eq (n := 2) rfl (fun r hr => by rcases r with _ | _ | _ | _ | _ | r <;> first | rfl | exact absurd rfl hr)]
  | 3, hc =>
    cases hc; obtain ⟨h0, _, h1, _⟩ := h (by decide)
    obtain ⟨vs, h1⟩ := h1 (by decide)
    refine .inr ⟨.unit, ?_, heldInv_reg h (by decide), fun _ e => by cases e; exact exprFits_of h1 trivial⟩
    subst h0
    simp only [AState.regStep]
    rw [range_of (h := (0, [])) (n := 2) rfl (whole_part h1) rfl, Option.map_some,
      setReg_eq (n := 3) rfl (fun r hr => by rcases r with _ | _ | _ | _ | _ | r <;> first | rfl | exact absurd rfl hr)]
  | 4, hc =>
    cases hc; obtain ⟨h0, _, h1, _⟩ := h (by decide)
    obtain ⟨vs, h1⟩ := h1 (by decide)
    refine .inr ⟨.unit, ?_, heldInv_reg h (by decide), trivial⟩
    subst h0
    have e1 : ARegs.iter (heldRegs 4) 1 = some ⟨0, [], false, 0⟩ := rfl
    have e2 : A.move? ⟨0, [], false, 0⟩ 1 = some ⟨0, [], false, 1⟩ := by
      unfold AState.move?
      rw [length_some (q := _) (e := 2) (es := [3]) (whole_part h1) rfl]
      rfl
    simp only [AState.regStep, e1, Option.bind_some, e2, Option.map_some]
    rw [setReg_eq (n := 4) rfl (fun r hr => by rcases r with _ | _ | _ | _ | _ | r <;> first | rfl | exact absurd rfl hr)]
  | 5, hc =>
    cases hc; obtain ⟨h0, _, h1, h2⟩ := h (by decide)
    obtain ⟨vs, h1⟩ := h1 (by decide)
    refine .inl ⟨_, rfl, ⟨h2 (by decide), _, h1⟩, trivial, trivial, fun o A' hs => ?_, fun A' hs => by cases hs; exact h⟩
    simp only [AState.step, CInit.value, h1, Option.map_some, Option.some.injEq, Prod.mk.injEq] at hs
    obtain ⟨_, rfl⟩ := hs
    intro _
    refine ⟨(after_same (by intro _ e; exact e) (by intro _ e; exact e)).trans (h0.trans ?_), fun e => (nomatch e), fun _ => ⟨vs, h1⟩, fun e => absurd e (by decide)⟩
    funext r
    rcases r with _ | _ | _ | _ | _ | r <;> rfl
  | 6, hc =>
    cases hc; obtain ⟨h0, _, h1, h2⟩ := h (by decide)
    have h1 := h1 (by decide)
    have hp := path_deref1 (n := 6) h1 (by decide)
    obtain ⟨vs, hv⟩ := h1
    have hpart := row_part hv (i := 1) (by decide) (by decide)
    subst h0
    refine .inl ⟨.write 0 [.at 1] [2] 60, ?_, ⟨_, hpart, (by decide : InBox [0] [3] [2])⟩, exprFits_of hv trivial, trivial, fun o A' hs => ?_, fun A' hs => ?_⟩
    · simp only [HCmd.cmd, PCmd.eval, hp, Option.map_some, PCmd.cmd]
    · refine heldInv_cmd h (by decide) (by decide) ?_ (fun _ e => e) (fun _ e => e) (fun ht => ?_)
      · funext r
        rcases r with _ | _ | _ | _ | _ | r <;> rfl
      · simp only [AState.step, Option.bind_eq_some_iff, Option.map_eq_some_iff, Prod.mk.injEq] at hs
        obtain ⟨p, _, A1, e1, _, rfl⟩ := hs
        exact twoByThree_put ht e1
    · obtain ⟨p, junk, _, e1⟩ := hs
      exact heldInv_stop h (by decide) (by decide) (fun ht => twoByThree_put ht e1)
  | 7, hc =>
    cases hc; obtain ⟨h0, _, h1, h2⟩ := h (by decide)
    obtain ⟨vs, hv⟩ := h1 (by decide)
    have hp := path_held0 (A := A) (n := 7) (by decide)
    subst h0
    refine .inl ⟨.traverse 0 heldView, ?_, ⟨_, ⟨_, hv, demoView_legal vs, rfl⟩⟩, exprFits_of hv (demoPath_fits vs), trivial, fun o A' hs => ?_, fun A' hs => by cases hs⟩
    · simp only [HCmd.cmd, PCmd.eval, hp, Option.map_some, PCmd.cmd]
    · refine heldInv_cmd h (by decide) (by decide) ?_ (fun _ e => e) (fun _ e => e) (fun ht => ?_)
      · funext r
        rcases r with _ | _ | _ | _ | _ | r <;> rfl
      · simp only [AState.step, Option.bind_eq_some_iff, Option.map_eq_some_iff, Prod.mk.injEq] at hs
        obtain ⟨p, _, A1, e1, _, rfl⟩ := hs
        exact ht
  | 8, hc =>
    cases hc; obtain ⟨h0, _, h1, h2⟩ := h (by decide)
    obtain ⟨vs, hv⟩ := h1 (by decide)
    have hp := path_held0 (A := A) (n := 8) (by decide)
    subst h0
    refine .inl ⟨.forEach 0 heldView (· + 1), ?_, ⟨_, ⟨_, hv, demoView_legal vs, rfl⟩⟩, exprFits_of hv (demoPath_fits vs), trivial, fun o A' hs => ?_, fun A' hs => ?_⟩
    · simp only [HCmd.cmd, PCmd.eval, hp, Option.map_some, PCmd.cmd]
    · refine heldInv_cmd h (by decide) (by decide) ?_ (fun _ e => e) (fun _ e => e) (fun ht => ?_)
      · funext r
        rcases r with _ | _ | _ | _ | _ | r <;> rfl
      · simp only [AState.step, Option.bind_eq_some_iff, Option.map_eq_some_iff, Prod.mk.injEq] at hs
        obtain ⟨p, _, A1, e1, _, rfl⟩ := hs
        exact twoByThree_map ht e1
    · obtain ⟨p, _, done, k, rest, A1, junk, _, e1, e2⟩ := hs
      exact heldInv_stop h (by decide) (by decide) (fun ht => twoByThree_put (twoByThree_map ht e1) e2)
  | 9, hc =>
    cases hc; obtain ⟨h0, _, h1, _⟩ := h (by decide)
    have h1 := h1 (by decide)
    have hp := path_deref1 (n := 9) h1 (by decide)
    obtain ⟨vs, hv⟩ := h1
    refine .inr ⟨.unit, ?_, heldInv_reg h (by decide), fun _ e => by rw [h0, hp] at e; cases e; exact exprFits_of hv trivial⟩
    subst h0
    simp only [AState.regStep]
    rw [range_of (h := (0, [.at 1])) (n := 3) hp (row_part hv (i := 1) (by decide) (by decide)) rfl, Option.map_some,
      setReg_eq (n := 9) rfl (fun r hr => by rcases r with _ | _ | _ | _ | _ | r <;> first | rfl | exact absurd rfl hr)]
  | 10, hc =>
    cases hc; obtain ⟨h0, _, h1, _⟩ := h (by decide)
    obtain ⟨vs, h1⟩ := h1 (by decide)
    refine .inr ⟨.unit, ?_, heldInv_reg h (by decide), trivial⟩
    subst h0
    have e1 : ARegs.iter (heldRegs 10) 2 = some ⟨0, [.at 1], true, 3⟩ := rfl
    have e2 : A.move? ⟨0, [.at 1], true, 3⟩ (-1) = some ⟨0, [.at 1], true, 2⟩ := by
      unfold AState.move?
      rw [length_some (q := _) (e := 3) (es := []) (row_part h1 (i := 1) (by decide) (by decide)) rfl]
      rfl
    simp only [AState.regStep, e1, Option.bind_some, e2, Option.map_some]
    rw [setReg_eq (n := 10) rfl (fun r hr => by rcases r with _ | _ | _ | _ | _ | r <;> first | rfl | exact absurd rfl hr)]
  | 11, hc =>
    cases hc; obtain ⟨h0, _, h1, h2⟩ := h (by decide)
    have h1 := h1 (by decide)
    have hp := path_deref2 (n := 11) h1 (by decide)
    obtain ⟨vs, hv⟩ := h1
    subst h0
    refine .inl ⟨.traverse 0 [.at 1, .at 0], ?_, ⟨_, elem_part hv⟩, exprFits_of hv trivial, trivial, fun o A' hs => ?_, fun A' hs => by cases hs⟩
    · simp only [HCmd.cmd, PCmd.eval, hp, Option.map_some, PCmd.cmd]
    · refine heldInv_cmd h (by decide) (by decide) ?_ (fun _ e => e) (fun _ e => e) (fun ht => ?_)
      · funext r
        rcases r with _ | _ | _ | _ | _ | r <;> rfl
      · simp only [AState.step, Option.bind_eq_some_iff, Option.map_eq_some_iff, Prod.mk.injEq] at hs
        obtain ⟨p, _, A1, e1, _, rfl⟩ := hs
        exact ht
  | 12, hc =>
    cases hc; obtain ⟨h0, _, h1, _⟩ := h (by decide)
    obtain ⟨vs, h1⟩ := h1 (by decide)
    refine .inr ⟨.unit, ?_, heldInv_reg h (by decide), fun _ e => by cases e; exact exprFits_of h1 trivial⟩
    subst h0
    simp only [AState.regStep]
    rw [range_of (h := (0, [])) (n := 2) rfl (whole_part h1) rfl, Option.map_some,
      setReg_eq (n := 12) rfl (fun r hr => by rcases r with _ | _ | _ | _ | _ | r <;> first | rfl | exact absurd rfl hr)]
  | 13, hc =>
    cases hc; obtain ⟨h0, _, h1, _⟩ := h (by decide)
    refine .inr ⟨.int 1, ?_, heldInv_reg h (by decide), trivial⟩
    subst h0
    have e1 : ARegs.two (heldRegs 13) 3 1 = some (⟨0, [], false, 2⟩, ⟨0, [], false, 1⟩) := by
      unfold ARegs.two
      simp [ARegs.iter, heldRegs]
    simp only [AState.regStep, e1, Option.map_some, Option.some.injEq, Prod.mk.injEq]
    refine ⟨by decide, ?_⟩
    funext r
    rcases r with _ | _ | _ | _ | _ | r <;> rfl
  | 14, hc =>
    cases hc; obtain ⟨h0, _, h1, h2⟩ := h (by decide)
    have h1 := h1 (by decide)
    have hp := path_index1 (n := 14) h1 (by decide)
    obtain ⟨vs, hv⟩ := h1
    subst h0
    refine .inl ⟨.traverse 0 [.at 0], ?_, ⟨_, row_part hv (i := 0) (by decide) (by decide)⟩, exprFits_of hv trivial, trivial, fun o A' hs => ?_, fun A' hs => by cases hs⟩
    · simp only [HCmd.cmd, PCmd.eval, hp, Option.map_some, PCmd.cmd]
    · refine heldInv_cmd h (by decide) (by decide) ?_ (fun _ e => e) (fun _ e => e) (fun ht => ?_)
      · funext r
        rcases r with _ | _ | _ | _ | _ | r <;> rfl
      · simp only [AState.step, Option.bind_eq_some_iff, Option.map_eq_some_iff, Prod.mk.injEq] at hs
        obtain ⟨p, _, A1, e1, _, rfl⟩ := hs
        exact ht
  | 15, hc =>
    cases hc; obtain ⟨h0, _, h1, _⟩ := h (by decide)
    obtain ⟨vs, hv⟩ := h1 (by decide)
    have hp := path_held0 (A := A) (n := 15) (by decide)
    refine .inr ⟨.unit, ?_, heldInv_reg h (by decide), fun _ e => by rw [h0, hp] at e; cases e; exact exprFits_of hv (demoPath_fits vs)⟩
    subst h0
    simp only [AState.regStep]
    rw [range_of (h := (0, heldView)) (n := 3) hp ⟨_, hv, demoView_legal vs, rfl⟩ rfl, Option.map_some,
      setReg_eq (n := 15) rfl (fun r hr => by rcases r with _ | _ | _ | _ | _ | r <;> first | rfl | exact absurd rfl hr)]
  | 16, hc =>
    cases hc; obtain ⟨h0, _, h1, h2⟩ := h (by decide)
    have h1 := h1 (by decide)
    have hp := path_deref4 (n := 16) h1 (by decide)
    obtain ⟨vs, hv⟩ := h1
    subst h0
    refine .inl ⟨.traverse 0 (heldView ++ [.at 5]), ?_, ⟨_, view_elem_part hv⟩, exprFits_of hv (demoPath_fits vs), trivial, fun o A' hs => ?_, fun A' hs => by cases hs⟩
    · simp only [HCmd.cmd, PCmd.eval, hp, Option.map_some, PCmd.cmd]
    · refine heldInv_cmd h (by decide) (by decide) ?_ (fun _ e => e) (fun _ e => e) (fun ht => ?_)
      · funext r
        rcases r with _ | _ | _ | _ | _ | r <;> rfl
      · simp only [AState.step, Option.bind_eq_some_iff, Option.map_eq_some_iff, Prod.mk.injEq] at hs
        obtain ⟨p, _, A1, e1, _, rfl⟩ := hs
        exact ht
  | 17, hc =>
    cases hc; obtain ⟨h0, _, h1, h2⟩ := h (by decide)
    obtain ⟨vs, h1⟩ := h1 (by decide)
    refine .inl ⟨_, rfl, ⟨_, h1⟩, trivial, trivial, fun o A' hs => fun e => absurd e (by decide), fun A' hs => by cases hs⟩
  | n + 18, hc => cases hc

theorem heldClient_inv {eq lt : Nat → Nat → Bool} {tr : HTrace Nat} {A : AState Nat} {ρ : ARegs} (h : heldClient.Reaches 0 eq lt tr A ρ) :
    heldInv (hCompleted tr) A ρ := by
  induction h with
  | start => exact fun _ => ⟨by funext r; rcases r with _ | _ | _ | _ | _ | r <;> rfl, fun _ => rfl, fun e => absurd e (by decide), fun _ => rfl⟩
  | done _ hc he hs ih =>
    rw [hCompleted_snoc]
    rcases heldInv_step (eq := eq) (lt := lt) ih hc with ⟨c', h1, _, _, _, h2, _⟩ | ⟨o, h1, _⟩
    · rw [h1] at he; cases he
      exact h2 _ _ hs
    · exact absurd h1 (by rw [regStep_none he]; simp)
  | threw _ hc he hs ih =>
    rw [hCompleted_snoc]
    rcases heldInv_step (eq := eq) (lt := lt) ih hc with ⟨c', h1, _, _, _, _, h2⟩ | ⟨o, h1, _⟩
    · rw [h1] at he; cases he
      exact h2 _ hs
    · exact absurd h1 (by rw [regStep_none he]; simp)
  | reg _ hc hs ih =>
    rw [hCompleted_snoc]
    rcases heldInv_step (eq := eq) (lt := lt) ih hc with ⟨c', h1, _⟩ | ⟨o, h1, h2, _⟩
    · exact absurd hs (by rw [regStep_none h1]; simp)
    · rw [h1] at hs; cases hs
      exact h2

/-- The client respects all preconditions whatever exceptions are thrown. -/
theorem heldClient_legal (eq lt : Nat → Nat → Bool) : heldClient.Legal 0 eq lt := by
  intro tr A ρ h hr hc
  rcases heldInv_step (eq := eq) (lt := lt) (heldClient_inv hr) hc with ⟨c', h1, h2, _⟩ | ⟨o, h1, _⟩
  · exact .inl ⟨c', h1, h2⟩
  · exact .inr ⟨_, h1⟩

/-- And it fits. -/
theorem heldClient_fits (eq lt : Nat → Nat → Bool) : heldClient.Fits 0 eq lt := by
  intro tr A ρ h hr hc
  rcases heldInv_step (eq := eq) (lt := lt) (heldClient_inv hr) hc with ⟨c', h1, _, h2, h3, _⟩ | ⟨o, h1, _, h2⟩
  · refine ⟨?_, fun c e => by rw [h1] at e; cases e; exact ⟨h2, h3⟩⟩
    cases h with
    | plain c => trivial
    | part c => trivial
    | _ => cases h1
  · refine ⟨h2, fun c e => absurd h1 (by rw [regStep_none e]; simp)⟩

example (sched : List (Option Nat)) (n : Nat) : ∃ r, heldClient.runM true 0 (fun a b => a == b) (fun a b => decide (a < b)) n [] (World.start sched) (fun _ => none) = some r := by
  obtain ⟨h1, r, h2⟩ := C99_held_client_on_machine true 0 (fun a b => a == b) (fun a b => decide (a < b)) heldClient (heldClient_legal _ _)
    (heldClient_fits _ _) sched n
  exact ⟨r, h1.trans h2⟩

/-- A run in which the copy construction throws after the view and the iterator were taken, and the element assignment through the iterator throws once: both
are retried, and the view and the iterators are still good. -/
example : (heldClient.run true 0 (fun a b => a == b) (fun a b => decide (a < b)) 30 []
      (World.start (List.replicate 13 none ++ [some 0] ++ List.replicate 13 none ++ [some 7])) (fun _ => none)).map (fun r => r.1.map (fun p => p.2)) =
    some [some (.cmd (.basic .unit)), some (.cmd (.basic .unit)), some .unit, some .unit, some .unit, none, some (.cmd (.basic .unit)), none,
      some (.cmd (.basic .unit)), some (.cmd (.values [60, 5, 4])), some (.cmd (.basic .unit)), some .unit, some .unit, some (.cmd (.values [5])), some .unit, some (.int 1),
      some (.cmd (.values [1, 2, 3])), some .unit, some (.cmd (.values [61])), some (.cmd (.basic .unit))] := by
  decide +kernel

/-- An iterator that is used after its array was resized: undefined behaviour. -/
example : HClient.run (T := Nat) true 0 (fun a b => a == b) (fun a b => decide (a < b))
      (fun tr => [.plain (.construct 0 (.extents 1 [2] (StorageOrder.cOrder 1) 0)), .begin 0 (.var 0 []), .plain (.on 0 (.resizeList [3])),
        .part (.read (.deref 0 []) [])][tr.length]?) 4 [] (World.start []) (fun _ => none) = none := by
  decide +kernel

end MultiArray.Props
