import Verif.Lemmas.Life
import Verif.Props.Held

/-
Property theorems C100: subarrays and iterators point into the array or view object they were obtained from; programs that keep that object alive.
-/
set_option autoImplicit false

namespace MultiArray.Props
open MultiArray Spec
variable {T : Type}

theorem remaining_some {η : Homes} {h : HCmd T} {ρ : ARegs} {r : Nat} {a : Held (Nat × List Sel) ItPos} (hr : h.remaining η ρ r = some a) : ρ r = some a := by
  unfold HCmd.remaining at hr
  cases hm : h.homed η with
  | none => rw [hm] at hr; exact hr
  | some x =>
    rw [hm] at hr
    simp only [ARegs.without] at hr
    split at hr
    · cases hr
    · exact hr

theorem life_run (dbg : Bool) (dflt : T) (eq lt : T → T → Bool) (k : HClient T) (hk : k.LegalL dflt eq lt) (n : Nat) {tr : HTrace T}
    {L : List Nat} {w : World T} {A : AState T} {ρ : ARegs} {η : Homes} {pr : PRegs} {its : CRegs} (hr : k.ReachesL dflt eq lt tr A ρ η) (h : InvX L w A)
    (hreg : LInv dbg w A ρ η pr) (hits : RegInv dbg w A ρ its) (hL : L.length ≤ hThrownAllocs tr) {m : Nat} (hm : hThrows tr + due w.st ≤ m) :
    ∃ tr' L' w' A' ρ' η' pr' its', hThrows tr' + due w'.st ≤ m ∧ k.runL (fun w its h => w.execH dbg dflt eq lt its h) n tr w pr = some (tr', w', pr') ∧
      k.run dbg dflt eq lt n tr w its = some (tr', w', its') ∧ k.ReachesL dflt eq lt tr' A' ρ' η' ∧ InvX L' w' A' ∧
      LInv dbg w' A' ρ' η' pr' ∧ L'.length ≤ hThrownAllocs tr' ∧ (tr'.length = tr.length + n ∨ k tr' = none) := by
  induction n generalizing tr L w A ρ η pr its with
  | zero => exact ⟨tr, L, w, A, ρ, η, pr, its, hm, rfl, rfl, hr, h, hreg, hL, .inl rfl⟩
  | succ n ih =>
    cases hc : k tr with
    | none => exact ⟨tr, L, w, A, ρ, η, pr, its, hm, by simp only [HClient.runL, hc], by simp only [HClient.run, hc], hr, h, hreg, hL, .inr hc⟩
    | some c =>
      have len : ∀ {tr' : HTrace T} {x : HCmd T × Option (HObs T)}, (tr'.length = (tr ++ [x]).length + n ∨ k tr' = none) →
          tr'.length = tr.length + (n + 1) ∨ k tr' = none := by
        rintro tr' x (f | f)
        · exact .inl (by rw [f, List.length_append]; simp; omega)
        · exact .inr f
      have hleg := hk tr A ρ η c hr hc
      rcases held_step dbg dflt eq lt h hreg.regs (hleg.imp id (fun x => x.1)) with ⟨c', o, A1, w1, e1, el, e2, e3, e4, e5, e6, e7⟩ | ⟨c', w1, L1, A1, e1, el, e2, e3, e4, e5, e6, e7, e8⟩ | ⟨o, ρ1, its1, e1, e2, e3⟩
      · have hx : w.execH dbg dflt eq lt its c = .done (.cmd o) w1 its := by rw [cmd_exec dflt eq lt h hits e1 el, e3]; rfl
        obtain ⟨tr', L', w', A', ρ', η', pr', its', f0, f1, fr, f2, f3, f4, f5, f6⟩ := ih (hr.done hc e1 e2) e5 (hreg.done h e1 e7 (pr.now w) e6) (hits.done h e5 e7) (by rw [hThrownAllocs_snoc]; omega)
          (by have := fair_done dbg dflt eq lt e3; rw [hThrows_snoc]; simp; omega)
        exact ⟨tr', L', w', A', ρ', η', pr', its', f0, by simp only [HClient.runL, hc, e4, LRes.of]; exact f1, by simp only [HClient.run, hc, hx]; exact fr, f2, f3, f4, f5, len f6⟩
      · have ha := allocates_of_cmd e1
        have hx : w.execH dbg dflt eq lt its c = .threw w1 its := by rw [cmd_exec dflt eq lt h hits e1 el, e3]; rfl
        obtain ⟨tr', L', w', A', ρ', η', pr', its', f0, f1, fr, f2, f3, f4, f5, f6⟩ := ih (hr.threw hc e1 e2) e5 (hreg.threw (L' := L1) h e8 e7) (hits.threw h e5 e8)
          (by rw [hThrownAllocs_snoc, ha]; cases hca : c'.allocates <;> simp [hca] at e6 ⊢ <;> omega)
          (by have := fair_threw dbg dflt eq lt e3; rw [hThrows_snoc]; simp; omega)
        exact ⟨tr', L', w', A', ρ', η', pr', its', f0, by simp only [HClient.runL, hc, e4, LRes.of]; exact f1, by simp only [HClient.run, hc, hx]; exact fr, f2, f3, f4, f5, len f6⟩
      · have hh : c.Homed η := by
          rcases hleg with ⟨c', h1, _⟩ | h1
          · rw [regStep_none h1] at e1; cases e1
          · exact h1.2
        obtain ⟨its2, g1, g2⟩ := hreg.reg h e1 hh
        obtain ⟨its3, g3, g4⟩ := reg_exec h hits e1
        have hx : w.execH dbg dflt eq lt (pr.now w) c = .done o w its2 := by rw [(regStep_execH e1).1, g1]; rfl
        have hx' : w.execH dbg dflt eq lt its c = .done o w its3 := by rw [(regStep_execH e1).1, g3]; rfl
        obtain ⟨tr', L', w', A', ρ', η', pr', its', f0, f1, fr, f2, f3, f4, f5, f6⟩ := ih (hr.reg hc e1 hh) h g2 (fun r b hb => g4 r b (remaining_some hb)) (by rw [hThrownAllocs_snoc]; omega)
          (by rw [hThrows_snoc]; simp; omega)
        exact ⟨tr', L', w', A', ρ', η', pr', its', f0, by simp only [HClient.runL, hc, hx, LRes.of]; exact f1, by simp only [HClient.run, hc, hx']; exact fr, f2, f3, f4, f5, len f6⟩

/-- A whole client program whose held subarrays and iterators are pointers into the arrays of their parent objects, for any number `n` of commands and any
exceptions `sched`.  If the client respects the preconditions whatever happens and every subarray or iterator it keeps points into an array variable or into a view that
is itself held - never into a temporary view or into a register that was set anew -, there is no undefined behaviour and no failed assertion in either
build mode, everything returned and thrown is possible on the abstract machine, and at the end everything is as in C99. -/
theorem C100_lifetimes (dbg : Bool) (dflt : T) (eq lt : T → T → Bool) (k : HClient T) (hk : k.LegalL dflt eq lt) (sched : List (Option T)) (n : Nat) :
    ∃ tr w A ρ η pr, k.runL (fun w its h => w.execH dbg dflt eq lt its h) n [] (World.start sched) (fun _ => none) = some (tr, w, pr) ∧ k.ReachesL dflt eq lt tr A ρ η ∧
      (tr.length = n ∨ k tr = none) ∧ hThrows tr ≤ (sched.filter Option.isSome).length ∧
      (∀ x, w.objs x = none ↔ A x = none) ∧
      (∀ x a abs, w.objs x = some a → A x = some abs → Holds w.st a abs) ∧
      (∀ x y a b, w.objs x = some a → w.objs y = some b → x ≠ y → a.ref.data.blk ≠ b.ref.data.blk) ∧
      (∃ L : List Nat, L.length ≤ hThrownAllocs tr ∧ ∀ b, w.st.heap b ≠ none → b ∈ L ∨ ∃ x a, w.objs x = some a ∧ a.ref.data.blk = b) ∧
      (∀ r h, ρ r = some (.handle h) → ∃ d, pr.now w r = some (.handle d) ∧ w.lookup dbg h.1 h.2 = some d) ∧
      (∀ r p, ρ r = some (.it p) → ∃ d i, pr.now w r = some (.it i) ∧ w.lookup dbg p.var p.path = some d ∧ freshIt d p.rev p.i = some i) := by
  obtain ⟨tr, L, w, A, ρ, η, pr, its, e0, e1, _, e2, ⟨t, hc, hr⟩, e6, e4, e5⟩ :=
    life_run dbg dflt eq lt k hk n (its := fun _ => none) HClient.ReachesL.start (held_start sched) (pr := fun _ => none) ⟨fun _ _ h => (nomatch h), fun _ _ h => (nomatch h)⟩ (fun _ _ h => (nomatch h))
      (Nat.le_refl 0) (m := (sched.filter Option.isSome).length) (by show 0 + _ ≤ _; rw [Nat.zero_add]; exact Nat.le_refl _)
  refine ⟨tr, w, A, ρ, η, pr, e1, e2, ?_, by omega, ?_, ?_, ?_, ⟨L, e4, ?_⟩, regOk_fresh e6.regs⟩
  · simpa using e5
  · intro x
    refine ⟨hr.dead x, fun hA => ?_⟩
    cases hx : w.objs x with
    | none => rfl
    | some a =>
      obtain ⟨abs, h1, _⟩ := hr.live x a hx
      rw [hA] at h1; cases h1
  · intro x a abs hx hA
    obtain ⟨abs', h1, h2⟩ := hr.live x a hx
    rw [hA] at h1; cases h1
    exact ⟨hc.owns h2.owns, h2.bases, h2.extents, h2.order⟩
  · intro x y a b hx hy hne
    exact fun he => hne (hr.valid.distinct x y a b hx hy he)
  · intro b hb
    by_cases hbL : b ∈ L
    · exact .inl hbL
    · right
      exact hr.noLeak b (by show t.heap b ≠ none; rw [hc.same b hbL]; exact hb)

/-- For such a client pointers and copies are the same: the run in which subarrays and iterators point into their parents, and the run in which they carry
copies of the arrays (C99, and the rest of this model), do the same at every step: same observations, same exceptions, same arrays and same memory. -/
theorem C100_pointers_are_copies (dbg : Bool) (dflt : T) (eq lt : T → T → Bool) (k : HClient T) (hk : k.LegalL dflt eq lt) (sched : List (Option T)) (n : Nat) :
    ∃ tr w pr its, k.runL (fun w its h => w.execH dbg dflt eq lt its h) n [] (World.start sched) (fun _ => none) = some (tr, w, pr) ∧
      k.run dbg dflt eq lt n [] (World.start sched) (fun _ => none) = some (tr, w, its) := by
  obtain ⟨tr, L, w, A, ρ, η, pr, its, e0, e1, e2, _⟩ :=
    life_run dbg dflt eq lt k hk n (its := fun _ => none) HClient.ReachesL.start (held_start sched) (pr := fun _ => none) ⟨fun _ _ h => (nomatch h), fun _ _ h => (nomatch h)⟩ (fun _ _ h => (nomatch h))
      (Nat.le_refl 0) (m := (sched.filter Option.isSome).length) (by show 0 + _ ≤ _; rw [Nat.zero_add]; exact Nat.le_refl _)
  exact ⟨tr, w, pr, its, e1, e2⟩

/-! ### On a 64-bit machine -/

theorem life_fits {dflt : T} {eq lt : T → T → Bool} {k : HClient T} (hf : k.FitsL dflt eq lt) {tr : HTrace T} {A : AState T} {ρ : ARegs} {η : Homes}
    (hr : k.ReachesL dflt eq lt tr A ρ η) : A.Fits := by
  induction hr with
  | start => intro x a h; cases h
  | done h1 hc he hs ih => exact C74_only_new_shapes dflt eq lt ih ((hf _ _ _ _ _ h1 hc).2 _ he).2 hs
  | threw h1 hc he hs ih => exact fits_interrupted ih hs
  | reg h1 hc hs hh ih => exact ih

theorem life_runM (dbg : Bool) (dflt : T) (eq lt : T → T → Bool) (k : HClient T) (hk : k.LegalL dflt eq lt) (hf : k.FitsL dflt eq lt) (n : Nat)
    {tr : HTrace T} {L : List Nat} {w : World T} {A : AState T} {ρ : ARegs} {η : Homes} {pr : PRegs} (hr : k.ReachesL dflt eq lt tr A ρ η) (h : InvX L w A)
    (hreg : LInv dbg w A ρ η pr) (hrf : RegFits A ρ) :
    k.runL (fun w its h => w.execHM dbg dflt eq lt its h) n tr w pr = k.runL (fun w its h => w.execH dbg dflt eq lt its h) n tr w pr := by
  induction n generalizing tr L w A ρ η pr with
  | zero => rfl
  | succ n ih =>
    cases hc : k tr with
    | none => simp only [HClient.runL, hc]
    | some c =>
      have hA := life_fits hf hr
      obtain ⟨hv, hn⟩ := hf tr A ρ η c hr hc
      have hleg := hk tr A ρ η c hr hc
      rcases held_step dbg dflt eq lt h hreg.regs (hleg.imp id (fun x => x.1)) with ⟨c', o, A1, w1, e1, el, e2, e3, e4, e5, e6, e7⟩ | ⟨c', w1, L1, A1, e1, el, e2, e3, e4, e5, e6, e7, e8⟩ | ⟨o, ρ1, its1, e1, e2, e3⟩
      · have he := cmd_execM dflt eq lt h hreg.regs hA hrf e1 el (hn c' e1).1 (hn c' e1).2
        simp only [HClient.runL, hc, he, e4, LRes.of]
        refine ih (hr.done hc e1 e2) e5 (hreg.done h e1 e7 (pr.now w) e6) ?_
        intro r hd hrr
        obtain ⟨h1, h2, h3⟩ := after_some hrr
        obtain ⟨cc, h4, h5⟩ := hreg.regs r hd h1
        obtain ⟨ss, p, hp⟩ := h5.part
        obtain ⟨a, ha⟩ := part_obj h hp
        obtain ⟨a', k1, _, k3⟩ := e7 _ a ha h2
        rw [k3 h3] at k1
        exact keep_fits h e5 ha k1 (hrf r hd h1)
      · have he := cmd_execM dflt eq lt h hreg.regs hA hrf e1 el (hn c' e1).1 (hn c' e1).2
        simp only [HClient.runL, hc, he, e4, LRes.of]
        refine ih (hr.threw hc e1 e2) e5 (hreg.threw (L' := L1) h e8 e7) ?_
        intro r hd h1
        obtain ⟨cc, h4, h5⟩ := hreg.regs r hd h1
        obtain ⟨ss, p, hp⟩ := h5.part
        obtain ⟨a, ha⟩ := part_obj h hp
        obtain ⟨a', k1, _, k3⟩ := e8 _ a ha
        rw [k3 trivial] at k1
        exact keep_fits h e5 ha k1 (hrf r hd h1)
      · have hh : c.Homed η := by
          rcases hleg with ⟨c', h1, _⟩ | h1
          · rw [regStep_none h1] at e1; cases e1
          · exact h1.2
        obtain ⟨k1, k2⟩ := reg_execM h hreg.regs hA hrf e1 hv
        obtain ⟨its2, g1, g2⟩ := hreg.reg h e1 hh
        obtain ⟨x1, x2⟩ := regStep_execH (dbg := dbg) (dflt := dflt) (eq := eq) (lt := lt) (w := w) (its := pr.now w) e1
        have he : w.execHM dbg dflt eq lt (pr.now w) c = w.execH dbg dflt eq lt (pr.now w) c := by rw [x1, x2, k1]
        have hx : w.execH dbg dflt eq lt (pr.now w) c = .done o w its2 := by rw [x1, g1]; rfl
        simp only [HClient.runL, hc, he, hx, LRes.of]
        exact ih (hr.reg hc e1 hh) h g2 (fun r b hb => k2 r b (remaining_some hb))

/-- The same on the 64-bit machine: if moreover the client only uses views and (tries to) create arrays that fit, the 64-bit library does exactly what the
ideal one does, so that everything `C100_lifetimes` says holds of it. -/
theorem C100_on_machine (dbg : Bool) (dflt : T) (eq lt : T → T → Bool) (k : HClient T) (hk : k.LegalL dflt eq lt) (hf : k.FitsL dflt eq lt)
    (sched : List (Option T)) (n : Nat) :
    k.runL (fun w its h => w.execHM dbg dflt eq lt its h) n [] (World.start sched) (fun _ => none) =
      k.runL (fun w its h => w.execH dbg dflt eq lt its h) n [] (World.start sched) (fun _ => none) ∧
    ∃ r, k.runL (fun w its h => w.execH dbg dflt eq lt its h) n [] (World.start sched) (fun _ => none) = some r := by
  obtain ⟨tr, w, A, ρ, η, pr, e1, _⟩ := C100_lifetimes dbg dflt eq lt k hk sched n
  exact ⟨life_runM dbg dflt eq lt k hk hf n .start (held_start sched) ⟨fun _ _ h => (nomatch h), fun _ _ h => (nomatch h)⟩ (fun _ _ h => (nomatch h)), _, e1⟩

/-! ### A client that meets the hypotheses -/

/-- The homes of the registers of the client of C99 when `n` commands have completed: the view is its own home, iterator 4 points into the view. -/
def heldHomes (n : Nat) : Homes := fun r =>
  match r with
  | 0 => if 3 ≤ n then .reg 0 else .gone
  | 1 => if n ≤ 3 then .gone else .var 0
  | 2 => if n ≤ 9 then .gone else .var 0
  | 3 => if n ≤ 12 then .gone else .var 0
  | 4 => if n ≤ 15 then .gone else .reg 0
  | _ => .gone

theorem homes_eq {n r : Nat} {c : HCmd Nat} {own : Bool} {g : Home} (hc : c.homed (heldHomes n) = some (r, own, g)) (h : heldHomes (n + 1) r = if own then .reg r else g)
    (h' : ∀ r', r' ≠ r → heldHomes (n + 1) r' = heldHomes n r') : c.homes (heldHomes n) = heldHomes (n + 1) := by
  unfold HCmd.homes
  rw [hc]
  funext r'
  simp only
  by_cases hr : r' = r
  · rw [if_pos hr, hr, h]
  · rw [if_neg hr, h' r' hr]

/-- Setting a register whose number is not a home leaves all registers valid. -/
theorem remaining_eq {η : Homes} {c : HCmd Nat} {r : Nat} {own : Bool} {g : Home} {ρ : ARegs} (hc : c.homed η = some (r, own, g)) (h : ∀ r', r' ≠ r → η r' ≠ .reg r) :
    c.remaining η ρ = ρ := by
  unfold HCmd.remaining
  rw [hc]
  funext r'
  simp only [ARegs.without]
  rw [if_neg (fun e => h r' e.1 e.2)]

/-- Every operation on registers of the program. -/
theorem life_reg {n : Nat} {c : HCmd Nat} (hc : heldCmds[n]? = some c) {A : AState Nat} {ρ : ARegs} {x : HObs Nat × ARegs} (hs : A.regStep ρ c = some x) :
    c.Homed (heldHomes n) ∧ c.homes (heldHomes n) = heldHomes (n + 1) ∧ ∀ ρ', c.remaining (heldHomes n) ρ' = ρ' := by
  match n, hc with
  | 2, hc =>
    cases hc
    exact ⟨.inl rfl, homes_eq (r := 0) (own := true) rfl rfl (fun r hr => by rcases r with _ | _ | _ | _ | _ | r <;> first | rfl | exact absurd rfl hr),
      fun ρ' => remaining_eq (r := 0) rfl (fun r hr => by rcases r with _ | _ | _ | _ | _ | r <;> first | exact absurd rfl hr | (intro e; cases e))⟩
  | 3, hc =>
    cases hc
    exact ⟨.inr ⟨by decide, by decide⟩, homes_eq (r := 1) (own := false) rfl rfl (fun r hr => by rcases r with _ | _ | _ | _ | _ | r <;> first | rfl | exact absurd rfl hr),
      fun ρ' => remaining_eq (r := 1) rfl (fun r hr => by rcases r with _ | _ | _ | _ | _ | r <;> first | exact absurd rfl hr | (intro e; cases e))⟩
  | 4, hc =>
    cases hc
    exact ⟨.inr ⟨by decide, by decide⟩, homes_eq (r := 1) (own := false) rfl rfl (fun r hr => by rcases r with _ | _ | _ | _ | _ | r <;> first | rfl | exact absurd rfl hr),
      fun ρ' => remaining_eq (r := 1) rfl (fun r hr => by rcases r with _ | _ | _ | _ | _ | r <;> first | exact absurd rfl hr | (intro e; cases e))⟩
  | 9, hc =>
    cases hc
    exact ⟨.inr ⟨by decide, by decide⟩, homes_eq (r := 2) (own := false) rfl rfl (fun r hr => by rcases r with _ | _ | _ | _ | _ | r <;> first | rfl | exact absurd rfl hr),
      fun ρ' => remaining_eq (r := 2) rfl (fun r hr => by rcases r with _ | _ | _ | _ | _ | r <;> first | exact absurd rfl hr | (intro e; cases e))⟩
  | 10, hc =>
    cases hc
    exact ⟨.inr ⟨by decide, by decide⟩, homes_eq (r := 2) (own := false) rfl rfl (fun r hr => by rcases r with _ | _ | _ | _ | _ | r <;> first | rfl | exact absurd rfl hr),
      fun ρ' => remaining_eq (r := 2) rfl (fun r hr => by rcases r with _ | _ | _ | _ | _ | r <;> first | exact absurd rfl hr | (intro e; cases e))⟩
  | 12, hc =>
    cases hc
    exact ⟨.inr ⟨by decide, by decide⟩, homes_eq (r := 3) (own := false) rfl rfl (fun r hr => by rcases r with _ | _ | _ | _ | _ | r <;> first | rfl | exact absurd rfl hr),
      fun ρ' => remaining_eq (r := 3) rfl (fun r hr => by rcases r with _ | _ | _ | _ | _ | r <;> first | exact absurd rfl hr | (intro e; cases e))⟩
  | 13, hc =>
    cases hc
    exact ⟨trivial, by funext r; rcases r with _ | _ | _ | _ | _ | r <;> rfl, fun ρ' => rfl⟩
  | 15, hc =>
    cases hc
    exact ⟨.inr ⟨by decide, by decide⟩, homes_eq (r := 4) (own := false) rfl rfl (fun r hr => by rcases r with _ | _ | _ | _ | _ | r <;> first | rfl | exact absurd rfl hr),
      fun ρ' => remaining_eq (r := 4) rfl (fun r hr => by rcases r with _ | _ | _ | _ | _ | r <;> first | exact absurd rfl hr | (intro e; cases e))⟩
  | 0, hc | 1, hc | 5, hc | 6, hc | 7, hc | 8, hc | 11, hc | 14, hc | 16, hc | 17, hc => cases hc; cases hs
  | n + 18, hc => cases hc

theorem heldHomes_cmd {n : Nat} {c : HCmd Nat} (hc : heldCmds[n]? = some c) {A : AState Nat} {ρ : ARegs} {c' : Cmd Nat} (h : c.cmd A ρ = some c') :
    heldHomes (n + 1) = heldHomes n := by
  match n, hc with
  | 0, hc | 1, hc | 5, hc | 6, hc | 7, hc | 8, hc | 11, hc | 14, hc | 16, hc | 17, hc =>
    funext r
    rcases r with _ | _ | _ | _ | _ | r <;> rfl
  | 2, hc | 3, hc | 4, hc | 9, hc | 10, hc | 12, hc | 13, hc | 15, hc => cases hc; cases h
  | n + 18, hc => cases hc

theorem lifeClient_inv {eq lt : Nat → Nat → Bool} {tr : HTrace Nat} {A : AState Nat} {ρ : ARegs} {η : Homes} (h : heldClient.ReachesL 0 eq lt tr A ρ η) :
    heldInv (hCompleted tr) A ρ ∧ η = heldHomes (hCompleted tr) := by
  induction h with
  | start => exact ⟨heldClient_inv (eq := eq) (lt := lt) .start, by funext r; rcases r with _ | _ | _ | _ | _ | r <;> rfl⟩
  | done _ hc he hs ih =>
    obtain ⟨ih, rfl⟩ := ih
    rw [hCompleted_snoc]
    rcases heldInv_step (eq := eq) (lt := lt) ih hc with ⟨c', h1, _, _, _, h2, _⟩ | ⟨o, h1, _⟩
    · rw [h1] at he; cases he
      exact ⟨h2 _ _ hs, (heldHomes_cmd hc h1).symm⟩
    · exact absurd h1 (by rw [regStep_none he]; simp)
  | threw _ hc he hs ih =>
    obtain ⟨ih, rfl⟩ := ih
    rw [hCompleted_snoc]
    rcases heldInv_step (eq := eq) (lt := lt) ih hc with ⟨c', h1, _, _, _, _, h2⟩ | ⟨o, h1, _⟩
    · rw [h1] at he; cases he
      exact ⟨h2 _ hs, rfl⟩
    · exact absurd h1 (by rw [regStep_none he]; simp)
  | reg _ hc hs hh ih =>
    obtain ⟨ih, rfl⟩ := ih
    rw [hCompleted_snoc]
    obtain ⟨k1, k2, k3⟩ := life_reg hc hs
    rcases heldInv_step (eq := eq) (lt := lt) ih hc with ⟨c', h1, _⟩ | ⟨o, h1, h2, _⟩
    · exact absurd hs (by rw [regStep_none h1]; simp)
    · rw [h1] at hs; cases hs
      exact ⟨by rw [k3]; exact h2, k2⟩

/-- The client of C99 keeps no dangling subarray or iterator, whatever exceptions are thrown. -/
theorem lifeClient_legal (eq lt : Nat → Nat → Bool) : heldClient.LegalL 0 eq lt := by
  intro tr A ρ η h hr hc
  obtain ⟨hi, rfl⟩ := lifeClient_inv hr
  rcases heldInv_step (eq := eq) (lt := lt) hi hc with ⟨c', h1, h2, _⟩ | ⟨o, h1, _⟩
  · exact .inl ⟨c', h1, h2⟩
  · exact .inr ⟨⟨_, h1⟩, (life_reg hc h1).1⟩

theorem lifeClient_fits (eq lt : Nat → Nat → Bool) : heldClient.FitsL 0 eq lt := by
  intro tr A ρ η h hr hc
  rcases heldInv_step (eq := eq) (lt := lt) (lifeClient_inv hr).1 hc with ⟨c', h1, _, h2, h3, _⟩ | ⟨o, h1, _, h2⟩
  · refine ⟨?_, fun c e => by rw [h1] at e; cases e; exact ⟨h2, h3⟩⟩
    cases h with
    | plain c => trivial
    | part c => trivial
    | _ => cases h1
  · refine ⟨h2, fun c e => absurd h1 (by rw [regStep_none e]; simp)⟩

example (sched : List (Option Nat)) (n : Nat) :
    ∃ r, heldClient.runL (fun w its h => w.execHM true 0 (fun a b => a == b) (fun a b => decide (a < b)) its h) n [] (World.start sched) (fun _ => none) = some r := by
  obtain ⟨h1, r, h2⟩ := C100_on_machine true 0 (fun a b => a == b) (fun a b => decide (a < b)) heldClient (lifeClient_legal _ _) (lifeClient_fits _ _) sched n
  exact ⟨r, h1.trans h2⟩

/-- The run of C99 with two exceptions, with registers that hold pointers. -/
example : (heldClient.runL (fun w its h => w.execH true 0 (fun a b => a == b) (fun a b => decide (a < b)) its h) 30 []
      (World.start (List.replicate 13 none ++ [some 0] ++ List.replicate 13 none ++ [some 7])) (fun _ => none)).map (fun r => r.1.map (fun p => p.2)) =
    some [some (.cmd (.basic .unit)), some (.cmd (.basic .unit)), some .unit, some .unit, some .unit, none, some (.cmd (.basic .unit)), none,
      some (.cmd (.basic .unit)), some (.cmd (.values [60, 5, 4])), some (.cmd (.basic .unit)), some .unit, some .unit, some (.cmd (.values [5])), some .unit, some (.int 1),
      some (.cmd (.values [1, 2, 3])), some .unit, some (.cmd (.values [61])), some (.cmd (.basic .unit))] := by
  decide +kernel

/-- A short program. -/
def runLife (cs : List (HCmd Nat)) : Option (List (Option (HObs Nat))) :=
  (HClient.runL (fun w its h => w.execH true 0 (fun a b => a == b) (fun a b => decide (a < b)) its h) (fun tr => cs[tr.length]?) cs.length [] (World.start []) (fun _ => none)).map
    (fun r => r.1.map (fun p => p.2))

/-- `auto it = a[indices[range()]].begin(); *it`: the temporary view is gone, and with it the arrays the iterator points to. -/
example : runLife [.plain (.construct 0 (.extents 1 [2] (StorageOrder.cOrder 1) 0)), .begin 0 (.var 0 [.view [.range IndexRange.all]]),
    .part (.read (.deref 0 []) [])] = none := by
  decide +kernel

/-- `auto v = a[indices[range()]]; auto it = v.begin(); *it`: the view is held. -/
example : runLife [.plain (.construct 0 (.extents 1 [2] (StorageOrder.cOrder 1) 0)), .hold 1 (.var 0 [.view [.range IndexRange.all]]), .begin 0 (.held 1 []),
    .part (.read (.deref 0 []) [])] = some [some (.cmd (.basic .unit)), some .unit, some .unit, some (.cmd (.basic (.value 0)))] := by
  decide +kernel

/-- A row of a temporary view: `auto row = a[indices[range()][range()]][0]; row(0)` is undefined, unlike `auto row = a[0]; row(0)`. -/
example : runLife [.plain (.construct 0 (.extents 2 [2, 2] (StorageOrder.cOrder 2) 0)), .hold 0 (.var 0 [.view [.range IndexRange.all, .range IndexRange.all], .at 0]),
      .part (.read (.held 0 []) [0])] = none ∧
    runLife [.plain (.construct 0 (.extents 2 [2, 2] (StorageOrder.cOrder 2) 0)), .hold 0 (.var 0 [.at 0]),
      .part (.read (.held 0 []) [0])] = some [some (.cmd (.basic .unit)), some .unit, some (.cmd (.basic (.value 0)))] := by
  constructor <;> decide +kernel

/-- An iterator into a held view is lost when its register is set anew. -/
example : runLife [.plain (.construct 0 (.extents 1 [2] (StorageOrder.cOrder 1) 0)), .hold 1 (.var 0 [.view [.range IndexRange.all]]), .begin 0 (.held 1 []),
    .hold 1 (.var 0 [.view [.range IndexRange.all]]), .part (.read (.deref 0 []) [])] = none := by
  decide +kernel

end MultiArray.Props
