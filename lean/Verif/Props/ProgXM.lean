import Verif.Lemmas.ProgXM
import Verif.Props.ProgX
import Verif.Props.ProgM

/-
Property theorem C76: whole client programs on a 64-bit machine in which allocation, element construction and element assignment may throw at
any point, any number of times, and the client catches the exceptions and goes on.
-/
set_option autoImplicit false

namespace MultiArray.Props
open MultiArray Spec
variable {T : Type}

theorem fits_interrupted {A A' : AState T} {c : Cmd T} (h : A.Fits) (hs : A.Interrupted c A') : A'.Fits := by
  have hcopy : ∀ {x : Nat} {p : APart} {y : Nat} {q : APart}, A.CopyStopped x p y q A' → A'.Fits := by
    intro x p y q ⟨done, k, rest, A1, junk, _, h1, h2⟩
    exact fits_put (fits_copy h h1) h2
  have hmap : ∀ {x : Nat} {p : APart} {f : T → T}, A.MapStopped x p f A' → A'.Fits := by
    intro x p f ⟨done, k, rest, A1, junk, _, h1, h2⟩
    exact fits_put (fits_map h h1) h2
  cases c with
  | construct x i => cases hs; exact h
  | destroy x => exact hs.elim
  | on x op =>
    cases op with
    | resize rs => cases hs; exact h
    | resizeList es => cases hs; exact h
    | write idx v => obtain ⟨junk, h1⟩ := hs; exact fits_put h h1
    | writeChain idx v => obtain ⟨junk, h1⟩ := hs; exact fits_put h h1
    | assign input =>
      obtain ⟨a, k, junk, h1, _, _, rfl⟩ := hs
      exact fits_set h (fun b hb => by cases hb; exact fits_vals (h x a h1) _)
    | forEach f => obtain ⟨p, _, h1⟩ := hs; exact hmap h1
    | read idx => exact hs.elim
    | readChain idx => exact hs.elim
    | reindex bs => exact hs.elim
    | reindexAll b => exact hs.elim
    | reshape es => exact hs.elim
    | query => exact hs.elim
  | assign x y => obtain ⟨_, p, q, _, _, h1⟩ := hs; exact hcopy h1
  | assignPart x ss y ss' => obtain ⟨p, q, _, _, h1⟩ := hs; exact hcopy h1
  | copyArray x ss y ss' => obtain ⟨p, q, _, _, h1⟩ := hs; exact hcopy h1
  | write x ss idx v => obtain ⟨p, junk, _, h1⟩ := hs; exact fits_put h h1
  | forEach x ss f => obtain ⟨p, _, h1⟩ := hs; exact hmap h1
  | read x ss idx => exact hs.elim
  | traverse x ss => exact hs.elim
  | equal x ss y ss' => exact hs.elim
  | less x ss y ss' => exact hs.elim
  | shape x ss => exact hs.elim

/-- Every array that ever exists in a run of such a client fits. -/
theorem client_fits {dflt : T} {eq lt : T → T → Bool} {k : Client T} (hf : k.Fits dflt eq lt) {tr : Trace T} {A : AState T}
    (hr : k.Reaches dflt eq lt tr A) : A.Fits := by
  induction hr with
  | start => intro x a h; cases h
  | done h1 hc hs ih => exact C74_only_new_shapes dflt eq lt ih (hf _ _ _ h1 hc).2 hs
  | threw h1 hc hs ih => exact fits_interrupted ih hs

theorem client_runM (dbg : Bool) (dflt : T) (eq lt : T → T → Bool) (k : Client T) (hk : k.Legal dflt eq lt) (hf : k.Fits dflt eq lt) (n : Nat)
    {tr : Trace T} {L : List Nat} {w : World T} {A : AState T} (hr : k.Reaches dflt eq lt tr A) (h : InvX L w A) :
    k.runM dbg dflt eq lt n tr w = k.run dbg dflt eq lt n tr w := by
  induction n generalizing tr L w A with
  | zero => rfl
  | succ n ih =>
    cases hc : k tr with
    | none => simp only [Client.run, Client.runM, hc]
    | some c =>
      have h' := h
      obtain ⟨t, _, hrep⟩ := h'
      have hA := client_fits hf hr
      obtain ⟨hv, hn⟩ := hf tr A c hr hc
      have he := execXM_eq dbg dflt eq lt hrep hA c (hk tr A c hr hc) hv (fun o A' hs => C74_only_new_shapes dflt eq lt hA hn hs)
      rcases cmd_x dbg dflt eq lt h c (hk tr A c hr hc) with ⟨o, A1, w1, e1, e2, e3⟩ | ⟨w1, L1, A1, e1, e2, e3, e4⟩
      · simp only [Client.run, Client.runM, hc, he, e2]
        exact ih (hr.done hc e1) e3
      · simp only [Client.run, Client.runM, hc, he, e1]
        exact ih (hr.threw hc e2) e3

/-- A whole client program on the 64-bit machine, for any number `n` of commands and any exceptions `sched`.  If the client respects the
preconditions whatever happens, and only uses views and (tries to) create arrays that fit, then nothing overflows or wraps and no assertion fails,
in either build mode: the 64-bit library does exactly what the ideal one does, so that everything C71 says holds of it. -/
theorem C76_client_on_machine (dbg : Bool) (dflt : T) (eq lt : T → T → Bool) (k : Client T) (hk : k.Legal dflt eq lt) (hf : k.Fits dflt eq lt)
    (sched : List (Option T)) (n : Nat) :
    ∃ tr w A, k.runM dbg dflt eq lt n [] (World.start sched) = some (tr, w) ∧ k.run dbg dflt eq lt n [] (World.start sched) = some (tr, w) ∧
      k.Reaches dflt eq lt tr A ∧ A.Fits ∧
      (tr.length = n ∨ k tr = none) ∧ throws tr ≤ (sched.filter Option.isSome).length ∧
      (∀ x, w.objs x = none ↔ A x = none) ∧
      (∀ x a abs, w.objs x = some a → A x = some abs → Holds w.st a abs) ∧
      (∀ x y a b, w.objs x = some a → w.objs y = some b → x ≠ y → a.ref.data.blk ≠ b.ref.data.blk) ∧
      ∃ L : List Nat, L.length ≤ thrownAllocs tr ∧
        ∀ b, w.st.heap b ≠ none → b ∈ L ∨ ∃ x a, w.objs x = some a ∧ a.ref.data.blk = b := by
  have h0 : InvX [] (World.start sched : World T) (fun _ => none) :=
    ⟨(World.start [] : World T).st, ⟨rfl, rfl, fun _ h => (nomatch h), fun _ _ => rfl⟩, start_rep⟩
  obtain ⟨tr, w, A, e1, e2, e3⟩ := C71_client_under_exceptions dbg dflt eq lt k hk sched n
  exact ⟨tr, w, A, by rw [client_runM dbg dflt eq lt k hk hf n .start h0]; exact e1, e1, e2, client_fits hf e2, e3⟩

/-! ### A client that meets the hypotheses -/

theorem demoInv_fits {n : Nat} {A : AState Nat} (h : demoInv n A) {c : Cmd Nat} (hc : demoCmds[n]? = some c) : c.ViewsFit A ∧ NewFits 0 A c := by
  match n, hc with
  | 0, hc => cases hc; exact ⟨trivial, fun a h => by cases h; decide⟩
  | 1, hc => cases hc; exact ⟨trivial, trivial⟩
  | 2, hc => cases hc; exact ⟨trivial, trivial⟩
  | 3, hc =>
    cases hc; obtain ⟨a, vs, _, h2⟩ := h
    refine ⟨trivial, fun b hb => ?_⟩
    rw [h2] at hb
    cases hb
    exact C74_zero_based_fits [3, 2] _ _ (by decide)
  | 4, hc => cases hc; exact ⟨fun a _ => trivial, trivial⟩
  | 5, hc => cases hc; exact ⟨trivial, trivial⟩
  | 6, hc => cases hc; exact ⟨trivial, trivial⟩
  | n + 7, hc => cases hc

/-- The client of C71 fits whatever exceptions are thrown. -/
theorem demoClient_fits (eq lt : Nat → Nat → Bool) : demoClient.Fits 0 eq lt := fun _ _ _ hr hc => demoInv_fits (demoClient_inv hr) hc

example (sched : List (Option Nat)) (n : Nat) : ∃ r, demoClient.runM true 0 (fun a b => a == b) (fun a b => decide (a < b)) n [] (World.start sched) = some r := by
  obtain ⟨tr, w, _, h, _⟩ := C76_client_on_machine true 0 (fun a b => a == b) (fun a b => decide (a < b)) demoClient (demoClient_legal _ _)
    (demoClient_fits _ _) sched n
  exact ⟨_, h⟩

/-- The run of C71 with three exceptions, on the 64-bit library. -/
example : (demoClient.runM true 0 (fun a b => a == b) (fun a b => decide (a < b)) 20 []
      (World.start ([none, none, some 0] ++ List.replicate 13 none ++ [some 0] ++ List.replicate 21 none ++ [some 7]))).map
        (fun r => r.1.map (fun p => p.2)) =
    some [none, some (.basic .unit), some (.basic .unit), none, some (.basic .unit), none, some (.basic .unit), some (.values [1, 2, 4, 5, 0, 0]),
      some (.basic .unit), some (.basic .unit)] := by
  decide +kernel

end MultiArray.Props
