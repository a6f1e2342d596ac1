import Verif.Lemmas.ShareXM
import Verif.Props.ShareM

/-
Property theorem C80: programs with shared storage that catch exceptions and go on (C77), on a 64-bit machine.
-/
set_option autoImplicit false

namespace MultiArray.Props
open MultiArray Spec
variable {T : Type}

/-- A whole client program with shared storage on the 64-bit machine, for any number `n` of commands and any exceptions `sched`.  If the client respects the
preconditions whatever happens, and uses only views and (tries to) create only arrays that fit, then nothing overflows or wraps and no assertion fails, in either
build mode: the 64-bit library does exactly what the ideal one does, so that everything C77 says holds of it. -/
theorem C80_shared_client_on_machine (dbg : Bool) (dflt : T) (eq lt : T → T → Bool) (k : SClient T) (hk : k.Legal dflt eq lt) (hf : k.Fits dflt eq lt)
    (sched : List (Option T)) (n : Nat) :
    ∃ tr w A, k.runM dbg dflt eq lt n [] (SWorld.startX sched) = some (tr, w) ∧ k.run dbg dflt eq lt n [] (SWorld.startX sched) = some (tr, w) ∧
      k.Reaches dflt eq lt tr A ∧
      (tr.length = n ∨ k tr = none) ∧ sThrows tr ≤ (sched.filter Option.isSome).length ∧
      (∀ x, w.vars x = none ↔ A.vars x = none) ∧
      (∀ x ss p, A.Part x ss p → ∃ d, w.lookup dbg x ss = some d ∧ d.bases = p.bases ∧ d.extents = p.extents ∧
        ∀ idx, InBox p.bases p.extents idx → ∃ v, A.get p idx = some v ∧ readElem dbg d idx w.st = .ok v w.st) ∧
      ∃ L : List Nat, L.length ≤ sThrownAllocs tr ∧
        ∀ b, w.st.heap b ≠ none → b ∈ L ∨ ∃ x, (∃ a, w.vars x = some (.owner a) ∧ a.ref.data.blk = b) ∨ (∃ q n, w.vars x = some (.buffer q n) ∧ q.blk = b) := by
  have h0 : InvS [] (SWorld.startX sched : SWorld T) SState.start :=
    ⟨(SWorld.start : SWorld T).st, _, ⟨rfl, rfl, fun _ h => (nomatch h), fun _ _ => rfl⟩, share_start⟩
  obtain ⟨tr, w, A, e1, e2⟩ := C77_shared_client_under_exceptions dbg dflt eq lt k hk sched n
  refine ⟨tr, w, A, ?_, e1, e2⟩
  rw [sclient_runM dbg dflt eq lt k hk hf n .start h0 ⟨fun x h hx => ?_, fun x p hx => ?_⟩]
  · exact e1
  · rcases hx with hx | hx <;> cases hx
  · rcases hx with hx | ⟨o, hx⟩ <;> cases hx

/-! ### Clients that meet the hypotheses -/

theorem demoSInv_fits {n : Nat} {A : SState Nat} {σ : Nat → List Int} (h : demoSInv n A) {c : SCmd Nat} (hc : demoSCmds[n]? = some c) : A.CmdFits 0 σ c := by
  match n, hc with
  | 0, hc => cases hc; trivial
  | 1, hc => cases hc; show SArr.Fits _; decide
  | 2, hc => cases hc; exact ⟨fun y ss so al h => (by cases h), fun a h => (by cases h; decide)⟩
  | 3, hc =>
    cases hc; obtain ⟨i, j, h1, h2, h3, h4⟩ := h
    exact ⟨shareExpr_of h3 rfl trivial, shareExpr_of h1 rfl trivial⟩
  | 4, hc =>
    cases hc; obtain ⟨i, j, h1, h2, h3, h4⟩ := h
    intro hh hx
    rw [h3] at hx
    cases hx
    show SArr.Fits ⟨j, 0, _, _, _⟩
    exact (by decide : sizeBound [3, 2] + absDot [0, 0] (SArr.strides ⟨0, 0, [0, 0], [3, 2], StorageOrder.cOrder 2⟩) < 2 ^ 63 ∧ InsideIndex [0, 0] [3, 2])
  | 5, hc => cases hc; obtain ⟨hh, h1, h2⟩ := h; exact shareExpr_of h1 rfl trivial
  | 6, hc => cases hc; trivial
  | n + 7, hc => cases hc

/-- The client of C77 fits whatever exceptions are thrown. -/
theorem demoSClient_fits (eq lt : Nat → Nat → Bool) : demoSClient.Fits 0 eq lt :=
  fun _ _ _ _ hr hc => demoSInv_fits (demoSClient_inv (reachesS_reaches hr)) hc

/-- The run of C77 with three exceptions, on the 64-bit library. -/
example : (demoSClient.runM true 0 (fun a b => a == b) (fun a b => decide (a < b)) 20 []
      (SWorld.startX ([none, none, some 0] ++ List.replicate 7 none ++ [none, none, some 9] ++ List.replicate 6 none ++ [some 7]))).map
        (fun r => r.1.map (fun p => p.2)) =
    some [some (.basic .unit), some (.basic .unit), none, some (.basic .unit), none, some (.basic .unit), none, some (.basic .unit),
      some (.values [1, 2, 4, 5, 0, 0]), some (.basic .unit)] := by
  decide +kernel

/-- A second client: it holds a view with strides, reindexes it and writes through it, each command until it does not throw. -/
def viewSCmds : List (SCmd Nat) :=
  [.construct 0 (.extents 2 [2, 3] (StorageOrder.cOrder 2) 0),
   .hold 1 0 [] [.range (IndexRange.mk3 0 2 1), .range (IndexRange.mk3 0 3 2)],
   .reindex 1 [7, 7],
   .write 1 [] [8, 8] 99,
   .traverse 0 []]

def viewSClient : SClient Nat := fun tr => viewSCmds[sCompleted tr]?

/-- The state of the variables and the strides of the held view when `n` commands have completed. -/
def viewSInv (n : Nat) (A : SState Nat) (σ : Nat → List Int) : Prop :=
  match n with
  | 0 => A = SState.start
  | 1 => ∃ i, A.vars 0 = some (.owner (demoArr i)) ∧ A.stores i ≠ none ∧ A.vars 1 = none
  | 2 => ∃ i p, A.vars 0 = some (.owner (demoArr i)) ∧ A.stores i ≠ none ∧ A.vars 1 = some (.view p) ∧ p.store = i ∧ p.bases = [0, 0] ∧ p.extents = [2, 2] ∧ σ 1 = [3, 2]
  | 3 => ∃ i p, A.vars 0 = some (.owner (demoArr i)) ∧ A.stores i ≠ none ∧ A.vars 1 = some (.view p) ∧ p.store = i ∧ p.bases = [7, 7] ∧ p.extents = [2, 2] ∧ σ 1 = [3, 2]
  | 4 => ∃ i, A.vars 0 = some (.owner (demoArr i)) ∧ A.stores i ≠ none
  | _ => True

theorem demoArr_strides (i : Nat) : (demoArr i).strides = [3, 1] :=
  (by decide : SArr.strides ⟨0, 0, [0, 0], [2, 3], StorageOrder.cOrder 2⟩ = [3, 1])

theorem viewSInv_legal {n : Nat} {A : SState Nat} {σ : Nat → List Int} (h : viewSInv n A σ) {c : SCmd Nat} (hc : viewSCmds[n]? = some c) : A.Legal c := by
  match n, hc with
  | 0, hc => cases hc; cases h; exact ⟨rfl, cOrder_valid 2, rfl⟩
  | 1, hc => cases hc; obtain ⟨i, h1, h2, h3⟩ := h; exact ⟨h3, _, _, _, h1, rfl, h2, shareView_legal _ rfl rfl, rfl⟩
  | 2, hc => cases hc; obtain ⟨i, p, h1, h2, h3, h4, h5, h6, h7⟩ := h; exact .inr ⟨p, h3, by rw [h6]; rfl⟩
  | 3, hc =>
    cases hc; obtain ⟨i, p, h1, h2, h3, h4, h5, h6, h7⟩ := h
    refine ⟨_, ⟨_, _, h3, rfl, by rw [h4]; exact h2, trivial, rfl⟩, ?_⟩
    show InBox p.bases p.extents [8, 8]
    rw [h5, h6]; decide
  | 4, hc => cases hc; obtain ⟨i, h1, h2⟩ := h; exact ⟨_, _, _, h1, rfl, h2, trivial, rfl⟩
  | n + 5, hc => cases hc

theorem viewSInv_fits {n : Nat} {A : SState Nat} {σ : Nat → List Int} (h : viewSInv n A σ) {c : SCmd Nat} (hc : viewSCmds[n]? = some c) : A.CmdFits 0 σ c := by
  match n, hc with
  | 0, hc => cases hc; exact ⟨fun y ss so al h => (by cases h), fun a h => (by cases h; decide)⟩
  | 1, hc =>
    cases hc; obtain ⟨i, h1, h2, h3⟩ := h
    refine shareExpr_of h1 rfl ?_
    rw [show A.strides σ 0 = [3, 1] by simp only [SState.strides, h1]; exact demoArr_strides i]
    exact shareView_fits _ rfl rfl
  | 2, hc =>
    cases hc; obtain ⟨i, p, h1, h2, h3, h4, h5, h6, h7⟩ := h
    refine ⟨fun hh hx => ?_, fun q hq => ?_⟩
    · rcases hx with hx | hx <;> (rw [h3] at hx; cases hx)
    · rw [h3] at hq; cases hq
      rw [h6, h7]
      exact ⟨by decide, by decide⟩
  | 3, hc => cases hc; obtain ⟨i, p, h1, h2, h3, _⟩ := h; exact shareExpr_of h3 rfl trivial
  | 4, hc => cases hc; obtain ⟨i, h1, h2⟩ := h; exact shareExpr_of h1 rfl trivial
  | n + 5, hc => cases hc

theorem viewSInv_done {n : Nat} {A A' : SState Nat} {σ : Nat → List Int} {eq lt : Nat → Nat → Bool} (h : viewSInv n A σ) {c : SCmd Nat} {o : CObs Nat}
    (hc : viewSCmds[n]? = some c) (hs : A.step 0 eq lt c = some (o, A')) : viewSInv (n + 1) A' (A.stridesAfter σ c) := by
  match n, hc with
  | 0, hc => cases hc; cases h; cases hs; exact ⟨0, rfl, by simp [SState.addOwner, SState.addStore, SState.setVar, SState.start], rfl⟩
  | 1, hc =>
    cases hc; obtain ⟨i, h1, h2, h3⟩ := h
    simp only [SState.step, SState.part, h1, Option.bind_some, SVar.part, Option.map_some, Option.some.injEq, Prod.mk.injEq] at hs
    obtain ⟨_, rfl⟩ := hs
    refine ⟨i, _, by simp [SState.setVar, SState.invalidate, h1], h2, rfl, rfl, rfl, rfl, ?_⟩
    show pathStrides (A.strides σ 0) _ = _
    rw [show A.strides σ 0 = [3, 1] by simp only [SState.strides, h1]; exact demoArr_strides i]
    decide
  | 2, hc =>
    cases hc; obtain ⟨i, p, h1, h2, h3, h4, h5, h6, h7⟩ := h
    simp only [SState.step, h3, Option.some.injEq, Prod.mk.injEq] at hs
    obtain ⟨_, rfl⟩ := hs
    exact ⟨i, _, by simp [SState.setVar, SState.invalidate, h1], h2, rfl, h4, rfl, h6, h7⟩
  | 3, hc =>
    cases hc; obtain ⟨i, p, h1, h2, h3, h4, h5, h6, h7⟩ := h
    simp only [SState.step, Option.bind_eq_some_iff, Option.map_eq_some_iff, Prod.mk.injEq] at hs
    obtain ⟨q, _, A1, e, _, rfl⟩ := hs
    obtain ⟨f1, f2⟩ := put_vars e
    exact ⟨i, by rw [f1]; exact h1, f2 _ h2⟩
  | 4, hc => trivial
  | n + 5, hc => cases hc

theorem viewSInv_threw {n : Nat} {A A' : SState Nat} {σ : Nat → List Int} (h : viewSInv n A σ) {c : SCmd Nat} (hc : viewSCmds[n]? = some c) (hs : A.Interrupted c A') :
    viewSInv n A' σ := by
  match n, hc with
  | 0, hc => cases hc; cases hs; exact h
  | 1, hc => cases hc; cases hs
  | 2, hc => cases hc; cases hs
  | 3, hc =>
    cases hc; obtain ⟨i, p, h1, h2, h3, h4⟩ := h
    obtain ⟨q, junk, _, e⟩ := hs
    obtain ⟨f1, f2⟩ := put_vars e
    exact ⟨i, p, by rw [f1]; exact h1, f2 _ h2, by rw [f1]; exact h3, h4⟩
  | 4, hc => cases hc; cases hs
  | n + 5, hc => cases hc

/-- The strides a run carries along exist for every run. -/
theorem reaches_reachesS {dflt : T} {eq lt : T → T → Bool} {k : SClient T} {tr : STrace T} {A : SState T} (h : k.Reaches dflt eq lt tr A) :
    ∃ σ, k.ReachesS dflt eq lt tr A σ := by
  induction h with
  | start => exact ⟨_, .start⟩
  | done _ hc hs ih => obtain ⟨σ, ih⟩ := ih; exact ⟨_, ih.done hc hs⟩
  | threw _ hc hs ih => obtain ⟨σ, ih⟩ := ih; exact ⟨_, ih.threw hc hs⟩

theorem viewSClient_inv {eq lt : Nat → Nat → Bool} {tr : STrace Nat} {A : SState Nat} {σ : Nat → List Int} (h : viewSClient.ReachesS 0 eq lt tr A σ) :
    viewSInv (sCompleted tr) A σ := by
  induction h with
  | start => rfl
  | done _ hc hs ih => rw [sCompleted_snoc]; exact viewSInv_done ih hc hs
  | threw _ hc hs ih => rw [sCompleted_snoc]; exact viewSInv_threw ih hc hs

/-- The client with the held view respects the preconditions and fits, whatever exceptions are thrown. -/
theorem viewSClient_ok (eq lt : Nat → Nat → Bool) : viewSClient.Legal 0 eq lt ∧ viewSClient.Fits 0 eq lt :=
  ⟨fun _ _ _ hr hc => by obtain ⟨σ, hr⟩ := reaches_reachesS hr; exact viewSInv_legal (viewSClient_inv hr) hc,
   fun _ _ _ _ hr hc => viewSInv_fits (viewSClient_inv hr) hc⟩

example (sched : List (Option Nat)) (n : Nat) : ∃ r, viewSClient.runM true 0 (fun a b => a == b) (fun a b => decide (a < b)) n [] (SWorld.startX sched) = some r := by
  obtain ⟨tr, w, _, h, _⟩ := C80_shared_client_on_machine true 0 (fun a b => a == b) (fun a b => decide (a < b)) viewSClient (viewSClient_ok _ _).1
    (viewSClient_ok _ _).2 sched n
  exact ⟨_, h⟩

/-- A run in which the construction throws at once and the assignment through the reindexed view leaves some value and throws. -/
example : (viewSClient.runM true 0 (fun a b => a == b) (fun a b => decide (a < b)) 20 [] (SWorld.startX ([some 0] ++ List.replicate 7 none ++ [some 5]))).map
        (fun r => r.1.map (fun p => p.2)) =
    some [none, some (.basic .unit), some (.basic .unit), some (.basic .unit), none, some (.basic .unit), some (.values [0, 0, 0, 0, 0, 99])] := by
  decide +kernel

end MultiArray.Props
