import Verif.Lemmas.ProgStep
import Verif.Props.Hist

/-
Property theorem C67: whole programs.  A program over any number of arrays, subarrays and views (constructors, destruction,
assignment, copies, element access, iteration, comparison, reshape, resize, ...) computes what a machine computes that knows
only abstract arrays (SpecProg.lean): index bases, extents, and a sequence of values.
-/
set_option autoImplicit false

namespace MultiArray.Props
open MultiArray Spec
variable {T : Type}

/-- One command: it completes, returns what the abstract machine returns, and leaves a program state that represents the new
abstract state. -/
theorem C67_step_refines (dbg : Bool) (dflt : T) (eq lt : T → T → Bool) {w : World T} {A : AState T} (h : w.Rep A) (c : Cmd T)
    (hleg : c.Legal A) :
    ∃ o A' w', A.step dflt eq lt c = some (o, A') ∧ w.exec dbg dflt eq lt c = some (o, w') ∧ w'.Rep A' :=
  cmd_ok dbg dflt eq lt h c hleg

theorem execAll_refines (dbg : Bool) (dflt : T) (eq lt : T → T → Bool) (prog : List (Cmd T)) {w : World T} {A : AState T} (h : w.Rep A)
    (hleg : AState.LegalRun dflt eq lt prog A) :
    ∃ os A' w', AState.run dflt eq lt prog A = some (os, A') ∧ World.execAll dbg dflt eq lt prog w = some (os, w') ∧ w'.Rep A' := by
  induction prog generalizing w A with
  | nil => exact ⟨[], A, w, rfl, rfl, h⟩
  | cons c cs ih =>
    obtain ⟨o, A1, w1, e1, e2, e3⟩ := C67_step_refines dbg dflt eq lt h c hleg.1
    obtain ⟨os, A', w', f1, f2, f3⟩ := ih e3 (hleg.2 o A1 e1)
    exact ⟨o :: os, A', w', by simp [AState.run, e1, f1], by simp [World.execAll, e2, f2], f3⟩

/-- The abstract state in which no variable exists. -/
def noVars : AState T := fun _ => none

theorem start_rep : (World.start [] : World T).Rep noVars :=
  ⟨start_valid [], start_noLeak [], rfl, fun _ _ h => (nomatch h), fun _ _ => rfl⟩

/-- A whole program, from the start: if every command is legal for the abstract machine, then the library completes the program
(in both build modes), every command returns what the abstract machine says, and at the end every live variable holds the abstract
array, and all storage that has not been released belongs to a live variable. -/
theorem C67_program_refinement (dbg : Bool) (dflt : T) (eq lt : T → T → Bool) (prog : List (Cmd T))
    (hleg : AState.LegalRun dflt eq lt prog noVars) :
    ∃ os A w, AState.run dflt eq lt prog noVars = some (os, A) ∧ World.execAll dbg dflt eq lt prog (World.start []) = some (os, w) ∧
      (∀ x, w.objs x = none ↔ A x = none) ∧
      (∀ x a abs, w.objs x = some a → A x = some abs → Represents w.st a abs) ∧
      (∀ b, w.st.heap b ≠ none → ∃ x a, w.objs x = some a ∧ a.ref.data.blk = b) ∧
      ((∀ x, A x = none) → ∀ b, w.st.heap b = none) := by
  obtain ⟨os, A, w, e1, e2, e3⟩ := execAll_refines dbg dflt eq lt prog start_rep hleg
  have hiff : ∀ x, w.objs x = none ↔ A x = none := by
    intro x
    refine ⟨e3.dead x, fun hA => ?_⟩
    cases hx : w.objs x with
    | none => rfl
    | some a =>
      obtain ⟨abs, h1, _⟩ := e3.live x a hx
      rw [hA] at h1; cases h1
  refine ⟨os, A, w, e1, e2, hiff, ?_, e3.noLeak, ?_⟩
  · intro x a abs hx hA
    obtain ⟨abs', h1, h2⟩ := e3.live x a hx
    rw [hA] at h1; cases h1
    exact h2
  · intro hall b
    by_contra hb
    obtain ⟨x, a, hx, _⟩ := e3.noLeak b hb
    rw [(hiff x).mpr (hall x)] at hx
    cases hx

/-! ### A program that meets the hypotheses -/

/-- `multi_array<int,2> a(extents[2][3]); a.assign(1..6); multi_array<int,1> b(a[indices[1][range(2,-1,-1)]].reindex(5)) ; b[6] = 9;
a[0] = b; a[0] == b; a[0] < a[1]; traverse a; traverse the view again; destroy both`. -/
def demoProg : List (Cmd Nat) :=
  [.construct 0 (.extents 2 [2, 3] (StorageOrder.cOrder 2) 0),
   .on 0 (.assign [1, 2, 3, 4, 5, 6]),
   .construct 1 (.convert 0 [.viewFrom [.index 1, .range (IndexRange.mk3 2 (-1) (-1))] [5]] (StorageOrder.cOrder 1) 0),
   .write 1 [] [6] 9,
   .assignPart 0 [.at 0] 1 [],
   .equal 0 [.at 0] 1 [],
   .less 0 [.at 0] 0 [.at 1],
   .traverse 0 [],
   .traverse 0 [.viewFrom [.index 1, .range (IndexRange.mk3 2 (-1) (-1))] [5]],
   .destroy 1,
   .destroy 0]

theorem legalRun_cons {dflt : T} {eq lt : T → T → Bool} {c : Cmd T} {cs : List (Cmd T)} {A A' : AState T} {o : CObs T} (h1 : c.Legal A)
    (h2 : A.step dflt eq lt c = some (o, A')) (h3 : AState.LegalRun dflt eq lt cs A') : AState.LegalRun dflt eq lt (c :: cs) A := by
  refine ⟨h1, fun o' A'' h => ?_⟩
  rw [h2] at h
  cases h
  exact h3

theorem demoView_legal (vals : List Nat) :
    APart.LegalPath (AbsArr.whole ⟨[0, 0], [2, 3], StorageOrder.cOrder 2, vals⟩)
      [.viewFrom [.index 1, .range (IndexRange.mk3 2 (-1) (-1))] [5]] := by
  refine ⟨⟨⟨by simp, ?_, ?_, ?_, ?_⟩, ?_⟩, trivial⟩
  · show LegalRanges [0, 0] [2, 3] ([.index 1, .range (IndexRange.mk3 2 (-1) (-1))].map IndexArg.toRange); decide
  · show NoOverrun [0, 0] [2, 3] ([.index 1, .range (IndexRange.mk3 2 (-1) (-1))].map IndexArg.toRange); decide
  · intro r hr; simp at hr; rw [hr]; rfl
  · intro i hi; simp at hi; subst hi; decide
  · rfl

theorem demoProg_legal : AState.LegalRun 0 (fun a b => a == b) (fun a b => decide (a < b)) demoProg noVars := by
  unfold demoProg
  refine legalRun_cons ⟨rfl, cOrder_valid 2, rfl⟩ rfl ?_
  refine legalRun_cons ⟨_, rfl, trivial⟩ rfl ?_
  refine legalRun_cons ⟨rfl, _, ⟨_, rfl, demoView_legal _, rfl⟩, by decide, cOrder_valid 1⟩ rfl ?_
  refine legalRun_cons ⟨_, ⟨_, rfl, trivial, rfl⟩, by decide⟩ rfl ?_
  refine legalRun_cons ⟨_, _, ⟨_, rfl, ⟨⟨0, [0], 2, [3], rfl, rfl, by decide, by decide⟩, trivial⟩, rfl⟩, ⟨_, rfl, trivial, rfl⟩, rfl⟩ rfl ?_
  refine legalRun_cons ⟨_, _, ⟨_, rfl, ⟨⟨0, [0], 2, [3], rfl, rfl, by decide, by decide⟩, trivial⟩, rfl⟩, ⟨_, rfl, trivial, rfl⟩, rfl⟩ rfl ?_
  refine legalRun_cons ⟨_, _, ⟨_, rfl, ⟨⟨0, [0], 2, [3], rfl, rfl, by decide, by decide⟩, trivial⟩, rfl⟩,
    ⟨_, rfl, ⟨⟨0, [0], 2, [3], rfl, rfl, by decide, by decide⟩, trivial⟩, rfl⟩, rfl⟩ rfl ?_
  refine legalRun_cons ⟨_, ⟨_, rfl, trivial, rfl⟩⟩ rfl ?_
  refine legalRun_cons ⟨_, ⟨_, rfl, demoView_legal _, rfl⟩⟩ rfl ?_
  refine legalRun_cons ⟨_, rfl⟩ rfl ?_
  refine legalRun_cons ⟨_, rfl⟩ rfl trivial

/-- The library's run of the program. -/
example : (World.execAll true 0 (fun a b => a == b) (fun a b => decide (a < b)) demoProg (World.start [])).map (fun r => r.1) =
    some [.basic .unit, .basic .unit, .basic .unit, .basic .unit, .basic .unit, .bool true, .bool false,
      .values [6, 9, 4, 4, 5, 6], .values [6, 5, 4], .basic .unit, .basic .unit] := by
  decide +kernel

end MultiArray.Props
