import Verif.Lemmas.ShareM
import Verif.Props.ProgM

/-
Property theorems C79: programs with shared storage (C73) on a 64-bit machine.
-/
set_option autoImplicit false

namespace MultiArray.Props
open MultiArray Spec
variable {T : Type}

/-- A program whose commands are legal for the abstract machine (C73) and in which every array made, reshaped or reindexed, every reindexed
view and every view expression fits, runs on the 64-bit model of the library exactly as on the ideal one, in both build modes: no overflow, no wrap-around, no
exception, no failed assertion; every command returns what the abstract machine says, and at the end no storage has leaked. -/
theorem C79_shared_program (dbg : Bool) (dflt : T) (eq lt : T → T → Bool) (prog : List (SCmd T)) (hleg : SState.LegalRun dflt eq lt prog SState.start)
    (hfit : SState.FitRun dflt eq lt prog SState.start (fun _ => [])) :
    ∃ os A w, SState.run dflt eq lt prog SState.start = some (os, A) ∧ SWorld.execAllM dbg dflt eq lt prog SWorld.start = some (os, w) ∧
      SWorld.execAll dbg dflt eq lt prog SWorld.start = some (os, w) ∧
      (∀ x, w.vars x = none ↔ A.vars x = none) ∧
      (∀ b, w.st.heap b ≠ none → ∃ x, (∃ a, w.vars x = some (.owner a) ∧ a.ref.data.blk = b) ∨ (∃ q n, w.vars x = some (.buffer q n) ∧ q.blk = b)) ∧
      ((∀ x, A.vars x = none) → ∀ b, w.st.heap b = none) := by
  obtain ⟨os, A, w, e1, e2, e3⟩ := C73_program_refinement dbg dflt eq lt prog hleg
  refine ⟨os, A, w, e1, ?_, e2, e3⟩
  rw [share_execAllM dbg dflt eq lt prog share_start ⟨fun x h hx => ?_, fun x p hx => ?_⟩ hleg hfit]
  · exact e2
  · rcases hx with hx | hx <;> cases hx
  · rcases hx with hx | ⟨o, hx⟩ <;> cases hx

/-! ### A program that meets the hypotheses -/

instance (h : SArr) : Decidable h.Fits := inferInstanceAs (Decidable (_ ∧ _))

theorem shareFit_cons {dflt : T} {eq lt : T → T → Bool} {c : SCmd T} {cs : List (SCmd T)} {A A' : SState T} {σ : Nat → List Int} {o : CObs T}
    (h1 : A.CmdFits dflt σ c) (h2 : A.step dflt eq lt c = some (o, A')) (h3 : SState.FitRun dflt eq lt cs A' (A.stridesAfter σ c)) :
    SState.FitRun dflt eq lt (c :: cs) A σ := by
  refine ⟨h1, fun o' A'' h => ?_⟩
  rw [h2] at h
  cases h
  exact h3

theorem shareExpr_of {A : SState T} {σ : Nat → List Int} {x : Nat} {ss : List Sel} {v : SVar} {p : SPart} (h : A.vars x = some v) (hv : v.part = some p)
    (hp : p.whole.PathFits (A.strides σ x) ss) : A.ExprFits σ x ss := by
  intro v' p' h' hv'
  rw [h] at h'; cases h'
  rw [hv] at hv'; cases hv'
  exact hp

/-- The view the program holds. -/
theorem shareView_fits (p : APart) (hb : p.bases = [0, 0]) (he : p.extents = [2, 3]) :
    p.PathFits [3, 1] [.view [.range (IndexRange.mk3 0 2 1), .range (IndexRange.mk3 0 3 2)]] := by
  refine ⟨⟨?_, ?_⟩, trivial⟩
  · rw [hb, he]
    show RangesFit [0, 0] [2, 3] [3, 1] ([IndexArg.range (IndexRange.mk3 0 2 1), .range (IndexRange.mk3 0 3 2)].map IndexArg.toRange)
    simp only [List.map, IndexArg.toRange, RangesFit, RangeFits]
    decide
  · rw [hb]
    show absDot (startsOf ([IndexArg.range (IndexRange.mk3 0 2 1), .range (IndexRange.mk3 0 3 2)].map IndexArg.toRange) [0, 0]) [3, 1] < 2 ^ 63
    decide

/-- The program of C73 fits. -/
theorem shareProg_fits : SState.FitRun 0 (fun a b => a == b) (fun a b => decide (a < b)) shareProg SState.start (fun _ => []) := by
  unfold shareProg
  refine shareFit_cons trivial rfl ?_
  refine shareFit_cons (by show SArr.Fits _; decide) rfl ?_
  refine shareFit_cons (shareExpr_of rfl rfl (shareView_fits _ rfl rfl)) rfl ?_
  refine shareFit_cons ⟨fun h hx => ?_, fun p hx => by cases hx⟩ rfl ?_
  · rcases hx with hx | hx <;> cases hx
    decide
  refine shareFit_cons (fun h hx => ?_) rfl ?_
  · rcases hx with hx | hx <;> cases hx
    decide
  refine shareFit_cons (shareExpr_of rfl rfl trivial) rfl ?_
  refine shareFit_cons (shareExpr_of rfl rfl trivial) rfl ?_
  refine shareFit_cons (by show SArr.Fits _; decide) rfl ?_
  refine shareFit_cons (shareExpr_of rfl rfl trivial) rfl ?_
  refine shareFit_cons trivial rfl ?_
  refine shareFit_cons (shareExpr_of rfl rfl trivial) rfl ?_
  refine shareFit_cons ⟨fun y ss so al h => ?_, fun a h => ?_⟩ rfl ?_
  · cases h; exact shareExpr_of rfl rfl trivial
  · cases h; decide
  refine shareFit_cons ⟨fun h hx => ?_, fun p hx => ?_⟩ rfl ?_
  · rcases hx with hx | hx <;> cases hx
  · cases hx
    exact ⟨by show InsideIndex [7, 7] [2, 2]; decide, by show absDot [7, 7] [3, 2] + span [2, 2] [3, 2] < 2 ^ 63; decide⟩
  refine shareFit_cons (shareExpr_of rfl rfl trivial) rfl ?_
  refine shareFit_cons ⟨shareExpr_of rfl rfl trivial, shareExpr_of rfl rfl trivial⟩ rfl ?_
  refine shareFit_cons ⟨fun h hx => ?_, fun p hx => by cases hx⟩ rfl ?_
  · rcases hx with hx | hx <;> cases hx
    decide
  refine shareFit_cons trivial rfl ?_
  refine shareFit_cons trivial rfl ?_
  refine shareFit_cons trivial rfl ?_
  refine shareFit_cons trivial rfl ?_
  refine shareFit_cons trivial rfl ?_
  refine shareFit_cons trivial rfl trivial

/-- The 64-bit library's run of the program. -/
example : (SWorld.execAllM true 0 (fun a b => a == b) (fun a b => decide (a < b)) shareProg SWorld.start).map (fun r => r.1) =
    some [.basic .unit, .basic .unit, .basic .unit, .basic .unit, .basic .unit, .basic .unit, .basic (.value 99), .basic .unit, .basic (.value 99), .basic .unit,
      .values [14, 99], .basic .unit, .basic .unit, .values [13, 99], .bool true, .basic .unit, .basic .unit, .basic .unit, .basic .unit, .basic .unit, .basic .unit, .basic .unit] := by
  decide +kernel

/-- Why reindexed views must fit: a legal program - hold a view with stride 2 of an array of six elements, then `reindex` it to start at 2^62 - whose
64-bit run overflows (`2^62 * 2` is not an `index`), although all the view's indices are representable. -/
theorem C79_hazard_view_reindex : ∀ dbg : Bool,
    ((SWorld.execAllM dbg 0 (fun a b => a == b) (fun a b => decide (a < b)) [.construct 0 (.extents 1 [6] (StorageOrder.cOrder 1) 0),
      .hold 1 0 [] [.range (IndexRange.mk3 0 6 2)]] SWorld.start) : Option (List (CObs Nat) × SWorld Nat)).isSome = true ∧
    ((SWorld.execAllM dbg 0 (fun a b => a == b) (fun a b => decide (a < b)) [.construct 0 (.extents 1 [6] (StorageOrder.cOrder 1) 0),
      .hold 1 0 [] [.range (IndexRange.mk3 0 6 2)], .reindex 1 [2 ^ 62]] SWorld.start) : Option (List (CObs Nat) × SWorld Nat)).isNone = true ∧
    SState.LegalRun 0 (fun a b => a == b) (fun a b => decide (a < b)) [.construct 0 (.extents 1 [6] (StorageOrder.cOrder 1) 0),
      .hold 1 0 [] [.range (IndexRange.mk3 0 6 2)], .reindex 1 [2 ^ 62]] (SState.start : SState Nat) ∧ InsideIndex [2 ^ 62] [3] := by
  intro dbg
  refine ⟨by cases dbg <;> decide +kernel, by cases dbg <;> decide +kernel, ?_, by decide⟩
  refine shareRun_cons ⟨rfl, cOrder_valid 1, rfl⟩ rfl ?_
  refine shareRun_cons ⟨rfl, _, _, _, rfl, rfl, by simp [SState.setVar, SState.addOwner, SState.addStore, SArr.part, SState.start], ⟨⟨by simp, ?_, ?_, ?_, ?_⟩, trivial⟩, rfl⟩ rfl ?_
  · show LegalRanges [0] [6] ([IndexArg.range (IndexRange.mk3 0 6 2)].map IndexArg.toRange); decide
  · show NoOverrun [0] [6] ([IndexArg.range (IndexRange.mk3 0 6 2)].map IndexArg.toRange); decide
  · intro r hr; simp at hr; rcases hr with rfl | rfl <;> rfl
  · intro i hi; simp at hi
  exact ⟨.inr ⟨_, rfl, rfl⟩, fun o A' _ => trivial⟩

end MultiArray.Props
