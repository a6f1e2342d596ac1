import Verif.Lemmas.ShareElems

/-
Property theorems C73: programs with shared storage.  Arrays, `multi_array_ref`s over the client's own memory or over the storage of other arrays, and held views and
subarrays, used after later changes of the objects they came from, behave as the abstract machine of SpecShare.lean says, in which a variable
is only a place map into a storage.
-/
set_option autoImplicit false

namespace MultiArray.Props
open MultiArray Spec
variable {T : Type}

theorem shareAll_refines (dbg : Bool) (dflt : T) (eq lt : T → T → Bool) (prog : List (SCmd T)) {g : Ghost} {w : SWorld T} {A : SState T} (h : RepG g w A)
    (hleg : SState.LegalRun dflt eq lt prog A) :
    ∃ os A' w' g', SState.run dflt eq lt prog A = some (os, A') ∧ SWorld.execAll dbg dflt eq lt prog w = some (os, w') ∧ RepG g' w' A' := by
  induction prog generalizing g w A with
  | nil => exact ⟨[], A, w, g, rfl, rfl, h⟩
  | cons c cs ih =>
    obtain ⟨o, A1, w1, g1, e1, e2, e3⟩ := scmd_ok dbg dflt eq lt h c hleg.1
    obtain ⟨os, A', w', g', f1, f2, f3⟩ := ih e3 (hleg.2 o A1 e1)
    exact ⟨o :: os, A', w', g', by simp [SState.run, e1, f1], by simp [SWorld.execAll, e2, f2], f3⟩

theorem share_start : RepG ⟨fun _ => 0, fun _ => 0⟩ (SWorld.start : SWorld T) SState.start := by
  refine ⟨⟨⟨Nat.one_pos, fun _ _ => rfl⟩, rfl, ?_, ?_, ?_, fun _ _ => rfl, fun b hb => absurd rfl hb⟩, fun _ => trivial, fun _ _ _ h => h.elim, fun _ h => absurd rfl h⟩
  · intro i hi; exact absurd hi (Nat.not_lt_zero i)
  · intro i j hi; exact absurd hi (Nat.not_lt_zero i)
  · intro i hi; exact absurd hi (Nat.not_lt_zero i)

/-- A whole program, from the start: if every command is legal for the abstract machine, then the library completes the program (in both build modes), every
command returns what the abstract machine says, the same variables exist at the end, and all storage that has not been released belongs to a live `multi_array` or buffer
variable - none if there are no such variables. -/
theorem C73_program_refinement (dbg : Bool) (dflt : T) (eq lt : T → T → Bool) (prog : List (SCmd T))
    (hleg : SState.LegalRun dflt eq lt prog SState.start) :
    ∃ os A w, SState.run dflt eq lt prog SState.start = some (os, A) ∧ SWorld.execAll dbg dflt eq lt prog SWorld.start = some (os, w) ∧
      (∀ x, w.vars x = none ↔ A.vars x = none) ∧
      (∀ b, w.st.heap b ≠ none → ∃ x, (∃ a, w.vars x = some (.owner a) ∧ a.ref.data.blk = b) ∨ (∃ q n, w.vars x = some (.buffer q n) ∧ q.blk = b)) ∧
      ((∀ x, A.vars x = none) → ∀ b, w.st.heap b = none) := by
  obtain ⟨os, A, w, g, e1, e2, e3⟩ := shareAll_refines dbg dflt eq lt prog share_start hleg
  have hiff : ∀ x, w.vars x = none ↔ A.vars x = none := by
    intro x
    refine ⟨fun hw => ?_, e3.unset⟩
    have hv := e3.var x
    rw [hw] at hv
    cases hA : A.vars x with
    | none => rfl
    | some v => rw [hA] at hv; exact hv.elim
  have hleak : ∀ b, w.st.heap b ≠ none → ∃ x, (∃ a, w.vars x = some (.owner a) ∧ a.ref.data.blk = b) ∨ (∃ q n, w.vars x = some (.buffer q n) ∧ q.blk = b) := by
    intro b hb
    obtain ⟨i, hi, rfl⟩ := e3.mem.noLeak b hb
    have hne : A.stores i ≠ none := by
      intro hc
      rw [e3.mem.val i hi, hc] at hb
      exact hb rfl
    obtain ⟨x, hx⟩ := e3.owned i hne
    refine ⟨x, ?_⟩
    match hA : A.vars x with
    | some (.owner hh) =>
      rw [hA] at hx; cases hx
      obtain ⟨a, f1, f2, _⟩ := e3.owner hA
      exact .inl ⟨a, f1, by rw [f2.data]⟩
    | some (.buffer j) =>
      rw [hA] at hx; cases hx
      obtain ⟨q, n, f1, _, f2, _⟩ := e3.buffer hA
      exact .inr ⟨q, n, f1, by rw [f2]⟩
    | none | some (.ref _) | some (.view _) | some (.sub _ _) | some .stale => rw [hA] at hx; exact hx.elim
  refine ⟨os, A, w, e1, e2, hiff, hleak, ?_⟩
  intro hall b
  by_contra hb
  obtain ⟨x, ⟨a, hx, _⟩ | ⟨q, n, hx, _⟩⟩ := hleak b hb
  · rw [(hiff x).mpr (hall x)] at hx; cases hx
  · rw [(hiff x).mpr (hall x)] at hx; cases hx

/-! ### What the abstract machine says about sharing -/

/-- An element written through one handle is seen through every handle that has the same place of the same storage at the index asked
for, and nothing else changes. -/
theorem C73_write_visible {A A' : SState T} {p q : SPart} {idx idx' : List Int} {v : T} {vs : List T} (hp : A.stores p.store = some vs) (hb : p.place idx < vs.length)
    (h : A.put p idx v = some A') :
    A'.get q idx' = if q.store = p.store ∧ q.place idx' = p.place idx then some v else A.get q idx' := by
  simp only [SState.put, hp, Option.map_some, Option.some.injEq] at h
  subst h
  simp only [SState.get, SState.setStore]
  by_cases hs : q.store = p.store
  · simp only [hs, if_true, true_and, Option.bind_some, hp]
    by_cases hi : q.place idx' = p.place idx
    · rw [if_pos hi, hi, List.getElem?_set_self hb]
    · rw [if_neg hi, List.getElem?_set_ne (fun e => hi e.symm)]
  · simp [hs]

/-- The variable a command sets, changes or destroys. -/
def shareTarget : SCmd T → Option Nat
  | .buffer x _ | .construct x _ | .refTo x .. | .refGen x .. | .refCopy x _ | .hold x .. | .holdCopy x _ | .holdSub x .. | .destroy x | .reindex x _
  | .reshape x _ | .resize x _ => some x
  | _ => none

theorem copy_vars {p q : SPart} {ks : List (List Nat)} {A A' : SState T} (h : SState.copy p q ks A = some A') : A'.vars = A.vars := by
  induction ks generalizing A with
  | nil => simp only [SState.copy, Option.some.injEq] at h; rw [h]
  | cons k ks ih =>
    simp only [SState.copy, SState.put] at h
    cases h1 : A.get q (atPos q.bases k) with
    | none => rw [h1] at h; cases h
    | some v =>
      rw [h1, Option.bind_some] at h
      cases h2 : A.stores p.store with
      | none => rw [h2] at h; cases h
      | some vs =>
        rw [h2, Option.map_some, Option.bind_some] at h
        exact (ih h).trans rfl

theorem map_vars {p : SPart} {f : T → T} {ks : List (List Nat)} {A A' : SState T} (h : SState.map p f ks A = some A') : A'.vars = A.vars := by
  induction ks generalizing A with
  | nil => simp only [SState.map, Option.some.injEq] at h; rw [h]
  | cons k ks ih =>
    simp only [SState.map, SState.put] at h
    cases h1 : A.get p (atPos p.bases k) with
    | none => rw [h1] at h; cases h
    | some v =>
      rw [h1, Option.bind_some] at h
      cases h2 : A.stores p.store with
      | none => rw [h2] at h; cases h
      | some vs =>
        rw [h2, Option.map_some, Option.bind_some] at h
        exact (ih h).trans rfl

/-- How a command changes the variables: not at all, or as `setVar` on its target. -/
theorem step_vars {dflt : T} {eq lt : T → T → Bool} {A A' : SState T} {c : SCmd T} {o : CObs T} (h : A.step dflt eq lt c = some (o, A')) :
    A'.vars = A.vars ∨ ∃ x v, shareTarget c = some x ∧ A'.vars = (A.setVar x v).vars := by
  cases c with
  | buffer x vs => cases h; exact .inr ⟨x, _, rfl, rfl⟩
  | construct x i =>
    simp only [SState.step, Option.map_eq_some_iff, Prod.mk.injEq] at h
    obtain ⟨a, _, _, rfl⟩ := h
    exact .inr ⟨x, _, rfl, rfl⟩
  | refTo x y first n es so =>
    simp only [SState.step, Option.map_eq_some_iff, Prod.mk.injEq] at h
    obtain ⟨a, _, _, rfl⟩ := h
    exact .inr ⟨x, _, rfl, rfl⟩
  | refGen x y first n rs so =>
    simp only [SState.step, Option.map_eq_some_iff, Prod.mk.injEq] at h
    obtain ⟨a, _, _, rfl⟩ := h
    exact .inr ⟨x, _, rfl, rfl⟩
  | refCopy x y =>
    simp only [SState.step] at h
    split at h <;> first | (cases h; exact .inr ⟨x, _, rfl, rfl⟩) | cases h
  | hold x y ss xs =>
    simp only [SState.step, Option.map_eq_some_iff, Prod.mk.injEq] at h
    obtain ⟨a, _, _, rfl⟩ := h
    exact .inr ⟨x, _, rfl, rfl⟩
  | holdCopy x y =>
    simp only [SState.step] at h
    split at h <;> first | (cases h; exact .inr ⟨x, _, rfl, rfl⟩) | cases h
  | holdSub x y i =>
    simp only [SState.step, Option.map_eq_some_iff, Prod.mk.injEq] at h
    obtain ⟨a, _, _, rfl⟩ := h
    exact .inr ⟨x, _, rfl, rfl⟩
  | destroy x =>
    simp only [SState.step] at h
    split at h <;> (cases h; exact .inr ⟨x, _, rfl, rfl⟩)
  | reindex x bs =>
    simp only [SState.step] at h
    split at h <;> first | (cases h; exact .inr ⟨x, _, rfl, rfl⟩) | cases h
  | reshape x es =>
    simp only [SState.step] at h
    split at h <;> first | (cases h; exact .inr ⟨x, _, rfl, rfl⟩) | cases h
  | resize x rs =>
    simp only [SState.step] at h
    split at h
    · simp only [Option.map_eq_some_iff, Prod.mk.injEq] at h
      obtain ⟨a, _, _, rfl⟩ := h
      exact .inr ⟨x, _, rfl, rfl⟩
    · cases h
  | fill x input =>
    simp only [SState.step] at h
    split at h
    · simp only [Option.map_eq_some_iff, Prod.mk.injEq] at h
      obtain ⟨a, _, _, rfl⟩ := h
      exact .inl rfl
    · simp only [Option.map_eq_some_iff, Prod.mk.injEq] at h
      obtain ⟨a, _, _, rfl⟩ := h
      exact .inl rfl
    · cases h
  | assign x ss y ss' =>
    simp only [SState.step, Option.bind_eq_some_iff, Option.map_eq_some_iff, Prod.mk.injEq] at h
    obtain ⟨p, _, q, _, A1, h1, _, rfl⟩ := h
    exact .inl (copy_vars h1)
  | copyArray x ss y ss' =>
    simp only [SState.step, Option.bind_eq_some_iff, Option.map_eq_some_iff, Prod.mk.injEq] at h
    obtain ⟨p, _, q, _, A1, h1, _, rfl⟩ := h
    exact .inl (copy_vars h1)
  | read x ss idx =>
    simp only [SState.step, Option.bind_eq_some_iff, Option.map_eq_some_iff, Prod.mk.injEq] at h
    obtain ⟨p, _, v, _, _, rfl⟩ := h
    exact .inl rfl
  | write x ss idx v =>
    simp only [SState.step, SState.put, Option.bind_eq_some_iff, Option.map_eq_some_iff, Prod.mk.injEq] at h
    obtain ⟨p, _, A1, ⟨_, _, rfl⟩, _, rfl⟩ := h
    exact .inl rfl
  | forEach x ss f =>
    simp only [SState.step, Option.bind_eq_some_iff, Option.map_eq_some_iff, Prod.mk.injEq] at h
    obtain ⟨p, _, A1, h1, _, rfl⟩ := h
    exact .inl (map_vars h1)
  | traverse x ss =>
    simp only [SState.step, Option.bind_eq_some_iff, Option.map_eq_some_iff, Prod.mk.injEq] at h
    obtain ⟨p, _, v, _, _, rfl⟩ := h
    exact .inl rfl
  | equal x ss y ss' =>
    simp only [SState.step, Option.bind_eq_some_iff, Option.map_eq_some_iff, Prod.mk.injEq] at h
    obtain ⟨p, _, q, _, _, rfl⟩ := h
    exact .inl rfl
  | less x ss y ss' =>
    simp only [SState.step, Option.bind_eq_some_iff, Option.map_eq_some_iff, Prod.mk.injEq] at h
    obtain ⟨p, _, q, _, _, rfl⟩ := h
    exact .inl rfl
  | shape x ss =>
    simp only [SState.step, Option.map_eq_some_iff, Prod.mk.injEq] at h
    obtain ⟨p, _, _, rfl⟩ := h
    exact .inl rfl

/-- A held view and a `multi_array_ref` keep denoting the same places of the same storage, with the same index bases and extents, whatever is done through
other variables - also when the array they came from is reindexed, reshaped, resized or destroyed. -/
theorem C73_handles_keep {dflt : T} {eq lt : T → T → Bool} {A A' : SState T} {c : SCmd T} {o : CObs T} (h : A.step dflt eq lt c = some (o, A')) {x : Nat}
    (hx : shareTarget c ≠ some x) :
    (∀ p, A.vars x = some (.view p) → A'.vars x = some (.view p)) ∧ (∀ r, A.vars x = some (.ref r) → A'.vars x = some (.ref r)) := by
  rcases step_vars h with e | ⟨y, v, hy, e⟩
  · rw [e]; exact ⟨fun _ h => h, fun _ h => h⟩
  · have hne : ¬ x = y := fun e => hx (by rw [e]; exact hy)
    rw [e]
    constructor
    · intro p hp; simp only [SState.setVar, hne, if_false, hp, SState.invalidate]
    · intro p hp; simp only [SState.setVar, hne, if_false, hp, SState.invalidate]

/-! ### A program that meets the hypotheses -/

/-- `int m[] = {10,...,15}; multi_array_ref<int,2> a(m, extents[2][3]); auto v = a[indices[range(0,2)][range(0,3,2)]]; a.reindex(1,1); a.reshape(3,2); v[1][1] = 99; a(3,2);
multi_array_ref<int,2> f(a.data()+2, extents[2][2], fortran); f(1,1); auto s = a[3]; traverse s; multi_array<int,2> b(v); v.reindex(7,7); traverse v[8]; b == v;
a.reindex(0,0); destroy s, b, m; destroy v, f, a`. -/
def shareProg : List (SCmd Nat) :=
  [.buffer 0 [10, 11, 12, 13, 14, 15],
   .refTo 1 0 0 2 [2, 3] (StorageOrder.cOrder 2),
   .hold 2 1 [] [.range (IndexRange.mk3 0 2 1), .range (IndexRange.mk3 0 3 2)],
   .reindex 1 [1, 1],
   .reshape 1 [3, 2],
   .write 2 [] [1, 1] 99,
   .read 1 [] [3, 2],
   .refTo 3 1 2 2 [2, 2] (StorageOrder.fortranOrder 2),
   .read 3 [] [1, 1],
   .holdSub 4 1 3,
   .traverse 4 [],
   .construct 5 (.convert 2 [] (StorageOrder.cOrder 2) 0),
   .reindex 2 [7, 7],
   .traverse 2 [.at 8],
   .equal 5 [] 2 [],
   .reindex 1 [0, 0],
   .destroy 4,
   .destroy 5,
   .destroy 0,
   .destroy 2,
   .destroy 3,
   .destroy 1]

theorem shareRun_cons {dflt : T} {eq lt : T → T → Bool} {c : SCmd T} {cs : List (SCmd T)} {A A' : SState T} {o : CObs T} (h1 : A.Legal c)
    (h2 : A.step dflt eq lt c = some (o, A')) (h3 : SState.LegalRun dflt eq lt cs A') : SState.LegalRun dflt eq lt (c :: cs) A := by
  refine ⟨h1, fun o' A'' h => ?_⟩
  rw [h2] at h
  cases h
  exact h3

theorem shareView_legal (p : APart) (hb : p.bases = [0, 0]) (he : p.extents = [2, 3]) :
    p.LegalPath [.view [.range (IndexRange.mk3 0 2 1), .range (IndexRange.mk3 0 3 2)]] := by
  refine ⟨⟨by simp, ?_, ?_, ?_, ?_⟩, trivial⟩
  · rw [hb, he]; show LegalRanges [0, 0] [2, 3] ([IndexArg.range (IndexRange.mk3 0 2 1), .range (IndexRange.mk3 0 3 2)].map IndexArg.toRange); decide
  · rw [hb, he]; show NoOverrun [0, 0] [2, 3] ([IndexArg.range (IndexRange.mk3 0 2 1), .range (IndexRange.mk3 0 3 2)].map IndexArg.toRange); decide
  · intro r hr; simp at hr; rcases hr with rfl | rfl <;> rfl
  · intro i hi; simp at hi

theorem shareProg_legal : SState.LegalRun 0 (fun a b => a == b) (fun a b => decide (a < b)) shareProg SState.start := by
  unfold shareProg
  refine shareRun_cons rfl rfl ?_
  refine shareRun_cons ⟨rfl, cOrder_valid 2, rfl, 0, 0, _, rfl, rfl, by decide⟩ rfl ?_
  refine shareRun_cons ⟨rfl, _, _, _, rfl, rfl, by simp [SState.setVar, SState.addStore, SArr.part, SState.start], shareView_legal _ rfl rfl, rfl⟩ rfl ?_
  refine shareRun_cons (.inl ⟨_, .inr rfl, rfl⟩) rfl ?_
  refine shareRun_cons ⟨_, .inr rfl, rfl, rfl⟩ rfl ?_
  refine shareRun_cons ⟨_, ⟨_, _, rfl, rfl, nofun, trivial, rfl⟩, by decide⟩ rfl ?_
  refine shareRun_cons ⟨_, ⟨_, _, rfl, rfl, nofun, trivial, rfl⟩, by decide⟩ rfl ?_
  refine shareRun_cons ⟨rfl, fortranOrder_valid 2, rfl, 0, 0, _, rfl, rfl, by decide⟩ rfl ?_
  refine shareRun_cons ⟨_, ⟨_, _, rfl, rfl, nofun, trivial, rfl⟩, by decide⟩ rfl ?_
  refine shareRun_cons ⟨rfl, _, _, _, rfl, rfl, nofun, ⟨⟨1, [1], 3, [2], rfl, rfl, by decide, by decide⟩, trivial⟩, rfl⟩ rfl ?_
  refine shareRun_cons ⟨_, ⟨_, _, rfl, rfl, nofun, trivial, rfl⟩⟩ rfl ?_
  refine shareRun_cons ⟨rfl, _, ⟨_, _, rfl, rfl, nofun, trivial, rfl⟩, by decide, cOrder_valid 2⟩ rfl ?_
  refine shareRun_cons (.inr ⟨_, rfl, rfl⟩) rfl ?_
  refine shareRun_cons ⟨_, ⟨_, _, rfl, rfl, nofun, ⟨⟨7, [7], 2, [2], rfl, rfl, by decide, by decide⟩, trivial⟩, rfl⟩⟩ rfl ?_
  refine shareRun_cons ⟨_, _, ⟨_, _, rfl, rfl, nofun, trivial, rfl⟩, ⟨_, _, rfl, rfl, nofun, trivial, rfl⟩, rfl⟩ rfl ?_
  refine shareRun_cons (.inl ⟨_, .inr rfl, rfl⟩) rfl ?_
  refine shareRun_cons ⟨_, rfl⟩ rfl ?_
  refine shareRun_cons ⟨_, rfl⟩ rfl ?_
  refine shareRun_cons ⟨_, rfl⟩ rfl ?_
  refine shareRun_cons ⟨_, rfl⟩ rfl ?_
  refine shareRun_cons ⟨_, rfl⟩ rfl ?_
  refine shareRun_cons ⟨_, rfl⟩ rfl trivial

/-- The library's run of the program. -/
example : (SWorld.execAll true 0 (fun a b => a == b) (fun a b => decide (a < b)) shareProg SWorld.start).map (fun r => r.1) =
    some [.basic .unit, .basic .unit, .basic .unit, .basic .unit, .basic .unit, .basic .unit, .basic (.value 99), .basic .unit, .basic (.value 99), .basic .unit,
      .values [14, 99], .basic .unit, .basic .unit, .values [13, 99], .bool true, .basic .unit, .basic .unit, .basic .unit, .basic .unit, .basic .unit, .basic .unit, .basic .unit] := by
  decide +kernel

/-- Two handles on the same storage. -/
example : ∃ A' : SState Nat, (⟨fun i => if i = 0 then some [1, 2, 3] else none, 1, fun _ => none⟩ : SState Nat).put ⟨0, [0], [3], fun idx => (idx.headD 0).toNat⟩ [1] 9 = some A' ∧
    A'.get ⟨0, [5], [2], fun idx => (idx.headD 0 - 4).toNat⟩ [5] = some 9 := ⟨_, rfl, rfl⟩

/-- A held view survives `reshape` of the array. -/
example : shareTarget (SCmd.reshape 1 [3, 2] : SCmd Nat) ≠ some 2 := by decide

end MultiArray.Props
