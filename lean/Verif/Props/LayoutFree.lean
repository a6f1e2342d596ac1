import Verif.Lemmas.LayoutFree
import Verif.Props.Held

/-
Property theorems C102: storage orders (and allocators) cannot be observed by programs that do not ask about memory.
-/
set_option autoImplicit false

namespace MultiArray.Props
open MultiArray MultiArray.Spec
variable {T : Type}

/-- **C102.** If one of two clients that differ only in the storage orders and allocators they ask for respects the documented preconditions, so does the other. -/
theorem C102_same_preconditions {dflt : T} {eq lt : T → T → Bool} {k k' : HClient T} (ha : k.Alike k') (hk : k.Legal dflt eq lt) : k'.Legal dflt eq lt := by
  intro tr' A' ρ h' hr hc
  obtain ⟨tr, A, h1, h2, h3⟩ := ha.mirror hk hr
  rcases ha _ _ h2 with ⟨_, e⟩ | ⟨h, h'', e1, e2, e3⟩
  · rw [hc] at e; cases e
  · rw [hc] at e2; cases e2
    rcases hk _ _ _ _ h1 e1 with ⟨d, l1, l2⟩ | ⟨r, l⟩
    · obtain ⟨d', g1, g2⟩ := h3.cmd e3 l1
      exact .inl ⟨d', g1, h3.legal g2 l2⟩
    · have he := e3.reg l
      subst he
      exact .inr ⟨r, by rw [← h3.regStep]; exact l⟩

theorem reaches_len_zero {dflt : T} {eq lt : T → T → Bool} {k : HClient T} {tr : HTrace T} {A : AState T} {ρ : ARegs} (h : k.Reaches dflt eq lt tr A ρ) (hl : tr.length = 0) :
    tr = [] ∧ A = (fun _ => none) ∧ ρ = fun _ => none := by
  cases h with
  | start => exact ⟨rfl, rfl, rfl⟩
  | done => simp at hl
  | threw => simp at hl
  | reg => simp at hl

/-- Without exceptions the abstract machine is deterministic. -/
theorem reaches_det {dflt : T} {eq lt : T → T → Bool} {k : HClient T} {tr tr' : HTrace T} {A A' : AState T} {ρ ρ' : ARegs} (h : k.Reaches dflt eq lt tr A ρ)
    (h' : k.Reaches dflt eq lt tr' A' ρ') (h0 : hThrows tr = 0) (h0' : hThrows tr' = 0) (hl : tr.length = tr'.length) : tr = tr' ∧ A = A' ∧ ρ = ρ' := by
  induction h generalizing tr' A' ρ' with
  | start =>
    obtain ⟨e1, e2, e3⟩ := reaches_len_zero h' hl.symm
    exact ⟨e1.symm, e2.symm, e3.symm⟩
  | done hr hc hcmd hst ih =>
    rw [hThrows_snoc] at h0
    cases h' with
    | start => simp at hl
    | done hr' hc' hcmd' hst' =>
      rw [hThrows_snoc] at h0'
      obtain ⟨rfl, rfl, rfl⟩ := ih hr' (by omega) (by omega) (by simpa using hl)
      rw [hc] at hc'; cases hc'
      rw [hcmd] at hcmd'; cases hcmd'
      rw [hst] at hst'; cases hst'
      exact ⟨rfl, rfl, rfl⟩
    | threw hr' hc' hcmd' hst' => rw [hThrows_snoc] at h0'; simp at h0'
    | reg hr' hc' hst' =>
      rw [hThrows_snoc] at h0'
      obtain ⟨rfl, rfl, rfl⟩ := ih hr' (by omega) (by omega) (by simpa using hl)
      rw [hc] at hc'; cases hc'
      rw [regStep_none hcmd] at hst'; cases hst'
  | threw hr hc hcmd hst ih => rw [hThrows_snoc] at h0; simp at h0
  | reg hr hc hst ih =>
    rw [hThrows_snoc] at h0
    cases h' with
    | start => simp at hl
    | done hr' hc' hcmd' hst' =>
      rw [hThrows_snoc] at h0'
      obtain ⟨rfl, rfl, rfl⟩ := ih hr' (by omega) (by omega) (by simpa using hl)
      rw [hc] at hc'; cases hc'
      rw [regStep_none hcmd'] at hst; cases hst
    | threw hr' hc' hcmd' hst' => rw [hThrows_snoc] at h0'; simp at h0'
    | reg hr' hc' hst' =>
      rw [hThrows_snoc] at h0'
      obtain ⟨rfl, rfl, rfl⟩ := ih hr' (by omega) (by omega) (by simpa using hl)
      rw [hc] at hc'; cases hc'
      rw [hst] at hst'; cases hst'
      exact ⟨rfl, rfl, rfl⟩

/-- A client went on after every proper beginning of what happened. -/
theorem reaches_take {dflt : T} {eq lt : T → T → Bool} {k : HClient T} {tr : HTrace T} {A : AState T} {ρ : ARegs} (h : k.Reaches dflt eq lt tr A ρ) (h0 : hThrows tr = 0) (m : Nat)
    (hm : m < tr.length) : ∃ tr1 A1 ρ1, k.Reaches dflt eq lt tr1 A1 ρ1 ∧ hThrows tr1 = 0 ∧ tr1.length = m ∧ k tr1 ≠ none := by
  induction h with
  | start => simp at hm
  | @done t _ _ _ _ _ _ hr hc hcmd hst ih =>
    rw [hThrows_snoc] at h0
    by_cases he : m < t.length
    · exact ih (by omega) he
    · exact ⟨_, _, _, hr, by omega, by simp at hm; omega, by rw [hc]; simp⟩
  | threw hr hc hcmd hst ih => rw [hThrows_snoc] at h0; simp at h0
  | @reg t _ _ _ _ _ hr hc hst ih =>
    rw [hThrows_snoc] at h0
    by_cases he : m < t.length
    · exact ih (by omega) he
    · exact ⟨_, _, _, hr, by omega, by simp at hm; omega, by rw [hc]; simp⟩

theorem holds_get {s : St T} {a : MArr} {abs : AbsArr T} (h : Holds s a abs) {idx : List Int} (hin : InBox a.ref.bases a.ref.extents idx) :
    s.get? (address a.ref.desc idx) = abs.vals[abs.at_ idx]? := by
  have := h.owns.elem_place (posList_inShape hin)
  unfold AbsArr.at_
  rw [← h.order, ← h.extents, ← h.bases, ← this]
  unfold elemAt
  show _ = s.get? (address a.ref.desc (atPos a.ref.bases (posList a.ref.bases idx)))
  rw [atPos_posList hin]

theorem sameArray_of {s s' : St T} {a a' : MArr} {abs abs' : AbsArr T} (h : Holds s a abs) (h' : Holds s' a' abs') (ha : AAlike abs abs') : SameArray s a s' a' := by
  refine ⟨by rw [h.bases, h'.bases, ha.bases], by rw [h.extents, h'.extents, ha.extents], fun idx hin => ?_⟩
  have hin1 : InBox abs.bases abs.extents idx := by rw [← h.bases, ← h.extents]; exact hin
  have hin' : InBox a'.ref.bases a'.ref.extents idx := by rw [h'.bases, h'.extents, ← ha.bases, ← ha.extents]; exact hin1
  have e := ha.vals idx hin1
  have r := holds_get h hin
  have r' := holds_get h' hin'
  rw [r, r', ← e]
  exact ⟨_, List.getElem?_eq_getElem (ha.wf.good.lt _ hin1), List.getElem?_eq_getElem (ha.wf.good.lt _ hin1)⟩

theorem run_length {dbg : Bool} {dflt : T} {eq lt : T → T → Bool} {k : HClient T} {n : Nat} {tr tr' : HTrace T} {w w' : World T} {its its' : CRegs}
    (h : k.run dbg dflt eq lt n tr w its = some (tr', w', its')) : tr'.length ≤ tr.length + n := by
  induction n generalizing tr w its with
  | zero => cases h; omega
  | succ n ih =>
    simp only [HClient.run] at h
    cases hk : k tr with
    | none => rw [hk] at h; cases h; omega
    | some c =>
      rw [hk] at h
      simp only at h
      cases he : w.execH dbg dflt eq lt its c with
      | done o w1 its1 => rw [he] at h; have := ih h; simp at this; omega
      | threw w1 its1 => rw [he] at h; have := ih h; simp at this; omega
      | failed => rw [he] at h; cases h

theorem hThrows_alike {tr tr' : HTrace T} (h : HTrace.Alike tr tr') : hThrows tr = hThrows tr' := by
  unfold HTrace.Alike at h
  unfold hThrows
  induction h with
  | nil => rfl
  | @cons p p' _ _ hp _ ih =>
    have : p.2.isNone = p'.2.isNone := by simpa using congrArg Option.isNone hp.2
    rw [List.filter_cons, List.filter_cons, this]
    split
    · simp [ih]
    · exact ih

/-- **C102.** Two clients that differ only in the storage orders and allocators they ask for and that do not ask about memory, the first of which respects the
documented preconditions.  Run both for the same number of commands, in any build modes, without exceptions: both run without undefined behaviour and failed assertions,
everything they observed - elements, comparisons, traversals, iterator arithmetic, shapes, index bases - is the same but for the strides, and at the end the same
variables exist and hold the same elements at the same indices. -/
theorem C102_storage_order_unobservable (dbg dbg' : Bool) (dflt : T) (eq lt : T → T → Bool) (k k' : HClient T) (ha : k.Alike k') (hk : k.Legal dflt eq lt) (n : Nat) :
    ∃ tr w its tr' w' its', k.run dbg dflt eq lt n [] (World.start []) (fun _ => none) = some (tr, w, its) ∧
      k'.run dbg' dflt eq lt n [] (World.start []) (fun _ => none) = some (tr', w', its') ∧
      HTrace.Alike tr tr' ∧ hThrows tr = 0 ∧ (tr.length = n ∨ k tr = none) ∧
      (∀ x, w.objs x = none ↔ w'.objs x = none) ∧
      (∀ x a a', w.objs x = some a → w'.objs x = some a' → SameArray w.st a w'.st a') := by
  obtain ⟨tr, w, A, ρ, its, e1, e2, e3, e4, e5, e6, _⟩ := C99_held_client dbg dflt eq lt k hk [] n
  obtain ⟨tr', w', A', ρ', its', f1, f2, f3, f4, f5, f6, _⟩ := C99_held_client dbg' dflt eq lt k' (C102_same_preconditions ha hk) [] n
  have z : hThrows tr = 0 := by simpa using e4
  have z' : hThrows tr' = 0 := by simpa using f4
  obtain ⟨tr2, A2, g1, g2, g3⟩ := ha.mirror hk f2
  have z2 : hThrows tr2 = 0 := by rw [hThrows_alike g2, z']
  have hlen2 : tr2.length = tr'.length := List.Forall₂.length_eq g2
  have stop2 : tr2.length = n ∨ k tr2 = none := by
    rcases f3 with h | h
    · exact .inl (by omega)
    · rcases ha _ _ g2 with ⟨h1, _⟩ | ⟨_, _, _, h2, _⟩
      · exact .inr h1
      · rw [h] at h2; cases h2
  have noShort : ∀ {t t2 : HTrace T} {B B2 : AState T} {r r2 : ARegs}, k.Reaches dflt eq lt t B r → hThrows t = 0 → (t.length = n ∨ k t = none) →
      k.Reaches dflt eq lt t2 B2 r2 → hThrows t2 = 0 → t2.length ≤ n → t2.length ≤ t.length := by
    intro t t2 B B2 r r2 h1 h2 h3 h4 h5 h6
    by_contra hlt
    obtain ⟨t1, B1, r1, i1, i2, i3, i4⟩ := reaches_take h4 h5 t.length (by omega)
    obtain ⟨rfl, _, _⟩ := reaches_det i1 h1 i2 h2 i3
    rcases h3 with h3 | h3
    · omega
    · exact i4 h3
  have l1 : tr.length ≤ n := by simpa using run_length e1
  have l2 : tr'.length ≤ n := by simpa using run_length f1
  have hl : tr.length = tr2.length :=
    Nat.le_antisymm (noShort g1 z2 stop2 e2 z l1) (noShort e2 z e3 g1 z2 (by omega))
  obtain ⟨rfl, rfl, _⟩ := reaches_det e2 g1 z z2 hl
  refine ⟨tr, w, its, tr', w', its', e1, f1, g2, z, e3, ?_, ?_⟩
  · intro x
    rw [e5, f5]
    exact ⟨g3.ofNone, g3.symm.ofNone⟩
  · intro x a a' hx hx'
    cases hA : A x with
    | none => rw [(e5 x).mpr hA] at hx; cases hx
    | some abs =>
      obtain ⟨abs', hA', hal⟩ := g3.ofSome hA
      exact sameArray_of (e6 x a abs hx hA) (f6 x a' abs' hx' hA') hal

/-- **C102.** With exceptions: whatever may happen to one client may happen to the other. -/
theorem C102_same_possibilities {dflt : T} {eq lt : T → T → Bool} {k k' : HClient T} (ha : k.Alike k') (hk : k.Legal dflt eq lt) {tr : HTrace T} {A : AState T} {ρ : ARegs}
    (hr : k.Reaches dflt eq lt tr A ρ) : ∃ tr' A', k'.Reaches dflt eq lt tr' A' ρ ∧ HTrace.Alike tr tr' ∧
      (∀ x, A x = none ↔ A' x = none) ∧
      ∀ x a a', A x = some a → A' x = some a' → a.bases = a'.bases ∧ a.extents = a'.extents ∧
        ∀ idx, InBox a.bases a.extents idx → a.vals[a.at_ idx]? = a'.vals[a'.at_ idx]? := by
  obtain ⟨tr', A', h1, h2, h3⟩ := ha.symm.mirror (C102_same_preconditions ha hk) hr
  refine ⟨tr', A', h1, traceAlike_symm h2, fun x => ⟨h3.symm.ofNone, h3.ofNone⟩, fun x a a' hx hx' => ?_⟩
  obtain ⟨b, e1, e2⟩ := h3.symm.ofSome hx
  rw [hx'] at e1; cases e1
  exact ⟨e2.bases, e2.extents, e2.vals⟩

/-! ### Clients that meet the hypotheses -/

/-- A program that writes, walks along rows with an iterator, copies, queries and traverses. -/
def layoutCmds (so so' : StorageOrder) : List (HCmd Nat) :=
  [.plain (.construct 0 (.extents 2 [2, 3] so 0)),
   .begin 1 (.var 0 []),
   .inc 1,
   .part (.write (.deref 1 []) [2] 7),
   .part (.convert 1 (.var 0 []) so' 0),
   .plain (.on 0 .query),
   .part (.traverse (.deref 1 [])),
   .plain (.traverse 1 [])]

def layoutClient (so so' : StorageOrder) : HClient Nat := fun tr => (layoutCmds so so')[hCompleted tr]?

def layoutRegs (n : Nat) : ARegs := fun r => if r = 1 then (if n ≤ 1 then none else some (.it ⟨0, [], false, if n = 2 then 0 else 1⟩)) else none

def layoutInv (n : Nat) (A : AState Nat) (ρ : ARegs) : Prop :=
  ρ = layoutRegs n ∧ (n = 0 → A = noVars) ∧ (1 ≤ n → TwoByThree A 0) ∧ (n ≤ 4 → A 1 = none) ∧ (5 ≤ n → TwoByThree A 1)

theorem path_layout {A : AState Nat} {n : Nat} (h : TwoByThree A 0) (hn : 3 ≤ n) : A.path (layoutRegs n) (.deref 1 []) = some (0, [.at 1]) := by
  obtain ⟨vs, h⟩ := h
  have : layoutRegs n 1 = some (.it ⟨0, [], false, 1⟩) := by
    unfold layoutRegs
    rw [if_pos rfl, if_neg (by omega), if_neg (by omega)]
  simp [AState.path, ARegs.iter, this, AState.elemAt, AState.part, h, AbsArr.whole, APart.path]

theorem layoutRegs_eq {n m : Nat} (hn : 3 ≤ n) (hm : 3 ≤ m) : layoutRegs n = layoutRegs m := by
  funext r
  simp only [layoutRegs]
  rw [if_neg (show ¬ n ≤ 1 by omega), if_neg (show ¬ m ≤ 1 by omega), if_neg (show ¬ n = 2 by omega), if_neg (show ¬ m = 2 by omega)]

theorem setReg_layout {n : Nat} {a : Held (Nat × List Sel) ItPos} (h : layoutRegs (n + 1) 1 = some a) : setReg (layoutRegs n) 1 a = layoutRegs (n + 1) := by
  funext r
  unfold setReg
  by_cases hr : r = 1
  · rw [if_pos hr, hr, h]
  · rw [if_neg hr]
    unfold layoutRegs
    rw [if_neg hr, if_neg hr]

theorem put_none {A A' : AState T} {x y : Nat} {idx : List Int} {v : T} (hp : A.put x idx v = some A') (hne : y ≠ x) (h : A y = none) : A' y = none := by
  unfold AState.put at hp
  cases hx : A x with
  | none => rw [hx] at hp; cases hp
  | some a => rw [hx] at hp; cases hp; simp only [AState.set, if_neg hne, h]

/-- Every command of the program is legal, and the invariant is preserved. -/
theorem layoutInv_step {n : Nat} {A : AState Nat} {ρ : ARegs} {eq lt : Nat → Nat → Bool} (h : layoutInv n A ρ) {c : HCmd Nat}
    (hc : (layoutCmds (StorageOrder.cOrder 2) (StorageOrder.cOrder 2))[n]? = some c) :
    (∃ c', c.cmd A ρ = some c' ∧ c'.Legal A ∧ (∀ o A', A.step 0 eq lt c' = some (o, A') → layoutInv (n + 1) A' (ρ.after c')) ∧
      ∀ A', A.Interrupted c' A' → layoutInv n A' ρ) ∨
    (∃ o, A.regStep ρ c = some (o, layoutRegs (n + 1)) ∧ layoutInv (n + 1) A (layoutRegs (n + 1))) := by
  obtain ⟨h0, h1, h2, h3, h4⟩ := id h
  have after : ∀ {c : Cmd Nat} {m : Nat}, (∀ y, ¬ c.Drops y) → (∀ y, ¬ c.Relabels y) → layoutRegs n = layoutRegs m → ρ.after c = layoutRegs m :=
    fun hd hr e => (after_same hd hr).trans (h0.trans e)
  match n, hc with
  | 0, hc =>
    cases hc
    cases h1 rfl
    refine .inl ⟨_, rfl, ⟨rfl, cOrder_valid 2, rfl⟩, fun o A' hs => ?_, fun A' hs => by cases hs; exact h⟩
    cases hs
    exact ⟨after (fun _ e => e) (fun _ e => e) rfl, fun e => (nomatch e), fun _ => ⟨_, rfl⟩, fun _ => rfl, fun e => absurd e (by decide)⟩
  | 1, hc =>
    cases hc
    obtain ⟨vs, hv⟩ := h2 (by decide)
    refine .inr ⟨.unit, ?_, rfl, fun e => (nomatch e), fun _ => h2 (by decide), fun _ => h3 (by decide), fun e => absurd e (by decide)⟩
    subst h0
    simp only [AState.regStep]
    rw [range_of (h := (0, [])) (n := 2) rfl (whole_part hv) rfl, Option.map_some, setReg_layout rfl]
  | 2, hc =>
    cases hc
    obtain ⟨vs, hv⟩ := h2 (by decide)
    refine .inr ⟨.unit, ?_, rfl, fun e => (nomatch e), fun _ => h2 (by decide), fun _ => h3 (by decide), fun e => absurd e (by decide)⟩
    subst h0
    have e1 : ARegs.iter (layoutRegs 2) 1 = some ⟨0, [], false, 0⟩ := rfl
    have e2 : A.move? ⟨0, [], false, 0⟩ 1 = some ⟨0, [], false, 1⟩ := by
      unfold AState.move?
      rw [length_some (q := _) (e := 2) (es := [3]) (whole_part hv) rfl]
      rfl
    simp only [AState.regStep, e1, Option.bind_some, e2, Option.map_some]
    rw [setReg_layout rfl]
  | 3, hc =>
    cases hc
    have hp := path_layout (n := 3) (h2 (by decide)) (by decide)
    obtain ⟨vs, hv⟩ := h2 (by decide)
    have hpart := row_part hv (i := 1) (by decide) (by decide)
    refine .inl ⟨.write 0 [.at 1] [2] 7, ?_, ⟨_, hpart, (by decide : InBox [0] [3] [2])⟩, fun o A' hs => ?_, fun A' hs => ?_⟩
    · rw [h0]; simp only [HCmd.cmd, PCmd.eval, hp, Option.map_some, PCmd.cmd]
    · simp only [AState.step, Option.bind_eq_some_iff, Option.map_eq_some_iff, Prod.mk.injEq] at hs
      obtain ⟨p, _, A1, e1, _, rfl⟩ := hs
      exact ⟨after (fun _ e => e) (fun _ e => e) (layoutRegs_eq (by decide) (by decide)), fun e => (nomatch e), fun _ => twoByThree_put ⟨vs, hv⟩ e1,
        fun _ => put_none e1 (by decide) (h3 (by decide)), fun e => absurd e (by decide)⟩
    · obtain ⟨p, junk, _, e1⟩ := hs
      exact ⟨h0, fun e => (nomatch e), fun _ => twoByThree_put ⟨vs, hv⟩ e1, fun _ => put_none e1 (by decide) (h3 (by decide)), fun e => absurd e (by decide)⟩
  | 4, hc =>
    cases hc
    obtain ⟨vs, hv⟩ := h2 (by decide)
    refine .inl ⟨_, rfl, ⟨h3 (by decide), _, whole_part hv, Nat.succ_pos 1, cOrder_valid 2⟩, fun o A' hs => ?_, fun A' hs => by cases hs; exact h⟩
    simp only [PCmd.cmd, AState.step, CInit.value, part_of_Part (whole_part hv), Option.map_some, Option.some.injEq, Prod.mk.injEq] at hs
    obtain ⟨_, rfl⟩ := hs
    exact ⟨after (fun _ e => e) (fun _ e => e) (layoutRegs_eq (by decide) (by decide)), fun e => (nomatch e), fun _ => ⟨vs, hv⟩, fun e => absurd e (by decide), fun _ => ⟨_, rfl⟩⟩
  | 5, hc =>
    cases hc
    obtain ⟨vs, hv⟩ := h2 (by decide)
    refine .inl ⟨_, rfl, ⟨_, hv, by simp [AbsArr.Legal]⟩, fun o A' hs => ?_, fun A' hs => by cases hs⟩
    simp only [AState.step, hv, Option.bind_some, AbsArr.step, Option.map_some, Option.some.injEq, Prod.mk.injEq] at hs
    obtain ⟨_, rfl⟩ := hs
    obtain ⟨ws, hw⟩ := h4 (by decide)
    exact ⟨after (fun _ e => e) (fun _ e => e) (layoutRegs_eq (by decide) (by decide)), fun e => (nomatch e), fun _ => ⟨vs, rfl⟩, fun e => absurd e (by decide), fun _ => ⟨ws, hw⟩⟩
  | 6, hc =>
    cases hc
    have hp := path_layout (n := 6) (h2 (by decide)) (by decide)
    obtain ⟨vs, hv⟩ := h2 (by decide)
    refine .inl ⟨.traverse 0 [.at 1], ?_, ⟨_, row_part hv (i := 1) (by decide) (by decide)⟩, fun o A' hs => ?_, fun A' hs => by cases hs⟩
    · rw [h0]; simp only [HCmd.cmd, PCmd.eval, hp, Option.map_some, PCmd.cmd]
    · simp only [AState.step, Option.bind_eq_some_iff, Option.map_eq_some_iff, Prod.mk.injEq] at hs
      obtain ⟨p, _, A1, e1, _, rfl⟩ := hs
      exact ⟨after (fun _ e => e) (fun _ e => e) (layoutRegs_eq (by decide) (by decide)), fun e => (nomatch e), fun _ => h2 (by decide), fun e => absurd e (by decide), fun _ => h4 (by decide)⟩
  | 7, hc =>
    cases hc
    obtain ⟨ws, hw⟩ := h4 (by decide)
    refine .inl ⟨_, rfl, ⟨_, whole_part hw⟩, fun o A' hs => ?_, fun A' hs => by cases hs⟩
    simp only [AState.step, Option.bind_eq_some_iff, Option.map_eq_some_iff, Prod.mk.injEq] at hs
    obtain ⟨p, _, A1, e1, _, rfl⟩ := hs
    exact ⟨after (fun _ e => e) (fun _ e => e) (layoutRegs_eq (by decide) (by decide)), fun e => (nomatch e), fun _ => h2 (by decide), fun e => absurd e (by decide), fun _ => h4 (by decide)⟩
  | n + 8, hc => cases hc

theorem layoutClient_inv {eq lt : Nat → Nat → Bool} {tr : HTrace Nat} {A : AState Nat} {ρ : ARegs}
    (h : (layoutClient (StorageOrder.cOrder 2) (StorageOrder.cOrder 2)).Reaches 0 eq lt tr A ρ) : layoutInv (hCompleted tr) A ρ := by
  induction h with
  | start => exact ⟨by funext r; simp [layoutRegs, hCompleted], fun _ => rfl, fun e => absurd e (by decide), fun _ => rfl, fun e => absurd e (by decide)⟩
  | done _ hc he hs ih =>
    rw [hCompleted_snoc]
    rcases layoutInv_step (eq := eq) (lt := lt) ih hc with ⟨c', h1, _, h2, _⟩ | ⟨o, h1, _⟩
    · rw [h1] at he; cases he
      exact h2 _ _ hs
    · exact absurd h1 (by rw [regStep_none he]; simp)
  | threw _ hc he hs ih =>
    rw [hCompleted_snoc]
    rcases layoutInv_step (eq := eq) (lt := lt) ih hc with ⟨c', h1, _, _, h2⟩ | ⟨o, h1, _⟩
    · rw [h1] at he; cases he
      exact h2 _ hs
    · exact absurd h1 (by rw [regStep_none he]; simp)
  | reg _ hc hs ih =>
    rw [hCompleted_snoc]
    rcases layoutInv_step (eq := eq) (lt := lt) ih hc with ⟨c', h1, _⟩ | ⟨o, h1, h2⟩
    · exact absurd hs (by rw [regStep_none h1]; simp)
    · rw [h1] at hs; cases hs
      exact h2

theorem layoutClient_legal (eq lt : Nat → Nat → Bool) : (layoutClient (StorageOrder.cOrder 2) (StorageOrder.cOrder 2)).Legal 0 eq lt := by
  intro tr A ρ h hr hc
  rcases layoutInv_step (eq := eq) (lt := lt) (layoutClient_inv hr) hc with ⟨c', h1, h2, _⟩ | ⟨o, h1, _⟩
  · exact .inl ⟨c', h1, h2⟩
  · exact .inr ⟨_, h1⟩

theorem hCompleted_alike {tr tr' : HTrace T} (h : HTrace.Alike tr tr') : hCompleted tr = hCompleted tr' := by
  unfold HTrace.Alike at h
  unfold hCompleted
  induction h with
  | nil => rfl
  | @cons p p' _ _ hp _ ih =>
    have : p.2.isSome = p'.2.isSome := by simpa using congrArg Option.isSome hp.2
    rw [List.filter_cons, List.filter_cons, this]
    split
    · simp [ih]
    · exact ih

/-- The same program with any other storage orders. -/
theorem layoutClient_alike {so so' : StorageOrder} (h : ValidOrder 2 so) (h' : ValidOrder 2 so') :
    (layoutClient (StorageOrder.cOrder 2) (StorageOrder.cOrder 2)).Alike (layoutClient so so') := by
  have rank : ∀ {so : StorageOrder}, ValidOrder 2 so → SameRank (StorageOrder.cOrder 2) so := by
    intro so h n
    have key : ∀ {s : StorageOrder}, ValidOrder 2 s → (ValidOrder n s ↔ n = 2) := by
      intro s hs
      refine ⟨fun hn => by rw [← hn.2, hs.2], fun e => by rw [e]; exact hs⟩
    rw [key (cOrder_valid 2), key h]
  intro tr tr' ht
  unfold layoutClient
  rw [hCompleted_alike ht]
  generalize hCompleted tr' = n
  match n with
  | 0 => exact .inr ⟨_, _, rfl, rfl, .plain _ _ (.construct _ _ _ (.extents _ _ _ _ _ _ (rank h)))⟩
  | 1 => exact .inr ⟨_, _, rfl, rfl, .same _ (fun _ e => by cases e)⟩
  | 2 => exact .inr ⟨_, _, rfl, rfl, .same _ (fun _ e => by cases e)⟩
  | 3 => exact .inr ⟨_, _, rfl, rfl, .same _ (fun _ e => by cases e)⟩
  | 4 => exact .inr ⟨_, _, rfl, rfl, .convert _ _ _ _ _ _ (rank h')⟩
  | 5 => exact .inr ⟨_, _, rfl, rfl, .plain _ _ (.same _ trivial)⟩
  | 6 => exact .inr ⟨_, _, rfl, rfl, .same _ (fun _ e => by cases e)⟩
  | 7 => exact .inr ⟨_, _, rfl, rfl, .plain _ _ (.same _ trivial)⟩
  | n + 8 => exact .inl ⟨rfl, rfl⟩

example (so so' : StorageOrder) (h : ValidOrder 2 so) (h' : ValidOrder 2 so') := C102_storage_order_unobservable true false 0 (fun a b => a == b) (fun a b => decide (a < b))
  (layoutClient (StorageOrder.cOrder 2) (StorageOrder.cOrder 2)) (layoutClient so so') (layoutClient_alike h h') (layoutClient_legal _ _) 8

/-- The two runs, in C and in Fortran order (and with the second array descending): different strides, nothing else differs. -/
example : ((layoutClient (StorageOrder.cOrder 2) (StorageOrder.cOrder 2)).run true 0 (fun a b => a == b) (fun a b => decide (a < b)) 9 [] (World.start []) (fun _ => none)).map
      (fun r => r.1.map (fun p => p.2)) =
    some [some (.cmd (.basic .unit)), some .unit, some .unit, some (.cmd (.basic .unit)), some (.cmd (.basic .unit)), some (.cmd (.basic (.info 2 2 6 [2, 3] [0, 0] [3, 1]))),
      some (.cmd (.values [0, 0, 7])), some (.cmd (.values [0, 0, 0, 0, 0, 7]))] ∧
    ((layoutClient (StorageOrder.fortranOrder 2) ⟨[0, 1], [true, false]⟩).run true 0 (fun a b => a == b) (fun a b => decide (a < b)) 9 [] (World.start []) (fun _ => none)).map
      (fun r => r.1.map (fun p => p.2)) =
    some [some (.cmd (.basic .unit)), some .unit, some .unit, some (.cmd (.basic .unit)), some (.cmd (.basic .unit)), some (.cmd (.basic (.info 2 2 6 [2, 3] [0, 0] [1, 2]))),
      some (.cmd (.values [0, 0, 7])), some (.cmd (.values [0, 0, 0, 0, 0, 7]))] := by
  decide +kernel

/-- `assign(first,last)` and `reshape` do distinguish storage orders: this is why they are excluded. -/
def tellApart (so : StorageOrder) (c : Cmd Nat) : List (Cmd Nat) := [.construct 0 (.extents 2 [2, 2] so 0), .write 0 [] [0, 1] 5, c, .traverse 0 []]

example : (World.execAll true 0 (fun a b => a == b) (fun a b => decide (a < b)) (tellApart (StorageOrder.cOrder 2) (.on 0 (.assign [1, 2, 3, 4]))) (World.start [])).map (fun r => r.1.getLast?) =
      some (some (.values [1, 2, 3, 4])) ∧
    (World.execAll true 0 (fun a b => a == b) (fun a b => decide (a < b)) (tellApart (StorageOrder.fortranOrder 2) (.on 0 (.assign [1, 2, 3, 4]))) (World.start [])).map (fun r => r.1.getLast?) =
      some (some (.values [1, 3, 2, 4])) ∧
    (World.execAll true 0 (fun a b => a == b) (fun a b => decide (a < b)) (tellApart (StorageOrder.cOrder 2) (.on 0 (.reshape [1, 4]))) (World.start [])).map (fun r => r.1.getLast?) =
      some (some (.values [0, 5, 0, 0])) ∧
    (World.execAll true 0 (fun a b => a == b) (fun a b => decide (a < b)) (tellApart (StorageOrder.fortranOrder 2) (.on 0 (.reshape [1, 4]))) (World.start [])).map (fun r => r.1.getLast?) =
      some (some (.values [0, 0, 5, 0])) := by
  decide +kernel

end MultiArray.Props
