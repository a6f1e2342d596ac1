import Verif.SpecStable
import Verif.Lemmas.ProgThrow

/- Which storage a command keeps. -/
set_option autoImplicit false

namespace MultiArray
open Spec
variable {T : Type}

/-- The same storage. -/
structure SameStore (a a' : MArr) : Prop where
  base : a'.ref.base = a.ref.base
  num : a'.ref.numElems = a.ref.numElems
  alloc : a'.alloc = a.alloc

theorem SameStore.refl (a : MArr) : SameStore a a := ⟨rfl, rfl, rfl⟩

theorem SameStore.trans {a b c : MArr} (h : SameStore a b) (h' : SameStore b c) : SameStore a c := ⟨h'.base.trans h.base, h'.num.trans h.num, h'.alloc.trans h.alloc⟩

theorem mem_objs {α : Type} {w w' : World T} {e : Exec T α} (h : w.mem e = .ok w' ∨ w.mem e = .threw w') : w'.objs = w.objs := by
  unfold World.mem at h
  cases he : e w.st <;> rw [he] at h <;> rcases h with h | h <;> cases h <;> rfl

theorem reindexList_same {a : ARef} {bs : List Int} {b : ARef} (h : a.reindexList bs = .ok b) : b.base = a.base ∧ b.numElems = a.numElems := by
  unfold ARef.reindexList at h
  cases hc : copyN bs a.numDims with
  | ok v => rw [hc] at h; cases h; exact ⟨rfl, rfl⟩
  | assertFail => rw [hc] at h; cases h
  | ub => rw [hc] at h; cases h

theorem reshape_same {dbg : Bool} {a : ARef} {es : List Nat} {b : ARef} (h : a.reshape dbg es = .ok b) : b.base = a.base ∧ b.numElems = a.numElems := by
  unfold ARef.reshape at h
  cases h0 : Res.assert dbg (decide (a.numElems = product es)) with
  | assertFail => rw [h0] at h; cases h
  | ub => rw [h0] at h; cases h
  | ok _ =>
    rw [h0] at h
    cases h1 : copyPrefix es a.extents with
    | assertFail => rw [h1] at h; cases h
    | ub => rw [h1] at h; cases h
    | ok ext =>
      rw [h1] at h
      simp only [Res.bind_ok] at h
      cases h2 : computeStrides a.strides ext a.storage with
      | assertFail => rw [h2] at h; cases h
      | ub => rw [h2] at h; cases h
      | ok ss => rw [h2] at h; cases h; exact ⟨rfl, rfl⟩

theorem set_other {w : World T} {x y : Nat} (h : y ≠ x) (v : Option MArr) (s : St T) : (w.set x v s).objs y = w.objs y := by
  simp [World.set, h]

theorem toX_done {r : Result T} {o : CObs T} {w' : World T} (h : r.toX = .done o w') : r = .ok w' := by
  cases r <;> cases h
  rfl

theorem toX_threw {r : Result T} {w' : World T} (h : r.toX = .threw w') : r = .threw w' := by
  cases r <;> cases h
  rfl

/-- What is kept of variable `y`. -/
def KeepsVar (y : Nat) (a : MArr) (same : Prop) (w' : World T) : Prop := ∃ a', w'.objs y = some a' ∧ SameStore a a' ∧ (same → a' = a)

theorem keeps_of_objs {w w' : World T} {y : Nat} {a : MArr} {P : Prop} (hy : w.objs y = some a) (h : w'.objs = w.objs) : KeepsVar y a P w' :=
  ⟨a, by rw [h]; exact hy, .refl a, fun _ => rfl⟩

theorem keeps_of_set {w : World T} {x y : Nat} {a : MArr} {v : Option MArr} {s : St T} {P : Prop} (hy : w.objs y = some a)
    (h : x = y → ∃ a', v = some a' ∧ SameStore a a' ∧ (P → a' = a)) : KeepsVar y a P (w.set x v s) := by
  by_cases hxy : x = y
  · obtain ⟨a', h1, h2, h3⟩ := h hxy
    exact ⟨a', by simp [World.set, hxy, h1], h2, h3⟩
  · exact ⟨a, by rw [set_other (fun e => hxy e.symm)]; exact hy, .refl a, fun _ => rfl⟩

theorem construct_keeps {dbg : Bool} {dflt : T} {w w' : World T} {x y : Nat} {a : MArr} {P : Prop} {i : Init} (hy : w.objs y = some a) (hxy : x ≠ y)
    (h : w.step dbg dflt (.construct x i) = .ok w' ∨ w.step dbg dflt (.construct x i) = .threw w') : KeepsVar y a P w' := by
  simp only [World.step] at h
  cases hc : i.ctor w.objs with
  | none => rw [hc] at h; rcases h with h | h <;> cases h
  | some c =>
    rw [hc] at h
    simp only at h
    cases hr : c.run dbg dflt w.st with
    | ok b s => rw [hr] at h; rcases h with h | h <;> cases h; exact keeps_of_set hy (fun e => absurd e hxy)
    | throw s => rw [hr] at h; rcases h with h | h <;> cases h; exact keeps_of_objs hy rfl
    | assertFail s => rw [hr] at h; rcases h with h | h <;> cases h
    | ub => rw [hr] at h; rcases h with h | h <;> cases h

theorem member_keeps {w w' : World T} {x y : Nat} {a : MArr} {P : Prop} {r : Out T Unit × MArr} (hy : w.objs y = some a)
    (hr : x = y → SameStore a r.2 ∧ (P → r.2 = a)) (h : w.member x r = .ok w' ∨ w.member x r = .threw w') : KeepsVar y a P w' := by
  obtain ⟨o, b⟩ := r
  unfold World.member at h
  cases o <;> rcases h with h | h <;> cases h <;> exact keeps_of_set hy (fun e => ⟨b, rfl, (hr e).1, (hr e).2⟩)

/-- A command that completes keeps the storage of `y` unless it destroys or resizes it. -/
theorem done_keeps {dbg : Bool} {dflt : T} {eq lt : T → T → Bool} {w w' : World T} {c : Cmd T} {o : CObs T} {y : Nat} {a : MArr} (hy : w.objs y = some a)
    (hnew : ∀ i, c ≠ .construct y i) (hd : ¬ c.Drops y) (h : w.execX dbg dflt eq lt c = .done o w') : KeepsVar y a (¬ c.Relabels y) w' := by
  unfold World.execX at h
  cases c with
  | construct x i =>
    have hxy : x ≠ y := fun e => hnew i (by rw [e])
    cases i with
    | default n al => exact construct_keeps hy hxy (.inl (toX_done h))
    | extents n es so al => exact construct_keeps hy hxy (.inl (toX_done h))
    | gen n rs so al => exact construct_keeps hy hxy (.inl (toX_done h))
    | copy z => exact construct_keeps hy hxy (.inl (toX_done h))
    | convert z ss so al =>
      simp only [World.mayThrow] at h
      cases hl : w.lookup dbg z ss with
      | none => rw [hl] at h; cases h
      | some d => rw [hl] at h; exact construct_keeps hy hxy (.inl (toX_done h))
  | destroy x =>
    have hxy : x ≠ y := hd
    have h := toX_done h
    simp only [World.step] at h
    cases hx : w.objs x with
    | none => rw [hx] at h; cases h
    | some b =>
      rw [hx] at h
      simp only at h
      cases hr : b.deallocateSpace w.st with
      | ok u s => rw [hr] at h; cases h; exact keeps_of_set hy (fun e => absurd e hxy)
      | throw s => rw [hr] at h; cases h
      | assertFail s => rw [hr] at h; cases h
      | ub => rw [hr] at h; cases h
  | on x op =>
    cases hx : w.objs x with
    | none => simp only [World.mayThrow, hx] at h; cases h
    | some b =>
      have hab : x = y → b = a := fun e => by subst e; rw [hx] at hy; exact Option.some.inj hy
      cases op with
      | write idx v => simp only [World.mayThrow, hx] at h; exact keeps_of_objs hy (mem_objs (.inl (toX_done h)))
      | writeChain idx v => simp only [World.mayThrow, hx] at h; exact keeps_of_objs hy (mem_objs (.inl (toX_done h)))
      | assign input => simp only [World.mayThrow, hx, World.step] at h; exact keeps_of_objs hy (mem_objs (.inl (toX_done h)))
      | forEach f => simp only [World.mayThrow, hx] at h; exact keeps_of_objs hy (mem_objs (.inl (toX_done h)))
      | resize rs =>
        have hxy : x ≠ y := hd
        simp only [World.mayThrow, hx, World.step] at h
        exact member_keeps hy (fun e => absurd e hxy) (.inl (toX_done h))
      | resizeList es =>
        have hxy : x ≠ y := hd
        simp only [World.mayThrow, hx, World.step] at h
        exact member_keeps hy (fun e => absurd e hxy) (.inl (toX_done h))
      | read idx =>
        simp only [World.mayThrow, World.exec, hx, Option.bind_some, concStep] at h
        cases hr : Out.val? (readElem dbg b.ref.desc idx w.st) with
        | none => rw [hr] at h; cases h
        | some r => rw [hr] at h; cases h; exact keeps_of_set hy (fun e => ⟨b, rfl, by rw [hab e]; exact .refl a, fun _ => hab e⟩)
      | readChain idx =>
        simp only [World.mayThrow, World.exec, hx, Option.bind_some, concStep] at h
        cases hr : Out.val? (readChain dbg b.ref.desc idx w.st) with
        | none => rw [hr] at h; cases h
        | some r => rw [hr] at h; cases h; exact keeps_of_set hy (fun e => ⟨b, rfl, by rw [hab e]; exact .refl a, fun _ => hab e⟩)
      | query =>
        simp only [World.mayThrow, World.exec, hx, Option.bind_some, concStep] at h
        cases hr : Res.val? b.ref.size with
        | none => rw [hr] at h; cases h
        | some r => rw [hr] at h; cases h; exact keeps_of_set hy (fun e => ⟨b, rfl, by rw [hab e]; exact .refl a, fun _ => hab e⟩)
      | reindex bs =>
        simp only [World.mayThrow, World.exec, hx, Option.bind_some, concStep] at h
        cases hr : Res.val? (b.ref.reindexList bs) with
        | none => rw [hr] at h; cases h
        | some r =>
          rw [hr] at h; cases h
          obtain ⟨e1, e2⟩ := reindexList_same (res_val? hr)
          exact keeps_of_set hy (fun e => ⟨_, rfl, ⟨by rw [← hab e]; exact e1, by rw [← hab e]; exact e2, by rw [← hab e]⟩, fun hne => absurd e hne⟩)
      | reindexAll v =>
        simp only [World.mayThrow, World.exec, hx, Option.bind_some, concStep] at h
        cases h
        exact keeps_of_set hy (fun e => ⟨_, rfl, ⟨by rw [← hab e]; rfl, by rw [← hab e]; rfl, by rw [← hab e]⟩, fun hne => absurd e hne⟩)
      | reshape es =>
        simp only [World.mayThrow, World.exec, hx, Option.bind_some, concStep] at h
        cases hr : Res.val? (b.ref.reshape dbg es) with
        | none => rw [hr] at h; cases h
        | some r =>
          rw [hr] at h; cases h
          obtain ⟨e1, e2⟩ := reshape_same (res_val? hr)
          exact keeps_of_set hy (fun e => ⟨_, rfl, ⟨by rw [← hab e]; exact e1, by rw [← hab e]; exact e2, by rw [← hab e]⟩, fun hne => absurd e hne⟩)
  | assign x z =>
    simp only [World.mayThrow, World.step] at h
    cases hx : w.objs x with
    | none => rw [hx] at h; cases h
    | some b =>
      cases hz : w.objs z with
      | none => rw [hx, hz] at h; cases h
      | some b' => rw [hx, hz] at h; exact keeps_of_objs hy (mem_objs (.inl (toX_done h)))
  | assignPart x ss z ss' =>
    simp only [World.mayThrow, World.step] at h
    cases hx : w.lookup dbg x ss with
    | none => rw [hx] at h; cases h
    | some b =>
      cases hz : w.lookup dbg z ss' with
      | none => rw [hx, hz] at h; cases h
      | some b' => rw [hx, hz] at h; exact keeps_of_objs hy (mem_objs (.inl (toX_done h)))
  | copyArray x ss z ss' =>
    simp only [World.mayThrow, World.step] at h
    cases hx : w.lookup dbg x ss with
    | none => rw [hx] at h; cases h
    | some b =>
      cases hz : w.lookup dbg z ss' with
      | none => rw [hx, hz] at h; cases h
      | some b' => rw [hx, hz] at h; exact keeps_of_objs hy (mem_objs (.inl (toX_done h)))
  | write x ss idx v =>
    simp only [World.mayThrow, World.step] at h
    cases hx : w.lookup dbg x ss with
    | none => rw [hx] at h; cases h
    | some b => rw [hx] at h; exact keeps_of_objs hy (mem_objs (.inl (toX_done h)))
  | forEach x ss f =>
    simp only [World.mayThrow, World.step] at h
    cases hx : w.lookup dbg x ss with
    | none => rw [hx] at h; cases h
    | some b => rw [hx] at h; exact keeps_of_objs hy (mem_objs (.inl (toX_done h)))
  | read x ss idx =>
    simp only [World.mayThrow, World.exec] at h
    cases hx : w.lookup dbg x ss with
    | none => rw [hx] at h; cases h
    | some b =>
      rw [hx] at h
      simp only [Option.bind_some] at h
      cases hr : Out.val? (readElem dbg b idx w.st) with
      | none => rw [hr] at h; cases h
      | some r => rw [hr] at h; cases h; exact keeps_of_objs hy rfl
  | traverse x ss =>
    simp only [World.mayThrow] at h
    split at h
    · rename_i o' w1 he
      cases h
      have : w' = w := by
        simp only [World.exec, Option.bind_eq_some_iff, Option.map_eq_some_iff, Prod.mk.injEq] at he
        obtain ⟨_, _, _, _, _, _, _, _, _, rfl⟩ := he
        rfl
      exact keeps_of_objs hy (by rw [this])
    · cases h
  | equal x ss z ss' =>
    simp only [World.mayThrow] at h
    split at h
    · rename_i o' w1 he
      cases h
      have : w' = w := by
        simp only [World.exec, Option.bind_eq_some_iff, Option.map_eq_some_iff, Prod.mk.injEq] at he
        obtain ⟨_, _, _, _, _, _, _, rfl⟩ := he
        rfl
      exact keeps_of_objs hy (by rw [this])
    · cases h
  | less x ss z ss' =>
    simp only [World.mayThrow] at h
    split at h
    · rename_i o' w1 he
      cases h
      have : w' = w := by
        simp only [World.exec, Option.bind_eq_some_iff, Option.map_eq_some_iff, Prod.mk.injEq] at he
        obtain ⟨_, _, _, _, _, _, _, rfl⟩ := he
        rfl
      exact keeps_of_objs hy (by rw [this])
    · cases h
  | shape x ss =>
    simp only [World.mayThrow] at h
    split at h
    · rename_i o' w1 he
      cases h
      have : w' = w := by
        simp only [World.exec, Option.map_eq_some_iff, Prod.mk.injEq] at he
        obtain ⟨_, _, _, rfl⟩ := he
        rfl
      exact keeps_of_objs hy (by rw [this])
    · cases h

/-- A command that throws keeps everything. -/
theorem threw_keeps {dbg : Bool} {dflt : T} {eq lt : T → T → Bool} {w w' : World T} {c : Cmd T} {y : Nat} {a : MArr} (hy : w.objs y = some a)
    (hnew : ∀ i, c ≠ .construct y i) (hdes : c ≠ .destroy y)
    (hres : ∀ rs, c = .on y (.resize rs) → (MArr.resize dbg dflt ⟨a.ref.numDims, rs⟩ a w.st).2 = a ∨ ∀ s, (MArr.resize dbg dflt ⟨a.ref.numDims, rs⟩ a w.st).1 ≠ .throw s)
    (hlist : ∀ es, c = .on y (.resizeList es) → (MArr.resizeExtents dbg dflt es a w.st).2 = a ∨ ∀ s, (MArr.resizeExtents dbg dflt es a w.st).1 ≠ .throw s)
    (h : w.execX dbg dflt eq lt c = .threw w') : KeepsVar y a True w' := by
  unfold World.execX at h
  have hm : ∀ {x : Nat} {r : Out T Unit × MArr}, (x = y → r.2 = a ∨ ∀ s, r.1 ≠ .throw s) → w.member x r = .threw w' → KeepsVar y a True w' := by
    intro x r h1 h2
    obtain ⟨ro, ra⟩ := r
    cases ro with
    | throw s =>
      refine member_keeps hy (fun e => ?_) (.inr h2)
      rcases h1 e with h1 | h1
      · simp only at h1; rw [h1]; exact ⟨.refl a, fun _ => rfl⟩
      · exact absurd rfl (h1 s)
    | ok u s => cases h2
    | assertFail s => cases h2
    | ub => cases h2
  cases c with
  | construct x i =>
    have hxy : x ≠ y := fun e => hnew i (by rw [e])
    cases i with
    | default n al => exact construct_keeps hy hxy (.inr (toX_threw h))
    | extents n es so al => exact construct_keeps hy hxy (.inr (toX_threw h))
    | gen n rs so al => exact construct_keeps hy hxy (.inr (toX_threw h))
    | copy z => exact construct_keeps hy hxy (.inr (toX_threw h))
    | convert z ss so al =>
      simp only [World.mayThrow] at h
      cases hl : w.lookup dbg z ss with
      | none => rw [hl] at h; cases h
      | some d => rw [hl] at h; exact construct_keeps hy hxy (.inr (toX_threw h))
  | destroy x =>
    have hxy : x ≠ y := fun e => hdes (by rw [e])
    have h := toX_threw h
    simp only [World.step] at h
    cases hx : w.objs x with
    | none => rw [hx] at h; cases h
    | some b =>
      rw [hx] at h
      simp only at h
      cases hr : b.deallocateSpace w.st with
      | ok u s => rw [hr] at h; cases h
      | throw s => rw [hr] at h; cases h; exact keeps_of_set hy (fun e => absurd e hxy)
      | assertFail s => rw [hr] at h; cases h
      | ub => rw [hr] at h; cases h
  | on x op =>
    cases hx : w.objs x with
    | none => simp only [World.mayThrow, hx] at h; cases h
    | some b =>
      have hab : x = y → b = a := fun e => by subst e; rw [hx] at hy; exact Option.some.inj hy
      cases op with
      | write idx v => simp only [World.mayThrow, hx] at h; exact keeps_of_objs hy (mem_objs (.inr (toX_threw h)))
      | writeChain idx v => simp only [World.mayThrow, hx] at h; exact keeps_of_objs hy (mem_objs (.inr (toX_threw h)))
      | assign input => simp only [World.mayThrow, hx, World.step] at h; exact keeps_of_objs hy (mem_objs (.inr (toX_threw h)))
      | forEach f => simp only [World.mayThrow, hx] at h; exact keeps_of_objs hy (mem_objs (.inr (toX_threw h)))
      | resize rs =>
        simp only [World.mayThrow, hx, World.step] at h
        exact hm (fun e => by rw [hab e]; exact hres rs (by rw [e])) (toX_threw h)
      | resizeList es =>
        simp only [World.mayThrow, hx, World.step] at h
        exact hm (fun e => by rw [hab e]; exact hlist es (by rw [e])) (toX_threw h)
      | _ =>
        simp only [World.mayThrow, hx] at h
        split at h <;> cases h
  | assign x z =>
    simp only [World.mayThrow, World.step] at h
    cases hx : w.objs x with
    | none => rw [hx] at h; cases h
    | some b =>
      cases hz : w.objs z with
      | none => rw [hx, hz] at h; cases h
      | some b' => rw [hx, hz] at h; exact keeps_of_objs hy (mem_objs (.inr (toX_threw h)))
  | assignPart x ss z ss' =>
    simp only [World.mayThrow, World.step] at h
    cases hx : w.lookup dbg x ss with
    | none => rw [hx] at h; cases h
    | some b =>
      cases hz : w.lookup dbg z ss' with
      | none => rw [hx, hz] at h; cases h
      | some b' => rw [hx, hz] at h; exact keeps_of_objs hy (mem_objs (.inr (toX_threw h)))
  | copyArray x ss z ss' =>
    simp only [World.mayThrow, World.step] at h
    cases hx : w.lookup dbg x ss with
    | none => rw [hx] at h; cases h
    | some b =>
      cases hz : w.lookup dbg z ss' with
      | none => rw [hx, hz] at h; cases h
      | some b' => rw [hx, hz] at h; exact keeps_of_objs hy (mem_objs (.inr (toX_threw h)))
  | write x ss idx v =>
    simp only [World.mayThrow, World.step] at h
    cases hx : w.lookup dbg x ss with
    | none => rw [hx] at h; cases h
    | some b => rw [hx] at h; exact keeps_of_objs hy (mem_objs (.inr (toX_threw h)))
  | forEach x ss f =>
    simp only [World.mayThrow, World.step] at h
    cases hx : w.lookup dbg x ss with
    | none => rw [hx] at h; cases h
    | some b => rw [hx] at h; exact keeps_of_objs hy (mem_objs (.inr (toX_threw h)))
  | _ =>
    simp only [World.mayThrow] at h
    split at h <;> cases h

/-! ### The abstract state of the other variables -/

theorem put_other {A A' : AState T} {x z : Nat} {idx : List Int} {v : T} (h : A.put x idx v = some A') (hz : z ≠ x) : A' z = A z := by
  unfold AState.put at h
  cases hx : A x with
  | none => rw [hx] at h; cases h
  | some a => rw [hx] at h; cases h; simp [AState.set, hz]

theorem move_other {A A' : AState T} {x y z : Nat} {ix iy : List Int} (h : A.move x ix y iy = some A') (hz : z ≠ x) : A' z = A z := by
  unfold AState.move at h
  obtain ⟨v, _, h⟩ := Option.bind_eq_some_iff.mp h
  exact put_other h hz

theorem copy_other {A A' : AState T} {x y z : Nat} {p q : APart} {ks : List (List Nat)} (h : AState.copy x p y q ks A = some A') (hz : z ≠ x) : A' z = A z := by
  induction ks generalizing A with
  | nil => cases h; rfl
  | cons k ks ih =>
    obtain ⟨A1, h1, h2⟩ := Option.bind_eq_some_iff.mp h
    rw [ih h2, move_other h1 hz]

theorem map_other {A A' : AState T} {x z : Nat} {p : APart} {f : T → T} {ks : List (List Nat)} (h : AState.map x p f ks A = some A') (hz : z ≠ x) : A' z = A z := by
  induction ks generalizing A with
  | nil => cases h; rfl
  | cons k ks ih =>
    obtain ⟨v, _, h⟩ := Option.bind_eq_some_iff.mp h
    obtain ⟨A1, h1, h2⟩ := Option.bind_eq_some_iff.mp h
    rw [ih h2, put_other h1 hz]

theorem step_other {dflt : T} {eq lt : T → T → Bool} {A A' : AState T} {c : Cmd T} {o : CObs T} {z : Nat} (h : A.step dflt eq lt c = some (o, A'))
    (hz : c.target ≠ some z) : A' z = A z := by
  have ne : ∀ {x : Nat}, (some x : Option Nat) ≠ some z → z ≠ x := fun h e => h (by rw [e])
  have hset : ∀ {x : Nat} {v : Option (AbsArr T)}, z ≠ x → A.set x v z = A z := fun h => by simp [AState.set, h]
  cases c with
  | construct x i => obtain ⟨a, _, h⟩ := Option.map_eq_some_iff.mp h; cases h; exact hset (ne hz)
  | destroy x => cases h; exact hset (ne hz)
  | on x op =>
    obtain ⟨a, _, h⟩ := Option.bind_eq_some_iff.mp h
    obtain ⟨r, _, h⟩ := Option.map_eq_some_iff.mp h
    cases h; exact hset (ne hz)
  | assign x y =>
    simp only [AState.step] at h
    split at h
    · cases h; rfl
    · obtain ⟨p, _, h⟩ := Option.bind_eq_some_iff.mp h
      obtain ⟨q, _, h⟩ := Option.bind_eq_some_iff.mp h
      obtain ⟨r, h1, h⟩ := Option.map_eq_some_iff.mp h
      cases h; exact copy_other h1 (ne hz)
  | assignPart x ss y ss' =>
    obtain ⟨p, _, h⟩ := Option.bind_eq_some_iff.mp h
    obtain ⟨q, _, h⟩ := Option.bind_eq_some_iff.mp h
    obtain ⟨r, h1, h⟩ := Option.map_eq_some_iff.mp h
    cases h; exact copy_other h1 (ne hz)
  | copyArray x ss y ss' =>
    obtain ⟨p, _, h⟩ := Option.bind_eq_some_iff.mp h
    obtain ⟨q, _, h⟩ := Option.bind_eq_some_iff.mp h
    obtain ⟨r, h1, h⟩ := Option.map_eq_some_iff.mp h
    cases h; exact copy_other h1 (ne hz)
  | read x ss idx =>
    obtain ⟨p, _, h⟩ := Option.bind_eq_some_iff.mp h
    obtain ⟨r, _, h⟩ := Option.map_eq_some_iff.mp h
    cases h; rfl
  | write x ss idx v =>
    obtain ⟨p, _, h⟩ := Option.bind_eq_some_iff.mp h
    obtain ⟨r, h1, h⟩ := Option.map_eq_some_iff.mp h
    cases h; exact put_other h1 (ne hz)
  | forEach x ss f =>
    obtain ⟨p, _, h⟩ := Option.bind_eq_some_iff.mp h
    obtain ⟨r, h1, h⟩ := Option.map_eq_some_iff.mp h
    cases h; exact map_other h1 (ne hz)
  | traverse x ss =>
    obtain ⟨p, _, h⟩ := Option.bind_eq_some_iff.mp h
    obtain ⟨r, _, h⟩ := Option.map_eq_some_iff.mp h
    cases h; rfl
  | equal x ss y ss' =>
    obtain ⟨p, _, h⟩ := Option.bind_eq_some_iff.mp h
    obtain ⟨r, _, h⟩ := Option.map_eq_some_iff.mp h
    cases h; rfl
  | less x ss y ss' =>
    obtain ⟨p, _, h⟩ := Option.bind_eq_some_iff.mp h
    obtain ⟨r, _, h⟩ := Option.map_eq_some_iff.mp h
    cases h; rfl
  | shape x ss =>
    obtain ⟨r, _, h⟩ := Option.map_eq_some_iff.mp h
    cases h; rfl

theorem interrupted_other {A A' : AState T} {c : Cmd T} {z : Nat} (h : A.Interrupted c A') (hz : c.target ≠ some z) : A' z = A z := by
  have ne : ∀ {x : Nat}, (some x : Option Nat) ≠ some z → z ≠ x := fun h e => h (by rw [e])
  cases c with
  | construct x i => have : A' = A := h; rw [this]
  | destroy x => cases h
  | on x op =>
    cases op with
    | write idx v => obtain ⟨_, h⟩ := h; exact put_other h (ne hz)
    | writeChain idx v => obtain ⟨_, h⟩ := h; exact put_other h (ne hz)
    | assign input => obtain ⟨_, _, _, _, _, _, rfl⟩ := h; simp [AState.set, ne hz]
    | forEach f => obtain ⟨_, _, _, _, _, _, _, _, h1, h2⟩ := h; rw [put_other h2 (ne hz), map_other h1 (ne hz)]
    | resize rs => have : A' = A := h; rw [this]
    | resizeList es => have : A' = A := h; rw [this]
    | _ => cases h
  | assign x y => obtain ⟨_, _, _, _, _, _, _, _, _, _, _, h1, h2⟩ := h; rw [put_other h2 (ne hz), copy_other h1 (ne hz)]
  | assignPart x ss y ss' => obtain ⟨_, _, _, _, _, _, _, _, _, _, h1, h2⟩ := h; rw [put_other h2 (ne hz), copy_other h1 (ne hz)]
  | copyArray x ss y ss' => obtain ⟨_, _, _, _, _, _, _, _, _, _, h1, h2⟩ := h; rw [put_other h2 (ne hz), copy_other h1 (ne hz)]
  | write x ss idx v => obtain ⟨_, _, _, h⟩ := h; exact put_other h (ne hz)
  | forEach x ss f => obtain ⟨_, _, _, _, _, _, _, _, h1, h2⟩ := h; rw [put_other h2 (ne hz), map_other h1 (ne hz)]
  | _ => cases h

end MultiArray
