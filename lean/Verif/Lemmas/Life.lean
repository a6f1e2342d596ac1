import Verif.Lemmas.HeldM
import Verif.SpecLife

/- Registers that hold pointers into the arrays of objects. -/
set_option autoImplicit false

namespace MultiArray
open Spec
variable {T : Type}

/-- The arrays of `d` are those of `dd` from entry `k` on. -/
def Drops (d dd : Desc) (k : Nat) : Prop := d.extents = dd.extents.drop k ∧ d.strides = dd.strides.drop k ∧ d.bases = dd.bases.drop k

theorem Drops.tail {d dd : Desc} {k : Nat} (h : Drops d dd k) : Desc.tail dd k d.base = d := by
  obtain ⟨p, e, s, b⟩ := d
  obtain ⟨h1, h2, h3⟩ := h
  simp only at h1 h2 h3
  subst h1 h2 h3
  rfl

theorem drops_access {dbg : Bool} {i : Int} {d d' dd : Desc} {k : Nat} (h : access dbg i d = .ok d') (hd : Drops d dd k) : Drops d' dd (k + 1) := by
  obtain ⟨p, es, ss, bs⟩ := d
  obtain ⟨h1, h2, h3⟩ := hd
  simp only at h1 h2 h3
  cases es with
  | nil => cases h
  | cons e es =>
    cases ss with
    | nil => cases h
    | cons s ss =>
      cases bs with
      | nil => cases h
      | cons b bs =>
        simp only [access] at h
        cases ha : Res.assert dbg (decide (i - b ≥ 0)) with
        | assertFail => rw [ha] at h; cases h
        | ub => rw [ha] at h; cases h
        | ok u =>
          rw [ha, Res.bind_ok] at h
          cases hb : Res.assert dbg (decide ((i - b).toNat < e)) with
          | assertFail => rw [hb] at h; cases h
          | ub => rw [hb] at h; cases h
          | ok u =>
            rw [hb, Res.bind_ok] at h
            cases h
            refine ⟨?_, ?_, ?_⟩
            · show es = _; rw [← List.drop_drop, ← h1]; rfl
            · show ss = _; rw [← List.drop_drop, ← h2]; rfl
            · show bs = _; rw [← List.drop_drop, ← h3]; rfl

theorem placeOf_gone (ss : List Sel) (k : Nat) : (placeOf (.gone, k) ss).1 = .gone := by
  induction ss generalizing k with
  | nil => rfl
  | cons s ss ih => cases s <;> exact ih _

theorem placeOf_home (p : Home × Nat) (ss : List Sel) : (placeOf p ss).1 = if ss.all Sel.isAt then p.1 else .gone := by
  induction ss generalizing p with
  | nil => rfl
  | cons s ss ih =>
    cases s with
    | «at» i => simp only [placeOf, ih, List.all_cons, Sel.isAt, Bool.true_and]
    | view xs => simp only [placeOf, placeOf_gone, List.all_cons, Sel.isAt, Bool.false_and]; rfl
    | viewFrom xs bs => simp only [placeOf, placeOf_gone, List.all_cons, Sel.isAt, Bool.false_and]; rfl

theorem drops_resolve {dbg : Bool} {ss : List Sel} {d d' dd : Desc} {p : Home × Nat} (h : resolve dbg ss d = .ok d') (hd : Drops d dd p.2) (hg : (placeOf p ss).1 ≠ .gone) :
    Drops d' dd (placeOf p ss).2 ∧ (placeOf p ss).1 = p.1 := by
  induction ss generalizing d p with
  | nil => cases h; exact ⟨hd, rfl⟩
  | cons s ss ih =>
    cases s with
    | «at» i =>
      simp only [resolve] at h
      cases ha : d.bracket dbg i with
      | assertFail => rw [ha] at h; cases h
      | ub => rw [ha] at h; cases h
      | ok d1 =>
        rw [ha, Res.bind_ok] at h
        exact ih (p := (p.1, p.2 + 1)) h (drops_access ha hd) hg
    | view xs => exact absurd (placeOf_gone ss 0) hg
    | viewFrom xs bs => exact absurd (placeOf_gone ss 0) hg

/-- The descriptor in a register. -/
def heldDesc : Held Desc AnyIt → Desc
  | .handle d => d
  | .it (.fwd i) => i.d
  | .it (.bwd i) => i.base.d

variable {dbg : Bool} {w : World T} {pr : PRegs}

/-- The arrays of a register are where its place says. -/
theorem now_place {r : Nat} {v : Held Desc AnyIt} (h : pr.now w r = some v) : ∃ dd, pr.arrays w (pr.place r).1 = some dd ∧ Drops (heldDesc v) dd (pr.place r).2 := by
  unfold PRegs.now at h
  cases hr : pr r with
  | none => rw [hr] at h; cases h
  | some a =>
    rw [hr, Option.bind_some] at h
    cases a with
    | view d =>
      cases h
      exact ⟨d, by simp only [PRegs.place, hr, PRegs.arrays], by simp [Drops, PRegs.place, hr, heldDesc]⟩
    | sub g k b =>
      simp only [PHeld.now, Option.map_eq_some_iff] at h
      obtain ⟨dd, h1, rfl⟩ := h
      exact ⟨dd, by simpa only [PRegs.place, hr] using h1, by simp [Drops, PRegs.place, hr, heldDesc, Desc.tail]⟩
    | fwd g k i b =>
      simp only [PHeld.now, Option.map_eq_some_iff] at h
      obtain ⟨dd, h1, rfl⟩ := h
      exact ⟨dd, by simpa only [PRegs.place, hr] using h1, by simp [Drops, PRegs.place, hr, heldDesc, Desc.tail]⟩
    | bwd g k i b =>
      simp only [PHeld.now, Option.map_eq_some_iff] at h
      obtain ⟨dd, h1, rfl⟩ := h
      exact ⟨dd, by simpa only [PRegs.place, hr] using h1, by simp [Drops, PRegs.place, hr, heldDesc, Desc.tail]⟩

theorem val_some {α : Type} {r : Res α} {a : α} (h : Res.val? r = some a) : r = .ok a := by
  cases r with
  | ok x => cases h; rfl
  | assertFail => cases h
  | ub => cases h

theorem iter_reg {its : CRegs} {r : Nat} {i : AnyIt} (h : its.iter r = some i) : its r = some (.it i) := by
  unfold CRegs.iter at h
  split at h
  · cases h; assumption
  · cases h

theorem drops_deref {i : AnyIt} {d dd : Desc} {k : Nat} (h : i.deref dbg = .ok d) (hd : Drops (heldDesc (.it i)) dd k) : Drops d dd (k + 1) := by
  cases i with
  | fwd i => exact drops_access h hd
  | bwd i => exact drops_access (d := i.base.d) h hd

theorem drops_index {i : AnyIt} {n : Int} {d dd : Desc} {k : Nat} (h : i.index dbg n = .ok d) (hd : Drops (heldDesc (.it i)) dd k) : Drops d dd (k + 1) := by
  cases i with
  | fwd i => exact drops_access (d := i.d) h hd
  | bwd i => exact drops_access (d := i.base.d) h hd

/-- The arrays of an expression are where its place says. -/
theorem desc_place {e : Ex} {d : Desc} (h : e.desc dbg (pr.now w) w = some d) (hg : (e.place pr).1 ≠ .gone) :
    ∃ dd, pr.arrays w (e.place pr).1 = some dd ∧ Drops d dd (e.place pr).2 := by
  cases e with
  | var x ss =>
    simp only [Ex.desc, World.lookup, Option.bind_eq_some_iff] at h
    obtain ⟨a, h1, h2⟩ := h
    obtain ⟨k1, k2⟩ := drops_resolve (p := (.var x, 0)) (dd := a.ref.desc) (val_some h2) (by simp [Drops]) hg
    refine ⟨a.ref.desc, ?_, k1⟩
    show pr.arrays w (placeOf (.var x, 0) ss).1 = _
    rw [k2]
    simp only [PRegs.arrays, h1, Option.map_some]
  | held r ss =>
    simp only [Ex.desc] at h
    split at h
    · rename_i d0 hr
      obtain ⟨dd, h1, h2⟩ := now_place hr
      obtain ⟨k1, k2⟩ := drops_resolve (p := pr.place r) (val_some h) h2 hg
      exact ⟨dd, by show pr.arrays w (placeOf (pr.place r) ss).1 = _; rw [k2, h1], k1⟩
    · cases h
  | deref r ss =>
    simp only [Ex.desc, Option.bind_eq_some_iff] at h
    obtain ⟨i, h1, d0, h2, h3⟩ := h
    obtain ⟨dd, g1, g2⟩ := now_place (iter_reg h1)
    obtain ⟨k1, k2⟩ := drops_resolve (p := ((pr.place r).1, (pr.place r).2 + 1)) (val_some h3) (drops_deref (val_some h2) g2) hg
    exact ⟨dd, by show pr.arrays w (placeOf ((pr.place r).1, (pr.place r).2 + 1) ss).1 = _; rw [k2, g1], k1⟩
  | index r n ss =>
    simp only [Ex.desc, Option.bind_eq_some_iff] at h
    obtain ⟨i, h1, d0, h2, h3⟩ := h
    obtain ⟨dd, g1, g2⟩ := now_place (iter_reg h1)
    obtain ⟨k1, k2⟩ := drops_resolve (p := ((pr.place r).1, (pr.place r).2 + 1)) (val_some h3) (drops_index (val_some h2) g2) hg
    exact ⟨dd, by show pr.arrays w (placeOf ((pr.place r).1, (pr.place r).2 + 1) ss).1 = _; rw [k2, g1], k1⟩

theorem begin_d {d : Desc} {i : It} (h : Res.val? d.begin = some i) : i.d = d := by
  have := val_some h
  unfold Desc.begin at this
  cases hb : Res.get d.bases 0 with
  | ok x => rw [hb] at this; cases this; rfl
  | assertFail => rw [hb] at this; cases this
  | ub => rw [hb] at this; cases this

theorem end_d {d : Desc} {i : It} (h : Res.val? d.end = some i) : i.d = d := by
  have := val_some h
  unfold Desc.end at this
  cases hb : Res.get d.bases 0 with
  | ok x =>
    rw [hb, Res.bind_ok] at this
    cases he : Res.get d.extents 0 with
    | ok y => rw [he] at this; cases this; rfl
    | assertFail => rw [he] at this; cases this
    | ub => rw [he] at this; cases this
  | assertFail => rw [hb] at this; cases this
  | ub => rw [hb] at this; cases this

theorem rbegin_d {d : Desc} {i : RIt} (h : Res.val? d.rbegin = some i) : i.base.d = d := by
  have := val_some h
  unfold Desc.rbegin at this
  cases hb : d.end with
  | ok x => rw [hb] at this; cases this; exact end_d (by rw [hb]; rfl)
  | assertFail => rw [hb] at this; cases this
  | ub => rw [hb] at this; cases this

theorem rend_d {d : Desc} {i : RIt} (h : Res.val? d.rend = some i) : i.base.d = d := by
  have := val_some h
  unfold Desc.rend at this
  cases hb : d.begin with
  | ok x => rw [hb] at this; cases this; exact begin_d (by rw [hb]; rfl)
  | assertFail => rw [hb] at this; cases this
  | ub => rw [hb] at this; cases this

/-- An operation on registers sets the register it should, to a value whose arrays are where `placed` says. -/
theorem regX_placed {h : HCmd T} {o : HObs T} {its' : CRegs} (hx : w.regX dbg (pr.now w) h = some (o, its')) {r : Nat} {own : Bool} {p : Home × Nat}
    (hp : h.placed pr = some (r, own, p)) : ∃ v, its' = setReg (pr.now w) r v ∧ (own = true → ∃ d, v = .handle d) ∧
      (p.1 ≠ .gone → ∃ dd, pr.arrays w p.1 = some dd ∧ Drops (heldDesc v) dd p.2) := by
  cases h with
  | hold r0 e =>
    cases hp
    simp only [World.regX, Option.map_eq_some_iff] at hx
    obtain ⟨d, h1, h2⟩ := hx
    cases h2
    exact ⟨_, rfl, fun _ => ⟨d, rfl⟩, desc_place h1⟩
  | begin r0 e =>
    cases hp
    simp only [World.regX, Option.map_eq_some_iff, Option.bind_eq_some_iff] at hx
    obtain ⟨i, ⟨d, h1, h3⟩, h2⟩ := hx
    cases h2
    exact ⟨_, rfl, fun e => (nomatch e), fun hg => by show ∃ dd, _ ∧ Drops i.d dd _; rw [begin_d h3]; exact desc_place h1 hg⟩
  | fin r0 e =>
    cases hp
    simp only [World.regX, Option.map_eq_some_iff, Option.bind_eq_some_iff] at hx
    obtain ⟨i, ⟨d, h1, h3⟩, h2⟩ := hx
    cases h2
    exact ⟨_, rfl, fun e => (nomatch e), fun hg => by show ∃ dd, _ ∧ Drops i.d dd _; rw [end_d h3]; exact desc_place h1 hg⟩
  | rbegin r0 e =>
    cases hp
    simp only [World.regX, Option.map_eq_some_iff, Option.bind_eq_some_iff] at hx
    obtain ⟨i, ⟨d, h1, h3⟩, h2⟩ := hx
    cases h2
    exact ⟨_, rfl, fun e => (nomatch e), fun hg => by show ∃ dd, _ ∧ Drops i.base.d dd _; rw [rbegin_d h3]; exact desc_place h1 hg⟩
  | rfin r0 e =>
    cases hp
    simp only [World.regX, Option.map_eq_some_iff, Option.bind_eq_some_iff] at hx
    obtain ⟨i, ⟨d, h1, h3⟩, h2⟩ := hx
    cases h2
    exact ⟨_, rfl, fun e => (nomatch e), fun hg => by show ∃ dd, _ ∧ Drops i.base.d dd _; rw [rend_d h3]; exact desc_place h1 hg⟩
  | copy r0 r' =>
    cases hp
    simp only [World.regX, Option.map_eq_some_iff] at hx
    obtain ⟨i, h1, h2⟩ := hx
    cases h2
    exact ⟨_, rfl, fun e => (nomatch e), fun _ => now_place (iter_reg h1)⟩
  | base r0 r' =>
    cases hp
    simp only [World.regX, Option.map_eq_some_iff, Option.bind_eq_some_iff] at hx
    obtain ⟨j, ⟨i, h1, h3⟩, h2⟩ := hx
    cases h2
    refine ⟨_, rfl, fun e => (nomatch e), fun _ => ?_⟩
    have := now_place (iter_reg h1)
    cases i with
    | fwd i => cases h3
    | bwd i => cases h3; exact this
  | inc r0 =>
    cases hp
    simp only [World.regX, Option.map_eq_some_iff] at hx
    obtain ⟨i, h1, h2⟩ := hx
    cases h2
    refine ⟨_, rfl, fun e => (nomatch e), fun _ => ?_⟩
    have := now_place (iter_reg h1)
    cases i <;> exact this
  | dec r0 =>
    cases hp
    simp only [World.regX, Option.map_eq_some_iff] at hx
    obtain ⟨i, h1, h2⟩ := hx
    cases h2
    refine ⟨_, rfl, fun e => (nomatch e), fun _ => ?_⟩
    have := now_place (iter_reg h1)
    cases i <;> exact this
  | add r0 n =>
    cases hp
    simp only [World.regX, Option.map_eq_some_iff] at hx
    obtain ⟨i, h1, h2⟩ := hx
    cases h2
    refine ⟨_, rfl, fun e => (nomatch e), fun _ => ?_⟩
    have := now_place (iter_reg h1)
    cases i <;> exact this
  | _ => cases hp

/-- An operation that sets no register leaves them alone. -/
theorem regX_none {h : HCmd T} {o : HObs T} {its its' : CRegs} (hx : w.regX dbg its h = some (o, its')) (hp : h.placed pr = none) : its' = its := by
  cases h with
  | equal r r' =>
    simp only [World.regX, Option.map_eq_some_iff, Option.bind_eq_some_iff] at hx
    obtain ⟨i, _, j, _, b, _, h2⟩ := hx
    cases h2; rfl
  | less r r' =>
    simp only [World.regX, Option.map_eq_some_iff, Option.bind_eq_some_iff] at hx
    obtain ⟨i, _, j, _, b, _, h2⟩ := hx
    cases h2; rfl
  | diff r r' =>
    simp only [World.regX, Option.map_eq_some_iff, Option.bind_eq_some_iff] at hx
    obtain ⟨i, _, j, _, b, _, h2⟩ := hx
    cases h2; rfl
  | plain c => cases hx
  | part c => cases hx
  | _ => cases hp

/-- Reading back what was stored. -/
theorem now_store {pr' : PRegs} {own : Bool} {p : Home × Nat} {v : Held Desc AnyIt} (h : own = true → ∃ d, v = .handle d)
    (h' : own = false → ∃ dd, pr'.arrays w p.1 = some dd ∧ Drops (heldDesc v) dd p.2) : (PHeld.store own p v).now pr' w = some v := by
  cases own with
  | true =>
    obtain ⟨d, rfl⟩ := h rfl
    rfl
  | false =>
    obtain ⟨dd, h1, h2⟩ := h' rfl
    cases v with
    | handle d =>
      simp only [PHeld.store, PHeld.now, Bool.false_eq_true, if_false, h1, Option.map_some]
      rw [show Desc.tail dd p.2 d.base = d from h2.tail]
    | it i =>
      cases i with
      | fwd i =>
        simp only [PHeld.store, PHeld.now, h1, Option.map_some]
        rw [show Desc.tail dd p.2 i.d.base = i.d from h2.tail]
      | bwd i =>
        simp only [PHeld.store, PHeld.now, h1, Option.map_some]
        rw [show Desc.tail dd p.2 i.base.d.base = i.base.d from h2.tail]

theorem now_congr {pr' : PRegs} {w' : World T} {r : Nat} (h1 : pr' r = pr r) (h2 : pr'.arrays w' (pr.place r).1 = pr.arrays w (pr.place r).1) :
    pr'.now w' r = pr.now w r := by
  unfold PRegs.now
  rw [h1]
  cases hr : pr r with
  | none => rfl
  | some a =>
    unfold PRegs.place at h2
    rw [hr] at h2
    cases a with
    | view d => rfl
    | sub g k b => simp only [Option.bind_some, PHeld.now]; rw [h2]
    | fwd g k i b => simp only [Option.bind_some, PHeld.now]; rw [h2]
    | bwd g k i b => simp only [Option.bind_some, PHeld.now]; rw [h2]

theorem arrays_kill (g g' : Home) : (pr.kill g).arrays w g' = pr.arrays w g' := by
  cases g' with
  | var x => rfl
  | gone => rfl
  | reg r =>
    simp only [PRegs.arrays, PRegs.kill]
    cases pr r with
    | none => rfl
    | some a => cases a <;> rfl

theorem kill_same {r : Nat} {g : Home} (h : (pr.place r).1 ≠ g ∨ ∃ d, pr r = some (.view d)) : pr.kill g r = pr r := by
  unfold PRegs.kill
  cases hr : pr r with
  | none => rfl
  | some a =>
    unfold PRegs.place at h
    rw [hr] at h
    cases a with
    | view d => rfl
    | sub g' k b => simp only [Option.map_some, PHeld.kill]; rw [if_neg (by rcases h with h | ⟨d, h⟩; exact h; cases h)]
    | fwd g' k i b => simp only [Option.map_some, PHeld.kill]; rw [if_neg (by rcases h with h | ⟨d, h⟩; exact h; cases h)]
    | bwd g' k i b => simp only [Option.map_some, PHeld.kill]; rw [if_neg (by rcases h with h | ⟨d, h⟩; exact h; cases h)]

/-! ### The invariant -/

/-- The valid registers denote what they should, and their homes are as the abstract machine says. -/
structure LInv (dbg : Bool) (w : World T) (A : AState T) (ρ : ARegs) (η : Homes) (pr : PRegs) : Prop where
  regs : RegInv dbg w A ρ (pr.now w)
  home : ∀ r h, ρ r = some h → (pr.place r).1 = η r ∧ (∀ x, η r = .var x → x = h.owner) ∧ (η r = .reg r → ∃ d, pr r = some (.view d))

variable {A : AState T} {ρ : ARegs} {η : Homes} {L : List Nat}

theorem LInv.view (h : LInv dbg w A ρ η pr) {r : Nat} {a : Held (Nat × List Sel) ItPos} (hr : ρ r = some a) :
    decide (η r = .reg r) = (match pr r with | some (.view _) => true | _ => false) := by
  obtain ⟨h1, _, h2⟩ := h.home r a hr
  by_cases he : η r = .reg r
  · obtain ⟨d, hd⟩ := h2 he
    rw [hd]
    simp [he]
  · rw [decide_eq_false he]
    cases hp : pr r with
    | none => rfl
    | some b =>
      cases b with
      | view d =>
        unfold PRegs.place at h1
        rw [hp] at h1
        exact absurd h1.symm he
      | _ => rfl

theorem elemAt_var {p : ItPos} {n : Int} {x : Nat × List Sel} (h : A.elemAt p n = some x) : x.1 = p.var := by
  unfold AState.elemAt at h
  obtain ⟨q, _, h2⟩ := Option.bind_eq_some_iff.mp h
  obtain ⟨e, _, h4⟩ := Option.bind_eq_some_iff.mp h2
  split at h4
  · cases h4; rfl
  · cases h4

/-- Expressions. -/
theorem LInv.path (h : LInv dbg w A ρ η pr) {e : Ex} {x : Nat × List Sel} (hp : A.path ρ e = some x) :
    e.home η = (e.place pr).1 ∧ e.isView η = e.isViewP pr ∧ ∀ y, e.home η = .var y → y = x.1 := by
  cases e with
  | var x0 ss =>
    cases hp
    refine ⟨by simp only [Ex.home, Ex.place, placeOf_home], rfl, fun y hy => ?_⟩
    simp only [Ex.home] at hy
    split at hy
    · cases hy; rfl
    · cases hy
  | held r ss =>
    simp only [AState.path] at hp
    split at hp
    · rename_i h0 hr
      cases hp
      obtain ⟨k1, k2, k3⟩ := h.home r _ hr
      refine ⟨by simp only [Ex.home, Ex.place, placeOf_home, k1], congrArg (fun b => endsInView ss || (ss.isEmpty && b)) (h.view hr), fun y hy => ?_⟩
      simp only [Ex.home] at hy
      split at hy
      · exact k2 y hy
      · cases hy
    · cases hp
  | deref r ss =>
    simp only [AState.path, Option.bind_eq_some_iff, Option.map_eq_some_iff] at hp
    obtain ⟨p, hr, h0, he, rfl⟩ := hp
    obtain ⟨k1, k2, k3⟩ := h.home r _ (iter_some hr)
    refine ⟨by simp only [Ex.home, Ex.place, placeOf_home, k1], rfl, fun y hy => ?_⟩
    simp only [Ex.home] at hy
    split at hy
    · exact (k2 y hy).trans (elemAt_var he).symm
    · cases hy
  | index r n ss =>
    simp only [AState.path, Option.bind_eq_some_iff, Option.map_eq_some_iff] at hp
    obtain ⟨p, hr, h0, he, rfl⟩ := hp
    obtain ⟨k1, k2, k3⟩ := h.home r _ (iter_some hr)
    refine ⟨by simp only [Ex.home, Ex.place, placeOf_home, k1], rfl, fun y hy => ?_⟩
    simp only [Ex.home] at hy
    split at hy
    · exact (k2 y hy).trans (elemAt_var he).symm
    · cases hy

theorem range_path {e : Ex} {h : (Nat × List Sel) × Nat} (he : A.range ρ e = some h) : A.path ρ e = some h.1 := by
  unfold AState.range at he
  obtain ⟨h', h1, h2⟩ := Option.bind_eq_some_iff.mp he
  obtain ⟨n, _, rfl⟩ := Option.map_eq_some_iff.mp h2
  exact (legalPath_some h1).1

/-- What an operation on registers does abstractly, and where the library puts the value. -/
theorem LInv.step (h : LInv dbg w A ρ η pr) {c : HCmd T} {o : HObs T} {ρ' : ARegs} (hs : A.regStep ρ c = some (o, ρ')) :
    (c.homed η = none ∧ c.placed pr = none ∧ ρ' = ρ) ∨
    ∃ r own p a, c.homed η = some (r, own, p.1) ∧ c.placed pr = some (r, own, p) ∧ ρ' = setReg ρ r a ∧ ∀ x, p.1 = .var x → x = a.owner := by
  have hiter : ∀ {r : Nat} {p : ItPos}, ρ.iter r = some p → η r = (pr.place r).1 ∧ ∀ x, (pr.place r).1 = .var x → x = p.var := by
    intro r p hr
    obtain ⟨k1, k2, _⟩ := h.home r _ (iter_some hr)
    exact ⟨k1.symm, fun x hx => k2 x (by rw [← k1, hx])⟩
  have hmove : ∀ {p p' : ItPos} {n : Int}, A.move? p n = some p' → p'.var = p.var := by
    intro p p' n hm
    unfold AState.move? at hm
    obtain ⟨e, _, h2⟩ := Option.bind_eq_some_iff.mp hm
    split at h2
    · cases h2; rfl
    · cases h2
  cases c with
  | plain c => cases hs
  | part c => cases hs
  | hold r e =>
    simp only [AState.regStep, Option.map_eq_some_iff] at hs
    obtain ⟨x, h1, h2⟩ := hs
    cases h2
    obtain ⟨k1, k2, k3⟩ := h.path (legalPath_some h1).1
    exact .inr ⟨r, _, _, _, by simp only [HCmd.homed, k1, k2], rfl, rfl, fun y hy => k3 y (k1.trans hy)⟩
  | begin r e =>
    simp only [AState.regStep, Option.map_eq_some_iff] at hs
    obtain ⟨x, h1, h2⟩ := hs
    cases h2
    obtain ⟨k1, k2, k3⟩ := h.path (range_path h1)
    exact .inr ⟨r, _, _, _, by simp only [HCmd.homed, k1], rfl, rfl, fun y hy => k3 y (k1.trans hy)⟩
  | fin r e =>
    simp only [AState.regStep, Option.map_eq_some_iff] at hs
    obtain ⟨x, h1, h2⟩ := hs
    cases h2
    obtain ⟨k1, k2, k3⟩ := h.path (range_path h1)
    exact .inr ⟨r, _, _, _, by simp only [HCmd.homed, k1], rfl, rfl, fun y hy => k3 y (k1.trans hy)⟩
  | rbegin r e =>
    simp only [AState.regStep, Option.map_eq_some_iff] at hs
    obtain ⟨x, h1, h2⟩ := hs
    cases h2
    obtain ⟨k1, k2, k3⟩ := h.path (range_path h1)
    exact .inr ⟨r, _, _, _, by simp only [HCmd.homed, k1], rfl, rfl, fun y hy => k3 y (k1.trans hy)⟩
  | rfin r e =>
    simp only [AState.regStep, Option.map_eq_some_iff] at hs
    obtain ⟨x, h1, h2⟩ := hs
    cases h2
    obtain ⟨k1, k2, k3⟩ := h.path (range_path h1)
    exact .inr ⟨r, _, _, _, by simp only [HCmd.homed, k1], rfl, rfl, fun y hy => k3 y (k1.trans hy)⟩
  | copy r r' =>
    simp only [AState.regStep, Option.map_eq_some_iff] at hs
    obtain ⟨p, h1, h2⟩ := hs
    cases h2
    obtain ⟨k1, k2⟩ := hiter h1
    exact .inr ⟨r, _, _, _, by simp only [HCmd.homed, k1], rfl, rfl, k2⟩
  | base r r' =>
    simp only [AState.regStep, Option.map_eq_some_iff, Option.bind_eq_some_iff] at hs
    obtain ⟨p', ⟨p, h1, h3⟩, h2⟩ := hs
    cases h2
    obtain ⟨k1, k2⟩ := hiter h1
    have hv : p'.var = p.var := by
      unfold AState.base? at h3
      obtain ⟨e, _, h4⟩ := Option.bind_eq_some_iff.mp h3
      split at h4
      · cases h4; rfl
      · cases h4
    exact .inr ⟨r, _, _, _, by simp only [HCmd.homed, k1], rfl, rfl, fun x hx => (k2 x hx).trans hv.symm⟩
  | inc r =>
    simp only [AState.regStep, Option.map_eq_some_iff, Option.bind_eq_some_iff] at hs
    obtain ⟨p', ⟨p, h1, h3⟩, h2⟩ := hs
    cases h2
    obtain ⟨k1, k2⟩ := hiter h1
    exact .inr ⟨r, _, _, _, by simp only [HCmd.homed, k1], rfl, rfl, fun x hx => (k2 x hx).trans (hmove h3).symm⟩
  | dec r =>
    simp only [AState.regStep, Option.map_eq_some_iff, Option.bind_eq_some_iff] at hs
    obtain ⟨p', ⟨p, h1, h3⟩, h2⟩ := hs
    cases h2
    obtain ⟨k1, k2⟩ := hiter h1
    exact .inr ⟨r, _, _, _, by simp only [HCmd.homed, k1], rfl, rfl, fun x hx => (k2 x hx).trans (hmove h3).symm⟩
  | add r n =>
    simp only [AState.regStep, Option.map_eq_some_iff, Option.bind_eq_some_iff] at hs
    obtain ⟨p', ⟨p, h1, h3⟩, h2⟩ := hs
    cases h2
    obtain ⟨k1, k2⟩ := hiter h1
    exact .inr ⟨r, _, _, _, by simp only [HCmd.homed, k1], rfl, rfl, fun x hx => (k2 x hx).trans (hmove h3).symm⟩
  | equal r r' =>
    simp only [AState.regStep, Option.map_eq_some_iff] at hs
    obtain ⟨pq, h1, h2⟩ := hs
    cases h2
    exact .inl ⟨rfl, rfl, rfl⟩
  | less r r' =>
    simp only [AState.regStep, Option.map_eq_some_iff] at hs
    obtain ⟨pq, h1, h2⟩ := hs
    cases h2
    exact .inl ⟨rfl, rfl, rfl⟩
  | diff r r' =>
    simp only [AState.regStep, Option.map_eq_some_iff] at hs
    obtain ⟨pq, h1, h2⟩ := hs
    cases h2
    exact .inl ⟨rfl, rfl, rfl⟩

/-- The arrays of objects other than the one in register `r` do not change when `r` is set. -/
theorem arrays_set {r : Nat} {b : Option PHeld} {g : Home} (h : g ≠ .reg r) :
    (PRegs.kill (fun r' => if r' = r then b else pr r') (.reg r)).arrays w g = pr.arrays w g := by
  rw [arrays_kill]
  cases g with
  | var x => rfl
  | gone => rfl
  | reg r0 =>
    have : r0 ≠ r := fun e => h (by rw [e])
    unfold PRegs.arrays
    simp only [if_neg this]

/-- One operation on registers. -/
theorem LInv.reg (hi : InvX L w A) (h : LInv dbg w A ρ η pr) {c : HCmd T} {o : HObs T} {ρ' : ARegs} (hs : A.regStep ρ c = some (o, ρ')) (hh : c.Homed η) :
    ∃ its', w.regX dbg (pr.now w) c = some (o, its') ∧ LInv dbg w A (c.remaining η ρ') (c.homes η) (pr.update its' c) := by
  obtain ⟨its', hx, hreg⟩ := reg_exec hi h.regs hs
  refine ⟨its', hx, ?_⟩
  rcases h.step hs with ⟨g1, g2, rfl⟩ | ⟨r, own, p, a, g1, g2, rfl, g4⟩
  · have hu : pr.update its' c = pr := by
      unfold PRegs.update
      rw [g2]
      cases c with
      | plain c => cases hs
      | _ => rfl
    have hi' := regX_none (pr := pr) hx g2
    subst hi'
    rw [hu]
    unfold HCmd.remaining HCmd.homes
    rw [g1]
    exact ⟨hreg, h.home⟩
  · obtain ⟨v, rfl, hv1, hv2⟩ := regX_placed hx g2
    unfold HCmd.Homed at hh
    rw [g1] at hh
    simp only at hh
    have hup : pr.update (setReg (pr.now w) r v) c = PRegs.kill (fun r' => if r' = r then some (PHeld.store own p v) else pr r') (.reg r) := by
      unfold PRegs.update
      rw [g2]
      simp [setReg]
    have hpr : PRegs.kill (fun r' => if r' = r then some (PHeld.store own p v) else pr r') (.reg r) r = some (PHeld.store own p v) := by
      rw [kill_same]
      · simp
      · cases own with
        | true =>
          obtain ⟨d, rfl⟩ := hv1 rfl
          exact .inr ⟨d, by simp [PHeld.store]⟩
        | false =>
          refine .inl ?_
          obtain ⟨k1, k2⟩ : p.1 ≠ .gone ∧ p.1 ≠ .reg r := by simpa using hh
          cases v with
          | handle d => simpa [PRegs.place, PHeld.store] using k2
          | it i => cases i <;> simpa [PRegs.place, PHeld.store] using k2
    have hother : ∀ r', r' ≠ r → η r' ≠ .reg r → ∀ b, ρ r' = some b →
        PRegs.kill (fun r' => if r' = r then some (PHeld.store own p v) else pr r') (.reg r) r' = pr r' := by
      intro r' hne hnr b hb
      unfold PRegs.kill
      simp only [if_neg hne]
      exact kill_same (pr := pr) (.inl (by rw [(h.home r' b hb).1]; exact hnr))
    rw [hup]
    unfold HCmd.remaining HCmd.homes
    rw [g1]
    simp only
    generalize hpq : PRegs.kill (fun r' => if r' = r then some (PHeld.store own p v) else pr r') (.reg r) = pr' at hpr hother ⊢
    have harr : ∀ g, g ≠ .reg r → pr'.arrays w g = pr.arrays w g := by
      intro g hg
      rw [← hpq]
      exact arrays_set hg
    have hself : pr'.now w r = some v := by
      unfold PRegs.now
      rw [hpr, Option.bind_some]
      refine now_store hv1 (fun ho => ?_)
      obtain ⟨k1, k2⟩ : p.1 ≠ .gone ∧ p.1 ≠ .reg r := by rw [ho] at hh; simpa using hh
      obtain ⟨dd, m1, m2⟩ := hv2 k1
      exact ⟨dd, by rw [harr _ k2, m1], m2⟩
    have hval : ∀ r' b, ARegs.without (setReg ρ r a) η r r' = some b → r' ≠ r → ρ r' = some b ∧ η r' ≠ .reg r := by
      intro r' b hb hne
      unfold ARegs.without setReg at hb
      by_cases hn : r' ≠ r ∧ η r' = .reg r
      · rw [if_pos hn] at hb; cases hb
      · rw [if_neg hn, if_neg hne] at hb
        exact ⟨hb, fun e => hn ⟨hne, e⟩⟩
    refine ⟨fun r' b hb => ?_, fun r' b hb => ?_⟩
    · have hb' : setReg ρ r a r' = some b := by
        unfold ARegs.without at hb
        split at hb
        · cases hb
        · exact hb
      obtain ⟨cc, k1, k2⟩ := hreg r' b hb'
      refine ⟨cc, ?_, k2⟩
      rw [← k1]
      by_cases hr : r' = r
      · subst hr
        rw [hself]
        simp [setReg]
      · obtain ⟨m1, m2⟩ := hval r' b hb hr
        rw [now_congr (pr := pr) (w := w) (hother r' hr m2 b m1) (harr _ (by rw [(h.home r' b m1).1]; exact m2))]
        simp [setReg, hr]
    · by_cases hr : r' = r
      · subst hr
        have hab : a = b := by
          unfold ARegs.without setReg at hb
          simpa using hb
        subst hab
        simp only [if_true]
        cases own with
        | true =>
          obtain ⟨d, rfl⟩ := hv1 rfl
          refine ⟨?_, fun x hx => by simp at hx, fun _ => ⟨d, by rw [hpr]; simp [PHeld.store]⟩⟩
          simp [PRegs.place, hpr, PHeld.store]
        | false =>
          obtain ⟨k1, k2⟩ : p.1 ≠ .gone ∧ p.1 ≠ .reg r' := by simpa using hh
          refine ⟨?_, fun x hx => g4 x (by simpa using hx), fun e => absurd (by simpa using e) k2⟩
          cases v with
          | handle d => simp [PRegs.place, hpr, PHeld.store]
          | it i => cases i <;> simp [PRegs.place, hpr, PHeld.store]
      · obtain ⟨m1, m2⟩ := hval r' b hb hr
        obtain ⟨k1, k2, k3⟩ := h.home r' b m1
        have hsame := hother r' hr m2 b m1
        simp only [if_neg hr]
        refine ⟨?_, k2, fun e => ?_⟩
        · rw [← k1]
          unfold PRegs.place
          rw [hsame]
        · obtain ⟨d, hd⟩ := k3 e
          exact ⟨d, by rw [hsame, hd]⟩

/-- A register whose array still has the same header denotes the same as before. -/
theorem LInv.now_same (h : LInv dbg w A ρ η pr) {w' : World T} {r : Nat} {b : Held (Nat × List Sel) ItPos} (hr : ρ r = some b) (hobj : w'.objs b.owner = w.objs b.owner) :
    pr.now w' r = pr.now w r := by
  obtain ⟨k1, k2, k3⟩ := h.home r b hr
  refine now_congr rfl ?_
  rw [k1]
  cases hη : η r with
  | gone => rfl
  | reg r0 => rfl
  | var x =>
    have := k2 x hη
    subst this
    simp only [PRegs.arrays, hobj]

/-- A command that threw. -/
theorem LInv.threw {L' : List Nat} {w' : World T} {A' : AState T} (hi : InvX L w A) (h : LInv dbg w A ρ η pr) (hk : ∀ y a, w.objs y = some a → KeepsVar y a True w')
    (hr : RegInv dbg w' A' ρ (pr.now w)) : LInv dbg w' A' ρ η pr := by
  refine ⟨fun r b hb => ?_, h.home⟩
  obtain ⟨cc, k1, k2⟩ := hr r b hb
  obtain ⟨cc', m1, m2⟩ := h.regs r b hb
  obtain ⟨ss, p, hp⟩ := m2.part
  obtain ⟨a, ha⟩ := part_obj hi hp
  obtain ⟨a', e1, _, e3⟩ := hk _ a ha
  exact ⟨cc, by rw [h.now_same hb (by rw [e1, ha, e3 trivial]), k1], k2⟩

/-- A command that completed. -/
theorem LInv.done {w' : World T} {A' : AState T} (hi : InvX L w A) (h : LInv dbg w A ρ η pr) {hc : HCmd T} {c : Cmd T} (he : hc.cmd A ρ = some c)
    (hk : ∀ y a, w.objs y = some a → ¬ c.Drops y → KeepsVar y a (¬ c.Relabels y) w') (its : CRegs) (hr : RegInv dbg w' A' (ρ.after c) (pr.now w)) :
    LInv dbg w' A' (ρ.after c) η (pr.update its hc) := by
  have hpl : hc.placed pr = none := by
    cases hc with
    | plain c => rfl
    | part c => rfl
    | _ => cases he
  have hup : ∀ r b, ρ.after c r = some b → pr.update its hc r = pr r ∧ ∀ g, (pr.update its hc).arrays w' g = pr.arrays w' g := by
    intro r b hb
    obtain ⟨h1, h2, h3⟩ := after_some hb
    unfold PRegs.update
    rw [hpl]
    simp only
    split
    · rename_i x
      cases he
      refine ⟨kill_same ?_, fun g => arrays_kill _ _⟩
      obtain ⟨k1, k2, k3⟩ := h.home r b h1
      refine .inl (fun e => h2 ?_)
      exact k2 x (by rw [← k1, e])
    · exact ⟨rfl, fun _ => rfl⟩
  refine ⟨fun r b hb => ?_, fun r b hb => ?_⟩
  · obtain ⟨u1, u2⟩ := hup r b hb
    obtain ⟨h1, h2, h3⟩ := after_some hb
    obtain ⟨cc, k1, k2⟩ := hr r b hb
    obtain ⟨cc', m1, m2⟩ := h.regs r b h1
    obtain ⟨ss, p, hp⟩ := m2.part
    obtain ⟨a, ha⟩ := part_obj hi hp
    obtain ⟨a', e1, _, e3⟩ := hk _ a ha h2
    refine ⟨cc, ?_, k2⟩
    rw [now_congr (pr := pr) (w := w') u1 (u2 _), h.now_same h1 (by rw [e1, ha, e3 h3]), k1]
  · obtain ⟨u1, _⟩ := hup r b hb
    obtain ⟨h1, h2, h3⟩ := after_some hb
    obtain ⟨k1, k2, k3⟩ := h.home r b h1
    refine ⟨?_, k2, fun e => by rw [u1]; exact k3 e⟩
    rw [← k1]
    unfold PRegs.place
    rw [u1]

end MultiArray
