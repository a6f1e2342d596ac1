import Verif.Lemmas.Held
import Verif.Props.ProgXM

/- Held handles and iterators on a 64-bit machine. -/
set_option autoImplicit false

namespace MultiArray
open Spec Props
variable {T : Type}

theorem resolveM_append (dbg : Bool) (ss ss' : List Sel) (d : Desc) : resolveM dbg (ss ++ ss') d = (do resolveM dbg ss' (← resolveM dbg ss d)) := by
  induction ss generalizing d with
  | nil => rfl
  | cons s ss ih =>
    cases s with
    | «at» i =>
      simp only [List.cons_append, resolveM]
      cases h : Machine.access dbg i d with
      | ok d' => simp only [Res.bind_ok]; exact ih d'
      | assertFail => rfl
      | ub => rfl
    | view xs =>
      simp only [List.cons_append, resolveM]
      cases h : chainIndicesM IndexGen.empty xs with
      | assertFail => rfl
      | ub => rfl
      | ok g =>
        simp only [Res.bind_ok]
        cases h : Machine.generateArrayView dbg g d with
        | ok v => simp only [Res.bind_ok]; exact ih v.desc
        | assertFail => rfl
        | ub => rfl
    | viewFrom xs bs =>
      simp only [List.cons_append, resolveM]
      cases h : chainIndicesM IndexGen.empty xs with
      | assertFail => rfl
      | ub => rfl
      | ok g =>
        simp only [Res.bind_ok]
        cases h : Machine.generateArrayView dbg g d with
        | assertFail => rfl
        | ub => rfl
        | ok v =>
          simp only [Res.bind_ok]
          cases h : Machine.viewReindex v bs with
          | ok v1 => simp only [Res.bind_ok]; exact ih v1.desc
          | assertFail => rfl
          | ub => rfl

theorem lookupM_append (dbg : Bool) {w : World T} {x : Nat} {ss : List Sel} {d : Desc} (h : w.lookupM dbg x ss = some d) (ss' : List Sel) :
    w.lookupM dbg x (ss ++ ss') = Res.val? (resolveM dbg ss' d) := by
  unfold World.lookupM at h ⊢
  cases hx : w.objs x with
  | none => rw [hx] at h; cases h
  | some a =>
    rw [hx] at h
    simp only [Option.bind_some] at h ⊢
    rw [resolveM_append]
    cases hr : resolveM dbg ss a.ref.desc with
    | assertFail => rw [hr] at h; cases h
    | ub => rw [hr] at h; cases h
    | ok d' =>
      rw [hr] at h
      cases h
      rfl

/-- The path of a register. -/
def Spec.Held.at_ : Held (Nat × List Sel) ItPos → List Sel
  | .handle h => h.2
  | .it p => p.path

/-- The views in the expressions that registers stand for fit. -/
def RegFits (A : AState T) (ρ : ARegs) : Prop := ∀ r h, ρ r = some h → A.ExprFits h.owner h.at_

variable {dbg : Bool} {w : World T} {A : AState T} {ρ : ARegs} {its : CRegs} {L : List Nat}

theorem RegFits.set (h : RegFits A ρ) (r : Nat) {a : Held (Nat × List Sel) ItPos} (ha : A.ExprFits a.owner a.at_) : RegFits A (setReg ρ r a) := by
  intro r' h' hr
  unfold setReg at hr
  by_cases hx : r' = r
  · rw [if_pos hx] at hr; cases hr; exact ha
  · rw [if_neg hx] at hr; exact h r' h' hr

theorem InvX.lookupM (h : InvX L w A) (hA : A.Fits) (dbg : Bool) {x : Nat} {ss : List Sel} {p : APart} (hp : A.Part x ss p) (hf : A.ExprFits x ss) :
    w.lookupM dbg x ss = w.lookup dbg x ss ∧ ∃ d, w.lookup dbg x ss = some d ∧ WellShaped d ∧ DescFits d := by
  obtain ⟨t, _, hr⟩ := h
  obtain ⟨a, d, _, h2, h3, _, h5, h6⟩ := Spec.World.Rep.partM hr hA dbg hp hf
  exact ⟨by rw [h2, h3], d, h2, h5, h6⟩

/-- The iterator in a register, whose dimensions fit. -/
theorem RegInv.iterM (h : RegInv dbg w A ρ its) (hi : InvX L w A) (hA : A.Fits) (hf : RegFits A ρ) {r : Nat} {p : ItPos} (hr : ρ.iter r = some p) :
    ∃ q e es b bs pt s st, A.Part p.var p.path q ∧ q.extents = e :: es ∧ q.bases = b :: bs ∧ w.lookup dbg p.var p.path = some ⟨pt, e :: es, s :: st, b :: bs⟩ ∧
      DimsFit (b :: bs) (e :: es) (s :: st) ∧ p.i ≤ e ∧ its.iter r = some (toIt e b ⟨pt, e :: es, s :: st, b :: bs⟩ ⟨0, p.rev, p.i⟩) := by
  obtain ⟨q, e, es, b, bs, d, g1, g2, g3, g4, g5, g6, g7, g8⟩ := h.iter hr
  obtain ⟨_, d', k1, k2, k3⟩ := hi.lookupM hA dbg g1 (hf r _ (iter_some hr))
  rw [g4] at k1; cases k1
  have hdims := k3.dims
  obtain ⟨pt, ee, st, bb⟩ := d
  simp only at g5 g6
  subst g5 g6
  cases st with
  | nil => exact absurd k2.1 (by simp)
  | cons s st => exact ⟨q, e, es, b, bs, pt, s, st, g1, g2, g3, g4, hdims, g7, g8⟩

/-- The descriptor of an expression. -/
theorem RegInv.descM (h : RegInv dbg w A ρ its) (hi : InvX L w A) (hA : A.Fits) (hf : RegFits A ρ) {e : Ex} {x : Nat × List Sel} (hp : A.path ρ e = some x) :
    e.descM dbg its w = w.lookupM dbg x.1 x.2 := by
  have hel : ∀ {p : ItPos} {r : Nat} {n : Int} {y : Nat × List Sel} {ss : List Sel}, ρ.iter r = some p → A.elemAt p n = some y →
      ∃ e b pt es s st bs, its.iter r = some (toIt e b ⟨pt, e :: es, s :: st, b :: bs⟩ ⟨0, p.rev, p.i⟩) ∧ DimsFit (b :: bs) (e :: es) (s :: st) ∧ p.i ≤ e ∧ 0 ≤ (p.i : Int) + n ∧ ((p.i : Int) + n).toNat < e ∧
        (Res.val? ((toIt e b ⟨pt, e :: es, s :: st, b :: bs⟩ ⟨0, p.rev, ((p.i : Int) + n).toNat⟩).deref dbg)).bind (fun d => Res.val? (resolveM dbg ss d)) = w.lookupM dbg y.1 (y.2 ++ ss) := by
    intro p r n y ss hr he
    obtain ⟨q, e, es, b, bs, pt, s, st, g1, g2, g3, g4, g5, g6, g7⟩ := h.iterM hi hA hf hr
    obtain ⟨k1, k2, k3⟩ := elem_desc g1 g2 g3 g4 he
    refine ⟨e, b, pt, es, s, st, bs, g7, g5, g6, k2.1, by omega, ?_⟩
    have hy : ∃ j, y = (p.var, p.path ++ [.at j]) ∧ A.Part p.var (p.path ++ [.at j]) (q.sel (.at j)) := by
      unfold AState.elemAt at he
      rw [part_some g1, Option.bind_some, g2, g3, List.head?_cons, Option.bind_some, List.headD_cons] at he
      rw [if_pos k2] at he
      cases he
      refine ⟨_, rfl, ?_⟩
      have := row_part g1 g3 g2 (i := if p.rev then e - 1 - ((p.i : Int) + n).toNat else ((p.i : Int) + n).toNat) (by split <;> omega)
      rw [g3, List.headD_cons] at this
      have hidx : b + ((if p.rev then e - 1 - ((p.i : Int) + n).toNat else ((p.i : Int) + n).toNat : Nat) : Int) =
          b + (if p.rev then (e : Int) - 1 - ((p.i : Int) + n) else (p.i : Int) + n) := by
        split <;> omega
      rw [hidx] at this
      have hrp : q.rowPart (if p.rev then e - 1 - ((p.i : Int) + n).toNat else ((p.i : Int) + n).toNat) =
          q.sel (.at (b + (if p.rev then (e : Int) - 1 - ((p.i : Int) + n) else (p.i : Int) + n))) := by
        unfold APart.rowPart
        rw [g3, List.headD_cons, hidx]
      rw [hrp] at this
      exact this
    obtain ⟨j, rfl, hpart⟩ := hy
    obtain ⟨m1, d', m2, _⟩ := hi.lookupM hA dbg hpart (fun a ha => pathFits_snoc _ _ _ _ (hf r _ (iter_some hr) a ha))
    rw [← k3]
    simp only
    rw [m2, lookupM_append dbg (by rw [m1, m2] : w.lookupM dbg p.var (p.path ++ [.at j]) = some d')]
    rfl
  cases e with
  | var y ss => cases hp; rfl
  | held r ss =>
    simp only [AState.path] at hp
    split at hp
    · rename_i h' hr
      cases hp
      obtain ⟨c, h1, h2⟩ := h r _ hr
      cases c with
      | it i => exact h2.elim
      | handle d =>
        simp only [Ex.descM, h1]
        obtain ⟨⟨p, hp⟩, hl⟩ := h2
        obtain ⟨m1, _⟩ := hi.lookupM hA dbg hp (hf r _ hr)
        rw [lookupM_append dbg (by rw [m1, hl] : w.lookupM dbg h'.1 h'.2 = some d)]
    · cases hp
  | deref r ss =>
    simp only [AState.path, Option.bind_eq_some_iff, Option.map_eq_some_iff] at hp
    obtain ⟨p, hp, x', he, rfl⟩ := hp
    obtain ⟨e, b, pt, es, s, st, bs, g1, g2, g3, g4, g5, g6⟩ := hel (ss := ss) hp he
    simp only [Ex.descM, g1, Option.bind_some]
    simp only [Int.add_zero, Int.toNat_natCast] at g5 g6
    rw [toIt_derefM dbg g2 _ g5]
    exact g6
  | index r n ss =>
    simp only [AState.path, Option.bind_eq_some_iff, Option.map_eq_some_iff] at hp
    obtain ⟨p, hp, x', he, rfl⟩ := hp
    obtain ⟨e, b, pt, es, s, st, bs, g1, g2, g3, g4, g5, g6⟩ := hel (ss := ss) hp he
    simp only [Ex.descM, g1, Option.bind_some]
    rw [toIt_indexM dbg g2 _ n g3 g4 g5, toIt_index, toIt_moved _ _ _ _ _ g4]
    exact g6

/-! ### Commands on parts -/

/-- Evaluated commands are the commands of SpecProgXM.lean. -/
theorem execDM_eq (dbg : Bool) (dflt : T) (eq lt : T → T → Bool) (w : World T) (c : PCmd T (Nat × List Sel)) {d : PCmd T Desc}
    (h : c.eval (fun x => w.lookupM dbg x.1 x.2) = some d) : w.execDM dbg dflt eq lt d = w.execXM dbg dflt eq lt c.cmd := by
  cases c with
  | convert x e so al =>
    simp only [PCmd.eval, Option.map_eq_some_iff] at h
    obtain ⟨d, h1, rfl⟩ := h
    simp only [World.execDM, World.execXM, PCmd.cmd, World.mayThrowM, h1]
  | assign e e' =>
    simp only [PCmd.eval, Option.bind_eq_some_iff, Option.map_eq_some_iff] at h
    obtain ⟨d, h1, d', h2, rfl⟩ := h
    simp only [World.execDM, World.execXM, PCmd.cmd, World.mayThrowM, h1, h2]
  | copyArray e e' =>
    simp only [PCmd.eval, Option.bind_eq_some_iff, Option.map_eq_some_iff] at h
    obtain ⟨d, h1, d', h2, rfl⟩ := h
    simp only [World.execDM, World.execXM, PCmd.cmd, World.mayThrowM, h1, h2]
  | read e idx =>
    simp only [PCmd.eval, Option.map_eq_some_iff] at h
    obtain ⟨d, h1, rfl⟩ := h
    simp only [World.execDM, World.execXM, PCmd.cmd, World.mayThrowM, World.execM, h1, Option.bind_some]
    cases Out.val? (Machine.readElem dbg d idx w.st) <;> rfl
  | write e idx v =>
    simp only [PCmd.eval, Option.map_eq_some_iff] at h
    obtain ⟨d, h1, rfl⟩ := h
    simp only [World.execDM, World.execXM, PCmd.cmd, World.mayThrowM, h1]
  | forEach e f =>
    simp only [PCmd.eval, Option.map_eq_some_iff] at h
    obtain ⟨d, h1, rfl⟩ := h
    simp only [World.execDM, World.execXM, PCmd.cmd, World.mayThrowM, h1]
  | traverse e =>
    simp only [PCmd.eval, Option.map_eq_some_iff] at h
    obtain ⟨d, h1, rfl⟩ := h
    simp only [World.execDM, World.execXM, PCmd.cmd, World.mayThrowM, World.execM, h1, Option.bind_some, World.lookAtM]
    cases hn : Res.val? (Machine.nestedLoop dbg d.extents.sum d.extents.length d) with
    | none => rfl
    | some ps =>
      cases ps with
      | none => rfl
      | some ps =>
        simp only [Option.bind_some]
        cases ps.mapM (fun p => w.st.get? p) <;> rfl
  | equal e e' =>
    simp only [PCmd.eval, Option.bind_eq_some_iff, Option.map_eq_some_iff] at h
    obtain ⟨d, h1, d', h2, rfl⟩ := h
    simp only [World.execDM, World.execXM, PCmd.cmd, World.mayThrowM, World.execM, h1, h2, Option.bind_some]
    cases Res.val? (Machine.equalRef dbg eq w.st d.extents.length d d') <;> rfl
  | less e e' =>
    simp only [PCmd.eval, Option.bind_eq_some_iff, Option.map_eq_some_iff] at h
    obtain ⟨d, h1, d', h2, rfl⟩ := h
    simp only [World.execDM, World.execXM, PCmd.cmd, World.mayThrowM, World.execM, h1, h2, Option.bind_some]
    cases Res.val? (Machine.lessRef dbg lt w.st d.extents.length d d') <;> rfl
  | shape e =>
    simp only [PCmd.eval, Option.map_eq_some_iff] at h
    obtain ⟨d, h1, rfl⟩ := h
    simp only [World.execDM, World.execXM, PCmd.cmd, World.mayThrowM, World.execM, h1, Option.map_some]

theorem eval_congr {E E' : Type} {f g : E → Option E'} {P : E → Prop} {c : PCmd T E} (hall : AllParts P c) (h : ∀ x, P x → f x = g x) : c.eval f = c.eval g := by
  cases c with
  | convert | read | write | forEach | traverse | shape => simp only [PCmd.eval, h _ hall]
  | assign | copyArray | equal | less => simp only [PCmd.eval, h _ hall.1, h _ hall.2]

theorem partsFit {c : PCmd T (Nat × List Sel)} (hl : c.cmd.Legal A) (hv : c.cmd.ViewsFit A) : AllParts (fun e => (∃ p, A.Part e.1 e.2 p) ∧ A.ExprFits e.1 e.2) c := by
  have := partsLegal hl
  cases c with
  | convert | read | write | forEach | traverse | shape => exact ⟨this, hv⟩
  | assign | copyArray | equal | less => exact ⟨⟨this.1, hv.1⟩, this.2, hv.2⟩

/-- Any command that stands for a command of SpecProg.lean does the same on both machines. -/
theorem cmd_execM (dflt : T) (eq lt : T → T → Bool) (hi : InvX L w A) (hr : RegInv dbg w A ρ its) (hA : A.Fits) (hf : RegFits A ρ) {hc : HCmd T} {c : Cmd T} (he : hc.cmd A ρ = some c)
    (hl : c.Legal A) (hv : c.ViewsFit A) (hn : NewFits dflt A c) : w.execHM dbg dflt eq lt its hc = w.execH dbg dflt eq lt its hc := by
  have hx : w.execXM dbg dflt eq lt c = w.execX dbg dflt eq lt c := by
    obtain ⟨t, _, hrep⟩ := hi
    exact execXM_eq dbg dflt eq lt hrep hA c hl hv (fun o A' hs => C74_only_new_shapes dflt eq lt hA hn hs)
  rw [cmd_exec dflt eq lt hi hr he hl]
  cases hc with
  | plain c' => cases he; simp only [World.execHM, hx]
  | part c' =>
    simp only [HCmd.cmd, Option.map_eq_some_iff] at he
    obtain ⟨c1, h1, rfl⟩ := he
    have hall := partsFit hl hv
    obtain ⟨d, hd⟩ := eval_lookup hi dbg (partsLegal hl)
    have e1 := eval_trans (g := Ex.descM dbg its w) h1 (fun e x hx _ => hr.descM hi hA hf hx) hall
    have e2 : c1.eval (fun x => w.lookupM dbg x.1 x.2) = c1.eval (fun x => w.lookup dbg x.1 x.2) :=
      eval_congr hall (fun x hx => by obtain ⟨⟨p, hp⟩, hf⟩ := hx; exact (hi.lookupM hA dbg hp hf).1)
    simp only [World.execHM, e1, e2, hd, HRes.ofPart]
    rw [execDM_eq dbg dflt eq lt w c1 (e2.trans hd), hx]
  | _ => cases he

/-- One operation on registers. -/
theorem reg_execM (hi : InvX L w A) (hr : RegInv dbg w A ρ its) (hA : A.Fits) (hf : RegFits A ρ) {hc : HCmd T} {o : HObs T} {ρ' : ARegs} (hs : A.regStep ρ hc = some (o, ρ'))
    (hv : hc.ViewsFit A ρ) : w.regXM dbg its hc = w.regX dbg its hc ∧ RegFits A ρ' := by
  have hlegal : ∀ {e : Ex} {h : Nat × List Sel}, A.legalPath ρ e = some h → A.ExprFits h.1 h.2 → e.descM dbg its w = e.desc dbg its w := by
    intro e h he hx
    obtain ⟨g1, p, g2⟩ := legalPath_some he
    rw [hr.descM hi hA hf g1, hr.desc g1, (hi.lookupM hA dbg g2 hx).1]
  have hrange : ∀ {e : Ex} {h : (Nat × List Sel) × Nat}, A.range ρ e = some h → A.ExprFits h.1.1 h.1.2 → e.descM dbg its w = e.desc dbg its w ∧
      ∃ p es b bs s ss, e.desc dbg its w = some ⟨p, h.2 :: es, s :: ss, b :: bs⟩ ∧ DimsFit (b :: bs) (h.2 :: es) (s :: ss) := by
    intro e h he hx
    obtain ⟨k0, q, es, b, bs, p, s, ss, g1, g2, g3, g4, g5⟩ := range_some hi hr he
    obtain ⟨m1, d, m2, m3, m4⟩ := hi.lookupM hA dbg g1 hx
    rw [g4] at m2; cases m2
    exact ⟨by rw [hr.descM hi hA hf k0, hr.desc k0, m1], p, es, b, bs, s, ss, g5, m4.dims⟩
  have hpath : ∀ {e : Ex} {h : (Nat × List Sel) × Nat}, A.range ρ e = some h → A.path ρ e = some h.1 := fun he => (range_some hi hr he).1
  have hadd : ∀ {r : Nat} {n : Int} {p : ItPos}, (ρ.iter r).bind (fun p => A.move? p n) = some p → A.ExprFits p.var p.path ∧
      ∃ i, its.iter r = some i ∧ i.addM n = .ok (i.add n) ∧ (n = 1 → i.incM = .ok i.inc) ∧ (n = -1 → i.decM = .ok i.dec) := by
    intro r n p h
    obtain ⟨p0, h1, h2⟩ := Option.bind_eq_some_iff.mp h
    obtain ⟨q, e, es, b, bs, pt, s, st, g1, g2, g3, g4, g5, g6, g7⟩ := hr.iterM hi hA hf h1
    obtain ⟨k1, k2, rfl⟩ := move_some (length_some g1 g2) h2
    refine ⟨hf r _ (iter_some h1), _, g7, toIt_addM g5 _ _ n g6 k1 k2, fun hn => ?_, fun hn => ?_⟩
    · subst hn; exact toIt_incM g5 _ _ (by show p0.i + 1 ≤ e; omega)
    · subst hn; exact toIt_decM g5 _ _ g6 (by show 0 < p0.i; omega)
  cases hc with
  | plain c => cases hs
  | part c => cases hs
  | hold r e =>
    simp only [AState.regStep, Option.map_eq_some_iff] at hs
    obtain ⟨h, h1, h2⟩ := hs
    cases h2
    have hx := hv h (legalPath_some h1).1
    exact ⟨by simp only [World.regXM, World.regX, hlegal h1 hx], hf.set r hx⟩
  | begin r e =>
    simp only [AState.regStep, Option.map_eq_some_iff] at hs
    obtain ⟨h, h1, h2⟩ := hs
    cases h2
    have hx := hv h.1 (hpath h1)
    obtain ⟨k1, p, es, b, bs, s, ss, k2, k3⟩ := hrange h1 hx
    exact ⟨by simp only [World.regXM, World.regX, k1, k2, Option.bind_some]; rfl, hf.set r hx⟩
  | fin r e =>
    simp only [AState.regStep, Option.map_eq_some_iff] at hs
    obtain ⟨h, h1, h2⟩ := hs
    cases h2
    have hx := hv h.1 (hpath h1)
    obtain ⟨k1, p, es, b, bs, s, ss, k2, k3⟩ := hrange h1 hx
    exact ⟨by simp only [World.regXM, World.regX, k1, k2, Option.bind_some, endM_ok k3]; rfl, hf.set r hx⟩
  | rbegin r e =>
    simp only [AState.regStep, Option.map_eq_some_iff] at hs
    obtain ⟨h, h1, h2⟩ := hs
    cases h2
    have hx := hv h.1 (hpath h1)
    obtain ⟨k1, p, es, b, bs, s, ss, k2, k3⟩ := hrange h1 hx
    exact ⟨by simp only [World.regXM, World.regX, k1, k2, Option.bind_some, Machine.rbegin, endM_ok k3]; rfl, hf.set r hx⟩
  | rfin r e =>
    simp only [AState.regStep, Option.map_eq_some_iff] at hs
    obtain ⟨h, h1, h2⟩ := hs
    cases h2
    have hx := hv h.1 (hpath h1)
    obtain ⟨k1, p, es, b, bs, s, ss, k2, k3⟩ := hrange h1 hx
    exact ⟨by simp only [World.regXM, World.regX, k1, k2, Option.bind_some]; rfl, hf.set r hx⟩
  | copy r r' =>
    simp only [AState.regStep, Option.map_eq_some_iff] at hs
    obtain ⟨p, h1, h2⟩ := hs
    cases h2
    exact ⟨rfl, hf.set r (hf r' _ (iter_some h1))⟩
  | base r r' =>
    simp only [AState.regStep, Option.map_eq_some_iff] at hs
    obtain ⟨p, h1, h2⟩ := hs
    cases h2
    obtain ⟨p0, h3, h2⟩ := Option.bind_eq_some_iff.mp h1
    refine ⟨rfl, hf.set r ?_⟩
    unfold AState.base? at h2
    obtain ⟨e, _, h2⟩ := Option.bind_eq_some_iff.mp h2
    split at h2
    · cases h2
      have h4 := hf r' _ (iter_some h3)
      exact h4
    · cases h2
  | inc r =>
    simp only [AState.regStep, Option.map_eq_some_iff] at hs
    obtain ⟨p, h1, h2⟩ := hs
    cases h2
    obtain ⟨k0, i, k1, k2, k3, k4⟩ := hadd h1
    exact ⟨by simp only [World.regXM, World.regX, k1, Option.bind_some, k3 rfl, Res.val?, Option.map_some], hf.set r k0⟩
  | dec r =>
    simp only [AState.regStep, Option.map_eq_some_iff] at hs
    obtain ⟨p, h1, h2⟩ := hs
    cases h2
    obtain ⟨k0, i, k1, k2, k3, k4⟩ := hadd h1
    exact ⟨by simp only [World.regXM, World.regX, k1, Option.bind_some, k4 rfl, Res.val?, Option.map_some], hf.set r k0⟩
  | add r n =>
    simp only [AState.regStep, Option.map_eq_some_iff] at hs
    obtain ⟨p, h1, h2⟩ := hs
    cases h2
    obtain ⟨k0, i, k1, k2, k3, k4⟩ := hadd h1
    exact ⟨by simp only [World.regXM, World.regX, k1, Option.bind_some, k2, Res.val?, Option.map_some], hf.set r k0⟩
  | equal r r' =>
    simp only [AState.regStep, Option.map_eq_some_iff] at hs
    obtain ⟨pq, h1, h2⟩ := hs
    cases h2
    exact ⟨rfl, hf⟩
  | less r r' =>
    simp only [AState.regStep, Option.map_eq_some_iff] at hs
    obtain ⟨pq, h1, h2⟩ := hs
    cases h2
    obtain ⟨q, e, es, b, bs, d, g1, g2, g3, g4, g5, g6, g7, g7', g9, g8, g8'⟩ := hr.two h1
    obtain ⟨q', e', es', b', bs', pt, s, st, j1, j2, j3, j4, j5, j6, j7⟩ := hr.iterM hi hA hf (two_some h1).1
    rw [j4] at g4; cases g4
    cases g5; cases g6
    refine ⟨?_, hf⟩
    have k1 := toIt_less e b ⟨pt, e :: es, s :: st, b :: bs⟩ ⟨0, pq.1.rev, pq.1.i⟩ ⟨0, pq.2.rev, pq.2.i⟩ g9
    have k2 := toIt_lessM j5 ⟨pt, e :: es, s :: st, b :: bs⟩ ⟨0, pq.1.rev, pq.1.i⟩ ⟨0, pq.2.rev, pq.2.i⟩ g9 g7 g7'
    simp only [World.regXM, World.regX, g8, g8', Option.bind_some, k1, k2]
  | diff r r' =>
    simp only [AState.regStep, Option.map_eq_some_iff] at hs
    obtain ⟨pq, h1, h2⟩ := hs
    cases h2
    obtain ⟨q, e, es, b, bs, d, g1, g2, g3, g4, g5, g6, g7, g7', g9, g8, g8'⟩ := hr.two h1
    obtain ⟨q', e', es', b', bs', pt, s, st, j1, j2, j3, j4, j5, j6, j7⟩ := hr.iterM hi hA hf (two_some h1).1
    rw [j4] at g4; cases g4
    cases g5; cases g6
    refine ⟨?_, hf⟩
    have k1 := toIt_diff e b ⟨pt, e :: es, s :: st, b :: bs⟩ ⟨0, pq.1.rev, pq.1.i⟩ ⟨0, pq.2.rev, pq.2.i⟩ g9
    have k2 := toIt_diffM j5 ⟨pt, e :: es, s :: st, b :: bs⟩ ⟨0, pq.1.rev, pq.1.i⟩ ⟨0, pq.2.rev, pq.2.i⟩ g9 g7 g7'
    simp only [World.regXM, World.regX, g8, g8', Option.bind_some, k1, k2]

/-! ### Registers keep fitting -/

theorem keep_fits {L' : List Nat} {w' : World T} {A' : AState T} (h : InvX L w A) (h' : InvX L' w' A') {x : Nat} {a : MArr} (hx : w.objs x = some a)
    (hx' : w'.objs x = some a) {ss : List Sel} (hf : A.ExprFits x ss) : A'.ExprFits x ss := by
  obtain ⟨abs, h1, h2⟩ := inv_holds h hx
  obtain ⟨abs', h1', h2'⟩ := inv_holds h' hx'
  intro a0 ha0
  rw [h1'] at ha0; cases ha0
  have := hf abs h1
  unfold AbsArr.whole AbsArr.strides at this ⊢
  rw [← h2'.bases, ← h2'.extents, ← h2'.order, h2.bases, h2.extents, h2.order]
  exact this

end MultiArray
