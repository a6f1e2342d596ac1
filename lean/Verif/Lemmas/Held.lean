import Verif.SpecHeld
import Verif.Props.Stable
import Verif.Lemmas.RowsM
import Verif.Lemmas.SeqM

/- Held handles and iterators stand for the expressions they were obtained from. -/
set_option autoImplicit false

namespace MultiArray
open Spec Props
variable {T : Type}

theorem lookup_append (dbg : Bool) {w : World T} {x : Nat} {ss : List Sel} {d : Desc} (h : w.lookup dbg x ss = some d) (ss' : List Sel) :
    w.lookup dbg x (ss ++ ss') = Res.val? (resolve dbg ss' d) := by
  unfold World.lookup at h ⊢
  cases hx : w.objs x with
  | none => rw [hx] at h; cases h
  | some a =>
    rw [hx] at h
    simp only [Option.bind_some] at h ⊢
    rw [resolve_append]
    cases hr : resolve dbg ss a.ref.desc with
    | assertFail => rw [hr] at h; cases h
    | ub => rw [hr] at h; cases h
    | ok d' =>
      rw [hr] at h
      cases h
      rfl

/-- A register of the library program against the abstract register. -/
def RegOk (dbg : Bool) (w : World T) (A : AState T) : Held (Nat × List Sel) ItPos → Held Desc AnyIt → Prop
  | .handle h, .handle d => (∃ p, A.Part h.1 h.2 p) ∧ w.lookup dbg h.1 h.2 = some d
  | .it p, .it i => ∃ q e es b bs d, A.Part p.var p.path q ∧ q.extents = e :: es ∧ q.bases = b :: bs ∧ w.lookup dbg p.var p.path = some d ∧
      d.extents = e :: es ∧ d.bases = b :: bs ∧ p.i ≤ e ∧ i = toIt e b d ⟨0, p.rev, p.i⟩
  | _, _ => False

/-- Every valid register. -/
def RegInv (dbg : Bool) (w : World T) (A : AState T) (ρ : ARegs) (its : CRegs) : Prop :=
  ∀ r h, ρ r = some h → ∃ c, its r = some c ∧ RegOk dbg w A h c

variable {dbg : Bool} {w : World T} {A : AState T} {ρ : ARegs} {its : CRegs}

theorem RegInv.set (h : RegInv dbg w A ρ its) (r : Nat) {a : Held (Nat × List Sel) ItPos} {c : Held Desc AnyIt} (hok : RegOk dbg w A a c) :
    RegInv dbg w A (setReg ρ r a) (setReg its r c) := by
  intro r' h' hr
  unfold setReg at hr ⊢
  by_cases hx : r' = r
  · rw [if_pos hx] at hr ⊢
    cases hr
    exact ⟨c, rfl, hok⟩
  · rw [if_neg hx] at hr ⊢
    exact h r' h' hr

theorem iter_some {r : Nat} {p : ItPos} (h : ρ.iter r = some p) : ρ r = some (.it p) := by
  unfold ARegs.iter at h
  split at h
  · cases h; assumption
  · cases h

/-- The iterator in a register. -/
theorem RegInv.iter (h : RegInv dbg w A ρ its) {r : Nat} {p : ItPos} (hr : ρ.iter r = some p) :
    ∃ q e es b bs d, A.Part p.var p.path q ∧ q.extents = e :: es ∧ q.bases = b :: bs ∧ w.lookup dbg p.var p.path = some d ∧ d.extents = e :: es ∧ d.bases = b :: bs ∧
      p.i ≤ e ∧ its.iter r = some (toIt e b d ⟨0, p.rev, p.i⟩) := by
  obtain ⟨c, h1, h2⟩ := h r _ (iter_some hr)
  cases c with
  | handle d => exact h2.elim
  | it i =>
    obtain ⟨q, e, es, b, bs, d, g1, g2, g3, g4, g5, g6, g7, g8⟩ := h2
    exact ⟨q, e, es, b, bs, d, g1, g2, g3, g4, g5, g6, g7, by unfold CRegs.iter; rw [h1, g8]⟩

/-- The element an iterator denotes. -/
theorem elem_desc {p : ItPos} {q : APart} {e : Nat} {es : List Nat} {b : Int} {bs : List Int} {d : Desc} (g1 : A.Part p.var p.path q) (g2 : q.extents = e :: es)
    (g3 : q.bases = b :: bs) (g4 : w.lookup dbg p.var p.path = some d) {n : Int} {h : Nat × List Sel} (he : A.elemAt p n = some h) :
    h.1 = p.var ∧ (0 ≤ (p.i : Int) + n ∧ (p.i : Int) + n < (e : Int)) ∧
    w.lookup dbg h.1 h.2 = Res.val? ((toIt e b d ⟨0, p.rev, ((p.i : Int) + n).toNat⟩).deref dbg) := by
  unfold AState.elemAt at he
  rw [part_some g1, Option.bind_some, g2, g3, List.head?_cons, Option.bind_some, List.headD_cons] at he
  split at he
  · rename_i hc
    cases he
    refine ⟨rfl, hc, ?_⟩
    rw [lookup_row dbg g4, toIt_deref_any dbg e b d _ (by show ((p.i : Int) + n).toNat < e; omega)]
    congr 2
    cases p.rev
    · simp only [Bool.false_eq_true, if_false]; omega
    · simp only [if_true]; omega
  · cases he

/-- The descriptor of an expression is that of the variable and path it stands for. -/
theorem RegInv.desc (h : RegInv dbg w A ρ its) {e : Ex} {x : Nat × List Sel} (hp : A.path ρ e = some x) :
    e.desc dbg its w = w.lookup dbg x.1 x.2 := by
  have hel : ∀ {p : ItPos} {q : APart} {e : Nat} {es : List Nat} {b : Int} {bs : List Int} {d : Desc}, A.Part p.var p.path q → q.extents = e :: es →
      q.bases = b :: bs → w.lookup dbg p.var p.path = some d → ∀ {n : Int} {h : Nat × List Sel} {ss : List Sel}, A.elemAt p n = some h →
      (Res.val? ((toIt e b d ⟨0, p.rev, ((p.i : Int) + n).toNat⟩).deref dbg)).bind (fun d => Res.val? (resolve dbg ss d)) = w.lookup dbg h.1 (h.2 ++ ss) := by
    intro p q e es b bs d g1 g2 g3 g4 n h ss he
    obtain ⟨k1, k2, k3⟩ := elem_desc g1 g2 g3 g4 he
    rw [← k3]
    cases hk : w.lookup dbg h.1 h.2 with
    | some d' => rw [lookup_append dbg hk]; rfl
    | none =>
      simp only [Option.bind_none]
      unfold World.lookup at hk ⊢
      cases hx : w.objs h.1 with
      | none => rfl
      | some a =>
        rw [hx] at hk
        simp only [Option.bind_some] at hk ⊢
        rw [resolve_append]
        cases hr : resolve dbg h.2 a.ref.desc with
        | ok d => rw [hr] at hk; cases hk
        | assertFail => rfl
        | ub => rfl
  cases e with
  | var y ss => cases hp; rfl
  | held r ss =>
    simp only [AState.path] at hp
    split at hp
    · rename_i h' hr
      cases hp
      obtain ⟨c, h1, h2⟩ := h r _ hr
      cases c with
      | it i => exact h2.elim
      | handle d =>
        simp only [Ex.desc, h1]
        rw [lookup_append dbg h2.2]
    · cases hp
  | deref r ss =>
    simp only [AState.path, Option.bind_eq_some_iff, Option.map_eq_some_iff] at hp
    obtain ⟨p, hp, x', he, rfl⟩ := hp
    obtain ⟨q, e, es, b, bs, d, g1, g2, g3, g4, g5, g6, g7, g8⟩ := h.iter hp
    simp only [Ex.desc, g8, Option.bind_some]
    have := hel g1 g2 g3 g4 (ss := ss) he
    simp only [Int.add_zero, Int.toNat_natCast] at this
    exact this
  | index r n ss =>
    simp only [AState.path, Option.bind_eq_some_iff, Option.map_eq_some_iff] at hp
    obtain ⟨p, hp, x', he, rfl⟩ := hp
    obtain ⟨q, e, es, b, bs, d, g1, g2, g3, g4, g5, g6, g7, g8⟩ := h.iter hp
    obtain ⟨_, k2, _⟩ := elem_desc g1 g2 g3 g4 he
    simp only [Ex.desc, g8, Option.bind_some]
    rw [toIt_index, toIt_moved e b d _ n k2.1]
    exact hel g1 g2 g3 g4 (ss := ss) he

/-! ### Commands on parts -/

theorem toX_ctor (dbg : Bool) (dflt : T) (w : World T) {x y : Nat} {d : Desc} {so : StorageOrder} {al : Nat} {a : MArr} (hy : w.objs y = some a) :
    w.ctor dbg dflt x (.convert d.extents.length d so al) = w.step dbg dflt (.construct x (.convert y d so al)) := by
  simp only [World.step, Init.ctor, hy, Option.map_some]
  rfl

/-- Every expression of a command on parts satisfies `P`. -/
def AllParts {E : Type} (P : E → Prop) : PCmd T E → Prop
  | .convert _ e _ _ | .read e _ | .write e _ _ | .forEach e _ | .traverse e | .shape e => P e
  | .assign e e' | .copyArray e e' | .equal e e' | .less e e' => P e ∧ P e'

/-- Every expression of a command on parts is legal. -/
abbrev PartsLegal (A : AState T) : PCmd T (Nat × List Sel) → Prop := AllParts (fun e => ∃ p, A.Part e.1 e.2 p)

theorem partsLegal {c : PCmd T (Nat × List Sel)} (h : c.cmd.Legal A) : PartsLegal A c := by
  cases c with
  | convert x e so al => obtain ⟨_, p, hp, _⟩ := h; exact ⟨p, hp⟩
  | assign e e' => obtain ⟨p, q, h1, h2, _⟩ := h; exact ⟨⟨p, h1⟩, q, h2⟩
  | copyArray e e' => obtain ⟨p, q, h1, h2, _⟩ := h; exact ⟨⟨p, h1⟩, q, h2⟩
  | read e idx => obtain ⟨p, h1, _⟩ := h; exact ⟨p, h1⟩
  | write e idx v => obtain ⟨p, h1, _⟩ := h; exact ⟨p, h1⟩
  | forEach e f => exact h
  | traverse e => exact h
  | equal e e' => obtain ⟨p, q, h1, h2, _⟩ := h; exact ⟨⟨p, h1⟩, q, h2⟩
  | less e e' => obtain ⟨p, q, h1, h2, _⟩ := h; exact ⟨⟨p, h1⟩, q, h2⟩
  | shape e => exact h

/-- Evaluated commands are the commands of SpecProgX.lean. -/
theorem execD_eq (dbg : Bool) (dflt : T) (eq lt : T → T → Bool) (w : World T) (c : PCmd T (Nat × List Sel)) {d : PCmd T Desc}
    (h : c.eval (fun x => w.lookup dbg x.1 x.2) = some d) : w.execD dbg dflt eq lt d = w.execX dbg dflt eq lt c.cmd := by
  have hy : ∀ {y : Nat} {ss : List Sel} {d : Desc}, w.lookup dbg y ss = some d → ∃ a, w.objs y = some a := by
    intro y ss d h
    unfold World.lookup at h
    obtain ⟨a, h1, _⟩ := Option.bind_eq_some_iff.mp h
    exact ⟨a, h1⟩
  cases c with
  | convert x e so al =>
    simp only [PCmd.eval, Option.map_eq_some_iff] at h
    obtain ⟨d, h1, rfl⟩ := h
    obtain ⟨a, ha⟩ := hy h1
    simp only [World.execD, World.execX, PCmd.cmd, World.mayThrow, h1, toX_ctor dbg dflt w ha]
  | assign e e' =>
    simp only [PCmd.eval, Option.bind_eq_some_iff, Option.map_eq_some_iff] at h
    obtain ⟨d, h1, d', h2, rfl⟩ := h
    simp only [World.execD, World.execX, PCmd.cmd, World.mayThrow, h1, h2, World.step]
  | copyArray e e' =>
    simp only [PCmd.eval, Option.bind_eq_some_iff, Option.map_eq_some_iff] at h
    obtain ⟨d, h1, d', h2, rfl⟩ := h
    simp only [World.execD, World.execX, PCmd.cmd, World.mayThrow, h1, h2, World.step]
  | read e idx =>
    simp only [PCmd.eval, Option.map_eq_some_iff] at h
    obtain ⟨d, h1, rfl⟩ := h
    simp only [World.execD, World.execX, PCmd.cmd, World.mayThrow, World.exec, h1, Option.bind_some]
    cases Out.val? (readElem dbg d idx w.st) <;> rfl
  | write e idx v =>
    simp only [PCmd.eval, Option.map_eq_some_iff] at h
    obtain ⟨d, h1, rfl⟩ := h
    simp only [World.execD, World.execX, PCmd.cmd, World.mayThrow, h1, World.step]
  | forEach e f =>
    simp only [PCmd.eval, Option.map_eq_some_iff] at h
    obtain ⟨d, h1, rfl⟩ := h
    simp only [World.execD, World.execX, PCmd.cmd, World.mayThrow, h1, World.step]
  | traverse e =>
    simp only [PCmd.eval, Option.map_eq_some_iff] at h
    obtain ⟨d, h1, rfl⟩ := h
    simp only [World.execD, World.execX, PCmd.cmd, World.mayThrow, World.exec, h1, Option.bind_some, World.lookAt]
    cases hn : Res.val? (nestedLoop dbg d.extents.sum d.extents.length d) with
    | none => rfl
    | some ps =>
      cases ps with
      | none => rfl
      | some ps =>
        simp only [Option.bind_some]
        cases ps.mapM (fun p => w.st.get? p) <;> rfl
  | equal e e' =>
    simp only [PCmd.eval, Option.bind_eq_some_iff, Option.map_eq_some_iff] at h
    obtain ⟨d, h1, d', h2, rfl⟩ := h
    simp only [World.execD, World.execX, PCmd.cmd, World.mayThrow, World.exec, h1, h2, Option.bind_some]
    cases Res.val? (equalRef dbg eq w.st d.extents.length d d') <;> rfl
  | less e e' =>
    simp only [PCmd.eval, Option.bind_eq_some_iff, Option.map_eq_some_iff] at h
    obtain ⟨d, h1, d', h2, rfl⟩ := h
    simp only [World.execD, World.execX, PCmd.cmd, World.mayThrow, World.exec, h1, h2, Option.bind_some]
    cases Res.val? (lessRef dbg lt w.st d.extents.length d d') <;> rfl
  | shape e =>
    simp only [PCmd.eval, Option.map_eq_some_iff] at h
    obtain ⟨d, h1, rfl⟩ := h
    simp only [World.execD, World.execX, PCmd.cmd, World.mayThrow, World.exec, h1, Option.map_some]

/-- Evaluating twice. -/
theorem eval_trans {E E' E'' : Type} {f : E → Option E'} {g : E → Option E''} {k : E' → Option E''} {P : E' → Prop} {c : PCmd T E} {c' : PCmd T E'} (h : c.eval f = some c')
    (hk : ∀ e x, f e = some x → P x → g e = k x) (hd : AllParts P c') : c.eval g = c'.eval k := by
  cases c with
  | convert | read | write | forEach | traverse | shape =>
    simp only [PCmd.eval, Option.map_eq_some_iff] at h
    obtain ⟨x, h1, rfl⟩ := h
    simp only [PCmd.eval, hk _ _ h1 hd]
  | assign | copyArray | equal | less =>
    simp only [PCmd.eval, Option.bind_eq_some_iff, Option.map_eq_some_iff] at h
    obtain ⟨x, h1, x', h1', rfl⟩ := h
    simp only [PCmd.eval, hk _ _ h1 hd.1, hk _ _ h1' hd.2]

theorem InvX.lookup {L : List Nat} (h : InvX L w A) (dbg : Bool) {x : Nat} {ss : List Sel} {p : APart} (hp : A.Part x ss p) :
    ∃ d, w.lookup dbg x ss = some d ∧ d.bases = p.bases ∧ d.extents = p.extents ∧ WellShaped d := by
  obtain ⟨t, _, hr⟩ := h
  obtain ⟨a, d, _, h2, h3, _, h5⟩ := Spec.World.Rep.part (s := w.st) hr dbg hp
  exact ⟨d, h2, h3.bases, h3.extents, h5⟩

theorem eval_lookup {L : List Nat} (h : InvX L w A) (dbg : Bool) {c : PCmd T (Nat × List Sel)} (hc : PartsLegal A c) :
    ∃ d, c.eval (fun x => w.lookup dbg x.1 x.2) = some d := by
  cases c with
  | convert | read | write | forEach | traverse | shape =>
    obtain ⟨p, hp⟩ := hc
    obtain ⟨d, h1, _⟩ := h.lookup dbg hp
    exact ⟨_, by simp only [PCmd.eval, h1, Option.map_some]; rfl⟩
  | assign | copyArray | equal | less =>
    obtain ⟨⟨p, hp⟩, q, hq⟩ := hc
    obtain ⟨d, h1, _⟩ := h.lookup dbg hp
    obtain ⟨d', h2, _⟩ := h.lookup dbg hq
    exact ⟨_, by simp only [PCmd.eval, h1, h2, Option.bind_some, Option.map_some]; rfl⟩

/-- A command on parts, through held handles and iterators, is the command on the parts they stand for. -/
theorem part_exec (dflt : T) (eq lt : T → T → Bool) {L : List Nat} (h : InvX L w A) (hr : RegInv dbg w A ρ its) {c : PCmd T Ex} {c' : PCmd T (Nat × List Sel)}
    (he : c.eval (A.path ρ) = some c') (hl : c'.cmd.Legal A) : w.execH dbg dflt eq lt its (.part c) = .ofX its (w.execX dbg dflt eq lt c'.cmd) := by
  obtain ⟨d, hd⟩ := eval_lookup h dbg (partsLegal hl)
  have := eval_trans (g := Ex.desc dbg its w) he (fun e x hx _ => hr.desc hx) (partsLegal hl)
  simp only [World.execH, this, hd, HRes.ofPart, execD_eq dbg dflt eq lt w c' hd]

/-- Any command that stands for a command of SpecProg.lean. -/
theorem cmd_exec (dflt : T) (eq lt : T → T → Bool) {L : List Nat} (h : InvX L w A) (hr : RegInv dbg w A ρ its) {hc : HCmd T} {c : Cmd T} (he : hc.cmd A ρ = some c)
    (hl : c.Legal A) : w.execH dbg dflt eq lt its hc = .ofX its (w.execX dbg dflt eq lt c) := by
  cases hc with
  | plain c' => cases he; rfl
  | part c' =>
    simp only [HCmd.cmd, Option.map_eq_some_iff] at he
    obtain ⟨c1, h1, rfl⟩ := he
    exact part_exec dflt eq lt h hr h1 hl
  | _ => cases he

/-! ### Registers survive commands -/

theorem keep_part {L L' : List Nat} {w' : World T} {A' : AState T} (h : InvX L w A) (h' : InvX L' w' A') {x : Nat} {a : MArr} (hx : w.objs x = some a)
    (hx' : w'.objs x = some a) {ss : List Sel} : (∀ p, A.Part x ss p → A'.Part x ss p) ∧ w'.lookup dbg x ss = w.lookup dbg x ss := by
  obtain ⟨abs, h1, h2⟩ := inv_holds h hx
  obtain ⟨abs', h1', h2'⟩ := inv_holds h' hx'
  have hw : abs'.whole = abs.whole := by
    unfold AbsArr.whole
    rw [← h2.bases, ← h2'.bases, ← h2.extents, ← h2'.extents]
  refine ⟨fun p hp => ?_, by unfold World.lookup; rw [hx, hx']⟩
  obtain ⟨a0, g1, g2, g3⟩ := hp
  rw [h1] at g1; cases g1
  exact ⟨abs', h1', by rw [hw]; exact g2, by rw [hw]; exact g3⟩

theorem part_obj {L : List Nat} (h : InvX L w A) {x : Nat} {ss : List Sel} {p : APart} (hp : A.Part x ss p) : ∃ a, w.objs x = some a := by
  obtain ⟨abs, h1, _⟩ := hp
  obtain ⟨t, _, hr⟩ := h
  obtain ⟨a, h2, _⟩ := hr.abs h1
  exact ⟨a, h2⟩

theorem RegOk.part {h : Held (Nat × List Sel) ItPos} {c : Held Desc AnyIt} (hok : RegOk dbg w A h c) : ∃ ss p, A.Part h.owner ss p := by
  cases h with
  | handle h => cases c with
    | handle d => obtain ⟨⟨p, hp⟩, _⟩ := hok; exact ⟨_, p, hp⟩
    | it i => exact hok.elim
  | it p => cases c with
    | handle d => exact hok.elim
    | it i => obtain ⟨q, _, _, _, _, _, g1, _⟩ := hok; exact ⟨_, q, g1⟩

theorem RegOk.keep {L L' : List Nat} {w' : World T} {A' : AState T} (hi : InvX L w A) (hi' : InvX L' w' A') {h : Held (Nat × List Sel) ItPos} {c : Held Desc AnyIt}
    (hok : RegOk dbg w A h c) (hobj : w'.objs h.owner = w.objs h.owner) : RegOk dbg w' A' h c := by
  obtain ⟨ss, p, hp⟩ := hok.part
  obtain ⟨a, ha⟩ := part_obj hi hp
  have ha' : w'.objs h.owner = some a := by rw [hobj, ha]
  cases h with
  | handle h =>
    cases c with
    | it i => exact hok.elim
    | handle d =>
      obtain ⟨⟨p, hp⟩, hl⟩ := hok
      obtain ⟨k1, k2⟩ := keep_part (dbg := dbg) hi hi' ha ha' (ss := h.2)
      exact ⟨⟨p, k1 p hp⟩, by rw [← hl]; exact k2⟩
  | it p =>
    cases c with
    | handle d => exact hok.elim
    | it i =>
      obtain ⟨q, e, es, b, bs, d, g1, g2, g3, g4, g5⟩ := hok
      obtain ⟨k1, k2⟩ := keep_part (dbg := dbg) hi hi' ha ha' (ss := p.path)
      exact ⟨q, e, es, b, bs, d, k1 q g1, g2, g3, by rw [← g4]; exact k2, g5⟩

theorem after_some {c : Cmd T} {r : Nat} {h : Held (Nat × List Sel) ItPos} (hr : ρ.after c r = some h) : ρ r = some h ∧ ¬ c.Drops h.owner ∧ ¬ c.Relabels h.owner := by
  unfold ARegs.after at hr
  obtain ⟨h', h1, h2⟩ := Option.bind_eq_some_iff.mp hr
  split at h2
  · cases h2
  · rename_i hn
    cases h2
    exact ⟨h1, fun e => hn (.inl e), fun e => hn (.inr e)⟩

theorem RegInv.done {L L' : List Nat} {w' : World T} {A' : AState T} {c : Cmd T} (hi : InvX L w A) (hi' : InvX L' w' A') (h : RegInv dbg w A ρ its)
    (hk : ∀ y a, w.objs y = some a → ¬ c.Drops y → KeepsVar y a (¬ c.Relabels y) w') : RegInv dbg w' A' (ρ.after c) its := by
  intro r hd hr
  obtain ⟨h1, h2, h3⟩ := after_some hr
  obtain ⟨cc, h4, h5⟩ := h r hd h1
  obtain ⟨ss, p, hp⟩ := h5.part
  obtain ⟨a, ha⟩ := part_obj hi hp
  obtain ⟨a', k1, _, k3⟩ := hk _ a ha h2
  exact ⟨cc, h4, h5.keep hi hi' (by rw [k1, ha, k3 h3])⟩

theorem RegInv.threw {L L' : List Nat} {w' : World T} {A' : AState T} (hi : InvX L w A) (hi' : InvX L' w' A') (h : RegInv dbg w A ρ its)
    (hk : ∀ y a, w.objs y = some a → KeepsVar y a True w') : RegInv dbg w' A' ρ its := by
  intro r hd hr
  obtain ⟨cc, h4, h5⟩ := h r hd hr
  obtain ⟨ss, p, hp⟩ := h5.part
  obtain ⟨a, ha⟩ := part_obj hi hp
  obtain ⟨a', k1, _, k3⟩ := hk _ a ha
  exact ⟨cc, h4, h5.keep hi hi' (by rw [k1, ha, k3 trivial])⟩

/-! ### Operations on registers -/

theorem legalPath_some {e : Ex} {h : Nat × List Sel} (he : A.legalPath ρ e = some h) : A.path ρ e = some h ∧ ∃ p, A.Part h.1 h.2 p := by
  unfold AState.legalPath at he
  obtain ⟨h', h1, h2⟩ := Option.bind_eq_some_iff.mp he
  split at h2
  · cases h2; exact ⟨h1, by assumption⟩
  · cases h2

theorem range_some {L : List Nat} (hi : InvX L w A) (hr : RegInv dbg w A ρ its) {e : Ex} {h : (Nat × List Sel) × Nat} (he : A.range ρ e = some h) :
    A.path ρ e = some h.1 ∧ ∃ q es b bs p s ss, A.Part h.1.1 h.1.2 q ∧ q.extents = h.2 :: es ∧ q.bases = b :: bs ∧
      w.lookup dbg h.1.1 h.1.2 = some ⟨p, h.2 :: es, s :: ss, b :: bs⟩ ∧ e.desc dbg its w = some ⟨p, h.2 :: es, s :: ss, b :: bs⟩ := by
  unfold AState.range at he
  obtain ⟨h', h1, h2⟩ := Option.bind_eq_some_iff.mp he
  obtain ⟨n, h3, rfl⟩ := Option.map_eq_some_iff.mp h2
  obtain ⟨g1, q, g2⟩ := legalPath_some h1
  unfold AState.length at h3
  rw [part_some g2, Option.bind_some] at h3
  obtain ⟨d, k1, k2, k3, k4⟩ := hi.lookup dbg g2
  have hd := hr.desc g1
  rw [k1] at hd
  obtain ⟨p, ee, st, bb⟩ := d
  simp only at k2 k3
  subst k2 k3
  cases hq : q.extents with
  | nil => rw [hq] at h3; cases h3
  | cons e0 es =>
    rw [hq] at h3
    cases h3
    obtain ⟨w1, w2⟩ := k4
    simp only [hq] at w1 w2
    cases hb : q.bases with
    | nil => rw [hb] at w2; cases w2
    | cons b bs =>
      cases st with
      | nil => cases w1
      | cons s ss => exact ⟨g1, q, es, b, bs, p, s, ss, g2, hq, hb, by rw [k1, hq, hb], by rw [hd, hq, hb]⟩

theorem length_some {p : ItPos} {q : APart} {e : Nat} {es : List Nat} (h : A.Part p.var p.path q) (he : q.extents = e :: es) : A.length p = some e := by
  unfold AState.length
  rw [part_some h, Option.bind_some, he]
  rfl

theorem move_some {p p' : ItPos} {n : Int} {e : Nat} (hl : A.length p = some e) (h : A.move? p n = some p') :
    0 ≤ (p.i : Int) + n ∧ ((p.i : Int) + n).toNat ≤ e ∧ p' = { p with i := ((p.i : Int) + n).toNat } := by
  unfold AState.move? at h
  rw [hl, Option.bind_some] at h
  split at h
  · rename_i hc
    cases h
    exact ⟨hc.1, by omega, rfl⟩
  · cases h

theorem two_some {r r' : Nat} {pq : ItPos × ItPos} (h : ρ.two r r' = some pq) :
    ρ.iter r = some pq.1 ∧ ρ.iter r' = some pq.2 ∧ pq.1.var = pq.2.var ∧ pq.1.path = pq.2.path ∧ pq.1.rev = pq.2.rev := by
  unfold ARegs.two at h
  obtain ⟨p, h1, h2⟩ := Option.bind_eq_some_iff.mp h
  obtain ⟨q, h3, h4⟩ := Option.bind_eq_some_iff.mp h2
  split at h4
  · rename_i hc; cases h4; exact ⟨h1, h3, hc⟩
  · cases h4

/-- Two iterators into the same sequence. -/
theorem RegInv.two (h : RegInv dbg w A ρ its) {r r' : Nat} {pq : ItPos × ItPos} (ht : ρ.two r r' = some pq) :
    ∃ q e es b bs d, A.Part pq.1.var pq.1.path q ∧ q.extents = e :: es ∧ q.bases = b :: bs ∧ w.lookup dbg pq.1.var pq.1.path = some d ∧ d.extents = e :: es ∧ d.bases = b :: bs ∧
      pq.1.i ≤ e ∧ pq.2.i ≤ e ∧ pq.1.rev = pq.2.rev ∧
      its.iter r = some (toIt e b d ⟨0, pq.1.rev, pq.1.i⟩) ∧ its.iter r' = some (toIt e b d ⟨0, pq.2.rev, pq.2.i⟩) := by
  obtain ⟨h1, h2, h3, h4, h5⟩ := two_some ht
  obtain ⟨q, e, es, b, bs, d, g1, g2, g3, g4, g5, g6, g7, g8⟩ := h.iter h1
  obtain ⟨q', e', es', b', bs', d', g1', g2', g3', g4', g5', g6', g7', g8'⟩ := h.iter h2
  rw [← h3, ← h4] at g4'
  rw [g4] at g4'; cases g4'
  rw [g5] at g5'; cases g5'
  rw [g6] at g6'; cases g6'
  exact ⟨q, e, es, b, bs, d, g1, g2, g3, g4, g5, g6, g7, g7', h5, g8, g8'⟩

/-- One operation on registers. -/
theorem reg_exec {L : List Nat} (hi : InvX L w A) (hr : RegInv dbg w A ρ its) {hc : HCmd T} {o : HObs T} {ρ' : ARegs} (hs : A.regStep ρ hc = some (o, ρ')) :
    ∃ its', w.regX dbg its hc = some (o, its') ∧ RegInv dbg w A ρ' its' := by
  have hrange : ∀ {e : Ex} {h : (Nat × List Sel) × Nat}, A.range ρ e = some h → ∀ (rev : Bool) (i : Nat), i ≤ h.2 → ∃ b d, e.desc dbg its w = some d ∧
      d.begin = .ok ⟨b + ((0 : Nat) : Int), d⟩ ∧ d.end = .ok ⟨b + ((h.2 : Nat) : Int), d⟩ ∧ d.rbegin = .ok ⟨⟨b + ((h.2 : Int) - ((0 : Nat) : Int)), d⟩⟩ ∧
      d.rend = .ok ⟨⟨b + ((h.2 : Int) - (h.2 : Int)), d⟩⟩ ∧ RegOk dbg w A (.it ⟨h.1.1, h.1.2, rev, i⟩) (.it (toIt h.2 b d ⟨0, rev, i⟩)) := by
    intro e h he rev i hle
    obtain ⟨_, q, es, b, bs, p, s, ss, g1, g2, g3, g4, g5⟩ := range_some hi hr he
    refine ⟨b, _, g5, ?_, rfl, ?_, ?_, q, h.2, es, b, bs, _, g1, g2, g3, g4, rfl, rfl, hle, rfl⟩
    · show Res.ok (It.mk b _) = _; simp
    · show Res.ok (RIt.mk (It.mk (b + (h.2 : Int)) _)) = _; simp
    · show Res.ok (RIt.mk (It.mk b _)) = _; simp
  have hmove : ∀ {r : Nat} {n : Int} {p : ItPos}, (ρ.iter r).bind (fun p => A.move? p n) = some p →
      ∃ i, its.iter r = some i ∧ RegOk dbg w A (.it p) (.it (i.add n)) := by
    intro r n p h
    obtain ⟨p0, h1, h2⟩ := Option.bind_eq_some_iff.mp h
    obtain ⟨q, e, es, b, bs, d, g1, g2, g3, g4, g5, g6, g7, g8⟩ := hr.iter h1
    obtain ⟨k1, k2, rfl⟩ := move_some (length_some g1 g2) h2
    exact ⟨_, g8, q, e, es, b, bs, d, g1, g2, g3, g4, g5, g6, k2, by rw [toIt_moved e b d _ n k1]⟩
  cases hc with
  | plain c => cases hs
  | part c => cases hs
  | hold r e =>
    simp only [AState.regStep, Option.map_eq_some_iff] at hs
    obtain ⟨h, h1, h2⟩ := hs
    cases h2
    obtain ⟨g1, p, g2⟩ := legalPath_some h1
    obtain ⟨d, k1, _⟩ := hi.lookup dbg g2
    exact ⟨_, by simp only [World.regX, hr.desc g1, k1, Option.map_some], hr.set r (c := .handle d) ⟨⟨p, g2⟩, k1⟩⟩
  | begin r e =>
    simp only [AState.regStep, Option.map_eq_some_iff] at hs
    obtain ⟨h, h1, h2⟩ := hs
    cases h2
    obtain ⟨b, d, k1, k2, k3, k4, k5, k6⟩ := hrange h1 false 0 (by omega)
    exact ⟨_, by simp only [World.regX, k1, Option.bind_some, k2, Res.val?, Option.map_some]; rfl, hr.set r k6⟩
  | fin r e =>
    simp only [AState.regStep, Option.map_eq_some_iff] at hs
    obtain ⟨h, h1, h2⟩ := hs
    cases h2
    obtain ⟨b, d, k1, k2, k3, k4, k5, k6⟩ := hrange h1 false h.2 (by omega)
    exact ⟨_, by simp only [World.regX, k1, Option.bind_some, k3, Res.val?, Option.map_some]; rfl, hr.set r k6⟩
  | rbegin r e =>
    simp only [AState.regStep, Option.map_eq_some_iff] at hs
    obtain ⟨h, h1, h2⟩ := hs
    cases h2
    obtain ⟨b, d, k1, k2, k3, k4, k5, k6⟩ := hrange h1 true 0 (by omega)
    exact ⟨_, by simp only [World.regX, k1, Option.bind_some, k4, Res.val?, Option.map_some]; rfl, hr.set r k6⟩
  | rfin r e =>
    simp only [AState.regStep, Option.map_eq_some_iff] at hs
    obtain ⟨h, h1, h2⟩ := hs
    cases h2
    obtain ⟨b, d, k1, k2, k3, k4, k5, k6⟩ := hrange h1 true h.2 (by omega)
    exact ⟨_, by simp only [World.regX, k1, Option.bind_some, k5, Res.val?, Option.map_some]; rfl, hr.set r k6⟩
  | copy r r' =>
    simp only [AState.regStep, Option.map_eq_some_iff] at hs
    obtain ⟨p, h1, h2⟩ := hs
    cases h2
    obtain ⟨q, e, es, b, bs, d, g1, g2, g3, g4, g5, g6, g7, g8⟩ := hr.iter h1
    exact ⟨_, by simp only [World.regX, g8, Option.map_some], hr.set r (c := .it (toIt e b d ⟨0, p.rev, p.i⟩)) ⟨q, e, es, b, bs, d, g1, g2, g3, g4, g5, g6, g7, rfl⟩⟩
  | base r r' =>
    simp only [AState.regStep, Option.map_eq_some_iff] at hs
    obtain ⟨p, h1, h2⟩ := hs
    cases h2
    obtain ⟨p0, h1, h2⟩ := Option.bind_eq_some_iff.mp h1
    obtain ⟨q, e, es, b, bs, d, g1, g2, g3, g4, g5, g6, g7, g8⟩ := hr.iter h1
    unfold AState.base? at h2
    rw [length_some g1 g2, Option.bind_some] at h2
    split at h2
    · rename_i hrev
      cases h2
      have hb : (toIt e b d ⟨0, p0.rev, p0.i⟩).base = .ok (toIt e b d ⟨0, false, e - p0.i⟩) := by
        unfold toIt
        simp only [hrev, if_true, Bool.false_eq_true, if_false]
        show Res.ok (AnyIt.fwd (It.mk (b + ((e : Int) - (p0.i : Int))) d)) = _
        rw [show ((e - p0.i : Nat) : Int) = (e : Int) - (p0.i : Int) by omega]
      exact ⟨_, by simp only [World.regX, g8, Option.bind_some, hb, Res.val?, Option.map_some],
        hr.set r (c := .it (toIt e b d ⟨0, false, e - p0.i⟩)) ⟨q, e, es, b, bs, d, g1, g2, g3, g4, g5, g6, by show e - p0.i ≤ e; omega, rfl⟩⟩
    · cases h2
  | inc r =>
    simp only [AState.regStep, Option.map_eq_some_iff] at hs
    obtain ⟨p, h1, h2⟩ := hs
    cases h2
    obtain ⟨i, k1, k2⟩ := hmove h1
    have hinc : i.inc = i.add 1 := by cases i <;> rfl
    exact ⟨_, by simp only [World.regX, k1, Option.map_some]; rfl, hr.set r (by rw [hinc]; exact k2)⟩
  | dec r =>
    simp only [AState.regStep, Option.map_eq_some_iff] at hs
    obtain ⟨p, h1, h2⟩ := hs
    cases h2
    obtain ⟨i, k1, k2⟩ := hmove h1
    have hdec : i.dec = i.add (-1) := by
      cases i with
      | fwd j => simp [AnyIt.dec, AnyIt.add, It.decrement, It.advance]; omega
      | bwd j => simp [AnyIt.dec, AnyIt.add, RIt.decrement, RIt.advance, It.increment, It.advance]
    exact ⟨_, by simp only [World.regX, k1, Option.map_some]; rfl, hr.set r (by rw [hdec]; exact k2)⟩
  | add r n =>
    simp only [AState.regStep, Option.map_eq_some_iff] at hs
    obtain ⟨p, h1, h2⟩ := hs
    cases h2
    obtain ⟨i, k1, k2⟩ := hmove h1
    exact ⟨_, by simp only [World.regX, k1, Option.map_some], hr.set r k2⟩
  | equal r r' =>
    simp only [AState.regStep, Option.map_eq_some_iff] at hs
    obtain ⟨pq, h1, h2⟩ := hs
    cases h2
    obtain ⟨q, e, es, b, bs, d, g1, g2, g3, g4, g5, g6, g7, g7', g9, g8, g8'⟩ := hr.two h1
    refine ⟨its, ?_, hr⟩
    have := toIt_equal e b d ⟨0, pq.1.rev, pq.1.i⟩ ⟨0, pq.2.rev, pq.2.i⟩ g9
    simp only [World.regX, g8, g8', Option.bind_some, this, Res.val?, Option.map_some]
  | less r r' =>
    simp only [AState.regStep, Option.map_eq_some_iff] at hs
    obtain ⟨pq, h1, h2⟩ := hs
    cases h2
    obtain ⟨q, e, es, b, bs, d, g1, g2, g3, g4, g5, g6, g7, g7', g9, g8, g8'⟩ := hr.two h1
    refine ⟨its, ?_, hr⟩
    have := toIt_less e b d ⟨0, pq.1.rev, pq.1.i⟩ ⟨0, pq.2.rev, pq.2.i⟩ g9
    simp only [World.regX, g8, g8', Option.bind_some, this, Res.val?, Option.map_some]
  | diff r r' =>
    simp only [AState.regStep, Option.map_eq_some_iff] at hs
    obtain ⟨pq, h1, h2⟩ := hs
    cases h2
    obtain ⟨q, e, es, b, bs, d, g1, g2, g3, g4, g5, g6, g7, g7', g9, g8, g8'⟩ := hr.two h1
    refine ⟨its, ?_, hr⟩
    have := toIt_diff e b d ⟨0, pq.1.rev, pq.1.i⟩ ⟨0, pq.2.rev, pq.2.i⟩ g9
    simp only [World.regX, g8, g8', Option.bind_some, this, Res.val?, Option.map_some]

end MultiArray
