import Verif.Lemmas.Threads

/- Client programs as code, run without interference, are the client programs of the sequential model. -/
set_option autoImplicit false

namespace MultiArray
open Spec
variable {T α β : Type}

/-- The code did what the sequential model says. -/
def CodeAgrees (r : XRes T) (out : Out T (Option (CObs T) × Objs)) : Prop :=
  match r with
  | .done o w' => out = .ok (some o, w'.objs) w'.st
  | .threw w' => out = .ok (none, w'.objs) w'.st
  | .failed => True

theorem exec_bind_ok {x : Code T α} {f : α → Code T β} {s s' : St T} {a : α} (h : x.exec s = .ok a s') : (x >>= f).exec s = (f a).exec s' := by
  rw [MArr.exec_bind_apply, h]; rfl

theorem codeAgrees_mem (w : World T) (x : Code T Unit) : CodeAgrees (w.mem x.exec).toX ((callC w.objs x).exec w.st) := by
  unfold callC
  rw [MArr.exec_bind_apply, Code.exec_attempt]
  unfold World.mem
  cases x.exec w.st <;> simp [Result.toX, CodeAgrees, Code.after, Code.exec, pure]

theorem codeAgrees_mem' {ε : Type} (w : World T) (e : Exec T ε) (x : Code T Unit) (h : ∀ s, x.exec s = match e s with | .ok _ s' => .ok () s' | .throw s' => .throw s' | .assertFail s' => .assertFail s' | .ub => .ub) :
    CodeAgrees (w.mem e).toX ((callC w.objs x).exec w.st) := by
  have h1 := codeAgrees_mem w x
  have h2 : w.mem x.exec = w.mem e := by
    unfold World.mem; rw [h]
    cases e w.st <;> rfl
  rwa [h2] at h1

theorem codeAgrees_new (w : World T) (x : Nat) (c : Ctor) (dbg : Bool) (dflt : T) (code : Code T MArr) (h : code.exec = c.run dbg dflt) :
    CodeAgrees (Result.toX (match c.run dbg dflt w.st with
      | .ok a s => .ok (w.set x (some a) s)
      | .throw s => .threw { w with st := s }
      | .assertFail _ => .failed
      | .ub => .failed)) ((newC w.objs x code).exec w.st) := by
  unfold newC
  rw [MArr.exec_bind_apply, Code.exec_attempt, h]
  cases c.run dbg dflt w.st <;> simp [Result.toX, CodeAgrees, Code.after, Code.exec, pure, World.set, Objs.put]
  rfl

theorem codeAgrees_member (w : World T) (x : Nat) (r : Out T Unit × MArr) (code : Code T (Option Unit × MArr)) (h : code.exec w.st = MArr.caught r) :
    CodeAgrees (w.member x r).toX ((memberC w.objs x code).exec w.st) := by
  unfold memberC
  rw [MArr.exec_bind_apply, h]
  obtain ⟨o, a⟩ := r
  cases o <;> simp [Result.toX, CodeAgrees, Code.after, Code.exec, pure, World.member, World.set, MArr.caught, Objs.put]
  · rfl
  · rfl

theorem exec_lookupC {dbg : Bool} {w : World T} {x : Nat} {ss : List Sel} {d : Desc} (h : w.lookup dbg x ss = some d) (s : St T) :
    (lookupC dbg w.objs x ss).exec s = .ok d s := by
  unfold World.lookup at h
  unfold lookupC
  cases hx : w.objs x with
  | none => rw [hx] at h; cases h
  | some a =>
    rw [hx] at h
    simp only [Option.bind_some] at h
    dsimp only
    rw [Code.exec_lift]
    cases hr : resolve dbg ss a.ref.desc with
    | ok d' => rw [hr] at h; cases h; rfl
    | assertFail => rw [hr] at h; cases h
    | ub => rw [hr] at h; cases h

theorem codeAgrees_forEach (w : World T) (dbg : Bool) (f : T → T) (d : Desc) :
    CodeAgrees (w.mem (MultiArray.forEach dbg f d.extents.length d)).toX ((callC w.objs (forEachC dbg f d)).exec w.st) := by
  have h : (forEachC dbg f d).exec = MultiArray.forEach dbg f d.extents.length d := by
    unfold forEachC
    rw [Code.exec_ofProg, exec_forEachAccP]
    rfl
  rw [← h]; exact codeAgrees_mem w _

theorem exec_readAllC {s : St T} {ps : List Ptr} {vs : List T} (h : ps.mapM (fun p => s.get? p) = some vs) : (readAllC ps).exec s = .ok vs s := by
  induction ps generalizing vs with
  | nil => cases h; rfl
  | cons p ps ih =>
    rw [List.mapM_cons] at h
    cases hp : s.get? p with
    | none => rw [hp] at h; cases h
    | some v =>
      rw [hp] at h
      cases hps : ps.mapM (fun p => s.get? p) with
      | none => rw [hps] at h; cases h
      | some us =>
        rw [hps] at h
        cases h
        unfold readAllC
        rw [exec_bind_ok (s' := s) (a := v) (by rw [Code.exec_get]; simp [load, hp]), exec_bind_ok (ih hps)]
        rfl

theorem codeAgrees_done {r : Option (CObs T × World T)} {out : Out T (Option (CObs T) × Objs)} (h : ∀ o w', r = some (o, w') → out = .ok (some o, w'.objs) w'.st) :
    CodeAgrees (match (generalizing := false) r with | some (o, w') => XRes.done o w' | none => .failed) out := by
  cases r with
  | none => trivial
  | some r => exact h _ _ rfl

theorem val_ok {x : Out T α} {a : α} {s : St T} (h : Out.val? x = some (a, s)) : x = .ok a s := by
  cases x with
  | ok a' s' => cases h; rfl
  | throw => cases h
  | assertFail => cases h
  | ub => cases h

theorem res_ok {x : Res α} {a : α} (h : Res.val? x = some a) : x = .ok a := by
  cases x with
  | ok a' => cases h; rfl
  | assertFail => cases h
  | ub => cases h

theorem set_same {w : World T} {x : Nat} {a : MArr} (hx : w.objs x = some a) : (fun y => if y = x then some a else w.objs y) = w.objs := by
  funext y
  by_cases e : y = x
  · rw [if_pos e, e, hx]
  · rw [if_neg e]

/-- One command. -/
theorem codeAgrees_cmd (dbg : Bool) (dflt : T) (eq lt : T → T → Bool) (w : World T) (c : Cmd T) :
    CodeAgrees (w.execX dbg dflt eq lt c) ((c.code dbg dflt eq lt w.objs).exec w.st) := by
  cases c with
  | construct x i =>
    cases i with
    | default n al => exact codeAgrees_new w x (.default n al) dbg dflt _ (MArr.exec_mkDefaultC dflt n al)
    | extents n es so al => exact codeAgrees_new w x (.extents n es so al) dbg dflt _ (MArr.exec_mkExtentsC dflt n es so al)
    | gen n rs so al => exact codeAgrees_new w x (.gen n rs so al) dbg dflt _ (MArr.exec_mkExtentGenC dflt ⟨n, rs⟩ so al)
    | copy y =>
      simp only [Cmd.code, World.execX, World.mayThrow, World.step, Init.ctor]
      cases hy : w.objs y with
      | none => trivial
      | some a => exact codeAgrees_new w x (.copy a.ref.numDims a) dbg dflt _ (MArr.exec_mkCopyC dflt a)
    | convert y ss so al =>
      simp only [Cmd.code, World.execX, World.mayThrow]
      cases hd : w.lookup dbg y ss with
      | none => trivial
      | some d =>
        rw [exec_bind_ok (exec_lookupC hd w.st)]
        have hy : ∃ a, w.objs y = some a := by
          unfold World.lookup at hd
          cases hy : w.objs y with
          | none => rw [hy] at hd; cases hd
          | some a => exact ⟨a, rfl⟩
        obtain ⟨a, hy⟩ := hy
        simp only [World.step, Init.ctor, hy, Option.map_some]
        exact codeAgrees_new w x (.convert d.extents.length d so al) dbg dflt _ (MArr.exec_mkConvertC dbg dflt d so al)
  | destroy x =>
    simp only [Cmd.code, World.execX, World.mayThrow, World.step]
    cases hx : w.objs x with
    | none => trivial
    | some a =>
      dsimp only
      unfold callC
      rw [MArr.exec_bind_apply, Code.exec_attempt, MArr.exec_deallocateSpaceC]
      cases a.deallocateSpace w.st <;> simp [Result.toX, CodeAgrees, Code.after, Code.exec, pure, World.set] <;> rfl
  | on x op =>
    cases hx : w.objs x with
    | none => simp only [World.execX, World.mayThrow, hx, Result.toX]; trivial
    | some a =>
      cases op with
      | read idx =>
        simp only [Cmd.code, World.execX, World.mayThrow, hx, World.exec, Option.bind_some, concStep]
        apply codeAgrees_done
        intro o w' h
        cases hv : Out.val? (readElem dbg a.ref.desc idx w.st) with
        | none => rw [hv] at h; cases h
        | some r =>
          rw [hv] at h; cases h
          rw [exec_bind_ok (s' := r.2) (a := r.1) (by rw [Code.exec_ofProg, exec_readElemP]; exact val_ok hv)]
          simp only [Code.exec, pure, World.set, Out.ok.injEq, Prod.mk.injEq, true_and, and_true]
          exact (set_same hx).symm
      | readChain idx =>
        simp only [Cmd.code, World.execX, World.mayThrow, hx, World.exec, Option.bind_some, concStep]
        apply codeAgrees_done
        intro o w' h
        cases hv : Out.val? (MultiArray.readChain dbg a.ref.desc idx w.st) with
        | none => rw [hv] at h; cases h
        | some r =>
          rw [hv] at h; cases h
          rw [exec_bind_ok (s' := r.2) (a := r.1) (by rw [exec_readChainC]; exact val_ok hv)]
          simp only [Code.exec, pure, World.set, Out.ok.injEq, Prod.mk.injEq, true_and, and_true]
          exact (set_same hx).symm
      | write idx v =>
        simp only [Cmd.code, World.execX, World.mayThrow, hx]
        rw [← exec_writeElemP, ← Code.exec_ofProg]
        exact codeAgrees_mem w _
      | writeChain idx v =>
        simp only [Cmd.code, World.execX, World.mayThrow, hx]
        rw [← exec_writeChainC]
        exact codeAgrees_mem w _
      | reindex bs =>
        simp only [Cmd.code, World.execX, World.mayThrow, hx, World.exec, Option.bind_some, concStep]
        apply codeAgrees_done
        intro o w' h
        cases hv : Res.val? (a.ref.reindexList bs) with
        | none => rw [hv] at h; cases h
        | some r =>
          rw [hv] at h; cases h
          rw [exec_bind_ok (s' := w.st) (a := r) (by rw [res_ok hv]; rfl)]
          rfl
      | reindexAll b =>
        simp only [Cmd.code, World.execX, World.mayThrow, hx, World.exec, Option.bind_some, concStep]
        rfl
      | reshape es =>
        simp only [Cmd.code, World.execX, World.mayThrow, hx, World.exec, Option.bind_some, concStep]
        apply codeAgrees_done
        intro o w' h
        cases hv : Res.val? (a.ref.reshape dbg es) with
        | none => rw [hv] at h; cases h
        | some r =>
          rw [hv] at h; cases h
          rw [exec_bind_ok (s' := w.st) (a := r) (by rw [res_ok hv]; rfl)]
          rfl
      | assign input =>
        simp only [Cmd.code, World.execX, World.mayThrow, hx, World.step]
        rw [show (a.ref.assign input : Exec T Unit) = (Code.ofProg (assignLoopP a.ref.numElems a.ref.base input)).exec by
          rw [Code.exec_ofProg, exec_assignLoopP]; rfl]
        exact codeAgrees_mem w _
      | forEach f =>
        simp only [Cmd.code, World.execX, World.mayThrow, hx]
        exact codeAgrees_forEach w dbg f a.ref.desc
      | resize rs =>
        simp only [Cmd.code, World.execX, World.mayThrow, hx, World.step]
        exact codeAgrees_member w x _ _ (MArr.exec_resizeC dbg dflt _ a w.st)
      | resizeList es =>
        simp only [Cmd.code, World.execX, World.mayThrow, hx, World.step]
        exact codeAgrees_member w x _ _ (MArr.exec_resizeExtentsC dbg dflt es a w.st)
      | query =>
        simp only [Cmd.code, World.execX, World.mayThrow, hx, World.exec, Option.bind_some, concStep]
        apply codeAgrees_done
        intro o w' h
        cases hv : Res.val? a.ref.size with
        | none => rw [hv] at h; cases h
        | some r =>
          rw [hv] at h; cases h
          rw [exec_bind_ok (s' := w.st) (a := r) (by rw [res_ok hv]; rfl)]
          simp only [Code.exec, pure, World.set, Out.ok.injEq, Prod.mk.injEq, true_and, and_true]
          exact (set_same hx).symm
  | assign x y =>
    simp only [Cmd.code, World.execX, World.mayThrow, World.step]
    cases hx : w.objs x with
    | none => trivial
    | some a =>
      cases hy : w.objs y with
      | none => trivial
      | some a' =>
        dsimp only
        rw [← MArr.exec_assignFromC]
        exact codeAgrees_mem w _
  | assignPart x ss y ss' =>
    simp only [Cmd.code, World.execX, World.mayThrow]
    cases hd : w.lookup dbg x ss with
    | none => trivial
    | some d =>
      cases hd' : w.lookup dbg y ss' with
      | none => trivial
      | some d' =>
        rw [exec_bind_ok (exec_lookupC hd w.st), exec_bind_ok (exec_lookupC hd' w.st)]
        simp only [World.step]
        rw [show (assignOp dbg false d d' : Exec T Unit) = (Code.ofProg (assignP dbg d.extents.length d d')).exec by
          rw [Code.exec_ofProg, exec_assignP]; rfl]
        exact codeAgrees_mem w _
  | copyArray x ss y ss' =>
    simp only [Cmd.code, World.execX, World.mayThrow]
    cases hd : w.lookup dbg x ss with
    | none => trivial
    | some d =>
      cases hd' : w.lookup dbg y ss' with
      | none => trivial
      | some d' =>
        rw [exec_bind_ok (exec_lookupC hd w.st), exec_bind_ok (exec_lookupC hd' w.st)]
        simp only [World.step]
        rw [← exec_copyArrayP, ← Code.exec_ofProg]
        exact codeAgrees_mem w _
  | read x ss idx =>
    simp only [Cmd.code, World.execX, World.mayThrow, World.exec]
    apply codeAgrees_done
    intro o w' h
    cases hd : w.lookup dbg x ss with
    | none => rw [hd] at h; cases h
    | some d =>
      rw [hd] at h
      simp only [Option.bind_some] at h
      rw [exec_bind_ok (exec_lookupC hd w.st)]
      cases hv : Out.val? (readElem dbg d idx w.st) with
      | none => rw [hv] at h; cases h
      | some r =>
        rw [hv] at h; cases h
        rw [exec_bind_ok (s' := r.2) (a := r.1) (by rw [Code.exec_ofProg, exec_readElemP]; exact val_ok hv)]
        rfl
  | write x ss idx v =>
    simp only [Cmd.code, World.execX, World.mayThrow]
    cases hd : w.lookup dbg x ss with
    | none => trivial
    | some d =>
      rw [exec_bind_ok (exec_lookupC hd w.st)]
      simp only [World.step]
      rw [← exec_writeElemP, ← Code.exec_ofProg]
      exact codeAgrees_mem w _
  | forEach x ss f =>
    simp only [Cmd.code, World.execX, World.mayThrow]
    cases hd : w.lookup dbg x ss with
    | none => trivial
    | some d =>
      rw [exec_bind_ok (exec_lookupC hd w.st)]
      simp only [World.step]
      exact codeAgrees_forEach w dbg f d
  | traverse x ss =>
    simp only [Cmd.code, World.execX, World.mayThrow, World.exec]
    apply codeAgrees_done
    intro o w' h
    cases hd : w.lookup dbg x ss with
    | none => rw [hd] at h; cases h
    | some d =>
      rw [hd] at h
      simp only [Option.bind_some] at h
      rw [exec_bind_ok (exec_lookupC hd w.st)]
      cases hv : Res.val? (nestedLoop dbg d.extents.sum d.extents.length d) with
      | none => rw [hv] at h; cases h
      | some r =>
        rw [hv] at h
        simp only [Option.bind_some] at h
        rw [exec_bind_ok (s' := w.st) (a := r) (by rw [res_ok hv]; rfl)]
        cases r with
        | none => cases h
        | some ps =>
          simp only [Option.bind_some] at h
          dsimp only
          cases hps : ps.mapM (fun p => w.st.get? p) with
          | none => rw [hps] at h; cases h
          | some vs =>
            rw [hps] at h; cases h
            rw [exec_bind_ok (exec_readAllC hps)]
            rfl
  | equal x ss y ss' =>
    simp only [Cmd.code, World.execX, World.mayThrow, World.exec]
    apply codeAgrees_done
    intro o w' h
    cases hd : w.lookup dbg x ss with
    | none => rw [hd] at h; cases h
    | some d =>
      cases hd' : w.lookup dbg y ss' with
      | none => rw [hd, hd'] at h; cases h
      | some d' =>
        rw [hd, hd'] at h
        simp only [Option.bind_some] at h
        rw [exec_bind_ok (exec_lookupC hd w.st), exec_bind_ok (exec_lookupC hd' w.st)]
        cases hv : Res.val? (equalRef dbg eq w.st d.extents.length d d') with
        | none => rw [hv] at h; cases h
        | some r =>
          rw [hv] at h; cases h
          rw [exec_bind_ok (s' := w.st) (a := r) (by rw [Code.exec_ofProg, pure_equalP dbg eq _ d d' w.st]; dsimp only; rw [res_ok hv]; rfl)]
          rfl
  | less x ss y ss' =>
    simp only [Cmd.code, World.execX, World.mayThrow, World.exec]
    apply codeAgrees_done
    intro o w' h
    cases hd : w.lookup dbg x ss with
    | none => rw [hd] at h; cases h
    | some d =>
      cases hd' : w.lookup dbg y ss' with
      | none => rw [hd, hd'] at h; cases h
      | some d' =>
        rw [hd, hd'] at h
        simp only [Option.bind_some] at h
        rw [exec_bind_ok (exec_lookupC hd w.st), exec_bind_ok (exec_lookupC hd' w.st)]
        cases hv : Res.val? (lessRef dbg lt w.st d.extents.length d d') with
        | none => rw [hv] at h; cases h
        | some r =>
          rw [hv] at h; cases h
          rw [exec_bind_ok (s' := w.st) (a := r) (by rw [Code.exec_ofProg, pure_lessP dbg lt _ d d' w.st]; dsimp only; rw [res_ok hv]; rfl)]
          rfl
  | shape x ss =>
    simp only [Cmd.code, World.execX, World.mayThrow, World.exec]
    apply codeAgrees_done
    intro o w' h
    cases hd : w.lookup dbg x ss with
    | none => rw [hd] at h; cases h
    | some d =>
      rw [hd] at h; cases h
      rw [exec_bind_ok (exec_lookupC hd w.st)]
      rfl

/-- A whole client. -/
theorem exec_client (dbg : Bool) (dflt : T) (eq lt : T → T → Bool) (k : Client T) (n : Nat) {tr tr' : Trace T} {w w' : World T}
    (h : k.run dbg dflt eq lt n tr w = some (tr', w')) : (k.code dbg dflt eq lt n tr w.objs).exec w.st = .ok (tr', w'.objs) w'.st := by
  induction n generalizing tr w with
  | zero => cases h; rfl
  | succ n ih =>
    simp only [Client.run] at h
    simp only [Client.code]
    cases hk : k tr with
    | none => rw [hk] at h; cases h; rfl
    | some c =>
      rw [hk] at h
      dsimp only at h ⊢
      have ha := codeAgrees_cmd dbg dflt eq lt w c
      cases hx : w.execX dbg dflt eq lt c with
      | done o w1 =>
        rw [hx] at h ha
        rw [exec_bind_ok ha]
        exact ih h
      | threw w1 =>
        rw [hx] at h ha
        rw [exec_bind_ok ha]
        exact ih h
      | failed => rw [hx] at h; cases h

end MultiArray
