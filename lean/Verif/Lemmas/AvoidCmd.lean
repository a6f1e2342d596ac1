import Verif.Lemmas.Avoid
import Verif.SpecFork

/- A command only changes storage of the variable it changes. -/
set_option autoImplicit false

namespace MultiArray
open Spec
variable {T α β : Type}

/-- The storage of the variables in `S` is not in `B`; the other variables are as in `o0`. -/
structure ObjsFree (B : Nat → Prop) (S : Nat → Bool) (o0 o : Objs) : Prop where
  free : ∀ x a, S x = true → o x = some a → a.FreeOf B
  same : ∀ x, S x = false → o x = o0 x

theorem ObjsFree.put {B : Nat → Prop} {S : Nat → Bool} {o0 o : Objs} (h : ObjsFree B S o0 o) {x : Nat} (hx : S x = true) {a : Option MArr} (ha : ∀ m, a = some m → m.FreeOf B) :
    ObjsFree B S o0 (o.put x a) := by
  refine ⟨fun y m hy hm => ?_, fun y hy => ?_⟩
  · unfold Objs.put at hm
    split at hm
    · exact ha m hm
    · exact h.free y m hy hm
  · unfold Objs.put
    rw [if_neg (fun e => by rw [e, hx] at hy; cases hy)]
    exact h.same y hy

theorem avoids_callC {B : Nat → Prop} {S : Nat → Bool} {o0 o : Objs} (ho : ObjsFree B S o0 o) {x : Code T Unit} {Q : Unit → Prop} (hx : x.Avoids B Q) :
    (callC o x).Avoids B (fun r => ObjsFree B S o0 r.2) := by
  refine Code.Avoids.bind (Code.Avoids.attempt hx) fun r _ => ?_
  cases r <;> exact ho

theorem avoids_newC {B : Nat → Prop} {S : Nat → Bool} {o0 o : Objs} (ho : ObjsFree B S o0 o) {x : Nat} (hSx : S x = true) {c : Code T MArr} (hc : c.Avoids B (MArr.FreeOf B)) :
    (newC o x c).Avoids B (fun r => ObjsFree B S o0 r.2) := by
  refine Code.Avoids.bind (Code.Avoids.attempt hc) fun r hr => ?_
  cases r with
  | none => exact ho
  | some a => exact ho.put hSx (fun m hm => by cases hm; exact hr a rfl)

theorem avoids_memberC {B : Nat → Prop} {S : Nat → Bool} {o0 o : Objs} (ho : ObjsFree B S o0 o) {x : Nat} (hSx : S x = true) {c : Code T (Option Unit × MArr)} (hc : c.Avoids B (fun r => r.2.FreeOf B)) :
    (memberC o x c).Avoids B (fun r => ObjsFree B S o0 r.2) :=
  Code.Avoids.bind hc fun _ hr => ho.put hSx (fun m hm => by cases hm; exact hr)

theorem avoids_lookupC {B : Nat → Prop} (dbg : Bool) (o : Objs) (x : Nat) (ss : List Sel) :
    (lookupC dbg o x ss : Code T Desc).Avoids B (fun d => ∃ a, o x = some a ∧ d.base.blk = a.ref.base.blk) := by
  unfold lookupC
  cases hx : o x with
  | none => trivial
  | some a => exact Code.avoids_lift fun d hd => ⟨a, rfl, resolve_blk hd⟩

theorem avoids_readAllC (B : Nat → Prop) (ps : List Ptr) : (readAllC ps : Code T (List T)).Avoids B (fun _ => True) := by
  induction ps with
  | nil => trivial
  | cons p ps ih => exact fun v => Code.Avoids.bind ih fun _ _ => trivial

theorem avoids_forEachC {B : Nat → Prop} (dbg : Bool) (f : T → T) {d : Desc} (hd : ¬ B d.base.blk) : (forEachC dbg f d).Avoids B (fun _ => True) :=
  Code.avoids_ofProg (avoids_forEachAccP dbg _ _ hd _)

theorem avoids_cmd {B : Nat → Prop} {S : Nat → Bool} {o0 o : Objs} (ho : ObjsFree B S o0 o) (dbg : Bool) (dflt : T) (eq lt : T → T → Bool) (c : Cmd T)
    (hc : ∀ x, c.changes = some x → S x = true) : (c.code dbg dflt eq lt o).Avoids B (fun r => ObjsFree B S o0 r.2) := by
  -- the part `x ss` of a variable that may be changed
  have hpart : ∀ (x : Nat) (d : Desc), S x = true → (∃ a, o x = some a ∧ d.base.blk = a.ref.base.blk) → ¬ B d.base.blk := by
    rintro x d hx ⟨a, ha, hd⟩
    rw [hd]; exact (ho.free x a hx ha).1
  cases c with
  | construct x i =>
    cases i with
    | default n al => exact avoids_newC ho (hc x rfl) (avoids_mkDefaultC dflt n al)
    | extents n es so al => exact avoids_newC ho (hc x rfl) (avoids_mkExtentsC dflt n es so al)
    | gen n rs so al => exact avoids_newC ho (hc x rfl) (avoids_mkExtentGenC dflt _ so al)
    | copy y =>
      simp only [Cmd.code]
      cases o y with
      | none => trivial
      | some a => exact avoids_newC ho (hc x rfl) (avoids_mkCopyC dflt a)
    | convert y ss so al => exact Code.Avoids.bind (avoids_lookupC dbg o y ss) fun d _ => avoids_newC ho (hc x rfl) (avoids_mkConvertC dbg dflt d so al)
  | destroy x =>
    simp only [Cmd.code]
    cases hx : o x with
    | none => trivial
    | some a => exact avoids_callC (ho.put (hc x rfl) (fun m hm => by cases hm)) (avoids_deallocateSpaceC (ho.free x a (hc x rfl) hx))
  | on x op =>
    simp only [Cmd.code]
    cases hx : o x with
    | none => trivial
    | some a =>
      cases op with
      | read idx => exact Code.Avoids.bind (Code.avoids_ofProg (avoids_readElemP B dbg _ idx)) fun _ _ => ho
      | readChain idx => exact Code.Avoids.bind (avoids_readChainC B dbg _ idx) fun _ _ => ho
      | write idx v => exact avoids_callC ho (Code.avoids_ofProg (avoids_writeElemP dbg (d := a.ref.desc) (ho.free x a (hc x rfl) hx).1 idx v))
      | writeChain idx v => exact avoids_callC ho (avoids_writeChainC dbg (d := a.ref.desc) (ho.free x a (hc x rfl) hx).1 idx v)
      | reindex bs =>
        have ha := ho.free x a (hc x rfl) hx
        refine Code.Avoids.bind (Code.avoids_lift (Q := fun r => r.base = a.ref.base) fun r hr => ?_) fun r hr => ho.put (hc x rfl) fun m hm => ?_
        · unfold ARef.reindexList at hr
          obtain ⟨_, _, hr⟩ := res_bind_ok hr
          cases hr; rfl
        · cases hm; exact ⟨by show ¬ B r.base.blk; rw [hr]; exact ha.1, ha.2⟩
      | reindexAll b =>
        have ha := ho.free x a (hc x rfl) hx
        exact ho.put (hc x rfl) fun m hm => by cases hm; exact ha
      | reshape es =>
        have ha := ho.free x a (hc x rfl) hx
        refine Code.Avoids.bind (Code.avoids_lift (Q := fun r => r.base = a.ref.base) fun r hr => ?_) fun r hr => ho.put (hc x rfl) fun m hm => ?_
        · unfold ARef.reshape at hr
          obtain ⟨_, _, hr⟩ := res_bind_ok hr
          obtain ⟨_, _, hr⟩ := res_bind_ok hr
          obtain ⟨_, _, hr⟩ := res_bind_ok hr
          cases hr; rfl
        · cases hm; exact ⟨by show ¬ B r.base.blk; rw [hr]; exact ha.1, ha.2⟩
      | assign input => exact avoids_callC ho (Code.avoids_ofProg (avoids_assignLoopP _ (ho.free x a (hc x rfl) hx).1 input))
      | forEach f => exact avoids_callC ho (avoids_forEachC dbg f (d := a.ref.desc) (ho.free x a (hc x rfl) hx).1)
      | resize rs => exact avoids_memberC ho (hc x rfl) (avoids_resizeC dbg dflt _ (ho.free x a (hc x rfl) hx))
      | resizeList es => exact avoids_memberC ho (hc x rfl) (avoids_resizeExtentsC dbg dflt es (ho.free x a (hc x rfl) hx))
      | query => exact Code.Avoids.bind (Code.avoids_lift (Q := fun _ => True) fun _ _ => trivial) fun _ _ => ho
  | assign x y =>
    simp only [Cmd.code]
    cases hx : o x with
    | none => trivial
    | some a =>
      cases hy : o y with
      | none => trivial
      | some a' =>
        refine avoids_callC (Q := fun _ => True) ho ?_
        unfold MArr.assignFromC
        split
        · exact Code.avoids_ofProg (avoids_assignP dbg _ (dst := a.ref.desc) (ho.free x a (hc x rfl) hx).1 _)
        · trivial
  | assignPart x ss y ss' =>
    exact Code.Avoids.bind (avoids_lookupC dbg o x ss) fun d hd => Code.Avoids.bind (avoids_lookupC dbg o y ss') fun d' _ =>
      avoids_callC ho (Code.avoids_ofProg (avoids_assignP dbg _ (hpart x d (hc x rfl) hd) d'))
  | copyArray x ss y ss' =>
    exact Code.Avoids.bind (avoids_lookupC dbg o x ss) fun d hd => Code.Avoids.bind (avoids_lookupC dbg o y ss') fun d' _ =>
      avoids_callC ho (Code.avoids_ofProg (avoids_copyArrayP dbg d' (hpart x d (hc x rfl) hd)))
  | read x ss idx =>
    exact Code.Avoids.bind (avoids_lookupC dbg o x ss) fun d hd => Code.Avoids.bind (Code.avoids_ofProg (avoids_readElemP B dbg d idx)) fun _ _ => ho
  | write x ss idx v =>
    exact Code.Avoids.bind (avoids_lookupC dbg o x ss) fun d hd => avoids_callC ho (Code.avoids_ofProg (avoids_writeElemP dbg (hpart x d (hc x rfl) hd) idx v))
  | forEach x ss f =>
    exact Code.Avoids.bind (avoids_lookupC dbg o x ss) fun d hd => avoids_callC ho (avoids_forEachC dbg f (hpart x d (hc x rfl) hd))
  | traverse x ss =>
    refine Code.Avoids.bind (avoids_lookupC dbg o x ss) fun d hd => Code.Avoids.bind (Code.avoids_lift (Q := fun _ => True) fun _ _ => trivial) fun r _ => ?_
    cases r with
    | none => trivial
    | some ps => exact Code.Avoids.bind (avoids_readAllC B ps) fun _ _ => ho
  | equal x ss y ss' =>
    exact Code.Avoids.bind (avoids_lookupC dbg o x ss) fun d hd => Code.Avoids.bind (avoids_lookupC dbg o y ss') fun d' _ =>
      Code.Avoids.bind (Code.avoids_ofProg (avoids_equalP B dbg eq _ d d')) fun _ _ => ho
  | less x ss y ss' =>
    exact Code.Avoids.bind (avoids_lookupC dbg o x ss) fun d hd => Code.Avoids.bind (avoids_lookupC dbg o y ss') fun d' _ =>
      Code.Avoids.bind (Code.avoids_ofProg (avoids_lessP B dbg lt _ d d')) fun _ _ => ho
  | shape x ss => exact Code.Avoids.bind (avoids_lookupC dbg o x ss) fun d hd => ho

end MultiArray
