import Verif.SpecHeld

/-
Lifetimes.  A held subarray or iterator does not own its arrays of extents, strides and index bases: it points into those of the array or view object it
was obtained from (Model/Handles.lean), and `x[indices[...]]` is a temporary view that dies at the end of the full expression.  Here the client
programs of SpecHeld.lean are run with registers that hold such pointers; nothing here models library code: every command is executed by `execH`
(`execHM`) on the arrays that the pointers denote at that moment.
-/
set_option autoImplicit false

namespace MultiArray.Spec
open MultiArray
variable {T : Type}

/-- The object whose arrays a subarray or an iterator points into: an array variable, a view held in a register, or one that does not exist any more. -/
inductive Home where
  | var (x : Nat)
  | reg (r : Nat)
  | gone
deriving DecidableEq

/-- Is the selection step `[i]`? -/
def Sel.isAt : Sel → Bool
  | .at _ => true
  | _ => false

/-- Is the last selection step a slice? -/
def endsInView (ss : List Sel) : Bool := ss.getLast?.any (fun s => !s.isAt)

/-! ### The abstract machine: which object must live on -/

/-- The homes of the registers.  A register with a view object of its own is its own home. -/
abbrev Homes := Nat → Home

/-- The home of an expression: none survives if it slices. -/
def Ex.home (η : Homes) : Ex → Home
  | .var x ss => if ss.all Sel.isAt then .var x else .gone
  | .held r ss => if ss.all Sel.isAt then η r else .gone
  | .deref r ss => if ss.all Sel.isAt then η r else .gone
  | .index r _ ss => if ss.all Sel.isAt then η r else .gone

/-- Is the value of the expression a view object (of which `auto r = e` makes a copy)? -/
def Ex.isView (η : Homes) : Ex → Bool
  | .var _ ss => endsInView ss
  | .held r ss => endsInView ss || (ss.isEmpty && decide (η r = .reg r))
  | .deref _ ss => endsInView ss
  | .index _ _ ss => endsInView ss

/-- The register an operation sets, whether it gets a view object of its own, and otherwise its home. -/
def HCmd.homed (η : Homes) : HCmd T → Option (Nat × Bool × Home)
  | .hold r e => some (r, e.isView η, e.home η)
  | .begin r e | .fin r e | .rbegin r e | .rfin r e => some (r, false, e.home η)
  | .copy r r' | .base r r' => some (r, false, η r')
  | .inc r | .dec r | .add r _ => some (r, false, η r)
  | _ => none

/-- The new value does not dangle: it is a view object, or its home is an array or a view in another register. -/
def HCmd.Homed (η : Homes) (h : HCmd T) : Prop :=
  match h.homed η with
  | some (r, own, g) => own = true ∨ (g ≠ .gone ∧ g ≠ .reg r)
  | none => True

/-- The homes after an operation on registers. -/
def HCmd.homes (η : Homes) (h : HCmd T) : Homes :=
  match h.homed η with
  | some (r, own, g) => fun r' => if r' = r then (if own then .reg r else g) else η r'
  | none => η

/-- The registers that are still valid when register `r` was set anew: those that do not point into the object that was in it. -/
def ARegs.without (ρ : ARegs) (η : Homes) (r : Nat) : ARegs := fun r' => if r' ≠ r ∧ η r' = .reg r then none else ρ r'

/-- The valid registers after an operation on registers that led to `ρ`. -/
def HCmd.remaining (η : Homes) (h : HCmd T) (ρ : ARegs) : ARegs :=
  match h.homed η with
  | some (r, _, _) => ρ.without η r
  | none => ρ

/-- What may have happened in a run of a client, as in SpecHeld.lean, with the homes of the registers. -/
inductive HClient.ReachesL (dflt : T) (eq lt : T → T → Bool) (k : HClient T) : HTrace T → AState T → ARegs → Homes → Prop
  | start : HClient.ReachesL dflt eq lt k [] (fun _ => none) (fun _ => none) (fun _ => .gone)
  | done {tr : HTrace T} {A A' : AState T} {ρ : ARegs} {η : Homes} {h : HCmd T} {c : Cmd T} {o : CObs T} : HClient.ReachesL dflt eq lt k tr A ρ η → k tr = some h →
      h.cmd A ρ = some c → A.step dflt eq lt c = some (o, A') → HClient.ReachesL dflt eq lt k (tr ++ [(h, some (.cmd o))]) A' (ρ.after c) η
  | threw {tr : HTrace T} {A A' : AState T} {ρ : ARegs} {η : Homes} {h : HCmd T} {c : Cmd T} : HClient.ReachesL dflt eq lt k tr A ρ η → k tr = some h →
      h.cmd A ρ = some c → A.Interrupted c A' → HClient.ReachesL dflt eq lt k (tr ++ [(h, none)]) A' ρ η
  | reg {tr : HTrace T} {A : AState T} {ρ ρ' : ARegs} {η : Homes} {h : HCmd T} {o : HObs T} : HClient.ReachesL dflt eq lt k tr A ρ η → k tr = some h →
      A.regStep ρ h = some (o, ρ') → h.Homed η → HClient.ReachesL dflt eq lt k (tr ++ [(h, some o)]) A (h.remaining η ρ') (h.homes η)

/-- The client respects the documented preconditions, and keeps only subarrays and iterators whose array or view object lives on. -/
def HClient.LegalL (dflt : T) (eq lt : T → T → Bool) (k : HClient T) : Prop :=
  ∀ tr A ρ η h, HClient.ReachesL dflt eq lt k tr A ρ η → k tr = some h →
    (∃ c, h.cmd A ρ = some c ∧ c.Legal A) ∨ (∃ r, A.regStep ρ h = some r) ∧ h.Homed η

/-- Whatever happens, the client uses only views that fit and creates only arrays that fit (or tries to: an allocation may throw). -/
def HClient.FitsL (dflt : T) (eq lt : T → T → Bool) (k : HClient T) : Prop :=
  ∀ tr A ρ η h, HClient.ReachesL dflt eq lt k tr A ρ η → k tr = some h → h.ViewsFit A ρ ∧ ∀ c, h.cmd A ρ = some c → c.ViewsFit A ∧ NewFits dflt A c

/-! ### Registers that hold pointers -/

/-- What a register holds: a view object, with arrays of its own (view.hpp:250-255); or a subarray (subarray.hpp:186-189) or an iterator (iterator.hpp:83-87), forward
or reverse, with pointers into the arrays of `home`, from entry `depth` on. -/
inductive PHeld where
  | view (d : Desc)
  | sub (home : Home) (depth : Nat) (base : Ptr)
  | fwd (home : Home) (depth : Nat) (idx : Int) (base : Ptr)
  | bwd (home : Home) (depth : Nat) (idx : Int) (base : Ptr)

/-- The registers. -/
abbrev PRegs := Nat → Option PHeld

/-- The arrays of an object, as they are now. -/
def PRegs.arrays (pr : PRegs) (w : World T) : Home → Option Desc
  | .var x => (w.objs x).map (fun a => a.ref.desc)
  | .reg r =>
    match pr r with
    | some (.view d) => some d
    | _ => none
  | .gone => none

/-- The arrays from entry `k` on, with another base pointer. -/
def Desc.tail (d : Desc) (k : Nat) (base : Ptr) : Desc := ⟨base, d.extents.drop k, d.strides.drop k, d.bases.drop k⟩

/-- What a register denotes now. -/
def PHeld.now (pr : PRegs) (w : World T) : PHeld → Option (Held Desc AnyIt)
  | .view d => some (.handle d)
  | .sub g k b => (pr.arrays w g).map (fun d => .handle (Desc.tail d k b))
  | .fwd g k i b => (pr.arrays w g).map (fun d => .it (.fwd ⟨i, Desc.tail d k b⟩))
  | .bwd g k i b => (pr.arrays w g).map (fun d => .it (.bwd ⟨⟨i, Desc.tail d k b⟩⟩))

/-- What the registers denote now. -/
def PRegs.now (pr : PRegs) (w : World T) : CRegs := fun r => (pr r).bind (fun v => v.now pr w)

/-- Where the arrays of a register are. -/
def PRegs.place (pr : PRegs) (r : Nat) : Home × Nat :=
  match pr r with
  | some (.view _) => (.reg r, 0)
  | some (.sub g k _) => (g, k)
  | some (.fwd g k _ _) => (g, k)
  | some (.bwd g k _ _) => (g, k)
  | none => (.gone, 0)

/-- `[i]` moves on by one entry (`extents+1`, `strides+1`, `index_bases+1`: base.hpp:138-139); the arrays of a slice are those of a temporary object (base.hpp:487-490). -/
def placeOf : Home × Nat → List Sel → Home × Nat
  | p, [] => p
  | p, .at _ :: ss => placeOf (p.1, p.2 + 1) ss
  | _, _ :: ss => placeOf (.gone, 0) ss

/-- Where the arrays of an expression are. -/
def Ex.place (pr : PRegs) : Ex → Home × Nat
  | .var x ss => placeOf (.var x, 0) ss
  | .held r ss => placeOf (pr.place r) ss
  | .deref r ss => placeOf ((pr.place r).1, (pr.place r).2 + 1) ss
  | .index r _ ss => placeOf ((pr.place r).1, (pr.place r).2 + 1) ss

/-- Is the value of the expression a view object? -/
def Ex.isViewP (pr : PRegs) : Ex → Bool
  | .var _ ss => endsInView ss
  | .held r ss => endsInView ss || (ss.isEmpty && match pr r with | some (.view _) => true | _ => false)
  | .deref _ ss => endsInView ss
  | .index _ _ ss => endsInView ss

/-- The register an operation sets, whether it gets a view object of its own, and otherwise where its arrays are. -/
def HCmd.placed (pr : PRegs) : HCmd T → Option (Nat × Bool × Home × Nat)
  | .hold r e => some (r, e.isViewP pr, e.place pr)
  | .begin r e | .fin r e | .rbegin r e | .rfin r e => some (r, false, e.place pr)
  | .copy r r' | .base r r' => some (r, false, pr.place r')
  | .inc r | .dec r | .add r _ => some (r, false, pr.place r)
  | _ => none

/-- What is stored for a value. -/
def PHeld.store (own : Bool) (p : Home × Nat) : Held Desc AnyIt → PHeld
  | .handle d => if own then .view d else .sub p.1 p.2 d.base
  | .it (.fwd i) => .fwd p.1 p.2 i.idx i.d.base
  | .it (.bwd i) => .bwd p.1 p.2 i.base.idx i.base.d.base

/-- The object `g` has died: whatever points into it dangles. -/
def PHeld.kill (g : Home) : PHeld → PHeld
  | .view d => .view d
  | .sub g' k b => .sub (if g' = g then .gone else g') k b
  | .fwd g' k i b => .fwd (if g' = g then .gone else g') k i b
  | .bwd g' k i b => .bwd (if g' = g then .gone else g') k i b

/-- The object `g` has died. -/
def PRegs.kill (pr : PRegs) (g : Home) : PRegs := fun r => (pr r).map (PHeld.kill g)

/-- The registers after a command completed; `its` are the values of the registers. -/
def PRegs.update (pr : PRegs) (its : CRegs) (h : HCmd T) : PRegs :=
  match h.placed pr with
  | some (r, own, p) => PRegs.kill (fun r' => if r' = r then (its r).map (PHeld.store own p) else pr r') (.reg r)
  | none =>
    match h with
    | .plain (.destroy x) => pr.kill (.var x)
    | _ => pr

/-- What a command did. -/
inductive LRes (T : Type) where
  | done (o : HObs T) (w : World T) (pr : PRegs)
  | threw (w : World T) (pr : PRegs)
  | failed

/-- The new registers. -/
def LRes.of (pr : PRegs) (h : HCmd T) : HRes T → LRes T
  | .done o w its => .done o w (pr.update its h)
  | .threw w _ => .threw w pr
  | .failed => .failed

/-- Run a client for at most `n` more commands, catching exceptions, with `X` to execute commands; `none` if it runs into undefined behaviour or a failed
assertion. -/
def HClient.runL (X : World T → CRegs → HCmd T → HRes T) (k : HClient T) : Nat → HTrace T → World T → PRegs → Option (HTrace T × World T × PRegs)
  | 0, tr, w, pr => some (tr, w, pr)
  | n + 1, tr, w, pr =>
    match k tr with
    | none => some (tr, w, pr)
    | some h =>
      match LRes.of pr h (X w (pr.now w) h) with
      | .done o w' pr' => HClient.runL X k n (tr ++ [(h, some o)]) w' pr'
      | .threw w' pr' => HClient.runL X k n (tr ++ [(h, none)]) w' pr'
      | .failed => none

end MultiArray.Spec
