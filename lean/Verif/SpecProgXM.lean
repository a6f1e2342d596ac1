import Verif.SpecProgX
import Verif.SpecProgM

/-
The clients of SpecProgX.lean - programs that catch exceptions and go on - on a 64-bit machine.  Nothing here models library code;
`mayThrowM` only calls the 64-bit model of the library functions.
-/
set_option autoImplicit false

namespace MultiArray.Spec
open MultiArray
variable {T : Type}

/-- Whatever happens, the client uses only views that fit and creates only arrays that fit (or tries to: an allocation may throw). -/
def Client.Fits (dflt : T) (eq lt : T → T → Bool) (k : Client T) : Prop :=
  ∀ tr A c, Client.Reaches dflt eq lt k tr A → k tr = some c → c.ViewsFit A ∧ NewFits dflt A c

/-- The outcome of a constructor. -/
def World.ctorX (dbg : Bool) (dflt : T) (w : World T) (x : Nat) (c : Ctor) : Result T :=
  match c.runM dbg dflt w.st with
  | .ok a s => .ok (w.set x (some a) s)
  | .throw s => .threw { w with st := s }
  | .assertFail _ => .failed
  | .ub => .failed

/-- Commands that assign elements or allocate storage: the 64-bit library calls of `execM`, keeping the outcome of a call that throws.  `none` for
the other commands. -/
def World.mayThrowM (dbg : Bool) (dflt : T) (w : World T) : Cmd T → Option (Result T)
  | .construct x i =>
    match i with
    | .default n al => some (w.ctorX dbg dflt x (.default n al))
    | .extents n es so al => some (w.ctorX dbg dflt x (.extents n es so al))
    | .gen n rs so al => some (w.ctorX dbg dflt x (.gen n rs so al))
    | .copy y => some (match w.objs y with
      | some a => w.ctorX dbg dflt x (.copy a.ref.numDims a)
      | none => .failed)
    | .convert y ss so al => some (match w.lookupM dbg y ss with
      | some d => w.ctorX dbg dflt x (.convert d.extents.length d so al)
      | none => .failed)
  | .destroy x => some (w.step dbg dflt (.destroy x))
  | .on x op =>
    match w.objs x with
    | none => some .failed
    | some a =>
      match op with
      | .write idx v => some (w.mem (Machine.writeElem dbg a.ref.desc idx v))
      | .writeChain idx v => some (w.mem (Machine.writeChain dbg a.ref.desc idx v))
      | .assign input => some (w.mem (a.ref.assign input))
      | .forEach f => some (w.mem (Machine.forEach dbg f a.ref.desc.extents.length a.ref.desc))
      | .resize rs => some (w.member x (Machine.resize dbg dflt ⟨a.ref.numDims, rs⟩ a w.st))
      | .resizeList es => some (w.member x (Machine.resizeExtents dbg dflt es a w.st))
      | _ => none
  | .assign x y => some (match w.objs x, w.objs y with
    | some a, some a' => w.mem (Machine.assignFrom dbg (decide (x = y)) a a')
    | _, _ => .failed)
  | .assignPart x ss y ss' => some (match w.lookupM dbg x ss, w.lookupM dbg y ss' with
    | some d, some d' => w.mem (Machine.assignOpW dbg false eltCopy d d')
    | _, _ => .failed)
  | .copyArray x ss y ss' => some (match w.lookupM dbg x ss, w.lookupM dbg y ss' with
    | some d, some d' => w.mem (Machine.copyArrayW dbg eltCopy d' d)
    | _, _ => .failed)
  | .write x ss idx v => some (match w.lookupM dbg x ss with
    | some d => w.mem (Machine.writeElem dbg d idx v)
    | none => .failed)
  | .forEach x ss f => some (match w.lookupM dbg x ss with
    | some d => w.mem (Machine.forEach dbg f d.extents.length d)
    | none => .failed)
  | _ => none

/-- One command. -/
def World.execXM (dbg : Bool) (dflt : T) (eq lt : T → T → Bool) (w : World T) (c : Cmd T) : XRes T :=
  match w.mayThrowM dbg dflt c with
  | some r => r.toX
  | none =>
    match w.execM dbg dflt eq lt c with
    | some (o, w') => .done o w'
    | none => .failed

/-- Run a client on the 64-bit model of the library for at most `n` more commands, catching exceptions; `none` if it runs into undefined
behaviour (in particular an overflow) or a failed assertion. -/
def Client.runM (dbg : Bool) (dflt : T) (eq lt : T → T → Bool) (k : Client T) : Nat → Trace T → World T → Option (Trace T × World T)
  | 0, tr, w => some (tr, w)
  | n + 1, tr, w =>
    match k tr with
    | none => some (tr, w)
    | some c =>
      match w.execXM dbg dflt eq lt c with
      | .done o w' => Client.runM dbg dflt eq lt k n (tr ++ [(c, some o)]) w'
      | .threw w' => Client.runM dbg dflt eq lt k n (tr ++ [(c, none)]) w'
      | .failed => none

end MultiArray.Spec
