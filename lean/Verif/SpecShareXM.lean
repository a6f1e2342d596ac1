import Verif.SpecShareX
import Verif.SpecShareM

/-
The clients of SpecShareX.lean - programs with shared storage that catch exceptions and go on - on a 64-bit machine.  Nothing here models library code;
`mayThrowM` only calls the 64-bit model of the library functions.
-/
set_option autoImplicit false

namespace MultiArray.Spec
open MultiArray
variable {T : Type}

/-- What may have happened in a run of a client (`SClient.Reaches`), the state reached, and the strides of the held views and subarrays in that state. -/
inductive SClient.ReachesS (dflt : T) (eq lt : T → T → Bool) (k : SClient T) : STrace T → SState T → (Nat → List Int) → Prop
  | start : SClient.ReachesS dflt eq lt k [] SState.start (fun _ => [])
  | done {tr : STrace T} {A A' : SState T} {σ : Nat → List Int} {c : SCmd T} {o : CObs T} : SClient.ReachesS dflt eq lt k tr A σ → k tr = some c →
      A.step dflt eq lt c = some (o, A') → SClient.ReachesS dflt eq lt k (tr ++ [(c, some o)]) A' (A.stridesAfter σ c)
  | threw {tr : STrace T} {A A' : SState T} {σ : Nat → List Int} {c : SCmd T} : SClient.ReachesS dflt eq lt k tr A σ → k tr = some c →
      A.Interrupted c A' → SClient.ReachesS dflt eq lt k (tr ++ [(c, none)]) A' σ

/-- Whatever happens, the client uses only views that fit and creates only arrays that fit (or tries to: an allocation may throw). -/
def SClient.Fits (dflt : T) (eq lt : T → T → Bool) (k : SClient T) : Prop :=
  ∀ tr A σ c, SClient.ReachesS dflt eq lt k tr A σ → k tr = some c → A.CmdFits dflt σ c

/-! ### The same commands on the 64-bit model of the library -/

namespace SWorld

/-- The commands that assign elements or allocate storage: the library calls of `SWorld.execM`, keeping the outcome of a call that throws.  `none` for the
other commands. -/
def mayThrowM (dbg : Bool) (dflt : T) (w : SWorld T) : SCmd T → Option (SXRes T)
  | .construct x i => some (match w.ctorM dbg dflt i with
    | some (.ok m s) => .done (.basic .unit) (w.setVar x (some (.owner m)) s)
    | some (.throw s) => .threw { w with st := s }
    | _ => .failed)
  | .resize x rs => some (match w.vars x with
    | some (.owner a) =>
      match Machine.resize dbg dflt ⟨a.ref.numDims, rs⟩ a w.st with
      | (.ok _ s, a') => .done (.basic .unit) (w.setVar x (some (.owner a')) s)
      | (.throw s, a') => .threw (w.setVar x (some (.owner a')) s)
      | _ => .failed
    | _ => .failed)
  | .fill x input => some (match w.vars x with
    | some (.owner a) => w.memX (a.ref.assign input)
    | some (.ref a) => w.memX (a.assign input)
    | _ => .failed)
  | .assign x ss y ss' => some (match w.lookupM dbg x ss, w.lookupM dbg y ss' with
    | some d, some d' => w.memX (Machine.assignOpW dbg (decide (x = y) && ss.isEmpty && ss'.isEmpty) eltCopy d d')
    | _, _ => .failed)
  | .copyArray x ss y ss' => some (match w.lookupM dbg x ss, w.lookupM dbg y ss' with
    | some d, some d' => w.memX (Machine.copyArrayW dbg eltCopy d' d)
    | _, _ => .failed)
  | .write x ss idx v => some (match w.lookupM dbg x ss with
    | some d => w.memX (Machine.writeElem dbg d idx v)
    | _ => .failed)
  | .forEach x ss f => some (match w.lookupM dbg x ss with
    | some d => w.memX (Machine.forEach dbg f d.extents.length d)
    | _ => .failed)
  | _ => none

/-- One command. -/
def execXM (dbg : Bool) (dflt : T) (eq lt : T → T → Bool) (w : SWorld T) (c : SCmd T) : SXRes T :=
  match w.mayThrowM dbg dflt c with
  | some r => r
  | none =>
    match w.execM dbg dflt eq lt c with
    | some (o, w') => .done o w'
    | none => .failed

end SWorld

/-- Run a client on the 64-bit model of the library for at most `n` more commands, catching exceptions; `none` if it runs into undefined
behaviour (in particular an overflow) or a failed assertion. -/
def SClient.runM (dbg : Bool) (dflt : T) (eq lt : T → T → Bool) (k : SClient T) : Nat → STrace T → SWorld T → Option (STrace T × SWorld T)
  | 0, tr, w => some (tr, w)
  | n + 1, tr, w =>
    match k tr with
    | none => some (tr, w)
    | some c =>
      match w.execXM dbg dflt eq lt c with
      | .done o w' => SClient.runM dbg dflt eq lt k n (tr ++ [(c, some o)]) w'
      | .threw w' => SClient.runM dbg dflt eq lt k n (tr ++ [(c, none)]) w'
      | .failed => none

end MultiArray.Spec
