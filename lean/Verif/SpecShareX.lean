import Verif.SpecShare
import Verif.SpecProgX

/-
Client programs with shared storage (SpecShare.lean) in which allocation, element construction and element assignment may throw, at any point, any
number of times; the program catches every exception and goes on with the same variables.  Nothing here models library code; `execX` only calls
the model of the library functions.
-/
set_option autoImplicit false

namespace MultiArray.Spec
open MultiArray
variable {T : Type}

/-! ### The abstract machine -/

/-- Copying part `q` to part `p` was interrupted: the elements at the first positions have been copied, the next element of the destination was being
assigned and has some value, nothing else has changed. -/
def SState.CopyStopped (A : SState T) (p q : SPart) (A' : SState T) : Prop :=
  ∃ done k rest A1 junk, positions p.extents = done ++ k :: rest ∧ SState.copy p q done A = some A1 ∧ A1.put p (atPos p.bases k) junk = some A'

/-- Applying `f` to the elements of part `p` was interrupted. -/
def SState.MapStopped (A : SState T) (p : SPart) (f : T → T) (A' : SState T) : Prop :=
  ∃ done k rest A1 junk, positions p.extents = done ++ k :: rest ∧ SState.map p f done A = some A1 ∧ A1.put p (atPos p.bases k) junk = some A'

/-- What the state may be after a command threw.  Construction and `resize` have no effect; an interrupted element assignment leaves some value in that
element; interrupted sequences of assignments have completed a prefix; no other command throws. -/
def SState.Interrupted (A : SState T) : SCmd T → SState T → Prop
  | .construct _ _, A' => A' = A
  | .resize _ _, A' => A' = A
  | .fill x input, A' => ∃ h vs k junk, (A.vars x = some (.owner h) ∨ A.vars x = some (.ref h)) ∧ A.stores h.store = some vs ∧ k < input.length ∧
      k < h.extents.prod ∧ A' = A.setStore h.store (some (vs.take h.first ++ input.take k ++ junk :: vs.drop (h.first + k + 1)))
  | .assign x ss y ss', A' => ¬ (x = y ∧ ss = [] ∧ ss' = []) ∧ ∃ p q, A.part x ss = some p ∧ A.part y ss' = some q ∧ A.CopyStopped p q A'
  | .copyArray x ss y ss', A' => ∃ p q, A.part x ss = some p ∧ A.part y ss' = some q ∧ A.CopyStopped p q A'
  | .write x ss idx _, A' => ∃ p junk, A.part x ss = some p ∧ A.put p idx junk = some A'
  | .forEach x ss f, A' => ∃ p, A.part x ss = some p ∧ A.MapStopped p f A'
  | _, _ => False

/-- What has happened so far: the commands performed and what each returned (`none`: it threw). -/
abbrev STrace (T : Type) := List (SCmd T × Option (CObs T))

/-- A client program: from what has happened so far it decides on the next command, or stops. -/
abbrev SClient (T : Type) := STrace T → Option (SCmd T)

/-- What may have happened in a run of a client that starts with no variables, and the state reached. -/
inductive SClient.Reaches (dflt : T) (eq lt : T → T → Bool) (k : SClient T) : STrace T → SState T → Prop
  | start : SClient.Reaches dflt eq lt k [] SState.start
  | done {tr : STrace T} {A A' : SState T} {c : SCmd T} {o : CObs T} : SClient.Reaches dflt eq lt k tr A → k tr = some c →
      A.step dflt eq lt c = some (o, A') → SClient.Reaches dflt eq lt k (tr ++ [(c, some o)]) A'
  | threw {tr : STrace T} {A A' : SState T} {c : SCmd T} : SClient.Reaches dflt eq lt k tr A → k tr = some c →
      A.Interrupted c A' → SClient.Reaches dflt eq lt k (tr ++ [(c, none)]) A'

/-- The client respects the documented preconditions, whatever happens. -/
def SClient.Legal (dflt : T) (eq lt : T → T → Bool) (k : SClient T) : Prop :=
  ∀ tr A c, SClient.Reaches dflt eq lt k tr A → k tr = some c → A.Legal c

/-- The commands with which the library allocates storage. -/
def SCmd.allocates : SCmd T → Bool
  | .construct _ _ | .resize _ _ => true
  | _ => false

/-- How many commands that allocate storage threw. -/
def sThrownAllocs (tr : STrace T) : Nat := (tr.filter (fun p => p.1.allocates && p.2.isNone)).length

/-- How many commands threw. -/
def sThrows (tr : STrace T) : Nat := (tr.filter (fun p => p.2.isNone)).length

/-! ### The same commands on the model of the library -/

/-- What a command did. -/
inductive SXRes (T : Type) where
  | done (o : CObs T) (w : SWorld T)
  | threw (w : SWorld T)
  | failed

namespace SWorld

/-- A call that only changes memory. -/
def memX {α : Type} (w : SWorld T) (e : Exec T α) : SXRes T :=
  match e w.st with
  | .ok _ s => .done (.basic .unit) { w with st := s }
  | .throw s => .threw { w with st := s }
  | _ => .failed

/-- The commands that assign elements or allocate storage: the library calls of `SWorld.exec`, keeping the outcome of a call that throws.  `none` for the
other commands. -/
def mayThrow (dbg : Bool) (dflt : T) (w : SWorld T) : SCmd T → Option (SXRes T)
  | .construct x i => some (match w.ctor dbg dflt i with
    | some (.ok m s) => .done (.basic .unit) (w.setVar x (some (.owner m)) s)
    | some (.throw s) => .threw { w with st := s }
    | _ => .failed)
  | .resize x rs => some (match w.vars x with
    | some (.owner a) =>
      match MArr.resize dbg dflt ⟨a.ref.numDims, rs⟩ a w.st with
      | (.ok _ s, a') => .done (.basic .unit) (w.setVar x (some (.owner a')) s)
      | (.throw s, a') => .threw (w.setVar x (some (.owner a')) s)
      | _ => .failed
    | _ => .failed)
  | .fill x input => some (match w.vars x with
    | some (.owner a) => w.memX (a.ref.assign input)
    | some (.ref a) => w.memX (a.assign input)
    | _ => .failed)
  | .assign x ss y ss' => some (match w.lookup dbg x ss, w.lookup dbg y ss' with
    | some d, some d' => w.memX (assignOp dbg (decide (x = y) && ss.isEmpty && ss'.isEmpty) d d')
    | _, _ => .failed)
  | .copyArray x ss y ss' => some (match w.lookup dbg x ss, w.lookup dbg y ss' with
    | some d, some d' => w.memX (MultiArray.copyArray dbg d' d)
    | _, _ => .failed)
  | .write x ss idx v => some (match w.lookup dbg x ss with
    | some d => w.memX (writeElem dbg d idx v)
    | _ => .failed)
  | .forEach x ss f => some (match w.lookup dbg x ss with
    | some d => w.memX (MultiArray.forEach dbg f d.extents.length d)
    | _ => .failed)
  | _ => none

/-- One command. -/
def execX (dbg : Bool) (dflt : T) (eq lt : T → T → Bool) (w : SWorld T) (c : SCmd T) : SXRes T :=
  match w.mayThrow dbg dflt c with
  | some r => r
  | none =>
    match w.exec dbg dflt eq lt c with
    | some (o, w') => .done o w'
    | none => .failed

/-- The start, with exceptions due. -/
def startX (sched : List (Option T)) : SWorld T := ⟨fun _ => none, ⟨fun _ => none, 1, sched⟩⟩

end SWorld

/-- Run a client for at most `n` more commands, catching exceptions; `none` if it runs into undefined behaviour or a failed assertion. -/
def SClient.run (dbg : Bool) (dflt : T) (eq lt : T → T → Bool) (k : SClient T) : Nat → STrace T → SWorld T → Option (STrace T × SWorld T)
  | 0, tr, w => some (tr, w)
  | n + 1, tr, w =>
    match k tr with
    | none => some (tr, w)
    | some c =>
      match w.execX dbg dflt eq lt c with
      | .done o w' => SClient.run dbg dflt eq lt k n (tr ++ [(c, some o)]) w'
      | .threw w' => SClient.run dbg dflt eq lt k n (tr ++ [(c, none)]) w'
      | .failed => none

end MultiArray.Spec
