import Verif.SpecProg

/-
Whole client programs in which allocation, element construction and element assignment may throw, at any point, any number of
times; the program catches every exception and goes on.  The abstract meaning of an interrupted command mentions neither memory
nor strides.  Nothing here models library code; `execX` only calls the model of the library functions.
-/
set_option autoImplicit false

namespace MultiArray.Spec
open MultiArray
variable {T : Type}

/-! ### The abstract machine -/

/-- Copying part `q` of `y` to part `p` of `x` was interrupted: the elements at the first positions have been copied, the next element of the
destination was being assigned and has some value, nothing else has changed. -/
def AState.CopyStopped (A : AState T) (x : Nat) (p : APart) (y : Nat) (q : APart) (A' : AState T) : Prop :=
  ∃ done k rest A1 junk, positions p.extents = done ++ k :: rest ∧ AState.copy x p y q done A = some A1 ∧
    A1.put x (p.root (atPos p.bases k)) junk = some A'

/-- Applying `f` to the elements of part `p` of `x` was interrupted. -/
def AState.MapStopped (A : AState T) (x : Nat) (p : APart) (f : T → T) (A' : AState T) : Prop :=
  ∃ done k rest A1 junk, positions p.extents = done ++ k :: rest ∧ AState.map x p f done A = some A1 ∧
    A1.put x (p.root (atPos p.bases k)) junk = some A'

/-- What the state may be after a command threw.  Construction and `resize` have no effect; an interrupted element assignment leaves some
value in that element; interrupted sequences of assignments have completed a prefix; no other command throws. -/
def AState.Interrupted (A : AState T) : Cmd T → AState T → Prop
  | .construct _ _, A' => A' = A
  | .on _ (.resize _), A' => A' = A
  | .on _ (.resizeList _), A' => A' = A
  | .on x (.write idx _), A' => ∃ junk, A.put x idx junk = some A'
  | .on x (.writeChain idx _), A' => ∃ junk, A.put x idx junk = some A'
  | .on x (.assign input), A' => ∃ a k junk, A x = some a ∧ k < input.length ∧ k < a.vals.length ∧
      A' = A.set x (some { a with vals := input.take k ++ junk :: a.vals.drop (k + 1) })
  | .on x (.forEach f), A' => ∃ p, A.part x [] = some p ∧ A.MapStopped x p f A'
  | .assign x y, A' => x ≠ y ∧ ∃ p q, A.part x [] = some p ∧ A.part y [] = some q ∧ A.CopyStopped x p y q A'
  | .assignPart x ss y ss', A' => ∃ p q, A.part x ss = some p ∧ A.part y ss' = some q ∧ A.CopyStopped x p y q A'
  | .copyArray x ss y ss', A' => ∃ p q, A.part x ss = some p ∧ A.part y ss' = some q ∧ A.CopyStopped x p y q A'
  | .write x ss idx _, A' => ∃ p junk, A.part x ss = some p ∧ A.put x (p.root idx) junk = some A'
  | .forEach x ss f, A' => ∃ p, A.part x ss = some p ∧ A.MapStopped x p f A'
  | _, _ => False

/-- What has happened so far: the commands performed and what each returned (`none`: it threw). -/
abbrev Trace (T : Type) := List (Cmd T × Option (CObs T))

/-- A client program: from what has happened so far it decides on the next command, or stops.  It may react to values it has
read and to exceptions it has caught (retry, clean up, go on with something else, ...). -/
abbrev Client (T : Type) := Trace T → Option (Cmd T)

/-- What may have happened in a run of a client that starts with no variables, and the state reached. -/
inductive Client.Reaches (dflt : T) (eq lt : T → T → Bool) (k : Client T) : Trace T → AState T → Prop
  | start : Client.Reaches dflt eq lt k [] (fun _ => none)
  | done {tr : Trace T} {A A' : AState T} {c : Cmd T} {o : CObs T} : Client.Reaches dflt eq lt k tr A → k tr = some c →
      A.step dflt eq lt c = some (o, A') → Client.Reaches dflt eq lt k (tr ++ [(c, some o)]) A'
  | threw {tr : Trace T} {A A' : AState T} {c : Cmd T} : Client.Reaches dflt eq lt k tr A → k tr = some c →
      A.Interrupted c A' → Client.Reaches dflt eq lt k (tr ++ [(c, none)]) A'

/-- The client respects the documented preconditions, whatever happens. -/
def Client.Legal (dflt : T) (eq lt : T → T → Bool) (k : Client T) : Prop :=
  ∀ tr A c, Client.Reaches dflt eq lt k tr A → k tr = some c → c.Legal A

/-- The commands that allocate storage. -/
def Cmd.allocates : Cmd T → Bool
  | .construct _ _ => true
  | .on _ (.resize _) => true
  | .on _ (.resizeList _) => true
  | _ => false

/-- How many commands that allocate storage threw. -/
def thrownAllocs (tr : Trace T) : Nat := (tr.filter (fun p => p.1.allocates && p.2.isNone)).length

/-- How many commands threw. -/
def throws (tr : Trace T) : Nat := (tr.filter (fun p => p.2.isNone)).length

/-! ### The same commands on the model of the library -/

/-- What a command did. -/
inductive XRes (T : Type) where
  | done (o : CObs T) (w : World T)
  | threw (w : World T)
  | failed

/-- A command that returns nothing. -/
def Result.toX : Result T → XRes T
  | .ok w => .done (.basic .unit) w
  | .threw w => .threw w
  | .failed => .failed

/-- Commands that assign elements or allocate storage: the library calls of `exec`, keeping the outcome of a call that throws.  `none` for the other
commands. -/
def World.mayThrow (dbg : Bool) (dflt : T) (w : World T) : Cmd T → Option (Result T)
  | .construct x i =>
    match i with
    | .default n al => some (w.step dbg dflt (.construct x (.default n al)))
    | .extents n es so al => some (w.step dbg dflt (.construct x (.extents n es so al)))
    | .gen n rs so al => some (w.step dbg dflt (.construct x (.gen n rs so al)))
    | .copy y => some (w.step dbg dflt (.construct x (.copy y)))
    | .convert y ss so al => some (match w.lookup dbg y ss with
      | some d => w.step dbg dflt (.construct x (.convert y d so al))
      | none => .failed)
  | .destroy x => some (w.step dbg dflt (.destroy x))
  | .on x op =>
    match w.objs x with
    | none => some .failed
    | some a =>
      match op with
      | .write idx v => some (w.mem (writeElem dbg a.ref.desc idx v))
      | .writeChain idx v => some (w.mem (writeChain dbg a.ref.desc idx v))
      | .assign input => some (w.step dbg dflt (.fill x input))
      | .forEach f => some (w.mem (MultiArray.forEach dbg f a.ref.desc.extents.length a.ref.desc))
      | .resize rs => some (w.step dbg dflt (.resize x rs))
      | .resizeList es => some (w.step dbg dflt (.resizeList x es))
      | _ => none
  | .assign x y => some (w.step dbg dflt (.assign x y))
  | .assignPart x ss y ss' => some (match w.lookup dbg x ss, w.lookup dbg y ss' with
    | some d, some d' => w.step dbg dflt (.assignPart x d y d')
    | _, _ => .failed)
  | .copyArray x ss y ss' => some (match w.lookup dbg x ss, w.lookup dbg y ss' with
    | some d, some d' => w.step dbg dflt (.copyArray x d y d')
    | _, _ => .failed)
  | .write x ss idx v => some (match w.lookup dbg x ss with
    | some d => w.step dbg dflt (.write x d idx v)
    | none => .failed)
  | .forEach x ss f => some (match w.lookup dbg x ss with
    | some d => w.step dbg dflt (.forEach x d f)
    | none => .failed)
  | _ => none

/-- One command. -/
def World.execX (dbg : Bool) (dflt : T) (eq lt : T → T → Bool) (w : World T) (c : Cmd T) : XRes T :=
  match w.mayThrow dbg dflt c with
  | some r => r.toX
  | none =>
    match w.exec dbg dflt eq lt c with
    | some (o, w') => .done o w'
    | none => .failed

/-- Run a client for at most `n` more commands, catching exceptions; `none` if it runs into undefined behaviour or a failed
assertion. -/
def Client.run (dbg : Bool) (dflt : T) (eq lt : T → T → Bool) (k : Client T) : Nat → Trace T → World T → Option (Trace T × World T)
  | 0, tr, w => some (tr, w)
  | n + 1, tr, w =>
    match k tr with
    | none => some (tr, w)
    | some c =>
      match w.execX dbg dflt eq lt c with
      | .done o w' => Client.run dbg dflt eq lt k n (tr ++ [(c, some o)]) w'
      | .threw w' => Client.run dbg dflt eq lt k n (tr ++ [(c, none)]) w'
      | .failed => none

/-- The array object `a` in memory `s` holds the abstract array `abs` in storage of its own. -/
structure Holds (s : St T) (a : MArr) (abs : AbsArr T) : Prop where
  owns : OwnsVals s abs.extents.length a abs.vals
  bases : a.ref.bases = abs.bases
  extents : a.ref.extents = abs.extents
  order : a.ref.storage = abs.order

end MultiArray.Spec
