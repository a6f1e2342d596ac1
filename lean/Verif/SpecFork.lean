import Verif.SpecThreads

/-
Vocabulary for parallel sections: a program divides its variables among threads, which may also read variables in common; when all have ended, the program goes on with all
variables.  Nothing here models code of the library; the threads run `Client.code` (SpecThreads.lean), which calls the model of the library functions.
-/
set_option autoImplicit false

namespace MultiArray.Spec
open MultiArray
variable {T : Type}

/-- The running program `w` holds the abstract arrays `A`: the same variables exist; each holds the array `A` says, in storage shared with no other variable; block names
from `next` on are free; nothing is stored at the null address.  (Other blocks may be in use.) -/
structure World.Holding (w : World T) (A : AState T) : Prop where
  free : ∀ b, w.st.next ≤ b → w.st.heap b = none
  null : 0 < w.st.next ∧ w.st.heap 0 = none
  vars : ∀ x, w.objs x = none ↔ A x = none
  holds : ∀ x a abs, w.objs x = some a → A x = some abs → Holds w.st a abs
  apart : ∀ x y a b, w.objs x = some a → w.objs y = some b → x ≠ y → a.ref.data.blk ≠ b.ref.data.blk

/-- What may have happened in a run of a client that starts with the variables `A0`, and the state reached (cf. `Client.Reaches`). -/
inductive Client.ReachesFrom (dflt : T) (eq lt : T → T → Bool) (k : Client T) (A0 : AState T) : Trace T → AState T → Prop
  | start : Client.ReachesFrom dflt eq lt k A0 [] A0
  | done {tr : Trace T} {A A' : AState T} {c : Cmd T} {o : CObs T} : Client.ReachesFrom dflt eq lt k A0 tr A → k tr = some c →
      A.step dflt eq lt c = some (o, A') → Client.ReachesFrom dflt eq lt k A0 (tr ++ [(c, some o)]) A'
  | threw {tr : Trace T} {A A' : AState T} {c : Cmd T} : Client.ReachesFrom dflt eq lt k A0 tr A → k tr = some c →
      A.Interrupted c A' → Client.ReachesFrom dflt eq lt k A0 (tr ++ [(c, none)]) A'

/-- The client respects the documented preconditions, whatever happens. -/
def Client.LegalFrom (dflt : T) (eq lt : T → T → Bool) (k : Client T) (A0 : AState T) : Prop :=
  ∀ tr A c, Client.ReachesFrom dflt eq lt k A0 tr A → k tr = some c → c.Legal A

/-- The variable a command may change (construct, destroy, assign to, reindex, ...). -/
def Cmd.changes : Cmd T → Option Nat
  | .construct x _ | .destroy x | .assign x _ | .assignPart x _ _ _ | .copyArray x _ _ _ | .write x _ _ _ | .forEach x _ _ => some x
  | .on x op =>
    match op with
    | .read _ | .readChain _ | .query => none
    | _ => some x
  | .read _ _ _ | .traverse _ _ | .equal _ _ _ _ | .less _ _ _ _ | .shape _ _ => none

/-- What one thread of a section is to do: run this client for at most `count` commands with these exceptions to come.  It may read the variables it `sees` and change those it `owns`
(variables it creates are also among these). -/
structure Worker (T : Type) where
  client : Client T
  count : Nat
  sched : List (Option T)
  sees : Nat → Bool
  owns : Nat → Bool

/-- The part of the state that a worker sees. -/
def Worker.view (t : Worker T) (A : AState T) : AState T := fun x => if t.sees x then A x else none

/-- The objects that a worker sees. -/
def Worker.objs (t : Worker T) (o : Objs) : Objs := fun x => if t.sees x then o x else none

/-- The worker respects the preconditions of the library and changes only variables it owns, whatever happens. -/
def Worker.Legal (dflt : T) (eq lt : T → T → Bool) (A : AState T) (t : Worker T) : Prop :=
  t.client.LegalFrom dflt eq lt (t.view A) ∧
  (∀ tr A' c x, t.client.ReachesFrom dflt eq lt (t.view A) tr A' → t.client tr = some c → c.changes = some x → t.owns x = true) ∧
  ∀ x, t.owns x = true → t.sees x = true

/-- A section: what one worker owns no other worker sees. -/
def Section.Legal (dflt : T) (eq lt : T → T → Bool) (A : AState T) (workers : List (Worker T)) : Prop :=
  (∀ t ∈ workers, t.Legal dflt eq lt A) ∧
  ∀ (i j : Nat) (t t' : Worker T) (x : Nat), workers[i]? = some t → workers[j]? = some t' → i ≠ j → t.owns x = true → t'.sees x = false

/-- What the workers of a section may have done, and the state afterwards: each has run to its end from what it saw at the start; each variable is as its owner left it, or as it was if it has no owner. -/
def Section.Reaches (dflt : T) (eq lt : T → T → Bool) (A : AState T) (workers : List (Worker T)) (trs : List (Trace T)) (A' : AState T) : Prop :=
  trs.length = workers.length ∧ ∃ As : Nat → AState T,
    (∀ (i : Nat) (t : Worker T) (tr : Trace T), workers[i]? = some t → trs[i]? = some tr →
      t.client.ReachesFrom dflt eq lt (t.view A) tr (As i) ∧ tr.length ≤ t.count ∧ (tr.length = t.count ∨ t.client tr = none) ∧ throws tr ≤ (t.sched.filter Option.isSome).length ∧
      ∀ x, t.owns x = true → A' x = As i x) ∧
    ∀ x, (∀ t ∈ workers, t.owns x = false) → A' x = A x

/-! ### The same on the model of the library -/

/-- The thread at its start: it knows the storage of all variables by its address. -/
def Worker.thread (dbg : Bool) (dflt : T) (eq lt : T → T → Bool) (w : World T) (t : Worker T) : CThread T (Trace T × Objs) :=
  ⟨t.client.code dbg dflt eq lt t.count [] (t.objs w.objs), w.st.next, t.sched, id⟩

/-- The start of a section. -/
def Section.fork (dbg : Bool) (dflt : T) (eq lt : T → T → Bool) (w : World T) (workers : List (Worker T)) : CPool T (Trace T × Objs) :=
  ⟨w.st.heap, workers.map (Worker.thread dbg dflt eq lt w)⟩

/-- The program after a section of which all threads have ended: each variable is as its owner left it. -/
structure Section.Joins (w : World T) (workers : List (Worker T)) (c : CPool T (Trace T × Objs)) (trs : List (Trace T)) (w' : World T) : Prop where
  length : trs.length = workers.length
  heap : w'.st.heap = c.heap
  free : ∀ b, w'.st.next ≤ b → w'.st.heap b = none
  pos : 0 < w'.st.next
  owned : ∀ (i : Nat) (t : Worker T) (th : CThread T (Trace T × Objs)), workers[i]? = some t → c.threads[i]? = some th →
    ∃ tr o, trs[i]? = some tr ∧ th.code = .ret (tr, o) ∧ ∀ x, t.owns x = true → w'.objs x = (o x).map (fun a => a.placed th.env)
  others : ∀ x, (∀ t ∈ workers, t.owns x = false) → w'.objs x = w.objs x

/-- What a worker would start with if it were alone: only the variables it sees, and only their storage. -/
noncomputable def Worker.alone (w : World T) (t : Worker T) : World T :=
  ⟨t.objs w.objs, ⟨open Classical in fun b => if ∃ x a, t.objs w.objs x = some a ∧ a.ref.data.blk = b then w.st.heap b else none, w.st.next, t.sched⟩⟩

/-! ### Programs of parallel sections -/

/-- A program: from what all threads of the earlier sections did it decides on the next section (which may consist of a single worker), or stops. -/
abbrev Script (T : Type) := List (List (Trace T)) → Option (List (Worker T))

/-- What may have happened, and the state reached. -/
inductive Script.Reaches (dflt : T) (eq lt : T → T → Bool) (k : Script T) : List (List (Trace T)) → AState T → Prop
  | start : Script.Reaches dflt eq lt k [] (fun _ => none)
  | next {hist : List (List (Trace T))} {A A' : AState T} {workers : List (Worker T)} {trs : List (Trace T)} : Script.Reaches dflt eq lt k hist A → k hist = some workers →
      Section.Reaches dflt eq lt A workers trs A' → Script.Reaches dflt eq lt k (hist ++ [trs]) A'

/-- All sections are legal, whatever happens. -/
def Script.Legal (dflt : T) (eq lt : T → T → Bool) (k : Script T) : Prop :=
  ∀ hist A workers, Script.Reaches dflt eq lt k hist A → k hist = some workers → Section.Legal dflt eq lt A workers

/-- In no section that may come about is an exception due. -/
def Script.Calm (dflt : T) (eq lt : T → T → Bool) (k : Script T) : Prop :=
  ∀ hist A workers, Script.Reaches dflt eq lt k hist A → k hist = some workers → ∀ t ∈ workers, ∀ e ∈ t.sched, e = none

/-- Executions on the model of the library, from the start to the end of some section; the operations of the threads of a section are interleaved in any way, and the allocator returns any
free addresses. -/
inductive Script.Runs (dbg : Bool) (dflt : T) (eq lt : T → T → Bool) (k : Script T) : List (List (Trace T)) → World T → Prop
  | start : Script.Runs dbg dflt eq lt k [] (World.start [])
  | next {hist : List (List (Trace T))} {w w' : World T} {workers : List (Worker T)} {is : List Nat} {c : CPool T (Trace T × Objs)} {trs : List (Trace T)} : Script.Runs dbg dflt eq lt k hist w →
      k hist = some workers → CRun (Section.fork dbg dflt eq lt w workers) is c → c.Ended → Section.Joins w workers c trs w' → Script.Runs dbg dflt eq lt k (hist ++ [trs]) w'

end MultiArray.Spec
