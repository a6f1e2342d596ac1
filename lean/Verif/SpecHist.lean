import Verif.SpecMem

/-
Client programs: any number of named `multi_array` variables, and the operations a program can perform on
them.  Nothing here models library code; every operation calls the model of the library function it names.
-/
set_option autoImplicit false

namespace MultiArray.Spec
open MultiArray
variable {T : Type}

/-- A running program: its live `multi_array` variables, and memory. -/
structure World (T : Type) where
  objs : Nat → Option MArr
  st : St T

/-- How a variable is initialised.  `copy y`: `multi_array x(y)`; `convert y d so al`: from an array, subarray or view `d` of
variable `y`. -/
inductive Init where
  | default (n alloc : Nat)
  | extents (n : Nat) (es : List Nat) (so : StorageOrder) (alloc : Nat)
  | gen (n : Nat) (rs : List ExtentRange) (so : StorageOrder) (alloc : Nat)
  | copy (y : Nat)
  | convert (y : Nat) (d : Desc) (so : StorageOrder) (alloc : Nat)

/-- Operations.  `d` and `d'` are arrays, subarrays or views obtained from the variable named before them. -/
inductive Op (T : Type) where
  | construct (x : Nat) (i : Init)
  | destroy (x : Nat)
  /-- `x = y` for two whole arrays (possibly the same variable) -/
  | assign (x y : Nat)
  /-- `d = d'` for subarrays or views, possibly overlapping -/
  | assignPart (x : Nat) (d : Desc) (y : Nat) (d' : Desc)
  /-- `boost::copy_array(d', d)` -/
  | copyArray (x : Nat) (d : Desc) (y : Nat) (d' : Desc)
  /-- `x.assign(first, last)` -/
  | fill (x : Nat) (input : List T)
  /-- `d(idx) = v` -/
  | write (x : Nat) (d : Desc) (idx : List Int) (v : T)
  /-- read `d(idx)` -/
  | read (x : Nat) (d : Desc) (idx : List Int)
  /-- `for_each(d, f)` -/
  | forEach (x : Nat) (d : Desc) (f : T → T)
  | resize (x : Nat) (rs : List ExtentRange)
  | resizeList (x : Nat) (es : List Nat)
  | reindex (x : Nat) (bs : List Int)
  | reindexAll (x : Nat) (b : Int)
  | reshape (x : Nat) (es : List Nat)

/-- What happened: completed; an exception was thrown (and caught by the program, which goes on); or undefined behaviour or
a failed assertion. -/
inductive Result (T : Type) where
  | ok (w : World T)
  | threw (w : World T)
  | failed

/-- Set a variable. -/
def World.set (w : World T) (x : Nat) (a : Option MArr) (s : St T) : World T :=
  ⟨fun y => if y = x then a else w.objs y, s⟩

/-- An operation that only changes memory. -/
def World.mem {α : Type} (w : World T) (e : Exec T α) : Result T :=
  match e w.st with
  | .ok _ s => .ok { w with st := s }
  | .throw s => .threw { w with st := s }
  | .assertFail _ => .failed
  | .ub => .failed

/-- An operation that only changes the header of variable `x`. -/
def World.header (w : World T) (x : Nat) (a : MArr) (r : Res ARef) : Result T :=
  match r with
  | .ok ref => .ok (w.set x (some { a with ref := ref }) w.st)
  | .assertFail => .failed
  | .ub => .failed

/-- A member function that may change both. -/
def World.member (w : World T) (x : Nat) (r : Out T Unit × MArr) : Result T :=
  match r with
  | (.ok _ s, a) => .ok (w.set x (some a) s)
  | (.throw s, a) => .threw (w.set x (some a) s)
  | (.assertFail _, _) => .failed
  | (.ub, _) => .failed

/-- The constructor call of an initialisation. -/
def Init.ctor (objs : Nat → Option MArr) : Init → Option Ctor
  | .default n al => some (.default n al)
  | .extents n es so al => some (.extents n es so al)
  | .gen n rs so al => some (.gen n rs so al)
  | .copy y => (objs y).map (fun a => .copy a.ref.numDims a)
  | .convert y d so al => (objs y).map (fun _ => .convert d.extents.length d so al)

/-- One operation.  (`failed` also if it names a variable that does not exist: `Legal` excludes that.) -/
def World.step (dbg : Bool) (dflt : T) (w : World T) : Op T → Result T
  | .construct x i =>
    match i.ctor w.objs with
    | none => .failed
    | some c =>
      match c.run dbg dflt w.st with
      | .ok a s => .ok (w.set x (some a) s)
      | .throw s => .threw { w with st := s }
      | .assertFail _ => .failed
      | .ub => .failed
  | .destroy x =>
    match w.objs x with
    | none => .failed
    | some a =>
      match a.deallocateSpace w.st with
      | .ok _ s => .ok (w.set x none s)
      | .throw s => .threw (w.set x none s)
      | .assertFail _ => .failed
      | .ub => .failed
  | .assign x y =>
    match w.objs x, w.objs y with
    | some a, some a' => w.mem (a.assignFrom dbg (decide (x = y)) a')
    | _, _ => .failed
  | .assignPart _ d _ d' => w.mem (assignOp dbg false d d')
  | .copyArray _ d _ d' => w.mem (MultiArray.copyArray dbg d' d)
  | .fill x input => match w.objs x with | some a => w.mem (a.ref.assign input) | none => .failed
  | .write _ d idx v => w.mem (writeElem dbg d idx v)
  | .read _ d idx => w.mem (readElem dbg d idx)
  | .forEach _ d f => w.mem (MultiArray.forEach dbg f d.extents.length d)
  | .resize x rs => match w.objs x with
    | some a => w.member x (MArr.resize dbg dflt ⟨a.ref.numDims, rs⟩ a w.st)
    | none => .failed
  | .resizeList x es => match w.objs x with
    | some a => w.member x (MArr.resizeExtents dbg dflt es a w.st)
    | none => .failed
  | .reindex x bs => match w.objs x with | some a => w.header x a (a.ref.reindexList bs) | none => .failed
  | .reindexAll x b => match w.objs x with | some a => w.header x a (.ok (a.ref.reindexAll b)) | none => .failed
  | .reshape x es => match w.objs x with | some a => w.header x a (a.ref.reshape dbg es) | none => .failed

/-- `d` is an array, subarray or view of the live variable `x`. -/
def World.Part (w : World T) (x : Nat) (d : Desc) : Prop := ∃ a, w.objs x = some a ∧ Handle a.ref d

/-- Documented preconditions of an initialisation. -/
def Init.Legal (w : World T) : Init → Prop
  | .default _ _ => True
  | .extents n es so _ => ValidOrder n so ∧ es.length = n
  | .gen n rs so _ => ValidOrder n so ∧ rs.length = n
  | .copy y => ∃ a, w.objs y = some a
  | .convert y d so _ => w.Part y d ∧ 0 < d.extents.length ∧ ValidOrder d.extents.length so

/-- Documented preconditions of an operation. -/
def Op.Legal (w : World T) : Op T → Prop
  | .construct x i => w.objs x = none ∧ i.Legal w
  | .destroy x => ∃ a, w.objs x = some a
  | .assign x y => ∃ a a', w.objs x = some a ∧ w.objs y = some a' ∧ a.ref.extents = a'.ref.extents
  | .assignPart x d y d' => w.Part x d ∧ w.Part y d' ∧ d.extents = d'.extents
  | .copyArray x d y d' => w.Part x d ∧ w.Part y d' ∧ d.extents = d'.extents
  | .fill x _ => ∃ a, w.objs x = some a
  | .write x d idx _ => w.Part x d ∧ InBox d.bases d.extents idx
  | .read x d idx => w.Part x d ∧ InBox d.bases d.extents idx
  | .forEach x d _ => w.Part x d
  | .resize x rs => ∃ a, w.objs x = some a ∧ rs.length = a.ref.extents.length ∧ LegalExtents rs ∧
      Representable a.ref.bases a.ref.extents
  | .resizeList x es => ∃ a, w.objs x = some a ∧ es.length = a.ref.extents.length ∧ (∀ e ∈ es, e ≤ 2 ^ 63 - 1) ∧
      Representable a.ref.bases a.ref.extents
  | .reindex x bs => ∃ a, w.objs x = some a ∧ bs.length = a.ref.extents.length
  | .reindexAll x _ => ∃ a, w.objs x = some a
  | .reshape x es => ∃ a, w.objs x = some a ∧ es.length = a.ref.extents.length ∧ es.prod = a.ref.extents.prod

/-- The program's start: no variables, no storage, and the exceptions `sched` still to come. -/
def World.start (sched : List (Option T)) : World T := ⟨fun _ => none, ⟨fun _ => none, 1, sched⟩⟩

/-- Run a program; `none` if it runs into undefined behaviour or a failed assertion.  Exceptions are caught. -/
def World.run (dbg : Bool) (dflt : T) : List (Op T) → World T → Option (World T)
  | [], w => some w
  | op :: ops, w =>
    match w.step dbg dflt op with
    | .ok w' => World.run dbg dflt ops w'
    | .threw w' => World.run dbg dflt ops w'
    | .failed => none

/-- Every operation of the program is legal in the state in which it is performed. -/
def World.LegalRun (dbg : Bool) (dflt : T) : List (Op T) → World T → Prop
  | [], _ => True
  | op :: ops, w => op.Legal w ∧ ∀ w', w.step dbg dflt op = .ok w' ∨ w.step dbg dflt op = .threw w' →
      World.LegalRun dbg dflt ops w'

/-- The operations that allocate storage. -/
def Op.allocates : Op T → Bool
  | .construct .. | .resize .. | .resizeList .. => true
  | _ => false

/-- No exception is thrown by an operation that allocates storage (others may throw). -/
def World.NoAllocThrow (dbg : Bool) (dflt : T) : List (Op T) → World T → Prop
  | [], _ => True
  | op :: ops, w => (op.allocates = true → ∀ w', w.step dbg dflt op ≠ .threw w') ∧
      ∀ w', w.step dbg dflt op = .ok w' ∨ w.step dbg dflt op = .threw w' → World.NoAllocThrow dbg dflt ops w'

/-- Every live variable is a valid array owning its block, and no two own the same block. -/
structure World.Valid (w : World T) : Prop where
  sane : SaneHeap w.st
  owns : ∀ x a, w.objs x = some a → ∃ n, Owns w.st n a
  distinct : ∀ x y a a', w.objs x = some a → w.objs y = some a' → a.ref.data.blk = a'.ref.data.blk → x = y

/-- Every allocated block belongs to a live variable. -/
def World.NoLeak (w : World T) : Prop := ∀ b, w.st.heap b ≠ none → ∃ x a, w.objs x = some a ∧ a.ref.data.blk = b

end MultiArray.Spec
