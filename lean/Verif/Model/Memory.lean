import Verif.Model.Iterator

/- Element storage: a heap of blocks with object lifetimes, and the exceptions that element operations
and the allocator may throw.  These are the facilities the library *uses* (`Allocator::allocate`,
`boost::alloc_construct_n`, `T::operator=` ...), cf. multi_array.hpp:544-556. -/
set_option autoImplicit false

namespace MultiArray

/-- One element slot: raw storage or a live object. -/
inductive Cell (T : Type) where
  | raw
  | obj (v : T)
deriving DecidableEq, Repr

/-- A block of element storage: the allocator that provided it, and its slots. -/
structure Block (T : Type) where
  provider : Nat
  cells : List (Cell T)
deriving DecidableEq, Repr

/-- Memory and environment.  `heap b` is live block `b`; `next` is the next unused block
id; `sched` lists, for each upcoming operation that may throw (allocation, element construction, element
assignment), whether it does: `none` = completes, `some junk` = throws (an assignment that throws leaves
`junk` in its target).  An exhausted schedule means no more exceptions. -/
structure St (T : Type) where
  heap : Nat → Option (Block T)
  next : Nat
  sched : List (Option T)

/-- Outcome of a computation on memory; exceptions and failed assertions carry the memory they leave. -/
inductive Out (T α : Type) where
  | ok (a : α) (s : St T)
  | throw (s : St T)
  | assertFail (s : St T)
  | ub

/-- A computation on memory. -/
def Exec (T α : Type) : Type := St T → Out T α

namespace Exec
variable {T α β : Type}

/-- Return. -/
def ret (a : α) : Exec T α := fun s => .ok a s

/-- Sequencing; exceptions propagate. -/
def bind (x : Exec T α) (f : α → Exec T β) : Exec T β := fun s =>
  match x s with
  | .ok a s' => f a s'
  | .throw s' => .throw s'
  | .assertFail s' => .assertFail s'
  | .ub => .ub

instance : Monad (Exec T) where
  pure := Exec.ret
  bind := Exec.bind

/-- A memory-independent computation. -/
def lift (r : Res α) : Exec T α := fun s =>
  match r with
  | .ok a => .ok a s
  | .assertFail => .assertFail s
  | .ub => .ub

/-- Run `x`; if it throws, run `cleanup` (destructors during stack unwinding) and rethrow. -/
def onThrow (x : Exec T α) (cleanup : Exec T Unit) : Exec T α := fun s =>
  match x s with
  | .throw s' =>
    match cleanup s' with
    | .ok _ s'' => .throw s''
    | .throw s'' => .throw s''
    | .assertFail s'' => .assertFail s''
    | .ub => .ub
  | r => r

end Exec

namespace St
variable {T : Type}

/-- The cell at a pointer, if it lies in a live block. -/
def cell? (s : St T) (p : Ptr) : Option (Cell T) :=
  match s.heap p.blk with
  | none => none
  | some blk => if 0 ≤ p.off then blk.cells[p.off.toNat]? else none

/-- The value of the live object at a pointer. -/
def get? (s : St T) (p : Ptr) : Option T :=
  match s.cell? p with
  | some (.obj v) => some v
  | _ => none

/-- Overwrite the cell at a pointer that lies in a live block. -/
def setCell (s : St T) (p : Ptr) (c : Cell T) : St T :=
  match s.heap p.blk with
  | none => s
  | some blk =>
    { s with heap := fun b => if b = p.blk then some ⟨blk.provider, blk.cells.set p.off.toNat c⟩ else s.heap b }

end St

section Ops
variable {T : Type}

/-- Reading an element (lvalue-to-rvalue conversion of `*p`): needs a live object. -/
def load (p : Ptr) : Exec T T := fun s =>
  match s.get? p with
  | some v => .ok v s
  | none => .ub

/-- `*p = v` with `T`'s copy assignment: needs a live object; may throw. -/
def assignCell (p : Ptr) (v : T) : Exec T Unit := fun s =>
  match s.get? p with
  | none => .ub
  | some _ =>
    match s.sched with
    | [] => .ok () (s.setCell p (.obj v))
    | none :: fs => .ok () ({ s with sched := fs }.setCell p (.obj v))
    | some junk :: fs => .throw ({ s with sched := fs }.setCell p (.obj junk))

/-- `allocator().allocate(n)` on allocator `al`: a fresh block of raw storage, or an exception. -/
def allocate (al n : Nat) : Exec T Ptr := fun s =>
  match s.sched with
  | some _ :: fs => .throw { s with sched := fs }
  | fs => .ok ⟨s.next, 0⟩
      { heap := fun b => if b = s.next then some ⟨al, List.replicate n .raw⟩ else s.heap b,
        next := s.next + 1, sched := fs.tail }

/-- The storage slot holds no live object. -/
def Cell.isRaw : Cell T → Bool
  | .raw => true
  | .obj _ => false

/-- `allocator().deallocate(p,n)` on allocator `al`: `p` must be the start of a live block of size `n` that was
provided by `al` (allocators may be stateful and unequal), and (a deliberate strictness of the model, so that lost
destructor calls cannot go unnoticed) every object in it must have been destroyed; otherwise the outcome is `ub`. -/
def deallocate (al : Nat) (p : Ptr) (n : Nat) : Exec T Unit := fun s =>
  match s.heap p.blk with
  | none => .ub
  | some blk =>
    if p.off = 0 ∧ blk.provider = al ∧ blk.cells.length = n ∧ blk.cells.all Cell.isRaw = true then
      .ok () { s with heap := fun b => if b = p.blk then none else s.heap b }
    else .ub

/-- Destroy one object (destructors do not throw); destroying raw storage is UB. -/
def destroyCell (p : Ptr) : Exec T Unit := fun s =>
  match s.get? p with
  | some _ => .ok () (s.setCell p .raw)
  | none => .ub

/-- `boost::alloc_destroy_n(a,p,n)` (boost/core, external): destroys `p[n-1]` down to `p[0]`. -/
def destroyN (p : Ptr) : Nat → Exec T Unit
  | 0 => pure ()
  | n + 1 => do destroyCell (p.add n); destroyN p n

/-- Construct a value-initialised object in raw storage; may throw, leaving the storage raw. -/
def constructCell (dflt : T) (p : Ptr) : Exec T Unit := fun s =>
  match s.cell? p with
  | some .raw =>
    match s.sched with
    | [] => .ok () (s.setCell p (.obj dflt))
    | none :: fs => .ok () ({ s with sched := fs }.setCell p (.obj dflt))
    | some _ :: fs => .throw { s with sched := fs }
  | _ => .ub

/-- `boost::alloc_construct_n(a,p,n)` (boost/core, external): value-initialises `p[i..i+n)`; if a
constructor throws, the `i` objects already constructed are destroyed and the exception propagates. -/
def constructFrom (dflt : T) (p : Ptr) : (n i : Nat) → Exec T Unit
  | 0, _ => pure ()
  | n + 1, i => do
    Exec.onThrow (constructCell dflt (p.add i)) (destroyN p i)
    constructFrom dflt p n (i + 1)

end Ops
end MultiArray
