import Verif.SpecWork
import Verif.SpecThreads

/-
The log of a run: every operation on memory in the order in which it is performed.  Element types may have constructors, assignments and destructors with side effects of their own (counting,
printing, registering the object ...); what such effects add up to is determined by which of these functions are called, on which objects, in which order.  Nothing here models code
of the library: `Code.log` watches the code of Model/Code.lean run, and the lists below say what the log should be.
-/
set_option autoImplicit false

namespace MultiArray.Spec
open MultiArray
variable {T α : Type}

/-- One operation on memory.  `p` is the address of the element. -/
inductive Event where
  | read (p : Ptr)
  | assign (p : Ptr)
  | construct (p : Ptr)
  | destroy (p : Ptr)
  | allocate (al n : Nat) (p : Ptr)
  | release (al : Nat) (p : Ptr) (n : Nat)
  | assignThrew (p : Ptr)
  | constructThrew (p : Ptr)
  | allocateThrew (al n : Nat)
deriving DecidableEq, Repr

/-- What the log shows instead if the operation throws (`none`: the operation cannot throw). -/
def Event.threw : Event → Option Event
  | .assign p => some (.assignThrew p)
  | .construct p => some (.constructThrew p)
  | .allocate al n _ => some (.allocateThrew al n)
  | _ => none

/-- The operations that the code performs when it runs without interference, in order. -/
def _root_.MultiArray.Code.log : Code T α → St T → List Event
  | .ret _, _ => []
  | .throw, _ => []
  | .assertFail, _ => []
  | .ub, _ => []
  | .load p k, s =>
    match MultiArray.load p s with
    | .ok v s' => .read p :: (k v).log s'
    | _ => []
  | .store p v k h, s =>
    match assignCell p v s with
    | .ok _ s' => .assign p :: k.log s'
    | .throw s' => .assignThrew p :: h.log s'
    | _ => []
  | .construct v p k h, s =>
    match constructCell v p s with
    | .ok _ s' => .construct p :: k.log s'
    | .throw s' => .constructThrew p :: h.log s'
    | _ => []
  | .destroy p k, s =>
    match destroyCell p s with
    | .ok _ s' => .destroy p :: k.log s'
    | _ => []
  | .alloc al n k h, s =>
    match MultiArray.allocate al n s with
    | .ok p s' => .allocate al n p :: (k p).log s'
    | .throw s' => .allocateThrew al n :: h.log s'
    | _ => []
  | .dealloc al p n k, s =>
    match deallocate al p n s with
    | .ok _ s' => .release al p n :: k.log s'
    | _ => []

/-! ### Expected logs -/

/-- `n` elements constructed at `p`, from the first to the last. -/
def constructing (p : Ptr) (n : Nat) : List Event := (List.range n).map (fun (i : Nat) => .construct (p.add (i : Int)))

/-- `n` elements destroyed at `p`, from the last to the first. -/
def destroying (p : Ptr) (n : Nat) : List Event := (List.range n).reverse.map (fun (i : Nat) => .destroy (p.add (i : Int)))

/-- Element after element, in lexicographic order of the positions in the shape `es`: the one of `src` is read and assigned to the one of `dst`. -/
def copying (es : List Nat) (src dst : Desc) : List Event :=
  (positions es).flatMap (fun k => [.read (address src (atPos src.bases k)), .assign (address dst (atPos dst.bases k))])

/-- Element after element, in memory order. -/
def copyingFlat (n : Nat) (src dst : Ptr) : List Event :=
  (List.range n).flatMap (fun (i : Nat) => [.read (src.add (i : Int)), .assign (dst.add (i : Int))])

/-- The operations of `plan` are performed one after the other until one of them throws. -/
def Interrupted (plan log : List Event) : Prop :=
  ∃ (before : List Event) (e e' : Event) (after : List Event), plan = before ++ e :: after ∧ e.threw = some e' ∧ log = before ++ [e']

/-- The allocation of `n` elements fails: the allocator throws, or it provides the block `p` and, after `k` elements have been constructed, the constructor of the next one throws; then these
`k` elements are destroyed, the last one first (the block is not released, cf. C50). -/
def FailedAllocation (al n : Nat) (p : Ptr) (log : List Event) : Prop :=
  log = [.allocateThrew al n] ∨
  ∃ k : Nat, k < n ∧ log = .allocate al n p :: constructing p k ++ [.constructThrew (p.add (k : Int))] ++ destroying p k

/-- Without interference, `x` completes with log `plan`, or throws after some operation of `plan` threw and nothing else. -/
def FollowsPlan (plan : List Event) (x : Code T α) (s : St T) : Prop :=
  match x.exec s with
  | .ok _ _ => x.log s = plan
  | .throw _ => Interrupted plan (x.log s)
  | _ => False

/-- The constructors as code. -/
def Ctor.code (dbg : Bool) (dflt : T) : Ctor → Code T MArr
  | .default n al => MArr.mkDefaultC dflt n al
  | .extents n es so al => MArr.mkExtentsC dflt n es so al
  | .gen n rs so al => MArr.mkExtentGenC dflt ⟨n, rs⟩ so al
  | .copy _ a => MArr.mkCopyC dflt a
  | .convert _ src so al => MArr.mkConvertC dbg dflt src so al

/-- The allocator a constructor uses. -/
def Ctor.alloc : Ctor → Nat
  | .default _ al | .extents _ _ _ al | .gen _ _ _ al | .convert _ _ _ al => al
  | .copy _ a => a.alloc

/-- What a constructor copies into the new array `a` after constructing its elements: the copy constructor all elements in memory order, the converting constructors all elements in
lexicographic order of their positions. -/
def Ctor.copyLog (a : MArr) : Ctor → List Event
  | .copy _ b => copyingFlat b.ref.extents.prod b.ref.data a.ref.data
  | .convert _ d _ _ => copying d.extents d a.ref.desc
  | _ => []

/-! ### Lifetimes -/

/-- What is known about memory without knowing values: which blocks exist (provider and size), and which addresses hold a live object. -/
structure Lives where
  block : Nat → Option (Nat × Nat)
  live : Ptr → Prop

/-- That knowledge about the memory `s`. -/
def livesOf (s : St T) : Lives := ⟨fun b => (s.heap b).map (fun k => (k.provider, k.cells.length)), fun p => ∃ v, s.get? p = some v⟩

/-- The address lies in a block that exists. -/
def Lives.Has (L : Lives) (p : Ptr) : Prop := ∃ al n, L.block p.blk = some (al, n) ∧ 0 ≤ p.off ∧ p.off < (n : Int)

/-- `L.Allows e L'`: in `L` the operation `e` respects object lifetimes - it reads, assigns and destroys live objects only, constructs only in existing storage without an
object in it, and releases only a whole block, to the allocator that provided it, when no object is left in it - and afterwards `L'` holds. -/
inductive Lives.Allows : Lives → Event → Lives → Prop
  | read {L : Lives} {p : Ptr} : L.live p → Allows L (.read p) L
  | assign {L : Lives} {p : Ptr} : L.live p → Allows L (.assign p) L
  | assignThrew {L : Lives} {p : Ptr} : L.live p → Allows L (.assignThrew p) L
  | construct {L : Lives} {p : Ptr} : L.Has p → ¬ L.live p → Allows L (.construct p) ⟨L.block, fun q => q = p ∨ L.live q⟩
  | constructThrew {L : Lives} {p : Ptr} : L.Has p → ¬ L.live p → Allows L (.constructThrew p) L
  | destroy {L : Lives} {p : Ptr} : L.live p → Allows L (.destroy p) ⟨L.block, fun q => q ≠ p ∧ L.live q⟩
  | allocate {L : Lives} {al n : Nat} {p : Ptr} : p.off = 0 → L.block p.blk = none → Allows L (.allocate al n p) ⟨fun b => if b = p.blk then some (al, n) else L.block b, L.live⟩
  | allocateThrew {L : Lives} {al n : Nat} : Allows L (.allocateThrew al n) L
  | release {L : Lives} {al n : Nat} {p : Ptr} : p.off = 0 → L.block p.blk = some (al, n) → (∀ q, q.blk = p.blk → ¬ L.live q) →
      Allows L (.release al p n) ⟨fun b => if b = p.blk then none else L.block b, L.live⟩

/-- A sequence of operations that all respect object lifetimes. -/
inductive Lives.AllowsAll : Lives → List Event → Lives → Prop
  | nil {L : Lives} : AllowsAll L [] L
  | cons {L L1 L2 : Lives} {e : Event} {es : List Event} : L.Allows e L1 → AllowsAll L1 es L2 → AllowsAll L (e :: es) L2

/-- The operation may change the cell at `p`. -/
def Event.Changes (p : Ptr) : Event → Prop
  | .assign q | .assignThrew q | .construct q | .destroy q => q = p
  | .allocate _ _ q | .release _ q _ => q.blk = p.blk
  | _ => False

end MultiArray.Spec
