import Verif.Model.Steps
import Verif.Model.MultiArr

/- The owning class again (cf. Model/MultiArr.lean), now as *code*: trees of single memory operations (reading, assigning, constructing and destroying one element, allocating and
releasing one block), each of which may throw where C++ says so, so that executions of several threads can be interleaved operation by operation.  `Code.exec` (running code without
interference) gives back the functions of Model/MultiArr.lean (Lemmas/Code.lean: `exec_mkCopyC` etc.), so the two descriptions cannot drift apart. -/
set_option autoImplicit false

namespace MultiArray
variable {T : Type}

/-- A computation that operates on memory one element or one block at a time; `h` is what follows if the operation throws.  (Not a definition of the library.) -/
inductive Code (T α : Type) : Type where
  | ret (a : α)
  | throw
  | assertFail
  | ub
  | load (p : Ptr) (k : T → Code T α)
  | store (p : Ptr) (v : T) (k h : Code T α)
  | construct (v : T) (p : Ptr) (k h : Code T α)
  | destroy (p : Ptr) (k : Code T α)
  | alloc (al n : Nat) (k : Ptr → Code T α) (h : Code T α)
  | dealloc (al : Nat) (p : Ptr) (n : Nat) (k : Code T α)

namespace Code
variable {α β : Type}

/-- Continue with `f` after normal completion and with `h` after an exception. -/
def elim : Code T α → (α → Code T β) → Code T β → Code T β
  | ret a, f, _ => f a
  | throw, _, h => h
  | assertFail, _, _ => assertFail
  | ub, _, _ => ub
  | load p k, f, h => load p (fun v => elim (k v) f h)
  | store p v k h', f, h => store p v (elim k f h) (elim h' f h)
  | construct v p k h', f, h => construct v p (elim k f h) (elim h' f h)
  | destroy p k, f, h => destroy p (elim k f h)
  | alloc al n k h', f, h => alloc al n (fun q => elim (k q) f h) (elim h' f h)
  | dealloc al p n k, f, h => dealloc al p n (elim k f h)

/-- Sequencing; exceptions propagate. -/
def bind (x : Code T α) (f : α → Code T β) : Code T β := elim x f throw

instance : Monad (Code T) where
  pure := Code.ret
  bind := Code.bind

/-- Run `x`; if it throws, run `cleanup` (destructors during stack unwinding) and rethrow. -/
def onThrow (x : Code T α) (cleanup : Code T Unit) : Code T α := elim x ret (elim cleanup (fun _ => throw) throw)

/-- `try { x } catch (...) { }`: `none` if `x` threw. -/
def attempt (x : Code T α) : Code T (Option α) := elim x (fun a => ret (some a)) (ret none)

/-- A memory-independent computation. -/
def lift : Res α → Code T α
  | .ok a => ret a
  | .assertFail => assertFail
  | .ub => ub

/-- Code that only reads and assigns elements. -/
def ofProg : Prog T α → Code T α
  | .ret a => ret a
  | .load p k => load p (fun v => ofProg (k v))
  | .store p v k => store p v (ofProg k) throw
  | .assertFail => assertFail
  | .ub => ub

/-- Run without interference. -/
def exec : Code T α → Exec T α
  | ret a => fun s => .ok a s
  | throw => fun s => .throw s
  | assertFail => fun s => .assertFail s
  | ub => fun _ => .ub
  | load p k => fun s =>
    match MultiArray.load p s with
    | .ok v s' => exec (k v) s'
    | .throw s' => .throw s'
    | .assertFail s' => .assertFail s'
    | .ub => .ub
  | store p v k h => fun s =>
    match assignCell p v s with
    | .ok _ s' => exec k s'
    | .throw s' => exec h s'
    | .assertFail s' => .assertFail s'
    | .ub => .ub
  | construct v p k h => fun s =>
    match constructCell v p s with
    | .ok _ s' => exec k s'
    | .throw s' => exec h s'
    | .assertFail s' => .assertFail s'
    | .ub => .ub
  | destroy p k => fun s =>
    match destroyCell p s with
    | .ok _ s' => exec k s'
    | .throw s' => .throw s'
    | .assertFail s' => .assertFail s'
    | .ub => .ub
  | alloc al n k h => fun s =>
    match allocate al n s with
    | .ok p s' => exec (k p) s'
    | .throw s' => exec h s'
    | .assertFail s' => .assertFail s'
    | .ub => .ub
  | dealloc al p n k => fun s =>
    match deallocate al p n s with
    | .ok _ s' => exec k s'
    | .throw s' => .throw s'
    | .assertFail s' => .assertFail s'
    | .ub => .ub

/-- How many memory operations the code performs when it runs without interference. -/
def steps : Code T α → St T → Nat
  | ret _, _ => 0
  | throw, _ => 0
  | assertFail, _ => 0
  | ub, _ => 0
  | load p k, s =>
    match MultiArray.load p s with
    | .ok v s' => steps (k v) s' + 1
    | _ => 0
  | store p v k h, s =>
    match assignCell p v s with
    | .ok _ s' => steps k s' + 1
    | .throw s' => steps h s' + 1
    | _ => 0
  | construct v p k h, s =>
    match constructCell v p s with
    | .ok _ s' => steps k s' + 1
    | .throw s' => steps h s' + 1
    | _ => 0
  | destroy p k, s =>
    match destroyCell p s with
    | .ok _ s' => steps k s' + 1
    | _ => 0
  | alloc al n k h, s =>
    match allocate al n s with
    | .ok p s' => steps (k p) s' + 1
    | .throw s' => steps h s' + 1
    | _ => 0
  | dealloc al p n k, s =>
    match deallocate al p n s with
    | .ok _ s' => steps k s' + 1
    | _ => 0

/-- Read one element. -/
def get (p : Ptr) : Code T T := load p ret
/-- Assign one element. -/
def put (p : Ptr) (v : T) : Code T Unit := store p v (ret ()) throw

end Code

/-- `boost::alloc_destroy_n(a,p,n)` (boost/core, external; multi_array.hpp:553), cf. `destroyN`. -/
def destroyNC (p : Ptr) : Nat → Code T Unit
  | 0 => pure ()
  | n + 1 => do Code.destroy (p.add n) (.ret ()); destroyNC p n

/-- `boost::alloc_construct_n(a,p,n)` (boost/core, external; multi_array.hpp:548), cf. `constructFrom`. -/
def constructFromC (dflt : T) (p : Ptr) : (n i : Nat) → Code T Unit
  | 0, _ => pure ()
  | n + 1, i => do
    Code.onThrow (Code.construct dflt (p.add i) (.ret ()) .throw) (destroyNC p i)
    constructFromC dflt p n (i + 1)

namespace MArr

/-- `allocate_space()` (multi_array.hpp:544-549), cf. `allocateSpace`. -/
def allocateSpaceC (dflt : T) (ref : ARef) (alloc : Nat) : Code T MArr := do
  let p ← Code.alloc alloc ref.numElems .ret .throw
  let ref := { ref with base := p }
  constructFromC dflt p ref.numElems 0
  pure ⟨ref, p, ref.numElems, alloc⟩

/-- `deallocate_space()` (multi_array.hpp:551-556) and `~multi_array()` (519-521), cf. `deallocateSpace`. -/
def deallocateSpaceC (a : MArr) : Code T Unit :=
  if a.ownBase ≠ Ptr.null then do
    destroyNC a.ownBase a.allocated
    Code.dealloc a.alloc a.ownBase a.allocated (.ret ())
  else pure ()

/-- `multi_array(const Allocator&)` (multi_array.hpp:152-157), cf. `mkDefault`. -/
def mkDefaultC (dflt : T) (numDims : Nat) (alloc : Nat) : Code T MArr := do
  let ref ← Code.lift (ARef.ofShape numDims Ptr.null (StorageOrder.cOrder numDims) none none)
  allocateSpaceC dflt ref alloc

/-- `multi_array(extents, so, alloc)` (multi_array.hpp:159-196), cf. `mkExtents`. -/
def mkExtentsC (dflt : T) (numDims : Nat) (extents : List Nat) (so : StorageOrder) (alloc : Nat) : Code T MArr := do
  let ref ← Code.lift (ARef.ofExtents numDims Ptr.null extents so)
  allocateSpaceC dflt ref alloc

/-- `multi_array(extent_gen, so, alloc)` (multi_array.hpp:199-227), cf. `mkExtentGen`. -/
def mkExtentGenC (dflt : T) (g : ExtentGen) (so : StorageOrder) (alloc : Nat) : Code T MArr := do
  let ref ← Code.lift (ARef.ofExtentGen Ptr.null g so)
  allocateSpaceC dflt ref alloc

/-- `copy_n(rhs.base_, n, base_)` (algorithm.hpp:52-61 as called at multi_array.hpp:233), cf. `copyNElems`. -/
def copyNElemsC : (n : Nat) → (src dst : Ptr) → Code T Unit
  | 0, _, _ => pure ()
  | n + 1, src, dst => do
    let v ← Code.get src
    Code.put dst v
    copyNElemsC n (src.add 1) (dst.add 1)

/-- `multi_array(const multi_array&)` (multi_array.hpp:229-234), cf. `mkCopy`. -/
def mkCopyC (dflt : T) (rhs : MArr) : Code T MArr := do
  let a ← allocateSpaceC dflt rhs.ref rhs.alloc
  copyNElemsC rhs.ref.numElems rhs.ownBase a.ownBase
  pure a

/-- The converting constructors (multi_array.hpp:246-281, 354-417), cf. `mkConvert`. -/
def mkConvertC (dbg : Bool) (dflt : T) (rhs : Desc) (so : StorageOrder) (alloc : Nat) : Code T MArr := do
  let ref ← Code.lift (ARef.ofShape rhs.extents.length Ptr.null so (some rhs.bases) (some rhs.extents))
  let a ← allocateSpaceC dflt ref alloc
  let first ← Code.lift rhs.begin
  let last ← Code.lift rhs.end
  let out ← Code.lift a.ref.desc.begin
  Code.ofProg (stdCopyP (fun i o => do
      let s ← Prog.lift (i.deref dbg)
      let d ← Prog.lift (o.deref dbg)
      assignP dbg (rhs.extents.length - 1) d s)
    (last.sub first).toNat first out)
  pure a

/-- The part of `resize` that fills the new array (multi_array.hpp:461-499), cf. `resizeFill`. -/
def resizeFillC (dbg : Bool) (a newArr : MArr) : Code T Unit := do
  let minExtents := List.zipWith Nat.min newArr.ref.extents a.ref.extents
  let newIdxes : IndexGen := ⟨a.ref.extents.length, a.ref.extents.length, List.zipWith populateIndexRanges newArr.ref.bases minExtents⟩
  let oldIdxes : IndexGen := ⟨a.ref.extents.length, a.ref.extents.length, List.zipWith populateIndexRanges a.ref.bases minExtents⟩
  let viewOld ← Code.lift (a.ref.slice dbg oldIdxes)
  let viewNew ← Code.lift (newArr.ref.slice dbg newIdxes)
  Code.ofProg (assignP dbg viewNew.desc.extents.length viewNew.desc viewOld.desc)

/-- `resize(const extent_gen&)` (multi_array.hpp:453-516), cf. `resize`.  Returns whether it completed (`none`: it threw), and the members of `*this` afterwards. -/
def resizeC (dbg : Bool) (dflt : T) (ranges : ExtentGen) (a : MArr) : Code T (Option Unit × MArr) := do
  match ← Code.attempt (mkExtentGenC dflt ranges a.ref.storage a.alloc) with
  | none => pure (none, a)
  | some newArr =>
    match ← Code.attempt (Code.onThrow (resizeFillC dbg a newArr) (deallocateSpaceC newArr)) with
    | none => pure (none, a)
    | some _ =>
      let r ← Code.attempt (deallocateSpaceC (swapAll a newArr).2)
      pure (r, (swapAll a newArr).1)

/-- `resize(const ExtentList&)` (multi_array.hpp:435-449), cf. `resizeExtents`. -/
def resizeExtentsC (dbg : Bool) (dflt : T) (extents : List Nat) (a : MArr) : Code T (Option Unit × MArr) := do
  let ext ← Code.lift (copyN extents a.ref.numDims)
  resizeC dbg dflt ⟨a.ref.numDims, ext.map (fun (e : Nat) => ExtentRange.mk2 0 (e : Int))⟩ a

/-- `operator=(const multi_array&)` (multi_array.hpp:427-432), cf. `assignFrom`. -/
def assignFromC (dbg sameObject : Bool) (a other : MArr) : Code T Unit :=
  if !sameObject then Code.ofProg (assignP dbg a.ref.desc.extents.length a.ref.desc other.ref.desc) else pure ()

end MArr

/-- `a[i1]...[iN]` read as a value (multi_array_ref.hpp:221-225, subarray.hpp:75-78, view.hpp:130-135), cf. `readChain`. -/
def readChainC (dbg : Bool) (d : Desc) (indices : List Int) : Code T T := do
  Code.get (← Code.lift (accessChain dbg indices d)).base

/-- `a[i1]...[iN] = v` (multi_array_ref.hpp:519-524, subarray.hpp:259-263, view.hpp:336-341), cf. `writeChain`. -/
def writeChainC (dbg : Bool) (d : Desc) (indices : List Int) (v : T) : Code T Unit := do
  Code.put (← Code.lift (accessChain dbg indices d)).base v

end MultiArray
