import Verif.Model.Copy
import Verif.Model.Compare

/- Model of `include/boost/multi_array.hpp`: the owning class `multi_array`. -/
set_option autoImplicit false

namespace MultiArray
variable {T : Type}

/-- `multi_array` (multi_array.hpp:119-124, 561-562): the `multi_array_ref` subobject, its own `base_`
and `allocated_elements_`, and the allocator (an identity; the allocator's behaviour is in
`Memory.lean`). -/
structure MArr where
  ref : ARef
  ownBase : Ptr
  allocated : Nat
  alloc : Nat
deriving DecidableEq, Repr

namespace MArr

/-- `allocate_space()` (multi_array.hpp:544-549), as the last step of a constructor.  If the element
construction throws, nothing releases the block (the `multi_array` destructor does not run for a
partially constructed object). -/
def allocateSpace (dflt : T) (ref : ARef) (alloc : Nat) : Exec T MArr := do
  let p ← allocate alloc ref.numElems
  let ref := { ref with base := p }
  constructFrom dflt p ref.numElems 0
  pure ⟨ref, p, ref.numElems, alloc⟩

/-- `deallocate_space()` (multi_array.hpp:551-556); also `~multi_array()` (519-521). -/
def deallocateSpace (a : MArr) : Exec T Unit :=
  if a.ownBase ≠ Ptr.null then do
    destroyN a.ownBase a.allocated
    deallocate a.alloc a.ownBase a.allocated
  else pure ()

/-- `multi_array(const Allocator&)` (multi_array.hpp:152-157). -/
def mkDefault (dflt : T) (numDims : Nat) (alloc : Nat) : Exec T MArr := do
  let ref ← Exec.lift (ARef.ofShape numDims Ptr.null (StorageOrder.cOrder numDims) none none)
  allocateSpace dflt ref alloc

/-- `multi_array(extents, so, alloc)` from an extent list (multi_array.hpp:159-196). -/
def mkExtents (dflt : T) (numDims : Nat) (extents : List Nat) (so : StorageOrder) (alloc : Nat) : Exec T MArr := do
  let ref ← Exec.lift (ARef.ofExtents numDims Ptr.null extents so)
  allocateSpace dflt ref alloc

/-- `multi_array(extent_gen, so, alloc)` (multi_array.hpp:199-227). -/
def mkExtentGen (dflt : T) (g : ExtentGen) (so : StorageOrder) (alloc : Nat) : Exec T MArr := do
  let ref ← Exec.lift (ARef.ofExtentGen Ptr.null g so)
  allocateSpace dflt ref alloc

/-- `copy_n(rhs.base_, n, base_)` (algorithm.hpp:52-61 as called at multi_array.hpp:233). -/
def copyNElems : (n : Nat) → (src dst : Ptr) → Exec T Unit
  | 0, _, _ => pure ()
  | n + 1, src, dst => do
    let v ← load src
    assignCell dst v
    copyNElems n (src.add 1) (dst.add 1)

/-- `multi_array(const multi_array&)` (multi_array.hpp:229-234). -/
def mkCopy (dflt : T) (rhs : MArr) : Exec T MArr := do
  let a ← allocateSpace dflt rhs.ref rhs.alloc
  copyNElems rhs.ref.numElems rhs.ownBase a.ownBase
  pure a

/-- The converting constructors from `const_multi_array_ref`, `const_sub_array`, `const_multi_array_view`
and their mutable versions (multi_array.hpp:246-281, 354-417): `super_type(0,so,rhs.index_bases(),
rhs.shape())`, `allocate_space()`, `std::copy(rhs.begin(),rhs.end(),this->begin())`. -/
def mkConvert (dbg : Bool) (dflt : T) (rhs : Desc) (so : StorageOrder) (alloc : Nat) : Exec T MArr := do
  let ref ← Exec.lift (ARef.ofShape rhs.extents.length Ptr.null so (some rhs.bases) (some rhs.extents))
  let a ← allocateSpace dflt ref alloc
  let first ← Exec.lift rhs.begin
  let last ← Exec.lift rhs.end
  let out ← Exec.lift a.ref.desc.begin
  stdCopy (fun i o => do
      let s ← Exec.lift (i.deref dbg)
      let d ← Exec.lift (o.deref dbg)
      assignRef dbg (rhs.extents.length - 1) d s)
    (last.sub first).toNat first out
  pure a

/-- `populate_index_ranges` (multi_array.hpp:53-60): `index_range(base, base+extent)`. -/
def populateIndexRanges (base : Int) (extent : Nat) : IndexRange :=
  IndexRange.mk3 base (base + (extent : Int))

/-- The `swap` sequence of `resize` (multi_array.hpp:501-513), member by member: returns the new values
of `*this` and `new_array`. -/
def swapAll (a n : MArr) : MArr × MArr :=
  let (a, n) := ({ a with ref := { a.ref with base := n.ref.base } }, { n with ref := { n.ref with base := a.ref.base } })
  let (a, n) := ({ a with alloc := n.alloc }, { n with alloc := a.alloc })
  let (a, n) := ({ a with ref := { a.ref with storage := n.ref.storage } }, { n with ref := { n.ref with storage := a.ref.storage } })
  let (a, n) := ({ a with ref := { a.ref with extents := n.ref.extents } }, { n with ref := { n.ref with extents := a.ref.extents } })
  let (a, n) := ({ a with ref := { a.ref with strides := n.ref.strides } }, { n with ref := { n.ref with strides := a.ref.strides } })
  let (a, n) := ({ a with ref := { a.ref with bases := n.ref.bases } }, { n with ref := { n.ref with bases := a.ref.bases } })
  let (a, n) := ({ a with ref := { a.ref with originOffset := n.ref.originOffset } }, { n with ref := { n.ref with originOffset := a.ref.originOffset } })
  let (a, n) := ({ a with ref := { a.ref with directionalOffset := n.ref.directionalOffset } }, { n with ref := { n.ref with directionalOffset := a.ref.directionalOffset } })
  let (a, n) := ({ a with ref := { a.ref with numElems := n.ref.numElems } }, { n with ref := { n.ref with numElems := a.ref.numElems } })
  let (a, n) := ({ a with ownBase := n.ownBase }, { n with ownBase := a.ownBase })
  let (a, n) := ({ a with allocated := n.allocated }, { n with allocated := a.allocated })
  (a, n)

/-- The part of `resize` that fills the new array (multi_array.hpp:461-499): same-shape views of the
minimum extents of both arrays, then `view_new = view_old`. -/
def resizeFill (dbg : Bool) (a newArr : MArr) : Exec T Unit := do
  let minExtents := List.zipWith Nat.min newArr.ref.extents a.ref.extents
  let newIdxes : IndexGen := ⟨a.ref.extents.length, a.ref.extents.length, List.zipWith populateIndexRanges newArr.ref.bases minExtents⟩
  let oldIdxes : IndexGen := ⟨a.ref.extents.length, a.ref.extents.length, List.zipWith populateIndexRanges a.ref.bases minExtents⟩
  let viewOld ← Exec.lift (a.ref.slice dbg oldIdxes)
  let viewNew ← Exec.lift (newArr.ref.slice dbg newIdxes)
  assignOp dbg false viewNew.desc viewOld.desc

end MArr

/-- A member function that modifies its object: `*this` is a variable of the running program, so its current
members are part of every outcome, including exceptional ones. -/
def Member (T α : Type) : Type := MArr → St T → Out T α × MArr

namespace Member
variable {α β : Type}

/-- Return. -/
def ret (a : α) : Member T α := fun this s => (.ok a s, this)

/-- Sequencing; exceptions propagate and leave `*this` as it is at that point. -/
def bind (x : Member T α) (f : α → Member T β) : Member T β := fun this s =>
  match x this s with
  | (.ok a s', this') => f a this' s'
  | (.throw s', this') => (.throw s', this')
  | (.assertFail s', this') => (.assertFail s', this')
  | (.ub, this') => (.ub, this')

instance : Monad (Member T) where
  pure := Member.ret
  bind := Member.bind

/-- A computation that does not touch the members of `*this`. -/
def run (x : Exec T α) : Member T α := fun this s => (x s, this)

/-- Read the members of `*this`. -/
def self : Member T MArr := fun this s => (.ok this s, this)

/-- Swap all members of `*this` with those of another object (multi_array.hpp:501-513); returns that object. -/
def swapWith (other : MArr) : Member T MArr := fun this s =>
  (.ok (MArr.swapAll this other).2 s, (MArr.swapAll this other).1)

end Member

namespace MArr

/-- `resize(const extent_gen&)` (multi_array.hpp:453-516).  `new_array` is a local: its destructor runs
when the copy throws, and at the end (when it holds the old storage). -/
def resize (dbg : Bool) (dflt : T) (ranges : ExtentGen) : Member T Unit := do
  let a ← Member.self
  let newArr ← Member.run (mkExtentGen dflt ranges a.ref.storage a.alloc)
  Member.run (Exec.onThrow (resizeFill dbg a newArr) (deallocateSpace newArr))
  let old ← Member.swapWith newArr
  Member.run (deallocateSpace old)

/-- `resize(const ExtentList&)` (multi_array.hpp:435-449): `ranges.ranges_[i] = range_type(0,extents[i])`
for `i < NumDims`. -/
def resizeExtents (dbg : Bool) (dflt : T) (extents : List Nat) : Member T Unit := do
  let a ← Member.self
  let ext ← Member.run (Exec.lift (copyN extents a.ref.numDims))
  resize dbg dflt ⟨a.ref.numDims, ext.map (fun (e : Nat) => ExtentRange.mk2 0 (e : Int))⟩

/-- `operator=(const multi_array&)` (multi_array.hpp:427-432) forwards to `multi_array_ref::operator=`,
which checks `&other != this` again. -/
def assignFrom (dbg sameObject : Bool) (a other : MArr) : Exec T Unit :=
  if !sameObject then assignOp dbg sameObject a.ref.desc other.ref.desc else pure ()

end MArr
end MultiArray
