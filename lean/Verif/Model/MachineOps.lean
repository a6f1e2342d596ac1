import Verif.Model.MachineIt
import Verif.Model.MultiArr

/- Whole operations as a 64-bit machine performs them: element access, assignment, `copy_array`, `for_each`, comparisons, constructors and
`resize`, with every index and size computation done in wrapping `size_type` / checked `index` arithmetic (conventions as in `Machine.lean`).
Each definition is the machine counterpart of the definition of the same name in `Copy.lean`, `Compare.lean`, `MultiArr.lean`.  What involves no index
arithmetic (the element assignments themselves, `assign(first,last)`, the element copy of the copy constructor, allocation, the swaps) is shared. -/
set_option autoImplicit false

namespace MultiArray.Machine
variable {T : Type}

/-- `a(indices)` read as a value (multi_array_ref.hpp:211-218, subarray.hpp:80-87, view.hpp:120-127). -/
def readElem (dbg : Bool) (d : Desc) (indices : List Int) : Exec T T := do
  load (← Exec.lift (accessElement dbg indices d))

/-- `a(indices) = v` (multi_array_ref.hpp:508-516, subarray.hpp:280-288, view.hpp:325-333). -/
def writeElem (dbg : Bool) (d : Desc) (indices : List Int) (v : T) : Exec T Unit := do
  assignCell (← Exec.lift (accessElement dbg indices d)) v

/-- `a[i1]...[iN]` read as a value (multi_array_ref.hpp:221-225, subarray.hpp:75-78, view.hpp:130-135). -/
def readChain (dbg : Bool) (d : Desc) (indices : List Int) : Exec T T := do
  load (← Exec.lift (accessChain dbg indices d)).base

/-- `a[i1]...[iN] = v` (multi_array_ref.hpp:519-524, subarray.hpp:259-263, view.hpp:336-341). -/
def writeChain (dbg : Bool) (d : Desc) (indices : List Int) (v : T) : Exec T Unit := do
  assignCell (← Exec.lift (accessChain dbg indices d)).base v

/-- `std::copy` on array iterators (external), whose `++` is iterator.hpp:131. -/
def stdCopy (body : It → It → Exec T Unit) : (n : Nat) → (first out : It) → Exec T Unit
  | 0, _, _ => pure ()
  | n + 1, first, out => do
    body first out
    let first' ← Exec.lift (increment first)
    let out' ← Exec.lift (increment out)
    stdCopy body n first' out'

/-- `dst = src` (multi_array_ref.hpp:475-502, subarray.hpp:228-254, view.hpp:294-321). -/
def assignRefW (dbg : Bool) (elt : Ptr → Ptr → Exec T Unit) : (n : Nat) → (dst src : Desc) → Exec T Unit
  | 0, dst, src => elt dst.base src.base
  | n + 1, dst, src => do
    assertE dbg (decide (src.extents.length = dst.extents.length))
    assertE dbg (decide (src.extents = dst.extents))
    let first ← Exec.lift (begin src)
    let last ← Exec.lift («end» src)
    let out ← Exec.lift (begin dst)
    let cnt ← Exec.lift (distanceTo first last)
    stdCopy (fun i o => do
        let s ← Exec.lift (deref dbg i)
        let d ← Exec.lift (deref dbg o)
        assignRefW dbg elt n d s)
      cnt.toNat first out

/-- `operator=` (multi_array_ref.hpp:490-502, subarray.hpp:243-254, view.hpp:310-321, multi_array.hpp:427-432). -/
def assignOpW (dbg sameObject : Bool) (elt : Ptr → Ptr → Exec T Unit) (dst src : Desc) : Exec T Unit :=
  if sameObject then pure () else assignRefW dbg elt dst.extents.length dst src

/-- `copy_dispatch::copy_array` (copy_array.hpp:29-50). -/
def copyDispatchW (dbg : Bool) (elt : Ptr → Ptr → Exec T Unit) : (n : Nat) → (src dst : Desc) → Exec T Unit
  | 0, src, dst => elt dst.base src.base
  | n + 1, src, dst => do
    let first ← Exec.lift (begin src)
    let last ← Exec.lift («end» src)
    let out ← Exec.lift (begin dst)
    let cnt ← Exec.lift (distanceTo first last)
    stdCopy (fun i o => do
        let s ← Exec.lift (deref dbg i)
        let d ← Exec.lift (deref dbg o)
        copyDispatchW dbg elt n s d)
      cnt.toNat first out

/-- `copy_array(source,dest)` (copy_array.hpp:53-61). -/
def copyArrayW (dbg : Bool) (elt : Ptr → Ptr → Exec T Unit) (src dst : Desc) : Exec T Unit := do
  assertE dbg (decide (src.extents = dst.extents))
  copyDispatchW dbg elt src.extents.length src dst

/-- The loop of `for_each` (example/for_each.hpp:33-41). -/
def stdForEach {σ : Type} (body : It → σ → Exec T σ) : (n : Nat) → (first : It) → (q : σ) → Exec T σ
  | 0, _, q => pure q
  | n + 1, first, q => do
    let q' ← body first q
    let first' ← Exec.lift (increment first)
    stdForEach body n first' q'

/-- `for_each(A, xform)` (example/for_each.hpp:21-50). -/
def forEachX {σ : Type} (dbg : Bool) (f : σ → T → Exec T (T × σ)) : (n : Nat) → (a : Desc) → (q : σ) → Exec T σ
  | 0, a, q => do
    let v ← load a.base
    let r ← f q v
    assignCell a.base r.1
    pure r.2
  | n + 1, a, q => do
    let first ← Exec.lift (begin a)
    let last ← Exec.lift («end» a)
    let cnt ← Exec.lift (distanceTo first last)
    stdForEach (fun i q => do
        let s ← Exec.lift (deref dbg i)
        forEachX dbg f n s q)
      cnt.toNat first q

/-- `for_each(A, xform)` with a stateless functor (example/for_each.hpp:21-50). -/
def forEach (dbg : Bool) (f : T → T) (n : Nat) (a : Desc) : Exec T Unit :=
  forEachX dbg (fun (_ : Unit) v => pure (f v, ())) n a ()

/-- `std::equal` on array iterators (external), whose `++` is iterator.hpp:131. -/
def stdEqual (eqv : It → It → Res Bool) : (n : Nat) → (first1 first2 : It) → Res Bool
  | 0, _, _ => .ok true
  | n + 1, i, j => do
    if ← eqv i j then
      let i' ← increment i
      let j' ← increment j
      stdEqual eqv n i' j'
    else .ok false

/-- `operator==` (multi_array_ref.hpp:262-271, subarray.hpp:110-115, view.hpp:171-180). -/
def equalRef (dbg : Bool) (eq : T → T → Bool) (s : St T) : (n : Nat) → (a b : Desc) → Res Bool
  | 0, a, b => do .ok (eq (← loadR s a.base) (← loadR s b.base))
  | n + 1, a, b => do
    if a.extents = b.extents then
      let first ← begin a
      let last ← «end» a
      let first2 ← begin b
      let cnt ← distanceTo first last
      stdEqual (fun i j => do equalRef dbg eq s n (← deref dbg i) (← deref dbg j)) cnt.toNat first first2
    else .ok false

/-- `std::lexicographical_compare` on array iterators (external), whose `++` is iterator.hpp:131. -/
def stdLexCompare (lt : It → It → Res Bool) : (n m : Nat) → (i j : It) → Res Bool
  | _, 0, _, _ => .ok false
  | 0, _ + 1, _, _ => .ok true
  | n + 1, m + 1, i, j => do
    if ← lt i j then .ok true
    else if ← lt j i then .ok false
    else
      let i' ← increment i
      let j' ← increment j
      stdLexCompare lt n m i' j'

/-- `operator<` (multi_array_ref.hpp:273-278, subarray.hpp:105-108, view.hpp:182-187). -/
def lessRef (dbg : Bool) (lt : T → T → Bool) (s : St T) : (n : Nat) → (a b : Desc) → Res Bool
  | 0, a, b => do .ok (lt (← loadR s a.base) (← loadR s b.base))
  | n + 1, a, b => do
    let first ← begin a
    let last ← «end» a
    let first2 ← begin b
    let last2 ← «end» b
    let cnt ← distanceTo first last
    let cnt2 ← distanceTo first2 last2
    stdLexCompare (fun i j => do lessRef dbg lt s n (← deref dbg i) (← deref dbg j)) cnt.toNat cnt2.toNat first first2

/-- Constructors of `const_multi_array_ref` from an extent list (multi_array_ref.hpp:89-108). -/
def ofExtents (numDims : Nat) (base : Ptr) (extents : List Nat) (so : StorageOrder) : Res ARef :=
  init numDims base so (List.replicate numDims 0) extents

/-- `extent_range::size()` (extent_range.hpp:41): the subtraction is signed. -/
def extentSize (r : ExtentRange) : Res Nat := do .ok (toSizeT (← chk (r.second - r.first)))

/-- The sizes of all ranges (multi_array_ref.hpp:374-377). -/
def extentSizes : List ExtentRange → Res (List Nat)
  | [] => .ok []
  | r :: rs => do
    let n ← extentSize r
    let ns ← extentSizes rs
    .ok (n :: ns)

/-- `init_from_extent_gen` (multi_array_ref.hpp:362-380). -/
def ofExtentGen (base : Ptr) (g : ExtentGen) (so : StorageOrder) : Res ARef := do
  let sizes ← extentSizes g.ranges
  init g.numRanges base so (g.ranges.map ExtentRange.start) sizes

/-- `const_multi_array_ref(base, so, index_bases, extents)` (multi_array_ref.hpp:324-346). -/
def ofShape (numDims : Nat) (base : Ptr) (so : StorageOrder) (indexBases : Option (List Int))
    (extents : Option (List Nat)) : Res ARef := do
  let bs ← match indexBases with
    | some l => copyN l numDims
    | none => .ok (List.replicate numDims 0)
  match extents with
  | some l => init numDims base so bs l
  | none => init numDims base so bs (List.replicate numDims 0)

/-- `multi_array(const Allocator&)` (multi_array.hpp:152-157). -/
def mkDefault (dflt : T) (numDims : Nat) (alloc : Nat) : Exec T MArr := do
  let ref ← Exec.lift (ofShape numDims Ptr.null (StorageOrder.cOrder numDims) none none)
  MArr.allocateSpace dflt ref alloc

/-- `multi_array(extents, so, alloc)` from an extent list (multi_array.hpp:159-196). -/
def mkExtents (dflt : T) (numDims : Nat) (extents : List Nat) (so : StorageOrder) (alloc : Nat) : Exec T MArr := do
  let ref ← Exec.lift (ofExtents numDims Ptr.null extents so)
  MArr.allocateSpace dflt ref alloc

/-- `multi_array(extent_gen, so, alloc)` (multi_array.hpp:199-227). -/
def mkExtentGen (dflt : T) (g : ExtentGen) (so : StorageOrder) (alloc : Nat) : Exec T MArr := do
  let ref ← Exec.lift (ofExtentGen Ptr.null g so)
  MArr.allocateSpace dflt ref alloc

/-- The converting constructors (multi_array.hpp:246-281, 354-417). -/
def mkConvert (dbg : Bool) (dflt : T) (rhs : Desc) (so : StorageOrder) (alloc : Nat) : Exec T MArr := do
  let ref ← Exec.lift (ofShape rhs.extents.length Ptr.null so (some rhs.bases) (some rhs.extents))
  let a ← MArr.allocateSpace dflt ref alloc
  let first ← Exec.lift (begin rhs)
  let last ← Exec.lift («end» rhs)
  let out ← Exec.lift (begin a.ref.desc)
  let cnt ← Exec.lift (distanceTo first last)
  stdCopy (fun i o => do
      let s ← Exec.lift (deref dbg i)
      let d ← Exec.lift (deref dbg o)
      assignRefW dbg eltCopy (rhs.extents.length - 1) d s)
    cnt.toNat first out
  pure a

/-- `populate_index_ranges` (multi_array.hpp:53-60): `base+extent` is a `size_type` operation, converted to `index`. -/
def populateIndexRanges (base : Int) (extent : Nat) : IndexRange :=
  IndexRange.mk3 base (toIndex (uadd (toSizeT base) extent))

/-- The part of `resize` that fills the new array (multi_array.hpp:461-499). -/
def resizeFill (dbg : Bool) (a newArr : MArr) : Exec T Unit := do
  let minExtents := List.zipWith Nat.min newArr.ref.extents a.ref.extents
  let newIdxes : IndexGen := ⟨a.ref.extents.length, a.ref.extents.length, List.zipWith populateIndexRanges newArr.ref.bases minExtents⟩
  let oldIdxes : IndexGen := ⟨a.ref.extents.length, a.ref.extents.length, List.zipWith populateIndexRanges a.ref.bases minExtents⟩
  let viewOld ← Exec.lift (generateArrayView dbg oldIdxes a.ref.desc)
  let viewNew ← Exec.lift (generateArrayView dbg newIdxes newArr.ref.desc)
  assignOpW dbg false eltCopy viewNew.desc viewOld.desc

/-- `resize(const extent_gen&)` (multi_array.hpp:453-516). -/
def resize (dbg : Bool) (dflt : T) (ranges : ExtentGen) : Member T Unit := do
  let a ← Member.self
  let newArr ← Member.run (mkExtentGen dflt ranges a.ref.storage a.alloc)
  Member.run (Exec.onThrow (resizeFill dbg a newArr) (MArr.deallocateSpace newArr))
  let old ← Member.swapWith newArr
  Member.run (MArr.deallocateSpace old)

/-- `resize(const ExtentList&)` (multi_array.hpp:435-449): the extents are converted to `index`. -/
def resizeExtents (dbg : Bool) (dflt : T) (extents : List Nat) : Member T Unit := do
  let a ← Member.self
  let ext ← Member.run (Exec.lift (copyN extents a.ref.numDims))
  resize dbg dflt ⟨a.ref.numDims, ext.map (fun (e : Nat) => ExtentRange.mk2 0 (toIndex e))⟩

/-- `operator=(const multi_array&)` (multi_array.hpp:427-432). -/
def assignFrom (dbg sameObject : Bool) (a other : MArr) : Exec T Unit :=
  if !sameObject then assignOpW dbg sameObject eltCopy a.ref.desc other.ref.desc else pure ()

/-- `reindex(index)` (multi_array_ref.hpp:157-162). -/
def reindexAll (a : ARef) (value : Int) : Res ARef := reindex a (List.replicate a.numDims value)

/-- `index_range(index pos)` (index_range.hpp:55-61): `pos+1` is signed. -/
def single (pos : Int) : Res IndexRange := do .ok ⟨pos, ← chk (pos + 1), 1, true⟩

/-- `index_gen::operator[](index)` (index_gen.hpp:62-69). -/
def pushIdx (g : IndexGen) (idx : Int) : Res IndexGen := do
  let rs ← copyPrefix g.ranges (rangeList IndexRange.default (g.numRanges + 1))
  let r ← single idx
  .ok ⟨g.numRanges + 1, g.numDims, setLast rs r⟩

end MultiArray.Machine
