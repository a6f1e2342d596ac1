import Verif.Model.Memory

/- Copying: the `operator=` family, `assign`, `copy_array.hpp`, and `example/for_each.hpp`. -/
set_option autoImplicit false

namespace MultiArray
variable {T : Type}

/-- The expression `a(indices)` read as a value (multi_array_ref.hpp:211-218, subarray.hpp:80-87, view.hpp:120-127). -/
def readElem (dbg : Bool) (d : Desc) (indices : List Int) : Exec T T := do
  load (← Exec.lift (accessElement dbg indices d))

/-- The assignment expression `a(indices) = v` (multi_array_ref.hpp:508-516, subarray.hpp:280-288, view.hpp:325-333). -/
def writeElem (dbg : Bool) (d : Desc) (indices : List Int) (v : T) : Exec T Unit := do
  assignCell (← Exec.lift (accessElement dbg indices d)) v

/-- The expression `a[i1]...[iN]` read as a value (multi_array_ref.hpp:221-225, subarray.hpp:75-78, view.hpp:130-135). -/
def readChain (dbg : Bool) (d : Desc) (indices : List Int) : Exec T T := do
  load (← Exec.lift (accessChain dbg indices d)).base

/-- The assignment expression `a[i1]...[iN] = v` (multi_array_ref.hpp:519-524, subarray.hpp:259-263,
view.hpp:336-341). -/
def writeChain (dbg : Bool) (d : Desc) (indices : List Int) (v : T) : Exec T Unit := do
  assignCell (← Exec.lift (accessChain dbg indices d)).base v

/-- `std::copy(first,last,out)` on array iterators (external; the standard fixes the order): `n` steps
of `*out++ = *first++`, `body` being the assignment of the dereferenced values. -/
def stdCopy (body : It → It → Exec T Unit) : (n : Nat) → (first out : It) → Exec T Unit
  | 0, _, _ => pure ()
  | n + 1, first, out => do
    body first out
    stdCopy body n first.increment out.increment

/-- `BOOST_ASSERT` inside a computation on memory. -/
def assertE (dbg c : Bool) : Exec T Unit := Exec.lift (Res.assert dbg c)

/-- The element assignment `*out = *first` of equal, built-in-like element types: the source object is read, the destination object assigned
(the innermost statement of multi_array_ref.hpp:475-502, subarray.hpp:228-254, view.hpp:294-321, copy_array.hpp:46-50). -/
def eltCopy (dst src : Ptr) : Exec T Unit := do
  let v ← load src
  assignCell dst v

/-- The element assignment through a conversion, `T1& = T2(...)`: `conv` is the conversion from the source's element type to the
destination's.  Simplification: `T` is the union of the value types involved (the `operator=` templates of multi_array_ref.hpp:475-488,
subarray.hpp:228-240, view.hpp:294-307 take any ConstMultiArray, copy_array.hpp:53-61 any two array types). -/
def eltConv (conv : T → T) (dst src : Ptr) : Exec T Unit := do
  let v ← load src
  assignCell dst (conv v)

/-- Assignment `dst = src` of two values of dimension `n`, with the element assignment `elt dst src` as a parameter: element types are
arbitrary, so their `operator=` may convert, have side effects, throw.
* `n = 0`: element assignment.
* `n + 1`: the body shared by `multi_array_ref::operator=` (multi_array_ref.hpp:475-488, 490-502),
  `sub_array::operator=` (subarray.hpp:228-240, 243-254) and `multi_array_view::operator=`
  (view.hpp:294-307, 310-321): assert equal dimensions and shapes, then
  `std::copy(other.begin(), other.end(), begin())`, which assigns the dereferenced subarrays. -/
def assignRefW (dbg : Bool) (elt : Ptr → Ptr → Exec T Unit) : (n : Nat) → (dst src : Desc) → Exec T Unit
  | 0, dst, src => elt dst.base src.base
  | n + 1, dst, src => do
    assertE dbg (decide (src.extents.length = dst.extents.length))
    assertE dbg (decide (src.extents = dst.extents))
    let first ← Exec.lift src.begin
    let last ← Exec.lift src.end
    let out ← Exec.lift dst.begin
    stdCopy (fun i o => do
        let s ← Exec.lift (i.deref dbg)
        let d ← Exec.lift (o.deref dbg)
        assignRefW dbg elt n d s)
      (last.sub first).toNat first out

/-- `assignRefW` with plain element assignment (multi_array_ref.hpp:475-502, subarray.hpp:228-254, view.hpp:294-321). -/
def assignRef (dbg : Bool) (n : Nat) (dst src : Desc) : Exec T Unit := assignRefW dbg eltCopy n dst src

theorem assignRef_zero (dbg : Bool) (dst src : Desc) : (assignRef dbg 0 dst src : Exec T Unit) = (do
    let v ← load src.base
    assignCell dst.base v) := rfl

theorem assignRef_succ (dbg : Bool) (n : Nat) (dst src : Desc) : (assignRef dbg (n + 1) dst src : Exec T Unit) = (do
    assertE dbg (decide (src.extents.length = dst.extents.length))
    assertE dbg (decide (src.extents = dst.extents))
    let first ← Exec.lift src.begin
    let last ← Exec.lift src.end
    let out ← Exec.lift dst.begin
    stdCopy (fun i o => do
        let s ← Exec.lift (i.deref dbg)
        let d ← Exec.lift (o.deref dbg)
        assignRef dbg n d s)
      (last.sub first).toNat first out) := rfl

/-- `operator=(const Self&)` (multi_array_ref.hpp:490-502, subarray.hpp:243-254, view.hpp:310-321,
multi_array.hpp:427-432): guarded by `&other != this`; `sameObject` says whether the two objects are
one.  The other overload (from any ConstMultiArray) is `sameObject = false`. -/
def assignOpW (dbg sameObject : Bool) (elt : Ptr → Ptr → Exec T Unit) (dst src : Desc) : Exec T Unit :=
  if sameObject then pure () else assignRefW dbg elt dst.extents.length dst src

/-- `assignOpW` with plain element assignment (multi_array_ref.hpp:490-502, subarray.hpp:243-254, view.hpp:310-321, multi_array.hpp:427-432). -/
def assignOp (dbg sameObject : Bool) (dst src : Desc) : Exec T Unit :=
  if sameObject then pure () else assignRef dbg dst.extents.length dst src

theorem assignOp_eq (dbg sameObject : Bool) (dst src : Desc) :
    (assignOp dbg sameObject dst src : Exec T Unit) = assignOpW dbg sameObject eltCopy dst src := rfl

/-- `assign(begin,end)` (multi_array_ref.hpp:127-138): `in` is the input sequence; stops at its end or
after `num_elements_` elements. -/
def assignLoop : (count : Nat) → (out : Ptr) → (input : List T) → Exec T Unit
  | 0, _, _ => pure ()
  | _ + 1, _, [] => pure ()
  | n + 1, out, v :: vs => do
    assignCell out v
    assignLoop n (out.add 1) vs

/-- `const_multi_array_ref::assign` (multi_array_ref.hpp:127-138). -/
def ARef.assign (a : ARef) (input : List T) : Exec T Unit := assignLoop a.numElems a.base input

/-- The input iterators of `assign(begin,end)` (multi_array_ref.hpp:127-138) as the loop uses them: `atEnd q` is the test `!(in_iter != end)` and `next q` is
`*in_iter++` - a value, and the advanced iterator - for an iterator in state `q`.  Both may have effects (read the array's own memory, read a stream, throw). -/
structure InputIt (T σ : Type) where
  atEnd : σ → Exec T Bool
  next : σ → Exec T (T × σ)

/-- The loop of `assign(begin,end)` (multi_array_ref.hpp:131-137) over any input iterator; `count` is `num_elements_ - copy_count`.  The end test comes first in the
loop condition, so it is made once more after the last element.  The result is the final state of `in_iter`. -/
def assignLoopX {σ : Type} (it : InputIt T σ) : (count : Nat) → (out : Ptr) → σ → Exec T σ
  | 0, _, q => do
    let _ ← it.atEnd q
    pure q
  | n + 1, out, q => do
    if ← it.atEnd q then pure q
    else
      let r ← it.next q
      assignCell out r.1
      assignLoopX it n (out.add 1) r.2

/-- `const_multi_array_ref::assign` (multi_array_ref.hpp:127-138) with any input iterator. -/
def ARef.assignX {σ : Type} (a : ARef) (it : InputIt T σ) (first : σ) : Exec T σ := assignLoopX it a.numElems a.base first

/-- `array_iterator`s of a one-dimensional array as input iterators (iterator.hpp:119-145 `dereference`, `increment`, `equal`): `begin` up to `last`. -/
def InputIt.ofArray (dbg : Bool) (last : It) : InputIt T It where
  atEnd i := pure (i.equal last)
  next i := do
    let v ← load (← Exec.lift (i.deref dbg)).base
    pure (v, i.increment)

/-- `copy_dispatch::copy_array` (copy_array.hpp:29-50): elements are assigned (by `elt`), arrays are iterated, with
no shape check below the top level. -/
def copyDispatchW (dbg : Bool) (elt : Ptr → Ptr → Exec T Unit) : (n : Nat) → (src dst : Desc) → Exec T Unit
  | 0, src, dst => elt dst.base src.base
  | n + 1, src, dst => do
    let first ← Exec.lift src.begin
    let last ← Exec.lift src.end
    let out ← Exec.lift dst.begin
    stdCopy (fun i o => do
        let s ← Exec.lift (i.deref dbg)
        let d ← Exec.lift (o.deref dbg)
        copyDispatchW dbg elt n s d)
      (last.sub first).toNat first out

/-- `copyDispatchW` with plain element assignment (copy_array.hpp:29-50). -/
def copyDispatch (dbg : Bool) (n : Nat) (src dst : Desc) : Exec T Unit := copyDispatchW dbg eltCopy n src dst

theorem copyDispatch_zero (dbg : Bool) (src dst : Desc) : (copyDispatch dbg 0 src dst : Exec T Unit) = (do
    let v ← load src.base
    assignCell dst.base v) := rfl

theorem copyDispatch_succ (dbg : Bool) (n : Nat) (src dst : Desc) : (copyDispatch dbg (n + 1) src dst : Exec T Unit) = (do
    let first ← Exec.lift src.begin
    let last ← Exec.lift src.end
    let out ← Exec.lift dst.begin
    stdCopy (fun i o => do
        let s ← Exec.lift (i.deref dbg)
        let d ← Exec.lift (o.deref dbg)
        copyDispatch dbg n s d)
      (last.sub first).toNat first out) := rfl

/-- `copy_array(source,dest)` (copy_array.hpp:53-61), with the element assignment as a parameter. -/
def copyArrayW (dbg : Bool) (elt : Ptr → Ptr → Exec T Unit) (src dst : Desc) : Exec T Unit := do
  assertE dbg (decide (src.extents = dst.extents))
  copyDispatchW dbg elt src.extents.length src dst

/-- `copy_array(source,dest)` (copy_array.hpp:53-61). -/
def copyArray (dbg : Bool) (src dst : Desc) : Exec T Unit := do
  assertE dbg (decide (src.extents = dst.extents))
  copyDispatch dbg src.extents.length src dst

theorem copyArray_eq (dbg : Bool) (src dst : Desc) : (copyArray dbg src dst : Exec T Unit) = copyArrayW dbg eltCopy src dst := rfl

/-- `while (begin != end) { body(*begin); ++begin; }` for `n` steps (example/for_each.hpp:33-41); `q` is the state of the functor,
which `body` may change. -/
def stdForEach {σ : Type} (body : It → σ → Exec T σ) : (n : Nat) → (first : It) → (q : σ) → Exec T σ
  | 0, _, q => pure q
  | n + 1, first, q => do
    let q' ← body first q
    stdForEach body n first.increment q'

/-- `for_each(A, xform)` (example/for_each.hpp:21-50): recursion over the dimensions, `Val = xform(Val)` at the elements.  The functor is passed by
reference below the top level, so one functor object sees all calls: `f q v` is the call on `v` in state `q`, an arbitrary computation (it may read and
write memory, throw, fail) that returns the new value and the new state.  Returns the final state.  Simplification: the functor does not reindex,
reshape, resize or destroy the array being traversed. -/
def forEachX {σ : Type} (dbg : Bool) (f : σ → T → Exec T (T × σ)) : (n : Nat) → (a : Desc) → (q : σ) → Exec T σ
  | 0, a, q => do
    let v ← load a.base
    let r ← f q v
    assignCell a.base r.1
    pure r.2
  | n + 1, a, q => do
    let first ← Exec.lift a.begin
    let last ← Exec.lift a.end
    stdForEach (fun i q => do
        let s ← Exec.lift (i.deref dbg)
        forEachX dbg f n s q)
      (last.sub first).toNat first q

/-- `for_each(A, xform)` (example/for_each.hpp:21-50) with a functor that has state but no other effects. -/
def forEachAcc {σ : Type} (dbg : Bool) (f : σ → T → T × σ) (n : Nat) (a : Desc) (q : σ) : Exec T σ :=
  forEachX dbg (fun q v => pure (f q v)) n a q

/-- `for_each(A, xform)` (example/for_each.hpp:21-50) with a stateless functor. -/
def forEach (dbg : Bool) (f : T → T) (n : Nat) (a : Desc) : Exec T Unit := forEachAcc dbg (fun (_ : Unit) v => (f v, ())) n a ()

end MultiArray
