import Verif.Model.Steps
import Verif.Model.Handles

/-
Array and view objects in shared memory.  Here the data members of arrays and views (`base_`, `origin_offset_`, `extent_list_`, ...) are memory cells like the elements, and the
library functions are programs (`Prog`, Model/Steps.lean) that read and write these cells one at a time, so that executions of several threads can be interleaved member
access by member access.  Simplifications: a `boost::array` member is one cell, and reading one of its entries reads the cell; `operator()`, `operator[]`, `*it` and the shape check of assignments read the extents
(and index bases) also in builds without assertions.  Both can only make threads conflict more.
-/
set_option autoImplicit false

namespace MultiArray
variable {T : Type}

/-- What a memory cell holds: an element or a data member (multi_array_ref.hpp:349-356, view.hpp:250-255). -/
inductive Word (T : Type) where
  | elem (v : T)
  | ptr (p : Ptr)
  | int (z : Int)
  | size (n : Nat)
  | sizes (l : List Nat)
  | indices (l : List Int)
  | order (so : StorageOrder)
deriving DecidableEq, Repr

/-- The data members (multi_array_ref.hpp:349-356, view.hpp:250-255). -/
inductive Field where
  | base | originOffset | numElems | extents | strides | bases | storage | directionalOffset
deriving DecidableEq, Repr

/-- The cell of a member inside the object (its place in the object does not matter). -/
def Field.place : Field → Int
  | .base => 0 | .originOffset => 1 | .numElems => 2 | .extents => 3 | .strides => 4 | .bases => 5 | .storage => 6 | .directionalOffset => 7

/-- Where member `m` of the object that lives in block `x` is stored. -/
def Field.at (m : Field) (x : Nat) : Ptr := ⟨x, m.place⟩

/-- Read a member of pointer type. -/
def getPtr (x : Nat) (m : Field) : Prog (Word T) Ptr := do
  match ← Prog.get (m.at x) with
  | .ptr p => pure p
  | _ => Prog.ub
/-- Read a member of type `index`. -/
def getInt (x : Nat) (m : Field) : Prog (Word T) Int := do
  match ← Prog.get (m.at x) with
  | .int z => pure z
  | _ => Prog.ub
/-- Read a member of type `size_type`. -/
def getSize (x : Nat) (m : Field) : Prog (Word T) Nat := do
  match ← Prog.get (m.at x) with
  | .size n => pure n
  | _ => Prog.ub
/-- Read a member of type `size_list`. -/
def getSizes (x : Nat) (m : Field) : Prog (Word T) (List Nat) := do
  match ← Prog.get (m.at x) with
  | .sizes l => pure l
  | _ => Prog.ub
/-- Read a member of type `index_list`. -/
def getIndices (x : Nat) (m : Field) : Prog (Word T) (List Int) := do
  match ← Prog.get (m.at x) with
  | .indices l => pure l
  | _ => Prog.ub
/-- Read the storage order. -/
def getOrder (x : Nat) : Prog (Word T) StorageOrder := do
  match ← Prog.get (Field.storage.at x) with
  | .order so => pure so
  | _ => Prog.ub

/-- `origin()`, `shape()`, `strides()`, `index_bases()` of an array or view object (multi_array_ref.hpp:185-206, view.hpp:104-118). -/
def objDescP (x : Nat) : Prog (Word T) Desc := do
  let b ← getPtr x .base
  let off ← getInt x .originOffset
  let es ← getSizes x .extents
  let ss ← getIndices x .strides
  let bs ← getIndices x .bases
  pure ⟨b.add off, es, ss, bs⟩

/-- The same of a subarray object (subarray.hpp:155-162): `base_` is its own, the lists are those of the owner. -/
def subDescP (s : SubObj) : Prog (Word T) Desc := do
  let es ← getSizes s.owner .extents
  let ss ← getIndices s.owner .strides
  let bs ← getIndices s.owner .bases
  pure ⟨s.base, es.drop s.depth, ss.drop s.depth, bs.drop s.depth⟩

/-- An expression for an array: a named array or view, or a subarray the thread holds. -/
inductive HRef where
  | obj (x : Nat)
  | sub (s : SubObj)
deriving DecidableEq, Repr

/-- Its origin, shape, strides and index bases (multi_array_ref.hpp:185-206, view.hpp:104-118, subarray.hpp:155-162). -/
def HRef.descP : HRef → Prog (Word T) Desc
  | .obj x => objDescP x
  | .sub s => subDescP s

/-- The object whose members it reads. -/
def HRef.home : HRef → Nat
  | .obj x => x
  | .sub s => s.owner

/-- How far its lists lie inside those of the object. -/
def HRef.depth : HRef → Nat
  | .obj _ => 0
  | .sub s => s.depth

/-- `o(idx)` read as a value (multi_array_ref.hpp:211-218, subarray.hpp:80-87, view.hpp:120-127). -/
def HRef.readP (dbg : Bool) (o : HRef) (idx : List Int) : Prog (Word T) T := do
  let d ← o.descP
  match ← readElemP dbg d idx with
  | .elem v => pure v
  | _ => Prog.ub

/-- `o(idx) = v` (multi_array_ref.hpp:508-516, subarray.hpp:280-288, view.hpp:325-333). -/
def HRef.writeP (dbg : Bool) (o : HRef) (idx : List Int) (v : T) : Prog (Word T) Unit := do
  let d ← o.descP
  writeElemP dbg d idx (.elem v)

/-- `o[i]` as a new subarray object (multi_array_ref.hpp:221-225, view.hpp:130-135, subarray.hpp:75-78, via base.hpp:129-141). -/
def HRef.bracketP (dbg : Bool) (o : HRef) (i : Int) : Prog (Word T) SubObj := do
  let d ← o.descP
  let r ← Prog.lift (access dbg i d)
  pure ⟨r.base, o.home, o.depth + 1⟩

/-- The static type of an object: view or array, and `NumDims`. -/
structure ObjType where
  isView : Bool
  numDims : Nat
deriving DecidableEq, Repr

/-- `reindex` after the index bases are determined: `index_base_list_` is written, then `origin_offset_` is computed from the members
(multi_array_ref.hpp:151-154, 158-161; view.hpp:87-90, 93-95). -/
def setBasesP (x : Nat) (ty : ObjType) (bs : List Int) : Prog (Word T) Unit := do
  Prog.put (Field.bases.at x) (.indices bs)
  let ss ← getIndices x .strides
  if ty.isView then do
    let bs ← getIndices x .bases
    Prog.put (Field.originOffset.at x) (.int (calcIndexingOffset ss bs))
  else do
    let es ← getSizes x .extents
    let so ← getOrder x
    let bs ← getIndices x .bases
    Prog.put (Field.originOffset.at x) (.int (calcOriginOffset ss es so bs))

/-- `reshape` (multi_array_ref.hpp:164-178). -/
def reshapeP (dbg : Bool) (x : Nat) (exts : List Nat) : Prog (Word T) Unit := do
  let ne ← getSize x .numElems
  Prog.lift (Res.assert dbg (decide (ne = product exts)))
  let old ← getSizes x .extents
  let es ← Prog.lift (copyPrefix exts old)
  Prog.put (Field.extents.at x) (.sizes es)
  let ss ← getIndices x .strides
  let es ← getSizes x .extents
  let so ← getOrder x
  let ss' ← Prog.lift (computeStrides ss es so)
  Prog.put (Field.strides.at x) (.indices ss')
  let ss ← getIndices x .strides
  let es ← getSizes x .extents
  let bs ← getIndices x .bases
  Prog.put (Field.originOffset.at x) (.int (calcOriginOffset ss es so bs))

/-- The in-place modifiers on an object of static type `ty` (multi_array_ref.hpp:147-178, view.hpp:83-96), cf. `HdrOp.apply`. -/
def HdrOp.prog (x : Nat) (ty : ObjType) : HdrOp → Prog (Word T) Unit
  | .reindex bs => do
    let bs ← Prog.lift (copyN bs ty.numDims)
    setBasesP x ty bs
  | .reindexAll b => setBasesP x ty (List.replicate ty.numDims b)
  | .reshape dbg es => if ty.isView then Prog.ub else reshapeP dbg x es

/-- `view y = o[g];` (multi_array_ref.hpp:228-241, subarray.hpp:90-103, view.hpp:138-150, constructor view.hpp:229-247): the members of the view object are initialised; what the memory of `y` held
before does not matter. -/
def HRef.sliceP (dbg : Bool) (o : HRef) (g : IndexGen) (y : Nat) : Prog (Word T) Unit := do
  let d ← o.descP
  let v ← Prog.lift (generateArrayView dbg g d)
  Prog.put (Field.base.at y) (.ptr v.base)
  Prog.put (Field.originOffset.at y) (.int v.originOffset)
  Prog.put (Field.bases.at y) (.indices v.bases)
  Prog.put (Field.extents.at y) (.sizes v.extents)
  Prog.put (Field.strides.at y) (.indices v.strides)
  Prog.put (Field.numElems.at y) (.size v.numElems)

/-! ### Algorithms

They work on iterators (`ItObj`, Model/Handles.lean), which hold pointers to the extents, strides and index bases of the array or view; every dereferencing reads these again. -/

/-- `origin()` (multi_array_ref.hpp:185-187, view.hpp:104, subarray.hpp:155). -/
def HRef.originP : HRef → Prog (Word T) Ptr
  | .obj x => do
    let b ← getPtr x .base
    let off ← getInt x .originOffset
    pure (b.add off)
  | .sub s => pure s.base

/-- The extents `shape()` points to (multi_array_ref.hpp:196-198, view.hpp:109, subarray.hpp:157). -/
def HRef.shapeP (o : HRef) : Prog (Word T) (List Nat) := do
  let es ← getSizes o.home .extents
  pure (es.drop o.depth)

/-- `begin()` (multi_array_ref.hpp:243-246, 543-546; subarray.hpp:137-140, 290-293; view.hpp:152-155, 360-364). -/
def HRef.beginP (o : HRef) : Prog (Word T) ItObj := do
  let bs ← getIndices o.home .bases
  let b ← Prog.lift (Res.get (bs.drop o.depth) 0)
  let p ← o.originP
  pure ⟨b, p, o.home, o.depth⟩

/-- `end()` (multi_array_ref.hpp:248-251, 548-552; subarray.hpp:142-145, 295-298; view.hpp:157-160, 366-370). -/
def HRef.endP (o : HRef) : Prog (Word T) ItObj := do
  let bs ← getIndices o.home .bases
  let b ← Prog.lift (Res.get (bs.drop o.depth) 0)
  let es ← getSizes o.home .extents
  let e ← Prog.lift (Res.get (es.drop o.depth) 0)
  let p ← o.originP
  pure ⟨b + (e : Int), p, o.home, o.depth⟩

/-- `*it` (iterator.hpp:120-129, base.hpp:129-141): the extents, strides and index bases are read through the iterator's pointers. -/
def _root_.MultiArray.ItObj.derefP (dbg : Bool) (it : ItObj) : Prog (Word T) HRef := do
  let d ← subDescP ⟨it.base, it.owner, it.depth⟩
  let r ← Prog.lift (access dbg it.idx d)
  pure (.sub ⟨r.base, it.owner, it.depth + 1⟩)

/-- `std::copy` on array iterators, cf. `stdCopyP`. -/
def stdCopyH (body : ItObj → ItObj → Prog (Word T) Unit) : (n : Nat) → (first out : ItObj) → Prog (Word T) Unit
  | 0, _, _ => pure ()
  | n + 1, first, out => do
    body first out
    stdCopyH body n (first.advance 1) (out.advance 1)

/-- `dst = src`, `NumDims = n` (multi_array_ref.hpp:475-502, subarray.hpp:228-254, view.hpp:294-321). -/
def assignH (dbg : Bool) : (n : Nat) → (dst src : HRef) → Prog (Word T) Unit
  | 0, dst, src => do
    let p ← src.originP
    let v ← Prog.get p
    let q ← dst.originP
    Prog.put q v
  | n + 1, dst, src => do
    let es ← src.shapeP
    let ed ← dst.shapeP
    Prog.lift (Res.assert dbg (decide (es.length = ed.length)))
    Prog.lift (Res.assert dbg (decide (es = ed)))
    let first ← src.beginP
    let last ← src.endP
    let out ← dst.beginP
    stdCopyH (fun i o => do
        let s ← i.derefP dbg
        let d ← o.derefP dbg
        assignH dbg n d s)
      (last.idx - first.idx).toNat first out

/-- `copy_dispatch::copy_array` (copy_array.hpp:29-50). -/
def copyDispatchH (dbg : Bool) : (n : Nat) → (src dst : HRef) → Prog (Word T) Unit
  | 0, src, dst => do
    let p ← src.originP
    let v ← Prog.get p
    let q ← dst.originP
    Prog.put q v
  | n + 1, src, dst => do
    let first ← src.beginP
    let last ← src.endP
    let out ← dst.beginP
    stdCopyH (fun i o => do
        let s ← i.derefP dbg
        let d ← o.derefP dbg
        copyDispatchH dbg n s d)
      (last.idx - first.idx).toNat first out

/-- `copy_array(source,dest)` (copy_array.hpp:53-61). -/
def copyArrayH (dbg : Bool) (n : Nat) (src dst : HRef) : Prog (Word T) Unit := do
  let es ← src.shapeP
  let ed ← dst.shapeP
  Prog.lift (Res.assert dbg (decide (es = ed)))
  copyDispatchH dbg n src dst

/-- A function on elements, as one on cells. -/
def Word.map (f : T → T) : Word T → Word T
  | .elem v => .elem (f v)
  | w => w

/-- The loop of example/for_each.hpp:33-41. -/
def stdForEachH (body : ItObj → Prog (Word T) Unit) : (n : Nat) → (first : ItObj) → Prog (Word T) Unit
  | 0, _ => pure ()
  | n + 1, first => do
    body first
    stdForEachH body n (first.advance 1)

/-- `for_each(o,f)` (example/for_each.hpp:21-50). -/
def forEachH (dbg : Bool) (f : T → T) : (n : Nat) → (o : HRef) → Prog (Word T) Unit
  | 0, o => do
    let p ← o.originP
    let v ← Prog.get p
    Prog.put p (Word.map f v)
  | n + 1, o => do
    let first ← o.beginP
    let last ← o.endP
    stdForEachH (fun i => do
        let s ← i.derefP dbg
        forEachH dbg f n s)
      (last.idx - first.idx).toNat first

/-- A comparison of elements, as one of cells. -/
def Word.cmp (f : T → T → Bool) : Word T → Word T → Bool
  | .elem v, .elem w => f v w
  | _, _ => false

/-- `std::equal` on array iterators, cf. `stdEqualP`. -/
def stdEqualH (eqv : ItObj → ItObj → Prog (Word T) Bool) : (n : Nat) → (first1 first2 : ItObj) → Prog (Word T) Bool
  | 0, _, _ => pure true
  | n + 1, i, j => do
    if ← eqv i j then stdEqualH eqv n (i.advance 1) (j.advance 1) else pure false

/-- `operator==` (multi_array_ref.hpp:262-271, subarray.hpp:110-115, view.hpp:171-180). -/
def equalH (dbg : Bool) (eq : T → T → Bool) : (n : Nat) → (a b : HRef) → Prog (Word T) Bool
  | 0, a, b => do
    let p ← a.originP
    let x ← Prog.get p
    let q ← b.originP
    let y ← Prog.get q
    pure (Word.cmp eq x y)
  | n + 1, a, b => do
    let ea ← a.shapeP
    let eb ← b.shapeP
    if ea = eb then
      let first ← a.beginP
      let last ← a.endP
      let first2 ← b.beginP
      stdEqualH (fun i j => do
          let x ← i.derefP dbg
          let y ← j.derefP dbg
          equalH dbg eq n x y)
        (last.idx - first.idx).toNat first first2
    else pure false

/-- `std::lexicographical_compare` on array iterators, cf. `stdLexCompareP`. -/
def stdLexCompareH (lt : ItObj → ItObj → Prog (Word T) Bool) : (n m : Nat) → (i j : ItObj) → Prog (Word T) Bool
  | _, 0, _, _ => pure false
  | 0, _ + 1, _, _ => pure true
  | n + 1, m + 1, i, j => do
    if ← lt i j then pure true
    else if ← lt j i then pure false
    else stdLexCompareH lt n m (i.advance 1) (j.advance 1)

/-- `operator<` (multi_array_ref.hpp:273-278, subarray.hpp:105-108, view.hpp:182-187). -/
def lessH (dbg : Bool) (lt : T → T → Bool) : (n : Nat) → (a b : HRef) → Prog (Word T) Bool
  | 0, a, b => do
    let p ← a.originP
    let x ← Prog.get p
    let q ← b.originP
    let y ← Prog.get q
    pure (Word.cmp lt x y)
  | n + 1, a, b => do
    let first ← a.beginP
    let last ← a.endP
    let first2 ← b.beginP
    let last2 ← b.endP
    stdLexCompareH (fun i j => do
        let x ← i.derefP dbg
        let y ← j.derefP dbg
        lessH dbg lt n x y)
      (last.idx - first.idx).toNat (last2.idx - first2.idx).toNat first first2

end MultiArray
