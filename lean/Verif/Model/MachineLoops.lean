import Verif.Model.Loops
import Verif.Model.MachineOps

/- The loops over iterators (`first != last`, as in Loops.lean) in 64-bit arithmetic: `begin`, `end`, `++` and `*` are those of MachineIt.lean, so an overflow of an index is `ub`. -/
set_option autoImplicit false

namespace MultiArray.Machine
variable {T : Type}

/-- `while (first != last) { copy_array(*first++,*result++); }` (copy_array.hpp:34-36); also `std::copy` (external). -/
def copyLoop (body : It → It → Exec T (Option Unit)) : (fuel : Nat) → (first last result : It) → Exec T (Option Unit)
  | 0, first, last, _ => pure (if first.equal last then some () else none)
  | fuel + 1, first, last, result =>
    if first.equal last then pure (some ()) else do
      match ← body first result with
      | some _ =>
        let first' ← Exec.lift (increment first)
        let result' ← Exec.lift (increment result)
        copyLoop body fuel first' last result'
      | none => pure none

/-- `copy_dispatch::copy_array` (copy_array.hpp:29-50). -/
def copyDispatchLoop (dbg : Bool) (elt : Ptr → Ptr → Exec T Unit) (fuel : Nat) : (n : Nat) → (src dst : Desc) → Exec T (Option Unit)
  | 0, src, dst => do
    elt dst.base src.base
    pure (some ())
  | n + 1, src, dst => do
    let first ← Exec.lift (begin src)
    let last ← Exec.lift («end» src)
    let out ← Exec.lift (begin dst)
    copyLoop (fun i o => do
        let s ← Exec.lift (deref dbg i)
        let d ← Exec.lift (deref dbg o)
        copyDispatchLoop dbg elt fuel n s d)
      fuel first last out

/-- `copy_array(source,dest)` (copy_array.hpp:53-61). -/
def copyArrayLoop (dbg : Bool) (elt : Ptr → Ptr → Exec T Unit) (fuel : Nat) (src dst : Desc) : Exec T (Option Unit) := do
  assertE dbg (decide (src.extents = dst.extents))
  copyDispatchLoop dbg elt fuel src.extents.length src dst

/-- The body of the `operator=` family (multi_array_ref.hpp:475-502, subarray.hpp:228-254, view.hpp:294-321). -/
def assignRefLoop (dbg : Bool) (elt : Ptr → Ptr → Exec T Unit) (fuel : Nat) : (n : Nat) → (dst src : Desc) → Exec T (Option Unit)
  | 0, dst, src => do
    elt dst.base src.base
    pure (some ())
  | n + 1, dst, src => do
    assertE dbg (decide (src.extents.length = dst.extents.length))
    assertE dbg (decide (src.extents = dst.extents))
    let first ← Exec.lift (begin src)
    let last ← Exec.lift («end» src)
    let out ← Exec.lift (begin dst)
    copyLoop (fun i o => do
        let s ← Exec.lift (deref dbg i)
        let d ← Exec.lift (deref dbg o)
        assignRefLoop dbg elt fuel n d s)
      fuel first last out

/-- `operator=` (multi_array_ref.hpp:475-502, subarray.hpp:228-254, view.hpp:294-321, multi_array.hpp:427-432). -/
def assignOpLoop (dbg sameObject : Bool) (elt : Ptr → Ptr → Exec T Unit) (fuel : Nat) (dst src : Desc) : Exec T (Option Unit) :=
  if sameObject then pure (some ()) else assignRefLoop dbg elt fuel dst.extents.length dst src

/-- `while (begin != end) { for_each(type_dispatch,*begin,xform); ++begin; }` (example/for_each.hpp:38-41). -/
def forEachLoop {σ : Type} (body : It → σ → Exec T (Option σ)) : (fuel : Nat) → (first last : It) → (q : σ) → Exec T (Option σ)
  | 0, first, last, q => pure (if first.equal last then some q else none)
  | fuel + 1, first, last, q =>
    if first.equal last then pure (some q) else do
      match ← body first q with
      | some q' =>
        let first' ← Exec.lift (increment first)
        forEachLoop body fuel first' last q'
      | none => pure none

/-- `for_each(A, xform)` (example/for_each.hpp:21-50). -/
def forEachXLoop {σ : Type} (dbg : Bool) (f : σ → T → Exec T (T × σ)) (fuel : Nat) : (n : Nat) → (a : Desc) → (q : σ) → Exec T (Option σ)
  | 0, a, q => do
    let v ← load a.base
    let r ← f q v
    assignCell a.base r.1
    pure (some r.2)
  | n + 1, a, q => do
    let first ← Exec.lift (begin a)
    let last ← Exec.lift («end» a)
    forEachLoop (fun i q => do
        let s ← Exec.lift (deref dbg i)
        forEachXLoop dbg f fuel n s q)
      fuel first last q

/-- `std::equal` by comparison of iterators (external), whose `++` is iterator.hpp:131. -/
def equalLoop (eqv : It → It → Exec T (Option Bool)) : (fuel : Nat) → (first1 last1 first2 : It) → Exec T (Option Bool)
  | 0, first1, last1, _ => pure (if first1.equal last1 then some true else none)
  | fuel + 1, first1, last1, first2 =>
    if first1.equal last1 then pure (some true) else do
      match ← eqv first1 first2 with
      | some true =>
        let first1' ← Exec.lift (increment first1)
        let first2' ← Exec.lift (increment first2)
        equalLoop eqv fuel first1' last1 first2'
      | some false => pure (some false)
      | none => pure none

/-- `operator==` (multi_array_ref.hpp:262-271, subarray.hpp:110-115, view.hpp:171-180). -/
def equalRefLoop (dbg : Bool) (elt : Ptr → Ptr → Exec T Bool) (fuel : Nat) : (n : Nat) → (a b : Desc) → Exec T (Option Bool)
  | 0, a, b => do
    let r ← elt a.base b.base
    pure (some r)
  | n + 1, a, b =>
    if a.extents = b.extents then do
      let first ← Exec.lift (begin a)
      let last ← Exec.lift («end» a)
      let first2 ← Exec.lift (begin b)
      equalLoop (fun i j => do
          let x ← Exec.lift (deref dbg i)
          let y ← Exec.lift (deref dbg j)
          equalRefLoop dbg elt fuel n x y) fuel first last first2
    else pure (some false)

/-- `std::lexicographical_compare` by comparison of iterators (external), whose `++` is iterator.hpp:131. -/
def lexLoop (lt : It → It → Exec T (Option Bool)) : (fuel : Nat) → (first1 last1 first2 last2 : It) → Exec T (Option Bool)
  | 0, first1, last1, first2, last2 =>
    pure (if !(first1.equal last1) && !(first2.equal last2) then none else some (first1.equal last1 && !(first2.equal last2)))
  | fuel + 1, first1, last1, first2, last2 =>
    if !(first1.equal last1) && !(first2.equal last2) then do
      match ← lt first1 first2 with
      | some true => pure (some true)
      | some false =>
        match ← lt first2 first1 with
        | some true => pure (some false)
        | some false =>
          let first1' ← Exec.lift (increment first1)
          let first2' ← Exec.lift (increment first2)
          lexLoop lt fuel first1' last1 first2' last2
        | none => pure none
      | none => pure none
    else pure (some (first1.equal last1 && !(first2.equal last2)))

/-- `operator<` (multi_array_ref.hpp:273-278, subarray.hpp:105-108, view.hpp:182-187). -/
def lessRefLoop (dbg : Bool) (elt : Ptr → Ptr → Exec T Bool) (fuel : Nat) : (n : Nat) → (a b : Desc) → Exec T (Option Bool)
  | 0, a, b => do
    let r ← elt a.base b.base
    pure (some r)
  | n + 1, a, b => do
    let first ← Exec.lift (begin a)
    let last ← Exec.lift («end» a)
    let first2 ← Exec.lift (begin b)
    let last2 ← Exec.lift («end» b)
    lexLoop (fun i j => do
        let x ← Exec.lift (deref dbg i)
        let y ← Exec.lift (deref dbg j)
        lessRefLoop dbg elt fuel n x y) fuel first last first2 last2

/-- The converting constructors (multi_array.hpp:246-281, 354-417), as `mkConvert` in MachineOps.lean, with `std::copy` implemented by comparison. -/
def mkConvertLoop (dbg : Bool) (dflt : T) (fuel : Nat) (rhs : Desc) (so : StorageOrder) (alloc : Nat) : Exec T (Option MArr) := do
  let ref ← Exec.lift (ofShape rhs.extents.length Ptr.null so (some rhs.bases) (some rhs.extents))
  let a ← MArr.allocateSpace dflt ref alloc
  let first ← Exec.lift (begin rhs)
  let last ← Exec.lift («end» rhs)
  let out ← Exec.lift (begin a.ref.desc)
  match ← copyLoop (fun i o => do
      let s ← Exec.lift (deref dbg i)
      let d ← Exec.lift (deref dbg o)
      assignRefLoop dbg eltCopy fuel (rhs.extents.length - 1) d s) fuel first last out with
  | some _ => pure (some a)
  | none => pure none

end MultiArray.Machine
