import Verif.Model.Iterator

/- Aliasing.  In C++ a `const_sub_array` and an `array_iterator` do not own their shape, stride and index base arrays:
they point into those of the array or view object they were obtained from (`extents+1, strides+1, index_bases+1`,
base.hpp:139), while `base_` is computed once.  The other model files copy the arrays (`Desc`); here the pointers are modelled, so
that later `reindex`/`reshape` calls on the owner, or its destruction, are visible through them.  Lemma `chain_agrees`
(Lemmas/Handles.lean) shows that the two models agree as long as the owner does not change. -/
set_option autoImplicit false

namespace MultiArray

/-- An object that stores `extent_list_`, `stride_list_` and `index_base_list_` itself: an array (multi_array_ref.hpp:349-356) or a
view (view.hpp:250-255). -/
inductive Obj where
  | array (a : ARef)
  | view (v : View)
deriving DecidableEq, Repr

/-- `origin(), shape(), strides(), index_bases()` of the object (multi_array_ref.hpp:193-198, view.hpp:106-112). -/
def Obj.desc : Obj → Desc
  | .array a => a.desc
  | .view v => v.desc

/-- The objects of a running program, by name; `none` where no object lives. -/
def Scope : Type := Nat → Option Obj

/-- Create, overwrite (`some`) or destroy (`none`) an object. -/
def Scope.set (sc : Scope) (x : Nat) (o : Option Obj) : Scope := fun y => if y = x then o else sc y

/-- `const_sub_array` / `sub_array` (subarray.hpp:186-189): `base_`, and the three pointers, which point `depth` entries into the
arrays of the object `owner`. -/
structure SubObj where
  base : Ptr
  owner : Nat
  depth : Nat
deriving DecidableEq, Repr

/-- What the members of a subarray denote now: `origin()` is `base_`, `shape()`, `strides()`, `index_bases()` read through the
pointers (subarray.hpp:155-162); undefined if the owner no longer exists. -/
def SubObj.desc (sc : Scope) (x : SubObj) : Res Desc :=
  match sc x.owner with
  | some o => .ok ⟨x.base, o.desc.extents.drop x.depth, o.desc.strides.drop x.depth, o.desc.bases.drop x.depth⟩
  | none => .ub

/-- `x[idx]` on an array or view object (multi_array_ref.hpp:221-225, view.hpp:130-135), via `value_accessor_n::access`
(base.hpp:129-141): the new subarray's pointers are the object's plus one. -/
def Scope.bracket (dbg : Bool) (sc : Scope) (x : Nat) (idx : Int) : Res SubObj :=
  match sc x with
  | some o => do
    let d ← access dbg idx o.desc
    .ok ⟨d.base, x, 1⟩
  | none => .ub

/-- `s[idx]` on a subarray (subarray.hpp:75-78) via `value_accessor_n::access` (base.hpp:129-141): the pointers advance by one. -/
def SubObj.bracket (dbg : Bool) (sc : Scope) (x : SubObj) (idx : Int) : Res SubObj := do
  let d ← access dbg idx (← x.desc sc)
  .ok ⟨d.base, x.owner, x.depth + 1⟩

/-- `s[i1]...[ik]` on a subarray (subarray.hpp:75-78). -/
def SubObj.chain (dbg : Bool) (sc : Scope) : List Int → SubObj → Res SubObj
  | [], x => .ok x
  | i :: is, x => do SubObj.chain dbg sc is (← x.bracket dbg sc i)

/-- `x[i1]...[ik]`, `k ≥ 1`, on an array or view object (multi_array_ref.hpp:221-225, view.hpp:130-135). -/
def Scope.chain (dbg : Bool) (sc : Scope) (x : Nat) (i : Int) (is : List Int) : Res SubObj := do
  SubObj.chain dbg sc is (← sc.bracket dbg x i)

/-- `s(indices)` on a subarray (subarray.hpp:80-87). -/
def SubObj.paren (dbg : Bool) (sc : Scope) (x : SubObj) (indices : List Int) : Res Ptr := do
  accessElement dbg indices (← x.desc sc)

/-- `s[index_gen]` on a subarray (subarray.hpp:90-103): the view gets its own arrays. -/
def SubObj.slice (dbg : Bool) (sc : Scope) (x : SubObj) (g : IndexGen) : Res View := do
  generateArrayView dbg g (← x.desc sc)

/-- `array_iterator` (iterator.hpp:83-87): `idx_`, `base_` and three pointers into the arrays of `owner`. -/
structure ItObj where
  idx : Int
  base : Ptr
  owner : Nat
  depth : Nat
deriving DecidableEq, Repr

/-- The arrays an iterator sees now (iterator.hpp:83-87). -/
def ItObj.desc (sc : Scope) (it : ItObj) : Res Desc := SubObj.desc sc ⟨it.base, it.owner, it.depth⟩

/-- `begin()` of an array or view object (multi_array_ref.hpp:243-246, view.hpp:152-155). -/
def Scope.begin (sc : Scope) (x : Nat) : Res ItObj :=
  match sc x with
  | some o => do
    let it ← o.desc.begin
    .ok ⟨it.idx, o.desc.base, x, 0⟩
  | none => .ub

/-- `end()` of an array or view object (multi_array_ref.hpp:248-251, view.hpp:157-160). -/
def Scope.end (sc : Scope) (x : Nat) : Res ItObj :=
  match sc x with
  | some o => do
    let it ← o.desc.end
    .ok ⟨it.idx, o.desc.base, x, 0⟩
  | none => .ub

/-- `*it` (iterator.hpp:120-129). -/
def ItObj.deref (dbg : Bool) (sc : Scope) (it : ItObj) : Res SubObj := do
  let d ← access dbg it.idx (← it.desc sc)
  .ok ⟨d.base, it.owner, it.depth + 1⟩

/-- `it + n` (iterator.hpp:147-150). -/
def ItObj.advance (it : ItObj) (n : Int) : ItObj := { it with idx := it.idx + n }

/-- The in-place modifiers of an array or view: `reindex` (multi_array_ref.hpp:147-162, view.hpp:83-96) and `reshape`
(multi_array_ref.hpp:164-178; arrays only). -/
inductive HdrOp where
  | reindex (bs : List Int)
  | reindexAll (b : Int)
  | reshape (dbg : Bool) (es : List Nat)
deriving DecidableEq, Repr

/-- Apply a modifier to an object (multi_array_ref.hpp:147-178, view.hpp:83-96). -/
def HdrOp.apply : HdrOp → Obj → Res Obj
  | .reindex bs, .array a => do .ok (.array (← a.reindexList bs))
  | .reindexAll b, .array a => .ok (.array (a.reindexAll b))
  | .reshape dbg es, .array a => do .ok (.array (← a.reshape dbg es))
  | .reindex bs, .view v => do .ok (.view (← v.reindexList bs))
  | .reindexAll b, .view v => .ok (.view (v.reindexAll b))
  | .reshape .., .view _ => .ub

/-- Apply a sequence of modifiers to the object named `x`. -/
def Scope.modify (x : Nat) : List HdrOp → Scope → Res Scope
  | [], sc => .ok sc
  | op :: ops, sc =>
    match sc x with
    | some o => do Scope.modify x ops (sc.set x (some (← op.apply o)))
    | none => .ub

end MultiArray
