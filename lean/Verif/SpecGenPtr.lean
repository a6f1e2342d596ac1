import Verif.Spec
import Verif.Model.GenPtr

/- References over arbitrary pointer types: histories, and three sorts of pointer type.  Nothing here models library code. -/
set_option autoImplicit false

namespace MultiArray.Spec
open MultiArray

/-- A public constructor of `const_multi_array_ref`, with all arguments but the pointer. -/
inductive RefCtor where
  | extents (n : Nat) (exts : List Nat) (so : StorageOrder)
  | ranges (g : ExtentGen) (so : StorageOrder)

/-- A call that changes a `const_multi_array_ref` in place. -/
inductive RefStep where
  | reindexList (bs : List Int)
  | reindexAll (b : Int)
  | reshape (exts : List Nat)

/-- The constructor over the plain pointer `q`. -/
def RefCtor.plain (q : Ptr) : RefCtor → Res ARef
  | .extents n exts so => ARef.ofExtents n q exts so
  | .ranges g so => ARef.ofExtentGen q g so

/-- The constructor over a pointer `p` of any type. -/
def RefCtor.over {P : Type} (p : P) : RefCtor → Res (GRef P)
  | .extents n exts so => GRef.ofExtents n p exts so
  | .ranges g so => GRef.ofExtentGen p g so

/-- The call on a reference over a plain pointer. -/
def RefStep.plain (dbg : Bool) (a : ARef) : RefStep → Res ARef
  | .reindexList bs => a.reindexList bs
  | .reindexAll b => .ok (a.reindexAll b)
  | .reshape exts => a.reshape dbg exts

/-- The call on a reference over a pointer of any type. -/
def RefStep.over {P : Type} (dbg : Bool) (g : GRef P) : RefStep → Res (GRef P)
  | .reindexList bs => g.reindexList bs
  | .reindexAll b => .ok (g.reindexAll b)
  | .reshape exts => g.reshape dbg exts

/-- Construct over the plain pointer `q`, then make the calls in order. -/
def plainHistory (dbg : Bool) (q : Ptr) (c : RefCtor) (steps : List RefStep) : Res ARef := do
  steps.foldlM (RefStep.plain dbg) (← c.plain q)

/-- The same over a pointer `p` of any type. -/
def history {P : Type} (dbg : Bool) (p : P) (c : RefCtor) (steps : List RefStep) : Res (GRef P) := do
  steps.foldlM (RefStep.over dbg) (← c.over p)

/-- `g` and `a` cannot be told apart by any const member function or by comparison with other arrays: `origin`, `data`, the size queries, element access,
subarrays, views and iterators. -/
structure Indistinguishable {P : Type} (τ : PtrType P) (g : GRef P) (a : ARef) : Prop where
  data : g.data τ = .ok a.data
  origin : g.origin τ = .ok a.origin
  extents : g.extents = a.extents
  strides : g.strides = a.strides
  bases : g.bases = a.bases
  storage : g.storage = a.storage
  numElems : g.numElems = a.numElems
  paren : ∀ dbg idx, g.paren τ dbg idx = a.paren dbg idx
  bracket : ∀ dbg i, g.bracket τ dbg i = a.bracket dbg i
  slice : ∀ dbg ix, g.slice τ dbg ix = a.slice dbg ix
  «begin» : g.begin τ = a.desc.begin
  «end» : g.end τ = a.desc.end

/-- A pointer type whose addition and conversion never refuse and commute: converting `p + k` gives the address `k` elements after that of `p`.  (`T*`,
`boost::interprocess::offset_ptr<T>`, an unchecked iterator of a `std::vector`.) -/
def Linear {P : Type} (τ : PtrType P) : Prop :=
  ∀ p, ∃ q, τ.conv p = .ok q ∧ ∀ k, ∃ p', τ.plus p k = .ok p' ∧ τ.conv p' = .ok (q.add k)

/-- A bounds-checked pointer into a block of `len` elements: its position. -/
structure Checked where
  blk : Nat
  len : Nat
  pos : Int
deriving DecidableEq, Repr

/-- The bounds-checked pointer type: adding traps (`ub`) unless the result is a position of the block or its end. -/
def checked : PtrType Checked :=
  ⟨fun p k => if 0 ≤ p.pos + k ∧ p.pos + k ≤ (p.len : Int) then .ok { p with pos := p.pos + k } else .ub, fun p => .ok ⟨p.blk, p.pos⟩⟩

/-- A `const T*` as pointer type. -/
def plainPtr : PtrType Ptr := ⟨fun p k => .ok (p.add k), .ok⟩

/-- A pointer into storage that is split into blocks of `chunk` elements, as an iterator of a `std::deque` is: position `k` is entry `k % chunk` of
block `k / chunk + 1`. -/
def segmented (chunk : Nat) : PtrType Nat :=
  ⟨fun k n => if 0 ≤ (k : Int) + n then .ok ((k : Int) + n).toNat else .ub, fun k => .ok ⟨k / chunk + 1, (k % chunk : Nat)⟩⟩

end MultiArray.Spec
