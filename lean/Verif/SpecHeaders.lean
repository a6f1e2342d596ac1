import Verif.SpecConc
import Verif.Model.Headers

/-
Vocabulary for threads that share array and view objects (and not only their elements).  Nothing here models code of the library, except that `HThread.exec` calls the sequential model.
-/
set_option autoImplicit false

namespace MultiArray.Spec
open MultiArray
variable {T : Type}

/-- What the data members of an array or view are. -/
def Holding : Obj → Field → Option (Word T)
  | .array a, .base => some (.ptr a.base)
  | .array a, .originOffset => some (.int a.originOffset)
  | .array a, .numElems => some (.size a.numElems)
  | .array a, .extents => some (.sizes a.extents)
  | .array a, .strides => some (.indices a.strides)
  | .array a, .bases => some (.indices a.bases)
  | .array a, .storage => some (.order a.storage)
  | .array a, .directionalOffset => some (.int a.directionalOffset)
  | .view v, .base => some (.ptr v.base)
  | .view v, .originOffset => some (.int v.originOffset)
  | .view v, .numElems => some (.size v.numElems)
  | .view v, .extents => some (.sizes v.extents)
  | .view v, .strides => some (.indices v.strides)
  | .view v, .bases => some (.indices v.bases)
  | .view _, .storage => none
  | .view _, .directionalOffset => none

/-- The memory of block `x` is the object `o`. -/
def HoldsObj (m : St (Word T)) (x : Nat) (o : Obj) : Prop := ∀ f w, Holding o f = some w → m.get? (f.at x) = some w

/-- Every object of the scope is in memory, in the block with its name. -/
def HoldsAll (m : St (Word T)) (sc : Scope) : Prop := ∀ x o, sc x = some o → HoldsObj m x o

/-- The static type of an object. -/
def TypeOf : Obj → ObjType
  | .array a => ⟨false, a.numDims⟩
  | .view v => ⟨true, v.numDims⟩

/-- What an expression denotes, in the model with pointers of Model/Handles.lean. -/
def _root_.MultiArray.HRef.desc (sc : Scope) : HRef → Res Desc
  | .obj x => match sc x with
    | some o => .ok o.desc
    | none => .ub
  | .sub s => s.desc sc

/-- Apply a function to an element. -/
def onElem (f : T → T) : Word T → Word T
  | .elem v => .elem (f v)
  | w => w

/-- Compare two elements. -/
def onElems (f : T → T → Bool) : Word T → Word T → Bool
  | .elem v, .elem w => f v w
  | _, _ => false

/-- What a thread may do: read and write elements through arrays, views and subarrays, keep subarrays, make views, change the index bases and shapes of arrays and views, assign, copy,
transform and compare whole arrays; later actions may depend on the values read. -/
inductive HThread (T : Type) : Type where
  | done
  | read (o : HRef) (idx : List Int) (next : T → HThread T)
  | write (o : HRef) (idx : List Int) (v : T) (next : HThread T)
  /-- `auto&& s = o[i];` -/
  | bracket (o : HRef) (i : Int) (next : SubObj → HThread T)
  /-- `x.reindex(..)`, `x.reshape(..)`, `x` of static type `ty` -/
  | change (x : Nat) (ty : ObjType) (op : HdrOp) (next : HThread T)
  /-- `auto y = o[g];` -/
  | slice (o : HRef) (g : IndexGen) (y : Nat) (next : HThread T)
  /-- `dst = src;` on arrays of `n` dimensions -/
  | assign (n : Nat) (dst src : HRef) (next : HThread T)
  | copyArray (n : Nat) (src dst : HRef) (next : HThread T)
  | forEach (n : Nat) (o : HRef) (f : T → T) (next : HThread T)
  | equal (n : Nat) (a b : HRef) (eq : T → T → Bool) (next : Bool → HThread T)
  | less (n : Nat) (a b : HRef) (lt : T → T → Bool) (next : Bool → HThread T)

/-- The single accesses of the thread to memory. -/
def HThread.prog (dbg : Bool) : HThread T → Prog (Word T) Unit
  | .done => .ret ()
  | .read o idx k => o.readP dbg idx >>= fun v => (k v).prog dbg
  | .write o idx v k => o.writeP dbg idx v >>= fun _ => k.prog dbg
  | .bracket o i k => o.bracketP dbg i >>= fun s => (k s).prog dbg
  | .change x ty op k => op.prog x ty >>= fun _ => k.prog dbg
  | .slice o g y k => o.sliceP dbg g y >>= fun _ => k.prog dbg
  | .assign n dst src k => assignH dbg n dst src >>= fun _ => k.prog dbg
  | .copyArray n src dst k => copyArrayH dbg n src dst >>= fun _ => k.prog dbg
  | .forEach n o f k => forEachH dbg f n o >>= fun _ => k.prog dbg
  | .equal n a b eq k => equalH dbg eq n a b >>= fun r => (k r).prog dbg
  | .less n a b lt k => lessH dbg lt n a b >>= fun r => (k r).prog dbg

/-- The thread running alone, with the functions of the sequential model: the objects are in the scope, the elements in memory. -/
def HThread.exec (dbg : Bool) : HThread T → Scope → Exec (Word T) Scope
  | .done, sc => pure sc
  | .read o idx k, sc => do
    let d ← Exec.lift (o.desc sc)
    match ← readElem dbg d idx with
    | .elem v => (k v).exec dbg sc
    | _ => Exec.lift .ub
  | .write o idx v k, sc => do
    let d ← Exec.lift (o.desc sc)
    writeElem dbg d idx (.elem v)
    k.exec dbg sc
  | .bracket o i k, sc => do
    let d ← Exec.lift (o.desc sc)
    let r ← Exec.lift (access dbg i d)
    (k ⟨r.base, o.home, o.depth + 1⟩).exec dbg sc
  | .change x _ op k, sc =>
    match sc x with
    | some o => do
      let o' ← Exec.lift (op.apply o)
      k.exec dbg (sc.set x (some o'))
    | none => Exec.lift .ub
  | .slice o g y k, sc => do
    let d ← Exec.lift (o.desc sc)
    let v ← Exec.lift (generateArrayView dbg g d)
    k.exec dbg (sc.set y (some (.view v)))
  | .assign n dst src k, sc => do
    let d ← Exec.lift (dst.desc sc)
    let s ← Exec.lift (src.desc sc)
    assignRef dbg n d s
    k.exec dbg sc
  | .copyArray _ src dst k, sc => do
    let d ← Exec.lift (dst.desc sc)
    let s ← Exec.lift (src.desc sc)
    MultiArray.copyArray dbg s d
    k.exec dbg sc
  | .forEach n o f k, sc => do
    let d ← Exec.lift (o.desc sc)
    MultiArray.forEach dbg (onElem f) n d
    k.exec dbg sc
  | .equal n a b eq k, sc => do
    let d ← Exec.lift (a.desc sc)
    let e ← Exec.lift (b.desc sc)
    fun s => (do (k (← Exec.lift (equalRef dbg (onElems eq) s n d e))).exec dbg sc : Exec (Word T) Scope) s
  | .less n a b lt k, sc => do
    let d ← Exec.lift (a.desc sc)
    let e ← Exec.lift (b.desc sc)
    fun s => (do (k (← Exec.lift (lessRef dbg (onElems lt) s n d e))).exec dbg sc : Exec (Word T) Scope) s

/-- Run threads one after the other. -/
def execAllH (dbg : Bool) : List (HThread T) → Scope → Exec (Word T) Scope
  | [], sc => pure sc
  | t :: ts, sc => do execAllH dbg ts (← t.exec dbg sc)

/-- What a thread may use: the objects it may look at and those it may change, the elements it may read and those it may write. -/
structure Print where
  looks : Nat → Prop
  changes : Nat → Prop
  reads : Ptr → Prop
  writes : Ptr → Prop

/-- The thread's operations are legal when it runs alone from the scope `sc` (real arrays, in-range indices, equal shapes where required, legal modifications of the right static type) and, whatever
element values it reads, it stays inside `P`. -/
def HThread.Uses (P : Print) : HThread T → Scope → Prop
  | .done, _ => True
  | .read o idx k, sc => P.looks o.home ∧ ∃ d, o.desc sc = .ok d ∧ IsHandle d ∧ InBox d.bases d.extents idx ∧ P.reads (address d idx) ∧ ∀ v, (k v).Uses P sc
  | .write o idx _ k, sc => P.looks o.home ∧ ∃ d, o.desc sc = .ok d ∧ IsHandle d ∧ InBox d.bases d.extents idx ∧ P.writes (address d idx) ∧ k.Uses P sc
  | .bracket o i k, sc => P.looks o.home ∧ ∃ d r, o.desc sc = .ok d ∧ access true i d = .ok r ∧ (k ⟨r.base, o.home, o.depth + 1⟩).Uses P sc
  | .change x ty op k, sc => P.changes x ∧ ∃ o o', sc x = some o ∧ ty = TypeOf o ∧ op.apply o = .ok o' ∧ k.Uses P (sc.set x (some o'))
  | .slice o g y k, sc => P.looks o.home ∧ P.changes y ∧ ∃ d v u, o.desc sc = .ok d ∧ generateArrayView true g d = .ok v ∧ sc y = some (.view u) ∧ k.Uses P (sc.set y (some (.view v)))
  | .assign n dst src k, sc | .copyArray n src dst k, sc => P.looks dst.home ∧ P.looks src.home ∧ ∃ d s, dst.desc sc = .ok d ∧ src.desc sc = .ok s ∧ IsHandle d ∧ IsHandle s ∧
      d.extents.length = n ∧ s.extents = d.extents ∧ (∀ idx, InBox s.bases s.extents idx → P.reads (address s idx)) ∧ (∀ idx, InBox d.bases d.extents idx → P.writes (address d idx)) ∧ k.Uses P sc
  | .forEach n o _ k, sc => P.looks o.home ∧ ∃ d, o.desc sc = .ok d ∧ IsHandle d ∧ d.extents.length = n ∧
      (∀ idx, InBox d.bases d.extents idx → P.reads (address d idx) ∧ P.writes (address d idx)) ∧ k.Uses P sc
  | .equal n a b _ k, sc | .less n a b _ k, sc => P.looks a.home ∧ P.looks b.home ∧ ∃ d e, a.desc sc = .ok d ∧ b.desc sc = .ok e ∧ IsHandle d ∧ IsHandle e ∧ d.extents.length = n ∧ e.extents.length = n ∧
      (∀ idx, InBox d.bases d.extents idx → P.reads (address d idx)) ∧ (∀ idx, InBox e.bases e.extents idx → P.reads (address e idx)) ∧ ∀ r, (k r).Uses P sc

/-- The threads are separate: no element written by one is used by another, and no object changed by one is looked at or changed by another. -/
def SeparatePrints (Ps : List Print) : Prop :=
  ∀ (i j : Nat) P Q, i ≠ j → Ps[i]? = some P → Ps[j]? = some Q →
    (∀ p, P.writes p → ¬ Q.reads p ∧ ¬ Q.writes p) ∧ (∀ x, P.changes x → ¬ Q.looks x ∧ ¬ Q.changes x)

/-- The hypotheses of C105: the threads are legal and separate; all objects they use are in memory; the elements they use are live element objects outside the objects; element operations do not throw. -/
structure SeparatedH (ts : List (HThread T)) (Ps : List Print) (sc : Scope) (m : St (Word T)) : Prop where
  len : ts.length = Ps.length
  uses : ∀ (i : Nat) t P, ts[i]? = some t → Ps[i]? = some P → t.Uses P sc
  separate : SeparatePrints Ps
  objects : HoldsAll m sc
  elements : ∀ (i : Nat) P, Ps[i]? = some P → ∀ p, P.reads p ∨ P.writes p → sc p.blk = none ∧ ∃ v, m.get? p = some (.elem v)
  nothrow : m.sched = []

end MultiArray.Spec
