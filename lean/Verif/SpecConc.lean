import Verif.SpecMem
import Verif.Model.Steps

/- Vocabulary for statements about threads.  Nothing here models code of the library. -/
set_option autoImplicit false

namespace MultiArray.Spec
open MultiArray
variable {T : Type}

/-- Threads sharing one memory; each is what remains of its program. -/
structure Pool (T : Type) where
  mem : St T
  threads : List (Prog T Unit)

/-- Thread `i` performs its next element access.  There is no step for an access to something that is not a live object, nor for a failed assertion: such
a pool is stuck. -/
inductive Step : Pool T → Nat → Pool T → Prop
  | load {m : St T} {ts : List (Prog T Unit)} {i : Nat} {p : Ptr} {k : T → Prog T Unit} {v : T} :
      ts[i]? = some (.load p k) → m.get? p = some v → Step ⟨m, ts⟩ i ⟨m, ts.set i (k v)⟩
  | store {m : St T} {ts : List (Prog T Unit)} {i : Nat} {p : Ptr} {v w : T} {k : Prog T Unit} :
      ts[i]? = some (.store p v k) → m.get? p = some w → Step ⟨m, ts⟩ i ⟨m.setCell p (.obj v), ts.set i k⟩

/-- `Run c is c'`: from `c`, the threads named in the schedule `is` take one step each, in that order, and reach `c'`. -/
inductive Run : Pool T → List Nat → Pool T → Prop
  | nil {c : Pool T} : Run c [] c
  | cons {c c1 c2 : Pool T} {i : Nat} {is : List Nat} : Step c i c1 → Run c1 is c2 → Run c (i :: is) c2

/-- All threads have ended normally. -/
def Finished (c : Pool T) : Prop := ∀ t ∈ c.threads, t = .ret ()

/-- The next access of thread `i` is a read (`false`) or a write (`true`) of `p`. -/
def NextAccess (c : Pool T) (i : Nat) (p : Ptr) (write : Bool) : Prop :=
  (write = false ∧ ∃ k, c.threads[i]? = some (.load p k)) ∨ (write = true ∧ ∃ v k, c.threads[i]? = some (.store p v k))

/-- A data race: two threads are about to access the same element, at least one of them writing. -/
def Racing (c : Pool T) : Prop :=
  ∃ i j p w w', i ≠ j ∧ NextAccess c i p w ∧ NextAccess c j p w' ∧ (w = true ∨ w' = true)

/-- What a thread may do with arrays: read and write elements, assign, copy, transform and compare whole arrays, subarrays and views, in any
order; later actions may depend on the values read. -/
inductive Thread (T : Type) : Type where
  | done
  | read (d : Desc) (idx : List Int) (next : T → Thread T)
  | write (d : Desc) (idx : List Int) (v : T) (next : Thread T)
  | assign (dst src : Desc) (next : Thread T)
  | copyArray (src dst : Desc) (next : Thread T)
  | forEach (d : Desc) (f : T → T) (next : Thread T)
  | equal (a b : Desc) (eq : T → T → Bool) (next : Bool → Thread T)
  | less (a b : Desc) (lt : T → T → Bool) (next : Bool → Thread T)
  /-- `a.assign(first,last)` -/
  | fill (a : ARef) (input : List T) (next : Thread T)

/-- The element accesses a thread performs. -/
def Thread.prog (dbg : Bool) : Thread T → Prog T Unit
  | .done => .ret ()
  | .read d idx k => (readElemP dbg d idx).bind (fun v => (k v).prog dbg)
  | .write d idx v k => (writeElemP dbg d idx v).bind (fun _ => k.prog dbg)
  | .assign dst src k => (assignP dbg dst.extents.length dst src).bind (fun _ => k.prog dbg)
  | .copyArray src dst k => (copyArrayP dbg src dst).bind (fun _ => k.prog dbg)
  | .forEach d f k => (forEachAccP dbg (fun (_ : Unit) v => (f v, ())) d.extents.length d ()).bind (fun _ => k.prog dbg)
  | .equal a b eq k => (equalP dbg eq a.extents.length a b).bind (fun r => (k r).prog dbg)
  | .less a b lt k => (lessP dbg lt a.extents.length a b).bind (fun r => (k r).prog dbg)
  | .fill a input k => (assignLoopP a.numElems a.base input).bind (fun _ => k.prog dbg)

/-- The thread running alone, with the library functions of the sequential model. -/
def Thread.exec (dbg : Bool) : Thread T → Exec T Unit
  | .done => pure ()
  | .read d idx k => do (k (← readElem dbg d idx)).exec dbg
  | .write d idx v k => do writeElem dbg d idx v; k.exec dbg
  | .assign dst src k => do assignRef dbg dst.extents.length dst src; k.exec dbg
  | .copyArray src dst k => do MultiArray.copyArray dbg src dst; k.exec dbg
  | .forEach d f k => do MultiArray.forEach dbg f d.extents.length d; k.exec dbg
  | .equal a b eq k => fun s => (do (k (← Exec.lift (equalRef dbg eq s a.extents.length a b))).exec dbg : Exec T Unit) s
  | .fill a input k => do a.assign input; k.exec dbg
  | .less a b lt k => fun s => (do (k (← Exec.lift (lessRef dbg lt s a.extents.length a b))).exec dbg : Exec T Unit) s

/-- Run threads one after the other. -/
def execAll (dbg : Bool) : List (Thread T) → Exec T Unit
  | [] => pure ()
  | t :: ts => do t.exec dbg; execAll dbg ts

/-- `d` is an array, subarray or view over some reachable array. -/
def IsHandle (d : Desc) : Prop := ∃ (n : Nat) (root : ARef), Reachable n root ∧ Handle root d

/-- The thread's operations are legal (real arrays, in-range indices, equal shapes where required) and, whatever values it reads, it reads only
elements in `R` and writes only elements in `W`; an operation on a whole array counts as an access to each of its elements. -/
def Thread.Uses (R W : Ptr → Prop) : Thread T → Prop
  | .done => True
  | .read d idx k => IsHandle d ∧ InBox d.bases d.extents idx ∧ R (address d idx) ∧ ∀ v, (k v).Uses R W
  | .write d idx _ k => IsHandle d ∧ InBox d.bases d.extents idx ∧ W (address d idx) ∧ k.Uses R W
  | .assign dst src k | .copyArray src dst k => IsHandle dst ∧ IsHandle src ∧ src.extents = dst.extents ∧
      (∀ idx, InBox src.bases src.extents idx → R (address src idx)) ∧
      (∀ idx, InBox dst.bases dst.extents idx → W (address dst idx)) ∧ k.Uses R W
  | .forEach d _ k => IsHandle d ∧ (∀ idx, InBox d.bases d.extents idx → R (address d idx) ∧ W (address d idx)) ∧ k.Uses R W
  | .fill a _ k => (∃ n, Reachable n a) ∧ (∀ idx, InBox a.bases a.extents idx → W (address a.desc idx)) ∧ k.Uses R W
  | .equal a b _ k | .less a b _ k => IsHandle a ∧ IsHandle b ∧ a.extents.length = b.extents.length ∧
      (∀ idx, InBox a.bases a.extents idx → R (address a idx)) ∧
      (∀ idx, InBox b.bases b.extents idx → R (address b idx)) ∧ ∀ r, (k r).Uses R W

/-- What the threads of a program may access: no element written by one thread is accessed by another. -/
def Separate (fp : List ((Ptr → Prop) × (Ptr → Prop))) : Prop :=
  ∀ (i j : Nat) R W R' W', i ≠ j → fp[i]? = some (R, W) → fp[j]? = some (R', W') → ∀ p, W p → ¬ R' p ∧ ¬ W' p

end MultiArray.Spec
