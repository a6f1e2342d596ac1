import Verif.Model.Copy
import Verif.Model.Compare

/- The same library functions as in Model/Copy.lean and Model/Compare.lean, now as *programs*: trees of single element accesses, so that
executions of several threads can be interleaved access by access.  `Prog.exec` (running a program without interference) gives
back the functions of Model/Copy.lean (Lemmas/Steps.lean: `exec_assignP` etc.), so the two descriptions of the code cannot drift apart. -/
set_option autoImplicit false

namespace MultiArray
variable {T : Type}

/-- A computation that accesses shared memory one element at a time.  `assertFail` and `ub` end it.  (Not a definition of the library.) -/
inductive Prog (T α : Type) : Type where
  | ret (a : α)
  | load (p : Ptr) (k : T → Prog T α)
  | store (p : Ptr) (v : T) (k : Prog T α)
  | assertFail
  | ub

namespace Prog
variable {α β : Type}

/-- Sequencing. -/
def bind : Prog T α → (α → Prog T β) → Prog T β
  | ret a, f => f a
  | load p k, f => load p (fun v => bind (k v) f)
  | store p v k, f => store p v (bind k f)
  | assertFail, _ => assertFail
  | ub, _ => ub

instance : Monad (Prog T) where
  pure := Prog.ret
  bind := Prog.bind

/-- A memory-independent computation. -/
def lift : Res α → Prog T α
  | .ok a => ret a
  | .assertFail => assertFail
  | .ub => ub

/-- Read one element. -/
def get (p : Ptr) : Prog T T := load p ret

/-- Assign one element. -/
def put (p : Ptr) (v : T) : Prog T Unit := store p v (ret ())

/-- Run without interference. -/
def exec : Prog T α → Exec T α
  | ret a => pure a
  | load p k => do let v ← MultiArray.load p; exec (k v)
  | store p v k => do assignCell p v; exec k
  | assertFail => Exec.lift .assertFail
  | ub => Exec.lift .ub

end Prog

/-- The expression `a(indices)` read as a value (multi_array_ref.hpp:211-218, subarray.hpp:80-87, view.hpp:120-127). -/
def readElemP (dbg : Bool) (d : Desc) (indices : List Int) : Prog T T := do
  Prog.get (← Prog.lift (accessElement dbg indices d))

/-- The assignment expression `a(indices) = v` (multi_array_ref.hpp:508-516, subarray.hpp:280-288, view.hpp:325-333). -/
def writeElemP (dbg : Bool) (d : Desc) (indices : List Int) (v : T) : Prog T Unit := do
  Prog.put (← Prog.lift (accessElement dbg indices d)) v

/-- `std::copy` on array iterators, cf. `stdCopy`. -/
def stdCopyP (body : It → It → Prog T Unit) : (n : Nat) → (first out : It) → Prog T Unit
  | 0, _, _ => pure ()
  | n + 1, first, out => do
    body first out
    stdCopyP body n first.increment out.increment

/-- `dst = src` (multi_array_ref.hpp:475-502, subarray.hpp:228-254, view.hpp:294-321), cf. `assignRef`. -/
def assignP (dbg : Bool) : (n : Nat) → (dst src : Desc) → Prog T Unit
  | 0, dst, src => do
    let v ← Prog.get src.base
    Prog.put dst.base v
  | n + 1, dst, src => do
    Prog.lift (Res.assert dbg (decide (src.extents.length = dst.extents.length)))
    Prog.lift (Res.assert dbg (decide (src.extents = dst.extents)))
    let first ← Prog.lift src.begin
    let last ← Prog.lift src.end
    let out ← Prog.lift dst.begin
    stdCopyP (fun i o => do
        let s ← Prog.lift (i.deref dbg)
        let d ← Prog.lift (o.deref dbg)
        assignP dbg n d s)
      (last.sub first).toNat first out

/-- `copy_dispatch::copy_array` (copy_array.hpp:29-50), cf. `copyDispatch`. -/
def copyDispatchP (dbg : Bool) : (n : Nat) → (src dst : Desc) → Prog T Unit
  | 0, src, dst => do
    let v ← Prog.get src.base
    Prog.put dst.base v
  | n + 1, src, dst => do
    let first ← Prog.lift src.begin
    let last ← Prog.lift src.end
    let out ← Prog.lift dst.begin
    stdCopyP (fun i o => do
        let s ← Prog.lift (i.deref dbg)
        let d ← Prog.lift (o.deref dbg)
        copyDispatchP dbg n s d)
      (last.sub first).toNat first out

/-- `copy_array(source,dest)` (copy_array.hpp:53-61), cf. `copyArray`. -/
def copyArrayP (dbg : Bool) (src dst : Desc) : Prog T Unit := do
  Prog.lift (Res.assert dbg (decide (src.extents = dst.extents)))
  copyDispatchP dbg src.extents.length src dst

/-- `assign(begin,end)` (multi_array_ref.hpp:127-138), cf. `assignLoop`. -/
def assignLoopP : (count : Nat) → (out : Ptr) → (input : List T) → Prog T Unit
  | 0, _, _ => pure ()
  | _ + 1, _, [] => pure ()
  | n + 1, out, v :: vs => do
    Prog.put out v
    assignLoopP n (out.add 1) vs

/-- The loop of example/for_each.hpp:33-41, cf. `stdForEach`. -/
def stdForEachP {σ : Type} (body : It → σ → Prog T σ) : (n : Nat) → (first : It) → (q : σ) → Prog T σ
  | 0, _, q => pure q
  | n + 1, first, q => do
    let q' ← body first q
    stdForEachP body n first.increment q'

/-- `for_each(A, xform)` (example/for_each.hpp:21-50), cf. `forEachAcc`. -/
def forEachAccP {σ : Type} (dbg : Bool) (f : σ → T → T × σ) : (n : Nat) → (a : Desc) → (q : σ) → Prog T σ
  | 0, a, q => do
    let v ← Prog.get a.base
    Prog.put a.base (f q v).1
    pure (f q v).2
  | n + 1, a, q => do
    let first ← Prog.lift a.begin
    let last ← Prog.lift a.end
    stdForEachP (fun i q => do
        let s ← Prog.lift (i.deref dbg)
        forEachAccP dbg f n s q)
      (last.sub first).toNat first q

/-- `std::equal` on array iterators, cf. `stdEqual`. -/
def stdEqualP (eqv : It → It → Prog T Bool) : (n : Nat) → (first1 first2 : It) → Prog T Bool
  | 0, _, _ => pure true
  | n + 1, i, j => do
    if ← eqv i j then stdEqualP eqv n i.increment j.increment else pure false

/-- `operator==` (multi_array_ref.hpp:262-271, subarray.hpp:110-115, view.hpp:171-180), cf. `equalRef`. -/
def equalP (dbg : Bool) (eq : T → T → Bool) : (n : Nat) → (a b : Desc) → Prog T Bool
  | 0, a, b => do
    let x ← Prog.get a.base
    let y ← Prog.get b.base
    pure (eq x y)
  | n + 1, a, b => do
    if a.extents = b.extents then
      let first ← Prog.lift a.begin
      let last ← Prog.lift a.end
      let first2 ← Prog.lift b.begin
      stdEqualP (fun i j => do
          let x ← Prog.lift (i.deref dbg)
          let y ← Prog.lift (j.deref dbg)
          equalP dbg eq n x y)
        (last.sub first).toNat first first2
    else pure false

/-- `std::lexicographical_compare` on array iterators, cf. `stdLexCompare`. -/
def stdLexCompareP (lt : It → It → Prog T Bool) : (n m : Nat) → (i j : It) → Prog T Bool
  | _, 0, _, _ => pure false
  | 0, _ + 1, _, _ => pure true
  | n + 1, m + 1, i, j => do
    if ← lt i j then pure true
    else if ← lt j i then pure false
    else stdLexCompareP lt n m i.increment j.increment

/-- `operator<` (multi_array_ref.hpp:273-278, subarray.hpp:105-108, view.hpp:182-187), cf. `lessRef`. -/
def lessP (dbg : Bool) (lt : T → T → Bool) : (n : Nat) → (a b : Desc) → Prog T Bool
  | 0, a, b => do
    let x ← Prog.get a.base
    let y ← Prog.get b.base
    pure (lt x y)
  | n + 1, a, b => do
    let first ← Prog.lift a.begin
    let last ← Prog.lift a.end
    let first2 ← Prog.lift b.begin
    let last2 ← Prog.lift b.end
    stdLexCompareP (fun i j => do
        let x ← Prog.lift (i.deref dbg)
        let y ← Prog.lift (j.deref dbg)
        lessP dbg lt n x y)
      (last.sub first).toNat (last2.sub first2).toNat first first2

end MultiArray
