import Verif.SpecProgX
import Verif.Model.Code

/-
Vocabulary for threads that run whole programs (allocating, constructing, destroying, resizing, catching exceptions) concurrently.  Nothing here models code of the
library; `Cmd.code` and `Client.code` only call the model of the library functions (as code, Model/Code.lean).
-/
set_option autoImplicit false

namespace MultiArray.Spec
open MultiArray
variable {T α : Type}

/-! ### Threads -/

/-- A thread: what remains of its code; the names it will give to the next blocks it allocates; the exceptions due in it; and the address of each block it
has a name for. -/
structure CThread (T α : Type) where
  code : Code T α
  next : Nat
  sched : List (Option T)
  env : Nat → Nat

/-- Where in memory the thread finds `p`. -/
def CThread.at_ (t : CThread T α) (p : Ptr) : Ptr := ⟨t.env p.blk, p.off⟩

/-- Threads sharing one memory. -/
structure CPool (T α : Type) where
  heap : Nat → Option (Block T)
  threads : List (CThread T α)

/-- Memory as thread `t` finds it, with the exceptions due in it. -/
def CPool.mem (c : CPool T α) (t : CThread T α) : St T := ⟨c.heap, t.next, t.sched⟩

/-- Thread `i` (which was `t`) has operated on memory and goes on with `code`. -/
def CPool.go (c : CPool T α) (i : Nat) (t : CThread T α) (s : St T) (code : Code T α) : CPool T α :=
  ⟨s.heap, c.threads.set i { t with code := code, sched := s.sched }⟩

/-- Thread `i` performs its next memory operation.  The allocator may return any address that is not in use (it may reuse addresses).  There is no step
for an operation that is undefined, nor for a failed assertion. -/
inductive CStep (c : CPool T α) (i : Nat) : CPool T α → Prop
  | load {t : CThread T α} {p : Ptr} {k : T → Code T α} {v : T} {s : St T} : c.threads[i]? = some t → t.code = .load p k →
      MultiArray.load (t.at_ p) (c.mem t) = .ok v s → CStep c i (c.go i t s (k v))
  | store {t : CThread T α} {p : Ptr} {v : T} {k h : Code T α} {s : St T} : c.threads[i]? = some t → t.code = .store p v k h →
      assignCell (t.at_ p) v (c.mem t) = .ok () s → CStep c i (c.go i t s k)
  | storeThrows {t : CThread T α} {p : Ptr} {v : T} {k h : Code T α} {s : St T} : c.threads[i]? = some t → t.code = .store p v k h →
      assignCell (t.at_ p) v (c.mem t) = .throw s → CStep c i (c.go i t s h)
  | construct {t : CThread T α} {p : Ptr} {v : T} {k h : Code T α} {s : St T} : c.threads[i]? = some t → t.code = .construct v p k h →
      constructCell v (t.at_ p) (c.mem t) = .ok () s → CStep c i (c.go i t s k)
  | constructThrows {t : CThread T α} {p : Ptr} {v : T} {k h : Code T α} {s : St T} : c.threads[i]? = some t → t.code = .construct v p k h →
      constructCell v (t.at_ p) (c.mem t) = .throw s → CStep c i (c.go i t s h)
  | destroy {t : CThread T α} {p : Ptr} {k : Code T α} {s : St T} : c.threads[i]? = some t → t.code = .destroy p k →
      destroyCell (t.at_ p) (c.mem t) = .ok () s → CStep c i (c.go i t s k)
  | dealloc {t : CThread T α} {al n : Nat} {p : Ptr} {k : Code T α} {s : St T} : c.threads[i]? = some t → t.code = .dealloc al p n k →
      deallocate al (t.at_ p) n (c.mem t) = .ok () s → CStep c i (c.go i t s k)
  | alloc {t : CThread T α} {al n a : Nat} {k : Ptr → Code T α} {h : Code T α} : c.threads[i]? = some t → t.code = .alloc al n k h →
      (∀ junk fs, t.sched ≠ some junk :: fs) → a ≠ 0 → c.heap a = none →
      CStep c i ⟨fun b => if b = a then some ⟨al, List.replicate n .raw⟩ else c.heap b,
        c.threads.set i ⟨k ⟨t.next, 0⟩, t.next + 1, t.sched.tail, fun b => if b = t.next then a else t.env b⟩⟩
  | allocThrows {t : CThread T α} {al n : Nat} {k : Ptr → Code T α} {h : Code T α} {junk : T} {fs : List (Option T)} : c.threads[i]? = some t →
      t.code = .alloc al n k h → t.sched = some junk :: fs → CStep c i ⟨c.heap, c.threads.set i { t with code := h, sched := fs }⟩

/-- `CRun c is c'`: from `c`, the threads named in `is` perform one operation each, in that order, and reach `c'`. -/
inductive CRun : CPool T α → List Nat → CPool T α → Prop
  | nil {c : CPool T α} : CRun c [] c
  | cons {c c1 c2 : CPool T α} {i : Nat} {is : List Nat} : CStep c i c1 → CRun c1 is c2 → CRun c (i :: is) c2

/-- The thread has ended, returning a value or with an exception. -/
def CThread.Ended (t : CThread T α) : Prop := (∃ a, t.code = .ret a) ∨ t.code = .throw

/-- All threads have ended. -/
def CPool.Ended (c : CPool T α) : Prop := ∀ t ∈ c.threads, t.Ended

/-- The memory the next operation operates on, and whether it may change it. -/
def _root_.MultiArray.Code.touches : Code T α → Option (Ptr × Bool)
  | .load p _ => some (p, false)
  | .store p _ _ _ | .construct _ p _ _ | .destroy p _ | .dealloc _ p _ _ => some (p, true)
  | _ => none

/-- A data race: two threads are about to operate on the same block of storage, at least one of them changing it.  (Two threads that only touch different elements of
a block count as racing here: the theorems exclude more than C++ requires.) -/
def CPool.Racing (c : CPool T α) : Prop :=
  ∃ (i j : Nat) (t t' : CThread T α) (p p' : Ptr) (w w' : Bool), i ≠ j ∧ c.threads[i]? = some t ∧ c.threads[j]? = some t' ∧ t.code.touches = some (p, w) ∧ t'.code.touches = some (p', w') ∧
    (t.at_ p).blk = (t'.at_ p').blk ∧ (w = true ∨ w' = true)

/-- The code never changes or releases a block in `B` when it runs alone. -/
def _root_.MultiArray.Code.Spares (B : Nat → Prop) : Code T α → St T → Prop
  | .ret _, _ => True
  | .throw, _ => True
  | .assertFail, _ => True
  | .ub, _ => True
  | .load p k, s =>
    match MultiArray.load p s with
    | .ok v s' => (k v).Spares B s'
    | _ => True
  | .store p v k h, s => ¬ B p.blk ∧
    match assignCell p v s with
    | .ok _ s' => k.Spares B s'
    | .throw s' => h.Spares B s'
    | _ => True
  | .construct v p k h, s => ¬ B p.blk ∧
    match constructCell v p s with
    | .ok _ s' => k.Spares B s'
    | .throw s' => h.Spares B s'
    | _ => True
  | .destroy p k, s => ¬ B p.blk ∧
    match destroyCell p s with
    | .ok _ s' => k.Spares B s'
    | _ => True
  | .alloc al n k h, s =>
    match allocate al n s with
    | .ok p s' => (k p).Spares B s'
    | .throw s' => h.Spares B s'
    | _ => True
  | .dealloc al p n k, s => ¬ B p.blk ∧
    match deallocate al p n s with
    | .ok _ s' => k.Spares B s'
    | _ => True

/-- Running alone, the code returns a value or throws; it does not run into undefined behaviour or a failed assertion. -/
def _root_.MultiArray.Code.Completes (x : Code T α) (s : St T) : Prop := (∃ a s', x.exec s = .ok a s') ∨ ∃ s', x.exec s = .throw s'

/-- In memory `H` thread `t` finds, at the addresses it has for them, the blocks of its own memory `m`. -/
structure CThread.Sees (H : Nat → Option (Block T)) (t : CThread T α) (m : St T) : Prop where
  next : t.next = m.next
  sched : t.sched = m.sched
  block : ∀ b blk, m.heap b = some blk → b < m.next ∧ H (t.env b) = some blk

/-- Thread `i` has its own memory `ms i`; the memories of different threads overlap only in blocks that both consider shared (`B i`); there is always
storage left for the allocator; and nothing is stored at the null address. -/
structure CPool.Splits (c : CPool T α) (ms : Nat → St T) (B : Nat → Nat → Prop) : Prop where
  sees : ∀ (i : Nat) (t : CThread T α), c.threads[i]? = some t → t.Sees c.heap (ms i)
  apart : ∀ (i j : Nat) (t t' : CThread T α) (b b' : Nat), c.threads[i]? = some t → c.threads[j]? = some t' → (ms i).heap b ≠ none → (ms j).heap b' ≠ none → t.env b = t'.env b' →
    (i = j ∧ b = b') ∨ (B i b ∧ B j b')
  space : ∃ N, ∀ a, N ≤ a → c.heap a = none
  null : c.heap 0 = none

/-- A block in use that belongs to none of the threads. -/
def CPool.Foreign (c : CPool T α) (ms : Nat → St T) (a : Nat) : Prop :=
  c.heap a ≠ none ∧ ∀ (i : Nat) (t : CThread T α) (b : Nat), c.threads[i]? = some t → (ms i).heap b ≠ none → t.env b ≠ a

/-! ### Client programs as code -/

/-- The live variables. -/
abbrev Objs := Nat → Option MArr

/-- Set a variable. -/
def Objs.put (o : Objs) (x : Nat) (a : Option MArr) : Objs := fun y => if y = x then a else o y

/-- A call that returns nothing and changes no variable; `none` if it threw. -/
def callC (o : Objs) (x : Code T Unit) : Code T (Option (CObs T) × Objs) := do
  match ← x.attempt with
  | some _ => pure (some (.basic .unit), o)
  | none => pure (none, o)

/-- `multi_array x(...)`: the variable exists afterwards unless the constructor threw. -/
def newC (o : Objs) (x : Nat) (ctor : Code T MArr) : Code T (Option (CObs T) × Objs) := do
  match ← ctor.attempt with
  | some a => pure (some (.basic .unit), o.put x (some a))
  | none => pure (none, o)

/-- `x.resize(...)`. -/
def memberC (o : Objs) (x : Nat) (call : Code T (Option Unit × MArr)) : Code T (Option (CObs T) × Objs) := do
  let r ← call
  pure (r.1.map (fun _ => .basic .unit), o.put x (some r.2))

/-- The descriptor of the expression `x ss`. -/
def lookupC (dbg : Bool) (o : Objs) (x : Nat) (ss : List Sel) : Code T Desc :=
  match o x with
  | some a => Code.lift (resolve dbg ss a.ref.desc)
  | none => .ub

/-- Read elements one after the other. -/
def readAllC : List Ptr → Code T (List T)
  | [] => pure []
  | p :: ps => do
    let v ← Code.get p
    let vs ← readAllC ps
    pure (v :: vs)

/-- `for_each(d, f)`. -/
def forEachC (dbg : Bool) (f : T → T) (d : Desc) : Code T Unit :=
  Code.ofProg (forEachAccP dbg (fun (_ : Unit) v => (f v, ())) d.extents.length d ())

/-- One command: the library calls it stands for (cf. `World.execX`). -/
def Cmd.code (dbg : Bool) (dflt : T) (eq lt : T → T → Bool) (o : Objs) : Cmd T → Code T (Option (CObs T) × Objs)
  | .construct x i =>
    match i with
    | .default n al => newC o x (MArr.mkDefaultC dflt n al)
    | .extents n es so al => newC o x (MArr.mkExtentsC dflt n es so al)
    | .gen n rs so al => newC o x (MArr.mkExtentGenC dflt ⟨n, rs⟩ so al)
    | .copy y =>
      match o y with
      | some a => newC o x (MArr.mkCopyC dflt a)
      | none => .ub
    | .convert y ss so al => do
      let d ← lookupC dbg o y ss
      newC o x (MArr.mkConvertC dbg dflt d so al)
  | .destroy x =>
    match o x with
    | some a => callC (o.put x none) (MArr.deallocateSpaceC a)
    | none => .ub
  | .on x op =>
    match o x with
    | none => .ub
    | some a =>
      match op with
      | .read idx => do
        let v ← Code.ofProg (readElemP dbg a.ref.desc idx)
        pure (some (.basic (.value v)), o)
      | .readChain idx => do
        let v ← readChainC dbg a.ref.desc idx
        pure (some (.basic (.value v)), o)
      | .write idx v => callC o (Code.ofProg (writeElemP dbg a.ref.desc idx v))
      | .writeChain idx v => callC o (writeChainC dbg a.ref.desc idx v)
      | .reindex bs => do
        let ref ← Code.lift (a.ref.reindexList bs)
        pure (some (.basic .unit), o.put x (some { a with ref := ref }))
      | .reindexAll b => pure (some (.basic .unit), o.put x (some { a with ref := a.ref.reindexAll b }))
      | .reshape es => do
        let ref ← Code.lift (a.ref.reshape dbg es)
        pure (some (.basic .unit), o.put x (some { a with ref := ref }))
      | .assign input => callC o (Code.ofProg (assignLoopP a.ref.numElems a.ref.base input))
      | .forEach f => callC o (forEachC dbg f a.ref.desc)
      | .resize rs => memberC o x (MArr.resizeC dbg dflt ⟨a.ref.numDims, rs⟩ a)
      | .resizeList es => memberC o x (MArr.resizeExtentsC dbg dflt es a)
      | .query => do
        let sz ← Code.lift a.ref.size
        pure (some (.basic (.info a.ref.numDims sz a.ref.numElements a.ref.extents a.ref.bases a.ref.strides)), o)
  | .assign x y =>
    match o x, o y with
    | some a, some a' => callC o (MArr.assignFromC dbg (decide (x = y)) a a')
    | _, _ => .ub
  | .assignPart x ss y ss' => do
    let d ← lookupC dbg o x ss
    let d' ← lookupC dbg o y ss'
    callC o (Code.ofProg (assignP dbg d.extents.length d d'))
  | .copyArray x ss y ss' => do
    let d ← lookupC dbg o x ss
    let d' ← lookupC dbg o y ss'
    callC o (Code.ofProg (copyArrayP dbg d' d))
  | .read x ss idx => do
    let d ← lookupC dbg o x ss
    let v ← Code.ofProg (readElemP dbg d idx)
    pure (some (.basic (.value v)), o)
  | .write x ss idx v => do
    let d ← lookupC dbg o x ss
    callC o (Code.ofProg (writeElemP dbg d idx v))
  | .forEach x ss f => do
    let d ← lookupC dbg o x ss
    callC o (forEachC dbg f d)
  | .traverse x ss => do
    let d ← lookupC dbg o x ss
    match ← Code.lift (nestedLoop dbg d.extents.sum d.extents.length d) with
    | some ps => do
      let vs ← readAllC ps
      pure (some (.values vs), o)
    | none => .ub
  | .equal x ss y ss' => do
    let d ← lookupC dbg o x ss
    let d' ← lookupC dbg o y ss'
    let b ← Code.ofProg (equalP dbg eq d.extents.length d d')
    pure (some (.bool b), o)
  | .less x ss y ss' => do
    let d ← lookupC dbg o x ss
    let d' ← lookupC dbg o y ss'
    let b ← Code.ofProg (lessP dbg lt d.extents.length d d')
    pure (some (.bool b), o)
  | .shape x ss => do
    let d ← lookupC dbg o x ss
    pure (some (.shape d.bases d.extents), o)

/-- A client running for at most `n` more commands, catching exceptions (cf. `Client.run`): what happened, and its live variables. -/
def Client.code (dbg : Bool) (dflt : T) (eq lt : T → T → Bool) (k : Client T) : Nat → Trace T → Objs → Code T (Trace T × Objs)
  | 0, tr, o => pure (tr, o)
  | n + 1, tr, o =>
    match k tr with
    | none => pure (tr, o)
    | some c => do
      let r ← c.code dbg dflt eq lt o
      Client.code dbg dflt eq lt k n (tr ++ [(c, r.1)]) r.2

/-- What one thread is to do: run this client for at most `count` commands, with these exceptions to come. -/
structure Job (T : Type) where
  client : Client T
  count : Nat
  sched : List (Option T)

/-- The thread at its start: no variables. -/
def Job.thread (dbg : Bool) (dflt : T) (eq lt : T → T → Bool) (j : Job T) : CThread T (Trace T × Objs) :=
  ⟨j.client.code dbg dflt eq lt j.count [] (fun _ => none), 1, j.sched, fun _ => 0⟩

/-- The array object as it lies in memory, for a thread that names its blocks by `env`. -/
def _root_.MultiArray.MArr.placed (a : MArr) (env : Nat → Nat) : MArr :=
  { a with ref := { a.ref with base := ⟨env a.ref.base.blk, a.ref.base.off⟩ }, ownBase := ⟨env a.ownBase.blk, a.ownBase.off⟩ }

end MultiArray.Spec
