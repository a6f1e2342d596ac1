import Verif.SpecRowsX
import Verif.SpecProgXM

/-
The iterator algorithms of SpecSeq.lean (on elements) and SpecRows.lean (on rows) with every library call replaced by its 64-bit counterpart.  Nothing here
models library code: `execM` and `execXM` only call the 64-bit model of the library functions.
-/
set_option autoImplicit false

namespace MultiArray.Spec
open MultiArray
variable {T α : Type}

/-! ### Iterators -/

namespace AnyIt

/-- `++r` -/
def incM : AnyIt → Res AnyIt
  | .fwd i => do .ok (.fwd (← Machine.increment i))
  | .bwd i => do .ok (.bwd (← Machine.rincrement i))
/-- `--r` -/
def decM : AnyIt → Res AnyIt
  | .fwd i => do .ok (.fwd (← Machine.decrement i))
  | .bwd i => do .ok (.bwd (← Machine.rdecrement i))
/-- `r += n` -/
def addM (n : Int) : AnyIt → Res AnyIt
  | .fwd i => do .ok (.fwd (← Machine.advance i n))
  | .bwd i => do .ok (.bwd (← Machine.radvance i n))
/-- `*r` -/
def derefM (dbg : Bool) : AnyIt → Res Desc
  | .fwd i => Machine.deref dbg i
  | .bwd i => Machine.rderef dbg i
/-- `r[n]` -/
def indexM (dbg : Bool) (n : Int) : AnyIt → Res Desc
  | .fwd i => Machine.itIndex dbg i n
  | .bwd i => Machine.ritIndex dbg i n
/-- `r < r'` -/
def lessM : AnyIt → AnyIt → Res Bool
  | .fwd i, .fwd j => Machine.itLess i j
  | .bwd i, .bwd j => Machine.ritLess i j
  | _, _ => .ub
/-- `r - r'` -/
def diffM : AnyIt → AnyIt → Res Int
  | .fwd i, .fwd j => Machine.itSub i j
  | .bwd i, .bwd j => Machine.ritSub i j
  | _, _ => .ub

end AnyIt

/-! ### Algorithms on elements -/

/-- As `IAlg.exec`, on the 64-bit machine.  (`==` and `base()` compute nothing.) -/
def IAlg.execM (dbg : Bool) (ds : Nat → Option Desc) : IAlg T α → (Nat → Option AnyIt) → Exec T α
  | .ret a, _ => pure a
  | .begin r c k, its => do
    let it ← Exec.lift (do Machine.begin (← Res.ofOption (ds c)))
    k.execM dbg ds (Seqs.setPos its r (.fwd it))
  | .fin r c k, its => do
    let it ← Exec.lift (do Machine.«end» (← Res.ofOption (ds c)))
    k.execM dbg ds (Seqs.setPos its r (.fwd it))
  | .rbegin r c k, its => do
    let it ← Exec.lift (do Machine.rbegin (← Res.ofOption (ds c)))
    k.execM dbg ds (Seqs.setPos its r (.bwd it))
  | .rfin r c k, its => do
    let it ← Exec.lift (do Machine.rend (← Res.ofOption (ds c)))
    k.execM dbg ds (Seqs.setPos its r (.bwd it))
  | .copy r r' k, its => do
    let it ← Exec.lift (Res.ofOption (its r'))
    k.execM dbg ds (Seqs.setPos its r it)
  | .base r r' k, its => do
    let it ← Exec.lift (do (← Res.ofOption (its r')).base)
    k.execM dbg ds (Seqs.setPos its r it)
  | .inc r k, its => do
    let it ← Exec.lift (do (← Res.ofOption (its r)).incM)
    k.execM dbg ds (Seqs.setPos its r it)
  | .dec r k, its => do
    let it ← Exec.lift (do (← Res.ofOption (its r)).decM)
    k.execM dbg ds (Seqs.setPos its r it)
  | .add r n k, its => do
    let it ← Exec.lift (do (← Res.ofOption (its r)).addM n)
    k.execM dbg ds (Seqs.setPos its r it)
  | .equal r r' k, its => do
    let b ← Exec.lift (do (← Res.ofOption (its r)).equal (← Res.ofOption (its r')))
    (k b).execM dbg ds its
  | .less r r' k, its => do
    let b ← Exec.lift (do (← Res.ofOption (its r)).lessM (← Res.ofOption (its r')))
    (k b).execM dbg ds its
  | .diff r r' k, its => do
    let n ← Exec.lift (do (← Res.ofOption (its r)).diffM (← Res.ofOption (its r')))
    (k n).execM dbg ds its
  | .read r k, its => do
    let e ← Exec.lift (do (← Res.ofOption (its r)).derefM dbg)
    let v ← load e.base
    (k v).execM dbg ds its
  | .readAt r n k, its => do
    let e ← Exec.lift (do (← Res.ofOption (its r)).indexM dbg n)
    let v ← load e.base
    (k v).execM dbg ds its
  | .write r v k, its => do
    let e ← Exec.lift (do (← Res.ofOption (its r)).derefM dbg)
    assignCell e.base v
    k.execM dbg ds its

/-! ### Algorithms on rows -/

/-- The descriptor of an argument. -/
def RowArg.descM (dbg : Bool) (free : Nat → Nat) (its : Nat → Option AnyIt) (w : World T) : RowArg → Option Desc
  | .row r => (its r).bind (fun it => optRes (it.derefM dbg))
  | .tmp t => (w.objs (free t)).map (fun a => a.ref.desc)

/-- `value_type t(s);` -/
def World.takeRowXM (dbg : Bool) (dflt : T) (free : Nat → Nat) (alloc : Nat) (its : Nat → Option AnyIt) (w : World T) (t : Nat) : RowArg → Result T
  | .row r =>
    match (RowArg.row r).descM dbg free its w with
    | none => .failed
    | some d => w.ctorX dbg dflt (free t) (.convert d.extents.length d (StorageOrder.cOrder d.extents.length) alloc)
  | .tmp t' =>
    match w.objs (free t') with
    | none => .failed
    | some a => w.ctorX dbg dflt (free t) (.copy a.ref.numDims a)

/-- An assignment from any array, between two descriptors. -/
def World.assignDescM (dbg : Bool) (w : World T) (d s : Option Desc) : Result T :=
  match d, s with
  | some d, some s => w.mem (Machine.assignOpW dbg false eltCopy d s)
  | _, _ => .failed

/-- An assignment between temporaries. -/
def World.assignTmpM (dbg : Bool) (w : World T) (same : Bool) (a a' : Option MArr) : Result T :=
  match a, a' with
  | some a, some a' => w.mem (Machine.assignFrom dbg same a a')
  | _, _ => .failed

/-- `d = s` -/
def World.assignRowXM (dbg : Bool) (free : Nat → Nat) (its : Nat → Option AnyIt) (w : World T) : RowArg → RowArg → Result T
  | .tmp t, .tmp t' => w.assignTmpM dbg (decide (free t = free t')) (w.objs (free t)) (w.objs (free t'))
  | d, s => w.assignDescM dbg (d.descM dbg free its w) (s.descM dbg free its w)

/-- All elements, by nested loops over iterators. -/
def World.lookAtM (dbg : Bool) (w : World T) (d : Desc) : Option (List T) :=
  (Res.val? (Machine.nestedLoop dbg d.extents.sum d.extents.length d)).bind (fun ps => ps.bind (fun ps => ps.mapM (fun p => w.st.get? p)))

/-- As `RAlg.execX`, on the 64-bit machine.  (Destroying an array computes no index.) -/
def RAlg.execXM (dbg : Bool) (dflt : T) (eq lt : T → T → Bool) (seqs : Nat → Option (Nat × List Sel)) (free : Nat → Nat) (alloc : Nat) :
    RAlg T α → (Nat → Option AnyIt) → List Nat → World T → RowOut T α
  | .ret a, _, _, w => .done a w
  | .begin r c k, its, live, w => .ofOption ((seqs c).bind (fun x => (w.lookupM dbg x.1 x.2).bind (fun d => optRes (Machine.begin d))))
      (fun it => k.execXM dbg dflt eq lt seqs free alloc (Seqs.setPos its r (.fwd it)) live w)
  | .fin r c k, its, live, w => .ofOption ((seqs c).bind (fun x => (w.lookupM dbg x.1 x.2).bind (fun d => optRes (Machine.«end» d))))
      (fun it => k.execXM dbg dflt eq lt seqs free alloc (Seqs.setPos its r (.fwd it)) live w)
  | .rbegin r c k, its, live, w => .ofOption ((seqs c).bind (fun x => (w.lookupM dbg x.1 x.2).bind (fun d => optRes (Machine.rbegin d))))
      (fun it => k.execXM dbg dflt eq lt seqs free alloc (Seqs.setPos its r (.bwd it)) live w)
  | .rfin r c k, its, live, w => .ofOption ((seqs c).bind (fun x => (w.lookupM dbg x.1 x.2).bind (fun d => optRes (Machine.rend d))))
      (fun it => k.execXM dbg dflt eq lt seqs free alloc (Seqs.setPos its r (.bwd it)) live w)
  | .copy r r' k, its, live, w => .ofOption (its r') (fun it => k.execXM dbg dflt eq lt seqs free alloc (Seqs.setPos its r it) live w)
  | .base r r' k, its, live, w => .ofOption ((its r').bind (fun it => optRes it.base)) (fun it => k.execXM dbg dflt eq lt seqs free alloc (Seqs.setPos its r it) live w)
  | .add r n k, its, live, w => .ofOption ((its r).bind (fun it => optRes (it.addM n))) (fun it => k.execXM dbg dflt eq lt seqs free alloc (Seqs.setPos its r it) live w)
  | .equal r r' k, its, live, w => .ofOption ((its r).bind (fun i => (its r').bind (fun j => optRes (i.equal j)))) (fun b => (k b).execXM dbg dflt eq lt seqs free alloc its live w)
  | .less r r' k, its, live, w => .ofOption ((its r).bind (fun i => (its r').bind (fun j => optRes (i.lessM j)))) (fun b => (k b).execXM dbg dflt eq lt seqs free alloc its live w)
  | .diff r r' k, its, live, w => .ofOption ((its r).bind (fun i => (its r').bind (fun j => optRes (i.diffM j)))) (fun n => (k n).execXM dbg dflt eq lt seqs free alloc its live w)
  | .take t s k, its, live, w => .after (w.takeRowXM dbg dflt free alloc its t s) (fun w' => k.execXM dbg dflt eq lt seqs free alloc its (t :: live) w')
      (fun w' => w'.leave dbg dflt free live)
  | .drop t k, its, live, w => .after (w.step dbg dflt (.destroy (free t))) (fun w' => k.execXM dbg dflt eq lt seqs free alloc its (live.erase t) w') (fun _ => .failed)
  | .assign d s k, its, live, w => .after (w.assignRowXM dbg free its d s) (fun w' => k.execXM dbg dflt eq lt seqs free alloc its live w')
      (fun w' => w'.leave dbg dflt free live)
  | .look s k, its, live, w => .ofOption ((s.descM dbg free its w).bind (fun d => w.lookAtM dbg d)) (fun v => (k v).execXM dbg dflt eq lt seqs free alloc its live w)
  | .rowEq s s' k, its, live, w => .ofOption ((s.descM dbg free its w).bind (fun d => (s'.descM dbg free its w).bind (fun d' =>
      Res.val? (Machine.equalRef dbg eq w.st d.extents.length d d')))) (fun b => (k b).execXM dbg dflt eq lt seqs free alloc its live w)
  | .rowLt s s' k, its, live, w => .ofOption ((s.descM dbg free its w).bind (fun d => (s'.descM dbg free its w).bind (fun d' =>
      Res.val? (Machine.lessRef dbg lt w.st d.extents.length d d')))) (fun b => (k b).execXM dbg dflt eq lt seqs free alloc its live w)

/-! ### What fits -/

/-- The arrays of the program fit the machine, the views in the expressions of the sequences fit, and so do temporaries with the shape and the index bases of
their rows. -/
structure RowsFit (A : AState T) (seqs : Nat → Option (Nat × List Sel)) : Prop where
  arrays : A.Fits
  views : ∀ c x ss, seqs c = some (x, ss) → A.ExprFits x ss
  rows : ∀ c x ss p, seqs c = some (x, ss) → A.part x ss = some p →
    (⟨p.bases.tail, p.extents.tail, StorageOrder.cOrder p.extents.tail.length, []⟩ : AbsArr T).Fits

end MultiArray.Spec
