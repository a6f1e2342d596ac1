import Verif.SpecStable
import Verif.SpecSeqM

/-
Whole client programs that hold iterators, subarrays and views in variables of their own ("registers"), across any commands of SpecProgX.lean: their
abstract meaning, in which a held iterator is just a position in a named part of an array, and the library calls they stand for.  Nothing here
models library code: `execH` and `execHM` only call the model of the library functions.
-/
set_option autoImplicit false

namespace MultiArray.Spec
open MultiArray
variable {T : Type}

/-- An expression that denotes an array, a subarray, a view or an element. -/
inductive Ex where
  /-- `x ss`, for a variable `x` -/
  | var (x : Nat) (ss : List Sel)
  /-- `r ss`, for a held array reference, subarray or view `r` -/
  | held (r : Nat) (ss : List Sel)
  /-- `(*r) ss`, for a held iterator `r` -/
  | deref (r : Nat) (ss : List Sel)
  /-- `r[n] ss`, for a held iterator `r` -/
  | index (r : Nat) (n : Int) (ss : List Sel)

/-- The commands of SpecProg.lean that mention parts of arrays, with expressions of type `E` for these parts. -/
inductive PCmd (T E : Type) where
  /-- initialise `x` from `e` -/
  | convert (x : Nat) (e : E) (so : StorageOrder) (alloc : Nat)
  /-- `e = e'` -/
  | assign (e e' : E)
  /-- `boost::copy_array(e', e)` -/
  | copyArray (e e' : E)
  /-- `e(idx)` -/
  | read (e : E) (idx : List Int)
  /-- `e(idx) = v` -/
  | write (e : E) (idx : List Int) (v : T)
  /-- `for_each(e, f)` -/
  | forEach (e : E) (f : T → T)
  /-- nested loops over the iterators of `e`, reading every element -/
  | traverse (e : E)
  /-- `e == e'` -/
  | equal (e e' : E)
  /-- `e < e'` -/
  | less (e e' : E)
  /-- `e.index_bases()`, `e.shape()` -/
  | shape (e : E)

/-- Evaluate the expressions of a command. -/
def PCmd.eval {E E' : Type} (f : E → Option E') : PCmd T E → Option (PCmd T E')
  | .convert x e so al => (f e).map (fun d => .convert x d so al)
  | .assign e e' => (f e).bind (fun d => (f e').map (fun d' => .assign d d'))
  | .copyArray e e' => (f e).bind (fun d => (f e').map (fun d' => .copyArray d d'))
  | .read e idx => (f e).map (fun d => .read d idx)
  | .write e idx v => (f e).map (fun d => .write d idx v)
  | .forEach e g => (f e).map (fun d => .forEach d g)
  | .traverse e => (f e).map (fun d => .traverse d)
  | .equal e e' => (f e).bind (fun d => (f e').map (fun d' => .equal d d'))
  | .less e e' => (f e).bind (fun d => (f e').map (fun d' => .less d d'))
  | .shape e => (f e).map (fun d => .shape d)

/-- The command of SpecProg.lean, if all expressions are of the form `x ss`. -/
def PCmd.cmd : PCmd T (Nat × List Sel) → Cmd T
  | .convert x e so al => .construct x (.convert e.1 e.2 so al)
  | .assign e e' => .assignPart e.1 e.2 e'.1 e'.2
  | .copyArray e e' => .copyArray e.1 e.2 e'.1 e'.2
  | .read e idx => .read e.1 e.2 idx
  | .write e idx v => .write e.1 e.2 idx v
  | .forEach e f => .forEach e.1 e.2 f
  | .traverse e => .traverse e.1 e.2
  | .equal e e' => .equal e.1 e.2 e'.1 e'.2
  | .less e e' => .less e.1 e.2 e'.1 e'.2
  | .shape e => .shape e.1 e.2

/-- Commands of programs that hold handles and iterators. -/
inductive HCmd (T : Type) where
  /-- any command of SpecProg.lean -/
  | plain (c : Cmd T)
  /-- a command on parts that may be named through held handles and iterators -/
  | part (c : PCmd T Ex)
  /-- `auto r = e;` for an array reference, subarray or view `e` -/
  | hold (r : Nat) (e : Ex)
  /-- `r = e.begin()` -/
  | begin (r : Nat) (e : Ex)
  /-- `r = e.end()` -/
  | fin (r : Nat) (e : Ex)
  /-- `r = e.rbegin()` -/
  | rbegin (r : Nat) (e : Ex)
  /-- `r = e.rend()` -/
  | rfin (r : Nat) (e : Ex)
  /-- `r = r'`, for iterators -/
  | copy (r r' : Nat)
  /-- `r = r'.base()`, for a reverse iterator `r'` -/
  | base (r r' : Nat)
  /-- `++r` -/
  | inc (r : Nat)
  /-- `--r` -/
  | dec (r : Nat)
  /-- `r += n` -/
  | add (r : Nat) (n : Int)
  /-- `r == r'` -/
  | equal (r r' : Nat)
  /-- `r < r'` -/
  | less (r r' : Nat)
  /-- `r - r'` -/
  | diff (r r' : Nat)

/-- What a command returns. -/
inductive HObs (T : Type) where
  | cmd (o : CObs T)
  | unit
  | bool (b : Bool)
  | int (n : Int)
deriving DecidableEq

/-- A register holds a handle or an iterator. -/
inductive Held (H I : Type) where
  | handle (h : H)
  | it (i : I)

/-! ### The abstract machine -/

/-- An iterator, abstractly: position `i` in the part `var path`, counted from the back if `rev`; `i` = the extent is the end. -/
structure ItPos where
  var : Nat
  path : List Sel
  rev : Bool
  i : Nat

/-- The registers, abstractly: a held handle is the expression that names the same part. -/
abbrev ARegs := Nat → Option (Held (Nat × List Sel) ItPos)

/-- The array variable a held handle or iterator refers to. -/
def Held.owner : Held (Nat × List Sel) ItPos → Nat
  | .handle h => h.1
  | .it p => p.var

/-- The iterator in a register. -/
def ARegs.iter (ρ : ARegs) (r : Nat) : Option ItPos :=
  match ρ r with
  | some (.it p) => some p
  | _ => none

/-- Set a register. -/
def setReg {H I : Type} (ρ : Nat → Option (Held H I)) (r : Nat) (h : Held H I) : Nat → Option (Held H I) := fun r' => if r' = r then some h else ρ r'

/-- The number of positions of the sequence an iterator moves in. -/
def AState.length (A : AState T) (p : ItPos) : Option Nat := (A.part p.var p.path).bind (fun q => q.extents.head?)

/-- The expression that names the element (or row) `n` places from position `p`; there must be one. -/
def AState.elemAt (A : AState T) (p : ItPos) (n : Int) : Option (Nat × List Sel) :=
  (A.part p.var p.path).bind (fun q => q.extents.head?.bind (fun e =>
    if 0 ≤ (p.i : Int) + n ∧ (p.i : Int) + n < (e : Int) then
      some (p.var, p.path ++ [.at (q.bases.headD 0 + (if p.rev then (e : Int) - 1 - ((p.i : Int) + n) else (p.i : Int) + n))])
    else none))

/-- The variable and the path that name the same part as an expression. -/
def AState.path (A : AState T) (ρ : ARegs) : Ex → Option (Nat × List Sel)
  | .var x ss => some (x, ss)
  | .held r ss =>
    match ρ r with
    | some (.handle h) => some (h.1, h.2 ++ ss)
    | _ => none
  | .deref r ss => (ρ.iter r).bind (fun p => (A.elemAt p 0).map (fun h => (h.1, h.2 ++ ss)))
  | .index r n ss => (ρ.iter r).bind (fun p => (A.elemAt p n).map (fun h => (h.1, h.2 ++ ss)))

/-- The command of SpecProg.lean a command stands for; `none` for operations on registers, and if an expression names nothing. -/
def HCmd.cmd (A : AState T) (ρ : ARegs) : HCmd T → Option (Cmd T)
  | .plain c => some c
  | .part c => (c.eval (A.path ρ)).map PCmd.cmd
  | _ => none

open Classical in
/-- The part an expression names, if the expression is legal. -/
noncomputable def AState.legalPath (A : AState T) (ρ : ARegs) (e : Ex) : Option (Nat × List Sel) :=
  (A.path ρ e).bind (fun h => if ∃ p, A.Part h.1 h.2 p then some h else none)

/-- A sequence: a legal expression with at least one dimension; its first extent. -/
noncomputable def AState.range (A : AState T) (ρ : ARegs) (e : Ex) : Option ((Nat × List Sel) × Nat) :=
  (A.legalPath ρ e).bind (fun h => (A.length ⟨h.1, h.2, false, 0⟩).map (fun n => (h, n)))

/-- Moving an iterator by `n`; it must stay inside the sequence or at its end. -/
def AState.move? (A : AState T) (p : ItPos) (n : Int) : Option ItPos :=
  (A.length p).bind (fun e => if 0 ≤ (p.i : Int) + n ∧ (p.i : Int) + n ≤ (e : Int) then some { p with i := ((p.i : Int) + n).toNat } else none)

/-- `p.base()`: counted from the front, the position behind the element at `p`. -/
def AState.base? (A : AState T) (p : ItPos) : Option ItPos :=
  (A.length p).bind (fun e => if p.rev then some { p with rev := false, i := e - p.i } else none)

open Classical in
/-- Two iterators of the same kind into the same sequence. -/
noncomputable def ARegs.two (ρ : ARegs) (r r' : Nat) : Option (ItPos × ItPos) :=
  (ρ.iter r).bind (fun p => (ρ.iter r').bind (fun q => if p.var = q.var ∧ p.path = q.path ∧ p.rev = q.rev then some (p, q) else none))

/-- The abstract meaning of operations on registers; `none` for other commands and if a precondition is violated. -/
noncomputable def AState.regStep (A : AState T) (ρ : ARegs) : HCmd T → Option (HObs T × ARegs)
  | .plain _ => none
  | .part _ => none
  | .hold r e => (A.legalPath ρ e).map (fun h => (.unit, setReg ρ r (.handle h)))
  | .begin r e => (A.range ρ e).map (fun h => (.unit, setReg ρ r (.it ⟨h.1.1, h.1.2, false, 0⟩)))
  | .fin r e => (A.range ρ e).map (fun h => (.unit, setReg ρ r (.it ⟨h.1.1, h.1.2, false, h.2⟩)))
  | .rbegin r e => (A.range ρ e).map (fun h => (.unit, setReg ρ r (.it ⟨h.1.1, h.1.2, true, 0⟩)))
  | .rfin r e => (A.range ρ e).map (fun h => (.unit, setReg ρ r (.it ⟨h.1.1, h.1.2, true, h.2⟩)))
  | .copy r r' => (ρ.iter r').map (fun p => (.unit, setReg ρ r (.it p)))
  | .base r r' => ((ρ.iter r').bind A.base?).map (fun p => (.unit, setReg ρ r (.it p)))
  | .inc r => ((ρ.iter r).bind (fun p => A.move? p 1)).map (fun p => (.unit, setReg ρ r (.it p)))
  | .dec r => ((ρ.iter r).bind (fun p => A.move? p (-1))).map (fun p => (.unit, setReg ρ r (.it p)))
  | .add r n => ((ρ.iter r).bind (fun p => A.move? p n)).map (fun p => (.unit, setReg ρ r (.it p)))
  | .equal r r' => (ρ.two r r').map (fun pq => (.bool (decide (pq.1.i = pq.2.i)), ρ))
  | .less r r' => (ρ.two r r').map (fun pq => (.bool (decide (pq.1.i < pq.2.i)), ρ))
  | .diff r r' => (ρ.two r r').map (fun pq => (.int ((pq.1.i : Int) - (pq.2.i : Int)), ρ))

open Classical in
/-- The registers that are still valid after a command completed: those whose array was not destroyed, resized, reindexed or reshaped. -/
noncomputable def ARegs.after (ρ : ARegs) (c : Cmd T) : ARegs :=
  fun r => (ρ r).bind (fun h => if c.Drops h.owner ∨ c.Relabels h.owner then none else some h)

/-- What has happened so far: the commands performed and what each returned (`none`: it threw). -/
abbrev HTrace (T : Type) := List (HCmd T × Option (HObs T))

/-- A client: from what has happened so far it decides on the next command, or stops. -/
abbrev HClient (T : Type) := HTrace T → Option (HCmd T)

/-- What may have happened in a run of a client that starts with no variables and no registers, and the state reached.  Every command stands for the
command of SpecProg.lean in which held handles and iterators are replaced by the expressions they stand for; a command that throws invalidates no
register. -/
inductive HClient.Reaches (dflt : T) (eq lt : T → T → Bool) (k : HClient T) : HTrace T → AState T → ARegs → Prop
  | start : HClient.Reaches dflt eq lt k [] (fun _ => none) (fun _ => none)
  | done {tr : HTrace T} {A A' : AState T} {ρ : ARegs} {h : HCmd T} {c : Cmd T} {o : CObs T} : HClient.Reaches dflt eq lt k tr A ρ → k tr = some h →
      h.cmd A ρ = some c → A.step dflt eq lt c = some (o, A') → HClient.Reaches dflt eq lt k (tr ++ [(h, some (.cmd o))]) A' (ρ.after c)
  | threw {tr : HTrace T} {A A' : AState T} {ρ : ARegs} {h : HCmd T} {c : Cmd T} : HClient.Reaches dflt eq lt k tr A ρ → k tr = some h →
      h.cmd A ρ = some c → A.Interrupted c A' → HClient.Reaches dflt eq lt k (tr ++ [(h, none)]) A' ρ
  | reg {tr : HTrace T} {A : AState T} {ρ ρ' : ARegs} {h : HCmd T} {o : HObs T} : HClient.Reaches dflt eq lt k tr A ρ → k tr = some h →
      A.regStep ρ h = some (o, ρ') → HClient.Reaches dflt eq lt k (tr ++ [(h, some o)]) A ρ'

/-- The client respects the documented preconditions, whatever happens. -/
def HClient.Legal (dflt : T) (eq lt : T → T → Bool) (k : HClient T) : Prop :=
  ∀ tr A ρ h, HClient.Reaches dflt eq lt k tr A ρ → k tr = some h → (∃ c, h.cmd A ρ = some c ∧ c.Legal A) ∨ ∃ r, A.regStep ρ h = some r

/-- Does the command allocate storage? -/
def HCmd.allocates : HCmd T → Bool
  | .plain c => c.allocates
  | .part (.convert _ _ _ _) => true
  | _ => false

/-- How many commands that allocate storage threw. -/
def hThrownAllocs (tr : HTrace T) : Nat := (tr.filter (fun p => p.1.allocates && p.2.isNone)).length

/-- How many commands threw. -/
def hThrows (tr : HTrace T) : Nat := (tr.filter (fun p => p.2.isNone)).length

/-! ### The same commands on the model of the library -/

/-- The registers: descriptors and iterator objects, as they were when they were put there. -/
abbrev CRegs := Nat → Option (Held Desc AnyIt)

/-- The iterator in a register. -/
def CRegs.iter (its : CRegs) (r : Nat) : Option AnyIt :=
  match its r with
  | some (.it i) => some i
  | _ => none

/-- The descriptor of an expression. -/
def Ex.desc (dbg : Bool) (its : CRegs) (w : World T) : Ex → Option Desc
  | .var x ss => w.lookup dbg x ss
  | .held r ss =>
    match its r with
    | some (.handle d) => Res.val? (resolve dbg ss d)
    | _ => none
  | .deref r ss => (its.iter r).bind (fun i => (Res.val? (i.deref dbg)).bind (fun d => Res.val? (resolve dbg ss d)))
  | .index r n ss => (its.iter r).bind (fun i => (Res.val? (i.index dbg n)).bind (fun d => Res.val? (resolve dbg ss d)))

/-- A command that may not throw. -/
def XRes.ofOption : Option (CObs T × World T) → XRes T
  | some (o, w) => .done o w
  | none => .failed

/-- A constructor. -/
def World.ctor (dbg : Bool) (dflt : T) (w : World T) (x : Nat) (c : Ctor) : Result T :=
  match c.run dbg dflt w.st with
  | .ok a s => .ok (w.set x (some a) s)
  | .throw s => .threw { w with st := s }
  | .assertFail _ => .failed
  | .ub => .failed

/-- A command on parts, once its expressions have been evaluated: the library calls of `execX`. -/
def World.execD (dbg : Bool) (dflt : T) (eq lt : T → T → Bool) (w : World T) : PCmd T Desc → XRes T
  | .convert x d so al => (w.ctor dbg dflt x (.convert d.extents.length d so al)).toX
  | .assign d d' => (w.mem (assignOp dbg false d d')).toX
  | .copyArray d d' => (w.mem (MultiArray.copyArray dbg d' d)).toX
  | .read d idx => .ofOption ((Out.val? (readElem dbg d idx w.st)).map (fun r => (.basic (.value r.1), { w with st := r.2 })))
  | .write d idx v => (w.mem (writeElem dbg d idx v)).toX
  | .forEach d f => (w.mem (MultiArray.forEach dbg f d.extents.length d)).toX
  | .traverse d => .ofOption ((w.lookAt dbg d).map (fun vs => (.values vs, w)))
  | .equal d d' => .ofOption ((Res.val? (equalRef dbg eq w.st d.extents.length d d')).map (fun b => (.bool b, w)))
  | .less d d' => .ofOption ((Res.val? (lessRef dbg lt w.st d.extents.length d d')).map (fun b => (.bool b, w)))
  | .shape d => .done (.shape d.bases d.extents) w

/-- What a command did. -/
inductive HRes (T : Type) where
  | done (o : HObs T) (w : World T) (its : CRegs)
  | threw (w : World T) (its : CRegs)
  | failed

/-- A command that leaves the registers alone. -/
def HRes.ofX (its : CRegs) : XRes T → HRes T
  | .done o w => .done (.cmd o) w its
  | .threw w => .threw w its
  | .failed => .failed

/-- An operation on registers: what it observes, and the new registers. -/
def HRes.ofReg (w : World T) : Option (HObs T × CRegs) → HRes T
  | some (o, its) => .done o w its
  | none => .failed

/-- A command on parts. -/
def HRes.ofPart (its : CRegs) (f : PCmd T Desc → XRes T) : Option (PCmd T Desc) → HRes T
  | some c => HRes.ofX its (f c)
  | none => .failed

/-- Operations on registers. -/
def World.regX (dbg : Bool) (w : World T) (its : CRegs) : HCmd T → Option (HObs T × CRegs)
  | .plain _ => none
  | .part _ => none
  | .hold r e => (e.desc dbg its w).map (fun d => (.unit, setReg its r (.handle d)))
  | .begin r e => ((e.desc dbg its w).bind (fun d => Res.val? d.begin)).map (fun i => (.unit, setReg its r (.it (.fwd i))))
  | .fin r e => ((e.desc dbg its w).bind (fun d => Res.val? d.end)).map (fun i => (.unit, setReg its r (.it (.fwd i))))
  | .rbegin r e => ((e.desc dbg its w).bind (fun d => Res.val? d.rbegin)).map (fun i => (.unit, setReg its r (.it (.bwd i))))
  | .rfin r e => ((e.desc dbg its w).bind (fun d => Res.val? d.rend)).map (fun i => (.unit, setReg its r (.it (.bwd i))))
  | .copy r r' => (its.iter r').map (fun i => (.unit, setReg its r (.it i)))
  | .base r r' => ((its.iter r').bind (fun i => Res.val? i.base)).map (fun i => (.unit, setReg its r (.it i)))
  | .inc r => (its.iter r).map (fun i => (.unit, setReg its r (.it i.inc)))
  | .dec r => (its.iter r).map (fun i => (.unit, setReg its r (.it i.dec)))
  | .add r n => (its.iter r).map (fun i => (.unit, setReg its r (.it (i.add n))))
  | .equal r r' => (its.iter r).bind (fun i => (its.iter r').bind (fun j => (Res.val? (i.equal j)).map (fun b => (.bool b, its))))
  | .less r r' => (its.iter r).bind (fun i => (its.iter r').bind (fun j => (Res.val? (i.less j)).map (fun b => (.bool b, its))))
  | .diff r r' => (its.iter r).bind (fun i => (its.iter r').bind (fun j => (Res.val? (i.diff j)).map (fun n => (.int n, its))))

/-- One command. -/
def World.execH (dbg : Bool) (dflt : T) (eq lt : T → T → Bool) (w : World T) (its : CRegs) : HCmd T → HRes T
  | .plain c => .ofX its (w.execX dbg dflt eq lt c)
  | .part c => .ofPart its (w.execD dbg dflt eq lt) (c.eval (Ex.desc dbg its w))
  | h => .ofReg w (w.regX dbg its h)

/-- Run a client for at most `n` more commands, catching exceptions; `none` if it runs into undefined behaviour or a failed
assertion. -/
def HClient.run (dbg : Bool) (dflt : T) (eq lt : T → T → Bool) (k : HClient T) : Nat → HTrace T → World T → CRegs → Option (HTrace T × World T × CRegs)
  | 0, tr, w, its => some (tr, w, its)
  | n + 1, tr, w, its =>
    match k tr with
    | none => some (tr, w, its)
    | some h =>
      match w.execH dbg dflt eq lt its h with
      | .done o w' its' => HClient.run dbg dflt eq lt k n (tr ++ [(h, some o)]) w' its'
      | .threw w' its' => HClient.run dbg dflt eq lt k n (tr ++ [(h, none)]) w' its'
      | .failed => none

/-- The iterator object one gets by taking the iterator anew: `d.begin() + i`, or `d.rbegin() + i`. -/
def freshIt (d : Desc) (rev : Bool) (i : Nat) : Option AnyIt :=
  if rev then (Res.val? d.rbegin).map (fun it => (AnyIt.bwd it).add (i : Int)) else (Res.val? d.begin).map (fun it => (AnyIt.fwd it).add (i : Int))

/-! ### On the 64-bit model of the library -/

/-- The descriptor of an expression. -/
def Ex.descM (dbg : Bool) (its : CRegs) (w : World T) : Ex → Option Desc
  | .var x ss => w.lookupM dbg x ss
  | .held r ss =>
    match its r with
    | some (.handle d) => Res.val? (resolveM dbg ss d)
    | _ => none
  | .deref r ss => (its.iter r).bind (fun i => (Res.val? (i.derefM dbg)).bind (fun d => Res.val? (resolveM dbg ss d)))
  | .index r n ss => (its.iter r).bind (fun i => (Res.val? (i.indexM dbg n)).bind (fun d => Res.val? (resolveM dbg ss d)))

/-- A command on parts, once its expressions have been evaluated: the library calls of `execXM`. -/
def World.execDM (dbg : Bool) (dflt : T) (eq lt : T → T → Bool) (w : World T) : PCmd T Desc → XRes T
  | .convert x d so al => (w.ctorX dbg dflt x (.convert d.extents.length d so al)).toX
  | .assign d d' => (w.mem (Machine.assignOpW dbg false eltCopy d d')).toX
  | .copyArray d d' => (w.mem (Machine.copyArrayW dbg eltCopy d' d)).toX
  | .read d idx => .ofOption ((Out.val? (Machine.readElem dbg d idx w.st)).map (fun r => (.basic (.value r.1), { w with st := r.2 })))
  | .write d idx v => (w.mem (Machine.writeElem dbg d idx v)).toX
  | .forEach d f => (w.mem (Machine.forEach dbg f d.extents.length d)).toX
  | .traverse d => .ofOption ((w.lookAtM dbg d).map (fun vs => (.values vs, w)))
  | .equal d d' => .ofOption ((Res.val? (Machine.equalRef dbg eq w.st d.extents.length d d')).map (fun b => (.bool b, w)))
  | .less d d' => .ofOption ((Res.val? (Machine.lessRef dbg lt w.st d.extents.length d d')).map (fun b => (.bool b, w)))
  | .shape d => .done (.shape d.bases d.extents) w

/-- Operations on registers.  (`==` and `base()` compute nothing.) -/
def World.regXM (dbg : Bool) (w : World T) (its : CRegs) : HCmd T → Option (HObs T × CRegs)
  | .plain _ => none
  | .part _ => none
  | .hold r e => (e.descM dbg its w).map (fun d => (.unit, setReg its r (.handle d)))
  | .begin r e => ((e.descM dbg its w).bind (fun d => Res.val? (Machine.begin d))).map (fun i => (.unit, setReg its r (.it (.fwd i))))
  | .fin r e => ((e.descM dbg its w).bind (fun d => Res.val? (Machine.«end» d))).map (fun i => (.unit, setReg its r (.it (.fwd i))))
  | .rbegin r e => ((e.descM dbg its w).bind (fun d => Res.val? (Machine.rbegin d))).map (fun i => (.unit, setReg its r (.it (.bwd i))))
  | .rfin r e => ((e.descM dbg its w).bind (fun d => Res.val? (Machine.rend d))).map (fun i => (.unit, setReg its r (.it (.bwd i))))
  | .copy r r' => (its.iter r').map (fun i => (.unit, setReg its r (.it i)))
  | .base r r' => ((its.iter r').bind (fun i => Res.val? i.base)).map (fun i => (.unit, setReg its r (.it i)))
  | .inc r => ((its.iter r).bind (fun i => Res.val? i.incM)).map (fun i => (.unit, setReg its r (.it i)))
  | .dec r => ((its.iter r).bind (fun i => Res.val? i.decM)).map (fun i => (.unit, setReg its r (.it i)))
  | .add r n => ((its.iter r).bind (fun i => Res.val? (i.addM n))).map (fun i => (.unit, setReg its r (.it i)))
  | .equal r r' => (its.iter r).bind (fun i => (its.iter r').bind (fun j => (Res.val? (i.equal j)).map (fun b => (.bool b, its))))
  | .less r r' => (its.iter r).bind (fun i => (its.iter r').bind (fun j => (Res.val? (i.lessM j)).map (fun b => (.bool b, its))))
  | .diff r r' => (its.iter r).bind (fun i => (its.iter r').bind (fun j => (Res.val? (i.diffM j)).map (fun n => (.int n, its))))

/-- One command. -/
def World.execHM (dbg : Bool) (dflt : T) (eq lt : T → T → Bool) (w : World T) (its : CRegs) : HCmd T → HRes T
  | .plain c => .ofX its (w.execXM dbg dflt eq lt c)
  | .part c => .ofPart its (w.execDM dbg dflt eq lt) (c.eval (Ex.descM dbg its w))
  | h => .ofReg w (w.regXM dbg its h)

/-- Run a client on the 64-bit model of the library. -/
def HClient.runM (dbg : Bool) (dflt : T) (eq lt : T → T → Bool) (k : HClient T) : Nat → HTrace T → World T → CRegs → Option (HTrace T × World T × CRegs)
  | 0, tr, w, its => some (tr, w, its)
  | n + 1, tr, w, its =>
    match k tr with
    | none => some (tr, w, its)
    | some h =>
      match w.execHM dbg dflt eq lt its h with
      | .done o w' its' => HClient.runM dbg dflt eq lt k n (tr ++ [(h, some o)]) w' its'
      | .threw w' its' => HClient.runM dbg dflt eq lt k n (tr ++ [(h, none)]) w' its'
      | .failed => none

/-- The views in the expression of an operation on registers fit. -/
def HCmd.ViewsFit (A : AState T) (ρ : ARegs) : HCmd T → Prop
  | .hold _ e | .begin _ e | .fin _ e | .rbegin _ e | .rfin _ e => ∀ h, A.path ρ e = some h → A.ExprFits h.1 h.2
  | _ => True

/-- Whatever happens, the client uses only views that fit and creates only arrays that fit (or tries to: an allocation may throw). -/
def HClient.Fits (dflt : T) (eq lt : T → T → Bool) (k : HClient T) : Prop :=
  ∀ tr A ρ h, HClient.Reaches dflt eq lt k tr A ρ → k tr = some h → h.ViewsFit A ρ ∧ ∀ c, h.cmd A ρ = some c → c.ViewsFit A ∧ NewFits dflt A c

end MultiArray.Spec
