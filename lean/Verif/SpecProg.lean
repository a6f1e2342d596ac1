import Verif.SpecHist
import Verif.SpecAbs
import Verif.Model.Compare

/-
Whole client programs over any number of arrays, subarrays and views: their abstract meaning, which mentions neither memory nor
strides, and the library calls they stand for.  Nothing here models library code; `exec` and `resolve` only call the
model of the library functions.
-/
set_option autoImplicit false

namespace MultiArray.Spec
open MultiArray
variable {T : Type}

/-! ### Parts of arrays -/

/-- One step of an expression that denotes a part of an array: `[i]`, or `[indices[x1]...[xn]]`, or the latter followed by
`reindex(bs)` on the view. -/
inductive Sel where
  | at (i : Int)
  | view (xs : List IndexArg)
  | viewFrom (xs : List IndexArg) (bs : List Int)

/-- A part of an array, abstractly: its own index bases and extents, and which index of the array each of its indices
stands for. -/
structure APart where
  bases : List Int
  extents : List Nat
  root : List Int → List Int

/-- The whole array. -/
def AbsArr.whole (a : AbsArr T) : APart := ⟨a.bases, a.extents, id⟩

/-- How many indices a range selects in a dimension `[b, b+e)`: those steps that do not reach the finish. -/
def stepCount (r : IndexRange) (b : Int) (e : Nat) : Nat :=
  ((List.range e).filter (fun (k : Nat) => if 0 < r.stride_
    then decide (rangeStart r b + (k : Int) * r.stride_ < rangeFinish r b e)
    else decide (rangeFinish r b e < rangeStart r b + (k : Int) * r.stride_))).length

/-- The extents of a view: one per range (integers drop their dimension). -/
def viewCounts : (ranges : List IndexRange) → (bases : List Int) → (extents : List Nat) → List Nat
  | r :: rs, b :: bs, e :: es => if r.degenerate_ then viewCounts rs bs es else stepCount r b e :: viewCounts rs bs es
  | _, _, _ => []

/-- One selection step. -/
def APart.sel (p : APart) : Sel → APart
  | .at i => ⟨p.bases.tail, p.extents.tail, fun idx => p.root (i :: idx)⟩
  | .view xs =>
    let rs := xs.map IndexArg.toRange
    let es := viewCounts rs p.bases p.extents
    ⟨List.replicate es.length 0, es, fun idx => p.root (selected rs p.bases idx)⟩
  | .viewFrom xs bs =>
    let rs := xs.map IndexArg.toRange
    ⟨bs, viewCounts rs p.bases p.extents, fun idx => p.root (selected rs p.bases (List.zipWith (· - ·) idx bs))⟩

/-- Arguments of a legal view expression: one per dimension; ranges are proper ranges and legal (C22) and do not start past
the end going backwards (C18); integers are not the two reserved extreme values. -/
def LegalArgs (p : APart) (xs : List IndexArg) : Prop :=
  xs ≠ [] ∧ LegalRanges p.bases p.extents (xs.map IndexArg.toRange) ∧ NoOverrun p.bases p.extents (xs.map IndexArg.toRange) ∧
  (∀ r, IndexArg.range r ∈ xs → r.degenerate_ = false) ∧ (∀ i, IndexArg.index i ∈ xs → -(2 ^ 63) < i ∧ i < 2 ^ 63 - 2)

/-- A legal selection step. -/
def APart.LegalSel (p : APart) : Sel → Prop
  | .at i => ∃ b bs e es, p.bases = b :: bs ∧ p.extents = e :: es ∧ b ≤ i ∧ i < b + (e : Int)
  | .view xs => LegalArgs p xs
  | .viewFrom xs bs => LegalArgs p xs ∧ bs.length = (viewCounts (xs.map IndexArg.toRange) p.bases p.extents).length

/-- A sequence of selection steps. -/
def APart.path (p : APart) : List Sel → APart
  | [] => p
  | s :: ss => (p.sel s).path ss

/-- Every step is legal. -/
def APart.LegalPath (p : APart) : List Sel → Prop
  | [] => True
  | s :: ss => p.LegalSel s ∧ (p.sel s).LegalPath ss

/-- The library calls: `operator[](index)`, `operator[](index_gen)`, `reindex`. -/
def resolve (dbg : Bool) : List Sel → Desc → Res Desc
  | [], d => .ok d
  | .at i :: ss, d => do resolve dbg ss (← d.bracket dbg i)
  | .view xs :: ss, d => do
    let g ← chainIndices IndexGen.empty xs
    let v ← d.slice dbg g
    resolve dbg ss v.desc
  | .viewFrom xs bs :: ss, d => do
    let g ← chainIndices IndexGen.empty xs
    let v ← d.slice dbg g
    let v ← v.reindexList bs
    resolve dbg ss v.desc

/-! ### The abstract machine -/

/-- The abstract state of a program: an abstract array for every live variable. -/
def AState (T : Type) : Type := Nat → Option (AbsArr T)

namespace AState

/-- Set a variable. -/
def set (A : AState T) (x : Nat) (a : Option (AbsArr T)) : AState T := fun y => if y = x then a else A y

/-- The element of variable `x` at index `idx`. -/
def get (A : AState T) (x : Nat) (idx : List Int) : Option T := (A x).bind (fun a => a.vals[a.at_ idx]?)

/-- Change the element of variable `x` at index `idx`. -/
def put (A : AState T) (x : Nat) (idx : List Int) (v : T) : Option (AState T) :=
  (A x).map (fun a => A.set x (some { a with vals := a.vals.set (a.at_ idx) v }))

/-- `x[ix] = y[iy]`. -/
def move (A : AState T) (x : Nat) (ix : List Int) (y : Nat) (iy : List Int) : Option (AState T) :=
  (A.get y iy).bind (A.put x ix)

/-- Copy part `q` of `y` to part `p` of `x`, element by element in lexicographic order of positions. -/
def copy (x : Nat) (p : APart) (y : Nat) (q : APart) : List (List Nat) → AState T → Option (AState T)
  | [], A => some A
  | k :: ks, A => (A.move x (p.root (atPos p.bases k)) y (q.root (atPos q.bases k))).bind (copy x p y q ks)

/-- Apply `f` to every element of part `p` of `x`. -/
def map (x : Nat) (p : APart) (f : T → T) : List (List Nat) → AState T → Option (AState T)
  | [], A => some A
  | k :: ks, A => (A.get x (p.root (atPos p.bases k))).bind (fun v =>
      (A.put x (p.root (atPos p.bases k)) (f v)).bind (map x p f ks))

/-- The elements of part `p` of `x`, in lexicographic order of positions. -/
def values (A : AState T) (x : Nat) (p : APart) : Option (List T) :=
  (positions p.extents).mapM (fun k => A.get x (p.root (atPos p.bases k)))

/-- The part denoted by a path from variable `x`. -/
def part (A : AState T) (x : Nat) (ss : List Sel) : Option APart := (A x).map (fun a => a.whole.path ss)

/-- `x ss` is a legal expression and denotes the part `p`. -/
def Part (A : AState T) (x : Nat) (ss : List Sel) (p : APart) : Prop :=
  ∃ a, A x = some a ∧ a.whole.LegalPath ss ∧ a.whole.path ss = p

end AState

/-- The storage sequence of an array of extents `es` whose element at position `k` is `f k`. -/
def layout (dflt : T) (so : StorageOrder) (es : List Nat) (f : List Nat → Option T) : List T :=
  (List.range es.prod).map (fun p =>
    match (positions es).find? (fun k => decide (place so es k = p)) with
    | some k => (f k).getD dflt
    | none => dflt)

/-- How a variable is initialised.  `convert y ss so`: from the part `ss` of variable `y`. -/
inductive CInit where
  | default (n alloc : Nat)
  | extents (n : Nat) (es : List Nat) (so : StorageOrder) (alloc : Nat)
  | gen (n : Nat) (rs : List ExtentRange) (so : StorageOrder) (alloc : Nat)
  | copy (y : Nat)
  | convert (y : Nat) (ss : List Sel) (so : StorageOrder) (alloc : Nat)

/-- Commands. -/
inductive Cmd (T : Type) where
  | construct (x : Nat) (i : CInit)
  | destroy (x : Nat)
  /-- any operation of C52 on variable `x` -/
  | on (x : Nat) (op : AOp T)
  /-- `x = y` -/
  | assign (x y : Nat)
  /-- `x ss = y ss'` for parts -/
  | assignPart (x : Nat) (ss : List Sel) (y : Nat) (ss' : List Sel)
  /-- `boost::copy_array(y ss', x ss)` -/
  | copyArray (x : Nat) (ss : List Sel) (y : Nat) (ss' : List Sel)
  /-- `x ss (idx)` -/
  | read (x : Nat) (ss : List Sel) (idx : List Int)
  /-- `x ss (idx) = v` -/
  | write (x : Nat) (ss : List Sel) (idx : List Int) (v : T)
  /-- `for_each(x ss, f)` -/
  | forEach (x : Nat) (ss : List Sel) (f : T → T)
  /-- nested loops over iterators, reading every element -/
  | traverse (x : Nat) (ss : List Sel)
  /-- `x ss == y ss'` -/
  | equal (x : Nat) (ss : List Sel) (y : Nat) (ss' : List Sel)
  /-- `x ss < y ss'` -/
  | less (x : Nat) (ss : List Sel) (y : Nat) (ss' : List Sel)
  /-- `index_bases()`, `shape()` of a part (`num_dimensions()`, `size()`, `num_elements()` are determined by them, C32) -/
  | shape (x : Nat) (ss : List Sel)

/-- What a command returns. -/
inductive CObs (T : Type) where
  | basic (o : Obs T)
  | bool (b : Bool)
  | values (vs : List T)
  | shape (bases : List Int) (extents : List Nat)
deriving DecidableEq

/-- The nested-list value of a part. -/
def AState.nestedValue (dflt : T) (A : AState T) (x : Nat) (p : APart) (n : Nat) : Val T n :=
  nested n p.extents (fun k => (A.get x (p.root (atPos p.bases k))).getD dflt)

/-- Are the elements at the same positions of two parts equal? -/
def AState.sameElems (eq : T → T → Bool) (A : AState T) (x : Nat) (p : APart) (y : Nat) (q : APart) : Bool :=
  (positions p.extents).all (fun k =>
    match A.get x (p.root (atPos p.bases k)), A.get y (q.root (atPos q.bases k)) with
    | some v, some v' => eq v v'
    | _, _ => false)

/-- The abstract array a variable is initialised with. -/
def CInit.value (dflt : T) (A : AState T) : CInit → Option (AbsArr T)
  | .default n _ => some ⟨List.replicate n 0, List.replicate n 0, StorageOrder.cOrder n, List.replicate (List.replicate n 0).prod dflt⟩
  | .extents n es so _ => some ⟨List.replicate n 0, es, so, List.replicate es.prod dflt⟩
  | .gen _ rs so _ => some ⟨reqBases rs, reqExtents rs, so, List.replicate (reqExtents rs).prod dflt⟩
  | .copy y => A y
  | .convert y ss so _ => (A.part y ss).map (fun p =>
      ⟨p.bases, p.extents, so, layout dflt so p.extents (fun k => A.get y (p.root (atPos p.bases k)))⟩)

open Classical in
/-- The abstract meaning of a command. -/
noncomputable def AState.step (dflt : T) (eq lt : T → T → Bool) (A : AState T) : Cmd T → Option (CObs T × AState T)
  | .construct x i => (i.value dflt A).map (fun a => (.basic .unit, A.set x (some a)))
  | .destroy x => some (.basic .unit, A.set x none)
  | .on x op => (A x).bind (fun a => (a.step dflt op).map (fun r => (.basic r.1, A.set x (some r.2))))
  | .assign x y =>
    if x = y then some (.basic .unit, A)
    else (A.part x []).bind (fun p => (A.part y []).bind (fun q => (AState.copy x p y q (positions p.extents) A).map (fun A' => (.basic .unit, A'))))
  | .assignPart x ss y ss' | .copyArray x ss y ss' =>
    (A.part x ss).bind (fun p => (A.part y ss').bind (fun q => (AState.copy x p y q (positions p.extents) A).map (fun A' => (.basic .unit, A'))))
  | .read x ss idx => (A.part x ss).bind (fun p => (A.get x (p.root idx)).map (fun v => (.basic (.value v), A)))
  | .write x ss idx v => (A.part x ss).bind (fun p => (A.put x (p.root idx) v).map (fun A' => (.basic .unit, A')))
  | .forEach x ss f => (A.part x ss).bind (fun p => (AState.map x p f (positions p.extents) A).map (fun A' => (.basic .unit, A')))
  | .traverse x ss => (A.part x ss).bind (fun p => (A.values x p).map (fun vs => (.values vs, A)))
  | .equal x ss y ss' => (A.part x ss).bind (fun p => (A.part y ss').map (fun q =>
      (.bool (decide (p.extents = q.extents) && A.sameElems eq x p y q), A)))
  | .less x ss y ss' => (A.part x ss).bind (fun p => (A.part y ss').map (fun q =>
      (.bool (decide (ValLess lt p.extents.length (A.nestedValue dflt x p p.extents.length) (A.nestedValue dflt y q p.extents.length))), A)))
  | .shape x ss => (A.part x ss).map (fun p => (.shape p.bases p.extents, A))

/-- Preconditions of an initialisation. -/
def CInit.Legal (A : AState T) : CInit → Prop
  | .default _ _ => True
  | .extents n es so _ => ValidOrder n so ∧ es.length = n
  | .gen n rs so _ => ValidOrder n so ∧ rs.length = n ∧ LegalExtents rs
  | .copy y => ∃ a, A y = some a
  | .convert y ss so _ => ∃ p, A.Part y ss p ∧ 0 < p.extents.length ∧ ValidOrder p.extents.length so

/-- Preconditions of a command, in terms of the abstract state only. -/
def Cmd.Legal (A : AState T) : Cmd T → Prop
  | .construct x i => A x = none ∧ i.Legal A
  | .destroy x => ∃ a, A x = some a
  | .on x op => ∃ a, A x = some a ∧ a.Legal op
  | .assign x y => ∃ a b, A x = some a ∧ A y = some b ∧ a.extents = b.extents
  | .assignPart x ss y ss' | .copyArray x ss y ss' => ∃ p q, A.Part x ss p ∧ A.Part y ss' q ∧ p.extents = q.extents
  | .read x ss idx | .write x ss idx _ => ∃ p, A.Part x ss p ∧ InBox p.bases p.extents idx
  | .forEach x ss _ | .traverse x ss | .shape x ss => ∃ p, A.Part x ss p
  | .equal x ss y ss' | .less x ss y ss' => ∃ p q, A.Part x ss p ∧ A.Part y ss' q ∧ p.extents.length = q.extents.length

/-- Run a program on the abstract state. -/
noncomputable def AState.run (dflt : T) (eq lt : T → T → Bool) : List (Cmd T) → AState T → Option (List (CObs T) × AState T)
  | [], A => some ([], A)
  | c :: cs, A => (A.step dflt eq lt c).bind (fun r => (AState.run dflt eq lt cs r.2).map (fun r' => (r.1 :: r'.1, r'.2)))

/-- Every command is legal where it is performed. -/
def AState.LegalRun (dflt : T) (eq lt : T → T → Bool) : List (Cmd T) → AState T → Prop
  | [], _ => True
  | c :: cs, A => c.Legal A ∧ ∀ o A', A.step dflt eq lt c = some (o, A') → AState.LegalRun dflt eq lt cs A'

/-! ### The same commands on the model of the library -/

/-- The outcome of an operation of C47 that should complete. -/
def Result.ok? : Result T → Option (World T)
  | .ok w => some w
  | _ => none

/-- The descriptor of the expression `x ss`. -/
def World.lookup (dbg : Bool) (w : World T) (x : Nat) (ss : List Sel) : Option Desc :=
  (w.objs x).bind (fun a => Res.val? (resolve dbg ss a.ref.desc))

/-- The operation of C47 that a command with parts stands for, once its expressions are evaluated. -/
def World.simple (dbg : Bool) (dflt : T) (w : World T) (op : Op T) : Option (CObs T × World T) :=
  (Result.ok? (w.step dbg dflt op)).map (fun w' => (.basic .unit, w'))

/-- One command on the model of the library; `none` if it throws, fails an assertion or is undefined. -/
def World.exec (dbg : Bool) (dflt : T) (eq lt : T → T → Bool) (w : World T) : Cmd T → Option (CObs T × World T)
  | .construct x i =>
    match i with
    | .default n al => w.simple dbg dflt (.construct x (.default n al))
    | .extents n es so al => w.simple dbg dflt (.construct x (.extents n es so al))
    | .gen n rs so al => w.simple dbg dflt (.construct x (.gen n rs so al))
    | .copy y => w.simple dbg dflt (.construct x (.copy y))
    | .convert y ss so al => (w.lookup dbg y ss).bind (fun d => w.simple dbg dflt (.construct x (.convert y d so al)))
  | .destroy x => w.simple dbg dflt (.destroy x)
  | .on x op => (w.objs x).bind (fun a => (concStep dbg dflt a w.st op).map (fun r => (.basic r.1, w.set x (some r.2.1) r.2.2)))
  | .assign x y => w.simple dbg dflt (.assign x y)
  | .assignPart x ss y ss' => (w.lookup dbg x ss).bind (fun d => (w.lookup dbg y ss').bind (fun d' =>
      w.simple dbg dflt (.assignPart x d y d')))
  | .copyArray x ss y ss' => (w.lookup dbg x ss).bind (fun d => (w.lookup dbg y ss').bind (fun d' =>
      w.simple dbg dflt (.copyArray x d y d')))
  | .read x ss idx => (w.lookup dbg x ss).bind (fun d =>
      (Out.val? (readElem dbg d idx w.st)).map (fun r => (.basic (.value r.1), { w with st := r.2 })))
  | .write x ss idx v => (w.lookup dbg x ss).bind (fun d => w.simple dbg dflt (.write x d idx v))
  | .forEach x ss f => (w.lookup dbg x ss).bind (fun d => w.simple dbg dflt (.forEach x d f))
  | .traverse x ss => (w.lookup dbg x ss).bind (fun d =>
      (Res.val? (nestedLoop dbg d.extents.sum d.extents.length d)).bind (fun ps => ps.bind (fun ps =>
        (ps.mapM (fun p => w.st.get? p)).map (fun vs => (.values vs, w)))))
  | .equal x ss y ss' => (w.lookup dbg x ss).bind (fun d => (w.lookup dbg y ss').bind (fun d' =>
      (Res.val? (equalRef dbg eq w.st d.extents.length d d')).map (fun b => (.bool b, w))))
  | .less x ss y ss' => (w.lookup dbg x ss).bind (fun d => (w.lookup dbg y ss').bind (fun d' =>
      (Res.val? (lessRef dbg lt w.st d.extents.length d d')).map (fun b => (.bool b, w))))
  | .shape x ss => (w.lookup dbg x ss).map (fun d => (.shape d.bases d.extents, w))

/-- Run a program on the model of the library. -/
def World.execAll (dbg : Bool) (dflt : T) (eq lt : T → T → Bool) : List (Cmd T) → World T → Option (List (CObs T) × World T)
  | [], w => some ([], w)
  | c :: cs, w => (w.exec dbg dflt eq lt c).bind (fun r => (World.execAll dbg dflt eq lt cs r.2).map (fun r' => (r.1 :: r'.1, r'.2)))

/-- The running program `w` represents the abstract state `A`: the same variables are live, each library object represents its abstract
array in storage of its own, all storage belongs to a live variable, and no exceptions are due. -/
structure World.Rep (w : World T) (A : AState T) : Prop where
  valid : w.Valid
  noLeak : w.NoLeak
  sched : w.st.sched = []
  live : ∀ x a, w.objs x = some a → ∃ abs, A x = some abs ∧ Represents w.st a abs
  dead : ∀ x, w.objs x = none → A x = none

end MultiArray.Spec
