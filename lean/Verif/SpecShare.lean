import Verif.SpecProg
import Verif.Model.Handles

/-
Client programs with shared storage: arrays that own their elements (`multi_array`), references to existing memory (`multi_array_ref`,
over the client's own buffers or over the storage of another array), and held views and subarrays - all kept in variables, used after later changes
of the objects they came from.  First the abstract machine, which knows storages (sequences of values) and, for each variable,
which storage it refers to, its index bases and extents and the place of each element - no pointers, strides or offsets.  Then the library calls the commands
stand for.  Nothing here models library code; `SWorld.exec` only calls the model of the library functions.
-/
set_option autoImplicit false

namespace MultiArray.Spec
open MultiArray
variable {T : Type}

/-! ### The abstract machine -/

/-- A part of a storage, seen as an array: its index bases and extents, and the place in the storage of the element at each index. -/
structure SPart where
  store : Nat
  bases : List Int
  extents : List Nat
  place : List Int → Nat

/-- The part seen as an array of its own. -/
def SPart.whole (p : SPart) : APart := ⟨p.bases, p.extents, id⟩

/-- The part selected by a path (`[i]`, `[indices[...]...]`, C67). -/
def SPart.path (p : SPart) (ss : List Sel) : SPart :=
  ⟨p.store, (p.whole.path ss).bases, (p.whole.path ss).extents, fun idx => p.place ((p.whole.path ss).root idx)⟩

/-- Change the index bases. -/
def SPart.reindex (p : SPart) (bs : List Int) : SPart :=
  ⟨p.store, bs, p.extents, fun idx => p.place (List.zipWith (· + ·) p.bases (List.zipWith (· - ·) idx bs))⟩

/-- A whole array laid out in a storage from place `first` on. -/
structure SArr where
  store : Nat
  first : Nat
  bases : List Int
  extents : List Nat
  order : StorageOrder

/-- The array as a part of its storage. -/
def SArr.part (h : SArr) : SPart :=
  ⟨h.store, h.bases, h.extents, fun idx => h.first + place h.order h.extents (posList h.bases idx)⟩

/-- Variables.  `owner`: a `multi_array`; `ref`: a `multi_array_ref`; `view`: a held view; `sub o p`: a held subarray `p` obtained from the object
`o`; `stale`: a held subarray whose object has been changed or destroyed (subarrays refer to the shape and index bases of
their object, C54, C58: the client must not use it any more); `buffer`: memory of the client itself. -/
inductive SVar where
  | owner (h : SArr)
  | ref (h : SArr)
  | view (p : SPart)
  | sub (o : Nat) (p : SPart)
  | stale
  | buffer (store : Nat)

/-- The array-like value of a variable. -/
def SVar.part : SVar → Option SPart
  | .owner h | .ref h => some h.part
  | .view p | .sub _ p => some p
  | .stale | .buffer _ => none

/-- The abstract state: the live storages and their values, how many storages there have been, and the variables. -/
structure SState (T : Type) where
  stores : Nat → Option (List T)
  count : Nat
  vars : Nat → Option SVar

namespace SState

/-- A held subarray of `x` becomes stale. -/
def invalidate (x : Nat) : Option SVar → Option SVar
  | some (.sub o p) => if o = x then some .stale else some (.sub o p)
  | v => v

/-- Set or remove variable `x`. -/
def setVar (A : SState T) (x : Nat) (v : Option SVar) : SState T :=
  { A with vars := fun y => if y = x then v else invalidate x (A.vars y) }

/-- Set or release a storage. -/
def setStore (A : SState T) (i : Nat) (vs : Option (List T)) : SState T :=
  { A with stores := fun j => if j = i then vs else A.stores j }

/-- A new storage. -/
def addStore (A : SState T) (vs : List T) : SState T :=
  { A with stores := fun j => if j = A.count then some vs else A.stores j, count := A.count + 1 }

/-- The element of `p` at `idx`. -/
def get (A : SState T) (p : SPart) (idx : List Int) : Option T := (A.stores p.store).bind (fun vs => vs[p.place idx]?)

/-- Change the element of `p` at `idx`. -/
def put (A : SState T) (p : SPart) (idx : List Int) (v : T) : Option (SState T) :=
  (A.stores p.store).map (fun vs => A.setStore p.store (some (vs.set (p.place idx) v)))

/-- Copy `q` to `p`, element by element in lexicographic order of positions. -/
def copy (p q : SPart) : List (List Nat) → SState T → Option (SState T)
  | [], A => some A
  | k :: ks, A => (A.get q (atPos q.bases k)).bind (fun v => (A.put p (atPos p.bases k) v).bind (copy p q ks))

/-- Apply `f` to every element of `p`. -/
def map (p : SPart) (f : T → T) : List (List Nat) → SState T → Option (SState T)
  | [], A => some A
  | k :: ks, A => (A.get p (atPos p.bases k)).bind (fun v => (A.put p (atPos p.bases k) (f v)).bind (map p f ks))

/-- The elements of `p` in lexicographic order of positions. -/
def values (A : SState T) (p : SPart) : Option (List T) := (positions p.extents).mapM (fun k => A.get p (atPos p.bases k))

/-- Are the elements at the same positions of two parts equal? -/
def sameElems (eq : T → T → Bool) (A : SState T) (p q : SPart) : Bool :=
  (positions p.extents).all (fun k =>
    match A.get p (atPos p.bases k), A.get q (atPos q.bases k) with
    | some v, some v' => eq v v'
    | _, _ => false)

/-- The nested-list value of a part. -/
def nestedValue (dflt : T) (A : SState T) (p : SPart) (n : Nat) : Val T n :=
  nested n p.extents (fun k => (A.get p (atPos p.bases k)).getD dflt)

/-- The part denoted by the expression `x ss`. -/
def part (A : SState T) (x : Nat) (ss : List Sel) : Option SPart := ((A.vars x).bind SVar.part).map (fun p => p.path ss)

/-- `x ss` is a legal expression, on existing storage, and denotes the part `p`. -/
def Part (A : SState T) (x : Nat) (ss : List Sel) (p : SPart) : Prop :=
  ∃ v p0, A.vars x = some v ∧ v.part = some p0 ∧ A.stores p0.store ≠ none ∧ p0.whole.LegalPath ss ∧ p0.path ss = p

end SState

/-- Commands. -/
inductive SCmd (T : Type) where
  /-- the client gets memory of its own, holding `vs` -/
  | buffer (x : Nat) (vs : List T)
  /-- a `multi_array` -/
  | construct (x : Nat) (i : CInit)
  /-- `multi_array_ref x(p + first, es, so)`, `p` the data pointer of `y` (a buffer, an array or a reference) -/
  | refTo (x y first n : Nat) (es : List Nat) (so : StorageOrder)
  /-- `multi_array_ref x(p + first, extents[...]..., so)` with index ranges -/
  | refGen (x y first n : Nat) (rs : List ExtentRange) (so : StorageOrder)
  /-- `multi_array_ref x(y)`, `y` an array or a reference: shallow -/
  | refCopy (x y : Nat)
  /-- `auto x = y ss [indices[...]...]`: hold a view -/
  | hold (x y : Nat) (ss : List Sel) (xs : List IndexArg)
  /-- `auto x = y`, `y` a held view: shallow -/
  | holdCopy (x y : Nat)
  /-- `auto x = y[i]`: hold a subarray -/
  | holdSub (x y : Nat) (i : Int)
  | destroy (x : Nat)
  /-- `x.reindex(bs)`, `x` an array, a reference or a view -/
  | reindex (x : Nat) (bs : List Int)
  /-- `x.reshape(es)`, `x` an array or a reference -/
  | reshape (x : Nat) (es : List Nat)
  /-- `x.resize(extents[...]...)` -/
  | resize (x : Nat) (rs : List ExtentRange)
  /-- `x.assign(first, last)`, `x` an array or a reference -/
  | fill (x : Nat) (input : List T)
  /-- `x ss = y ss'` -/
  | assign (x : Nat) (ss : List Sel) (y : Nat) (ss' : List Sel)
  /-- `boost::copy_array(y ss', x ss)` -/
  | copyArray (x : Nat) (ss : List Sel) (y : Nat) (ss' : List Sel)
  /-- `x ss (idx)` -/
  | read (x : Nat) (ss : List Sel) (idx : List Int)
  /-- `x ss (idx) = v` -/
  | write (x : Nat) (ss : List Sel) (idx : List Int) (v : T)
  /-- `for_each(x ss, f)` -/
  | forEach (x : Nat) (ss : List Sel) (f : T → T)
  /-- nested loops over iterators, reading every element -/
  | traverse (x : Nat) (ss : List Sel)
  /-- `x ss == y ss'` -/
  | equal (x : Nat) (ss : List Sel) (y : Nat) (ss' : List Sel)
  /-- `x ss < y ss'` -/
  | less (x : Nat) (ss : List Sel) (y : Nat) (ss' : List Sel)
  /-- `index_bases()`, `shape()` -/
  | shape (x : Nat) (ss : List Sel)

namespace SState

/-- The array that a constructor makes: bases, extents, order, values. -/
def initValue (dflt : T) (A : SState T) : CInit → Option (AbsArr T)
  | .default n _ => some ⟨List.replicate n 0, List.replicate n 0, StorageOrder.cOrder n, List.replicate (List.replicate n 0).prod dflt⟩
  | .extents n es so _ => some ⟨List.replicate n 0, es, so, List.replicate es.prod dflt⟩
  | .gen _ rs so _ => some ⟨reqBases rs, reqExtents rs, so, List.replicate (reqExtents rs).prod dflt⟩
  | .copy y =>
    match A.vars y with
    | some (.owner h) => (A.stores h.store).map (fun vs => ⟨h.bases, h.extents, h.order, vs⟩)
    | _ => none
  | .convert y ss so _ => (A.part y ss).map (fun p =>
      ⟨p.bases, p.extents, so, layout dflt so p.extents (fun k => A.get p (atPos p.bases k))⟩)

/-- A new owner: its storage is new. -/
def addOwner (A : SState T) (x : Nat) (a : AbsArr T) : SState T :=
  (A.addStore a.vals).setVar x (some (.owner ⟨A.count, 0, a.bases, a.extents, a.order⟩))

/-- The storage of a variable that has a data pointer, and the place it points to. -/
def dataOf (A : SState T) (y : Nat) : Option (Nat × Nat) :=
  match A.vars y with
  | some (.owner h) | some (.ref h) => some (h.store, h.first)
  | some (.buffer i) => some (i, 0)
  | _ => none

/-- The object that subarrays taken from `y` belong to: that of `y` if `y` is itself a held subarray, else `y`. -/
def objectOf (A : SState T) (y : Nat) : Nat :=
  match A.vars y with
  | some (.sub o _) => o
  | _ => y

open Classical in
/-- The abstract meaning of a command. -/
noncomputable def step (dflt : T) (eq lt : T → T → Bool) (A : SState T) : SCmd T → Option (CObs T × SState T)
  | .buffer x vs => some (.basic .unit, (A.addStore vs).setVar x (some (.buffer A.count)))
  | .construct x i => (A.initValue dflt i).map (fun a => (.basic .unit, A.addOwner x a))
  | .refTo x y first n es so => (A.dataOf y).map (fun d =>
      (.basic .unit, A.setVar x (some (.ref ⟨d.1, d.2 + first, List.replicate n 0, es, so⟩))))
  | .refGen x y first _ rs so => (A.dataOf y).map (fun d =>
      (.basic .unit, A.setVar x (some (.ref ⟨d.1, d.2 + first, reqBases rs, reqExtents rs, so⟩))))
  | .refCopy x y =>
    match A.vars y with
    | some (.owner h) | some (.ref h) => some (.basic .unit, A.setVar x (some (.ref h)))
    | _ => none
  | .hold x y ss xs => (A.part y (ss ++ [.view xs])).map (fun p => (.basic .unit, A.setVar x (some (.view p))))
  | .holdCopy x y =>
    match A.vars y with
    | some (.view p) => some (.basic .unit, A.setVar x (some (.view p)))
    | _ => none
  | .holdSub x y i => (A.part y [.at i]).map (fun p => (.basic .unit, A.setVar x (some (.sub (A.objectOf y) p))))
  | .destroy x =>
    match A.vars x with
    | some (.owner h) => some (.basic .unit, (A.setStore h.store none).setVar x none)
    | some (.buffer i) => some (.basic .unit, (A.setStore i none).setVar x none)
    | _ => some (.basic .unit, A.setVar x none)
  | .reindex x bs =>
    match A.vars x with
    | some (.owner h) => some (.basic .unit, A.setVar x (some (.owner { h with bases := bs })))
    | some (.ref h) => some (.basic .unit, A.setVar x (some (.ref { h with bases := bs })))
    | some (.view p) => some (.basic .unit, A.setVar x (some (.view (p.reindex bs))))
    | _ => none
  | .reshape x es =>
    match A.vars x with
    | some (.owner h) => some (.basic .unit, A.setVar x (some (.owner { h with extents := es })))
    | some (.ref h) => some (.basic .unit, A.setVar x (some (.ref { h with extents := es })))
    | _ => none
  | .resize x rs =>
    match A.vars x with
    | some (.owner h) => (A.stores h.store).map (fun vs =>
        (.basic .unit, (A.setStore h.store none).addOwner x ⟨reqBases rs, reqExtents rs, h.order,
          AbsArr.resizedVals dflt ⟨h.bases, h.extents, h.order, vs⟩ (reqExtents rs)⟩))
    | _ => none
  | .fill x input =>
    match A.vars x with
    | some (.owner h) | some (.ref h) => (A.stores h.store).map (fun vs =>
        (.basic .unit, A.setStore h.store (some (
          vs.take h.first ++ input.take h.extents.prod ++ vs.drop (h.first + (input.take h.extents.prod).length)))))
    | _ => none
  | .assign x ss y ss' | .copyArray x ss y ss' =>
    (A.part x ss).bind (fun p => (A.part y ss').bind (fun q => (SState.copy p q (positions p.extents) A).map (fun A' => (.basic .unit, A'))))
  | .read x ss idx => (A.part x ss).bind (fun p => (A.get p idx).map (fun v => (.basic (.value v), A)))
  | .write x ss idx v => (A.part x ss).bind (fun p => (A.put p idx v).map (fun A' => (.basic .unit, A')))
  | .forEach x ss f => (A.part x ss).bind (fun p => (SState.map p f (positions p.extents) A).map (fun A' => (.basic .unit, A')))
  | .traverse x ss => (A.part x ss).bind (fun p => (A.values p).map (fun vs => (.values vs, A)))
  | .equal x ss y ss' => (A.part x ss).bind (fun p => (A.part y ss').map (fun q =>
      (.bool (decide (p.extents = q.extents) && A.sameElems eq p q), A)))
  | .less x ss y ss' => (A.part x ss).bind (fun p => (A.part y ss').map (fun q =>
      (.bool (decide (ValLess lt p.extents.length (A.nestedValue dflt p p.extents.length) (A.nestedValue dflt q p.extents.length))), A)))
  | .shape x ss => (A.part x ss).map (fun p => (.shape p.bases p.extents, A))

/-- Preconditions of a constructor. -/
def InitLegal (A : SState T) : CInit → Prop
  | .default _ _ => True
  | .extents n es so _ => ValidOrder n so ∧ es.length = n
  | .gen n rs so _ => ValidOrder n so ∧ rs.length = n ∧ LegalExtents rs
  | .copy y => ∃ h, A.vars y = some (.owner h)
  | .convert y ss so _ => ∃ p, A.Part y ss p ∧ 0 < p.extents.length ∧ ValidOrder p.extents.length so

/-- `y` has a data pointer into existing storage, and there are `size` elements from `first` on. -/
def HasRoom (A : SState T) (y first size : Nat) : Prop :=
  ∃ i j vs, A.dataOf y = some (i, j) ∧ A.stores i = some vs ∧ j + first + size ≤ vs.length

/-- Preconditions of a command, in terms of the abstract state only. -/
def Legal (A : SState T) : SCmd T → Prop
  | .buffer x _ => A.vars x = none
  | .construct x i => A.vars x = none ∧ A.InitLegal i
  | .refTo x y first n es so => A.vars x = none ∧ ValidOrder n so ∧ es.length = n ∧ A.HasRoom y first es.prod
  | .refGen x y first n rs so => A.vars x = none ∧ ValidOrder n so ∧ rs.length = n ∧ LegalExtents rs ∧ A.HasRoom y first (reqExtents rs).prod
  | .refCopy x y => A.vars x = none ∧ ∃ h, A.vars y = some (.owner h) ∨ A.vars y = some (.ref h)
  | .hold x y ss xs => A.vars x = none ∧ ∃ p, A.Part y (ss ++ [.view xs]) p
  | .holdCopy x y => A.vars x = none ∧ ∃ p, A.vars y = some (.view p)
  | .holdSub x y i => A.vars x = none ∧ ∃ p, A.Part y [.at i] p
  | .destroy x => ∃ v, A.vars x = some v
  | .reindex x bs => (∃ h, (A.vars x = some (.owner h) ∨ A.vars x = some (.ref h)) ∧ bs.length = h.extents.length) ∨
      (∃ p, A.vars x = some (.view p) ∧ bs.length = p.extents.length)
  | .reshape x es => ∃ h, (A.vars x = some (.owner h) ∨ A.vars x = some (.ref h)) ∧ es.length = h.extents.length ∧ es.prod = h.extents.prod
  | .resize x rs => ∃ h, A.vars x = some (.owner h) ∧ rs.length = h.extents.length ∧ LegalExtents rs ∧ Representable h.bases h.extents
  | .fill x _ => ∃ h, (A.vars x = some (.owner h) ∨ A.vars x = some (.ref h)) ∧ A.stores h.store ≠ none
  | .assign x ss y ss' | .copyArray x ss y ss' => ∃ p q, A.Part x ss p ∧ A.Part y ss' q ∧ p.extents = q.extents
  | .read x ss idx | .write x ss idx _ => ∃ p, A.Part x ss p ∧ InBox p.bases p.extents idx
  | .forEach x ss _ | .traverse x ss | .shape x ss => ∃ p, A.Part x ss p
  | .equal x ss y ss' | .less x ss y ss' => ∃ p q, A.Part x ss p ∧ A.Part y ss' q ∧ p.extents.length = q.extents.length

/-- Run a program on the abstract state. -/
noncomputable def run (dflt : T) (eq lt : T → T → Bool) : List (SCmd T) → SState T → Option (List (CObs T) × SState T)
  | [], A => some ([], A)
  | c :: cs, A => (A.step dflt eq lt c).bind (fun r => (run dflt eq lt cs r.2).map (fun r' => (r.1 :: r'.1, r'.2)))

/-- Every command is legal where it is performed. -/
def LegalRun (dflt : T) (eq lt : T → T → Bool) : List (SCmd T) → SState T → Prop
  | [], _ => True
  | c :: cs, A => A.Legal c ∧ ∀ o A', A.step dflt eq lt c = some (o, A') → LegalRun dflt eq lt cs A'

/-- The start: no storage, no variables. -/
def start : SState T := ⟨fun _ => none, 0, fun _ => none⟩

end SState

/-! ### The same commands on the model of the library -/

/-- What a variable holds in the running program. -/
inductive CVar where
  | owner (a : MArr)
  | ref (a : ARef)
  | view (v : View)
  | sub (s : SubObj)
  | buffer (p : Ptr) (n : Nat)

/-- A running program. -/
structure SWorld (T : Type) where
  vars : Nat → Option CVar
  st : St T

namespace SWorld

/-- Set or remove a variable. -/
def setVar (w : SWorld T) (x : Nat) (v : Option CVar) (s : St T) : SWorld T := ⟨fun y => if y = x then v else w.vars y, s⟩

/-- The objects that subarrays can refer to. -/
def scope (w : SWorld T) : Scope := fun x =>
  match w.vars x with
  | some (.owner a) => some (.array a.ref)
  | some (.ref a) => some (.array a)
  | some (.view v) => some (.view v)
  | _ => none

/-- What a variable denotes now; a held subarray reads its shape, strides and index bases from the object it came from. -/
def desc (w : SWorld T) (x : Nat) : Option Desc :=
  match w.vars x with
  | some (.owner a) => some a.ref.desc
  | some (.ref a) => some a.desc
  | some (.view v) => some v.desc
  | some (.sub s) => Res.val? (s.desc w.scope)
  | _ => none

/-- The expression `x ss`. -/
def lookup (dbg : Bool) (w : SWorld T) (x : Nat) (ss : List Sel) : Option Desc := (w.desc x).bind (fun d => Res.val? (resolve dbg ss d))

/-- The data pointer of a buffer, `data()` of an array or reference. -/
def dataOf (w : SWorld T) (y : Nat) : Option Ptr :=
  match w.vars y with
  | some (.owner a) => some a.ref.data
  | some (.ref a) => some a.data
  | some (.buffer p _) => some p
  | _ => none

/-- The client gets memory of its own (`new T[n]{...}`, a `std::vector`: not part of the library). -/
def newBuffer (s : St T) (vs : List T) : St T :=
  { s with heap := fun b => if b = s.next then some ⟨0, vs.map .obj⟩ else s.heap b, next := s.next + 1 }

/-- The client releases its memory. -/
def freeBuffer (s : St T) (p : Ptr) : St T := { s with heap := fun b => if b = p.blk then none else s.heap b }

/-- The constructor call. -/
def ctor (dbg : Bool) (dflt : T) (w : SWorld T) : CInit → Option (Out T MArr)
  | .default n al => some (MArr.mkDefault dflt n al w.st)
  | .extents n es so al => some (MArr.mkExtents dflt n es so al w.st)
  | .gen n rs so al => some (MArr.mkExtentGen dflt ⟨n, rs⟩ so al w.st)
  | .copy y =>
    match w.vars y with
    | some (.owner a) => some (MArr.mkCopy dflt a w.st)
    | _ => none
  | .convert y ss so al => (w.lookup dbg y ss).map (fun d => MArr.mkConvert dbg dflt d so al w.st)

/-- `y[i]`. -/
def bracket (dbg : Bool) (w : SWorld T) (y : Nat) (i : Int) : Res SubObj :=
  match w.vars y with
  | some (.sub s) => s.bracket dbg w.scope i
  | _ => Scope.bracket dbg w.scope y i

/-- An operation that only changes memory. -/
def mem {α : Type} (w : SWorld T) (e : Exec T α) (obs : α → CObs T) : Option (CObs T × SWorld T) :=
  (Out.val? (e w.st)).map (fun r => (obs r.1, { w with st := r.2 }))

/-- One command on the model of the library; `none` if it throws, fails an assertion or is undefined. -/
def exec (dbg : Bool) (dflt : T) (eq lt : T → T → Bool) (w : SWorld T) : SCmd T → Option (CObs T × SWorld T)
  | .buffer x vs => some (.basic .unit, w.setVar x (some (.buffer ⟨w.st.next, 0⟩ vs.length)) (newBuffer w.st vs))
  | .construct x i => (w.ctor dbg dflt i).bind (fun r => (Out.val? r).map (fun r => (.basic .unit, w.setVar x (some (.owner r.1)) r.2)))
  | .refTo x y first n es so => (w.dataOf y).bind (fun p => (Res.val? (ARef.ofExtents n (p.add (first : Int)) es so)).map (fun a =>
      (.basic .unit, w.setVar x (some (.ref a)) w.st)))
  | .refGen x y first n rs so => (w.dataOf y).bind (fun p => (Res.val? (ARef.ofExtentGen (p.add (first : Int)) ⟨n, rs⟩ so)).map (fun a =>
      (.basic .unit, w.setVar x (some (.ref a)) w.st)))
  | .refCopy x y =>
    match w.vars y with
    | some (.owner a) => some (.basic .unit, w.setVar x (some (.ref a.ref)) w.st)
    | some (.ref a) => some (.basic .unit, w.setVar x (some (.ref a)) w.st)
    | _ => none
  | .hold x y ss xs => (w.lookup dbg y ss).bind (fun d => (Res.val? (do
      let g ← chainIndices IndexGen.empty xs
      d.slice dbg g)).map (fun v => (.basic .unit, w.setVar x (some (.view v)) w.st)))
  | .holdCopy x y =>
    match w.vars y with
    | some (.view v) => some (.basic .unit, w.setVar x (some (.view v)) w.st)
    | _ => none
  | .holdSub x y i =>
    (Res.val? (w.bracket dbg y i)).map (fun s => (.basic .unit, w.setVar x (some (.sub s)) w.st))
  | .destroy x =>
    match w.vars x with
    | some (.owner a) => (Out.val? (a.deallocateSpace w.st)).map (fun r => (.basic .unit, w.setVar x none r.2))
    | some (.buffer p _) => some (.basic .unit, w.setVar x none (freeBuffer w.st p))
    | _ => some (.basic .unit, w.setVar x none w.st)
  | .reindex x bs =>
    match w.vars x with
    | some (.owner a) => (Res.val? (a.ref.reindexList bs)).map (fun r => (.basic .unit, w.setVar x (some (.owner { a with ref := r })) w.st))
    | some (.ref a) => (Res.val? (a.reindexList bs)).map (fun r => (.basic .unit, w.setVar x (some (.ref r)) w.st))
    | some (.view v) => (Res.val? (v.reindexList bs)).map (fun r => (.basic .unit, w.setVar x (some (.view r)) w.st))
    | _ => none
  | .reshape x es =>
    match w.vars x with
    | some (.owner a) => (Res.val? (a.ref.reshape dbg es)).map (fun r => (.basic .unit, w.setVar x (some (.owner { a with ref := r })) w.st))
    | some (.ref a) => (Res.val? (a.reshape dbg es)).map (fun r => (.basic .unit, w.setVar x (some (.ref r)) w.st))
    | _ => none
  | .resize x rs =>
    match w.vars x with
    | some (.owner a) =>
      (Out.val? (MArr.resize dbg dflt ⟨a.ref.numDims, rs⟩ a w.st).1).map (fun r =>
        (.basic .unit, w.setVar x (some (.owner (MArr.resize dbg dflt ⟨a.ref.numDims, rs⟩ a w.st).2)) r.2))
    | _ => none
  | .fill x input =>
    match w.vars x with
    | some (.owner a) => w.mem (a.ref.assign input) (fun _ => .basic .unit)
    | some (.ref a) => w.mem (a.assign input) (fun _ => .basic .unit)
    | _ => none
  | .assign x ss y ss' => (w.lookup dbg x ss).bind (fun d => (w.lookup dbg y ss').bind (fun d' =>
      w.mem (assignOp dbg (decide (x = y) && ss.isEmpty && ss'.isEmpty) d d') (fun _ => .basic .unit)))
  | .copyArray x ss y ss' => (w.lookup dbg x ss).bind (fun d => (w.lookup dbg y ss').bind (fun d' =>
      w.mem (MultiArray.copyArray dbg d' d) (fun _ => .basic .unit)))
  | .read x ss idx => (w.lookup dbg x ss).bind (fun d => w.mem (readElem dbg d idx) (fun v => .basic (.value v)))
  | .write x ss idx v => (w.lookup dbg x ss).bind (fun d => w.mem (writeElem dbg d idx v) (fun _ => .basic .unit))
  | .forEach x ss f => (w.lookup dbg x ss).bind (fun d => w.mem (MultiArray.forEach dbg f d.extents.length d) (fun _ => .basic .unit))
  | .traverse x ss => (w.lookup dbg x ss).bind (fun d =>
      (Res.val? (nestedLoop dbg d.extents.sum d.extents.length d)).bind (fun ps => ps.bind (fun ps =>
        (ps.mapM (fun p => w.st.get? p)).map (fun vs => (.values vs, w)))))
  | .equal x ss y ss' => (w.lookup dbg x ss).bind (fun d => (w.lookup dbg y ss').bind (fun d' =>
      (Res.val? (equalRef dbg eq w.st d.extents.length d d')).map (fun b => (.bool b, w))))
  | .less x ss y ss' => (w.lookup dbg x ss).bind (fun d => (w.lookup dbg y ss').bind (fun d' =>
      (Res.val? (lessRef dbg lt w.st d.extents.length d d')).map (fun b => (.bool b, w))))
  | .shape x ss => (w.lookup dbg x ss).map (fun d => (.shape d.bases d.extents, w))

/-- Run a program on the model of the library. -/
def execAll (dbg : Bool) (dflt : T) (eq lt : T → T → Bool) : List (SCmd T) → SWorld T → Option (List (CObs T) × SWorld T)
  | [], w => some ([], w)
  | c :: cs, w => (w.exec dbg dflt eq lt c).bind (fun r => (execAll dbg dflt eq lt cs r.2).map (fun r' => (r.1 :: r'.1, r'.2)))

/-- The start: no variables, no storage. -/
def start : SWorld T := ⟨fun _ => none, ⟨fun _ => none, 1, []⟩⟩

end SWorld
end MultiArray.Spec
