import Verif.SpecMem

/-
The abstract array of C52: what a `multi_array` is for its user.  Nothing here models library code except `concStep`,
which only dispatches to the model functions.
-/
set_option autoImplicit false

namespace MultiArray.Spec
open MultiArray
variable {T : Type}

/-- An abstract array: shape, index bases, storage order, and the elements in storage sequence. -/
structure AbsArr (T : Type) where
  bases : List Int
  extents : List Nat
  order : StorageOrder
  vals : List T

/-- Zero-based position of an index tuple. -/
def posList (bases idx : List Int) : List Nat := List.zipWith (fun b i => (i - b).toNat) bases idx

/-- Mixed-radix numeral along a list of dimensions, the first one varying fastest; descending dimensions count backwards. -/
def placeFrom (asc : List Bool) (exts k : List Nat) : List Nat → Nat
  | [] => 0
  | d :: ds => (if asc.getD d true then k.getD d 0 else exts.getD d 0 - 1 - k.getD d 0) + exts.getD d 0 * placeFrom asc exts k ds

/-- Where in the storage sequence the element at zero-based position `k` is. -/
def place (so : StorageOrder) (exts k : List Nat) : Nat := placeFrom so.ascending exts k so.ordering

/-- The documented stride of dimension `d`: the product of the extents of the dimensions that vary faster, negative if
descending. -/
def strideOf (so : StorageOrder) (exts : List Nat) (d : Nat) : Int :=
  (if so.ascending.getD d true then 1 else -1) *
    ((so.ordering.takeWhile (fun x => decide (x ≠ d))).map (fun x => (exts.getD x 0 : Int))).prod

/-- Operations on one array. -/
inductive AOp (T : Type) where
  /-- `a(idx)` -/
  | read (idx : List Int)
  /-- `a[i1]...[in]` -/
  | readChain (idx : List Int)
  /-- `a(idx) = v` -/
  | write (idx : List Int) (v : T)
  /-- `a[i1]...[in] = v` -/
  | writeChain (idx : List Int) (v : T)
  | reindex (bs : List Int)
  | reindexAll (b : Int)
  | reshape (es : List Nat)
  /-- `a.assign(first,last)`; filling is assigning a sequence of equal values -/
  | assign (input : List T)
  /-- `for_each(a, f)` -/
  | forEach (f : T → T)
  | resize (rs : List ExtentRange)
  | resizeList (es : List Nat)
  /-- `num_dimensions(), size(), num_elements(), shape(), index_bases(), strides()` -/
  | query

/-- What an operation returns. -/
inductive Obs (T : Type) where
  | unit
  | value (v : T)
  | info (numDims size numElements : Nat) (shape : List Nat) (bases strides : List Int)
deriving DecidableEq

namespace AbsArr

/-- The elements after resizing to extents `es`: position by position, the old value or the default. -/
def resizedVals (dflt : T) (a : AbsArr T) (es : List Nat) : List T :=
  (List.range es.prod).map (fun p =>
    match (positions es).find? (fun k => decide (place a.order es k = p)) with
    | some k => if InShape a.extents k then a.vals.getD (place a.order a.extents k) dflt else dflt
    | none => dflt)

/-- The place of the element at `idx`. -/
def at_ (a : AbsArr T) (idx : List Int) : Nat := place a.order a.extents (posList a.bases idx)

/-- The abstract semantics of the operations. -/
def step (dflt : T) (a : AbsArr T) : AOp T → Option (Obs T × AbsArr T)
  | .read idx => (a.vals[a.at_ idx]?).map (fun v => (.value v, a))
  | .readChain idx => (a.vals[a.at_ idx]?).map (fun v => (.value v, a))
  | .write idx v => some (.unit, { a with vals := a.vals.set (a.at_ idx) v })
  | .writeChain idx v => some (.unit, { a with vals := a.vals.set (a.at_ idx) v })
  | .reindex bs => some (.unit, { a with bases := bs })
  | .reindexAll b => some (.unit, { a with bases := List.replicate a.extents.length b })
  | .reshape es => some (.unit, { a with extents := es })
  | .assign input => some (.unit, { a with vals := input.take a.vals.length ++ a.vals.drop input.length })
  | .forEach f => some (.unit, { a with vals := a.vals.map f })
  | .resize rs => some (.unit, ⟨reqBases rs, reqExtents rs, a.order, a.resizedVals dflt (reqExtents rs)⟩)
  | .resizeList es => some (.unit, ⟨List.replicate es.length 0, es, a.order, a.resizedVals dflt es⟩)
  | .query => some (.info a.extents.length (a.extents.headD 0) a.extents.prod a.extents a.bases
      ((List.range a.extents.length).map (strideOf a.order a.extents)), a)

/-- Preconditions, in terms of the abstract array only. -/
def Legal (a : AbsArr T) : AOp T → Prop
  | .read idx | .readChain idx | .write idx _ | .writeChain idx _ => InBox a.bases a.extents idx
  | .reindex bs => bs.length = a.extents.length
  | .reshape es => es.length = a.extents.length ∧ es.prod = a.extents.prod
  | .resize rs => rs.length = a.extents.length ∧ LegalExtents rs ∧ Representable a.bases a.extents
  | .resizeList es => es.length = a.extents.length ∧ (∀ e ∈ es, e ≤ 2 ^ 63 - 1) ∧ Representable a.bases a.extents
  | .reindexAll _ | .assign _ | .forEach _ => True
  | .query => a.extents ≠ []

/-- Run a sequence of operations, collecting what they return. -/
def run (dflt : T) : List (AOp T) → AbsArr T → Option (List (Obs T) × AbsArr T)
  | [], a => some ([], a)
  | op :: ops, a =>
    match a.step dflt op with
    | none => none
    | some (o, a') => (run dflt ops a').map (fun r => (o :: r.1, r.2))

/-- Every operation is legal where it is performed. -/
def LegalRun (dflt : T) : List (AOp T) → AbsArr T → Prop
  | [], _ => True
  | op :: ops, a => a.Legal op ∧ ∀ o a', a.step dflt op = some (o, a') → LegalRun dflt ops a'

end AbsArr

/-- The outcome of a computation that should complete. -/
def Out.val? {α : Type} : Out T α → Option (α × St T)
  | .ok v s => some (v, s)
  | _ => none

/-- The value of a computation that should succeed. -/
def Res.val? {α : Type} : Res α → Option α
  | .ok v => some v
  | _ => none

/-- The same operations on the model of the library; `none` if one throws, fails an assertion or is undefined. -/
def concStep (dbg : Bool) (dflt : T) (a : MArr) (s : St T) : AOp T → Option (Obs T × MArr × St T)
  | .read idx => (Out.val? (readElem dbg a.ref.desc idx s)).map (fun r => (.value r.1, a, r.2))
  | .readChain idx => (Out.val? (MultiArray.readChain dbg a.ref.desc idx s)).map (fun r => (.value r.1, a, r.2))
  | .write idx v => (Out.val? (writeElem dbg a.ref.desc idx v s)).map (fun r => (.unit, a, r.2))
  | .writeChain idx v => (Out.val? (MultiArray.writeChain dbg a.ref.desc idx v s)).map (fun r => (.unit, a, r.2))
  | .reindex bs => (Res.val? (a.ref.reindexList bs)).map (fun ref => (.unit, { a with ref := ref }, s))
  | .reindexAll b => some (.unit, { a with ref := a.ref.reindexAll b }, s)
  | .reshape es => (Res.val? (a.ref.reshape dbg es)).map (fun ref => (.unit, { a with ref := ref }, s))
  | .assign input => (Out.val? (a.ref.assign input s)).map (fun r => (.unit, a, r.2))
  | .forEach f => (Out.val? (MultiArray.forEach dbg f a.ref.desc.extents.length a.ref.desc s)).map (fun r => (.unit, a, r.2))
  | .resize rs =>
    let r := MArr.resize dbg dflt ⟨a.ref.numDims, rs⟩ a s
    (Out.val? r.1).map (fun q => (.unit, r.2, q.2))
  | .resizeList es =>
    let r := MArr.resizeExtents dbg dflt es a s
    (Out.val? r.1).map (fun q => (.unit, r.2, q.2))
  | .query => (Res.val? a.ref.size).map
      (fun sz => (.info a.ref.numDims sz a.ref.numElements a.ref.extents a.ref.bases a.ref.strides, a, s))

/-- Run a sequence of operations on the model of the library. -/
def concRun (dbg : Bool) (dflt : T) : List (AOp T) → MArr → St T → Option (List (Obs T) × MArr × St T)
  | [], a, s => some ([], a, s)
  | op :: ops, a, s =>
    match concStep dbg dflt a s op with
    | none => none
    | some (o, a', s') => (concRun dbg dflt ops a' s').map (fun r => (o :: r.1, r.2))

/-- The concrete array `a` in memory `s` represents the abstract array `abs`. -/
structure Represents (s : St T) (a : MArr) (abs : AbsArr T) : Prop where
  owns : OwnsVals s abs.extents.length a abs.vals
  bases : a.ref.bases = abs.bases
  extents : a.ref.extents = abs.extents
  order : a.ref.storage = abs.order
  sane : SaneHeap s
  sched : s.sched = []

end MultiArray.Spec
